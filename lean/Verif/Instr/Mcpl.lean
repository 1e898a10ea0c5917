import Verif.Instr.McplModel
import Verif.Instr.Split
import Verif.Instr.Props

/-! Property C73: splitting an instrument for MCPL files; C74: instances made by `make_instance`. -/

namespace Verif.Instr
open Verif.Orient
variable {E X : Type}

theorem filter_one {α : Type} (name : α → String) (before after : List α) (x : α)
    (hn : ((before ++ x :: after).map name).Nodup) :
    (List.range (before ++ x :: after).length).filter
      (fun k => ((before ++ x :: after)[k]?).map name == some (name x)) = [before.length] := by
  have hx : ((before ++ x :: after).map name)[before.length]? = some (name x) := by simp
  have hall : ∀ k, ((before ++ x :: after)[k]?).map name = some (name x) → k = before.length := by
    intro k hk
    rw [← List.getElem?_map] at hk
    have h1 := idxOf?_getElem hn _ _ hk
    rw [idxOf?_getElem hn _ _ hx, Option.some.injEq] at h1
    exact h1.symm
  have hmem : before.length ∈ (List.range (before ++ x :: after).length).filter
      (fun k => ((before ++ x :: after)[k]?).map name == some (name x)) := by
    rw [List.mem_filter, List.mem_range]
    simp
  have hnd := (List.nodup_range (n := (before ++ x :: after).length)).filter
      (fun k => ((before ++ x :: after)[k]?).map name == some (name x))
  have hall' : ∀ k ∈ (List.range (before ++ x :: after).length).filter
      (fun k => ((before ++ x :: after)[k]?).map name == some (name x)), k = before.length := by
    intro k hk
    rw [List.mem_filter, beq_iff_eq] at hk
    exact hall k hk.2
  generalize (List.range (before ++ x :: after).length).filter
      (fun k => ((before ++ x :: after)[k]?).map name == some (name x)) = l at *
  match l, hall', hmem, hnd with
  | [a], hall, _, _ => rw [hall a (by simp)]
  | a :: b :: l, hall, _, hnd =>
    have h1 := hall a (by simp)
    have h2 := hall b (by simp)
    subst h1
    simp [h2] at hnd

/-- The parameters kept. -/
def kept (used : List (FInst E X) → String → Bool) (remove : Bool) (comps : List (FInst E X)) (ps : List (Named X)) :
    List (Named X) :=
  if remove then ps.filter fun p => used comps p.1 else ps

theorem keepUsed_eq (used : List (FInst E X) → String → Bool) (remove : Bool) (i : FInstr E X) :
    keepUsed used remove i = { i with parameters := kept used remove i.components i.parameters } := by
  unfold keepUsed kept
  split <;> rfl

/-- The components of the second part. -/
noncomputable def secondOf (l : List (FInst E X)) : List (FInst E X) :=
  l.map fun c => ⟨reReference (l.map FInst.name) c.place.copy, c.body⟩

theorem split_full (used : List (FInst E X) → String → Bool) (remove : Bool) (i : FInstr E X) (before after : List (FInst E X))
    (x : FInst E X) (hc : i.components = before ++ x :: after) (hn : (i.components.map FInst.name).Nodup) :
    i.split used remove x.name = .ok
      ({ i with name := i.name ++ "_first", components := (before ++ [x]).map FInst.copy,
                parameters := kept used remove ((before ++ [x]).map FInst.copy) i.parameters },
       { i with name := i.name ++ "_second", components := secondOf (x :: after),
                parameters := kept used remove (secondOf (x :: after)) i.parameters }) := by
  have hf := filter_one FInst.name before after x (hc ▸ hn)
  have ht : (before ++ x :: after).take (before.length + 1) = before ++ [x] := by
    rw [List.take_append]; simp
  have hd : (before ++ x :: after).drop before.length = x :: after := by simp
  have hs : List.map (fun c => (⟨reReference (List.map FInst.name (List.map FInst.copy (x :: after))) c.place, c.body⟩ : FInst E X))
      (List.map FInst.copy (x :: after)) = secondOf (x :: after) := by
    have hnm : List.map FInst.name (List.map FInst.copy (x :: after)) = List.map FInst.name (x :: after) := by
      rw [List.map_map]; rfl
    rw [hnm, secondOf, List.map_map]
    rfl
  simp only [FInstr.split, hc, hf, ht, hd, keepUsed_eq]
  rw [hs]

theorem any_name {l : List (FInst E X)} {n : String} : (l.any fun x => x.name == n) = true ↔ n ∈ l.map FInst.name := by
  simp [List.any_eq_true]

theorem forget_name (n : String) (c : FInst E X) : (forget n c).name = c.name := rfl

theorem forget_names (n : String) (l : List (FInst E X)) : (l.map (forget n)).map FInst.name = l.map FInst.name := by
  rw [List.map_map]; rfl

theorem secondOf_names (l : List (FInst E X)) : (secondOf l).map FInst.name = l.map FInst.name := by
  rw [secondOf, List.map_map]
  exact List.map_congr_left fun i _ => reReference_name _ _

/-- The instance with which the second part begins: the component of the split point at its own place. -/
noncomputable def startOf (l : List (FInst E X)) (x : FInst E X) : SInst E := reReference (l.map FInst.name) x.place.copy

theorem secondOf_cons (x : FInst E X) (after : List (FInst E X)) :
    secondOf (x :: after) = ⟨startOf (x :: after) x, x.body⟩ ::
      after.map fun c => ⟨reReference ((x :: after).map FInst.name) c.place.copy, c.body⟩ := rfl

/-- The instance made for the input. -/
noncomputable def inputPlace (l : List (FInst E X)) (x : FInst E X) : SInst E :=
  { startOf l x with
    orientation := newOrientation (fun r => ((secondOf l).find? (·.name == r.name)).map fun c => c.place.orientation) (startOf l x) }

/-- What `mcpl_split` does, as an equation. -/
theorem mcpl_eq (w : World E X) (i : FInstr E X) (a : McplArgs X) (before after : List (FInst E X)) (x : FInst E X)
    (hc : i.components = before ++ x :: after) (hn : (i.components.map FInst.name).Nodup) (q : List Char)
    (hq : quotedName i.name a.filename = .ok q) :
    i.mcplSplit w x.name a =
      match w.parse q with
      | .error e => .error e
      | .ok v =>
        if "mcpl_filename" ∈ (kept w.used a.remove ((before ++ [x]).map FInst.copy) i.parameters).map (·.1) ∨
            "mcpl_filename" ∈ (kept w.used a.remove (secondOf (x :: after)) i.parameters).map (·.1) then .error .runtimeError
        else
          match (a.output.getD (.named "MCPL_output")).get w.read with
          | .error e => .error e
          | .ok (t1, f1) =>
            match (a.input.getD (.named "MCPL_input")).get w.read with
            | .error e => .error e
            | .ok (t2, f2) => .ok
              ({ name := i.name ++ "_first"
                 parameters := kept w.used a.remove ((before ++ [x]).map FInst.copy) i.parameters ++ [("mcpl_filename", v)]
                 components := (before.map fun c => forget x.name c.copy) ++
                   [⟨x.place.copy, { type := t1, parameters := outParameters w a, cpu := !t1.acc }⟩]
                 flags := i.flags ++ f1 },
               { name := i.name ++ "_second"
                 parameters := kept w.used a.remove (secondOf (x :: after)) i.parameters ++ [("mcpl_filename", v)]
                 components := ⟨inputPlace (x :: after) x, { type := t2, parameters := inParameters w a, cpu := !t2.acc }⟩ ::
                   (secondOf (x :: after)).tail.map (forget x.name)
                 flags := i.flags ++ f2 }) := by
  have hnd := hn
  rw [hc, List.map_append, List.map_cons] at hnd
  have hb : x.name ∉ before.map FInst.name := fun h => by
    have := (List.nodup_append.1 hnd).2.2 _ h _ List.mem_cons_self
    exact this rfl
  have ha : x.name ∉ after.map FInst.name := (List.nodup_cons.1 (List.nodup_append.1 hnd).2.1).1
  have h1 : ∀ l : List (FInst E X), x.name ∉ l.map FInst.name → (l.any fun y => y.name == x.name) = false := by
    intro l hl
    rw [Bool.eq_false_iff]
    intro h
    exact hl (any_name.1 h)
  rw [FInstr.mcplSplit, hq, split_full w.used a.remove i before after x hc hn]
  simp only [bind, Except.bind, pure, Except.pure]
  cases hv : w.parse q with
  | error e => rfl
  | ok v =>
    simp only
    generalize hk1 : kept w.used a.remove ((before ++ [x]).map FInst.copy) i.parameters = k1
    generalize hk2 : kept w.used a.remove (secondOf (x :: after)) i.parameters = k2
    simp only [FInstr.addParameter]
    by_cases p1 : "mcpl_filename" ∈ k1.map (·.1)
    · have p1' := (present_iff k1 "mcpl_filename").2 p1
      have hor : ("mcpl_filename" ∈ k1.map (·.1) ∨ "mcpl_filename" ∈ k2.map (·.1)) := .inl p1
      simp only [p1', if_true, if_pos hor]
    · have p1' := (present_false_iff k1 "mcpl_filename").2 p1
      by_cases p2 : "mcpl_filename" ∈ k2.map (·.1)
      · have p2' := (present_iff k2 "mcpl_filename").2 p2
        have hor : ("mcpl_filename" ∈ k1.map (·.1) ∨ "mcpl_filename" ∈ k2.map (·.1)) := .inr p2
        simp only [p1', p2', if_true, if_pos hor, Bool.false_eq_true, if_false]
      · have p2' := (present_false_iff k2 "mcpl_filename").2 p2
        have hor : ¬ ("mcpl_filename" ∈ k1.map (·.1) ∨ "mcpl_filename" ∈ k2.map (·.1)) := by
          rintro (h | h)
          · exact p1 h
          · exact p2 h
        simp only [p1', p2', if_neg hor, Bool.false_eq_true, if_false]
        have hlast : ((before ++ [x]).map FInst.copy).getLast? = some x.copy := by simp
        have hdl : ((before ++ [x]).map FInst.copy).dropLast = before.map FInst.copy := by simp
        have hfree : (((before.map FInst.copy).map (forget x.name)).any fun y => y.name == x.name) = false := by
          apply h1
          rw [forget_names, List.map_map]
          exact hb
        have hname : x.copy.name = x.name := rfl
        have hpl : x.copy.place.name = x.name := rfl
        simp only [mcplFirst, hlast, hdl, FInstr.makeInstance, hname, hpl, hfree]
        cases ho : (a.output.getD (.named "MCPL_output")).get w.read with
        | error e => rfl
        | ok r1 =>
          obtain ⟨t1, f1⟩ := r1
          have hst : (startOf (x :: after) x).name = x.name := reReference_name _ _
          have hfree2 : (((secondOf (x :: after)).tail.map (forget x.name)).any fun y => y.name == x.name) = false := by
            apply h1
            rw [forget_names, List.map_tail, secondOf_names]
            exact ha
          simp only [Option.getD_none, bne_self_eq_false, Bool.false_or, Bool.false_eq_true, if_false]
          generalize hs : secondOf (x :: after) = s at *
          have hs' := hs
          rw [secondOf_cons] at hs'
          obtain ⟨rest, hrest⟩ : ∃ rest, s = ⟨startOf (x :: after) x, x.body⟩ :: rest := ⟨_, hs'.symm⟩
          have hin : inputPlace (x :: after) x = { startOf (x :: after) x with
              orientation := newOrientation (fun r => (s.find? (·.name == r.name)).map fun c => c.place.orientation)
                (startOf (x :: after) x) } := by
            rw [inputPlace, hs]
          rw [hin]
          subst hrest
          have hnm : FInst.name (⟨startOf (x :: after) x, x.body⟩ : FInst E X) = x.name := hst
          simp only [List.tail_cons] at hfree2 ⊢
          simp only [mcplSecond, FInstr.makeInstance, hnm, hst, hfree2]
          cases hi : (a.input.getD (.named "MCPL_input")).get w.read with
          | error e => rfl
          | ok r2 =>
            obtain ⟨t2, f2⟩ := r2
            simp
            rfl

theorem split_missing (used : List (FInst E X) → String → Bool) (remove : Bool) (i : FInstr E X) (n : String)
    (h : n ∉ i.components.map FInst.name) : i.split used remove n = .error .runtimeError := by
  have : (List.range i.components.length).filter (fun k => (i.components[k]?).map FInst.name == some n) = [] := by
    rw [List.filter_eq_nil_iff]
    intro k _ hk
    rw [beq_iff_eq, ← List.getElem?_map] at hk
    exact h (List.mem_of_getElem? hk)
  simp only [FInstr.split, this]

theorem mem_split {l : List (FInst E X)} {n : String} (h : n ∈ l.map FInst.name) :
    ∃ before x after, l = before ++ x :: after ∧ x.name = n := by
  obtain ⟨x, hx, rfl⟩ := List.mem_map.1 h
  obtain ⟨before, after, rfl⟩ := List.append_of_mem hx
  exact ⟨before, x, after, rfl, rfl⟩

/-- The result of `mcpl_split`, and when there is one. -/
theorem mcpl_ok (w : World E X) (i : FInstr E X) (a : McplArgs X) (n : String) (hn : (i.components.map FInst.name).Nodup)
    (r : FInstr E X × FInstr E X) :
    i.mcplSplit w n a = .ok r ↔ ∃ before x after q v t1 f1 t2 f2, i.components = before ++ x :: after ∧ x.name = n ∧
      quotedName i.name a.filename = .ok q ∧ w.parse q = .ok v ∧
      "mcpl_filename" ∉ (kept w.used a.remove ((before ++ [x]).map FInst.copy) i.parameters).map (·.1) ∧
      "mcpl_filename" ∉ (kept w.used a.remove (secondOf (x :: after)) i.parameters).map (·.1) ∧
      (a.output.getD (.named "MCPL_output")).get w.read = .ok (t1, f1) ∧
      (a.input.getD (.named "MCPL_input")).get w.read = .ok (t2, f2) ∧
      r = ({ name := i.name ++ "_first"
             parameters := kept w.used a.remove ((before ++ [x]).map FInst.copy) i.parameters ++ [("mcpl_filename", v)]
             components := (before.map fun c => forget x.name c.copy) ++
               [⟨x.place.copy, { type := t1, parameters := outParameters w a, cpu := !t1.acc }⟩]
             flags := i.flags ++ f1 },
           { name := i.name ++ "_second"
             parameters := kept w.used a.remove (secondOf (x :: after)) i.parameters ++ [("mcpl_filename", v)]
             components := ⟨inputPlace (x :: after) x, { type := t2, parameters := inParameters w a, cpu := !t2.acc }⟩ ::
               (secondOf (x :: after)).tail.map (forget x.name)
             flags := i.flags ++ f2 }) := by
  constructor
  · intro h
    cases hq : quotedName i.name a.filename with
    | error e =>
      rw [FInstr.mcplSplit, hq] at h
      cases h
    | ok q =>
      by_cases hm : n ∈ i.components.map FInst.name
      · obtain ⟨before, x, after, hc, rfl⟩ := mem_split hm
        rw [mcpl_eq w i a before after x hc hn q hq] at h
        cases hv : w.parse q with
        | error e => rw [hv] at h; cases h
        | ok v =>
          rw [hv] at h
          simp only at h
          split at h
          · cases h
          · rename_i hor
            cases ho : (a.output.getD (.named "MCPL_output")).get w.read with
            | error e => rw [ho] at h; cases h
            | ok r1 =>
              obtain ⟨t1, f1⟩ := r1
              rw [ho] at h
              simp only at h
              cases hi : (a.input.getD (.named "MCPL_input")).get w.read with
              | error e => rw [hi] at h; cases h
              | ok r2 =>
                obtain ⟨t2, f2⟩ := r2
                rw [hi] at h
                simp only [Except.ok.injEq] at h
                exact ⟨before, x, after, q, v, t1, f1, t2, f2, hc, rfl, rfl, hv, fun h => hor (.inl h), fun h => hor (.inr h),
                  rfl, rfl, h.symm⟩
      · rw [FInstr.mcplSplit, hq, split_missing _ _ _ _ hm] at h
        cases h
  · rintro ⟨before, x, after, q, v, t1, f1, t2, f2, hc, rfl, hq, hv, p1, p2, ho, hi, rfl⟩
    rw [mcpl_eq w i a before after x hc hn q hq]
    have hor : ¬ ("mcpl_filename" ∈ (kept w.used a.remove ((before ++ [x]).map FInst.copy) i.parameters).map (·.1) ∨
        "mcpl_filename" ∈ (kept w.used a.remove (secondOf (x :: after)) i.parameters).map (·.1)) := by
      rintro (h | h)
      · exact p1 h
      · exact p2 h
    simp only [hv, if_neg hor, ho, hi]

/-- The parameters given, after those needed that are not among them. -/
def Completed (given : Option (List (Named X))) (needed : List (Named X)) (l : List (Named X)) : Prop :=
  ∃ front, l = front ++ given.getD [] ∧ (front.map (·.1)).Nodup ∧
    ∀ p, p ∈ front ↔ p ∈ needed ∧ p.1 ∉ (given.getD []).map (·.1)

theorem any_eq_name {l : List (Named X)} {n : String} : l.any (fun p => p.1 == n) = true ↔ n ∈ l.map (·.1) := by
  simp only [List.any_eq_true, beq_iff_eq, List.mem_map]

theorem outParameters_completed (w : World E X) (a : McplArgs X) :
    Completed a.outputParameters [("filename", w.filenameValue)] (outParameters w a) := by
  unfold outParameters
  cases h : a.outputParameters with
  | none => exact ⟨[("filename", w.filenameValue)], rfl, by simp, by simp⟩
  | some l =>
    simp only [any_eq_name]
    split
    · rename_i hm
      refine ⟨[], rfl, by simp, ?_⟩
      intro p
      simp only [List.not_mem_nil, List.mem_singleton, Option.getD_some, false_iff, not_and, not_not]
      rintro rfl
      exact hm
    · rename_i hm
      refine ⟨[("filename", w.filenameValue)], rfl, by simp, ?_⟩
      intro p
      simp only [List.mem_singleton, Option.getD_some, iff_self_and]
      rintro rfl
      exact hm

theorem inParameters_completed (w : World E X) (a : McplArgs X) :
    Completed a.inputParameters [("verbose", w.verboseValue), ("filename", w.filenameValue)] (inParameters w a) := by
  have key : ∀ l : List (Named X), ∀ l', l' = (if "filename" ∈ l.map (·.1) then l else ("filename", w.filenameValue) :: l) →
      Completed (some l) [("verbose", w.verboseValue), ("filename", w.filenameValue)]
        (if "verbose" ∈ l'.map (·.1) then l' else ("verbose", w.verboseValue) :: l') := by
    rintro l l' rfl
    by_cases h1 : "filename" ∈ l.map (·.1)
    · simp only [if_pos h1]
      by_cases h2 : "verbose" ∈ l.map (·.1)
      · simp only [if_pos h2]
        refine ⟨[], rfl, by simp, ?_⟩
        intro p
        simp only [List.not_mem_nil, List.mem_cons, or_false, Option.getD_some, false_iff, not_and, not_not]
        rintro (rfl | rfl)
        · exact h2
        · exact h1
      · simp only [if_neg h2]
        refine ⟨[("verbose", w.verboseValue)], rfl, by simp, ?_⟩
        intro p
        simp only [List.mem_cons, List.not_mem_nil, or_false, Option.getD_some]
        constructor
        · rintro rfl; exact ⟨.inl rfl, h2⟩
        · rintro ⟨rfl | rfl, h⟩
          · rfl
          · exact absurd h1 h
    · simp only [if_neg h1]
      by_cases h2 : "verbose" ∈ l.map (·.1)
      · rw [if_pos (by simp only [List.map_cons, List.mem_cons]; exact .inr h2)]
        refine ⟨[("filename", w.filenameValue)], rfl, by simp, ?_⟩
        intro p
        simp only [List.mem_cons, List.not_mem_nil, or_false, Option.getD_some]
        constructor
        · rintro rfl; exact ⟨.inr rfl, h1⟩
        · rintro ⟨rfl | rfl, h⟩
          · exact absurd h2 h
          · rfl
      · rw [if_neg (by
          simp only [List.map_cons, List.mem_cons, not_or]
          exact ⟨by decide, h2⟩)]
        refine ⟨[("verbose", w.verboseValue), ("filename", w.filenameValue)], rfl, by simp, ?_⟩
        intro p
        simp only [List.mem_cons, List.not_mem_nil, or_false, Option.getD_some, iff_self_and]
        rintro (rfl | rfl)
        · exact h2
        · exact h1
  unfold inParameters
  cases h : a.inputParameters with
  | none =>
    simp only [any_eq_name]
    simpa [Completed] using key [] _ rfl
  | some l =>
    simp only [any_eq_name]
    exact key l _ rfl

/-- C73 (structure): the first part has the components up to the split point, in order, the second those from it on; in both the
component at the split point is replaced by an instance of the component that writes or reads the file, of the same name. All
other components keep everything that is not their placement. Those that write and read the file have the parameters given, and
the file name if it is not among them. Both parts get the parameter `mcpl_filename`, whose value is the quoted file name, after
the parameters they have. -/
theorem mcpl_split_parts (w : World E X) (i : FInstr E X) (a : McplArgs X) (n : String)
    (hn : (i.components.map FInst.name).Nodup) (f s : FInstr E X) (h : i.mcplSplit w n a = .ok (f, s)) :
    ∃ before x after t1 t2 v pout pin q,
      i.components = before ++ x :: after ∧ x.name = n ∧
      quotedName i.name a.filename = .ok q ∧ w.parse q = .ok v ∧
      Completed a.outputParameters [("filename", w.filenameValue)] pout ∧
      Completed a.inputParameters [("verbose", w.verboseValue), ("filename", w.filenameValue)] pin ∧
      f.components.map FInst.name = (before ++ [x]).map FInst.name ∧
      s.components.map FInst.name = (x :: after).map FInst.name ∧
      f.components.map FInst.body = before.map FInst.body ++
        [{ type := t1, parameters := pout, cpu := !t1.acc }] ∧
      s.components.map FInst.body =
        { type := t2, parameters := pin, cpu := !t2.acc } :: after.map FInst.body ∧
      (∃ l, l.Sublist i.parameters ∧ (a.remove = false → l = i.parameters) ∧ f.parameters = l ++ [("mcpl_filename", v)]) ∧
      (∃ l, l.Sublist i.parameters ∧ (a.remove = false → l = i.parameters) ∧ s.parameters = l ++ [("mcpl_filename", v)]) ∧
      (∃ fl, (a.output.getD (.named "MCPL_output")).get w.read = .ok (t1, fl) ∧ f.flags = i.flags ++ fl) ∧
      (∃ fl, (a.input.getD (.named "MCPL_input")).get w.read = .ok (t2, fl) ∧ s.flags = i.flags ++ fl) := by
  obtain ⟨before, x, after, q, v, t1, f1, t2, f2, hc, hx, hq, hv, p1, p2, ho, hi, he⟩ := (mcpl_ok w i a n hn (f, s)).1 h
  simp only [Prod.mk.injEq] at he
  obtain ⟨rfl, rfl⟩ := he
  have hk : ∀ l, (kept w.used a.remove l i.parameters).Sublist i.parameters ∧
      (a.remove = false → kept w.used a.remove l i.parameters = i.parameters) := by
    intro l
    unfold kept
    split
    · rename_i hr
      exact ⟨List.filter_sublist, fun h => by rw [hr] at h; cases h⟩
    · exact ⟨List.Sublist.refl _, fun _ => rfl⟩
  refine ⟨before, x, after, t1, t2, v, _, _, q, hc, hx, hq, hv, outParameters_completed w a, inParameters_completed w a, ?_, ?_, ?_, ?_, ⟨_, (hk _).1, (hk _).2, rfl⟩, ⟨_, (hk _).1, (hk _).2, rfl⟩,
    ⟨f1, ho, rfl⟩, ⟨f2, hi, rfl⟩⟩
  · simp only [List.map_append, List.map_map]
    rfl
  · simp only [List.map_cons]
    congr 1
    · exact reReference_name _ _
    · rw [forget_names, List.map_tail, secondOf_names]
      rfl
  · simp only [List.map_append, List.map_map]
    rfl
  · simp only [List.map_cons]
    congr 1
    rw [secondOf_cons]
    simp only [List.tail_cons, List.map_map]
    rfl

/-- C73: `mcpl_split` returns exactly if the file name is not empty and can be read as the value of a parameter, the name is that
of an instance, no parameter called `mcpl_filename` is kept and the two component types can be read. -/
theorem mcpl_split_succeeds (w : World E X) (i : FInstr E X) (a : McplArgs X) (n : String)
    (hn : (i.components.map FInst.name).Nodup) (hr : a.remove = false) :
    (∃ r, i.mcplSplit w n a = .ok r) ↔
      (∃ q v, quotedName i.name a.filename = .ok q ∧ w.parse q = .ok v) ∧ n ∈ i.components.map FInst.name ∧
      "mcpl_filename" ∉ i.parameters.map (·.1) ∧
      (∃ t, (a.output.getD (.named "MCPL_output")).get w.read = .ok t) ∧
      (∃ t, (a.input.getD (.named "MCPL_input")).get w.read = .ok t) := by
  have hk : ∀ l, kept w.used a.remove l i.parameters = i.parameters := by
    intro l
    simp [kept, hr]
  constructor
  · rintro ⟨r, h⟩
    obtain ⟨before, x, after, q, v, t1, f1, t2, f2, hc, hx, hq, hv, p1, p2, ho, hi, he⟩ := (mcpl_ok w i a n hn r).1 h
    rw [hk] at p1
    refine ⟨⟨q, v, hq, hv⟩, ?_, p1, ⟨_, ho⟩, ⟨_, hi⟩⟩
    rw [hc, ← hx]
    simp
  · rintro ⟨⟨q, v, hq, hv⟩, hm, hp, ⟨⟨t1, f1⟩, ho⟩, ⟨⟨t2, f2⟩, hi⟩⟩
    obtain ⟨before, x, after, hc, hx⟩ := mem_split hm
    exact ⟨_, (mcpl_ok w i a n hn _).2 ⟨before, x, after, q, v, t1, f1, t2, f2, hc, hx, hq, hv, by rwa [hk], by rwa [hk], ho, hi,
      rfl⟩⟩

/-- The file name is refused only if it is empty; it is put between quotes unless it is already. -/
theorem quotedName_spec (name : String) (f : List Char) :
    (f = [] → quotedName name (some f) = .error .indexError) ∧
    (∀ g, f = '"' :: (g ++ ['"']) → quotedName name (some f) = .ok f) ∧
    (f ≠ [] → (f.head? ≠ some '"' ∨ f.getLast? ≠ some '"') → quotedName name (some f) = .ok ('"' :: (f ++ ['"']))) ∧
    quotedName name none ≠ .error .indexError := by
  refine ⟨?_, ?_, ?_, ?_⟩
  · rintro rfl; rfl
  · rintro g rfl
    have h1 : ('"' :: (g ++ ['"'])).getLast? = some '"' := by
      rw [← List.cons_append, List.getLast?_append]
      rfl
    simp only [quotedName, Option.getD_some, List.head?_cons, h1]
    simp
  · intro hne h
    obtain ⟨c, hc⟩ : ∃ c, f.head? = some c := by cases f with
      | nil => exact absurd rfl hne
      | cons c l => exact ⟨c, rfl⟩
    obtain ⟨d, hd⟩ : ∃ d, f.getLast? = some d := ⟨f.getLast hne, List.getLast?_eq_some_getLast hne⟩
    rw [hc, hd] at h
    simp only [quotedName, Option.getD_some, hc, hd]
    rw [if_pos]
    simpa using h
  · have hne : name.toList ++ ".mcpl".toList ≠ [] := by simp
    obtain ⟨c, hc⟩ : ∃ c, (name.toList ++ ".mcpl".toList).head? = some c := by
      cases h : name.toList ++ ".mcpl".toList with
      | nil => exact absurd h hne
      | cons c l => exact ⟨c, rfl⟩
    have hd := List.getLast?_eq_some_getLast hne
    simp only [quotedName, Option.getD_none, hc, hd]
    simp

/-! ### Placement -/

/-- What is said about the placement of an instance in a text: references by name. -/
def said (i : SInst E) : String × Vec (Sc E) × Option String × Vec (Sc E) × Option String :=
  (i.name, i.at_, i.atRef.map Ref.name, i.rot, i.rotRef.map Ref.name)

theorem toInsts_said (l k : List (SInst E)) (h : l.map said = k.map said) : toInsts l = toInsts k := by
  have hnames : ∀ m : List (SInst E), m.map SInst.name = (m.map said).map (·.1) := by
    intro m
    rw [List.map_map]; rfl
  have hto : ∀ m : List (SInst E), toInsts m = (m.map said).map fun p =>
      (⟨p.2.1, p.2.2.1.bind fun r => ((m.map said).map (·.1)).idxOf? r, p.2.2.2.1,
        p.2.2.2.2.bind fun r => ((m.map said).map (·.1)).idxOf? r⟩ : Inst E) := by
    intro m
    rw [toInsts, hnames]
    generalize (m.map said).map (·.1) = names
    rw [List.map_map]
    apply List.map_congr_left
    intro i _
    simp only [toInst, said, Function.comp]
    cases i.atRef <;> cases i.rotRef <;> rfl
  rw [hto, hto, h]

theorem forget_said (n : String) (c : FInst E X) : said (forget n c).place = said c.place := by
  have hm : ∀ o : Option Ref, (o.map fun r => if r.name = n then (⟨r.name, false⟩ : Ref) else r).map Ref.name = o.map Ref.name := by
    intro o
    cases o with
    | none => rfl
    | some r =>
      simp only [Option.map_some]
      split <;> rfl
  simp only [said, forget, hm]

/-- C73 (placement, partial): the generated programs of the two parts place every component where the program of the whole
instrument places it; the components that write and read the file are placed as the component at the split point. Missing: what
is missing from C24 `split_placement_partial`. -/
theorem mcpl_split_placement_partial (e : E) (w : World E X) (i : FInstr E X) (a : McplArgs X) (n : String)
    (hw : WellFormed (i.components.map FInst.place)) (hi : ∀ c ∈ toInsts (i.components.map FInst.place), Agreeing c)
    (f s : FInstr E X) (h : i.mcplSplit w n a = .ok (f, s))
    (hr : ∀ c ∈ i.components, ∀ r, c.place.rotRef = some r → r.name ∉ s.components.map FInst.name →
      Recoverable c.place.orientation) :
    ∃ before after : List Placed, ∃ x : Placed,
      cPlaceAll e (toInsts (i.components.map FInst.place)) = before ++ x :: after ∧
      before.length + 1 = f.components.length ∧
      cPlaceAll e (toInsts (f.components.map FInst.place)) = before ++ [x] ∧
      cPlaceAll e (toInsts (s.components.map FInst.place)) = x :: after := by
  have hn : (i.components.map FInst.name).Nodup := by
    have := hw.nodup
    rw [List.map_map] at this
    exact this
  obtain ⟨before, x, after, q, v, t1, f1, t2, f2, hc, rfl, hq, hv, p1, p2, ho, hin, he⟩ := (mcpl_ok w i a n hn (f, s)).1 h
  simp only [Prod.mk.injEq] at he
  obtain ⟨rfl, rfl⟩ := he
  -- the same split without what instances hold besides their placement
  have hsplit : split (i.components.map FInst.place) x.name =
      some (((before ++ [x]).map FInst.copy).map FInst.place, (secondOf (x :: after)).map FInst.place) := by
    have hmap : i.components.map FInst.place = before.map FInst.place ++ x.place :: after.map FInst.place := by
      rw [hc]; simp
    have hnd : ((before.map FInst.place ++ x.place :: after.map FInst.place).map SInst.name).Nodup := by
      rw [← hmap]; exact hw.nodup
    have hf := filter_one SInst.name (before.map FInst.place) (after.map FInst.place) x.place hnd
    have hx : x.name = x.place.name := rfl
    simp only [split, hmap, hx, hf]
    congr 2
    · simp only [copyComponents, List.drop_zero]
      have ht : (before.map FInst.place ++ x.place :: after.map FInst.place).take ((before.map FInst.place).length + 1) =
          (before ++ [x]).map FInst.place := by
        rw [List.take_append]; simp
      rw [ht, List.map_map, List.map_map]
      rfl
    · simp only [copyComponents, List.take_length, copy_names]
      have hd : (before.map FInst.place ++ x.place :: after.map FInst.place).drop (before.map FInst.place).length =
          (x :: after).map FInst.place := by simp
      rw [hd, secondOf, List.map_map, List.map_map, List.map_map, List.map_map]
      rfl
  have hs : (s' : List (SInst E)) → s' = (secondOf (x :: after)).map FInst.place →
      s'.map SInst.name = (x :: after).map FInst.name := by
    rintro _ rfl
    rw [List.map_map]
    exact secondOf_names _
  have hsnames : (⟨inputPlace (x :: after) x, { type := t2, parameters := inParameters w a, cpu := !t2.acc }⟩ ::
      (secondOf (x :: after)).tail.map (forget x.name) : List (FInst E X)).map FInst.name = (x :: after).map FInst.name := by
    simp only [List.map_cons]
    congr 1
    · exact reReference_name _ _
    · rw [forget_names, List.map_tail, secondOf_names]
      rfl
  obtain ⟨b, c, p, h1, h2, h3, h4⟩ := split_placement_partial e _ hw hi x.name _ _ hsplit (by
    intro y hy r hyr hyn
    obtain ⟨z, hz, rfl⟩ := List.mem_map.1 hy
    refine hr z hz r hyr ?_
    simp only
    rw [hsnames]
    rw [hs _ rfl] at hyn
    exact hyn)
  refine ⟨b, c, p, h1, ?_, ?_, ?_⟩
  · simp only [List.length_append, List.length_map, List.length_cons, List.length_nil] at h2 ⊢
    omega
  · rw [← h3]
    congr 1
    apply toInsts_said
    simp only [List.map_append, List.map_map, List.map_cons, List.map_nil]
    congr 1
    apply List.map_congr_left
    intro y _
    exact forget_said _ _
  · rw [← h4]
    congr 1
    apply toInsts_said
    rw [secondOf_cons]
    simp only [List.map_cons, List.tail_cons, List.map_map]
    congr 1
    apply List.map_congr_left
    intro y _
    exact forget_said _ _

/-- The hypotheses of `mcpl_split_placement_partial` are met by an instrument whose second part loses both references. -/
example (w : World Unit X) (hq : ∀ q, ∃ v, w.parse q = .ok v) (hr : ∀ n, ∃ t, w.read n = .ok t) :
    ∃ (i f s : FInstr Unit X), WellFormed (i.components.map FInst.place) ∧
      (∀ c ∈ toInsts (i.components.map FInst.place), Agreeing c) ∧ i.mcplSplit w "b" {} = .ok (f, s) ∧
      (∃ c ∈ i.components, ∃ r, c.place.rotRef = some r ∧ r.name ∉ s.components.map FInst.name) ∧
      (∀ c ∈ i.components, ∀ r, c.place.rotRef = some r → r.name ∉ s.components.map FInst.name →
        Recoverable c.place.orientation) := by
  obtain ⟨o1, o2, h, _, ho⟩ := twoInstances_eq ⟨.lit 0, .lit 30, .lit 0⟩
  let i : FInstr Unit X := ⟨"two", [], (twoInstances ⟨.lit 0, .lit 30, .lit 0⟩).map fun p => ⟨p, { type := ⟨"Arm", true⟩ }⟩, []⟩
  have hp : i.components.map FInst.place = twoInstances ⟨.lit 0, .lit 30, .lit 0⟩ := by
    simp only [i, List.map_map]
    exact List.map_id _
  have hw := twoInstances_wellFormed ⟨.lit 0, .lit 30, .lit 0⟩
  have hn : (i.components.map FInst.name).Nodup := by
    have := hw.nodup
    rw [← hp, List.map_map] at this
    exact this
  have hnames : i.components.map FInst.name = ["a", "b"] := by simp [i, h, FInst.name]
  have hqn : quotedName "two" none = .ok "\"two.mcpl\"".toList := by decide +kernel
  obtain ⟨v, hv⟩ := hq "\"two.mcpl\"".toList
  obtain ⟨⟨f, s⟩, hok⟩ := (mcpl_split_succeeds w i {} "b" hn rfl).2
    ⟨⟨_, v, hqn, hv⟩, by simp [hnames], by simp [i], hr _, hr _⟩
  have hs : s.components.map FInst.name = ["b"] := by
    obtain ⟨before, x, after, _, _, _, _, _, _, hc, hx, _, _, _, _, _, h2, _⟩ := mcpl_split_parts w i {} "b" hn f s hok
    rw [h2]
    rw [hc] at hnames
    match before, hnames with
    | [], hnames => simp [hx] at hnames
    | [y], hnames => simp at hnames; simp [hx, hnames]
    | y :: z :: l, hnames => simp at hnames
  refine ⟨i, f, s, by rw [hp]; exact hw, ?_, hok, ?_, ?_⟩
  · rw [hp]
    exact twoInstances_agreeing _ ⟨0, rfl, by norm_num⟩ ⟨30, rfl, by norm_num⟩ ⟨0, rfl, by norm_num⟩
  · rw [hs]
    simp only [i, h]
    exact ⟨_, List.mem_cons_of_mem _ List.mem_cons_self, _, rfl, by simp⟩
  · intro c hc r hr _
    simp only [i, h, List.map_cons, List.map_nil, List.mem_cons, List.not_mem_nil, or_false] at hc
    have h0 : (0 : Sc Unit).isZero = true := by
      show (Sc.lit 0).isZero = true
      simp [Sc.isZero]
    have h0' : (Sc.lit 0 : Sc Unit).isZero = true := h0
    have h30 : (Sc.lit 30 : Sc Unit).isZero = false := by simp [Sc.isZero]
    rcases hc with rfl | rfl
    · cases hr
    · left
      refine ⟨.y, .lit 30, true, ?_⟩
      simp [ho, fromAtRotated, h0, h0', h30, reduce, reduceEnd, resolve]

/-! ### Where it fails -/

theorem mcpl_names (w : World E X) (i : FInstr E X) (a : McplArgs X) (n : String)
    (hn : (i.components.map FInst.name).Nodup) (f s : FInstr E X) (h : i.mcplSplit w n a = .ok (f, s)) :
    (f.components.map FInst.name).Nodup ∧ (s.components.map FInst.name).Nodup := by
  obtain ⟨before, x, after, _, _, _, _, _, _, hc, _, _, _, _, _, h1, h2, _⟩ := mcpl_split_parts w i a n hn f s h
  rw [h1, h2]
  rw [hc] at hn
  constructor
  · refine hn.sublist (List.Sublist.map _ ?_)
    exact List.Sublist.append (List.Sublist.refl _) (List.Sublist.cons_cons _ (List.nil_sublist _))
  · exact hn.sublist (List.Sublist.map _ (List.sublist_append_right _ _))

/-- C73 fails for a part of an instrument split before: whatever the point and the names, splitting it once more raises, since it
has the parameter already. -/
theorem mcpl_again_raises (w w' : World E X) (i : FInstr E X) (a a' : McplArgs X) (n n' : String)
    (hn : (i.components.map FInst.name).Nodup) (f s : FInstr E X) (h : i.mcplSplit w n a = .ok (f, s)) (hr : a'.remove = false)
    (r : FInstr E X × FInstr E X) : f.mcplSplit w' n' a' ≠ .ok r ∧ s.mcplSplit w' n' a' ≠ .ok r := by
  obtain ⟨hf, hs⟩ := mcpl_names w i a n hn f s h
  obtain ⟨_, _, _, _, _, v, _, _, _, _, _, _, _, _, _, _, _, _, _, ⟨l1, _, _, h1⟩, ⟨l2, _, _, h2⟩, _⟩ := mcpl_split_parts w i a n hn f s h
  constructor
  · intro hc
    have := ((mcpl_split_succeeds w' f a' n' hf hr).1 ⟨r, hc⟩).2.2.1
    rw [h1] at this
    simp at this
  · intro hc
    have := ((mcpl_split_succeeds w' s a' n' hs hr).1 ⟨r, hc⟩).2.2.1
    rw [h2] at this
    simp at this

/-- C73 fails for a component at the split point which does anything: neither part has its SPLIT, WHEN, GROUP, EXTEND, JUMP or
METADATA. -/
theorem split_point_lost (w : World E X) (i : FInstr E X) (a : McplArgs X) (n : String)
    (hn : (i.components.map FInst.name).Nodup) (f s : FInstr E X) (h : i.mcplSplit w n a = .ok (f, s)) :
    ∀ c ∈ f.components ++ s.components, c.name = n →
      c.body.split.isNone ∧ c.body.when_.isNone ∧ c.body.group = none ∧ c.body.extend.isEmpty ∧ c.body.jump.isEmpty ∧
      c.body.metadata.isEmpty := by
  obtain ⟨before, x, after, q, v, t1, f1, t2, f2, hc, rfl, _, _, _, _, _, _, he⟩ := (mcpl_ok w i a n hn (f, s)).1 h
  simp only [Prod.mk.injEq] at he
  obtain ⟨rfl, rfl⟩ := he
  rw [hc, List.map_append, List.map_cons] at hn
  have hb : x.name ∉ before.map FInst.name := fun h => (List.nodup_append.1 hn).2.2 _ h _ List.mem_cons_self rfl
  have ha : x.name ∉ after.map FInst.name := (List.nodup_cons.1 (List.nodup_append.1 hn).2.1).1
  intro c hm hcn
  simp only [List.mem_append, List.mem_cons, List.not_mem_nil, or_false] at hm
  rcases hm with (hm | rfl) | rfl | hm
  · exfalso
    obtain ⟨y, hy, rfl⟩ := List.mem_map.1 hm
    exact hb (hcn ▸ List.mem_map.2 ⟨y, hy, rfl⟩)
  · exact ⟨rfl, rfl, rfl, rfl, rfl, rfl⟩
  · exact ⟨rfl, rfl, rfl, rfl, rfl, rfl⟩
  · exfalso
    have hmem : c.name ∈ ((secondOf (x :: after)).tail.map (forget x.name)).map FInst.name := List.mem_map.2 ⟨c, hm, rfl⟩
    rw [forget_names, List.map_tail, secondOf_names, hcn] at hmem
    exact ha hmem

/-- C73 fails for references in the second part to the split point: they are to the component that was taken out, not to the one
that reads the file. -/
theorem reference_to_replaced (w : World E X) (i : FInstr E X) (a : McplArgs X) (n : String)
    (hn : (i.components.map FInst.name).Nodup) (f s : FInstr E X) (h : i.mcplSplit w n a = .ok (f, s)) :
    ∀ c ∈ s.components.tail, ∀ r, (c.place.atRef = some r ∨ c.place.rotRef = some r) → r.name = n → r.here = false := by
  obtain ⟨before, x, after, q, v, t1, f1, t2, f2, hc, rfl, _, _, _, _, _, _, he⟩ := (mcpl_ok w i a n hn (f, s)).1 h
  simp only [Prod.mk.injEq] at he
  obtain ⟨rfl, rfl⟩ := he
  intro c hm r hr hrn
  simp only [List.tail_cons, List.mem_map] at hm
  obtain ⟨y, _, rfl⟩ := hm
  have hopt : ∀ o : Option Ref, (o.map fun r => if r.name = x.name then (⟨r.name, false⟩ : Ref) else r) = some r → r.here = false := by
    intro o ho
    cases o with
    | none => cases ho
    | some r' =>
      simp only [Option.map_some, Option.some.injEq] at ho
      by_cases hx : r'.name = x.name
      · rw [if_pos hx] at ho; subst ho; rfl
      · rw [if_neg hx] at ho; subst ho; exact absurd hrn hx
  rcases hr with hr | hr
  · exact hopt _ hr
  · exact hopt _ hr

/-- An instrument of a source, an arm with an EXTEND block, and a detector placed relative to the arm. -/
noncomputable def threeInstances : FInstr Unit Nat :=
  let o : Orient Unit := Orient.none
  let z : Vec (Sc Unit) := ⟨.lit 0, .lit 0, .lit 0⟩
  ⟨"three", [("e", 1)],
    [⟨⟨"source", z, none, z, none, o⟩, { type := ⟨"Source", true⟩ }⟩,
     ⟨⟨"arm", z, none, z, none, o⟩, { type := ⟨"Arm", true⟩, extend := [5], when_ := some 6 }⟩,
     ⟨⟨"detector", z, some ⟨"arm", true⟩, z, some ⟨"arm", true⟩, o⟩, { type := ⟨"Monitor", true⟩, parameters := [("x", 7)] }⟩], []⟩

/-- Everything can be read. -/
def openWorld : World Unit Nat := ⟨fun n => .ok (⟨n, n != "MCPL_output"⟩, ["-lmcpl".toList]), fun _ => .ok 2, 3, 4, fun _ _ => true⟩

example : (threeInstances.components.map FInst.name).Nodup ∧
    ∃ f s, threeInstances.mcplSplit openWorld "arm" {} = .ok (f, s) ∧
      f.components.map FInst.name = ["source", "arm"] ∧ s.components.map FInst.name = ["arm", "detector"] ∧
      f.components.map (·.body.type.name) = ["Source", "MCPL_output"] ∧
      s.components.map (·.body.type.name) = ["MCPL_input", "Monitor"] ∧
      f.components.map (·.body.cpu) = [false, true] ∧
      s.components.map (·.body.parameters) = [[("verbose", 4), ("filename", 3)], [("x", 7)]] ∧
      f.parameters = [("e", 1), ("mcpl_filename", 2)] ∧ s.flags = ["-lmcpl".toList] ∧
      s.components.map (·.place.atRef) = [none, some ⟨"arm", false⟩] := by
  have hn : (threeInstances.components.map FInst.name).Nodup := by simp [threeInstances, FInst.name]
  refine ⟨hn, _, _, (mcpl_ok openWorld threeInstances {} "arm" hn _).2
    ⟨[_], _, [_], "\"three.mcpl\"".toList, 2, _, _, _, _, rfl, rfl, ?_, rfl, ?_, ?_, rfl, rfl, rfl⟩, ?_⟩
  · rfl
  · simp [kept, threeInstances]
  · simp [kept, threeInstances]
  · refine ⟨rfl, rfl, rfl, rfl, rfl, rfl, rfl, rfl, ?_⟩
    simp [inputPlace, startOf, secondOf, reReference, reReferenceAt, reReferenceRot, SInst.copy, forget, foundName, FInst.name]

/-! ### C74 -/

/-- C74 (partial): the instance is added at the end, of the name, type, placement and parameters asked for, unless the name is
taken or the type cannot be read. Missing: a group, and a removable instance. -/
theorem make_instance_partial (read : String → Except Err (TypeOf × List (List Char))) (i : FInstr E X) (p : SInst E)
    (component : Given) (parameters : List (Named X)) (r : FInstr E X) :
    i.makeInstance read p component parameters = .ok r ↔
      p.name ∉ i.components.map FInst.name ∧ ∃ t flags, component.get read = .ok (t, flags) ∧
      r = { i with flags := i.flags ++ flags
                   components := i.components ++ [⟨p, { type := t, parameters := parameters, cpu := !t.acc }⟩] } := by
  rw [FInstr.makeInstance]
  by_cases h : p.name ∈ i.components.map FInst.name
  · rw [if_pos (any_name.2 h)]
    simp [h]
  · rw [if_neg (fun hc => h (any_name.1 hc))]
    cases hg : component.get read with
    | error e => simp
    | ok q =>
      obtain ⟨t, flags⟩ := q
      simp only [Except.ok.injEq, h, not_false_eq_true, true_and, Prod.mk.injEq]
      constructor
      · rintro rfl
        exact ⟨t, flags, ⟨rfl, rfl⟩, by simp⟩
      · rintro ⟨t', flags', ⟨rfl, rfl⟩, rfl⟩
        simp

example : ∃ r, threeInstances.makeInstance openWorld.read
    ⟨"new", ⟨0, 0, 0⟩, none, ⟨0, 0, 0⟩, none, Orient.none⟩ (.named "Slit") [] = .ok r :=
  ⟨_, (make_instance_partial _ _ _ _ _ _).2 ⟨by simp [threeInstances, FInst.name], _, _, rfl, rfl⟩⟩

/-- C74 fails for a group: the instance is in no group, and it is removable. -/
theorem make_instance_group_lost (read : String → Except Err (TypeOf × List (List Char))) (i r : FInstr E X) (p : SInst E)
    (component : Given) (parameters : List (Named X)) (g : String) (hg : g ≠ "") (rem : Bool)
    (h : i.makeInstance read p component parameters (some g) rem = .ok r) :
    ∃ c, r.components = i.components ++ [c] ∧ c.name = p.name ∧ c.body.group = none ∧ c.body.removable = true := by
  rw [FInstr.makeInstance] at h
  split at h
  · cases h
  · cases hc : component.get read with
    | error e => rw [hc] at h; cases h
    | ok q =>
      rw [hc] at h
      simp only [Except.ok.injEq] at h
      subst h
      exact ⟨_, rfl, rfl, rfl, by simp [hg]⟩

/-- C74 fails for a removable instance without a group: it is not removable, and it is one for the CPU. -/
theorem make_instance_removable_lost (read : String → Except Err (TypeOf × List (List Char))) (i r : FInstr E X) (p : SInst E)
    (component : Given) (parameters : List (Named X))
    (h : i.makeInstance read p component parameters none true = .ok r) :
    ∃ c, r.components = i.components ++ [c] ∧ c.name = p.name ∧ c.body.removable = false ∧ c.body.cpu = true := by
  rw [FInstr.makeInstance] at h
  split at h
  · cases h
  · cases hc : component.get read with
    | error e => rw [hc] at h; cases h
    | ok q =>
      rw [hc] at h
      simp only [Except.ok.injEq] at h
      subst h
      exact ⟨_, rfl, rfl, by simp, by simp⟩

example : ∃ r, threeInstances.makeInstance openWorld.read
    ⟨"new", ⟨0, 0, 0⟩, none, ⟨0, 0, 0⟩, none, Orient.none⟩ (.named "Slit") [] (some "g") true = .ok r := by
  rw [FInstr.makeInstance, if_neg (by simp [threeInstances, FInst.name])]
  exact ⟨_, rfl⟩

end Verif.Instr
