import Verif.Registry.Model
import Mathlib.Data.List.Perm.Basic
import Mathlib.Data.List.Sort
import Mathlib.Tactic.Push

/-!
C38: the registry used for a name is one that knows it, of the highest priority, and the first of these; definitions are
kept.
C39: an in-memory registry returns what was stored last.
C40: a remote registry returns the file asked for if it has it; it may return another if it has not.
-/

namespace Verif.Registry

/-! ### C38 -/

instance : Std.Total fun a b : Registry => b.priority ≤ a.priority := ⟨fun a b => Int.le_total b.priority a.priority⟩

instance : IsTrans Registry fun a b : Registry => b.priority ≤ a.priority := ⟨fun _ _ _ h1 h2 => Int.le_trans h2 h1⟩

theorem ordered_perm (l : List Registry) : (ordered l).Perm l := List.perm_insertionSort _ l

theorem ordered_pairwise (l : List Registry) : (ordered l).Pairwise fun a b => b.priority ≤ a.priority :=
  List.pairwise_insertionSort _ l

/-- The sort keeps the order of registries of the same priority. -/
theorem ordered_stable (l : List Registry) (q : Int) :
    (ordered l).filter (fun r => r.priority = q) = l.filter fun r => r.priority = q := by
  have hsub : (l.filter fun r => r.priority = q).Sublist (ordered l) := by
    refine List.sublist_insertionSort ?_ List.filter_sublist
    refine List.Pairwise.imp_of_mem (R := fun _ _ => True) ?_ (List.pairwise_of_forall fun _ _ => trivial)
    intro a b ha hb _
    have h1 := (List.mem_filter.mp ha).2
    have h2 := (List.mem_filter.mp hb).2
    simp only [decide_eq_true_eq] at h1 h2
    omega
  have h2 := hsub.filter fun r : Registry => r.priority = q
  rw [List.filter_filter] at h2
  simp only [Bool.and_self] at h2
  exact (h2.eq_of_length ((ordered_perm l).filter _).length_eq.symm).symm

/-- C38: of the registries given to a reader, the one used for a name knows it, has the highest priority of those which
know it, and is the first given of these. `which` restricts the registries. -/
theorem chosen_has_priority (l : List Registry) (name : String) (which ext : Option String) (strict : Bool) (r : Registry)
    (h : chosen (ordered l) name which ext strict = some r) :
    r ∈ selected l which ∧ r.known name ext strict = true ∧
      (∀ x ∈ selected l which, x.known name ext strict = true → x.priority ≤ r.priority) ∧
      (selected l which).find? (fun x => x.known name ext strict && decide (x.priority = r.priority)) = some r := by
  obtain ⟨p, hp⟩ : ∃ p : Registry → Bool, ∀ l, selected l which = l.filter p := by
    cases which with
    | none => exact ⟨fun _ => true, fun l => (List.filter_true l).symm⟩
    | some w => exact ⟨fun r => isIn r.name w, fun _ => rfl⟩
  rw [chosen, hp] at h
  rw [hp]
  have hk := List.find?_some h
  have hm := List.mem_of_find?_eq_some h
  rw [List.mem_filter] at hm
  refine ⟨List.mem_filter.mpr ⟨(ordered_perm l).mem_iff.mp hm.1, hm.2⟩, hk, ?_, ?_⟩
  · intro x hx hxk
    rw [List.mem_filter] at hx
    have hx' : x ∈ (ordered l).filter p := List.mem_filter.mpr ⟨(ordered_perm l).mem_iff.mpr hx.1, hx.2⟩
    obtain ⟨_, as, bs, he, has⟩ := List.find?_eq_some_iff_append.mp h
    rw [he, List.mem_append] at hx'
    rcases hx' with hx' | hx'
    · have := has x hx'
      rw [hxk] at this
      cases this
    · rcases List.mem_cons.mp hx' with rfl | hx'
      · exact Int.le_refl _
      · have hpw := (ordered_pairwise l).sublist (List.filter_sublist (p := p))
        rw [he, List.pairwise_append] at hpw
        exact (List.pairwise_cons.mp hpw.2.1).1 x hx'
  · have h1 : ((ordered l).filter p).find? (fun x => x.known name ext strict && decide (x.priority = r.priority)) = some r := by
      rw [List.find?_eq_some_iff_append] at h ⊢
      obtain ⟨_, as, bs, he, has⟩ := h
      refine ⟨by simp [hk], as, bs, he, fun a ha => ?_⟩
      have := has a ha
      simp only [Bool.not_eq_true', Bool.and_eq_false_iff]
      exact .inl (by simpa using this)
    have h2 : ∀ m : List Registry, (m.filter p).find? (fun x => x.known name ext strict && decide (x.priority = r.priority)) =
        ((m.filter fun x => x.priority = r.priority).filter p).find? fun x => x.known name ext strict := by
      intro m
      induction m with
      | nil => rfl
      | cons y m ih =>
        by_cases hy : y.priority = r.priority
        · rw [List.filter_cons_of_pos (p := fun x : Registry => decide (x.priority = r.priority)) (by simpa using hy)]
          by_cases hpy : p y = true
          · rw [List.filter_cons_of_pos hpy, List.filter_cons_of_pos hpy, List.find?_cons, List.find?_cons, ih]
            simp [hy]
          · rw [List.filter_cons_of_neg hpy, List.filter_cons_of_neg hpy, ih]
        · rw [List.filter_cons_of_neg (p := fun x : Registry => decide (x.priority = r.priority)) (by simpa using hy)]
          by_cases hpy : p y = true
          · rw [List.filter_cons_of_pos hpy, List.find?_cons, ih]
            simp [hy]
          · rw [List.filter_cons_of_neg hpy, ih]
    rw [h2, ordered_stable, ← h2] at h1
    exact h1

/-- C38: if no registry knows the name, none is used and the look-up raises; otherwise some is. -/
theorem chosen_none_iff (l : List Registry) (name : String) (which ext : Option String) (strict : Bool) :
    (chosen (ordered l) name which ext strict = none ↔ ∀ x ∈ selected l which, x.known name ext strict = false) ∧
      (chosen (ordered l) name which ext strict = none →
        locate (ordered l) name which ext strict = .error .runtimeError) := by
  refine ⟨?_, fun h => by rw [locate, h]⟩
  rw [chosen, List.find?_eq_none]
  have : ∀ x, x ∈ selected (ordered l) which ↔ x ∈ selected l which := by
    intro x
    cases which with
    | none => exact (ordered_perm l).mem_iff
    | some w => simp only [selected, List.mem_filter, (ordered_perm l).mem_iff]
  simp only [this, Bool.not_eq_true]

def memA : Registry := { name := "memory", priority := 100, store := .memory [("Arm.comp", "from memory")] }
def dirA : Registry := { name := "here", priority := 10, store := .dir "/here" ["Arm.comp"] }
def remA : Registry := { name := "mcstas", priority := -10, store := .remote "url" ["optics/Arm.comp", "optics/Slit.comp"] }
def memB : Registry := { name := "other", priority := 100, store := .memory [("Arm.comp", "from elsewhere")] }

example : chosen (ordered [remA, memA, dirA, memB]) "Arm" none (some ".comp") true = some memA ∧
    chosen (ordered [remA, memA, dirA]) "Slit" none (some ".comp") true = some remA ∧
    chosen (ordered [remA, memA, dirA]) "Arm" (some "here") (some ".comp") true = some dirA ∧
    chosen (ordered [remA, memA, dirA]) "Lens" none (some ".comp") true = none := by decide +kernel

/-- C38: a definition that was found is kept: it is returned again whatever the registries are then, and others are not
affected. -/
theorem component_kept {Comp : Type} (read : Registry → String → String) (parse : String → Except Err Comp)
    (regs : List Registry) (known known' : List (String × Comp)) (name : String) (c : Comp)
    (h : getComponent read parse regs known name = .ok (c, known')) :
    (∀ read' parse' regs', getComponent read' parse' regs' known' name = .ok (c, known')) ∧
      (∀ n d, known.lookup n = some d → known'.lookup n = some d) ∧
      (known.lookup name = none →
        ∃ text, contents read regs name none (some ".comp") true = .ok text ∧ parse text = .ok c) := by
  unfold getComponent at h
  cases hl : known.lookup name with
  | some d =>
    rw [hl] at h
    simp only [Except.ok.injEq, Prod.mk.injEq] at h
    obtain ⟨rfl, rfl⟩ := h
    refine ⟨fun _ _ _ => by rw [getComponent, hl], fun _ _ h => h, fun h => (nomatch h)⟩
  | none =>
    rw [hl] at h
    simp only at h
    split at h
    · cases h
    · rename_i text ht
      split at h
      · cases h
      · rename_i c' hc
        simp only [Except.ok.injEq, Prod.mk.injEq] at h
        obtain ⟨rfl, rfl⟩ := h
        have happ : ∀ (k : List (String × Comp)) n, (k ++ [(name, c')]).lookup n =
            match k.lookup n with
            | some d => some d
            | none => if n = name then some c' else none := by
          intro k n
          induction k with
          | nil =>
            simp only [List.nil_append, List.lookup]
            by_cases hn : n = name
            · simp [hn]
            · simp [hn, beq_false_of_ne hn]
          | cons p k ih =>
            simp only [List.cons_append, List.lookup]
            split
            · rfl
            · exact ih
        refine ⟨fun _ _ _ => ?_, fun n d hd => ?_, fun _ => ⟨text, ht, hc⟩⟩
        · rw [getComponent, happ, hl]
          simp
        · rw [happ, hd]

example : getComponent (Comp := String) (fun _ p => p) .ok (ordered [remA, memA]) [] "Arm" =
    .ok ("from memory", [("Arm", "from memory")]) := by decide +kernel

/-- C38 does not hold once registries are added: a directory that is SEARCHed is used before an in-memory registry,
whose priority is higher, and an appended registry after others of lower priority. -/
theorem added_registry_ignores_priority :
    chosen (dirA :: ordered [remA, memA]) "Arm" none (some ".comp") true = some dirA ∧ dirA.priority < memA.priority ∧
      chosen (ordered [remA] ++ [memA]) "Arm" none (some ".comp") true = some remA ∧ remA.priority < memA.priority := by
  decide +kernel

/-! ### C39 -/

theorem dictSet_lookup (c : List (String × String)) (name text n : String) :
    (dictSet c name text).lookup n = if n = name then some text else c.lookup n := by
  unfold dictSet
  split_ifs with h hn hn
  · subst hn
    induction c with
    | nil => simp at h
    | cons p c ih =>
      simp only [List.map_cons, List.lookup]
      by_cases hp : p.1 = n
      · simp [hp]
      · simp only [List.map_cons, List.mem_cons] at h
        have hb : (n == p.1) = false := beq_false_of_ne fun h => hp h.symm
        simp only [hp, if_false, hb]
        exact ih (h.resolve_left fun h => hp h.symm)
  · clear h
    induction c with
    | nil => rfl
    | cons p c ih =>
      simp only [List.map_cons, List.lookup]
      by_cases hp : p.1 = name
      · have h1 : (n == name) = false := beq_false_of_ne hn
        have h2 : (n == p.1) = false := by rw [hp]; exact h1
        simp only [hp, if_true, h1]
        exact ih
      · simp only [hp, if_false]
        split
        · rfl
        · exact ih
  · subst hn
    induction c with
    | nil => simp
    | cons p c ih =>
      simp only [List.map_cons, List.mem_cons, not_or] at h
      have hb : (n == p.1) = false := beq_false_of_ne h.1
      simp only [List.cons_append, List.lookup, hb]
      exact ih h.2
  · clear h
    induction c with
    | nil => simp [List.lookup, beq_false_of_ne hn]
    | cons p c ih =>
      simp only [List.cons_append, List.lookup]
      split
      · rfl
      · exact ih

theorem lookup_isSome_iff (c : List (String × String)) (n : String) : (c.lookup n).isSome = true ↔ n ∈ c.map (·.1) := by
  induction c with
  | nil => simp
  | cons p c ih =>
    simp only [List.lookup, List.map_cons, List.mem_cons]
    by_cases hp : n = p.1
    · simp [hp]
    · simp [beq_false_of_ne hp, ih, hp]

theorem memFullname_eq (c : List (String × String)) (name : String) (ext : Option String) :
    memFullname c name ext = if (c.lookup (name ++ ext.getD "")).isSome then some (name ++ ext.getD "") else none := by
  simp only [memFullname, ← lookup_isSome_iff]

theorem memContents_eq (c : List (String × String)) (name : String) (ext : Option String) :
    memContents c name ext = match c.lookup (name ++ ext.getD "") with | some t => .ok t | none => .error .keyError := by
  rw [memContents, memFullname_eq]
  cases h : c.lookup (name ++ ext.getD "") with
  | none => rfl
  | some t => simp [h]

theorem memKnown_eq (c : List (String × String)) (name : String) (ext : Option String) :
    memKnown c name ext = (c.lookup (name ++ ext.getD "")).isSome := by
  rw [memKnown, memFullname_eq]
  split_ifs with h <;> simp [h]

/-- C39: after `add(name, text)` the registry knows the name and its contents are the text; everything else is as before.
`ext` may be given apart or as part of the name. -/
theorem memory_add (c : List (String × String)) (name text n : String) (ext : Option String) :
    (n ++ ext.getD "" = name →
      memKnown (dictSet c name text) n ext = true ∧ memContents (dictSet c name text) n ext = .ok text) ∧
    (n ++ ext.getD "" ≠ name →
      memKnown (dictSet c name text) n ext = memKnown c n ext ∧
        memContents (dictSet c name text) n ext = memContents c n ext) := by
  constructor <;> intro h <;> simp [memKnown_eq, memContents_eq, dictSet_lookup, h]

/-- C39: after `add_comp(name, text)` the component is known under its name, with or without the extension, unless the name
has the extension in capital letters. So it is with `add_instr`. -/
theorem memory_add_comp_partial (ext : String) (c : List (String × String)) (name text : String) :
    (endsWith (lower name) ext = false →
      memKnown (memAdd ext c name text) name (some ext) = true ∧
        memContents (memAdd ext c name text) name (some ext) = .ok text ∧
        memContents (memAdd ext c name text) (name ++ ext) none = .ok text ∧
        ∀ n e, n ++ e.getD "" ≠ name ++ ext → memContents (memAdd ext c name text) n e = memContents c n e) ∧
    (endsWith (lower (name ++ ext)) ext = true →
      memKnown (memAdd ext c (name ++ ext) text) name (some ext) = true ∧
        memContents (memAdd ext c (name ++ ext) text) name (some ext) = .ok text ∧
        memContents (memAdd ext c (name ++ ext) text) (name ++ ext) none = .ok text ∧
        ∀ n e, n ++ e.getD "" ≠ name ++ ext → memContents (memAdd ext c (name ++ ext) text) n e = memContents c n e) := by
  constructor <;> intro h <;> rw [memAdd, h] <;> refine ⟨?_, ?_, ?_, fun n e hn => ?_⟩ <;>
    simp_all [memKnown_eq, memContents_eq, dictSet_lookup]

example : endsWith (lower "Arm") ".comp" = false ∧ endsWith (lower ("Arm" ++ ".comp")) ".comp" = true := by decide +kernel

/-- C39 does not hold for names with an extension in capitals: the component stored is not found by readers. -/
theorem capital_extension_not_found :
    memKnown (memAdd ".comp" [] "Arm.COMP" "text") "Arm" (some ".comp") = false ∧
      memKnown (memAdd ".comp" [] "Arm.COMP" "text") "Arm.COMP" (some ".comp") = false := by decide +kernel

/-- C39 does not hold for instruments: an instrument known to an in-memory registry cannot be read by name, whatever
was stored, if no registry comes before. -/
theorem memory_instrument_unreadable (read : Registry → String → String) (regs : List Registry) (name text : String)
    (c : List (String × String)) (p : Int) (rname : String)
    (hn : lastPart (namePlusSuffix name (some ".instr")) = name ++ ".instr") :
    instrumentSource read ({ name := rname, priority := p, store := .memory (dictSet c (name ++ ".instr") text) } :: regs)
      name = .error .attributeError := by
  have hk : memKnown (dictSet c (name ++ ".instr") text) (name ++ ".instr") none = true :=
    ((memory_add c (name ++ ".instr") text (name ++ ".instr") none).1 (by simp)).1
  have hch : chosen ({ name := rname, priority := p, store := .memory (dictSet c (name ++ ".instr") text) } :: regs)
      (name ++ ".instr") none none false =
      some { name := rname, priority := p, store := .memory (dictSet c (name ++ ".instr") text) } := by
    rw [chosen, selected, List.find?_cons]
    simp only [Registry.known, hk]
  rw [instrumentSource, hn, locate, hch]
  rfl

example : lastPart (namePlusSuffix "BNL_H8" (some ".instr")) = "BNL_H8" ++ ".instr" := by decide +kernel

/-! ### C40 -/

theorem lastPart_suffix (x : String) : (lastPart x).toList <:+ x.toList := by
  have h := List.takeWhile_prefix (fun c => decide (c ≠ '/')) (l := x.toList.reverse)
  have := List.reverse_suffix.mpr h
  rw [List.reverse_reverse] at this
  simpa [lastPart] using this

/-- C40: a registry that has a file of the name asked for knows the name, and the path it returns is that of a file of this
name. -/
theorem remote_has_file (files : List String) (name : String) (ext : Option String) (strict : Bool)
    (h : ∃ x ∈ files, lastPart x = namePlusSuffix name ext) :
    remoteKnown files name ext strict = true ∧
      ∃ p, remoteFullname files name ext = .ok p ∧ p ∈ files ∧
        (p = namePlusSuffix name ext ∨ lastPart p = namePlusSuffix name ext) := by
  obtain ⟨x, hx, hl⟩ := h
  constructor
  · have : (files.any fun x => endsWith x (namePlusSuffix name ext)) = true := by
      rw [List.any_eq_true]
      refine ⟨x, hx, ?_⟩
      rw [endsWith, List.isSuffixOf_iff_suffix, ← hl]
      exact lastPart_suffix x
    rw [remoteKnown, if_pos this]
  · unfold remoteFullname
    split
    · rename_i f hf
      refine ⟨f, rfl, List.mem_of_find?_eq_some hf, .inl ?_⟩
      simpa using List.find?_some hf
    · split
      · rename_i f hf
        refine ⟨f, rfl, List.mem_of_find?_eq_some hf, .inr ?_⟩
        simpa using List.find?_some hf
      · rename_i hf
        rw [List.find?_eq_none] at hf
        exact absurd (by simpa using hl) (hf x hx)

/-- C40, partial: the path returned is that of a file of the name asked for, unless there is none; then it is the only one
whose path has the name in it. Missing: that a registry without the file does not answer. -/
theorem remote_file_partial (files : List String) (name : String) (ext : Option String) (p : String)
    (h : remoteFullname files name ext = .ok p) :
    p ∈ files ∧ (p = namePlusSuffix name ext ∨ lastPart p = namePlusSuffix name ext ∨
      ((∀ x ∈ files, x ≠ namePlusSuffix name ext ∧ lastPart x ≠ namePlusSuffix name ext) ∧ isIn name p = true ∧
        ∀ x ∈ files, isIn name x = true → x = p)) := by
  unfold remoteFullname at h
  split at h
  · rename_i f hf
    cases h
    exact ⟨List.mem_of_find?_eq_some hf, .inl (by simpa using List.find?_some hf)⟩
  · rename_i h1
    split at h
    · rename_i f hf
      cases h
      exact ⟨List.mem_of_find?_eq_some hf, .inr (.inl (by simpa using List.find?_some hf))⟩
    · rename_i h2
      split at h
      · rename_i f hf
        cases h
        have hm : p ∈ files.filter fun x => isIn name x := by rw [hf]; simp
        rw [List.mem_filter] at hm
        rw [List.find?_eq_none] at h1 h2
        refine ⟨hm.1, .inr (.inr ⟨fun x hx => ⟨by simpa using h1 x hx, by simpa using h2 x hx⟩, hm.2, fun x hx hi => ?_⟩)⟩
        have : x ∈ files.filter fun x => isIn name x := List.mem_filter.mpr ⟨hx, hi⟩
        rw [hf] at this
        simpa using this
      · cases h

example : remoteFullname ["optics/Arm.comp", "optics/MyArm.comp"] "Arm" (some ".comp") = .ok "optics/Arm.comp" := by
  decide +kernel

/-- A registry without `Arm.comp`. -/
def noArm : Registry := { name := "extra", priority := 0, store := .remote "url" ["contrib/MyArm.comp"] }

/-- C40 does not hold for names that are the end of another: a registry without the file says it knows it and returns another
file; a registry of lower priority that has the file is not used. -/
theorem remote_returns_other_file :
    noArm.known "Arm" (some ".comp") true = true ∧
      noArm.path "Arm" (some ".comp") = .ok (some "contrib/MyArm.comp") ∧
      chosen (ordered [remA, noArm]) "Arm" none (some ".comp") true = some noArm := by decide +kernel

/-- C40 does not hold if there are two such files: the registry says it knows the file, and raises. -/
theorem remote_known_raises :
    remoteKnown ["contrib/MyArm.comp", "contrib/YourArm.comp"] "Arm" (some ".comp") true = true ∧
      remoteFullname ["contrib/MyArm.comp", "contrib/YourArm.comp"] "Arm" (some ".comp") = .error .runtimeError := by
  decide +kernel

theorem singleton_mem {α : Type} {p : α → Bool} {l : List α} {f : α} (h : l.filter p = [f]) : f ∈ l ∧ p f = true := by
  have : f ∈ l.filter p := by rw [h]; simp
  exact List.mem_filter.mp this

/-- C40: the path returned by a registry of a directory is that of a file of the name asked for, or of the name without the
extension. -/
theorem dir_file (files : List String) (name : String) (ext : Option String) (p : String)
    (h : dirFullname files name ext = .ok p) :
    p ∈ files ∧ ((parts (namePlusSuffix name ext)).isSuffixOf (parts p) = true ∨ (parts name).isSuffixOf (parts p) = true) := by
  have refl : ∀ s : String, (parts s).isSuffixOf (parts s) = true := fun s => by
    rw [List.isSuffixOf_iff_suffix]
  unfold dirFullname at h
  split at h
  · rename_i f hf
    cases h
    obtain ⟨h1, h2⟩ := singleton_mem hf
    simp only [decide_eq_true_eq] at h2
    exact ⟨h1, .inl (by rw [h2]; exact refl _)⟩
  · split at h
    · rename_i f hf
      cases h
      obtain ⟨h1, h2⟩ := singleton_mem hf
      simp only [decide_eq_true_eq] at h2
      exact ⟨h1, .inr (by rw [h2]; exact refl _)⟩
    · split at h
      · rename_i f hf
        cases h
        obtain ⟨h1, h2⟩ := singleton_mem hf
        exact ⟨h1, .inl h2⟩
      · split at h
        · rename_i f hf
          cases h
          obtain ⟨h1, h2⟩ := singleton_mem hf
          exact ⟨h1, .inr h2⟩
        · cases h

/-- C40: a directory with one file of the name, and none of the name without the extension, returns it. -/
theorem dir_unique_file (files : List String) (name : String) (ext : Option String) (p : String)
    (h : globAny files (namePlusSuffix name ext) = [p]) (hn : ∀ x ∈ files, x ≠ name) :
    dirKnown files name ext = true ∧ dirFullname files name ext = .ok p := by
  refine ⟨by rw [dirKnown, h]; rfl, ?_⟩
  have hno : globExact files name = [] := by
    rw [globExact, List.filter_eq_nil_iff]
    intro x hx
    simpa using hn x hx
  have hex : globExact files (namePlusSuffix name ext) = [] ∨ globExact files (namePlusSuffix name ext) = [p] := by
    have hsub : (globExact files (namePlusSuffix name ext)).Sublist (globAny files (namePlusSuffix name ext)) := by
      refine List.monotone_filter_right _ fun x hx => ?_
      simp only [decide_eq_true_eq] at hx
      rw [hx, List.isSuffixOf_iff_suffix]
    rw [h] at hsub
    rcases hl : globExact files (namePlusSuffix name ext) with _ | ⟨y, ys⟩
    · exact .inl rfl
    · rw [hl] at hsub
      have hlen := hsub.length_le
      simp only [List.length_cons, List.length_nil] at hlen
      have : ys = [] := List.length_eq_zero_iff.mp (by omega)
      subst this
      have := hsub.subset (List.mem_singleton_self y)
      rw [List.mem_singleton] at this
      rw [this]
      exact .inr rfl
  rcases hex with hex | hex <;> simp [dirFullname, hex, hno, h]

example : globAny ["sub/Arm.comp", "sub/MyArm.comp"] (namePlusSuffix "Arm" (some ".comp")) = ["sub/Arm.comp"] := by
  decide +kernel

/-- C40 does not hold for a directory with two files of the name in folders of it: it is known, and cannot be had. -/
theorem dir_known_raises :
    dirKnown ["a/Arm.comp", "b/Arm.comp"] "Arm" (some ".comp") = true ∧
      dirFullname ["a/Arm.comp", "b/Arm.comp"] "Arm" (some ".comp") = .error .runtimeError := by decide +kernel

end Verif.Registry
