import Verif.Life.Model
import Mathlib.Data.List.Nodup
import Mathlib.Data.List.Flatten

/-! The functions of the program have different names, so that a call runs the function meant. -/

namespace Verif.Life

open Verif.Setpos Verif.Escape

/-! ### Names -/

theorem head_setpos (i : String) : (setposName i).toList.head? = some '_' := by simp [setposName]

theorem head_class (c sec : String) : (className c sec).toList.head? = some 'c' := by simp [className]

def ending (f : String) : List Char := f.toList.reverse.take 4

theorem ending_class (c sec : String) (h : 4 ≤ sec.length) : ending (className c sec) = sec.toList.reverse.take 4 := by
  unfold ending className
  rw [String.toList_append, List.reverse_append, List.take_append_of_le_length]
  rw [List.length_reverse, String.length_toList]
  exact h

theorem className_inj {c d sec : String} : className c sec = className d sec ↔ c = d := by
  unfold className
  rw [show "class_" ++ c ++ "_" ++ sec = "class_" ++ c ++ ("_" ++ sec) by rw [String.append_assoc],
    show "class_" ++ d ++ "_" ++ sec = "class_" ++ d ++ ("_" ++ sec) by rw [String.append_assoc]]
  exact Names.affix_inj

theorem mem_types {s : Source} {c : CType} : c ∈ s.types ↔ ∃ i ∈ s.comps, i.type = c := by
  rw [Source.types, Names.mem_fromKeys, List.mem_map]

/-- Names of instances, and of definitions, belong to one instance, and to one definition. -/
structure Named (s : Source) : Prop where
  insts : (s.comps.map (·.name)).Nodup
  types : ∀ i ∈ s.comps, ∀ j ∈ s.comps, i.type.name = j.type.name → i.type = j.type

def classNames (s : Source) (blocks : CType → List String) (sec : String) : List String :=
  s.types.flatMap fun c => if (blocks c).length = 0 then [] else [className c.name sec]

theorem classFns_names (s : Source) (blocks : CType → List String) (sec : String) (first : List Stmt) :
    (classFns s blocks sec first).map (·.name) = classNames s blocks sec := by
  unfold classFns classNames
  rw [List.map_flatMap]
  congr 1
  funext c
  split <;> rfl

theorem mem_classNames {s : Source} {blocks : CType → List String} {sec n : String} (h : n ∈ classNames s blocks sec) :
    ∃ c, n = className c sec := by
  unfold classNames at h
  obtain ⟨c, -, h⟩ := List.mem_flatMap.1 h
  split at h
  · cases h
  · exact ⟨c.name, by simpa using h⟩

theorem classNames_nodup {s : Source} (h : Named s) (blocks : CType → List String) (sec : String) :
    (classNames s blocks sec).Nodup := by
  unfold classNames
  rw [List.nodup_flatMap]
  refine ⟨fun c _ => by split <;> simp, ?_⟩
  have hn : s.types.Nodup := Names.fromKeys_nodup _
  refine List.Pairwise.imp_of_mem ?_ hn
  intro a b ha hb hab
  obtain ⟨i, hi, rfl⟩ := mem_types.1 ha
  obtain ⟨j, hj, rfl⟩ := mem_types.1 hb
  intro n h1 h2
  simp only at h1 h2
  split at h1
  · cases h1
  split at h2
  · cases h2
  have : i.type.name = j.type.name := className_inj.1 ((List.mem_singleton.1 h1).symm.trans (List.mem_singleton.1 h2))
  exact hab (h.types i hi j hj this)

theorem setposFns_names {is : List Inst} {fs : List Fn} (h : setposFns is = .ok fs) :
    fs.map (·.name) = is.map fun i => setposName i.name := by
  induction is generalizing fs with
  | nil => rw [setposFns] at h; injection h with h; subst h; rfl
  | cons i is ih =>
    rw [setposFns] at h
    cases hf : setposFn i with
    | error e => rw [hf] at h; cases h
    | ok f =>
      rw [hf] at h
      cases hs : setposFns is with
      | error e => rw [hs] at h; cases h
      | ok fs' =>
        rw [hs] at h
        injection h with h
        subst h
        rw [List.map_cons, List.map_cons, ih hs]
        congr 1
        unfold setposFn at hf
        cases hp : parameterStmts i i.type.setting with
        | error e => rw [hp] at hf; cases hf
        | ok ls => rw [hp] at hf; injection hf with hf; rw [← hf]

theorem program_names {s : Source} {fns : List Fn} (h : program s = .ok fns) :
    fns.map (·.name) = (s.comps.map fun i => setposName i.name) ++ classNames s (·.init) "initialize" ++ ["init"] ++
      classNames s (·.save) "save" ++ ["save"] ++ classNames s (·.final) "finally" ++ ["finally"] ++
      classNames s (·.display) "display" ++ ["display"] := by
  unfold program at h
  cases hs : setposFns s.comps with
  | error e => rw [hs] at h; cases h
  | ok fs =>
    rw [hs] at h
    injection h with h
    subst h
    simp only [List.map_append, classFns_names, setposFns_names hs, List.map_cons, List.map_nil]
    rfl

theorem program_nodup {s : Source} (hn : Named s) {fns : List Fn} (h : program s = .ok fns) : (fns.map (·.name)).Nodup := by
  rw [program_names h]
  have hset : (s.comps.map fun i => setposName i.name).Nodup := by
    have := hn.insts
    rw [List.Nodup, List.pairwise_map] at this ⊢
    refine this.imp ?_
    intro a b hab he
    exact hab (Names.affix_inj.1 he)
  have hset' : ∀ n ∈ (s.comps.map fun i => setposName i.name), n.toList.head? = some '_' := by
    intro n hn
    obtain ⟨i, -, rfl⟩ := List.mem_map.1 hn
    exact head_setpos _
  have hc : ∀ blocks sec, ∀ n ∈ classNames s blocks sec, n.toList.head? = some 'c' := by
    intro blocks sec n hn
    obtain ⟨c, rfl⟩ := mem_classNames hn
    exact head_class _ _
  have he : ∀ blocks sec, 4 ≤ sec.length → ∀ n ∈ classNames s blocks sec, ending n = sec.toList.reverse.take 4 := by
    intro blocks sec hl n hn
    obtain ⟨c, rfl⟩ := mem_classNames hn
    exact ending_class _ _ hl
  have hcd : ∀ b1 b2 s1 s2, 4 ≤ s1.length → 4 ≤ s2.length → s1.toList.reverse.take 4 ≠ s2.toList.reverse.take 4 →
      ∀ n ∈ classNames s b1 s1, n ∈ classNames s b2 s2 → False := by
    intro b1 b2 s1 s2 h1 h2 hne n hn1 hn2
    exact hne ((he _ _ h1 n hn1).symm.trans (he _ _ h2 n hn2))
  have d1 := hcd (·.init) (·.save) "initialize" "save" (by decide) (by decide) (by decide)
  have d2 := hcd (·.init) (·.final) "initialize" "finally" (by decide) (by decide) (by decide)
  have d3 := hcd (·.init) (·.display) "initialize" "display" (by decide) (by decide) (by decide)
  have d4 := hcd (·.save) (·.final) "save" "finally" (by decide) (by decide) (by decide)
  have d5 := hcd (·.save) (·.display) "save" "display" (by decide) (by decide) (by decide)
  have d6 := hcd (·.final) (·.display) "finally" "display" (by decide) (by decide) (by decide)
  have n1 := classNames_nodup hn (·.init) "initialize"
  have n2 := classNames_nodup hn (·.save) "save"
  have n3 := classNames_nodup hn (·.final) "finally"
  have n4 := classNames_nodup hn (·.display) "display"
  have c1 := hc (·.init) "initialize"
  have c2 := hc (·.save) "save"
  have c3 := hc (·.final) "finally"
  have c4 := hc (·.display) "display"
  generalize classNames s (·.init) "initialize" = A at *
  generalize classNames s (·.save) "save" = B at *
  generalize classNames s (·.final) "finally" = C at *
  generalize classNames s (·.display) "display" = D at *
  generalize (s.comps.map fun i => setposName i.name) = S at *
  have hk : "init".toList.head? = some 'i' ∧ "save".toList.head? = some 's' ∧ "finally".toList.head? = some 'f' ∧
      "display".toList.head? = some 'd' := by decide
  have hw : ∀ (L : List String) (ch : Char), (∀ n ∈ L, n.toList.head? = some ch) → ∀ w : String, w.toList.head? ≠ some ch →
      w ∉ L := fun L ch hL w hw hm => hw (hL w hm)
  have sc : ∀ L : List String, (∀ n ∈ L, n.toList.head? = some 'c') → ∀ n ∈ S, n ∈ L → False := by
    intro L hL n h1 h2
    have := (hset' n h1).symm.trans (hL n h2)
    exact absurd this (by decide)
  have ws : ∀ w, w.toList.head? ≠ some '_' → w ∉ S := hw S '_' hset'
  have w1 := hw A 'c' c1
  have w2 := hw B 'c' c2
  have w3 := hw C 'c' c3
  have w4 := hw D 'c' c4
  simp only [List.append_assoc, List.nodup_append', List.disjoint_append_right, List.nodup_cons, List.nodup_nil, and_true,
    List.not_mem_nil, not_false_eq_true, List.disjoint_singleton, List.singleton_disjoint, List.mem_singleton,
    hset, n1, n2, n3, n4, true_and]
  simp only [List.Disjoint]
  have q1 : ∀ c, c = '_' ∨ c = 'c' → "init".toList.head? ≠ some c := by
    rintro c (rfl | rfl) <;> decide
  have q2 : ∀ c, c = '_' ∨ c = 'c' → "save".toList.head? ≠ some c := by
    rintro c (rfl | rfl) <;> decide
  have q3 : ∀ c, c = '_' ∨ c = 'c' → "finally".toList.head? ≠ some c := by
    rintro c (rfl | rfl) <;> decide
  have q4 : ∀ c, c = '_' ∨ c = 'c' → "display".toList.head? ≠ some c := by
    rintro c (rfl | rfl) <;> decide
  have sA := sc A c1
  have sB := sc B c2
  have sC := sc C c3
  have sD := sc D c4
  simp only [ws _ (q1 _ (.inl rfl)), ws _ (q2 _ (.inl rfl)), ws _ (q3 _ (.inl rfl)), ws _ (q4 _ (.inl rfl)),
    w1 _ (q1 _ (.inr rfl)), w1 _ (q2 _ (.inr rfl)), w1 _ (q3 _ (.inr rfl)), w1 _ (q4 _ (.inr rfl)),
    w2 _ (q1 _ (.inr rfl)), w2 _ (q2 _ (.inr rfl)), w2 _ (q3 _ (.inr rfl)), w2 _ (q4 _ (.inr rfl)),
    w3 _ (q1 _ (.inr rfl)), w3 _ (q2 _ (.inr rfl)), w3 _ (q3 _ (.inr rfl)), w3 _ (q4 _ (.inr rfl)),
    w4 _ (q1 _ (.inr rfl)), w4 _ (q2 _ (.inr rfl)), w4 _ (q3 _ (.inr rfl)), w4 _ (q4 _ (.inr rfl))]
  refine ⟨?_, ?_⟩ <;> simp <;> grind

theorem find_name {fns : List Fn} (h : (fns.map (·.name)).Nodup) {f : Fn} (hf : f ∈ fns) :
    fns.find? (·.name = f.name) = some f := by
  induction fns with
  | nil => cases hf
  | cons g gs ih =>
    rw [List.map_cons, List.nodup_cons] at h
    rcases List.mem_cons.1 hf with rfl | hf
    · simp
    · have : g.name ≠ f.name := fun he => h.1 (he ▸ List.mem_map_of_mem hf)
      rw [List.find?_cons_of_neg (by simpa using this)]
      exact ih h.2 hf

/-! ### Running -/

theorem execAll_append (e : Env) (call : String → Option String → Bool → Option (List Event)) (comp : Option String)
    (handle : Bool) {as bs : List Stmt} {xs ys : List Event} (ha : execAll e call comp handle as = some xs)
    (hb : execAll e call comp handle bs = some ys) : execAll e call comp handle (as ++ bs) = some (xs ++ ys) := by
  induction as generalizing xs with
  | nil =>
    rw [execAll] at ha
    injection ha with ha
    subst ha
    exact hb
  | cons a as ih =>
    rw [execAll] at ha
    rw [List.cons_append, execAll]
    cases h1 : exec e call comp handle a with
    | none => rw [h1] at ha; cases ha
    | some x =>
      cases h2 : execAll e call comp handle as with
      | none => rw [h1, h2] at ha; cases ha
      | some x' =>
        rw [h1, h2] at ha
        injection ha with ha
        rw [ih h2, ← ha]
        simp

theorem execAll_single {e : Env} {call : String → Option String → Bool → Option (List Event)} {comp : Option String}
    {handle : Bool} {a : Stmt} {xs : List Event} (h : exec e call comp handle a = some xs) :
    execAll e call comp handle [a] = some xs := by
  simp [execAll, h]

theorem execAll_flatMap {α : Type} (e : Env) (call : String → Option String → Bool → Option (List Event)) (comp : Option String)
    (handle : Bool) (l : List α) (f : α → List Stmt) (g : α → List Event)
    (h : ∀ a ∈ l, execAll e call comp handle (f a) = some (g a)) :
    execAll e call comp handle (l.flatMap f) = some (l.flatMap g) := by
  induction l with
  | nil => rfl
  | cons a l ih =>
    rw [List.flatMap_cons, List.flatMap_cons]
    exact execAll_append _ _ _ _ (h a List.mem_cons_self) (ih fun b hb => h b (List.mem_cons_of_mem _ hb))

theorem execAll_code (e : Env) (call : String → Option String → Bool → Option (List Event)) (comp : Option String)
    (handle : Bool) (ts : List String) : execAll e call comp handle (ts.map .code) = some (ts.map (.code comp)) := by
  induction ts with
  | nil => rfl
  | cons t ts ih => simp [execAll, ih, exec]

theorem run_fn {e : Env} {fns : List Fn} (h : (fns.map (·.name)).Nodup) {f : Fn} (hf : f ∈ fns) (n : Nat) (comp : Option String)
    (handle : Bool) : run e fns (n + 1) f.name comp handle = execAll e (run e fns n) comp handle f.body := by
  rw [run, find_name h hf]

/-- The function of a definition is run for an instance. -/
theorem run_class {e : Env} {s : Source} {fns : List Fn} (h : (fns.map (·.name)).Nodup) {blocks : CType → List String}
    {sec : String} {first : List Stmt} (hsub : ∀ f ∈ classFns s blocks sec first, f ∈ fns) {i : Inst} (hi : i ∈ s.comps)
    (hb : (blocks i.type).length ≠ 0) (n : Nat) (handle : Bool) {xs : List Event}
    (hx : execAll e (run e fns n) (some i.name) handle first = some xs) :
    run e fns (n + 1) (className i.type.name sec) (some i.name) handle =
      some (xs ++ (blocks i.type).map (.code (some i.name))) := by
  have hm : (⟨className i.type.name sec, first ++ (blocks i.type).map .code⟩ : Fn) ∈ fns := by
    refine hsub _ ?_
    unfold classFns
    refine List.mem_flatMap.2 ⟨i.type, mem_types.2 ⟨i, hi, rfl⟩, ?_⟩
    rw [if_neg hb]
    exact List.mem_singleton_self _
  have := run_fn (e := e) h hm n (some i.name) handle
  simp only at this
  rw [this]
  exact execAll_append _ _ _ _ hx (execAll_code _ _ _ _ _)

theorem execAll_classCall {e : Env} {s : Source} {fns : List Fn} (h : (fns.map (·.name)).Nodup) {blocks : CType → List String}
    {sec : String} (hsub : ∀ f ∈ classFns s blocks sec [], f ∈ fns) {i : Inst} (hi : i ∈ s.comps) (n : Nat) (comp : Option String)
    (handle : Bool) : execAll e (run e fns (n + 1)) comp handle (classCall blocks sec i) =
      some ((blocks i.type).map (.code (some i.name))) := by
  unfold classCall
  split
  · rename_i hb
    refine execAll_single ?_
    rw [exec, run_class h hsub hi hb n false (xs := []) rfl]
    rfl
  · rename_i hb
    have : blocks i.type = [] := List.length_eq_zero_iff.1 (not_not.1 hb)
    rw [this]
    rfl

end Verif.Life
