import Verif.Instr.Props

/-! Property C22: which value an instance parameter has, and when setting it returns. -/

namespace Verif.Instr
variable {V W : Type}

theorem first?_split {α : Type} (l k : List (Named α)) (a : Named α) (h : a.1 ∉ l.map (·.1)) :
    first? (l ++ a :: k) a.1 = some a := by
  rw [first?_append, (first?_none _ _).2 h]
  simp [first?]

theorem getParameter_first (t : CompType V W) (n : String) : t.getParameter n = first? (t.define ++ t.setting) n := by
  unfold CompType.getParameter
  rw [first?_append]
  by_cases h1 : present t.define n = true
  · rw [if_pos h1]
    cases h : first? t.define n with
    | none => exact absurd ((present_iff _ _).1 h1) ((first?_none _ _).1 h)
    | some a => rfl
  · rw [if_neg h1]
    have : first? t.define n = none := (first?_none _ _).2 fun hc => h1 ((present_iff _ _).2 hc)
    rw [this, Option.none_or]
    by_cases h2 : present t.setting n = true
    · rw [if_pos h2]
    · rw [if_neg h2, (first?_none _ _).2 fun hc => h2 ((present_iff _ _).2 hc)]

/-- **C22**: the value of an instance parameter is the first one of that name among the values set, then the define and
then the setting parameters of the type, which hold the defaults; there is none exactly if there is no such name. -/
theorem get_parameter_spec (t : CompType V W) (ps : List (Named W)) (n : String) :
    (∀ l w k, ps ++ t.define ++ t.setting = l ++ (n, w) :: k → n ∉ l.map (·.1) →
      getInstanceParameter t ps n = some (n, w)) ∧
    (getInstanceParameter t ps n = none ↔ n ∉ (ps ++ t.define ++ t.setting).map (·.1)) := by
  have key : getInstanceParameter t ps n = first? (ps ++ t.define ++ t.setting) n := by
    rw [List.append_assoc, first?_append, ← getParameter_first]
    unfold getInstanceParameter
    cases first? ps n <;> rfl
  refine ⟨?_, by rw [key]; exact first?_none _ _⟩
  intro l w k h hn
  rw [key, h]
  exact first?_split l k (n, w) hn

/-- **C22**: setting a parameter returns exactly if the type has a parameter of that name, whose default admits the value
and its conversion, and the name is not set yet unless overwriting or repeating is allowed. -/
theorem set_parameter_returns (t : CompType V W) (ps : List (Named W)) (n : String) (v : V) (overwrite allow : Bool) :
    (setParameter t ps n v overwrite allow).2 = none ↔
      (∃ l p k w, t.define ++ t.setting = l ++ (n, p) :: k ∧ n ∉ l.map (·.1) ∧ t.compatible p v = true ∧
        t.convert p v = .ok w) ∧
      (n ∈ ps.map (·.1) → overwrite = true ∨ allow = true) := by
  have split : ∀ (m : List (Named W)) (p : W), first? m n = some (n, p) →
      ∃ l k, m = l ++ (n, p) :: k ∧ n ∉ l.map (·.1) := by
    intro m p
    induction m with
    | nil => intro h; cases h
    | cons a m ih =>
      intro h
      by_cases ha : a.1 = n
      · simp only [first?, if_pos ha, Option.some.injEq] at h
        exact ⟨[], m, by rw [h]; rfl, by simp⟩
      · simp only [first?, if_neg ha] at h
        obtain ⟨l, k, h1, h2⟩ := ih h
        refine ⟨a :: l, k, by rw [h1]; rfl, ?_⟩
        simp only [List.map_cons, List.mem_cons, not_or]
        exact ⟨fun hc => ha hc.symm, h2⟩
  have app : ∀ qs : List (Named W), (appendParameter t qs n v).2 = none ↔
      ∃ l p k w, t.define ++ t.setting = l ++ (n, p) :: k ∧ n ∉ l.map (·.1) ∧ t.compatible p v = true ∧
        t.convert p v = .ok w := by
    intro qs
    constructor
    · intro h
      rcases appendParameter_cases t qs n v with ⟨e, he⟩ | ⟨p, w, hp, hc, hw, _⟩
      · rw [he] at h; cases h
      · have hn := getParameter_name t n p hp
        have h1 : first? (t.define ++ t.setting) n = some (n, p.2) := by
          rw [← getParameter_first, hp, ← hn]
        obtain ⟨l, k, h2, h3⟩ := split _ _ h1
        exact ⟨l, p.2, k, w, h2, h3, hc, hw⟩
    · rintro ⟨l, p, k, w, h1, h2, h3, h4⟩
      have h5 : t.getParameter n = some (n, p) := by
        rw [getParameter_first, h1]; exact first?_split l k (n, p) h2
      simp [appendParameter, h5, h3, h4]
  have known : ∀ l (p : W) k, t.define ++ t.setting = l ++ (n, p) :: k →
      ¬ (!present t.define n && !present t.setting n) = true := by
    intro l p k h hc
    simp only [Bool.and_eq_true, Bool.not_eq_true'] at hc
    have : n ∈ (t.define ++ t.setting).map (·.1) := by rw [h]; simp
    rw [List.map_append, List.mem_append, ← present_iff, ← present_iff, hc.1, hc.2] at this
    simp at this
  unfold setParameter
  split
  · rename_i h0
    constructor
    · intro h; cases h
    · rintro ⟨⟨l, p, k, w, h1, _⟩, _⟩
      exact absurd h0 (known l p k h1)
  · split
    · rename_i hp
      have hm := (present_iff _ _).1 hp
      split
      · rename_i ho
        rw [app]
        exact ⟨fun h => ⟨h, fun _ => .inl ho⟩, fun h => h.1⟩
      · rename_i ho
        split
        · rename_i ha
          rw [app]
          exact ⟨fun h => ⟨h, fun _ => .inr ha⟩, fun h => h.1⟩
        · rename_i ha
          constructor
          · intro h; cases h
          · rintro ⟨_, h⟩
            rcases h hm with h | h
            · exact absurd h ho
            · exact absurd h ha
    · rename_i hp
      rw [app]
      exact ⟨fun h => ⟨h, fun hc => absurd ((present_iff _ _).2 hc) hp⟩, fun h => h.1⟩

example : getInstanceParameter evens [("a", 2)] "b" = some ("b", 0) ∧ getInstanceParameter evens [("a", 2)] "c" = none ∧
    (setParameter evens [("a", 2)] "a" 4 false false).2 = some .runtimeError ∧
    (setParameter evens [("a", 2)] "a" 4 true false).2 = none := by decide +kernel

end Verif.Instr
