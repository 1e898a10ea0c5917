/-!
Python dictionaries as association lists in insertion order, shared by the models.
`dictSet` replaces the value of an existing key in place and appends a new key at the end, as CPython does.
-/

namespace Verif

variable {K V : Type} [DecidableEq K]

/-- `d[k] = v`. -/
def dictSet : List (K × V) → K → V → List (K × V)
  | [], k, v => [(k, v)]
  | (k', v') :: d, k, v => if k' = k then (k, v) :: d else (k', v') :: dictSet d k v

/-- `d.get(k)`. -/
def dictGet : List (K × V) → K → Option V
  | [], _ => none
  | (k', v') :: d, k => if k' = k then some v' else dictGet d k

/-- `dict.pop(k, None)` / `del d[k]`: the remaining dictionary. -/
def dictDel (d : List (K × V)) (k : K) : List (K × V) := d.filter (fun p => !decide (p.1 = k))

/-- `dict.fromkeys(l)` as the list of its keys: duplicates after the first are dropped. -/
def dedup {α : Type} [DecidableEq α] : List α → List α
  | [] => []
  | a :: l => a :: (dedup l).filter (fun b => !decide (b = a))

theorem dictGet_dictSet (d : List (K × V)) (k k' : K) (v : V) :
    dictGet (dictSet d k v) k' = if k = k' then some v else dictGet d k' := by
  induction d with
  | nil => simp [dictSet, dictGet]
  | cons p d ih =>
    obtain ⟨a, b⟩ := p
    by_cases h : a = k
    · subst h
      simp only [dictSet, if_true, dictGet]
      split <;> rfl
    · simp only [dictSet, h, if_false, dictGet, ih]
      by_cases h2 : a = k'
      · subst h2
        have : ¬ k = a := fun hc => h hc.symm
        simp [this]
      · simp [h2]

theorem dictGet_none (d : List (K × V)) (k : K) : dictGet d k = none ↔ k ∉ d.map (·.1) := by
  induction d with
  | nil => simp [dictGet]
  | cons p d ih =>
    obtain ⟨a, b⟩ := p
    by_cases h : a = k
    · simp [dictGet, h]
    · simp only [dictGet, h, if_false, ih, List.map_cons, List.mem_cons, not_or]
      constructor
      · intro h2; exact ⟨fun hc => h hc.symm, h2⟩
      · intro h2; exact h2.2

theorem dictSet_keys (d : List (K × V)) (k : K) (v : V) :
    (dictSet d k v).map (·.1) = if k ∈ d.map (·.1) then d.map (·.1) else d.map (·.1) ++ [k] := by
  induction d with
  | nil => simp [dictSet]
  | cons p d ih =>
    obtain ⟨a, b⟩ := p
    by_cases h : a = k
    · subst h; simp [dictSet]
    · have h' : ¬ k = a := fun hc => h hc.symm
      simp only [dictSet, h, if_false, List.map_cons, ih, List.mem_cons, h', false_or]
      split <;> simp

theorem dictSet_keys_nodup (d : List (K × V)) (k : K) (v : V)
    (h : (d.map (·.1)).Nodup) : ((dictSet d k v).map (·.1)).Nodup := by
  rw [dictSet_keys]
  split
  · exact h
  · rename_i hk
    rw [List.nodup_append]
    refine ⟨h, by simp, ?_⟩
    intro a ha b hb
    simp only [List.mem_singleton] at hb
    subst hb
    rintro rfl
    exact hk ha

theorem mem_of_dictGet (d : List (K × V)) (k : K) (v : V) (h : dictGet d k = some v) : (k, v) ∈ d := by
  induction d with
  | nil => simp [dictGet] at h
  | cons p d ih =>
    obtain ⟨a, b⟩ := p
    by_cases hk : a = k
    · simp only [dictGet, hk, if_true, Option.some.injEq] at h
      simp [hk, h]
    · simp only [dictGet, hk, if_false] at h
      exact List.mem_cons_of_mem _ (ih h)

theorem dictGet_of_mem (d : List (K × V)) (k : K) (v : V) (hn : (d.map (·.1)).Nodup) (h : (k, v) ∈ d) :
    dictGet d k = some v := by
  induction d with
  | nil => cases h
  | cons p d ih =>
    obtain ⟨a, b⟩ := p
    simp only [List.map_cons, List.nodup_cons] at hn
    rcases List.mem_cons.mp h with h | h
    · cases h; simp [dictGet]
    · have hk : ¬ a = k := by
        rintro rfl
        exact hn.1 (List.mem_map.mpr ⟨_, h, rfl⟩)
      simp only [dictGet, hk, if_false]
      exact ih hn.2 h

theorem dictGet_dictDel (d : List (K × V)) (k k' : K) :
    dictGet (dictDel d k) k' = if k = k' then none else dictGet d k' := by
  induction d with
  | nil => simp [dictDel, dictGet]
  | cons p d ih =>
    obtain ⟨a, b⟩ := p
    unfold dictDel at ih ⊢
    by_cases h : a = k
    · subst h
      simp only [List.filter_cons, decide_true, Bool.not_true, Bool.false_eq_true, if_false, ih, dictGet]
      split <;> rfl
    · simp only [List.filter_cons, h, decide_false, Bool.not_false, if_true, dictGet, ih]
      by_cases h2 : a = k'
      · subst h2
        have : ¬ k = a := fun hc => h hc.symm
        simp [this]
      · simp [h2]

theorem mem_dedup {α : Type} [DecidableEq α] (l : List α) (a : α) : a ∈ dedup l ↔ a ∈ l := by
  induction l with
  | nil => simp [dedup]
  | cons b l ih =>
    simp only [dedup, List.mem_cons, List.mem_filter, ih, Bool.not_eq_true', decide_eq_false_iff_not]
    by_cases h : a = b <;> simp [h]

theorem dedup_nodup {α : Type} [DecidableEq α] (l : List α) : (dedup l).Nodup := by
  induction l with
  | nil => simp [dedup]
  | cons b l ih =>
    simp only [dedup, List.nodup_cons, List.mem_filter, Bool.not_eq_true', decide_eq_false_iff_not,
      not_true_eq_false, and_false, not_false_eq_true, true_and]
    exact ih.filter _

theorem dedup_sublist {α : Type} [DecidableEq α] (l : List α) : (dedup l).Sublist l := by
  induction l with
  | nil => simp [dedup]
  | cons b l ih =>
    simp only [dedup]
    exact (List.filter_sublist.trans ih).cons_cons b

end Verif
