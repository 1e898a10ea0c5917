import Verif.Instr.Model
import Mathlib.Data.List.Basic
import Mathlib.Data.List.Induction
import Mathlib.Data.List.Sort

/-! Property C26: groups of component instances. -/

namespace Verif.Instr

theorem dedup_snoc {α : Type} [DecidableEq α] (l : List α) (a : α) :
    dedup (l ++ [a]) = if a ∈ l then dedup l else dedup l ++ [a] := by
  induction l with
  | nil => simp [dedup]
  | cons b l ih =>
    simp only [List.cons_append, dedup, ih, List.mem_cons]
    by_cases h : a ∈ l
    · simp [h]
    · by_cases h2 : a = b
      · rw [if_neg h, if_pos (.inl h2)]; simp [h2]
      · simp [h, h2]

/-- An ordered dictionary is given by its keys and what it returns for them. -/
theorem dict_ext {K V : Type} [DecidableEq K] (d e : List (K × V)) (hk : d.map (·.1) = e.map (·.1))
    (hn : (d.map (·.1)).Nodup) (hg : ∀ k, dictGet d k = dictGet e k) : d = e := by
  induction d generalizing e with
  | nil =>
    cases e with
    | nil => rfl
    | cons p e => simp at hk
  | cons p d ih =>
    cases e with
    | nil => simp at hk
    | cons q e =>
      simp only [List.map_cons, List.cons.injEq] at hk
      simp only [List.map_cons, List.nodup_cons] at hn
      have h1 : p = q := by
        have := hg p.1
        simp only [dictGet, if_true, hk.1] at this
        exact Prod.ext hk.1 (by simpa using this)
      subst h1
      congr 1
      apply ih e hk.2 hn.2
      intro k
      by_cases h : p.1 = k
      · subst h
        rw [(dictGet_none d _).2 hn.1, (dictGet_none e _).2 (hk.2 ▸ hn.1)]
      · have := hg k
        simpa [dictGet, h] using this

theorem dictGet_map {K V : Type} [DecidableEq K] (ks : List K) (f : K → V) (k : K) :
    dictGet (ks.map fun k => (k, f k)) k = if k ∈ ks then some (f k) else none := by
  induction ks with
  | nil => rfl
  | cons a ks ih =>
    simp only [List.map_cons, dictGet, ih, List.mem_cons]
    by_cases h : a = k
    · simp [h]
    · have : ¬ k = a := fun hc => h hc.symm
      simp [h, this]

/-- The numbers of the instances in a group. -/
def members (insts : List (Option String)) (g : String) : List Nat :=
  (List.range insts.length).filter fun i => insts[i]? == some (some g)

theorem members_snoc (insts : List (Option String)) (x : Option String) (g : String) :
    members (insts ++ [x]) g = members insts g ++ (if x = some g then [insts.length] else []) := by
  unfold members
  rw [List.length_append, List.length_singleton, List.range_succ, List.filter_append]
  congr 1
  · apply List.filter_congr
    intro i hi
    rw [List.getElem?_append_left (List.mem_range.1 hi)]
  · by_cases h : x = some g <;> simp [h]

/-- What `determine_groups` computes for a new instrument. -/
def groupsOf (insts : List (Option String)) : List (String × Group) :=
  let ks := dedup (insts.filterMap id)
  ks.map fun g => (g, ⟨g, ks.idxOf g, members insts g⟩)

theorem groupLoop_snoc (start : Nat) (gs : List (String × Group)) (l : List (Option String)) (x : Option String) :
    groupLoop start gs (l ++ [x]) = groupStep (groupLoop start gs l) (start + l.length) x := by
  induction l generalizing start gs with
  | nil => rfl
  | cons a l ih =>
    simp only [List.cons_append, groupLoop, ih, List.length_cons]
    congr 1
    omega

theorem groupsOf_keys (insts : List (Option String)) :
    (groupsOf insts).map (·.1) = dedup (insts.filterMap id) := by
  simp [groupsOf, List.map_map, Function.comp_def]

theorem groupsOf_get (insts : List (Option String)) (g : String) :
    dictGet (groupsOf insts) g = if g ∈ insts.filterMap id then
      some ⟨g, (dedup (insts.filterMap id)).idxOf g, members insts g⟩ else none := by
  rw [groupsOf, dictGet_map]
  simp only [mem_dedup]

theorem determineGroups_eq (insts : List (Option String)) : determineGroups [] insts = groupsOf insts := by
  induction insts using List.reverseRecOn with
  | nil => rfl
  | append_singleton l x ih =>
    unfold determineGroups at ih ⊢
    rw [groupLoop_snoc, ih, Nat.zero_add]
    cases x with
    | none =>
      have : ∀ g, members (l ++ [none]) g = members l g := by intro g; simp [members_snoc]
      simp [groupStep, groupsOf, this]
    | some a =>
      have hf : (l ++ [some a]).filterMap id = l.filterMap id ++ [a] := by simp
      have hlen : (groupsOf l).length = (dedup (l.filterMap id)).length := by simp [groupsOf]
      apply dict_ext
      · rw [groupsOf_keys, hf, dedup_snoc]
        simp only [groupStep, groupsOf_get]
        by_cases h : a ∈ l.filterMap id
        · simp only [h, if_true, groupsOf_get]
          rw [dictSet_keys, groupsOf_keys, if_pos ((mem_dedup _ _).2 h)]
        · simp only [h, if_false, dictGet_dictSet, if_true]
          rw [dictSet_keys, dictSet_keys, groupsOf_keys, if_neg (fun hc => h ((mem_dedup _ _).1 hc))]
          simp
      · simp only [groupStep]
        have hnd : ((groupsOf l).map (·.1)).Nodup := by rw [groupsOf_keys]; exact dedup_nodup _
        split
        · apply dictSet_keys_nodup
          split
          · exact hnd
          · exact dictSet_keys_nodup _ _ _ hnd
        · split
          · exact hnd
          · exact dictSet_keys_nodup _ _ _ hnd
      · intro k
        rw [groupsOf_get, hf, dedup_snoc, members_snoc]
        simp only [groupStep, groupsOf_get, Option.some.injEq, List.mem_append, List.mem_singleton]
        by_cases h : a ∈ l.filterMap id
        · simp only [h, if_true, groupsOf_get, dictGet_dictSet]
          by_cases hk : a = k
          · subst hk; simp [h]
          · have hk' : ¬ k = a := fun hc => hk hc.symm
            simp [hk, hk']
        · simp only [h, if_false, dictGet_dictSet, if_true, groupsOf_get]
          have hm : members l a = [] := by
            unfold members
            rw [List.filter_eq_nil_iff]
            intro i _
            simp only [beq_iff_eq]
            intro hc
            exact h (List.mem_filterMap.2 ⟨some a, List.mem_of_getElem? hc, rfl⟩)
          by_cases hk : a = k
          · subst hk
            have hnot : a ∉ dedup (l.filterMap id) := fun hc => h ((mem_dedup _ _).1 hc)
            rw [List.idxOf_append_of_notMem hnot]
            simp [hm, hlen]
          · have hk' : ¬ k = a := fun hc => hk hc.symm
            simp only [hk, hk', if_false, or_false, List.append_nil]
            by_cases hkl : k ∈ l.filterMap id
            · simp only [hkl, if_true]
              rw [List.idxOf_append_of_mem ((mem_dedup _ _).2 hkl)]
            · rw [if_neg hkl, if_neg hkl]

theorem mem_members (insts : List (Option String)) (g : String) (i : Nat) :
    i ∈ members insts g ↔ insts[i]? = some (some g) := by
  unfold members
  rw [List.mem_filter, List.mem_range, beq_iff_eq]
  constructor
  · exact fun h => h.2
  · intro h
    exact ⟨(List.getElem?_eq_some_iff.1 h).1, h⟩

theorem members_sorted (insts : List (Option String)) (g : String) : (members insts g).Pairwise (· < ·) :=
  List.pairwise_lt_range.filter _

theorem foldl_max_spec (l : List Nat) (m : Nat) : (∀ i ∈ l, i ≤ l.foldl max m) ∧ m ≤ l.foldl max m ∧
    (l.foldl max m = m ∨ l.foldl max m ∈ l) := by
  induction l generalizing m with
  | nil => simp
  | cons a l ih =>
    obtain ⟨h1, h2, h3⟩ := ih (max m a)
    simp only [List.foldl_cons, List.mem_cons]
    refine ⟨?_, by omega, ?_⟩
    · rintro i (rfl | hi)
      · omega
      · exact h1 i hi
    · rcases h3 with h3 | h3
      · rcases Nat.le_total m a with h | h
        · right; left; rw [h3]; omega
        · left; rw [h3]; omega
      · exact .inr (.inr h3)

theorem foldl_min_spec (l : List Nat) (m : Nat) : (∀ i ∈ l, l.foldl min m ≤ i) ∧ l.foldl min m ≤ m ∧
    (l.foldl min m = m ∨ l.foldl min m ∈ l) := by
  induction l generalizing m with
  | nil => simp
  | cons a l ih =>
    obtain ⟨h1, h2, h3⟩ := ih (min m a)
    simp only [List.foldl_cons, List.mem_cons]
    refine ⟨?_, by omega, ?_⟩
    · rintro i (rfl | hi)
      · omega
      · exact h1 i hi
    · rcases h3 with h3 | h3
      · rcases Nat.le_total m a with h | h
        · left; rw [h3]; omega
        · right; left; rw [h3]; omega
      · exact .inr (.inr h3)

/-- **C26**: on an instrument without groups, `determine_groups` creates a group for exactly the group names in use,
numbered 0, 1, ... in order of first use; each holds the numbers of exactly the instances naming it, in increasing
order. The instance a group calls its leader is the first naming it, and its last id the last one naming it. -/
theorem groups_collect_members (insts : List (Option String)) :
    (∀ g, g ∈ (determineGroups [] insts).map (·.1) ↔ some g ∈ insts) ∧
    ((determineGroups [] insts).map (·.1)).Nodup ∧
    ((determineGroups [] insts).map (·.1)).Sublist (insts.filterMap id) ∧
    (∀ (k : Nat) (g : String) (x : Group), (determineGroups [] insts)[k]? = some (g, x) →
      x.name = g ∧ x.index = k ∧ x.ids.Pairwise (· < ·) ∧
      (∀ i, i ∈ x.ids ↔ insts[i]? = some (some g)) ∧
      (∀ i, x.isLeader i = true ↔ insts[i]? = some (some g) ∧ ∀ j, insts[j]? = some (some g) → i ≤ j) ∧
      insts[x.firstId]? = some (some g) ∧ (∀ j, insts[j]? = some (some g) → x.firstId ≤ j) ∧
      insts[x.lastId]? = some (some g) ∧ (∀ j, insts[j]? = some (some g) → j ≤ x.lastId)) := by
  rw [determineGroups_eq]
  refine ⟨fun g => ?_, ?_, ?_, fun k g x h => ?_⟩
  · rw [groupsOf_keys, mem_dedup, List.mem_filterMap]
    simp
  · rw [groupsOf_keys]; exact dedup_nodup _
  · rw [groupsOf_keys]; exact dedup_sublist _
  · have hks : (dedup (insts.filterMap id))[k]? = some g ∧
        x = ⟨g, (dedup (insts.filterMap id)).idxOf g, members insts g⟩ := by
      simp only [groupsOf, List.getElem?_map, Option.map_eq_some_iff, Prod.mk.injEq] at h
      obtain ⟨g', hg, rfl, rfl⟩ := h
      exact ⟨hg, rfl⟩
    obtain ⟨hk, rfl⟩ := hks
    obtain ⟨hlt, hget⟩ := List.getElem?_eq_some_iff.1 hk
    have hidx : (dedup (insts.filterMap id)).idxOf g = k := by
      rw [← hget]; exact (dedup_nodup _).idxOf_getElem k hlt
    have hmem : ∃ i, i ∈ members insts g := by
      have : g ∈ insts.filterMap id := (mem_dedup _ _).1 (List.mem_of_getElem? hk)
      obtain ⟨a, ha, he⟩ := List.mem_filterMap.1 this
      simp only [id] at he
      subst he
      obtain ⟨i, hi⟩ := List.mem_iff_getElem?.1 ha
      exact ⟨i, (mem_members _ _ _).2 hi⟩
    have hsort := members_sorted insts g
    refine ⟨rfl, hidx, hsort, fun i => mem_members insts g i, fun i => ?_, ?_, ?_, ?_, ?_⟩
    · simp only [Group.isLeader, ← mem_members]
      cases hl : members insts g with
      | nil => rw [hl] at hmem; simp at hmem
      | cons a l =>
        rw [hl, List.pairwise_cons] at hsort
        simp only [beq_iff_eq, List.mem_cons]
        constructor
        · rintro rfl
          refine ⟨.inl rfl, ?_⟩
          rintro j (rfl | hj)
          · exact Nat.le_refl _
          · exact Nat.le_of_lt (hsort.1 j hj)
        · rintro ⟨rfl | hi, h2⟩
          · rfl
          · have := hsort.1 i hi
            have := h2 a (.inl rfl)
            omega
    · rw [← mem_members]
      simp only [Group.firstId]
      cases hl : members insts g with
      | nil => rw [hl] at hmem; simp at hmem
      | cons a l =>
        rcases (foldl_min_spec (a :: l) a).2.2 with h | h
        · simp only [List.headD_cons, h, List.mem_cons, true_or]
        · exact h
    · intro j hj
      rw [← mem_members] at hj
      exact (foldl_min_spec (members insts g) _).1 j hj
    · rw [← mem_members]
      simp only [Group.lastId]
      rcases (foldl_max_spec (members insts g) 0).2.2 with h | h
      · obtain ⟨i, hi⟩ := hmem
        have := (foldl_max_spec (members insts g) 0).1 i hi
        rw [h] at this ⊢
        have : i = 0 := by omega
        exact this ▸ hi
      · exact h
    · intro j hj
      rw [← mem_members] at hj
      exact (foldl_max_spec (members insts g) 0).1 j hj

example : determineGroups [] [none, some "b", some "a", none, some "b", some "a", some "b"] =
    [("b", ⟨"b", 0, [1, 4, 6]⟩), ("a", ⟨"a", 1, [2, 5]⟩)] := by decide +kernel

/-- Calling `determine_groups` a second time (or on a copy, which carries its groups along) makes members occur twice,
and adds the numbers of a part of an instrument to those of the whole. -/
theorem determine_groups_again :
    determineGroups (determineGroups [] [none, some "a", some "a"]) [none, some "a", some "a"] =
      [("a", ⟨"a", 0, [1, 2, 1, 2]⟩)] ∧
    determineGroups (determineGroups [] [none, none, some "a", some "a"]) [some "a", some "a"] =
      [("a", ⟨"a", 0, [2, 3, 0, 1]⟩)] := by decide +kernel

/-- The groups of a copy or of a part of an instrument (`Instr.copy`, instr.py 322): those of the instrument. -/
def copyGroups (gs : List (String × Group)) : List (String × Group) := gs.map fun p => (p.1, p.2)

theorem groupLoop_none (start : Nat) (gs : List (String × Group)) (l : List (Option String)) (h : ∀ x ∈ l, x = none) :
    groupLoop start gs l = gs := by
  induction l generalizing start gs with
  | nil => rfl
  | cons x l ih =>
    rw [h x List.mem_cons_self]
    simp only [groupLoop, groupStep]
    exact ih _ _ fun y hy => h y (List.mem_cons_of_mem _ hy)

theorem groupLoop_append (start : Nat) (gs : List (String × Group)) (l m : List (Option String)) :
    groupLoop start gs (l ++ m) = groupLoop (start + l.length) (groupLoop start gs l) m := by
  induction l generalizing start gs with
  | nil => rfl
  | cons x l ih =>
    simp only [List.cons_append, groupLoop, ih, List.length_cons]
    congr 1
    omega

/-- **C67** (partial): the groups of the first part of a split instrument are those of its own components, if no
component behind the split point is in a group. Missing: see `second_part_groups_stale`. -/
theorem first_part_groups_partial (insts : List (Option String)) (n : Nat) (h : ∀ x ∈ insts.drop n, x = none) :
    copyGroups (determineGroups [] insts) = determineGroups [] (insts.take n) := by
  simp only [copyGroups, List.map_id', Prod.mk.eta]
  unfold determineGroups
  conv_lhs => rw [← List.take_append_drop n insts, groupLoop_append, groupLoop_none _ _ _ h]

example : ∀ x ∈ [some "a", none, some "a", none].drop 3, x = (none : Option String) := by decide

/-- The negation of C67: the groups of the second part of a split instrument hold the numbers of the components in the
whole instrument, and there are groups of which no component
is left. -/
theorem second_part_groups_stale :
    ∃ (insts : List (Option String)) (n : Nat),
      copyGroups (determineGroups [] insts) ≠ determineGroups [] (insts.drop n) ∧
      copyGroups (determineGroups [] insts) ≠ determineGroups [] (insts.take (n + 1)) ∧
      (∃ p ∈ copyGroups (determineGroups [] insts), ∃ i ∈ p.2.ids, (insts.drop n)[i]? ≠ some (some p.1)) :=
  ⟨[some "a", none, some "b", some "b"], 1, by decide +kernel, by decide +kernel, ("a", ⟨"a", 0, [0]⟩),
    by decide +kernel, 0, by decide +kernel, by decide +kernel⟩

end Verif.Instr
