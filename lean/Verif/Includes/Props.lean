import Verif.Includes.Model
import Mathlib.Logic.Relation
import Mathlib.Tactic.Push
import Mathlib.Tactic.ByContra

/-!
C33: the order of included libraries. An order that is returned has every library once and after all the libraries it
includes, whatever `sorted` does; libraries including each other are refused. Not every possible order is found: a file
that includes `d` and then `b`, where `d` includes `b`, makes the translation fail.
-/

namespace Verif.Includes

theorem firstOfEach_names (l : List CInclude) (used : List String) :
    ((firstOfEach used l).map (·.name)).Nodup ∧
      ∀ n, n ∈ (firstOfEach used l).map (·.name) ↔ n ∈ l.map (·.name) ∧ n ∉ used := by
  induction l generalizing used with
  | nil => simp [firstOfEach]
  | cons i l ih =>
    rw [firstOfEach]
    split_ifs with h
    · obtain ⟨h1, h2⟩ := ih used
      refine ⟨h1, fun n => ?_⟩
      rw [h2, List.map_cons, List.mem_cons]
      constructor
      · rintro ⟨a, b⟩; exact ⟨.inr a, b⟩
      · rintro ⟨a | a, b⟩
        · subst a; exact absurd h b
        · exact ⟨a, b⟩
    · obtain ⟨h1, h2⟩ := ih (used ++ [i.name])
      constructor
      · rw [List.map_cons, List.nodup_cons]
        refine ⟨?_, h1⟩
        rw [h2]
        simp
      · intro n
        rw [List.map_cons, List.mem_cons, h2, List.map_cons, List.mem_cons]
        simp only [List.mem_append, List.mem_singleton, not_or]
        constructor
        · rintro (rfl | ⟨a, b, c⟩)
          · exact ⟨.inl rfl, h⟩
          · exact ⟨.inr a, b⟩
        · rintro ⟨a, b⟩
          by_cases hn : n = i.name
          · exact .inl hn
          · rcases a with a | a
            · exact .inl a
            · exact .inr ⟨a, b, hn⟩

theorem firstOfEach_sub (l : List CInclude) (used : List String) : ∀ i ∈ firstOfEach used l, i ∈ l := by
  induction l generalizing used with
  | nil => simp [firstOfEach]
  | cons i l ih =>
    intro j hj
    rw [firstOfEach] at hj
    split_ifs at hj with h
    · exact List.mem_cons_of_mem _ (ih used j hj)
    · rcases List.mem_cons.mp hj with rfl | hj
      · exact List.mem_cons_self
      · exact List.mem_cons_of_mem _ (ih _ j hj)

/-- `b` comes before `a`. -/
def Before (order : List String) (b a : String) : Prop := ∃ l m r, order = l ++ b :: m ++ a :: r

theorem before_of_idx (order : List String) (a b : String) (ha : a ∈ order) (hb : b ∈ order) (hne : a ≠ b)
    (h : ¬order.idxOf a < order.idxOf b) : Before order b a := by
  have hb' := List.idxOf_lt_length_of_mem hb
  have ha' := List.idxOf_lt_length_of_mem ha
  have hlt : order.idxOf b < order.idxOf a := by
    rcases Nat.lt_or_ge (order.idxOf b) (order.idxOf a) with h' | h'
    · exact h'
    · have : order.idxOf a = order.idxOf b := by omega
      exact absurd ((List.idxOf_inj ha).mp this) hne
  refine ⟨order.take (order.idxOf b), (order.drop (order.idxOf b + 1)).take (order.idxOf a - order.idxOf b - 1),
    order.drop (order.idxOf a + 1), ?_⟩
  have e1 : order[order.idxOf b] = b := List.getElem_idxOf hb'
  have e2 : order[order.idxOf a] = a := List.getElem_idxOf ha'
  conv_lhs => rw [← List.take_append_drop (order.idxOf b) order, List.drop_eq_getElem_cons hb', e1]
  rw [List.append_assoc]
  congr 1
  rw [List.cons_append]
  congr 1
  conv_lhs => rw [← List.take_append_drop (order.idxOf a - order.idxOf b - 1) (order.drop (order.idxOf b + 1))]
  congr 1
  rw [List.drop_drop]
  have : order.idxOf b + 1 + (order.idxOf a - order.idxOf b - 1) = order.idxOf a := by omega
  rw [this, List.drop_eq_getElem_cons ha', e2]

/-- The positions in an order with every name once. -/
theorem Before.lt {order : List String} (hn : order.Nodup) {b a : String} (h : Before order b a) :
    order.idxOf b < order.idxOf a := by
  obtain ⟨l, m, r, rfl⟩ := h
  rw [List.append_assoc, List.cons_append] at hn ⊢
  obtain ⟨_, h2, h3⟩ := List.nodup_append.mp hn
  have hb : b ∉ l := fun hb => h3 b hb b (by simp) rfl
  have ha : a ∉ l := fun ha => h3 a ha a (by simp) rfl
  have hab : b ≠ a := by
    intro hab
    subst hab
    exact (List.nodup_cons.mp h2).1 (by simp)
  rw [List.idxOf_append_of_notMem hb, List.idxOf_append_of_notMem ha, List.idxOf_cons_self, List.idxOf_cons_ne _ hab]
  omega

variable (sort : String → List CInclude → List CInclude)

theorem attempt_some {incs out : List CInclude} {root : String} (hsort : (sort root incs).Perm incs)
    (h : attempt sort incs root = some out) :
    out ⊆ incs ∧ (out.map (·.name)).Nodup ∧ (∀ n, n ∈ out.map (·.name) ↔ n ∈ incs.map (·.name)) ∧
      ∀ i ∈ incs, i.parent ∈ out.map (·.name) → i.parent ≠ i.name → Before (out.map (·.name)) i.name i.parent := by
  simp only [attempt] at h
  split_ifs at h with hc
  simp only [Option.some.injEq] at h
  obtain ⟨h1, h2⟩ := firstOfEach_names (sort root incs) []
  have h3 := firstOfEach_sub (sort root incs) []
  rw [h] at h1 h2 h3 hc
  have hmem : ∀ n, n ∈ out.map (·.name) ↔ n ∈ incs.map (·.name) := by
    intro n
    rw [h2]
    simp only [List.not_mem_nil, not_false_eq_true, and_true]
    exact (hsort.map _).mem_iff
  refine ⟨fun i hi => hsort.mem_iff.mp (h3 i hi), h1, hmem, ?_⟩
  intro i hi hp hne
  apply before_of_idx _ _ _ hp ((hmem _).mpr (List.mem_map_of_mem hi)) hne
  intro hlt
  apply hc
  rw [contradicts, List.any_eq_true]
  refine ⟨i, hi, ?_⟩
  simp only [contradictsOne, Bool.and_eq_true, decide_eq_true_eq]
  exact ⟨⟨hp, (hmem _).mpr (List.mem_map_of_mem hi)⟩, hlt⟩

/-- C33: whatever permutation `sorted` gives and in whatever order the roots are tried, the includes returned are some of
the given ones, with every included name exactly once, and every library comes after all those it includes. -/
theorem include_order_sound (roots : List String) (incs out : List CInclude)
    (hsort : ∀ r l, (sort r l).Perm l) (h : sortIncludes sort roots incs = some out) :
    out ⊆ incs ∧ (out.map (·.name)).Nodup ∧ (∀ n, n ∈ out.map (·.name) ↔ n ∈ incs.map (·.name)) ∧
      ∀ i ∈ incs, i.parent ∈ out.map (·.name) → i.parent ≠ i.name → Before (out.map (·.name)) i.name i.parent := by
  rw [sortIncludes] at h
  split_ifs at h with h0
  · have : incs = [] := List.length_eq_zero_iff.mp h0
    simp only [Option.some.injEq] at h
    subst h this
    simp
  · have hm := List.mem_of_mem_head? (Option.mem_def.mpr h)
    rw [List.mem_filterMap] at hm
    obtain ⟨r, _, hr⟩ := hm
    exact attempt_some sort (hsort r incs) hr

/-- The library `a` includes `b`, which is another file. -/
def Includes (incs : List CInclude) (a b : String) : Prop := ∃ i ∈ incs, i.parent = a ∧ i.name = b ∧ a ≠ b

/-- C33: also the libraries included indirectly come first. -/
theorem include_order_transitive (roots : List String) (incs out : List CInclude)
    (hsort : ∀ r l, (sort r l).Perm l) (h : sortIncludes sort roots incs = some out) (a b : String)
    (ha : a ∈ out.map (·.name)) (hab : Relation.TransGen (Includes incs) a b) :
    b ∈ out.map (·.name) ∧ (out.map (·.name)).idxOf b < (out.map (·.name)).idxOf a := by
  obtain ⟨_, hn, hmem, hord⟩ := include_order_sound sort roots incs out hsort h
  induction hab with
  | single hb =>
    obtain ⟨i, hi, rfl, rfl, hne⟩ := hb
    exact ⟨(hmem _).mpr (List.mem_map_of_mem hi), (hord i hi ha hne).lt hn⟩
  | tail _ hb ih =>
    obtain ⟨i, hi, rfl, rfl, hne⟩ := hb
    exact ⟨(hmem _).mpr (List.mem_map_of_mem hi), Nat.lt_trans ((hord i hi ih.1 hne).lt hn) ih.2⟩

/-- C33: libraries that include each other are refused. -/
theorem cyclic_includes_raise (roots : List String) (incs : List CInclude) (hsort : ∀ r l, (sort r l).Perm l) (a : String)
    (ha : Relation.TransGen (Includes incs) a a) : sortIncludes sort roots incs = none := by
  by_contra hcon
  obtain ⟨out, hout⟩ := Option.ne_none_iff_exists'.mp hcon
  have hmem := (include_order_sound sort roots incs out hsort hout).2.2.1
  have : a ∈ out.map (·.name) := by
    rw [hmem]
    rcases ha with hb | ⟨_, hb⟩
    all_goals
      obtain ⟨i, hi, _, rfl, _⟩ := hb
      exact List.mem_map_of_mem hi
  have := (include_order_transitive sort roots incs out hsort hout a a this ha).2
  omega

/-- C33: an exception is raised exactly if, for every root, the order found puts some library before one it includes. In
particular this is so if there is no root. -/
theorem include_order_raises_iff (roots : List String) (incs : List CInclude) (hsort : ∀ r l, (sort r l).Perm l) :
    sortIncludes sort roots incs = none ↔ incs ≠ [] ∧ ∀ r ∈ roots,
      ∃ i ∈ incs, i.parent ∈ incs.map (·.name) ∧
        Before ((firstOfEach [] (sort r incs)).map (·.name)) i.parent i.name := by
  rw [sortIncludes]
  split_ifs with h0
  · simp [List.length_eq_zero_iff.mp h0]
  · have hne : incs ≠ [] := fun h => h0 (by rw [h]; rfl)
    simp only [List.head?_eq_none_iff, List.filterMap_eq_nil_iff, hne, ne_eq, not_false_eq_true, true_and]
    refine forall_congr' fun r => forall_congr' fun _ => ?_
    obtain ⟨hn, hm⟩ := firstOfEach_names (sort r incs) []
    have hmem : ∀ n, n ∈ (firstOfEach [] (sort r incs)).map (·.name) ↔ n ∈ incs.map (·.name) := by
      intro n
      rw [hm]
      simp only [List.not_mem_nil, not_false_eq_true, and_true]
      exact ((hsort r incs).map _).mem_iff
    simp only [attempt, ite_eq_left_iff, reduceCtorEq, imp_false, not_not]
    rw [contradicts, List.any_eq_true]
    refine exists_congr fun i => and_congr_right fun hi => ?_
    simp only [contradictsOne, Bool.and_eq_true, decide_eq_true_eq, hmem]
    constructor
    · rintro ⟨⟨h1, h2⟩, h3⟩
      refine ⟨h1, before_of_idx _ _ _ ((hmem _).mpr h2) ((hmem _).mpr h1) ?_ (by omega)⟩
      intro he
      rw [he] at h3
      omega
    · rintro ⟨h1, h2⟩
      exact ⟨⟨h1, List.mem_map_of_mem hi⟩, h2.lt hn⟩

/-! ### The sort of CPython is one of these -/

theorem insertBin_perm {α : Type} (ltb : α → α → Bool) (l : List α) (x : α) : (insertBin ltb l x).Perm (x :: l) := by
  apply List.perm_insertIdx
  have : ∀ fuel lo hi, lo ≤ l.length → hi ≤ l.length → insertPos ltb x l fuel lo hi ≤ l.length := by
    intro fuel
    induction fuel with
    | zero => intro lo hi h _; exact h
    | succ fuel ih =>
      intro lo hi h1 h2
      rw [insertPos]
      split_ifs with h
      · rcases hm : l[lo + (hi - lo) / 2]? with _ | y
        · exact h1
        · simp only
          split_ifs
          · exact ih _ _ h1 (by omega)
          · exact ih _ _ (by omega) h2
      · exact h1
  exact this _ _ _ (Nat.zero_le _) (Nat.le_refl _)

theorem shortSort_perm {α : Type} (ltb : α → α → Bool) (l : List α) : (shortSort ltb l).Perm l := by
  have key : ∀ (m r : List α), (m.foldl (insertBin ltb) r).Perm (r ++ m) := by
    intro m
    induction m with
    | nil => intro r; simp
    | cons x m ih =>
      intro r
      rw [List.foldl_cons]
      refine (ih _).trans ?_
      refine ((insertBin_perm ltb r x).append_right m).trans ?_
      rw [List.cons_append]
      exact List.perm_middle.symm
  rcases l with _ | ⟨a, _ | ⟨b, l⟩⟩
  · exact List.Perm.refl _
  · exact List.Perm.refl _
  · simp only [shortSort]
    refine (key _ _).trans ?_
    conv_rhs => rw [← List.take_append_drop (1 + runLength ltb (ltb b a) a (b :: l)) (a :: b :: l)]
    split_ifs
    · exact (List.reverse_perm _).append_right _
    · exact List.Perm.refl _

theorem pySort_perm (root : String) (l : List CInclude) : (pySort root l).Perm l :=
  (List.reverse_perm _).trans ((shortSort_perm _ _).trans (List.reverse_perm _))

/-- The second example of the source (49), for which an order is found. -/
example : (sortIncludes pySort ["G"]
    [⟨"G", "Z", 0, ""⟩, ⟨"G", "A", 1, ""⟩, ⟨"G", "W", 2, ""⟩, ⟨"Z", "B", 0, ""⟩, ⟨"Z", "Y", 1, ""⟩, ⟨"A", "X", 0, ""⟩,
      ⟨"W", "Y", 0, ""⟩]).map (·.map (·.name)) = some ["Y", "X", "B", "Z", "A", "W"] := by decide +kernel

example : Relation.TransGen (Includes [⟨"a", "b", 0, ""⟩, ⟨"b", "a", 0, ""⟩]) "a" "a" :=
  .tail (.single ⟨⟨"a", "b", 0, ""⟩, by simp, rfl, rfl, by decide⟩) ⟨⟨"b", "a", 0, ""⟩, by simp, rfl, rfl, by decide⟩

/-- C33 is not complete: the library `a` includes `d` and `b`, in this order, and `d` includes `b`. The order `b`, `d`, `a`
contradicts no directive, yet the function raises. -/
theorem valid_order_not_found :
    let incs : List CInclude := [⟨"R", "a", 0, ""⟩, ⟨"a", "d", 0, ""⟩, ⟨"a", "b", 1, ""⟩, ⟨"d", "b", 0, ""⟩]
    (∀ r, isRoot incs r ↔ r = "R") ∧ sortIncludes pySort ["R"] incs = none ∧
      ∀ i ∈ incs, i.parent ∈ ["b", "d", "a"] → Before ["b", "d", "a"] i.name i.parent := by
  refine ⟨?_, by decide +kernel, ?_⟩
  · intro r
    simp only [isRoot, List.map_cons, List.map_nil, List.mem_cons, List.not_mem_nil, or_false, not_or]
    constructor
    · rintro ⟨rfl | rfl | rfl | rfl, h⟩ <;> simp_all
    · rintro rfl
      decide
  · intro i hi hp
    simp only [List.mem_cons, List.not_mem_nil, or_false] at hi
    rcases hi with rfl | rfl | rfl | rfl
    · simp at hp
    · exact ⟨["b"], [], [], rfl⟩
    · exact ⟨[], ["d"], [], rfl⟩
    · exact ⟨[], [], ["a"], rfl⟩

end Verif.Includes
