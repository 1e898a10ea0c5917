import Verif.Range.Lemmas
import Mathlib.Data.Rat.Encodable

/-!
Properties C01, C02 and C59 (`MRange`).

Spec vocabulary (independent of the model's helpers): a grid point of `start:step:stop` is
`start + i * step` for a natural number `i` that has not passed `stop`.
-/

namespace Verif.Range

/-- `v` does not lie beyond `stop` when walking in the direction of `step`. -/
def NotPast (r : MRange) (v : ℚ) : Prop :=
  if 0 < r.step then v ≤ r.stop else r.stop ≤ v

/-- At least one whole step fits between start and stop, in the direction of the step. -/
def OneStepFits (r : MRange) : Prop := r.step ≠ 0 ∧ NotPast r (r.start + r.step)

theorem oneStepFits_iff (r : MRange) : OneStepFits r ↔ r.step ≠ 0 ∧ 1 ≤ r.quot := by
  unfold OneStepFits NotPast
  refine and_congr_right fun h => ?_
  have := cond_iff r h 0
  simp only [zero_mul, zero_add] at this
  rw [← this]
  unfold MRange.cond
  rcases lt_or_gt_of_ne h with hs | hs
  · have h1 : ¬ (0 < r.step) := by linarith
    simp [h1, hs]
  · have h1 : ¬ (r.step < 0) := by linarith
    simp [h1, hs]

/-- C01 (partial: needs `OneStepFits`, see the two negations below).
Iteration ends, and the listed values, `len` and `[]` agree: the list has `len(r)` elements, its
`i`-th element is `r[i]`, which is `start + i*step`, and indexing outside raises `IndexError`. -/
theorem mrange_views_agree_partial (r : MRange) (h : OneStepFits r) :
    ∃ (l : List ℚ) (bound : Nat), (∀ fuel ≥ bound, r.iter fuel = some l) ∧
      r.len = .ok l.length ∧
      (∀ (i : Nat) (hi : i < l.length),
        r.getitem i = .ok l[i] ∧ l[i] = r.start + i * r.step) ∧
      (∀ i : Int, (i < 0 ∨ i ≥ l.length) → r.getitem i = .error .indexError) := by
  obtain ⟨hs, hq⟩ := (oneStepFits_iff r).mp h
  have hq0 : 0 ≤ r.quot := by linarith
  obtain ⟨b1, b2⟩ := floor_bounds r.quot hq0
  set n := ⌊r.quot⌋.toNat with hn
  have h1 : 1 ≤ n := by
    by_contra hc
    have : n = 0 := by omega
    rw [this] at b2
    norm_num at b2
    linarith
  have hlen := len_of_nonneg r hs hq0
  rw [← hn] at hlen
  refine ⟨(List.range (n + 1)).map fun (j : Nat) => (j : ℚ) * r.step + r.start, n + 2, ?_, ?_, ?_, ?_⟩
  · intro fuel hf
    exact iter_of_fits r hs n h1 b1 b2 fuel (by omega)
  · simp [hlen]
  · intro i hi
    simp only [List.length_map, List.length_range] at hi
    refine ⟨?_, ?_⟩
    · unfold MRange.getitem
      rw [hlen]
      dsimp only
      rw [if_neg (by omega)]
      simp
    · simp; ring
  · intro i hi
    simp only [List.length_map, List.length_range] at hi
    unfold MRange.getitem
    rw [hlen]
    dsimp only
    rw [if_pos (by omega)]

/-- The hypothesis is met by `1:1:5`, whose list is not trivial. -/
example : OneStepFits ⟨1, 5, 1⟩ ∧ (⟨1, 5, 1⟩ : MRange).iter 10 = some [1, 2, 3, 4, 5] := by
  refine ⟨⟨by norm_num, by norm_num [NotPast]⟩, by decide +kernel⟩

/-- A descending range with a fractional step. -/
example : OneStepFits ⟨1, -1/4, -1/2⟩ ∧
    (⟨1, -1/4, -1/2⟩ : MRange).iter 10 = some [1, 1/2, 0] := by
  refine ⟨⟨by norm_num, by norm_num [NotPast]⟩, by decide +kernel⟩

/-- What happens outside `OneStepFits`: the list is always empty. -/
theorem mrange_no_step_no_values (r : MRange) (hs : r.step ≠ 0) (h : ¬ OneStepFits r) (fuel : Nat) :
    r.iter (fuel + 1) = some [] := by
  refine iter_empty r hs ?_ fuel
  rw [oneStepFits_iff] at h
  push Not at h
  exact h hs

example : ¬ OneStepFits ⟨1, 3, 5⟩ := by norm_num [OneStepFits, NotPast]

/-- Iteration of every accepted range ends. -/
theorem mrange_iteration_ends (a b s : ℚ) (r : MRange) (h : MRange.new a b s = .ok r) :
    ∃ (l : List ℚ) (bound : Nat), ∀ fuel ≥ bound, r.iter fuel = some l := by
  have hs : r.step ≠ 0 := by
    unfold MRange.new at h
    split at h
    · cases h
    · split at h
      · cases h
      · cases h; assumption
  by_cases hf : OneStepFits r
  · obtain ⟨l, b, hl, _⟩ := mrange_views_agree_partial r hf
    exact ⟨l, b, hl⟩
  · refine ⟨[], 1, fun fuel hfuel => ?_⟩
    obtain ⟨f, rfl⟩ : ∃ f, fuel = f + 1 := ⟨fuel - 1, by omega⟩
    exact mrange_no_step_no_values r hs hf f

example : MRange.new 1 3 5 = .ok ⟨1, 3, 5⟩ := by decide +kernel

/-- The full C01 is false for the code: the accepted range `1:5:3` (start 1, step 5, stop 3) has length
one and a first element, but iterating it yields nothing. -/
theorem mrange_views_disagree_short :
    ∃ r : MRange, MRange.new r.start r.stop r.step = .ok r ∧
      r.len = .ok 1 ∧ r.getitem 0 = .ok 1 ∧ ∀ fuel, r.iter (fuel + 1) = some [] :=
  ⟨⟨1, 3, 5⟩, by decide +kernel, by decide +kernel, by decide +kernel,
    fun fuel => mrange_no_step_no_values _ (by norm_num) (by norm_num [OneStepFits, NotPast]) fuel⟩

/-- ... and `5:1:1` (the step points away) is accepted, iterates over nothing, while `len` raises. -/
theorem mrange_views_disagree_backwards :
    ∃ r : MRange, MRange.new r.start r.stop r.step = .ok r ∧
      r.len = .error .valueError ∧ ∀ fuel, r.iter (fuel + 1) = some [] :=
  ⟨⟨5, 1, 1⟩, by decide +kernel, by decide +kernel,
    fun fuel => mrange_no_step_no_values _ (by norm_num) (by norm_num [OneStepFits, NotPast]) fuel⟩

/-- Exactly which ranges disagree: for an accepted range, `len(r)` equals the number of values listed
if and only if a whole step fits, or `(stop-start)/step` lies in `(-2, -1]` (where both are zero). -/
theorem mrange_len_matches_iff (r : MRange) (hs : r.step ≠ 0) (fuel : Nat) (l : List ℚ)
    (hl : r.iter (fuel + 1) = some l) (hf : ∀ f ≥ fuel + 1, r.iter f = some l) :
    r.len = .ok l.length ↔ OneStepFits r ∨
      (-2 < (r.stop - r.start) / r.step ∧ (r.stop - r.start) / r.step ≤ -1) := by
  by_cases h : OneStepFits r
  · simp only [h, true_or, iff_true]
    obtain ⟨l', b, hl', hlen, _⟩ := mrange_views_agree_partial r h
    have e1 := hl' (max b (fuel + 1)) (le_max_left _ _)
    have e2 := hf (max b (fuel + 1)) (le_max_right _ _)
    rw [e1] at e2
    cases e2
    exact hlen
  · have hn := mrange_no_step_no_values r hs h fuel
    rw [hl] at hn
    cases hn
    simp only [h, false_or, List.length_nil]
    have hq : r.quot < 1 := by
      rw [oneStepFits_iff] at h
      push Not at h
      exact h hs
    change _ ↔ (-2 < r.quot ∧ r.quot ≤ -1)
    by_cases h0 : 0 ≤ r.quot
    · rw [len_of_nonneg r hs h0]
      constructor
      · intro hc; simp at hc
      · intro hc; linarith [hc.2]
    · rw [len_of_neg r hs (lt_of_not_ge h0)]
      have e : (-2 < r.quot ∧ r.quot ≤ -1) ↔ ⌈r.quot⌉ = -1 := by
        rw [Int.ceil_eq_iff]
        push_cast
        constructor <;> rintro ⟨a, b⟩ <;> constructor <;> linarith
      rw [e]
      have hc0 : ⌈r.quot⌉ ≤ 0 := by
        rw [Int.ceil_le]; push_cast; linarith
      split
      · constructor
        · intro hc; cases hc
        · intro hc; omega
      · constructor
        · intro hc
          have : (⌈r.quot⌉ + 1).toNat = 0 := by
            injection hc
          omega
        · intro hc; rw [hc]; rfl

example : ∃ l, (⟨1, 5, 1⟩ : MRange).iter (9 + 1) = some l ∧
    (⟨1, 5, 1⟩ : MRange).len = .ok l.length := ⟨[1, 2, 3, 4, 5], by decide +kernel, by decide +kernel⟩

/-- C02. When a whole step fits, the values listed are exactly the grid points that do not pass `stop`,
each once, in step order. -/
theorem mrange_lists_exactly_the_grid (r : MRange) (h : OneStepFits r) :
    ∃ (l : List ℚ) (bound : Nat), (∀ fuel ≥ bound, r.iter fuel = some l) ∧
      (∀ v, v ∈ l ↔ ∃ i : Nat, v = r.start + i * r.step ∧ NotPast r v) ∧
      l.Nodup ∧
      (∀ (i j : Nat) (hij : i < j) (hj : j < l.length), 0 < (l[j] - l[i]) * r.step) ∧
      l.head? = some r.start := by
  obtain ⟨hs, hq⟩ := (oneStepFits_iff r).mp h
  have hq0 : 0 ≤ r.quot := by linarith
  obtain ⟨b1, b2⟩ := floor_bounds r.quot hq0
  set n := ⌊r.quot⌋.toNat with hn
  have h1 : 1 ≤ n := by
    by_contra hc
    have : n = 0 := by omega
    rw [this] at b2
    norm_num at b2
    linarith
  have key : ∀ i : Nat, NotPast r (r.start + i * r.step) ↔ i ≤ n := by
    intro i
    have e : NotPast r (r.start + i * r.step) ↔ (i : ℚ) ≤ r.quot := by
      unfold NotPast MRange.quot
      rcases lt_or_gt_of_ne hs with h' | h'
      · rw [if_neg (by linarith), le_div_iff_of_neg h']
        constructor <;> intro h <;> linarith
      · rw [if_pos h', le_div_iff₀ h']
        constructor <;> intro h <;> linarith
    rw [e]
    constructor
    · intro hi
      by_contra hc
      have : ((n + 1 : Nat) : ℚ) ≤ i := by exact_mod_cast (by omega : n + 1 ≤ i)
      push_cast at this
      linarith
    · intro hi
      have : (i : ℚ) ≤ n := by exact_mod_cast hi
      linarith
  refine ⟨(List.range (n + 1)).map fun (j : Nat) => (j : ℚ) * r.step + r.start, n + 2, ?_, ?_, ?_, ?_, ?_⟩
  · intro fuel hf
    exact iter_of_fits r hs n h1 b1 b2 fuel (by omega)
  · intro v
    simp only [List.mem_map, List.mem_range]
    constructor
    · rintro ⟨i, hi, rfl⟩
      refine ⟨i, by ring, ?_⟩
      have := (key i).mpr (by omega)
      rwa [add_comm]
    · rintro ⟨i, rfl, hp⟩
      exact ⟨i, by have := (key i).mp hp; omega, by ring⟩
  · refine (List.nodup_range).map ?_
    intro a b hab
    have : ((a : ℚ) - b) * r.step = 0 := by linarith
    rcases mul_eq_zero.mp this with h' | h'
    · have : (a : ℚ) = b := by linarith
      exact_mod_cast this
    · exact absurd h' hs
  · intro i j hij hj
    simp only [List.getElem_map, List.getElem_range]
    have e : ((j : ℚ) * r.step + r.start - (i * r.step + r.start)) * r.step
        = (j - i) * (r.step * r.step) := by ring
    rw [e]
    have h2 : (0 : ℚ) < (j : ℚ) - i := by
      have : (i : ℚ) < j := by exact_mod_cast hij
      linarith
    have h3 : 0 < r.step * r.step := mul_self_pos.mpr hs
    positivity
  · simp [List.range_succ_eq_map]

example : OneStepFits ⟨0, 1, 1/4⟩ := ⟨by norm_num, by norm_num [NotPast]⟩

/-- C59. A range's text reads back as the same range, for every way of printing numbers that the number
reader inverts and that prints no colon. -/
theorem mrange_text_roundtrip (num : List Char → Except Err ℚ) (shw : ℚ → List Char)
    (hinv : ∀ q, num (shw q) = .ok q) (hcol : ∀ q, ':' ∉ shw q)
    (r : MRange) (hne : r.start ≠ r.stop) (hs : r.step ≠ 0) :
    MRange.fromStr num (r.str shw) = .ok r := by
  have hc : colons (r.str shw) = 2 := by
    simp [colons, MRange.str, List.count_append, List.count_eq_zero_of_not_mem (hcol _)]
  have hsp : splitColon (r.str shw) = [shw r.start, shw r.step, shw r.stop] := by
    have : r.str shw = shw r.start ++ ':' :: (shw r.step ++ ':' :: shw r.stop) := by
      simp [MRange.str]
    rw [this, splitColon_append _ _ (hcol _), splitColon_append _ _ (hcol _),
      splitColon_noColon _ (hcol _)]
  unfold MRange.fromStr
  rw [hc, if_neg (by omega), hsp]
  simp [hinv, MRange.new, hne, hs, bind, Except.bind]

/-- The hypotheses of the round trip can be met: a unary number notation. -/
example : ∃ (num : List Char → Except Err ℚ) (shw : ℚ → List Char),
    (∀ q, num (shw q) = .ok q) ∧ ∀ q, ':' ∉ shw q := by
  classical
  obtain ⟨f, hf⟩ : ∃ f : ℚ → Nat, Function.Injective f :=
    ⟨Encodable.encode, Encodable.encode_injective⟩
  refine ⟨fun s => if h : ∃ q, f q = s.length then .ok h.choose else .error .valueError,
    fun q => List.replicate (f q) '1', fun q => ?_, fun q => by simp⟩
  have hex : ∃ q', f q' = (List.replicate (f q) '1').length := ⟨q, by simp⟩
  dsimp only
  rw [dif_pos hex]
  congr 1
  apply hf
  simpa using hex.choose_spec

/-- A colon-free string is read as a range with equal ends, which the constructor refuses; two fields
are start and stop with step one; more than three are refused. -/
theorem mrange_text_fields (num : List Char → Except Err ℚ) (a b : List Char) (qa qb : ℚ)
    (ha : ':' ∉ a) (hb : ':' ∉ b) (na : num a = .ok qa) (nb : num b = .ok qb)
    (n1 : num ['1'] = .ok 1) :
    MRange.fromStr num a = .error .valueError ∧
    MRange.fromStr num (a ++ ':' :: b) = MRange.new qa qb 1 ∧
    (∀ s, 2 < s.count ':' → MRange.fromStr num s = .error .valueError) := by
  refine ⟨?_, ?_, ?_⟩
  · unfold MRange.fromStr
    rw [splitColon_noColon a ha]
    simp [colons, List.count_eq_zero_of_not_mem ha, na, n1, bind, Except.bind, MRange.new]
  · unfold MRange.fromStr
    rw [splitColon_append a b ha, splitColon_noColon b hb]
    simp [colons, List.count_append, List.count_eq_zero_of_not_mem ha,
      List.count_eq_zero_of_not_mem hb, na, nb, n1, bind, Except.bind]
  · intro s hs
    simp [MRange.fromStr, colons, hs]

example : ':' ∉ ['4', '2'] := by decide

end Verif.Range
