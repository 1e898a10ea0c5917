import Verif.Range.Model
import Mathlib.Tactic.Linarith
import Mathlib.Tactic.FieldSimp
import Mathlib.Tactic.Ring
import Mathlib.Tactic.Positivity

namespace Verif.Range

/-- Number of steps that fit between start and stop. -/
def MRange.quot (r : MRange) : ℚ := (r.stop - r.start) / r.step

theorem cond_iff (r : MRange) (h : r.step ≠ 0) (i : ℚ) :
    r.cond (i * r.step + r.start) = true ↔ i + 1 ≤ r.quot := by
  unfold MRange.cond MRange.quot
  rcases lt_or_gt_of_ne h with hs | hs
  · have h1 : ¬ r.step > 0 := by linarith
    simp only [h1, decide_false, Bool.false_and, Bool.false_or, hs, decide_true, Bool.true_and,
      decide_eq_true_eq]
    rw [le_div_iff_of_neg hs]
    constructor <;> intro h <;> nlinarith
  · have h1 : ¬ r.step < 0 := by linarith
    simp only [h1, decide_false, Bool.false_and, Bool.or_false, hs, decide_true, Bool.true_and,
      decide_eq_true_eq]
    rw [le_div_iff₀ hs]
    constructor <;> intro h <;> nlinarith

theorem loop_eq (r : MRange) (h : r.step ≠ 0) (n : Nat) (hn : (n : ℚ) ≤ r.quot)
    (hn' : r.quot < n + 1) :
    ∀ (k i : Nat) (fuel : Nat), i + 1 + k = n + 1 → k < fuel →
      r.loop fuel ((i : ℚ) * r.step + r.start) (i + 1) =
        some ((List.range' (i + 1) k).map fun (j : Nat) => (j : ℚ) * r.step + r.start) := by
  intro k
  induction k with
  | zero =>
    intro i fuel hi hf
    obtain ⟨f, rfl⟩ : ∃ f, fuel = f + 1 := ⟨fuel - 1, by omega⟩
    have : i = n := by omega
    subst this
    have hc : r.cond ((i : ℚ) * r.step + r.start) = false := by
      rw [Bool.eq_false_iff]
      intro hc
      rw [cond_iff r h] at hc
      linarith
    simp [MRange.loop, hc]
  | succ k ih =>
    intro i fuel hi hf
    obtain ⟨f, rfl⟩ : ∃ f, fuel = f + 1 := ⟨fuel - 1, by omega⟩
    have hc : r.cond ((i : ℚ) * r.step + r.start) = true := by
      rw [cond_iff r h]
      have : ((i + 1 : Nat) : ℚ) ≤ n := by exact_mod_cast (by omega : i + 1 ≤ n)
      push_cast at this
      linarith
    have := ih (i + 1) f (by omega) (by omega)
    simp only [MRange.loop, hc, if_true]
    rw [this]
    simp [List.range'_succ]

theorem iter_of_fits (r : MRange) (h : r.step ≠ 0) (n : Nat) (h1 : 1 ≤ n) (hn : (n : ℚ) ≤ r.quot)
    (hn' : r.quot < n + 1) (fuel : Nat) (hf : n + 1 < fuel) :
    r.iter fuel = some ((List.range (n + 1)).map fun (j : Nat) => (j : ℚ) * r.step + r.start) := by
  obtain ⟨f, rfl⟩ : ∃ f, fuel = f + 1 := ⟨fuel - 1, by omega⟩
  have hc : r.cond r.start = true := by
    have := cond_iff r h 0
    simp only [zero_mul, zero_add] at this
    rw [this]
    have : (1 : ℚ) ≤ n := by exact_mod_cast h1
    linarith
  have := loop_eq r h n hn hn' n 0 f (by omega) (by omega)
  unfold MRange.iter
  rw [MRange.loop, if_pos hc, this, List.range_eq_range', List.range'_succ]
  simp

theorem iter_empty (r : MRange) (h : r.step ≠ 0) (hq : r.quot < 1) (fuel : Nat) :
    r.iter (fuel + 1) = some [] := by
  have hc : r.cond r.start = false := by
    rw [Bool.eq_false_iff]
    intro hc
    have := cond_iff r h 0
    simp only [zero_mul, zero_add] at this
    rw [this] at hc
    linarith
  simp [MRange.iter, MRange.loop, hc]

theorem len_of_nonneg (r : MRange) (h : r.step ≠ 0) (hq : 0 ≤ r.quot) :
    r.len = .ok (⌊r.quot⌋.toNat + 1) := by
  unfold MRange.len
  have hf : 0 ≤ ⌊r.quot⌋ := Int.floor_nonneg.mpr hq
  have hp : pyInt ((r.stop - r.start) / r.step) = ⌊r.quot⌋ := by
    unfold pyInt
    rw [if_pos (by simpa [MRange.quot] using hq)]
    rfl
  simp only [h, if_false, hp]
  rw [if_neg (by omega)]
  congr 1
  omega

theorem len_of_neg (r : MRange) (h : r.step ≠ 0) (hq : r.quot < 0) :
    r.len = if ⌈r.quot⌉ + 1 < 0 then .error .valueError else .ok (⌈r.quot⌉ + 1).toNat := by
  unfold MRange.len
  have hp : pyInt ((r.stop - r.start) / r.step) = ⌈r.quot⌉ := by
    unfold pyInt
    rw [if_neg (by simpa [MRange.quot] using hq)]
    rfl
  simp only [h, if_false, hp]

theorem floor_bounds (q : ℚ) (h : 0 ≤ q) :
    ((⌊q⌋.toNat : Nat) : ℚ) ≤ q ∧ q < (⌊q⌋.toNat : Nat) + 1 := by
  have hf : 0 ≤ ⌊q⌋ := Int.floor_nonneg.mpr h
  have hc : ((⌊q⌋.toNat : Nat) : ℚ) = (⌊q⌋ : ℚ) := by
    have : ((⌊q⌋.toNat : Nat) : ℤ) = ⌊q⌋ := Int.toNat_of_nonneg hf
    exact_mod_cast this
  rw [hc]
  exact ⟨Int.floor_le q, Int.lt_floor_add_one q⟩

theorem splitColon_append (a b : List Char) (h : ':' ∉ a) :
    splitColon (a ++ ':' :: b) = a :: splitColon b := by
  induction a with
  | nil => simp [splitColon]
  | cons c cs ih =>
    simp only [List.mem_cons, not_or] at h
    simp [splitColon, Ne.symm h.1, ih h.2]

theorem splitColon_noColon (a : List Char) (h : ':' ∉ a) : splitColon a = [a] := by
  induction a with
  | nil => rfl
  | cons c cs ih =>
    simp only [List.mem_cons, not_or] at h
    simp [splitColon, Ne.symm h.1, ih h.2]

end Verif.Range
