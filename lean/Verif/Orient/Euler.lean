import Verif.Orient.Props
import Mathlib.Tactic.FieldSimp

/-! Property C18: angles recovered from a rotation. -/

namespace Verif.Orient

theorem atan2Value_cos_sin (y x : ℝ) (h : 0 < x * x + y * y) :
    cosDeg (atan2Value y x) = x / Real.sqrt (x * x + y * y) ∧ sinDeg (atan2Value y x) = y / Real.sqrt (x * x + y * y) := by
  unfold atan2Value
  split_ifs with h1 h2 h3 h4
  · subst h1
    have : Real.sqrt (x * x + 0 * 0) = x := by rw [mul_zero, add_zero, Real.sqrt_mul_self h2.le]
    rw [this, cosDeg_zero, sinDeg_zero, div_self (ne_of_gt h2), zero_div]
    exact ⟨rfl, rfl⟩
  · subst h1
    have hx : x < 0 := by
      rcases lt_trichotomy x 0 with h | h | h
      · exact h
      · subst h; simp at *
      · exact absurd h h2
    have : Real.sqrt (x * x + 0 * 0) = -x := by
      rw [mul_zero, add_zero, ← neg_mul_neg, Real.sqrt_mul_self (by linarith)]
    rw [this, cosDeg_180, sinDeg_180, zero_div]
    refine ⟨?_, rfl⟩
    rw [div_neg, div_self (ne_of_lt hx)]
  · subst h3
    have : Real.sqrt (0 * 0 + y * y) = y := by rw [mul_zero, zero_add, Real.sqrt_mul_self h4.le]
    have e : (180 : ℝ) / 2 = 90 := by norm_num
    rw [this, e, cosDeg_90, sinDeg_90, div_self h1, zero_div]
    exact ⟨rfl, rfl⟩
  · subst h3
    have hy : y < 0 := lt_of_le_of_ne (not_lt.1 h4) h1
    have : Real.sqrt (0 * 0 + y * y) = -y := by
      rw [mul_zero, zero_add, ← neg_mul_neg, Real.sqrt_mul_self (by linarith)]
    have e : (180 : ℝ) / 2 = 90 := by norm_num
    rw [this, e, cosDeg_neg, sinDeg_neg, cosDeg_90, sinDeg_90, zero_div, div_neg, div_self h1]
    exact ⟨rfl, rfl⟩
  · have hpi := Real.pi_ne_zero
    have e : Complex.arg ⟨x, y⟩ / Real.pi * 180 / 180 * Real.pi = Complex.arg ⟨x, y⟩ := by field_simp
    have hne : (⟨x, y⟩ : ℂ) ≠ 0 := fun hc => h3 (congrArg Complex.re hc)
    have hn : ‖(⟨x, y⟩ : ℂ)‖ = Real.sqrt (x * x + y * y) := by
      rw [Complex.norm_def, Complex.normSq_mk]
    rw [cosDeg, sinDeg, e, Complex.cos_arg hne, Complex.sin_arg, hn]
    exact ⟨rfl, rfl⟩

theorem cosFromSin_eq (v : ℝ) : cosFromSin v = Real.sqrt (1 - v * v) := by
  unfold cosFromSin
  split_ifs with h1 h2
  · subst h1; simp
  · subst h2; simp
  · rfl

/-- The rotation with three given angles, in degrees: turn about x, then y, then z. -/
noncomputable def rotationOfAngles (a : Vec ℝ) : Rot ℝ :=
  (turn .z (cosDeg a.z) (sinDeg a.z)).mul ((turn .y (cosDeg a.y) (sinDeg a.y)).mul (turn .x (cosDeg a.x) (sinDeg a.x)))

/-- `Rotation.from_angles` of literal angles is that rotation. -/
theorem fromAngles_lit {E : Type} (e : E) (x y z : ℝ) :
    (fromAngles ⟨.lit x, .lit y, .lit z⟩ true : Rot (Sc E)).val e = rotationOfAngles ⟨x, y, z⟩ := by
  rw [fromAngles_val]
  simp [cosExpr, sinExpr, rotationOfAngles]

/-- C18: the angles recovered from a rotation give that rotation back, unless the recovered axis z lies along x, that is
unless the turn about y is a quarter turn. Missing: that case, see `euler_angles_lost_at_quarter_turn`. -/
theorem euler_angles_roundtrip_partial (m : Rot ℝ) (ho : m.Orthogonal) (hd : m.det = 1) (h1 : m.zx ≠ 1) (h2 : m.zx ≠ -1) :
    rotationOfAngles (eulerAngles m) = m := by
  have r := ho.right
  have l := ho.left
  have rzz := congrArg Rot.zz r
  have rxz := congrArg Rot.xz r
  have ryz := congrArg Rot.yz r
  have l1 := congrArg Rot.xx l
  have l2 := congrArg Rot.xy l
  have l3 := congrArg Rot.xz l
  simp only [Rot.mul, Rot.transpose, Rot.one] at rzz rxz ryz l1 l2 l3
  have d := hd
  simp only [Rot.det] at d
  have hyx : m.yx = m.xz * m.zy - m.xy * m.zz := by
    linear_combination (-m.yx) * d + (m.xz * m.zy - m.xy * m.zz) * l1 + (-(m.xz * m.zx - m.xx * m.zz)) * l2
      + (-(m.xx * m.zy - m.xy * m.zx)) * l3
  have hxx : m.xx = m.yy * m.zz - m.yz * m.zy := by
    linear_combination (-m.xx) * d + (m.yy * m.zz - m.yz * m.zy) * l1 + (m.yz * m.zx - m.yx * m.zz) * l2
      + (m.yx * m.zy - m.yy * m.zx) * l3
  -- the cosine of the turn about y
  have hpos : 0 < 1 - m.zx * m.zx := by
    have hle : m.zx * m.zx ≤ 1 := by nlinarith [mul_self_nonneg m.zy, mul_self_nonneg m.zz]
    rcases lt_or_eq_of_le hle with h | h
    · linarith
    · exfalso
      have : (m.zx - 1) * (m.zx + 1) = 0 := by linear_combination h
      rcases mul_eq_zero.1 this with h | h
      · exact h1 (by linarith)
      · exact h2 (by linarith)
  obtain ⟨c, hc⟩ : ∃ c, c = Real.sqrt (1 - m.zx * m.zx) := ⟨_, rfl⟩
  have hc2 : c * c = 1 - m.zx * m.zx := by rw [hc, Real.mul_self_sqrt hpos.le]
  have hcpos : 0 < c := by rw [hc]; exact Real.sqrt_pos.2 hpos
  have hc0 : c ≠ 0 := ne_of_gt hcpos
  obtain ⟨x1, x2⟩ := atan2Value_cos_sin (-m.zy) m.zz (by nlinarith)
  obtain ⟨y1, y2⟩ := atan2Value_cos_sin m.zx c (by nlinarith [mul_self_nonneg m.zx])
  obtain ⟨z1, z2⟩ := atan2Value_cos_sin (-m.yx) m.xx (by nlinarith)
  have ex : m.zz * m.zz + -m.zy * -m.zy = 1 - m.zx * m.zx := by linear_combination rzz
  have ey : c * c + m.zx * m.zx = 1 := by linear_combination hc2
  have ez : m.xx * m.xx + -m.yx * -m.yx = 1 - m.zx * m.zx := by linear_combination l1
  rw [ex, ← hc] at x1 x2
  rw [ey, Real.sqrt_one, div_one] at y1 y2
  rw [ez, ← hc] at z1 z2
  simp only [rotationOfAngles, eulerAngles, cosFromSin_eq, ← hc, x1, x2, y1, y2, z1, z2]
  have hcz : c * c = m.zy * m.zy + m.zz * m.zz := by linear_combination hc2 - rzz
  ext <;> simp only [turn, Rot.mul] <;> field_simp
  · ring
  · linear_combination -m.zy * rxz - m.zz * hyx - m.xy * hcz
  · linear_combination -m.zz * rxz + m.zy * hyx - m.xz * hcz
  · ring
  · linear_combination -m.zy * ryz + m.zz * hxx - m.yy * hcz
  · linear_combination -m.zz * ryz - m.zy * hxx - m.yz * hcz
  · ring
  · ring
  · ring

theorem rotationOfAngles_proper (a : Vec ℝ) : (rotationOfAngles a).Orthogonal ∧ (rotationOfAngles a).det = 1 := by
  obtain ⟨x, y, z⟩ := a
  rw [← fromAngles_lit ()]
  exact from_angles_proper () _ true

/-- Rotations with two arbitrary angles meet the hypotheses. -/
example (x z : ℝ) : (rotationOfAngles ⟨x, 0, z⟩).Orthogonal ∧ (rotationOfAngles ⟨x, 0, z⟩).det = 1 ∧
    (rotationOfAngles ⟨x, 0, z⟩).zx ≠ 1 ∧ (rotationOfAngles ⟨x, 0, z⟩).zx ≠ -1 := by
  refine ⟨(rotationOfAngles_proper _).1, (rotationOfAngles_proper _).2, ?_, ?_⟩ <;>
    simp [rotationOfAngles, turn, Rot.mul]

/-- C18 fails when the turn about y is a quarter turn: the angles recovered from the rotation by 90 degrees about x and
then 90 degrees about y give another rotation. -/
theorem euler_angles_lost_at_quarter_turn :
    rotationOfAngles (eulerAngles (rotationOfAngles ⟨90, 90, 0⟩)) ≠ rotationOfAngles ⟨90, 90, 0⟩ := by
  have hm : rotationOfAngles ⟨90, 90, 0⟩ = ⟨0, 1, 0, 0, 0, 1, 1, 0, 0⟩ := by
    ext <;> simp [rotationOfAngles, turn, Rot.mul]
  rw [hm]
  have he : eulerAngles ⟨0, 1, 0, 0, 0, 1, 1, 0, 0⟩ = ⟨180, 90, 180⟩ := by
    ext
    · simp [eulerAngles, atan2Value]
    · simp only [eulerAngles, atan2Value, cosFromSin]; norm_num
    · simp [eulerAngles, atan2Value]
  rw [he]
  intro h
  have := congrArg Rot.xy h
  simp [rotationOfAngles, turn, Rot.mul] at this

end Verif.Orient
