import Verif.Orient.Model
import Mathlib.Analysis.SpecialFunctions.Trigonometric.Inverse
import Mathlib.Tactic.FieldSimp

/-!
C108: the axis and angle of a rotation, `Part.rotation_axis_angle` (src/mccode_antlr/instr/orientation.py 459-490), and
`Part.specialization` (539-551) for parts that do not move.

`numpy.linalg.eig` is not modelled: `axis` is any vector it may return for the eigenvalue 1, which is a vector of length one that the
matrix leaves alone (its sign is not determined). Numbers are exact.
-/

namespace Verif.Orient.AxisAngle

open Real

/-- `Vector.cross_matrix` (111-113). -/
def cross (a : Vec ℝ) : Rot ℝ := ⟨0, -a.z, a.y, a.z, 0, -a.x, -a.y, a.x, 0⟩

/-- `Matrix.__mul__` with a number (59-62). -/
def scale (m : Rot ℝ) (k : ℝ) : Rot ℝ :=
  ⟨m.xx * k, m.xy * k, m.xz * k, m.yx * k, m.yy * k, m.yz * k, m.zx * k, m.zy * k, m.zz * k⟩

/-- `Matrix.__add__` (64-68). -/
def plus (a b : Rot ℝ) : Rot ℝ :=
  ⟨a.xx + b.xx, a.xy + b.xy, a.xz + b.xz, a.yx + b.yx, a.yy + b.yy, a.yz + b.yz, a.zx + b.zx, a.zy + b.zy, a.zz + b.zz⟩

/-- `acos_degree` (317-319). -/
noncomputable def acosDeg (v : ℝ) : ℝ := arccos v / π * 180

/-- The cosine of the angle (478-481). -/
noncomputable def cosAngle (flat : Rot ℝ) : ℝ :=
  let c := (flat.xx + flat.yy + flat.zz - 1) / 2
  if 1 < |c| then (if 0 < c then 1 else -1) else c

/-- The matrix to compare with (487-488). -/
noncomputable def trial (axis : Vec ℝ) (angle : ℝ) : Rot ℝ :=
  plus (plus Rot.one (scale (cross axis) ((sinValue (.lit angle : Sc Unit)).val ())))
    (scale ((cross axis).mul (cross axis)) (1 - (cosValue (.lit angle : Sc Unit)).val ()))

/-- Some entries differ in sign (490). -/
def Differ (a b : Rot ℝ) : Prop :=
  a.xx * b.xx < 0 ∨ a.xy * b.xy < 0 ∨ a.xz * b.xz < 0 ∨ a.yx * b.yx < 0 ∨ a.yy * b.yy < 0 ∨ a.yz * b.yz < 0 ∨
    a.zx * b.zx < 0 ∨ a.zy * b.zy < 0 ∨ a.zz * b.zz < 0

open Classical in
/-- The angle, in degrees, of `rotation_axis_angle` (478-490), for the rotation of coordinates and the axis found. -/
noncomputable def angleOf (flat : Rot ℝ) (axis : Vec ℝ) : ℝ :=
  let angle := acosDeg (cosAngle flat)
  if Differ flat (trial axis angle) then -angle else angle

/-! ### What is meant -/

/-- A rotation: its transpose is its inverse, and its determinant is one. -/
structure Proper (m : Rot ℝ) : Prop where
  orthogonal : m.transpose.mul m = Rot.one
  det : m.xx * (m.yy * m.zz - m.yz * m.zy) - m.xy * (m.yx * m.zz - m.yz * m.zx) + m.xz * (m.yx * m.zy - m.yy * m.zx) = 1

/-- What `eig` may return: a vector of length one that the matrix leaves alone. -/
structure IsAxis (m : Rot ℝ) (a : Vec ℝ) : Prop where
  unit : a.x * a.x + a.y * a.y + a.z * a.z = 1
  fixed : m.apply a = a

/-- The matrix turns points around the axis, by the angle in degrees (right-handed). -/
def Turns (m : Rot ℝ) (a : Vec ℝ) (angle : ℝ) : Prop :=
  ∀ v : Vec ℝ, m.apply v =
    ⟨v.x * cosDeg angle + (a.y * v.z - a.z * v.y) * sinDeg angle + a.x * (a.x * v.x + a.y * v.y + a.z * v.z) * (1 - cosDeg angle),
     v.y * cosDeg angle + (a.z * v.x - a.x * v.z) * sinDeg angle + a.y * (a.x * v.x + a.y * v.y + a.z * v.z) * (1 - cosDeg angle),
     v.z * cosDeg angle + (a.x * v.y - a.y * v.x) * sinDeg angle + a.z * (a.x * v.x + a.y * v.y + a.z * v.z) * (1 - cosDeg angle)⟩

/-- Twice the sine of the angle of `m` around `a`. -/
def twiceSine (m : Rot ℝ) (a : Vec ℝ) : ℝ := a.x * (m.zy - m.yz) + a.y * (m.xz - m.zx) + a.z * (m.yx - m.xy)

/-! ### Euler's theorem -/

/-- The matrix that turns around the axis by an angle of the given cosine and sine. -/
def turn (a : Vec ℝ) (c s : ℝ) : Rot ℝ :=
  ⟨c + (1 - c) * (a.x * a.x), (1 - c) * (a.x * a.y) - s * a.z, (1 - c) * (a.x * a.z) + s * a.y,
   (1 - c) * (a.y * a.x) + s * a.z, c + (1 - c) * (a.y * a.y), (1 - c) * (a.y * a.z) - s * a.x,
   (1 - c) * (a.z * a.x) - s * a.y, (1 - c) * (a.z * a.y) + s * a.x, c + (1 - c) * (a.z * a.z)⟩

/-- The matrix of cofactors. -/
def cof (m : Rot ℝ) : Rot ℝ :=
  ⟨m.yy * m.zz - m.yz * m.zy, m.yz * m.zx - m.yx * m.zz, m.yx * m.zy - m.yy * m.zx,
   m.xz * m.zy - m.xy * m.zz, m.xx * m.zz - m.xz * m.zx, m.xy * m.zx - m.xx * m.zy,
   m.xy * m.yz - m.xz * m.yy, m.xz * m.yx - m.xx * m.yz, m.xx * m.yy - m.xy * m.yx⟩

theorem mul_assoc' (a b c : Rot ℝ) : (a.mul b).mul c = a.mul (b.mul c) := by
  ext <;> simp only [Rot.mul] <;> ring

theorem cof_mul (m : Rot ℝ) (d : ℝ)
    (hd : m.xx * (m.yy * m.zz - m.yz * m.zy) - m.xy * (m.yx * m.zz - m.yz * m.zx) + m.xz * (m.yx * m.zy - m.yy * m.zx) = d) :
    (cof m).mul m.transpose = ⟨d, 0, 0, 0, d, 0, 0, 0, d⟩ := by
  subst hd
  ext <;> simp only [cof, Rot.mul, Rot.transpose] <;> ring

theorem cof_eq (m : Rot ℝ) (h : Proper m) : cof m = m := by
  have h1 : (cof m).mul (m.transpose.mul m) = cof m := by
    rw [h.orthogonal]
    ext <;> simp [Rot.mul, Rot.one]
  rw [← mul_assoc', cof_mul m 1 h.det] at h1
  rw [← h1]
  ext <;> simp [Rot.mul]

theorem cross_cof (m : Rot ℝ) (a : Vec ℝ) : (cross (m.apply a)).mul m = (cof m).mul (cross a) := by
  ext <;> simp only [cross, Rot.apply, Rot.mul, cof] <;> ring

theorem commutes (m : Rot ℝ) (a : Vec ℝ) (h : Proper m) (ha : IsAxis m a) : (cross a).mul m = m.mul (cross a) := by
  have := cross_cof m a
  rwa [ha.fixed, cof_eq m h] at this

theorem fixed_transpose (m : Rot ℝ) (a : Vec ℝ) (h : Proper m) (ha : IsAxis m a) : m.transpose.apply a = a := by
  have h1 : m.transpose.apply (m.apply a) = (m.transpose.mul m).apply a := by
    ext <;> simp only [Rot.transpose, Rot.apply, Rot.mul] <;> ring
  rw [ha.fixed, h.orthogonal] at h1
  rw [h1]
  ext <;> simp [Rot.one, Rot.apply]

/-- Euler's theorem: a rotation that leaves `a` alone turns around it. -/
theorem euler (m : Rot ℝ) (a : Vec ℝ) (h : Proper m) (ha : IsAxis m a) :
    m = turn a ((m.xx + m.yy + m.zz - 1) / 2) (twiceSine m a / 2) := by
  have hc := commutes m a h ha
  have hf := ha.fixed
  have ht := fixed_transpose m a h ha
  have hu := ha.unit
  simp only [cross, Rot.mul, Rot.mk.injEq] at hc
  simp only [Rot.apply, Rot.transpose, Vec.ext_iff] at hf ht
  obtain ⟨c1, c2, c3, c4, c5, c6, c7, c8, c9⟩ := hc
  obtain ⟨f1, f2, f3⟩ := hf
  obtain ⟨t1, t2, t3⟩ := ht
  have s11 : m.xx + m.xx = (m.xx + m.yy + m.zz - 1) + (3 - (m.xx + m.yy + m.zz)) * (a.x * a.x) := by
    linear_combination (-(m.xx + m.xx - (m.xx + m.yy + m.zz))) * hu - a.x * f1 - a.y * f2 - a.z * f3 - hu + a.x * f1 + a.x * t1 + a.x * f1 - (-a.z) * c2 - (a.y) * c3
  have s12 : m.xy + m.yx = (3 - (m.xx + m.yy + m.zz)) * (a.x * a.y) := by
    linear_combination (-(m.xy + m.yx)) * hu + a.x * f2 + a.y * t1 + a.y * f1 - (a.z) * c1 - (-a.x) * c3
  have s13 : m.xz + m.zx = (3 - (m.xx + m.yy + m.zz)) * (a.x * a.z) := by
    linear_combination (-(m.xz + m.zx)) * hu + a.x * f3 + a.z * t1 + a.z * f1 - (-a.y) * c1 - (a.x) * c2
  have s22 : m.yy + m.yy = (m.xx + m.yy + m.zz - 1) + (3 - (m.xx + m.yy + m.zz)) * (a.y * a.y) := by
    linear_combination (-(m.yy + m.yy - (m.xx + m.yy + m.zz))) * hu - a.x * f1 - a.y * f2 - a.z * f3 - hu + a.y * f2 + a.y * t2 + a.y * f2 - (a.z) * c4 - (-a.x) * c6
  have s23 : m.yz + m.zy = (3 - (m.xx + m.yy + m.zz)) * (a.y * a.z) := by
    linear_combination (-(m.yz + m.zy)) * hu + a.y * f3 + a.z * t2 + a.z * f2 - (-a.y) * c4 - (a.x) * c5
  have s33 : m.zz + m.zz = (m.xx + m.yy + m.zz - 1) + (3 - (m.xx + m.yy + m.zz)) * (a.z * a.z) := by
    linear_combination (-(m.zz + m.zz - (m.xx + m.yy + m.zz))) * hu - a.x * f1 - a.y * f2 - a.z * f3 - hu + a.z * f3 + a.z * t3 + a.z * f3 - (-a.y) * c7 - (a.x) * c8
  have w1 : m.zy - m.yz = twiceSine m a * a.x := by
    rw [twiceSine]
    linear_combination (-(m.zy - m.yz)) * hu - a.y * (c4 - c2) + a.z * (c3 - c7)
  have w2 : m.xz - m.zx = twiceSine m a * a.y := by
    rw [twiceSine]
    linear_combination (-(m.xz - m.zx)) * hu - a.z * (c8 - c6) + a.x * (c4 - c2)
  have w3 : m.yx - m.xy = twiceSine m a * a.z := by
    rw [twiceSine]
    linear_combination (-(m.yx - m.xy)) * hu - a.x * (c3 - c7) + a.y * (c8 - c6)
  generalize twiceSine m a = w at w1 w2 w3 ⊢
  ext <;> simp only [turn]
  · linear_combination s11 / 2
  · linear_combination s12 / 2 - w3 / 2
  · linear_combination s13 / 2 + w2 / 2
  · linear_combination s12 / 2 + w3 / 2
  · linear_combination s22 / 2
  · linear_combination s23 / 2 - w1 / 2
  · linear_combination s13 / 2 - w2 / 2
  · linear_combination s23 / 2 + w1 / 2
  · linear_combination s33 / 2

theorem cos_sq_add_sin_sq (m : Rot ℝ) (a : Vec ℝ) (h : Proper m) (ha : IsAxis m a) (c s : ℝ) (he : m = turn a c s) : c ^ 2 + s ^ 2 = 1 := by
  have ho := h.orthogonal
  have hu := ha.unit
  rw [he] at ho
  simp only [turn, Rot.mul, Rot.transpose, Rot.one, Rot.mk.injEq] at ho
  obtain ⟨o1, -, -, -, o5, -, -, -, o9⟩ := ho
  have key : 3 * c ^ 2 + 2 * c * (1 - c) * (a.x * a.x + a.y * a.y + a.z * a.z) +
      (1 - c) ^ 2 * (a.x * a.x + a.y * a.y + a.z * a.z) ^ 2 + 2 * s ^ 2 * (a.x * a.x + a.y * a.y + a.z * a.z) = 3 := by
    linear_combination o1 + o5 + o9
  rw [hu] at key
  linear_combination key / 2

theorem turns_iff (m : Rot ℝ) (a : Vec ℝ) (φ : ℝ) : Turns m a φ ↔ m = turn a (cosDeg φ) (sinDeg φ) := by
  constructor
  · intro h
    have h1 := h ⟨1, 0, 0⟩
    have h2 := h ⟨0, 1, 0⟩
    have h3 := h ⟨0, 0, 1⟩
    simp only [Rot.apply, Vec.ext_iff] at h1 h2 h3
    obtain ⟨x1, x2, x3⟩ := h1
    obtain ⟨y1, y2, y3⟩ := h2
    obtain ⟨z1, z2, z3⟩ := h3
    ext <;> simp only [turn]
    · linear_combination x1
    · linear_combination y1
    · linear_combination z1
    · linear_combination x2
    · linear_combination y2
    · linear_combination z2
    · linear_combination x3
    · linear_combination y3
    · linear_combination z3
  · intro h v
    rw [h]
    ext <;> simp only [turn, Rot.apply] <;> ring

theorem turn_inj (a : Vec ℝ) (hu : a.x * a.x + a.y * a.y + a.z * a.z = 1) (c c' s s' : ℝ) :
    turn a c s = turn a c' s' ↔ c = c' ∧ s = s' := by
  constructor
  · intro h
    simp only [turn, Rot.mk.injEq] at h
    obtain ⟨h1, h2, h3, h4, h5, h6, h7, h8, h9⟩ := h
    have hc : 3 * c + (1 - c) * (a.x * a.x + a.y * a.y + a.z * a.z) = 3 * c' + (1 - c') * (a.x * a.x + a.y * a.y + a.z * a.z) := by
      linear_combination h1 + h5 + h9
    have hs : s * (a.x * a.x + a.y * a.y + a.z * a.z) = s' * (a.x * a.x + a.y * a.y + a.z * a.z) := by
      linear_combination a.x * (h8 - h6) / 2 + a.y * (h3 - h7) / 2 + a.z * (h4 - h2) / 2
    rw [hu] at hc hs
    exact ⟨by linarith, by linarith⟩
  · rintro ⟨rfl, rfl⟩
    rfl

theorem acosDeg_angle (c : ℝ) : acosDeg c / 180 * π = arccos c := by
  rw [acosDeg]
  field_simp

theorem cosDeg_neg (φ : ℝ) : cosDeg (-φ) = cosDeg φ := by
  rw [cosDeg, cosDeg, neg_div, neg_mul, cos_neg]

theorem sinDeg_neg (φ : ℝ) : sinDeg (-φ) = -sinDeg φ := by
  rw [sinDeg, sinDeg, neg_div, neg_mul, sin_neg]

theorem cosDeg_acosDeg (c s : ℝ) (h : c ^ 2 + s ^ 2 = 1) : cosDeg (acosDeg c) = c := by
  rw [cosDeg, acosDeg_angle]
  exact cos_arccos (by nlinarith [sq_nonneg s]) (by nlinarith [sq_nonneg s])

theorem sinDeg_acosDeg (c s : ℝ) (h : c ^ 2 + s ^ 2 = 1) : sinDeg (acosDeg c) = |s| := by
  rw [sinDeg, acosDeg_angle, sin_arccos, ← sqrt_sq_eq_abs]
  congr 1
  linarith

theorem acosDeg_180 (c s : ℝ) (h : c ^ 2 + s ^ 2 = 1) (h' : acosDeg c = 180) : s = 0 := by
  have h1 := sinDeg_acosDeg c s h
  rw [h', sinDeg, div_self (by norm_num), one_mul, sin_pi] at h1
  exact abs_eq_zero.1 h1.symm

theorem sinValue_val (φ : ℝ) (h : φ ≠ 180) : (sinValue (.lit φ : Sc Unit)).val () = sinDeg φ := by
  simp only [sinValue, h, if_false]
  split_ifs with h0 h1
  · simp [Sc.val, sinDeg, h0]
  · rw [sinDeg, h1, show (90 : ℝ) / 180 * π = π / 2 by ring, sin_pi_div_two]; rfl
  · rfl

theorem cosValue_val (φ : ℝ) (h : φ ≠ 180) : (cosValue (.lit φ : Sc Unit)).val () = cosDeg φ := by
  simp only [cosValue, h, if_false]
  split_ifs with h0 h1
  · simp [Sc.val, cosDeg, h0]
  · rw [cosDeg, h1, show (90 : ℝ) / 180 * π = π / 2 by ring, cos_pi_div_two]; rfl
  · rfl

theorem trial_eq (a : Vec ℝ) (hu : a.x * a.x + a.y * a.y + a.z * a.z = 1) (φ : ℝ) (h : φ ≠ 180) :
    trial a φ = turn a (cosDeg φ) (sinDeg φ) := by
  rw [trial, sinValue_val φ h, cosValue_val φ h]
  generalize cosDeg φ = c
  generalize sinDeg φ = s
  ext <;> simp only [plus, scale, cross, Rot.one, Rot.mul, turn]
  · linear_combination (-(1 - c)) * hu
  · ring
  · ring
  · ring
  · linear_combination (-(1 - c)) * hu
  · ring
  · ring
  · ring
  · linear_combination (-(1 - c)) * hu

theorem cosAngle_eq (m : Rot ℝ) (s : ℝ) (h : ((m.xx + m.yy + m.zz - 1) / 2) ^ 2 + s ^ 2 = 1) : cosAngle m = (m.xx + m.yy + m.zz - 1) / 2 := by
  rw [cosAngle]
  have : ¬ 1 < |(m.xx + m.yy + m.zz - 1) / 2| := by
    rw [not_lt, abs_le]
    exact ⟨by nlinarith [sq_nonneg s], by nlinarith [sq_nonneg s]⟩
  simp only [this, if_false]

theorem not_differ_self (m : Rot ℝ) : ¬ Differ m m := by
  have h := fun x : ℝ => not_lt.2 (mul_self_nonneg x)
  simp only [Differ, h, or_self, not_false_eq_true]

theorem differ_transpose (m : Rot ℝ) : Differ m m.transpose ↔ m.xy * m.yx < 0 ∨ m.xz * m.zx < 0 ∨ m.yz * m.zy < 0 := by
  have h := fun x : ℝ => not_lt.2 (mul_self_nonneg x)
  simp only [Differ, Rot.transpose, h, false_or, or_false, mul_comm m.yx m.xy, mul_comm m.zx m.xz, mul_comm m.zy m.yz]
  tauto

/-! ### The property -/

/-- C108: the axis and the angle are those of the rotation exactly if the axis points the way that makes the angle positive, or some pair
of opposite entries has different signs. -/
theorem right_iff (m : Rot ℝ) (a : Vec ℝ) (h : Proper m) (ha : IsAxis m a) :
    Turns m a (angleOf m a) ↔
      0 ≤ a.x * (m.zy - m.yz) + a.y * (m.xz - m.zx) + a.z * (m.yx - m.xy) ∨
        m.xy * m.yx < 0 ∨ m.xz * m.zx < 0 ∨ m.yz * m.zy < 0 := by
  have he := euler m a h ha
  have hcs := cos_sq_add_sin_sq m a h ha _ _ he
  have hc := cosAngle_eq m _ hcs
  have hw : a.x * (m.zy - m.yz) + a.y * (m.xz - m.zx) + a.z * (m.yx - m.xy) = 2 * (twiceSine m a / 2) := by
    rw [twiceSine]; ring
  rw [hw, turns_iff, angleOf, hc]
  generalize (m.xx + m.yy + m.zz - 1) / 2 = c at he hcs
  generalize twiceSine m a / 2 = s at he hcs
  have hcos := cosDeg_acosDeg c s hcs
  have hsin := sinDeg_acosDeg c s hcs
  rcases le_or_gt 0 s with hs | hs
  · simp only [show 0 ≤ 2 * s by linarith, true_or, iff_true]
    by_cases h180 : acosDeg c = 180
    · have hs0 := acosDeg_180 c s hcs h180
      rw [hs0, abs_zero] at hsin
      split_ifs
      · rw [cosDeg_neg, sinDeg_neg, hcos, hsin, neg_zero, he, hs0]
      · rw [hcos, hsin, he, hs0]
    · have ht := trial_eq a ha.unit (acosDeg c) h180
      rw [hcos, hsin, abs_of_nonneg hs, ← he] at ht
      rw [ht, if_neg (not_differ_self m), hcos, hsin, abs_of_nonneg hs]
      exact he
  · have h180 : acosDeg c ≠ 180 := fun h' => by
      have := acosDeg_180 c s hcs h'
      linarith
    have ht := trial_eq a ha.unit (acosDeg c) h180
    have htr : turn a c (-s) = m.transpose := by
      rw [he]
      ext <;> simp only [turn, Rot.transpose] <;> ring
    rw [hcos, hsin, abs_of_neg hs, htr] at ht
    rw [ht, differ_transpose]
    simp only [show ¬ 0 ≤ 2 * s by linarith, false_or]
    split_ifs with hd
    · simp only [hd, iff_true]
      rw [cosDeg_neg, sinDeg_neg, hcos, hsin, abs_of_neg hs, neg_neg]
      exact he
    · simp only [hd, iff_false]
      rw [hcos, hsin, abs_of_neg hs]
      intro h'
      rw [he, turn_inj a ha.unit] at h'
      linarith [h'.2]

/-- C108: if it is not right, it is the opposite: the angle has the wrong sign. -/
theorem right_or_opposite (m : Rot ℝ) (a : Vec ℝ) (h : Proper m) (ha : IsAxis m a) :
    Turns m a (angleOf m a) ∨ Turns m a (-angleOf m a) := by
  have he := euler m a h ha
  have hcs := cos_sq_add_sin_sq m a h ha _ _ he
  have hc := cosAngle_eq m _ hcs
  rw [turns_iff, turns_iff, angleOf, hc]
  generalize (m.xx + m.yy + m.zz - 1) / 2 = c at he hcs
  generalize twiceSine m a / 2 = s at he hcs
  have hcos := cosDeg_acosDeg c s hcs
  have hsin := sinDeg_acosDeg c s hcs
  have key : m = turn a (cosDeg (acosDeg c)) (sinDeg (acosDeg c)) ∨ m = turn a (cosDeg (-acosDeg c)) (sinDeg (-acosDeg c)) := by
    rw [cosDeg_neg, sinDeg_neg, hcos, hsin]
    rcases abs_choice s with h' | h'
    · exact .inl (by rw [h']; exact he)
    · exact .inr (by rw [h', neg_neg]; exact he)
  split_ifs
  · rw [neg_neg]; exact key.symm
  · exact key

/-- C108: with an entry and its opposite of different signs, either direction of the axis gives the right angle. -/
theorem either_axis (m : Rot ℝ) (a : Vec ℝ) (h : Proper m) (ha : IsAxis m a)
    (hd : m.xy * m.yx < 0 ∨ m.xz * m.zx < 0 ∨ m.yz * m.zy < 0) :
    Turns m a (angleOf m a) ∧ Turns m ⟨-a.x, -a.y, -a.z⟩ (angleOf m ⟨-a.x, -a.y, -a.z⟩) := by
  refine ⟨(right_iff m a h ha).2 (.inr hd), (right_iff m _ h ⟨?_, ?_⟩).2 (.inr hd)⟩
  · have := ha.unit
    linear_combination this
  · have := ha.fixed
    simp only [Rot.apply, Vec.ext_iff] at this ⊢
    obtain ⟨h1, h2, h3⟩ := this
    exact ⟨by linear_combination -h1, by linear_combination -h2, by linear_combination -h3⟩

/-- C108: without, and unless the rotation is by 0 or 180 degrees, one of the two directions gives the wrong angle. -/
theorem one_axis_wrong (m : Rot ℝ) (a : Vec ℝ) (h : Proper m) (ha : IsAxis m a)
    (hd : 0 ≤ m.xy * m.yx ∧ 0 ≤ m.xz * m.zx ∧ 0 ≤ m.yz * m.zy) (hs : m ≠ m.transpose) :
    ¬ (Turns m a (angleOf m a) ∧ Turns m ⟨-a.x, -a.y, -a.z⟩ (angleOf m ⟨-a.x, -a.y, -a.z⟩)) := by
  rintro ⟨h1, h2⟩
  have ha' : IsAxis m ⟨-a.x, -a.y, -a.z⟩ := by
    refine ⟨?_, ?_⟩
    · have := ha.unit
      linear_combination this
    · have := ha.fixed
      simp only [Rot.apply, Vec.ext_iff] at this ⊢
      obtain ⟨h1, h2, h3⟩ := this
      exact ⟨by linear_combination -h1, by linear_combination -h2, by linear_combination -h3⟩
  rw [right_iff m a h ha] at h1
  rw [right_iff m _ h ha'] at h2
  simp only [not_lt.2 hd.1, not_lt.2 hd.2.1, not_lt.2 hd.2.2, or_false] at h1 h2
  have hz : twiceSine m a = 0 := by
    rw [twiceSine]
    linarith
  have he := euler m a h ha
  rw [hz] at he
  refine hs ?_
  rw [he]
  ext <;> simp only [turn, Rot.transpose] <;> ring

/-- C108: so it is not always right. The turn by 120 degrees that takes x to y, y to z and z to x has the axis (-1, -1, -1) / √3, and the
angle should be -120 degrees. -/
theorem wrong_angle : Proper ⟨0, 0, 1, 1, 0, 0, 0, 1, 0⟩ ∧ IsAxis ⟨0, 0, 1, 1, 0, 0, 0, 1, 0⟩ ⟨-(1 / √3), -(1 / √3), -(1 / √3)⟩ ∧
    ¬ Turns ⟨0, 0, 1, 1, 0, 0, 0, 1, 0⟩ ⟨-(1 / √3), -(1 / √3), -(1 / √3)⟩
      (angleOf ⟨0, 0, 1, 1, 0, 0, 0, 1, 0⟩ ⟨-(1 / √3), -(1 / √3), -(1 / √3)⟩) := by
  have h3 : (√3 : ℝ) * √3 = 3 := mul_self_sqrt (by norm_num)
  have hp : 0 < (√3 : ℝ) := sqrt_pos.2 (by norm_num)
  have h1 : Proper ⟨0, 0, 1, 1, 0, 0, 0, 1, 0⟩ := ⟨by ext <;> simp [Rot.mul, Rot.transpose, Rot.one], by norm_num⟩
  have h2 : IsAxis ⟨0, 0, 1, 1, 0, 0, 0, 1, 0⟩ ⟨-(1 / √3), -(1 / √3), -(1 / √3)⟩ := by
    refine ⟨?_, by ext <;> simp [Rot.apply]⟩
    have : (1 / √3 : ℝ) * (1 / √3) = 1 / 3 := by rw [div_mul_div_comm, h3, one_mul]
    linear_combination 3 * this
  refine ⟨h1, h2, ?_⟩
  rw [right_iff _ _ h1 h2]
  have : 0 < 1 / (√3 : ℝ) := by positivity
  simp only [sub_zero, mul_one, mul_zero, lt_irrefl, or_self, or_false, not_le]
  linarith

/-- C108: if rounding has made the trace too large the angle is 0, and if too small it is 180 degrees one way or the other. -/
theorem rounded (m : Rot ℝ) (a : Vec ℝ) : (3 < m.xx + m.yy + m.zz → angleOf m a = 0) ∧
    (m.xx + m.yy + m.zz < -1 → angleOf m a = 180 ∨ angleOf m a = -180) := by
  constructor
  · intro h
    have hc : cosAngle m = 1 := by
      have h1 : 1 < (m.xx + m.yy + m.zz - 1) / 2 := by linarith
      simp only [cosAngle, lt_of_lt_of_le h1 (le_abs_self _), if_true, lt_trans one_pos h1]
    have ha : acosDeg 1 = 0 := by
      rw [acosDeg, arccos_one, zero_div, zero_mul]
    rw [angleOf, hc, ha]
    split_ifs
    · exact neg_zero
    · rfl
  · intro h
    have hc : cosAngle m = -1 := by
      have h1 : (m.xx + m.yy + m.zz - 1) / 2 < -1 := by linarith
      have h2 : 1 < |(m.xx + m.yy + m.zz - 1) / 2| := by
        rw [abs_of_neg (by linarith)]
        linarith
      simp only [cosAngle, h2, if_true, show ¬ 0 < (m.xx + m.yy + m.zz - 1) / 2 by linarith, if_false]
    have ha : acosDeg (-1) = 180 := by
      rw [acosDeg, arccos_neg_one, div_self pi_ne_zero, one_mul]
    simp only [angleOf, hc, ha]
    split_ifs
    · exact .inr rfl
    · exact .inl rfl

/-! ### Specialization -/

/-- `round(x, 12)`; the rounding of ties is not modelled. -/
noncomputable def round12 (x : ℝ) : ℝ := (round (x * 10 ^ 12) : ℝ) / 10 ^ 12

open Classical in
/-- `Part.is_rotation` (447-453). -/
noncomputable def isRotation (p : Seitz ℝ) : Bool :=
  if round12 (p.inverse.mul p).trace = 3 then decide (round12 p.trace ≠ 3) else false

/-- `Expr.float` of each. -/
def lits (v : Vec ℝ) : Vec (Sc Unit) := ⟨.lit v.x, .lit v.y, .lit v.z⟩
def litsSeitz (p : Seitz ℝ) : Seitz (Sc Unit) :=
  ⟨⟨.lit p.r.xx, .lit p.r.xy, .lit p.r.xz, .lit p.r.yx, .lit p.r.yy, .lit p.r.yz, .lit p.r.zx, .lit p.r.zy, .lit p.r.zz⟩, lits p.t⟩

open Classical in
/-- `Part.specialization` (539-551) of a constant part, with the axis found. -/
noncomputable def specialization (p : Seitz ℝ) (axis : Vec ℝ) : Part Unit :=
  if isRotation p = false then .translation (lits p.t)
  else if p.t = ⟨0, 0, 0⟩ then
    let angle := angleOf p.inverse.r axis
    if axis = ⟨1, 0, 0⟩ then .rotation .x (.lit angle) true
    else if axis = ⟨0, 1, 0⟩ then .rotation .y (.lit angle) true
    else if axis = ⟨0, 0, 1⟩ then .rotation .z (.lit angle) true
    else .general (litsSeitz p)
  else .general (litsSeitz p)

/-- The vector along an axis. -/
def unit : Axis → Vec ℝ
  | .x => ⟨1, 0, 0⟩
  | .y => ⟨0, 1, 0⟩
  | .z => ⟨0, 0, 1⟩

theorem litsSeitz_val (p : Seitz ℝ) : (litsSeitz p).val () = p := rfl

theorem neg_val (s : Sc Unit) : (-s).val () = -(s.val ()) := by
  cases s <;> rfl

theorem rotationAxes_val (a : Axis) (φ : ℝ) (h : φ ≠ 180) : ((Part.rotation a (.lit φ : Sc Unit) true).axes).val () =
    ⟨(turn (unit a) (cosDeg φ) (sinDeg φ)).transpose, ⟨0, 0, 0⟩⟩ := by
  have h0 : (0 : Sc Unit).val () = 0 := rfl
  have h1 : (1 : Sc Unit).val () = 1 := rfl
  cases a <;>
  · simp only [Part.axes, rotationAxes, usedAngle, if_true, Seitz.val, Rot.val, Vec.val, neg_val, sinValue_val φ h, cosValue_val φ h, h0, h1]
    ext <;> simp [turn, Rot.transpose, unit]

/-- A turn around one of the coordinate axes is always right. -/
theorem right_about (m : Rot ℝ) (a : Axis) (h : Proper m)
    (ha : IsAxis m (unit a)) :
    Turns m (unit a)
      (angleOf m (unit a)) := by
  rw [right_iff m _ h ha]
  have he := euler m _ h ha
  cases a
  all_goals
    simp only [twiceSine, turn, unit, Rot.ext_iff] at he
    obtain ⟨h1, h2, h3, h4, h5, h6, h7, h8, h9⟩ := he
    simp only [unit, one_mul, zero_mul, add_zero, zero_add]
  · rcases le_or_gt 0 (m.zy - m.yz) with hs | hs
    · exact .inl hs
    · exact .inr (.inr (.inr (by nlinarith)))
  · rcases le_or_gt 0 (m.xz - m.zx) with hs | hs
    · exact .inl hs
    · exact .inr (.inr (.inl (by nlinarith)))
  · rcases le_or_gt 0 (m.yx - m.xy) with hs | hs
    · exact .inl hs
    · exact .inr (.inl (by nlinarith))

theorem special_axes (m : Rot ℝ) (a : Axis) (h : Proper m) (ha : IsAxis m (unit a)) (h180 : m.xx + m.yy + m.zz ≠ -1) :
    ((Part.rotation a (.lit (angleOf m (unit a)) : Sc Unit) true).axes).val () = ⟨m.transpose, ⟨0, 0, 0⟩⟩ := by
  have ht := (turns_iff _ _ _).1 (right_about m a h ha)
  have hne : angleOf m (unit a) ≠ 180 := by
    intro h'
    rw [h'] at ht
    refine h180 ?_
    have hc : cosDeg 180 = -1 := by rw [cosDeg, div_self (by norm_num), one_mul, cos_pi]
    rw [ht, hc]
    cases a <;> simp only [turn, unit] <;> norm_num
  rw [rotationAxes_val a _ hne, ← ht]

/-- C108 (partial: not for turns by so little that the rounded trace is 3, nor by 180 degrees): specialization does not change what a
part does. -/
theorem specialization_same_partial (p : Seitz ℝ) (a : Vec ℝ) (h : Proper p.r.transpose) (ha : IsAxis p.r.transpose a)
    (hr : round12 (p.r.xx + p.r.yy + p.r.zz) ≠ 3) (h180 : p.r.xx + p.r.yy + p.r.zz ≠ -1) :
    (specialization p a).axes.val () = p := by
  have hrot : isRotation p = true := by
    have h1 : (p.inverse.mul p).trace = 3 := by
      have ho := h.orthogonal
      simp only [Rot.mul, Rot.transpose, Rot.one, Rot.mk.injEq] at ho
      simp only [Seitz.trace, Seitz.mul, Seitz.inverse, Rot.mul, Rot.transpose]
      linear_combination ho.1 + ho.2.2.2.2.1 + ho.2.2.2.2.2.2.2.2
    have h2 : round12 3 = 3 := by
      rw [round12, show (3 : ℝ) * 10 ^ 12 = ((3 * 10 ^ 12 : ℤ) : ℝ) by norm_num, round_intCast]
      norm_num
    rw [isRotation, h1, if_pos h2]
    exact decide_eq_true hr
  simp only [specialization, hrot, Bool.true_eq_false, if_false]
  split_ifs with ht hx hy hz
  · subst hx
    exact (special_axes p.r.transpose .x h ha h180).trans (by ext <;> simp [Rot.transpose, ht])
  · subst hy
    exact (special_axes p.r.transpose .y h ha h180).trans (by ext <;> simp [Rot.transpose, ht])
  · subst hz
    exact (special_axes p.r.transpose .z h ha h180).trans (by ext <;> simp [Rot.transpose, ht])
  · rfl
  · rfl

/-- C108: a turn by so little is dropped. -/
theorem small_turn_dropped (p : Seitz ℝ) (a : Vec ℝ) (hr : round12 (p.r.xx + p.r.yy + p.r.zz) = 3) :
    (specialization p a).axes.val () = ⟨Rot.one, p.t⟩ := by
  have hrot : isRotation p = false := by
    simp only [isRotation, Seitz.trace, hr, ne_eq, not_true_eq_false, decide_false, ite_self]
  simp only [specialization, hrot, if_true]
  rfl

/-- C108: and a turn by 180 degrees around x becomes something that is not a rotation. -/
theorem half_turn_wrong : (specialization ⟨⟨1, 0, 0, 0, -1, 0, 0, 0, -1⟩, ⟨0, 0, 0⟩⟩ ⟨1, 0, 0⟩).axes.val () =
    ⟨⟨1, 0, 0, 0, -1, -1, 0, 1, -1⟩, ⟨0, 0, 0⟩⟩ := by
  have h2 : ∀ n : ℤ, round12 n = n := by
    intro n
    rw [round12, show (n : ℝ) * 10 ^ 12 = ((n * 10 ^ 12 : ℤ) : ℝ) by push_cast; norm_num, round_intCast]
    push_cast
    field_simp
    norm_num
  have hrot : isRotation ⟨⟨1, 0, 0, 0, -1, 0, 0, 0, -1⟩, ⟨0, 0, 0⟩⟩ = true := by
    have h3 := h2 3
    have h1 := h2 (-1)
    push_cast at h1 h3
    have ht : (Seitz.mul (Seitz.inverse (⟨⟨1, 0, 0, 0, -1, 0, 0, 0, -1⟩, ⟨0, 0, 0⟩⟩ : Seitz ℝ))
        ⟨⟨1, 0, 0, 0, -1, 0, 0, 0, -1⟩, ⟨0, 0, 0⟩⟩).trace = 3 := by
      simp only [Seitz.trace, Seitz.mul, Seitz.inverse, Rot.mul, Rot.transpose]
      norm_num
    have ht' : (⟨⟨1, 0, 0, 0, -1, 0, 0, 0, -1⟩, ⟨0, 0, 0⟩⟩ : Seitz ℝ).trace = -1 := by
      simp only [Seitz.trace]
      norm_num
    rw [isRotation, ht, ht', if_pos h3, h1]
    exact decide_eq_true (by norm_num)
  have hang : angleOf ⟨1, 0, 0, 0, -1, 0, 0, 0, -1⟩ ⟨1, 0, 0⟩ = 180 := by
    have hc : cosAngle ⟨1, 0, 0, 0, -1, 0, 0, 0, -1⟩ = -1 := by
      rw [cosAngle]
      norm_num
    have ha : acosDeg (-1) = 180 := by
      rw [acosDeg, arccos_neg_one, div_self pi_ne_zero, one_mul]
    have hd : ¬ Differ ⟨1, 0, 0, 0, -1, 0, 0, 0, -1⟩ (trial ⟨1, 0, 0⟩ 180) := by
      simp only [Differ, trial, plus, scale, cross, Rot.one, Rot.mul, sinValue, cosValue, Sc.val]
      norm_num [Sc.val]
    rw [angleOf, hc, ha, if_neg hd]
  have hinv : (Seitz.inverse (⟨⟨1, 0, 0, 0, -1, 0, 0, 0, -1⟩, ⟨0, 0, 0⟩⟩ : Seitz ℝ)).r = ⟨1, 0, 0, 0, -1, 0, 0, 0, -1⟩ := rfl
  simp only [specialization, hrot, hinv, hang, Bool.true_eq_false, if_false, if_true]
  have h0 : (0 : Sc Unit).val () = 0 := rfl
  have h1 : (1 : Sc Unit).val () = 1 := rfl
  simp only [Part.axes, rotationAxes, usedAngle, if_true, Seitz.val, Rot.val, Vec.val, neg_val, h0, h1, sinValue, cosValue]
  norm_num [Sc.val]

/-! ### The hypotheses are met -/

/-- The turn by 120 degrees, with the other direction of the axis, and a quarter turn around z. -/
theorem quarter : Proper ⟨0, -1, 0, 1, 0, 0, 0, 0, 1⟩ ∧ IsAxis ⟨0, -1, 0, 1, 0, 0, 0, 0, 1⟩ ⟨0, 0, 1⟩ :=
  ⟨⟨by ext <;> simp [Rot.mul, Rot.transpose, Rot.one], by norm_num⟩, ⟨by norm_num, by ext <;> simp [Rot.apply]⟩⟩

example : Turns ⟨0, -1, 0, 1, 0, 0, 0, 0, 1⟩ ⟨0, 0, 1⟩ (angleOf ⟨0, -1, 0, 1, 0, 0, 0, 0, 1⟩ ⟨0, 0, 1⟩) :=
  (right_iff _ _ quarter.1 quarter.2).2 (.inl (by norm_num))
example : Turns ⟨0, -1, 0, 1, 0, 0, 0, 0, 1⟩ ⟨-0, -0, -1⟩ (angleOf ⟨0, -1, 0, 1, 0, 0, 0, 0, 1⟩ ⟨-0, -0, -1⟩) :=
  (either_axis _ _ quarter.1 quarter.2 (.inl (by norm_num))).2
example := one_axis_wrong _ _ wrong_angle.1 wrong_angle.2.1 (by norm_num) (by
    intro h
    simp only [Rot.transpose, Rot.mk.injEq] at h
    norm_num at h)
example : (specialization ⟨⟨0, 1, 0, -1, 0, 0, 0, 0, 1⟩, ⟨0, 0, 0⟩⟩ ⟨0, 0, 1⟩).axes.val () = ⟨⟨0, 1, 0, -1, 0, 0, 0, 0, 1⟩, ⟨0, 0, 0⟩⟩ := by
  refine specialization_same_partial _ _ ?_ ?_ ?_ ?_
  · exact quarter.1
  · exact quarter.2
  · rw [round12]
    norm_num
  · norm_num
/-- A turn by some 0.00001 degrees around x, with the tangent of half the angle 1e-7. -/
example : ∃ c s : ℝ, c ^ 2 + s ^ 2 = 1 ∧ s ≠ 0 ∧ round12 (1 + c + c) = 3 := by
  refine ⟨(10 ^ 14 - 1) / (10 ^ 14 + 1), 2 * 10 ^ 7 / (10 ^ 14 + 1), by norm_num, by norm_num, ?_⟩
  rw [round12, round_eq, show ⌊((1 : ℝ) + (10 ^ 14 - 1) / (10 ^ 14 + 1) + (10 ^ 14 - 1) / (10 ^ 14 + 1)) * 10 ^ 12 + 1 / 2⌋ = 3 * 10 ^ 12 by
    rw [Int.floor_eq_iff]
    norm_num]
  norm_num

end Verif.Orient.AxisAngle
