import Verif.Orient.Model
import Mathlib.Tactic.Linarith
import Mathlib.Tactic.Positivity

namespace Verif.Orient
variable {E : Type}

/-! ### Values of expressions -/

@[simp] theorem val_lit (e : E) (r : ℝ) : (Sc.lit r).val e = r := rfl
@[simp] theorem val_run (e : E) (f : E → ℝ) : (Sc.run f).val e = f e := rfl
@[simp] theorem val_zero (e : E) : (0 : Sc E).val e = 0 := rfl
@[simp] theorem val_one (e : E) : (1 : Sc E).val e = 1 := rfl

@[simp] theorem val_add (e : E) (a b : Sc E) : (a + b).val e = a.val e + b.val e := by
  cases a <;> cases b <;> rfl

@[simp] theorem val_mul (e : E) (a b : Sc E) : (a * b).val e = a.val e * b.val e := by
  cases a <;> cases b <;> rfl

@[simp] theorem val_neg (e : E) (a : Sc E) : (-a).val e = -a.val e := by
  cases a <;> rfl

@[simp] theorem Rot.val_mul (e : E) (a b : Rot (Sc E)) : (a.mul b).val e = (a.val e).mul (b.val e) := by
  simp [Rot.val, Rot.mul]

@[simp] theorem Rot.val_transpose (e : E) (a : Rot (Sc E)) : a.transpose.val e = (a.val e).transpose := rfl

@[simp] theorem Rot.val_one (e : E) : (Rot.one : Rot (Sc E)).val e = Rot.one := by
  simp [Rot.val, Rot.one]

@[simp] theorem Rot.val_apply (e : E) (a : Rot (Sc E)) (v : Vec (Sc E)) :
    (a.apply v).val e = (a.val e).apply (v.val e) := by
  simp [Rot.val, Rot.apply, Vec.val]

@[simp] theorem Vec.val_add (e : E) (a b : Vec (Sc E)) : (a.add b).val e = (a.val e).add (b.val e) := by
  simp [Vec.val, Vec.add]

@[simp] theorem Seitz.val_mul (e : E) (a b : Seitz (Sc E)) : (a.mul b).val e = (a.val e).mul (b.val e) := by
  simp [Seitz.val, Seitz.mul]

@[simp] theorem Seitz.val_inverse (e : E) (a : Seitz (Sc E)) : a.inverse.val e = (a.val e).inverse := by
  simp [Seitz.val, Seitz.inverse, Vec.val, Rot.apply, Rot.transpose, Rot.val]

@[simp] theorem Seitz.val_one (e : E) : (Seitz.one : Seitz (Sc E)).val e = Seitz.one := by
  simp [Seitz.val, Seitz.one, Vec.val]

@[simp] theorem Seitz.val_trace (e : E) (a : Seitz (Sc E)) : a.trace.val e = (a.val e).trace := by
  simp [Seitz.val, Seitz.trace, Rot.val]

/-! ### Matrices -/

theorem Rot.mul_assoc (a b c : Rot ℝ) : (a.mul b).mul c = a.mul (b.mul c) := by
  ext <;> simp only [Rot.mul] <;> ring

@[simp] theorem Rot.one_mul (a : Rot ℝ) : Rot.one.mul a = a := by
  ext <;> simp [Rot.mul, Rot.one]

@[simp] theorem Rot.mul_one (a : Rot ℝ) : a.mul Rot.one = a := by
  ext <;> simp [Rot.mul, Rot.one]

theorem Rot.transpose_mul (a b : Rot ℝ) : (a.mul b).transpose = b.transpose.mul a.transpose := by
  ext <;> simp only [Rot.mul, Rot.transpose] <;> ring

@[simp] theorem Rot.transpose_transpose (a : Rot ℝ) : a.transpose.transpose = a := rfl

@[simp] theorem Rot.transpose_one : (Rot.one : Rot ℝ).transpose = Rot.one := rfl

theorem Rot.apply_mul (a b : Rot ℝ) (v : Vec ℝ) : (a.mul b).apply v = a.apply (b.apply v) := by
  ext <;> simp only [Rot.mul, Rot.apply] <;> ring

@[simp] theorem Rot.one_apply (v : Vec ℝ) : Rot.one.apply v = v := by
  ext <;> simp [Rot.apply, Rot.one]

theorem Rot.apply_add (a : Rot ℝ) (v w : Vec ℝ) : a.apply (v.add w) = (a.apply v).add (a.apply w) := by
  ext <;> simp only [Rot.apply, Vec.add] <;> ring

/-- The determinant. -/
def Rot.det (a : Rot ℝ) : ℝ :=
  a.xx * (a.yy * a.zz - a.yz * a.zy) - a.xy * (a.yx * a.zz - a.yz * a.zx) + a.xz * (a.yx * a.zy - a.yy * a.zx)

theorem Rot.det_mul (a b : Rot ℝ) : (a.mul b).det = a.det * b.det := by
  simp only [Rot.mul, Rot.det]; ring

@[simp] theorem Rot.det_transpose (a : Rot ℝ) : a.transpose.det = a.det := by
  simp only [Rot.transpose, Rot.det]; ring

/-- An orthogonal matrix: the transpose is the inverse, on both sides. -/
structure Rot.Orthogonal (a : Rot ℝ) : Prop where
  left : a.transpose.mul a = Rot.one
  right : a.mul a.transpose = Rot.one

theorem Rot.Orthogonal.one : (Rot.one : Rot ℝ).Orthogonal := ⟨by simp, by simp⟩

theorem Rot.Orthogonal.mul {a b : Rot ℝ} (ha : a.Orthogonal) (hb : b.Orthogonal) : (a.mul b).Orthogonal := by
  constructor
  · rw [Rot.transpose_mul, Rot.mul_assoc, ← Rot.mul_assoc a.transpose, ha.left, Rot.one_mul, hb.left]
  · rw [Rot.transpose_mul, Rot.mul_assoc, ← Rot.mul_assoc b, hb.right, Rot.one_mul, ha.right]

theorem Rot.Orthogonal.transpose {a : Rot ℝ} (ha : a.Orthogonal) : a.transpose.Orthogonal :=
  ⟨by simpa using ha.right, by simpa using ha.left⟩

/-- An orthogonal matrix of trace three is the identity. -/
theorem Rot.Orthogonal.eq_one_of_trace {a : Rot ℝ} (ha : a.Orthogonal) (ht : a.xx + a.yy + a.zz = 3) : a = Rot.one := by
  have h := ha.right
  have h1 := congrArg Rot.xx h
  have h2 := congrArg Rot.yy h
  have h3 := congrArg Rot.zz h
  simp only [Rot.mul, Rot.transpose, Rot.one] at h1 h2 h3
  have hx : a.xx ≤ 1 := by nlinarith [sq_nonneg a.xy, sq_nonneg a.xz, sq_nonneg (a.xx - 1)]
  have hy : a.yy ≤ 1 := by nlinarith [sq_nonneg a.yx, sq_nonneg a.yz, sq_nonneg (a.yy - 1)]
  have hz : a.zz ≤ 1 := by nlinarith [sq_nonneg a.zx, sq_nonneg a.zy, sq_nonneg (a.zz - 1)]
  have ex : a.xx = 1 := by linarith
  have ey : a.yy = 1 := by linarith
  have ez : a.zz = 1 := by linarith
  rw [ex] at h1
  rw [ey] at h2
  rw [ez] at h3
  have z : ∀ u v : ℝ, u * u + v * v = 0 → u = 0 ∧ v = 0 := fun u v h =>
    ⟨by nlinarith [sq_nonneg u, sq_nonneg v, pow_eq_zero_iff (two_ne_zero) (a := u)], by
      nlinarith [sq_nonneg u, sq_nonneg v, pow_eq_zero_iff (two_ne_zero) (a := v)]⟩
  have := z a.xy a.xz (by linarith)
  have := z a.yx a.yz (by linarith)
  have := z a.zx a.zy (by linarith)
  ext <;> simp only [Rot.one] <;> tauto

theorem Seitz.mul_assoc (a b c : Seitz ℝ) : (a.mul b).mul c = a.mul (b.mul c) := by
  ext <;> simp only [Seitz.mul, Rot.mul, Rot.apply, Vec.add] <;> ring

@[simp] theorem Seitz.one_mul (a : Seitz ℝ) : Seitz.one.mul a = a := by
  ext <;> simp [Seitz.mul, Seitz.one, Vec.add]

@[simp] theorem Seitz.mul_one (a : Seitz ℝ) : a.mul Seitz.one = a := by
  ext <;> simp [Seitz.mul, Seitz.one, Vec.add, Rot.apply]

/-- A transformation acts on points. -/
def Seitz.apply (s : Seitz ℝ) (v : Vec ℝ) : Vec ℝ := (s.r.apply v).add s.t

theorem Seitz.apply_mul (a b : Seitz ℝ) (v : Vec ℝ) : (a.mul b).apply v = a.apply (b.apply v) := by
  ext <;> simp only [Seitz.apply, Seitz.mul, Rot.mul, Rot.apply, Vec.add] <;> ring

@[simp] theorem Seitz.one_apply (v : Vec ℝ) : Seitz.one.apply v = v := by
  ext <;> simp [Seitz.apply, Seitz.one, Vec.add]

theorem Vec.add_neg (v : Vec ℝ) : v.add ⟨-v.x, -v.y, -v.z⟩ = ⟨0, 0, 0⟩ := by
  ext <;> simp [Vec.add]

theorem Seitz.inverse_mul {a : Seitz ℝ} (h : a.r.Orthogonal) : a.inverse.mul a = Seitz.one := by
  apply Seitz.ext
  · exact h.left
  · ext <;> simp [Seitz.inverse, Seitz.mul, Seitz.one, Vec.add]

theorem Seitz.mul_inverse {a : Seitz ℝ} (h : a.r.Orthogonal) : a.mul a.inverse = Seitz.one := by
  apply Seitz.ext
  · exact h.right
  · have e : a.r.apply (a.r.transpose.apply a.t) = a.t := by
      rw [← Rot.apply_mul, h.right, Rot.one_apply]
    have e1 := congrArg Vec.x e
    have e2 := congrArg Vec.y e
    have e3 := congrArg Vec.z e
    simp only [Rot.apply] at e1 e2 e3
    ext <;> simp only [Seitz.inverse, Seitz.mul, Seitz.one, Vec.add, Rot.apply] <;> linarith

/-! ### Trigonometry in degrees -/

theorem deg_sq (v : ℝ) : cosDeg v * cosDeg v + sinDeg v * sinDeg v = 1 := by
  have := Real.cos_sq_add_sin_sq (v / 180 * Real.pi)
  simp only [cosDeg, sinDeg]; nlinarith

@[simp] theorem cosDeg_zero : cosDeg 0 = 1 := by simp [cosDeg]
@[simp] theorem sinDeg_zero : sinDeg 0 = 0 := by simp [sinDeg]

theorem deg_90 : (90 : ℝ) / 180 * Real.pi = Real.pi / 2 := by ring
theorem deg_180 : (180 : ℝ) / 180 * Real.pi = Real.pi := by ring

@[simp] theorem cosDeg_90 : cosDeg 90 = 0 := by rw [cosDeg, deg_90, Real.cos_pi_div_two]
@[simp] theorem sinDeg_90 : sinDeg 90 = 1 := by rw [sinDeg, deg_90, Real.sin_pi_div_two]
@[simp] theorem cosDeg_180 : cosDeg 180 = -1 := by rw [cosDeg, deg_180, Real.cos_pi]
@[simp] theorem sinDeg_180 : sinDeg 180 = 0 := by rw [sinDeg, deg_180, Real.sin_pi]
@[simp] theorem cosDeg_neg (v : ℝ) : cosDeg (-v) = cosDeg v := by
  rw [cosDeg, cosDeg, neg_div, neg_mul, Real.cos_neg]
@[simp] theorem sinDeg_neg (v : ℝ) : sinDeg (-v) = -sinDeg v := by
  rw [sinDeg, sinDeg, neg_div, neg_mul, Real.sin_neg]

theorem cosValue_lit (e : E) (v : ℝ) : (cosValue (.lit v : Sc E)).val e = cosDeg v := by
  simp only [cosValue]
  split_ifs with h1 h2 h3 <;> simp [*]

theorem sinValue_lit (e : E) (v : ℝ) (h : v ≠ 180) : (sinValue (.lit v : Sc E)).val e = sinDeg v := by
  simp only [sinValue]
  split_ifs with h1 h2 <;> simp [*]

theorem sinExpr_zero (d : Bool) (e : E) (v : Sc E) (h : v.isZero = true) : (sinExpr d v).val e = 0 := by
  cases v with
  | run => simp [Sc.isZero] at h
  | lit r =>
    simp only [Sc.isZero, decide_eq_true_eq] at h
    subst h
    cases d <;> simp [sinExpr]

theorem cosExpr_zero (d : Bool) (e : E) (v : Sc E) (h : v.isZero = true) : (cosExpr d v).val e = 1 := by
  cases v with
  | run => simp [Sc.isZero] at h
  | lit r =>
    simp only [Sc.isZero, decide_eq_true_eq] at h
    subst h
    cases d <;> simp [cosExpr]

theorem expr_sq (d : Bool) (e : E) (v : Sc E) :
    (cosExpr d v).val e * (cosExpr d v).val e + (sinExpr d v).val e * (sinExpr d v).val e = 1 := by
  cases v with
  | run f =>
    simp only [cosExpr, sinExpr, val_run]
    nlinarith [Real.cos_sq_add_sin_sq (f e)]
  | lit r =>
    cases d
    · simp only [cosExpr, sinExpr, val_lit]
      simp
      nlinarith [Real.cos_sq_add_sin_sq r]
    · simp only [cosExpr, sinExpr, val_lit]
      simpa using deg_sq r

/-! ### Elementary rotations -/

/-- The rotation of the axes about one axis, with the given cosine and sine. -/
def turn (a : Axis) (c s : ℝ) : Rot ℝ :=
  match a with
  | .x => ⟨1, 0, 0, 0, c, s, 0, -s, c⟩
  | .y => ⟨c, 0, -s, 0, 1, 0, s, 0, c⟩
  | .z => ⟨c, s, 0, -s, c, 0, 0, 0, 1⟩

theorem turn_orthogonal (a : Axis) (c s : ℝ) (h : c * c + s * s = 1) : (turn a c s).Orthogonal := by
  cases a <;> constructor <;>
    ext <;> simp only [turn, Rot.mul, Rot.transpose, Rot.one] <;> first | ring1 | linear_combination h

theorem turn_det (a : Axis) (c s : ℝ) (h : c * c + s * s = 1) : (turn a c s).det = 1 := by
  cases a <;> simp only [turn, Rot.det] <;> linear_combination h

theorem turn_inverse (a : Axis) (c s : ℝ) (h : c * c + s * s = 1) : (turn a c (-s)).mul (turn a c s) = Rot.one := by
  have := (turn_orthogonal a c s h).left
  rw [← this]
  cases a <;> simp [turn, Rot.transpose]

theorem turn_one (a : Axis) : turn a 1 0 = Rot.one := by
  cases a <;> simp [turn, Rot.one]

theorem rotationAxes_val (e : E) (a : Axis) (v : Sc E) (d : Bool) :
    (rotationAxes a v d).val e = turn a ((cosValue (usedAngle v d)).val e) ((sinValue (usedAngle v d)).val e) := by
  cases a <;> simp [rotationAxes, turn, Rot.val]

theorem fromAngles_val (e : E) (a : Vec (Sc E)) (d : Bool) :
    (fromAngles a d).val e =
      (turn .z ((cosExpr d a.z).val e) ((sinExpr d a.z).val e)).mul
        ((turn .y ((cosExpr d a.y).val e) ((sinExpr d a.y).val e)).mul
          (turn .x ((cosExpr d a.x).val e) ((sinExpr d a.x).val e))) := by
  simp only [fromAngles, Rot.val_mul]
  congr 1
  · split
    · rename_i h; rw [sinExpr_zero d e _ h, cosExpr_zero d e _ h, turn_one, Rot.val_one]
    · simp [turn, Rot.val]
  · congr 1
    · split
      · rename_i h; rw [sinExpr_zero d e _ h, cosExpr_zero d e _ h, turn_one, Rot.val_one]
      · simp [turn, Rot.val]
    · split
      · rename_i h; rw [sinExpr_zero d e _ h, cosExpr_zero d e _ h, turn_one, Rot.val_one]
      · simp [turn, Rot.val]

/-! ### Chains -/

/-- The composition of the parts, the first being applied first. -/
noncomputable def compose (e : E) : List (Part E) → Seitz ℝ
  | [] => Seitz.one
  | p :: ps => (compose e ps).mul (p.axes.val e)

theorem compose_append (e : E) (ps qs : List (Part E)) : compose e (ps ++ qs) = (compose e qs).mul (compose e ps) := by
  induction ps with
  | nil => simp [compose]
  | cons p ps ih => simp [compose, ih, Seitz.mul_assoc]

theorem Part.mul_axes (e : E) (p q : Part E) : (p.mul q).axes.val e = (p.axes.val e).mul (q.axes.val e) := by
  simp [Part.mul, Part.axes]

theorem foldl_mul (e : E) (ps : List (Part E)) (p : Part E) :
    (ps.foldl (fun acc w => w.mul acc) p).axes.val e = (compose e ps).mul (p.axes.val e) := by
  induction ps generalizing p with
  | nil => simp [compose]
  | cons q qs ih => rw [List.foldl_cons, ih, Part.mul_axes, compose, Seitz.mul_assoc]

theorem resolve_val (e : E) (ps : List (Part E)) : (resolve ps).axes.val e = compose e ps := by
  cases ps with
  | nil => simp [resolve, compose, Part.axes]
  | cons p ps => rw [resolve, foldl_mul, compose]

theorem compose_orthogonal (e : E) (ps : List (Part E)) (h : ∀ p ∈ ps, (p.axes.val e).r.Orthogonal) :
    (compose e ps).r.Orthogonal := by
  induction ps with
  | nil => exact Rot.Orthogonal.one
  | cons p ps ih =>
    exact (ih fun q hq => h q (List.mem_cons_of_mem _ hq)).mul (h p List.mem_cons_self)

end Verif.Orient
