import Verif.Orient.Lemmas
import Mathlib.Analysis.Real.Pi.Bounds
import Mathlib.Analysis.SpecialFunctions.Trigonometric.Complex

/-! Properties C15, C16, C18 and C66: chains of transformations. -/

namespace Verif.Orient
variable {E : Type}

/-! ### C15: composition and inverses -/

/-- A chain applied to a point: every part acts in turn, the first part first. -/
noncomputable def actInOrder (e : E) (ps : List (Part E)) (v : Vec ℝ) : Vec ℝ :=
  ps.foldl (fun v p => (p.axes.val e).apply v) v

/-- C15: the transformation a chain resolves to acts like its parts one after the other. -/
theorem resolve_is_composition (e : E) (ps : List (Part E)) (v : Vec ℝ) :
    ((resolve ps).axes.val e).apply v = actInOrder e ps v := by
  rw [resolve_val]
  unfold actInOrder
  induction ps generalizing v with
  | nil => simp [compose]
  | cons p ps ih => rw [compose, Seitz.apply_mul, ih, List.foldl_cons]

/-- The angle `v` of a rotation part is not seen as 180 (or, for `sign = -1`, as -180). -/
def notHalfTurn (sign : ℝ) (v : Sc E) (degrees : Bool) : Prop :=
  ∀ r, usedAngle v degrees = .lit r → sign * r ≠ 180

/-- Parts which denote proper transformations: general matrices have to be orthogonal for every value of the run-time
parameters, rotations must not be by a literal half turn. -/
def Sound : Part E → Prop
  | .general s => ∀ e, (s.val e).r.Orthogonal
  | .translation _ => True
  | .rotation _ v d => notHalfTurn 1 v d

/-- The inverse denotes a proper transformation, too. -/
def SoundInverse : Part E → Prop
  | .rotation _ v d => notHalfTurn (-1) v d
  | _ => True

theorem value_sq (e : E) (v : Sc E) (h : ∀ r, v = .lit r → r ≠ 180) :
    (cosValue v).val e * (cosValue v).val e + (sinValue v).val e * (sinValue v).val e = 1 := by
  cases v with
  | lit r => rw [cosValue_lit, sinValue_lit e r (h r rfl), deg_sq]
  | run f =>
    simp only [cosValue, sinValue, val_run]
    nlinarith [Real.cos_sq_add_sin_sq (f e)]

theorem sound_orthogonal (e : E) (p : Part E) (h : Sound p) : (p.axes.val e).r.Orthogonal := by
  cases p with
  | general s => exact h e
  | translation v => simp only [Part.axes, Seitz.val, Rot.val_one]; exact Rot.Orthogonal.one
  | rotation a v d =>
    simp only [Part.axes, Seitz.val, rotationAxes_val]
    exact turn_orthogonal _ _ _ (value_sq e _ fun r hr => by simpa using h r hr)

theorem usedAngle_neg (v : Sc E) (d : Bool) : usedAngle (-v) d = -(usedAngle v d) := by
  cases d
  · cases v
    · simp only [usedAngle, degreeToRadian]
      exact congrArg Sc.lit (by ring)
    · simp only [usedAngle, degreeToRadian]
      exact congrArg Sc.run (funext fun e => show -_ * _ = -(_ * _) by ring)
  · rfl

theorem cosValue_neg (e : E) (v : Sc E) : (cosValue (-v)).val e = (cosValue v).val e := by
  cases v with
  | lit r =>
    show (cosValue (.lit (-r))).val e = _
    rw [cosValue_lit, cosValue_lit, cosDeg_neg]
  | run f =>
    show Real.cos (-(f e)) = Real.cos (f e)
    exact Real.cos_neg _

theorem sinValue_neg (e : E) (v : Sc E) (h : ∀ r, v = .lit r → r ≠ 180) (h' : ∀ r, v = .lit r → -r ≠ 180) :
    (sinValue (-v)).val e = -(sinValue v).val e := by
  cases v with
  | lit r =>
    show (sinValue (.lit (-r))).val e = _
    rw [sinValue_lit e _ (h' r rfl), sinValue_lit e r (h r rfl), sinDeg_neg]
  | run f =>
    show Real.sin (-(f e)) = -Real.sin (f e)
    exact Real.sin_neg _

theorem inverse_axes (e : E) (p : Part E) (h : Sound p) (h' : SoundInverse p) :
    p.inverse.axes.val e = (p.axes.val e).inverse := by
  cases p with
  | general s => simp [Part.inverse, Part.axes]
  | translation v =>
    simp only [Part.inverse, Part.axes, Seitz.val, Seitz.inverse, Rot.val_one, Rot.transpose_one, Rot.one_apply]
    simp [Vec.val]
  | rotation a v d =>
    simp only [Part.inverse, Part.axes, Seitz.val, Seitz.inverse, rotationAxes_val, usedAngle_neg, cosValue_neg]
    rw [sinValue_neg e _ (fun r hr => by simpa using h r hr) (fun r hr => by simpa using h' r hr)]
    cases a <;> simp [turn, Rot.transpose, Rot.apply, Vec.val]

theorem compose_inverse (e : E) (ps : List (Part E)) (h : ∀ p ∈ ps, Sound p) (h' : ∀ p ∈ ps, SoundInverse p) :
    (compose e (chainInverse ps)).mul (compose e ps) = Seitz.one ∧
    (compose e ps).mul (compose e (chainInverse ps)) = Seitz.one := by
  induction ps with
  | nil => simp [chainInverse, compose]
  | cons p ps ih =>
    have hp := h p List.mem_cons_self
    have hp' := h' p List.mem_cons_self
    obtain ⟨i1, i2⟩ := ih (fun q hq => h q (List.mem_cons_of_mem _ hq)) (fun q hq => h' q (List.mem_cons_of_mem _ hq))
    have ho := sound_orthogonal e p hp
    have e1 : compose e (chainInverse (p :: ps)) = (p.axes.val e).inverse.mul (compose e (chainInverse ps)) := by
      simp only [chainInverse, List.reverse_cons, List.map_append, List.map_cons, List.map_nil, compose_append]
      simp only [compose, Seitz.one_mul, inverse_axes e p hp hp']
    constructor
    · rw [e1, compose, Seitz.mul_assoc, ← Seitz.mul_assoc (compose e (chainInverse ps)), i1, Seitz.one_mul,
        Seitz.inverse_mul ho]
    · rw [e1, compose, Seitz.mul_assoc, ← Seitz.mul_assoc (p.axes.val e), Seitz.mul_inverse ho, Seitz.one_mul, i2]

/-- C15: a chain followed by its inverse, and the inverse followed by the chain, leave every point where it is. Missing:
chains with a literal half turn, see `half_turn_not_a_rotation`. -/
theorem chain_inverse_partial (e : E) (ps : List (Part E)) (h : ∀ p ∈ ps, Sound p) (h' : ∀ p ∈ ps, SoundInverse p)
    (v : Vec ℝ) :
    actInOrder e (chainInverse ps) (actInOrder e ps v) = v ∧ actInOrder e ps (actInOrder e (chainInverse ps) v) = v := by
  obtain ⟨i1, i2⟩ := compose_inverse e ps h h'
  simp only [← resolve_is_composition, resolve_val, ← Seitz.apply_mul, i1, i2, Seitz.one_apply, and_self]

/-- C15: a rotation made from three angles, constant or not, is a proper orthogonal matrix. -/
theorem from_angles_proper (e : E) (a : Vec (Sc E)) (d : Bool) :
    ((fromAngles a d).val e).Orthogonal ∧ ((fromAngles a d).val e).det = 1 := by
  rw [fromAngles_val]
  refine ⟨(turn_orthogonal _ _ _ (expr_sq d e _)).mul ((turn_orthogonal _ _ _ (expr_sq d e _)).mul
    (turn_orthogonal _ _ _ (expr_sq d e _))), ?_⟩
  rw [Rot.det_mul, Rot.det_mul, turn_det _ _ _ (expr_sq d e _), turn_det _ _ _ (expr_sq d e _),
    turn_det _ _ _ (expr_sq d e _), mul_one, mul_one]

/-- A chain with a run-time angle, a constant angle and a run-time displacement meets the hypotheses. -/
example : ∀ p ∈ ([.rotation .x (.run fun e => e) true, .translation ⟨.lit 1, .run fun e => 2 * e, .lit 0⟩,
    .rotation .y (.lit 30) true] : List (Part ℝ)), Sound p ∧ SoundInverse p := by
  intro p hp
  simp only [List.mem_cons, List.not_mem_nil, or_false] at hp
  rcases hp with rfl | rfl | rfl
  · simp [Sound, SoundInverse, notHalfTurn, usedAngle]
  · simp [Sound, SoundInverse]
  · simp only [Sound, SoundInverse, notHalfTurn, usedAngle, if_true, Sc.lit.injEq]
    refine ⟨?_, ?_⟩ <;> rintro r rfl <;> norm_num

/-- C15 fails for a half turn: the rotation by 180 degrees about any axis is not a rotation matrix, and the part
followed by its inverse moves points. -/
theorem half_turn_not_a_rotation (e : E) (a : Axis) :
    ¬((Part.rotation a (.lit 180) true : Part E).axes.val e).r.Orthogonal ∧
    ∃ v, actInOrder e (chainInverse [.rotation a (.lit 180) true]) (actInOrder e [.rotation a (.lit 180) true] v) ≠ v := by
  have c1 : (cosValue (.lit 180 : Sc E)).val e = -1 := by rw [cosValue_lit, cosDeg_180]
  have s1 : (sinValue (.lit 180 : Sc E)).val e = -1 := by simp only [sinValue]; norm_num
  have c2 : (cosValue (.lit (-180) : Sc E)).val e = -1 := by rw [cosValue_lit, cosDeg_neg, cosDeg_180]
  have s2 : (sinValue (.lit (-180) : Sc E)).val e = 0 := by
    rw [sinValue_lit e _ (by norm_num), sinDeg_neg, sinDeg_180, neg_zero]
  have m1 : (Part.rotation a (.lit 180) true : Part E).axes.val e = ⟨turn a (-1) (-1), ⟨0, 0, 0⟩⟩ := by
    simp only [Part.axes, Seitz.val, rotationAxes_val, usedAngle, if_true, c1, s1, Vec.val, val_zero]
  have m2 : (Part.rotation a (-(.lit 180)) true : Part E).axes.val e = ⟨turn a (-1) 0, ⟨0, 0, 0⟩⟩ := by
    have h : (-(.lit 180) : Sc E) = .lit (-180) := rfl
    simp only [h, Part.axes, Seitz.val, rotationAxes_val, usedAngle, if_true, c2, s2, Vec.val, val_zero]
  refine ⟨fun h => ?_, ⟨1, 1, 1⟩, fun h => ?_⟩
  · rw [m1] at h
    have := h.left
    cases a
    · have := congrArg Rot.yy this; simp [turn, Rot.mul, Rot.transpose, Rot.one] at this
    · have := congrArg Rot.xx this; simp [turn, Rot.mul, Rot.transpose, Rot.one] at this
    · have := congrArg Rot.xx this; simp [turn, Rot.mul, Rot.transpose, Rot.one] at this
  · simp only [actInOrder, chainInverse, List.reverse_cons, List.reverse_nil, List.nil_append, List.map_cons, List.map_nil,
      List.foldl_cons, List.foldl_nil, Part.inverse, m1, m2] at h
    cases a
    · have := congrArg Vec.y h; norm_num [turn, Seitz.apply, Rot.apply, Vec.add] at this
    · have := congrArg Vec.x h; norm_num [turn, Seitz.apply, Rot.apply, Vec.add] at this
    · have := congrArg Vec.x h; norm_num [turn, Seitz.apply, Rot.apply, Vec.add] at this

/-! ### C66: rotation parts turn by the stated angle -/

/-- The matrix rotating the axes by the angle `θ` (in radian) about an axis. -/
noncomputable def turnBy (a : Axis) (θ : ℝ) : Rot ℝ := turn a (Real.cos θ) (Real.sin θ)

/-- C66: a rotation part with a literal angle in degrees is the rotation by that angle. Missing: half turns, angles in
radian and run-time angles, see the theorems below. -/
theorem rotation_part_angle_partial (e : E) (a : Axis) (v : ℝ) (h : v ≠ 180) :
    (Part.rotation a (.lit v) true : Part E).axes.val e = ⟨turnBy a (v * Real.pi / 180), ⟨0, 0, 0⟩⟩ := by
  simp only [Part.axes, Seitz.val, rotationAxes_val, usedAngle, if_true, cosValue_lit, sinValue_lit e v h, Vec.val, val_zero]
  have : v / 180 * Real.pi = v * Real.pi / 180 := by ring
  simp only [turnBy, cosDeg, sinDeg, this]

example : (45 : ℝ) ≠ 180 := by norm_num

/-- An angle in radian is converted as if it were in degrees, and then used in degrees. -/
theorem radian_part_wrong (e : E) (a : Axis) :
    (Part.rotation a (.lit Real.pi) false : Part E).axes.val e ≠ ⟨turnBy a Real.pi, ⟨0, 0, 0⟩⟩ := by
  intro h
  have hpi := Real.pi_gt_three
  have hpi4 := Real.pi_le_four
  have hu : usedAngle (.lit Real.pi : Sc E) false = .lit (Real.pi * (Real.pi / 180)) := rfl
  have hv : Real.pi * (Real.pi / 180) / 180 * Real.pi < Real.pi / 2 := by
    have : Real.pi * (Real.pi / 180) / 180 < 1 / 2 := by nlinarith
    nlinarith
  have hpos : 0 < Real.cos (Real.pi * (Real.pi / 180) / 180 * Real.pi) :=
    Real.cos_pos_of_mem_Ioo ⟨by have : 0 < Real.pi * (Real.pi / 180) / 180 * Real.pi := by positivity
                                linarith, hv⟩
  simp only [Part.axes, Seitz.val, rotationAxes_val, hu, cosValue_lit, Seitz.mk.injEq] at h
  have h := h.1
  cases a
  · have := congrArg Rot.yy h; simp only [turn, turnBy, Real.cos_pi, cosDeg] at this; linarith
  · have := congrArg Rot.xx h; simp only [turn, turnBy, Real.cos_pi, cosDeg] at this; linarith
  · have := congrArg Rot.xx h; simp only [turn, turnBy, Real.cos_pi, cosDeg] at this; linarith

/-- A run-time angle in degrees is used as if it were in radian: at 90 degrees the part is not the quarter turn which
the literal 90 gives. -/
theorem run_time_angle_wrong (a : Axis) :
    (Part.rotation a (.run fun e => e) true : Part ℝ).axes.val 90 ≠
      (Part.rotation a (.lit 90) true : Part ℝ).axes.val 90 := by
  intro h
  rw [rotation_part_angle_partial (E := ℝ) 90 a 90 (by norm_num)] at h
  simp only [Part.axes, Seitz.val, rotationAxes_val, usedAngle, if_true, Seitz.mk.injEq] at h
  have h := h.1
  have e2 : (90 : ℝ) * Real.pi / 180 = Real.pi / 2 := by ring
  have key : Real.cos (90 : ℝ) = 0 := by
    cases a
    · have := congrArg Rot.yy h; simpa [turn, turnBy, e2, cosValue] using this
    · have := congrArg Rot.xx h; simpa [turn, turnBy, e2, cosValue] using this
    · have := congrArg Rot.xx h; simpa [turn, turnBy, e2, cosValue] using this
  rw [Real.cos_eq_zero_iff] at key
  obtain ⟨k, hk⟩ := key
  have h1 := Real.pi_gt_d6
  have h2 := Real.pi_lt_d6
  have hk1 : (2 * (k : ℝ) + 1) * Real.pi = 180 := by linarith
  have hpos : 0 < (2 * (k : ℝ) + 1) := by
    by_contra hn
    push Not at hn
    nlinarith
  have a1 : (2 * (k : ℝ) + 1) < 58 := by nlinarith
  have a2 : (57 : ℝ) < 2 * (k : ℝ) + 1 := by nlinarith
  have b1 : (2 * k + 1 : ℤ) < 58 := by exact_mod_cast a1
  have b2 : (57 : ℤ) < 2 * k + 1 := by exact_mod_cast a2
  omega

/-! ### C16: reducing a chain -/

theorem Sc.isZero_val {v : Sc E} (h : v.isZero = true) (e : E) : v.val e = 0 := by
  cases v with
  | lit r => simpa [Sc.isZero] using h
  | run f => simp [Sc.isZero] at h

theorem identity_val (e : E) (p : Part E) (ho : (p.axes.val e).r.Orthogonal) (h : p.isIdentity = true) :
    p.axes.val e = Seitz.one := by
  simp only [Part.isIdentity, Bool.and_eq_true, Bool.not_eq_true'] at h
  obtain ⟨h1, h2⟩ := h
  have ht : (p.axes.val e).trace = 3 := by
    rw [← Seitz.val_trace]
    cases hh : p.axes.trace with
    | lit r => rw [hh] at h2; simpa [Sc.isThree] using h2
    | run f => rw [hh] at h2; simp [Sc.isThree] at h2
  have hr : (p.axes.val e).r = Rot.one := ho.eq_one_of_trace ht
  apply Seitz.ext
  · exact hr
  · cases p with
    | general s =>
      simp only [Part.isTranslation, Bool.or_eq_false_iff, Bool.not_eq_false'] at h1
      simp [Part.axes, Seitz.val, Vec.val, Seitz.one, Sc.isZero_val h1.1.1 e, Sc.isZero_val h1.1.2 e, Sc.isZero_val h1.2 e]
    | translation v => simp [Part.isTranslation] at h1
    | rotation a v d => simp [Part.axes, Seitz.val, Vec.val, Seitz.one]

theorem reduceStep_val (e : E) (done : List (Part E)) (last top : Part E)
    (ho : ∀ p ∈ last :: done, (p.axes.val e).r.Orthogonal) (ht : (top.axes.val e).r.Orthogonal) :
    let st := reduceStep (done, last) top
    compose e (st.2 :: st.1).reverse = (top.axes.val e).mul (compose e (last :: done).reverse) ∧
      ∀ p ∈ st.2 :: st.1, (p.axes.val e).r.Orthogonal := by
  have hl := ho last List.mem_cons_self
  have hd : ∀ p ∈ done, (p.axes.val e).r.Orthogonal := fun p hp => ho p (List.mem_cons_of_mem _ hp)
  simp only [reduceStep]
  split_ifs with h1 h2
  · simp only [Bool.and_eq_true] at h1
    refine ⟨?_, ?_⟩
    · simp only [List.reverse_cons, compose_append]
      simp [compose, identity_val e last hl h1.2]
    · intro p hp
      rcases List.mem_cons.1 hp with rfl | hp
      · exact ht
      · exact hd p hp
  · refine ⟨?_, ?_⟩
    · simp only [List.reverse_cons, compose_append]
      simp [compose, Part.mul_axes, Seitz.mul_assoc]
    · intro p hp
      rcases List.mem_cons.1 hp with rfl | hp
      · rw [Part.mul_axes]; exact ht.mul hl
      · exact hd p hp
  · refine ⟨?_, ?_⟩
    · simp only [List.reverse_cons, compose_append]
      simp [compose]
    · intro p hp
      rcases List.mem_cons.1 hp with rfl | hp
      · exact ht
      · exact ho p hp

theorem reduce_fold_val (e : E) (ps : List (Part E)) (st : List (Part E) × Part E)
    (ho : ∀ p ∈ st.2 :: st.1, (p.axes.val e).r.Orthogonal) (hps : ∀ p ∈ ps, (p.axes.val e).r.Orthogonal) :
    let st' := ps.foldl reduceStep st
    compose e (st'.2 :: st'.1).reverse = (compose e ps).mul (compose e (st.2 :: st.1).reverse) ∧
      ∀ p ∈ st'.2 :: st'.1, (p.axes.val e).r.Orthogonal := by
  induction ps generalizing st with
  | nil => exact ⟨by simp [compose], ho⟩
  | cons p ps ih =>
    obtain ⟨h1, h2⟩ := reduceStep_val e st.1 st.2 p ho (hps p List.mem_cons_self)
    obtain ⟨h3, h4⟩ := ih (reduceStep st p) h2 fun q hq => hps q (List.mem_cons_of_mem _ hq)
    refine ⟨?_, h4⟩
    rw [List.foldl_cons, h3, h1, compose, Seitz.mul_assoc]

theorem compose_reduce (e : E) (ps : List (Part E)) (h : ∀ p ∈ ps, (p.axes.val e).r.Orthogonal) :
    compose e (reduce ps) = compose e ps ∧ ∀ p ∈ reduce ps, (p.axes.val e).r.Orthogonal := by
  cases ps with
  | nil => exact ⟨rfl, by simp [reduce]⟩
  | cons p ps =>
    obtain ⟨h1, h2⟩ := reduce_fold_val e ps ([], p) (by simpa using h p List.mem_cons_self)
      fun q hq => h q (List.mem_cons_of_mem _ hq)
    simp only [reduce, reduceEnd]
    split_ifs with h3
    · simp only [Bool.and_eq_true] at h3
      refine ⟨?_, fun q hq => h2 q (List.mem_cons_of_mem _ (List.mem_reverse.1 hq))⟩
      have := identity_val e _ (h2 _ List.mem_cons_self) h3.2.2
      rw [List.reverse_cons, compose_append] at h1
      simp only [compose, Seitz.one_mul, this, List.reverse_cons, List.reverse_nil, List.nil_append] at h1 ⊢
      exact h1
    · refine ⟨?_, fun q hq => h2 q (List.mem_reverse.1 hq)⟩
      rw [h1]
      simp [compose]

/-- C16: reducing a chain does not change what it does to any point, for all values of the run-time parameters.
Missing: chains with parts which are not proper transformations to begin with (literal half turns). -/
theorem reduce_preserves_partial (ps : List (Part E)) (h : ∀ p ∈ ps, Sound p) (e : E) (v : Vec ℝ) :
    actInOrder e (reduce ps) v = actInOrder e ps v := by
  rw [← resolve_is_composition, ← resolve_is_composition, resolve_val, resolve_val,
    (compose_reduce e ps fun p hp => sound_orthogonal e p (h p hp)).1]

theorem reduce_fold_adjacent (ps : List (Part E)) (st : List (Part E) × Part E)
    (h : (st.2 :: st.1).IsChain fun p q => ¬(p.isConstant = true ∧ q.isConstant = true)) :
    let st' := ps.foldl reduceStep st
    (st'.2 :: st'.1).IsChain fun p q => ¬(p.isConstant = true ∧ q.isConstant = true) := by
  induction ps generalizing st with
  | nil => exact h
  | cons p ps ih =>
    apply ih
    obtain ⟨done, last⟩ := st
    simp only [reduceStep]
    have replaced : last.isConstant = true → ∀ x : Part E,
        (x :: done).IsChain fun p q => ¬(p.isConstant = true ∧ q.isConstant = true) := by
      intro hc x
      cases done with
      | nil => simp
      | cons d ds =>
        simp only [List.isChain_cons_cons] at h ⊢
        exact ⟨fun hx => h.1 ⟨hc, hx.2⟩, h.2⟩
    split_ifs with h1 h2
    · simp only [Bool.and_eq_true] at h1
      exact replaced h1.1 p
    · simp only [Bool.and_eq_true] at h2
      exact replaced h2.1 _
    · simp only [Bool.and_eq_true] at h2
      simp only [List.isChain_cons_cons]
      exact ⟨fun hx => h2 ⟨hx.2, hx.1⟩, h⟩

/-- C16: in a reduced chain no two neighbours are both constant. -/
theorem reduce_no_adjacent_constants (ps : List (Part E)) :
    (reduce ps).IsChain fun p q => ¬(p.isConstant = true ∧ q.isConstant = true) := by
  have hsym : ∀ l : List (Part E), l.IsChain (fun p q => ¬(p.isConstant = true ∧ q.isConstant = true)) →
      l.reverse.IsChain fun p q => ¬(p.isConstant = true ∧ q.isConstant = true) := by
    intro l hl
    rw [List.isChain_reverse]
    exact hl.imp fun a b hab hba => hab ⟨hba.2, hba.1⟩
  cases ps with
  | nil => simp [reduce]
  | cons p ps =>
    have := reduce_fold_adjacent ps ([], p) (by simp)
    simp only [reduce, reduceEnd]
    split_ifs
    · exact hsym _ this.tail
    · exact hsym _ this

theorem op2_isLit (g : ℝ → ℝ → ℝ) (a b : Sc E) (ha : a.isLit = true) (hb : b.isLit = true) : (a.op2 g b).isLit = true := by
  cases a <;> cases b <;> simp_all [Sc.isLit, Sc.op2]

theorem add_isLit {a b : Sc E} (ha : a.isLit = true) (hb : b.isLit = true) : (a + b).isLit = true := op2_isLit _ a b ha hb
theorem mul_isLit {a b : Sc E} (ha : a.isLit = true) (hb : b.isLit = true) : (a * b).isLit = true := op2_isLit _ a b ha hb

theorem seitz_mul_isLit (a b : Seitz (Sc E)) (ha : a.isLit = true) (hb : b.isLit = true) : (a.mul b).isLit = true := by
  simp only [Seitz.isLit, Vec.isLit, Bool.and_eq_true] at ha hb ⊢
  simp only [Seitz.mul, Rot.mul, Rot.apply, Vec.add]
  refine ⟨⟨⟨⟨⟨⟨⟨⟨⟨?_, ?_⟩, ?_⟩, ?_⟩, ?_⟩, ?_⟩, ?_⟩, ?_⟩, ?_⟩, ⟨?_, ?_⟩, ?_⟩ <;>
    (repeat' first | apply add_isLit | apply mul_isLit) <;> tauto

theorem axes_isLit (p : Part E) (h : p.isConstant = true) : p.axes.isLit = true := by
  cases p with
  | general s => exact h
  | translation v =>
    simp only [Part.isConstant, Vec.isLit, Bool.and_eq_true] at h
    simp only [Part.axes, Seitz.isLit, Rot.one, Vec.isLit, Bool.and_eq_true]
    refine ⟨⟨⟨⟨⟨⟨⟨⟨⟨rfl, rfl⟩, rfl⟩, rfl⟩, rfl⟩, rfl⟩, rfl⟩, rfl⟩, rfl⟩, h⟩
  | rotation a v d =>
    cases v with
    | run f => simp [Part.isConstant, Sc.isLit] at h
    | lit r =>
      obtain ⟨r', hr'⟩ : ∃ r', usedAngle (.lit r : Sc E) d = .lit r' := by
        cases d
        · exact ⟨_, rfl⟩
        · exact ⟨_, rfl⟩
      obtain ⟨c, hc⟩ : ∃ c, cosValue (.lit r' : Sc E) = .lit c := by
        simp only [cosValue]; split_ifs <;> exact ⟨_, rfl⟩
      obtain ⟨s, hs⟩ : ∃ s, sinValue (.lit r' : Sc E) = .lit s := by
        simp only [sinValue]; split_ifs <;> exact ⟨_, rfl⟩
      cases a <;> simp only [Part.axes, rotationAxes, hr', hc, hs] <;> rfl

theorem mul_isConstant (p q : Part E) (hp : p.isConstant = true) (hq : q.isConstant = true) :
    (p.mul q).isConstant = true :=
  seitz_mul_isLit _ _ (axes_isLit p hp) (axes_isLit q hq)

/-- The parts depending on run-time parameters. -/
def running (ps : List (Part E)) : List (Part E) := ps.filter fun p => !p.isConstant

theorem reduce_fold_running (ps : List (Part E)) (st : List (Part E) × Part E) :
    let st' := ps.foldl reduceStep st
    running (st'.2 :: st'.1).reverse = running (st.2 :: st.1).reverse ++ running ps := by
  induction ps generalizing st with
  | nil => simp [running]
  | cons p ps ih =>
    have := ih (reduceStep st p)
    simp only [List.foldl_cons] at this ⊢
    rw [this]
    obtain ⟨done, last⟩ := st
    have e : running ((reduceStep (done, last) p).2 :: (reduceStep (done, last) p).1).reverse =
        running (last :: done).reverse ++ running [p] := by
      simp only [reduceStep]
      split_ifs with h1 h2
      · simp only [Bool.and_eq_true] at h1
        simp [running, List.filter_append, h1.1]
      · simp only [Bool.and_eq_true] at h2
        simp [running, List.filter_append, h2.1, h2.2, mul_isConstant p last h2.2 h2.1]
      · simp only [running, List.reverse_cons, ← List.filter_append]
    rw [e, List.append_assoc]
    congr 1
    rw [running, running, running, ← List.filter_append]
    rfl

/-- C16: reducing keeps the parts depending on run-time parameters, in order. -/
theorem reduce_keeps_running_parts (ps : List (Part E)) : running (reduce ps) = running ps := by
  cases ps with
  | nil => rfl
  | cons p ps =>
    have := reduce_fold_running ps ([], p)
    simp only at this
    have e : running (reduce (p :: ps)) =
        running ((ps.foldl reduceStep ([], p)).2 :: (ps.foldl reduceStep ([], p)).1).reverse := by
      simp only [reduce, reduceEnd]
      split_ifs with h
      · simp only [Bool.and_eq_true] at h
        simp [running, List.filter_append, h.2.1]
      · rfl
    rw [e, this, running, running, running, ← List.filter_append]
    rfl

end Verif.Orient
