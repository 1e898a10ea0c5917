import Verif.Orient.Euler

/-! Property C17: the placement computed in Python and the placement computed by the generated program. -/

namespace Verif.Orient
variable {E : Type}

/-- What an instance says about its placement: `AT at_ RELATIVE atRef ROTATED rot RELATIVE rotRef`; references are the
indices of earlier instances, `none` is ABSOLUTE (instance.py 30-40: `at_relative`, `rotate_relative`). -/
structure Inst (E : Type) where
  at_ : Vec (Sc E)
  atRef : Option Nat
  rot : Vec (Sc E)
  rotRef : Option Nat

/-- The orientation the rotation refers to (instance.py 106, 109). -/
def rotReference (earlier : List (Orient E)) (i : Inst E) : Option (Orient E) :=
  match i.rotRef with
  | some k => earlier[k]?
  | none => i.atRef.bind (earlier[·]?)

/-- The orientation of a new instance, given those of the earlier ones (`Instance.__post_init__`, instance.py 99-110;
a missing rotation reference is replaced by the position reference). -/
noncomputable def pyPlace (earlier : List (Orient E)) (i : Inst E) : Orient E :=
  fromDependentOrientations (i.atRef.bind (earlier[·]?)) i.at_ (rotReference earlier i) i.rot

/-- The orientations of all instances, in order of definition. -/
noncomputable def pyPlaceAll (is : List (Inst E)) : List (Orient E) := is.foldl (fun acc i => acc ++ [pyPlace acc i]) []

/-- A placement in the generated program: `_rotation_absolute` and `_position_absolute`. -/
structure Placed where
  rot : Rot ℝ
  pos : Vec ℝ

/-- The matrix `rot_set_rotation` of the McCode run-time library sets, for angles in radian. The library is not part of the
repository; this is the convention stated in orientation.py 221: turn about x, then y, then z. -/
noncomputable def rotSetRotation (x y z : ℝ) : Rot ℝ := (turnBy .z z).mul ((turnBy .y y).mul (turnBy .x x))

/-- `DEG2RAD`. -/
noncomputable def deg2rad : ℝ := Real.pi / 180

/-- The generated initialisation of one component (c_initialise.py 38-99): `rot_mul(tr1, rel, abs)` is the product
`tr1 rel`, `rot_apply` applies a matrix, `coords_add` adds. -/
noncomputable def cPlace (e : E) (earlier : List Placed) (i : Inst E) : Placed :=
  let r := rotSetRotation (i.rot.x.val e * deg2rad) (i.rot.y.val e * deg2rad) (i.rot.z.val e * deg2rad)
  { rot := match i.rotRef.bind (earlier[·]?) with
      | none => r
      | some rel => r.mul rel.rot
    pos := match i.atRef.bind (earlier[·]?) with
      | none => i.at_.val e
      | some rel => rel.pos.add (rel.rot.transpose.apply (i.at_.val e)) }

/-- The placements of all components, in order. -/
noncomputable def cPlaceAll (e : E) (is : List (Inst E)) : List Placed := is.foldl (fun acc i => acc ++ [cPlace e acc i]) []

/-! ### C17 -/

/-- The absolute position and rotation a Python orientation stands for. -/
noncomputable def Orient.placed (e : E) (o : Orient E) : Placed :=
  ⟨(resolve o.rotation).rotationAxes.val e, (resolve o.position).position.val e⟩

/-- A literal angle other than a half turn. -/
def PlainAngle (v : Sc E) : Prop := ∃ r : ℝ, v = .lit r ∧ r ≠ 180

/-- Instances for which both computations agree: literal angles other than 180, and a rotation given ABSOLUTE only if
the position is given ABSOLUTE, too. -/
structure Agreeing (i : Inst E) : Prop where
  x : PlainAngle i.rot.x
  y : PlainAngle i.rot.y
  z : PlainAngle i.rot.z
  ref : i.rotRef = none → i.atRef = none

/-- The invariant of the induction. -/
structure Rel (e : E) (o : Orient E) (c : Placed) : Prop where
  rot : (compose e o.rotation).r = c.rot
  orth : ∀ p ∈ o.rotation, (p.axes.val e).r.Orthogonal
  pos : (resolve o.position).position.val e = c.pos

theorem plain_part (e : E) (a : Axis) (r : ℝ) (h : r ≠ 180) :
    ((Part.rotation a (.lit r) true : Part E).axes.val e).r = turnBy a (r * deg2rad) := by
  rw [rotation_part_angle_partial e a r h, deg2rad, mul_div_assoc]

theorem turnBy_zero (a : Axis) : turnBy a 0 = Rot.one := by
  simp [turnBy, turn_one]

theorem turnBy_orthogonal (a : Axis) (θ : ℝ) : (turnBy a θ).Orthogonal :=
  turn_orthogonal _ _ _ (by nlinarith [Real.cos_sq_add_sin_sq θ])

/-- The part for one angle, left out if the angle is zero. -/
noncomputable def anglePart (a : Axis) (v : Sc E) : List (Part E) := if v.isZero then [] else [.rotation a v true]

theorem compose_anglePart (e : E) (a : Axis) (v : Sc E) (h : PlainAngle v) :
    (compose e (anglePart a v)).r = turnBy a (v.val e * deg2rad) ∧
    ∀ p ∈ anglePart a v, (p.axes.val e).r.Orthogonal := by
  obtain ⟨r, rfl, hr⟩ := h
  unfold anglePart
  split
  · rename_i hz
    rw [Sc.isZero_val hz e, zero_mul, turnBy_zero]
    exact ⟨rfl, by simp⟩
  · refine ⟨?_, ?_⟩
    · rw [compose, compose, Seitz.one_mul, plain_part e a r hr]; rfl
    · intro p hp
      rw [List.mem_singleton] at hp
      subst hp
      rw [plain_part e a r hr]
      exact turnBy_orthogonal _ _

theorem fromAtRotated_zero (v : Vec (Sc E)) :
    fromAtRotated ⟨0, 0, 0⟩ v true = anglePart .x v.x ++ anglePart .y v.y ++ anglePart .z v.z := by
  have h0 : (0 : Sc E).isZero = true := by
    show (Sc.lit 0).isZero = true
    simp [Sc.isZero]
  simp [fromAtRotated, anglePart, h0]

theorem compose_chain (e : E) (dep : List (Part E)) (v : Vec (Sc E)) (hx : PlainAngle v.x) (hy : PlainAngle v.y)
    (hz : PlainAngle v.z) (hd : ∀ p ∈ dep, (p.axes.val e).r.Orthogonal) :
    (compose e (reduce (dep ++ fromAtRotated ⟨0, 0, 0⟩ v true))).r =
      (rotSetRotation (v.x.val e * deg2rad) (v.y.val e * deg2rad) (v.z.val e * deg2rad)).mul (compose e dep).r ∧
    ∀ p ∈ reduce (dep ++ fromAtRotated ⟨0, 0, 0⟩ v true), (p.axes.val e).r.Orthogonal := by
  obtain ⟨x1, x2⟩ := compose_anglePart e .x v.x hx
  obtain ⟨y1, y2⟩ := compose_anglePart e .y v.y hy
  obtain ⟨z1, z2⟩ := compose_anglePart e .z v.z hz
  have ho : ∀ p ∈ dep ++ fromAtRotated ⟨0, 0, 0⟩ v true, (p.axes.val e).r.Orthogonal := by
    intro p hp
    rw [fromAtRotated_zero] at hp
    simp only [List.mem_append] at hp
    rcases hp with h | (h | h) | h
    · exact hd p h
    · exact x2 p h
    · exact y2 p h
    · exact z2 p h
  obtain ⟨c1, c2⟩ := compose_reduce e _ ho
  refine ⟨?_, c2⟩
  rw [c1, compose_append, fromAtRotated_zero, compose_append, compose_append]
  simp only [Seitz.mul, rotSetRotation, x1, y1, z1]

theorem bind_get_rel (e : E) (os : List (Orient E)) (cs : List Placed) (h : List.Forall₂ (Rel e) os cs) (k : Nat) :
    (os[k]? = none ∧ cs[k]? = none) ∨ ∃ o c, os[k]? = some o ∧ cs[k]? = some c ∧ Rel e o c := by
  induction h generalizing k with
  | nil => left; simp
  | cons hr _ ih =>
    cases k with
    | zero => right; exact ⟨_, _, rfl, rfl, hr⟩
    | succ k => simpa using ih k

theorem place_rel (e : E) (os : List (Orient E)) (cs : List Placed) (h : List.Forall₂ (Rel e) os cs) (i : Inst E)
    (hi : Agreeing i) (hr : ∀ k, i.rotRef = some k → k < os.length) : Rel e (pyPlace os i) (cPlace e cs i) := by
  have hlen := h.length_eq
  -- position reference
  have hat : (i.atRef.bind (os[·]?) = none ∧ i.atRef.bind (cs[·]?) = none) ∨
      ∃ o c, i.atRef.bind (os[·]?) = some o ∧ i.atRef.bind (cs[·]?) = some c ∧ Rel e o c := by
    cases i.atRef with
    | none => left; simp
    | some k => simpa using bind_get_rel e os cs h k
  -- rotation reference
  have hrot : (∃ o c, rotReference os i = some o ∧
      i.rotRef.bind (cs[·]?) = some c ∧ Rel e o c) ∨
      (rotReference os i = none ∧
        i.rotRef.bind (cs[·]?) = none) := by
    cases hk : i.rotRef with
    | none => right; simp [rotReference, hk, hi.ref hk]
    | some k =>
      left
      have hk' := hr k hk
      rcases bind_get_rel e os cs h k with ⟨h1, _⟩ | ⟨o, c, h1, h2, h3⟩
      · rw [List.getElem?_eq_none_iff] at h1; omega
      · exact ⟨o, c, by simpa [rotReference, hk] using h1, by simpa using h2, h3⟩
  have hposEq : ((pyPlace os i).position) = [.translation ((resolve ((i.atRef.bind (os[·]?)).getD Orient.none).position).position.add
      ((resolve ((i.atRef.bind (os[·]?)).getD Orient.none).rotation).rotationCoordinates.apply i.at_))] := rfl
  have hrotEq : (pyPlace os i).rotation = reduce
      ((((rotReference os i).map fun r => reduce r.rotation).getD [])
        ++ fromAtRotated ⟨0, 0, 0⟩ i.rot true) := by
    simp only [pyPlace, fromDependentOrientations, fromDependentChain]
  have main : (compose e (pyPlace os i).rotation).r = (cPlace e cs i).rot ∧
      ∀ p ∈ (pyPlace os i).rotation, (p.axes.val e).r.Orthogonal := by
    rw [hrotEq]
    rcases hrot with ⟨o, c, h1, h2, h3⟩ | ⟨h1, h2⟩
    · obtain ⟨c1, c2⟩ := compose_reduce e _ h3.orth
      obtain ⟨d1, d2⟩ := compose_chain e (reduce o.rotation) i.rot hi.x hi.y hi.z c2
      simp only [h1, Option.map_some, Option.getD_some]
      refine ⟨?_, d2⟩
      rw [d1, c1, h3.rot]
      simp only [cPlace, h2]
    · obtain ⟨d1, d2⟩ := compose_chain e [] i.rot hi.x hi.y hi.z (by simp)
      simp only [h1, Option.map_none, Option.getD_none]
      refine ⟨?_, d2⟩
      rw [d1]
      simp only [cPlace, h2, compose]
      exact Rot.mul_one _
  refine ⟨main.1, main.2, ?_⟩
  rw [hposEq]
  have hone : ∀ v : Vec (Sc E), (resolve [.translation v]).position = v := fun _ => rfl
  rw [hone, Vec.val_add, Rot.val_apply]
  rcases hat with ⟨h1, h2⟩ | ⟨o, c, h1, h2, h3⟩
  · simp only [h1, h2, cPlace, Option.getD_none, Orient.none, resolve, Part.position, Part.rotationCoordinates, Part.axes]
    ext <;> simp [Vec.add, Vec.val, Seitz.one, Seitz.inverse, Rot.one, Rot.transpose, Rot.apply, Rot.val]
  · simp only [h1, h2, cPlace, Option.getD_some]
    rw [h3.pos]
    congr 1
    have : ((resolve o.rotation).rotationCoordinates.val e) = c.rot.transpose := by
      rw [← h3.rot, ← resolve_val]
      rfl
    rw [this]

theorem place_all_rel (e : E) (is : List (Inst E)) (os : List (Orient E)) (cs : List Placed)
    (h : List.Forall₂ (Rel e) os cs) (hi : ∀ i ∈ is, Agreeing i)
    (hr : ∀ j i, is[j]? = some i → ∀ k, i.rotRef = some k → k < os.length + j) :
    List.Forall₂ (Rel e) (is.foldl (fun acc i => acc ++ [pyPlace acc i]) os)
      (is.foldl (fun acc i => acc ++ [cPlace e acc i]) cs) := by
  induction is generalizing os cs with
  | nil => exact h
  | cons i is ih =>
    simp only [List.foldl_cons]
    have h1 := place_rel e os cs h i (hi i List.mem_cons_self) (fun k hk => by simpa using hr 0 i rfl k hk)
    apply ih
    · exact List.rel_append h (List.Forall₂.cons h1 List.Forall₂.nil)
    · exact fun i' hi' => hi i' (List.mem_cons_of_mem _ hi')
    · intro j i' hj k hk
      have := hr (j + 1) i' (by simpa using hj) k hk
      simp only [List.length_append, List.length_cons, List.length_nil]
      omega

/-- C17: every instance of an instrument is placed by Python where the generated program places the component, through
any chain of references to earlier instances and for all run-time values of the positions. Missing: angles which are not
literal or are 180 degrees, and rotations given ABSOLUTE with a relative position, see the theorems below. -/
theorem placement_agrees_partial (e : E) (is : List (Inst E)) (hi : ∀ i ∈ is, Agreeing i)
    (hr : ∀ (j : Nat) (i : Inst E), is[j]? = some i → ∀ k, i.rotRef = some k → k < j) :
    (pyPlaceAll is).map (Orient.placed e) = cPlaceAll e is := by
  have h := place_all_rel e is [] [] .nil hi (fun j i hj k hk => by simpa using hr j i hj k hk)
  have key : ∀ (os : List (Orient E)) (cs : List Placed), List.Forall₂ (Rel e) os cs → os.map (Orient.placed e) = cs := by
    intro os cs h
    induction h with
    | nil => rfl
    | cons hr _ ih =>
      rw [List.map_cons, ih]
      congr 1
      rw [Orient.placed, hr.pos]
      congr 1
      rw [← hr.rot, ← resolve_val]
      rfl
  exact key _ _ h

/-- Three components, the second and third placed and rotated relative to earlier ones, one coordinate known at run time
only, meet the hypotheses. -/
example : ∃ is : List (Inst ℝ), is.length = 3 ∧ (∀ i ∈ is, Agreeing i) ∧
    ∀ (j : Nat) (i : Inst ℝ), is[j]? = some i → ∀ k, i.rotRef = some k → k < j := by
  refine ⟨[⟨⟨.lit 0, .lit 0, .lit 0⟩, none, ⟨.lit 0, .lit 0, .lit 0⟩, none⟩,
    ⟨⟨.lit 0, .lit 1, .run fun e => e⟩, some 0, ⟨.lit 0, .lit 30, .lit 0⟩, some 0⟩,
    ⟨⟨.lit 1, .lit 1, .lit 2⟩, some 1, ⟨.lit 10, .lit (-90), .lit 45⟩, some 0⟩], rfl, ?_, ?_⟩
  · intro i hi
    simp only [List.mem_cons, List.not_mem_nil, or_false] at hi
    rcases hi with rfl | rfl | rfl
    · exact ⟨⟨0, rfl, by norm_num⟩, ⟨0, rfl, by norm_num⟩, ⟨0, rfl, by norm_num⟩, fun _ => rfl⟩
    · exact ⟨⟨0, rfl, by norm_num⟩, ⟨30, rfl, by norm_num⟩, ⟨0, rfl, by norm_num⟩, fun h => by cases h⟩
    · exact ⟨⟨10, rfl, by norm_num⟩, ⟨-90, rfl, by norm_num⟩, ⟨45, rfl, by norm_num⟩, fun h => by cases h⟩
  · intro j i hj k hk
    match j, hj with
    | 0, hj => simp at hj; subst hj; cases hk
    | 1, hj => simp at hj; subst hj; simp at hk; omega
    | 2, hj => simp at hj; subst hj; simp at hk; omega
    | j + 3, hj => simp at hj

/-- C17 fails for a rotation given ABSOLUTE with a position given RELATIVE: the generated program leaves the second
component unrotated, the Python orientation turns it with the first. -/
theorem absolute_rotation_ignored :
    ∃ is : List (Inst Unit), is.length = 2 ∧ (pyPlaceAll is).map (Orient.placed ()) ≠ cPlaceAll () is ∧
      (cPlaceAll () is).map Placed.rot = [turnBy .y (90 * deg2rad), Rot.one] := by
  have h0 : (0 : Sc Unit).isZero = true := by
    show (Sc.lit 0).isZero = true
    simp [Sc.isZero]
  have h0' : (Sc.lit 0 : Sc Unit).isZero = true := h0
  have h90 : (Sc.lit 90 : Sc Unit).isZero = false := by simp [Sc.isZero]
  have hc1 : (cosValue (.lit 90 : Sc Unit)) = .lit 0 := by simp only [cosValue]; norm_num
  let i0 : Inst Unit := ⟨⟨0, 0, 0⟩, none, ⟨.lit 0, .lit 90, .lit 0⟩, none⟩
  let i1 : Inst Unit := ⟨⟨0, 0, 1⟩, some 0, ⟨.lit 0, .lit 0, .lit 0⟩, none⟩
  have hcr : (cPlaceAll () [i0, i1]).map Placed.rot = [turnBy .y (90 * deg2rad), Rot.one] := by
    simp [cPlaceAll, cPlace, i0, i1, rotSetRotation, turnBy_zero]
  refine ⟨[i0, i1], rfl, fun h => ?_, hcr⟩
  have hp : ((pyPlaceAll [i0, i1]).map (Orient.placed ())).map Placed.rot =
      [turnBy .y (90 * deg2rad), turnBy .y (90 * deg2rad)] := by
    have hq : (Part.rotation .y (.lit 90) true : Part Unit).rotationAxes.val () = turnBy .y (90 * deg2rad) :=
      plain_part () .y 90 (by norm_num)
    simp [pyPlaceAll, pyPlace, rotReference, i0, i1, fromDependentOrientations, fromDependentChain, fromAtRotated, h0, h0', h90,
      reduce, reduceEnd, Orient.placed, resolve, hq]
  rw [h, hcr] at hp
  simp only [List.cons.injEq, true_and, and_true] at hp
  have e2 : 90 * deg2rad = Real.pi / 2 := by rw [deg2rad]; ring
  have := congrArg Rot.xx hp
  simp [turnBy, turn, Rot.one, e2] at this

/-- C17 fails for a half turn: ROTATED (0, 180, 0). -/
theorem half_turn_placement_wrong :
    (pyPlaceAll [(⟨⟨0, 0, 0⟩, none, ⟨.lit 0, .lit 180, .lit 0⟩, none⟩ : Inst Unit)]).map (Orient.placed ()) ≠
      cPlaceAll () [(⟨⟨0, 0, 0⟩, none, ⟨.lit 0, .lit 180, .lit 0⟩, none⟩ : Inst Unit)] := by
  have h0 : (0 : Sc Unit).isZero = true := by
    show (Sc.lit 0).isZero = true
    simp [Sc.isZero]
  have h0' : (Sc.lit 0 : Sc Unit).isZero = true := h0
  have h180 : (Sc.lit 180 : Sc Unit).isZero = false := by simp [Sc.isZero]
  have s1 : (sinValue (.lit 180 : Sc Unit)).val () = -1 := by simp only [sinValue]; norm_num
  intro h
  have h := congrArg (List.map fun p : Placed => p.rot.zx) h
  have e2 : 180 * deg2rad = Real.pi := by rw [deg2rad]; ring
  have hq : ((Part.rotation .y (.lit 180) true : Part Unit).rotationAxes.val ()).zx = -1 := by
    show (sinValue (usedAngle (.lit 180 : Sc Unit) true)).val () = -1
    simpa [usedAngle] using s1
  simp [pyPlaceAll, pyPlace, rotReference, fromDependentOrientations, fromDependentChain, fromAtRotated, h0, h0', h180,
      reduce, reduceEnd, Orient.placed, resolve, hq, cPlaceAll, cPlace, rotSetRotation, turnBy_zero, e2] at h
  simp [turnBy, turn] at h

/-- C17 fails for an angle known at run time only: ROTATED (0, a, 0) at `a = 90`. -/
theorem run_time_angle_placement_wrong :
    (pyPlaceAll [(⟨⟨0, 0, 0⟩, none, ⟨.lit 0, .run fun e => e, .lit 0⟩, none⟩ : Inst ℝ)]).map (Orient.placed 90) ≠
      cPlaceAll 90 [(⟨⟨0, 0, 0⟩, none, ⟨.lit 0, .run fun e => e, .lit 0⟩, none⟩ : Inst ℝ)] := by
  have h0 : (0 : Sc ℝ).isZero = true := by
    show (Sc.lit 0).isZero = true
    simp [Sc.isZero]
  have h0' : (Sc.lit 0 : Sc ℝ).isZero = true := h0
  have hr : (Sc.run (fun e : ℝ => e) : Sc ℝ).isZero = false := by simp [Sc.isZero]
  intro h
  have h := congrArg (List.map fun p : Placed => p.rot) h
  simp [pyPlaceAll, pyPlace, rotReference, fromDependentOrientations, fromDependentChain, fromAtRotated, h0, h0', hr,
      reduce, reduceEnd, Orient.placed, resolve, cPlaceAll, cPlace, rotSetRotation, turnBy_zero] at h
  apply run_time_angle_wrong .y
  rw [rotation_part_angle_partial (E := ℝ) 90 .y 90 (by norm_num)]
  apply Seitz.ext
  · rw [mul_div_assoc]; exact h
  · simp [Part.axes, Seitz.val, Vec.val]

end Verif.Orient
