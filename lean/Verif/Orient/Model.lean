import Mathlib.Analysis.SpecialFunctions.Trigonometric.Basic
import Mathlib.Analysis.SpecialFunctions.Complex.Arg
import Mathlib.Tactic.Ring
import Mathlib.Tactic.LinearCombination

/-!
Model of src/mccode_antlr/instr/orientation.py.

Scalars are `Expr` objects, of which only two things matter here: whether the object is a literal number, and which
number it stands for given the values `e : E` of the run-time parameters. Arithmetic on `Expr` objects is taken to
compute the sum, product and so on (this is property C09). Numbers are exact reals.
-/

namespace Verif.Orient

/-- An `Expr`: a literal number, or something only known at run time. -/
inductive Sc (E : Type)
  | lit (r : ℝ)
  | run (f : E → ℝ)

variable {E : Type}

/-- The number an expression stands for. -/
def Sc.val (e : E) : Sc E → ℝ
  | .lit r => r
  | .run f => f e

/-- `Expr.is_constant` / `Expr.has_value` (expression.py 1143-1148). -/
def Sc.isLit : Sc E → Bool
  | .lit _ => true
  | .run _ => false

open Classical in
/-- `Expr.is_zero` (expression.py 1107-1109): only a literal can be seen to be zero. -/
noncomputable def Sc.isZero : Sc E → Bool
  | .lit r => r = 0
  | .run _ => false

/-- A binary operation on expressions: literals are folded, everything else is built symbolically. Simplification: the
shortcuts `0 * x`, `x + 0` and so on, which can make a literal of a symbolic operand, are not modelled. -/
def Sc.op2 (g : ℝ → ℝ → ℝ) : Sc E → Sc E → Sc E
  | .lit a, .lit b => .lit (g a b)
  | x, y => .run fun e => g (x.val e) (y.val e)

/-- A unary operation on expressions. -/
def Sc.op1 (g : ℝ → ℝ) : Sc E → Sc E
  | .lit a => .lit (g a)
  | x => .run fun e => g (x.val e)

instance : Zero (Sc E) := ⟨.lit 0⟩
instance : One (Sc E) := ⟨.lit 1⟩
instance : Add (Sc E) := ⟨Sc.op2 (· + ·)⟩
instance : Mul (Sc E) := ⟨Sc.op2 (· * ·)⟩
instance : Neg (Sc E) := ⟨Sc.op1 (- ·)⟩

/-- `Vector` (90-93) and `Angles` (136-139). -/
@[ext] structure Vec (α : Type) where
  x : α
  y : α
  z : α

/-- `Rotation` (160-175), row by row. -/
@[ext] structure Rot (α : Type) where
  xx : α
  xy : α
  xz : α
  yx : α
  yy : α
  yz : α
  zx : α
  zy : α
  zz : α

section
variable {α : Type} [Add α] [Mul α] [Neg α] [Zero α] [One α]

/-- `Rotation()` (167-175): the identity. -/
def Rot.one : Rot α := ⟨1, 0, 0, 0, 1, 0, 0, 0, 1⟩

/-- `Rotation.transpose` and `Rotation.inverse` (180-184). -/
def Rot.transpose (r : Rot α) : Rot α := ⟨r.xx, r.yx, r.zx, r.xy, r.yy, r.zy, r.xz, r.yz, r.zz⟩

/-- `Rotation.__mul__` with a rotation (191-202). -/
def Rot.mul (s o : Rot α) : Rot α :=
  ⟨s.xx * o.xx + s.xy * o.yx + s.xz * o.zx,
   s.xx * o.xy + s.xy * o.yy + s.xz * o.zy,
   s.xx * o.xz + s.xy * o.yz + s.xz * o.zz,
   s.yx * o.xx + s.yy * o.yx + s.yz * o.zx,
   s.yx * o.xy + s.yy * o.yy + s.yz * o.zy,
   s.yx * o.xz + s.yy * o.yz + s.yz * o.zz,
   s.zx * o.xx + s.zy * o.yx + s.zz * o.zx,
   s.zx * o.xy + s.zy * o.yy + s.zz * o.zy,
   s.zx * o.xz + s.zy * o.yz + s.zz * o.zz⟩

/-- `Rotation.__mul__` with a vector (187-190). -/
def Rot.apply (s : Rot α) (o : Vec α) : Vec α :=
  ⟨s.xx * o.x + s.xy * o.y + s.xz * o.z,
   s.yx * o.x + s.yy * o.y + s.yz * o.z,
   s.zx * o.x + s.zy * o.y + s.zz * o.z⟩

/-- `Vector.__add__` (105-106). -/
def Vec.add (a b : Vec α) : Vec α := ⟨a.x + b.x, a.y + b.y, a.z + b.z⟩

/-- `Seitz` (228-240): a rotation and a translation (the twelve fields, grouped). -/
@[ext] structure Seitz (α : Type) where
  r : Rot α
  t : Vec α

/-- `Seitz()` (229-240): the identity. -/
def Seitz.one : Seitz α := ⟨Rot.one, ⟨0, 0, 0⟩⟩

/-- `Seitz.inverse` (263-278). -/
def Seitz.inverse (s : Seitz α) : Seitz α :=
  let inv := s.r.transpose
  let n := inv.apply s.t
  ⟨inv, ⟨-n.x, -n.y, -n.z⟩⟩

/-- `Seitz.trace` (280-282). -/
def Seitz.trace (s : Seitz α) : α := s.r.xx + s.r.yy + s.r.zz

/-- `Seitz.__mul__` (284-297). -/
def Seitz.mul (s o : Seitz α) : Seitz α := ⟨s.r.mul o.r, (s.r.apply o.t).add s.t⟩

end

/-- The values of the entries. -/
def Vec.val (e : E) (v : Vec (Sc E)) : Vec ℝ := ⟨v.x.val e, v.y.val e, v.z.val e⟩
def Rot.val (e : E) (r : Rot (Sc E)) : Rot ℝ :=
  ⟨r.xx.val e, r.xy.val e, r.xz.val e, r.yx.val e, r.yy.val e, r.yz.val e, r.zx.val e, r.zy.val e, r.zz.val e⟩
def Seitz.val (e : E) (s : Seitz (Sc E)) : Seitz ℝ := ⟨s.r.val e, s.t.val e⟩

/-- `cos_degree`, `sin_degree` (302-309). -/
noncomputable def cosDeg (θ : ℝ) : ℝ := Real.cos (θ / 180 * Real.pi)
noncomputable def sinDeg (θ : ℝ) : ℝ := Real.sin (θ / 180 * Real.pi)

open Classical in
/-- `cos_value(v)` with degrees (334-344). A run-time angle gives the expression `cos(v)`, which in the generated program
and in every printed text is the C function, of an angle in radian. -/
noncomputable def cosValue : Sc E → Sc E
  | .lit v => if v = 0 then .lit 1 else if v = 90 then .lit 0 else if v = 180 then .lit (-1) else .lit (cosDeg v)
  | .run f => .run fun e => Real.cos (f e)

open Classical in
/-- `sin_value(v)` with degrees (347-356). -/
noncomputable def sinValue : Sc E → Sc E
  | .lit v => if v = 0 then .lit 0 else if v = 90 then .lit 1 else if v = 180 then .lit (-1) else .lit (sinDeg v)
  | .run f => .run fun e => Real.sin (f e)

/-- `unary_expr(sin_degree if degrees else sin, 'sin', j)` (expression.py 1342-1354). The cancellation of `sin` and `asin`
is not modelled. -/
noncomputable def sinExpr (degrees : Bool) : Sc E → Sc E
  | .lit v => .lit (if degrees then sinDeg v else Real.sin v)
  | .run f => .run fun e => Real.sin (f e)
noncomputable def cosExpr (degrees : Bool) : Sc E → Sc E
  | .lit v => .lit (if degrees then cosDeg v else Real.cos v)
  | .run f => .run fun e => Real.cos (f e)

/-- `Rotation.from_angles` (211-222). -/
noncomputable def fromAngles (a : Vec (Sc E)) (degrees : Bool := true) : Rot (Sc E) :=
  let s := fun j => sinExpr degrees j
  let c := fun j => cosExpr degrees j
  let rx : Rot (Sc E) := if a.x.isZero then Rot.one else ⟨1, 0, 0, 0, c a.x, s a.x, 0, -s a.x, c a.x⟩
  let ry : Rot (Sc E) := if a.y.isZero then Rot.one else ⟨c a.y, 0, -s a.y, 0, 1, 0, s a.y, 0, c a.y⟩
  let rz : Rot (Sc E) := if a.z.isZero then Rot.one else ⟨c a.z, s a.z, 0, -s a.z, c a.z, 0, 0, 0, 1⟩
  rz.mul (ry.mul rx)

inductive Axis
  | x
  | y
  | z
  deriving DecidableEq

/-- `degree_to_radian` (394-400), by value: `v` times pi/180. Its refusal of the identifier `PI` is not modelled. -/
noncomputable def degreeToRadian (v : Sc E) : Sc E := v * .lit (Real.pi / 180)

/-- The classes of parts: `Part` (433-557), `TranslationPart` (560-602), `RotationX/Y/Z` (605-714). -/
inductive Part (E : Type)
  | general (axes : Seitz (Sc E))
  | translation (v : Vec (Sc E))
  | rotation (a : Axis) (v : Sc E) (degrees : Bool)

/-- The angle passed to `cos_value` and `sin_value` by `_cos_sin_one_zero` (636-638); both are called with their default
`degrees=True`. -/
noncomputable def usedAngle (v : Sc E) (degrees : Bool) : Sc E := if degrees then v else degreeToRadian v

/-- The matrix of a rotation part (657-658, 678-679, 699-700). -/
noncomputable def rotationAxes (a : Axis) (v : Sc E) (degrees : Bool) : Rot (Sc E) :=
  let c := cosValue (usedAngle v degrees)
  let s := sinValue (usedAngle v degrees)
  match a with
  | .x => ⟨1, 0, 0, 0, c, s, 0, -s, c⟩
  | .y => ⟨c, 0, -s, 0, 1, 0, s, 0, c⟩
  | .z => ⟨c, s, 0, -s, c, 0, 0, 0, 1⟩

/-- `Part.axes` (503-505), set by the `__post_init__` methods (587-589, 656-658, 677-679, 698-700). -/
noncomputable def Part.axes : Part E → Seitz (Sc E)
  | .general s => s
  | .translation v => ⟨Rot.one, v⟩
  | .rotation a v d => ⟨rotationAxes a v d, ⟨0, 0, 0⟩⟩

/-- All entries are literals. -/
def Vec.isLit (v : Vec (Sc E)) : Bool := v.x.isLit && v.y.isLit && v.z.isLit
def Seitz.isLit (s : Seitz (Sc E)) : Bool :=
  s.r.xx.isLit && s.r.xy.isLit && s.r.xz.isLit && s.r.yx.isLit && s.r.yy.isLit && s.r.yz.isLit && s.r.zx.isLit &&
    s.r.zy.isLit && s.r.zz.isLit && s.t.isLit

/-- `is_constant` of the classes (527-529, 571-573, 616-618). -/
def Part.isConstant : Part E → Bool
  | .general s => s.isLit
  | .translation v => v.isLit
  | .rotation _ v _ => v.isLit

/-- `is_translation` of the classes (443-445, 575-577, 620-622). -/
noncomputable def Part.isTranslation : Part E → Bool
  | .general s => !s.t.x.isZero || !s.t.y.isZero || !s.t.z.isZero
  | .translation _ => true
  | .rotation .. => false

open Classical in
/-- `==` of a trace with `Expr.float(3.)`: only a literal equals a literal. -/
noncomputable def Sc.isThree : Sc E → Bool
  | .lit r => r = 3
  | .run _ => false

/-- `Part.is_identity` (455-457). -/
noncomputable def Part.isIdentity (p : Part E) : Bool := !p.isTranslation && p.axes.trace.isThree

/-- `inverse` of the classes (531-532, 591-592, 660-661, 681-682, 702-703). -/
def Part.inverse : Part E → Part E
  | .general s => .general s.inverse
  | .translation v => .translation ⟨-v.x, -v.y, -v.z⟩
  | .rotation a v d => .rotation a (-v) d

/-- `Part.__mul__` (534-537). -/
noncomputable def Part.mul (p q : Part E) : Part E := .general (p.axes.mul q.axes)

/-- `Parts.resolve` (848-856). -/
noncomputable def resolve : List (Part E) → Part E
  | [] => .general Seitz.one
  | p :: ps => ps.foldl (fun acc w => w.mul acc) p

/-- `Parts.inverse` (806-814). -/
def chainInverse (ps : List (Part E)) : List (Part E) := ps.reverse.map Part.inverse

/-- One round of the loop of `Parts.reduce` (829-836); `last` is `reduced[-1]` and `done` the rest of `reduced`, last
first. -/
noncomputable def reduceStep (st : List (Part E) × Part E) (top : Part E) : List (Part E) × Part E :=
  let (done, last) := st
  if last.isConstant && last.isIdentity then (done, top)
  else if last.isConstant && top.isConstant then (done, top.mul last)
  else (last :: done, top)

/-- The end of `Parts.reduce` (838-846): a trailing identity is dropped. -/
noncomputable def reduceEnd (st : List (Part E) × Part E) : List (Part E) :=
  let (done, last) := st
  if !done.isEmpty && (last.isConstant && last.isIdentity) then done.reverse else (last :: done).reverse

/-- `Parts.reduce` (816-846). -/
noncomputable def reduce : List (Part E) → List (Part E)
  | [] => []
  | p :: ps => reduceEnd (ps.foldl reduceStep ([], p))

/-- `Parts.from_at_rotated` (765-785). -/
noncomputable def fromAtRotated (at_ rotated : Vec (Sc E)) (degrees : Bool) : List (Part E) :=
  (if rotated.x.isZero then [] else [.rotation .x rotated.x degrees]) ++
  (if rotated.y.isZero then [] else [.rotation .y rotated.y degrees]) ++
  (if rotated.z.isZero then [] else [.rotation .z rotated.z degrees]) ++
  (if at_.x.isZero && at_.y.isZero && at_.z.isZero then [] else [.translation at_])

/-- `Parts.from_dependent_chain` (787-804). -/
noncomputable def fromDependentChain (dep : Option (List (Part E))) (at_ rotated : Vec (Sc E)) (degrees : Bool) :
    List (Part E) :=
  reduce (dep.getD [] ++ fromAtRotated at_ rotated degrees)

/-- `Orient` (871-876). -/
structure Orient (E : Type) where
  position : List (Part E)
  rotation : List (Part E)

/-- `Orient()`. -/
def Orient.none : Orient E := ⟨[], []⟩

/-- `Part.position()` (514-515, 594-595, 640-642). -/
noncomputable def Part.position : Part E → Vec (Sc E)
  | .general s => s.t
  | .translation v => v
  | .rotation .. => ⟨0, 0, 0⟩

/-- `Part.rotation('coordinates')` (517-518 with 507-512): from the inverse of the matrix. -/
noncomputable def Part.rotationCoordinates (p : Part E) : Rot (Sc E) := p.axes.inverse.r

/-- `Part.rotation()`. -/
noncomputable def Part.rotationAxes (p : Part E) : Rot (Sc E) := p.axes.r

/-- `Orient.from_dependent_orientations` (894-903). -/
noncomputable def fromDependentOrientations (rel : Option (Orient E)) (at_ : Vec (Sc E)) (rot : Option (Orient E))
    (angles : Vec (Sc E)) (degrees : Bool := true) : Orient E :=
  let rel := rel.getD Orient.none
  { position := [.translation ((resolve rel.position).position.add ((resolve rel.rotation).rotationCoordinates.apply at_))]
    rotation := fromDependentChain (rot.map fun r => reduce r.rotation) ⟨0, 0, 0⟩ angles degrees }

open Classical in
/-- `atan2_value` for literals, in degrees, first element (359-372, 312-314). `atan2` is the argument of `x + iy`. -/
noncomputable def atan2Value (va vb : ℝ) : ℝ :=
  if va = 0 then (if vb > 0 then 0 else 180)
  else if vb = 0 then (if va > 0 then 180 / 2 else -(180 / 2))
  else Complex.arg ⟨vb, va⟩ / Real.pi * 180

open Classical in
/-- `cos_from_sin_value` for literals (375-386). -/
noncomputable def cosFromSin (v : ℝ) : ℝ :=
  if v = 0 then 1 else if v = 1 then 0 else Real.sqrt (1 - v * v)

/-- `axes_euler_angles` for literals, in degrees (419-427). -/
noncomputable def eulerAngles (m : Rot ℝ) : Vec ℝ :=
  ⟨atan2Value (-m.zy) m.zz, atan2Value m.zx (cosFromSin m.zx), atan2Value (-m.yx) m.xx⟩

end Verif.Orient
