import Verif.Orient.Placement

/-!
Model of `Instr.split` (src/mccode_antlr/instr/instr.py 307-378): names, references and placement of the instances.
Everything else an instance holds is carried along unchanged by `Instance.copy` (instance.py 227-231).
-/

namespace Verif.Instr
open Verif.Orient
variable {E : Type}

/-- A reference to an instance: its name, and whether the object referred to is in the components of the instrument the
referring instance belongs to. -/
structure Ref where
  name : String
  here : Bool
  deriving DecidableEq

/-- An instance: name, `at_relative`, `rotate_relative`, `orientation` (instance.py 26-40). -/
structure SInst (E : Type) where
  name : String
  at_ : Vec (Sc E)
  atRef : Option Ref
  rot : Vec (Sc E)
  rotRef : Option Ref
  orientation : Orient E

/-- `Expr` versions of `atan2_value` and `cos_from_sin_value` (orientation.py 359-386). For literals as in
`Verif.Orient.Model`; of the symbolic case only the general branch is modelled, the C function of the arguments. -/
noncomputable def atan2Sc : Sc E → Sc E → Sc E
  | .lit a, .lit b => .lit (atan2Value a b)
  | a, b => .run fun e => Complex.arg ⟨b.val e, a.val e⟩
noncomputable def cosFromSinSc : Sc E → Sc E
  | .lit v => .lit (cosFromSin v)
  | .run f => .run fun e => Real.sqrt (1 - f e * f e)

/-- `axes_euler_angles` (orientation.py 419-427). -/
noncomputable def eulerSc (m : Rot (Sc E)) : Vec (Sc E) :=
  ⟨atan2Sc (-m.zy) m.zz, atan2Sc m.zx (cosFromSinSc m.zx), atan2Sc (-m.yx) m.xx⟩

/-- `angles()` of the classes of parts (orientation.py 520-521, 597-599, 663-665, 684-686, 705-707). -/
noncomputable def partAngles : Orient.Part E → Vec (Sc E)
  | .general s => eulerSc s.r
  | .translation _ => ⟨0, 0, 0⟩
  | .rotation .x v _ => ⟨v, 0, 0⟩
  | .rotation .y v _ => ⟨0, v, 0⟩
  | .rotation .z v _ => ⟨0, 0, v⟩

/-- `Orient.angles()` (orientation.py 914-915). -/
noncomputable def orientAngles (o : Orient E) : Vec (Sc E) := partAngles (resolve o.rotation)

/-- `Orient.position()` (orientation.py 917-918 with 858-859). -/
noncomputable def orientPosition (o : Orient E) : Vec (Sc E) := (resolve o.position).position

/-- `Instance.copy` (instance.py 227-231): the copy refers to the very instances the original refers to. -/
def SInst.copy (i : SInst E) : SInst E :=
  { i with atRef := i.atRef.map fun r => ⟨r.name, false⟩, rotRef := i.rotRef.map fun r => ⟨r.name, false⟩ }

/-- `Instr.copy(first, last)` (instr.py 307-325), `last` counted from the start. -/
def copyComponents (is : List (SInst E)) (first last : Nat) : List (SInst E) :=
  ((is.take last).drop first).map SInst.copy

/-- The name of the instance `second.get_component(name)` returns (instr.py 152-158). -/
def foundName (names : List String) (name : String) : String :=
  if name = "PREVIOUS" then names.getLastD name else name

/-- The position reference of an instance of the second part (instr.py 363, 365-369); `names` are the names of the
components of the second part. -/
noncomputable def reReferenceAt (names : List String) (i : SInst E) : SInst E :=
  match i.atRef with
  | none => i
  | some r => if names.contains r.name then { i with atRef := some ⟨foundName names r.name, true⟩ }
    else { i with at_ := orientPosition i.orientation, atRef := none }

/-- The rotation reference (instr.py 364, 370-374). -/
noncomputable def reReferenceRot (names : List String) (i : SInst E) : SInst E :=
  match i.rotRef with
  | none => i
  | some r => if names.contains r.name then { i with rotRef := some ⟨foundName names r.name, true⟩ }
    else { i with rot := orientAngles i.orientation, rotRef := none }

/-- One round of the loop over the second part (instr.py 362-374). -/
noncomputable def reReference (names : List String) (i : SInst E) : SInst E :=
  reReferenceRot names (reReferenceAt names i)

/-- `Instr.split(at)` for the name of an instance (instr.py 344-378), the components of the two parts; `none` is the
`RuntimeError` for a name that is not that of exactly one instance. Removing unused parameters is property C25. -/
noncomputable def split (is : List (SInst E)) (at_ : String) : Option (List (SInst E) × List (SInst E)) :=
  match (List.range is.length).filter (fun k => (is[k]?).map SInst.name == some at_) with
  | [index] =>
    let first := copyComponents is 0 (index + 1)
    let second := copyComponents is index is.length
    some (first, second.map (reReference (second.map SInst.name)))
  | _ => none

/-! ### The generated program -/

/-- The generated initialisation (c_initialise.py 38-99) refers to the variable `_{name}_var` of the component referred
to: a reference is found by name, whatever object it is. (A name which is not in the instrument gives a program that
does not compile; the theorems are about lists in which every name is found.) -/
def toInst (names : List String) (i : SInst E) : Inst E :=
  ⟨i.at_, i.atRef.bind fun r => names.idxOf? r.name, i.rot, i.rotRef.bind fun r => names.idxOf? r.name⟩

/-- The instances of an instrument as input of the generated program. -/
def toInsts (is : List (SInst E)) : List (Inst E) := is.map (toInst (is.map SInst.name))

end Verif.Instr
