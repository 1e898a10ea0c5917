import Verif.Instr.Model

/-!
Model of the jump targets and of the choice of skippable coordinate transformations
(src/mccode_antlr/translators/target.py 201-230).

`Jump` objects are mutable and can be shared: `Instance.from_instance` (src/mccode_antlr/instr/instance.py 88-98) and
`Instance.copy` (227-231) pass the same objects on. They live in a heap; a component holds references.
-/

namespace Verif.Trace
open Verif.Instr

/-- `Jump` (src/mccode_antlr/instr/jump.py 5-11), without `iterate` and `condition`. -/
structure Jump where
  target : String
  relative : Int
  absolute : Int := -1
  deriving DecidableEq, Repr

/-- The `Jump` objects. -/
abbrev Heap := Nat → Jump

/-- A component: its name, its jumps, and whether it or its type has a non-empty EXTEND or TRACE block. -/
structure JComp where
  name : String
  jumps : List Nat
  hasCode : Bool

/-- `[i for i, c in enumerate(components) if target == c.name][0]` (227). -/
def findName (cs : List JComp) (target : String) : Option Nat := cs.findIdx? fun c => c.name == target

/-- `relative_target == 0 and target.lower() != 'myself'` (225). Identifiers are ASCII text. -/
def Jump.isNamed (j : Jump) : Bool := j.relative == 0 && j.target.toLower != "myself"

def Heap.set (h : Heap) (id : Nat) (j : Jump) : Heap := fun i => if i = id then j else h i

/-- One round of the loop of `set_jump_absolute_targets` (222-230). -/
def setTarget (cs : List JComp) (h : Heap) (index id : Nat) : Except Err Heap :=
  let j := h id
  if j.absolute > -1 then .ok h
  else if j.isNamed then
    match findName cs j.target with
    | some k => .ok (h.set id { j with absolute := k, relative := k - index })
    | none => .error .indexError
  else .ok (h.set id { j with absolute := index + j.relative })

/-- The loop; an exception ends it, with the changes made so far. -/
def setTargets (cs : List JComp) (h : Heap) : List (Nat × Nat) → Heap × Option Err
  | [] => (h, none)
  | (index, id) :: ps =>
    match setTarget cs h index id with
    | .ok h => setTargets cs h ps
    | .error e => (h, some e)

/-- `[(i, j) for i, c in enumerate(components) for j in c.jump]` (220), from the component number `start`. -/
def jumpPairs (start : Nat) : List JComp → List (Nat × Nat)
  | [] => []
  | c :: cs => c.jumps.map (fun id => (start, id)) ++ jumpPairs (start + 1) cs

/-- `set_jump_absolute_targets` (219-230). -/
def setJumpAbsoluteTargets (cs : List JComp) (h : Heap) : Heap × Option Err := setTargets cs h (jumpPairs 0 cs)

/-- `l[i] = False` for a Python list. -/
def pySetFalse (l : List Bool) (i : Int) : Except Err (List Bool) :=
  if 0 ≤ i ∧ i < l.length then .ok (l.set i.toNat false)
  else if i < 0 ∧ 0 ≤ i + l.length then .ok (l.set (i + l.length).toNat false)
  else .error .indexError

/-- `detect_skipable_transforms` (201-217). -/
def detectSkipable (cs : List JComp) (h : Heap) : Except Err (List Bool) :=
  ((jumpPairs 0 cs).map fun p => (h p.2).absolute).foldlM pySetFalse
    (cs.map fun c => !c.hasCode && c.jumps.isEmpty)

end Verif.Trace
