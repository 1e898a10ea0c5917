import Verif.Instr.SplitModel
import Verif.Instr.Model

/-!
Model of `Instr.mcpl_split` (src/mccode_antlr/instr/instr.py 394-456) and of the instances `Instr.make_instance` (380-392) makes.

Instances are those of `Verif.Instr.SplitModel` together with everything else they hold. Expressions, code and jumps are values
of an opaque type. Reading a component type and parsing an instrument parameter are functions which may raise.
-/

namespace Verif.Instr
open Verif.Orient
variable {E X : Type}

/-- What is used of a component type: its name and `acc` (comp.py 15-40). -/
structure TypeOf where
  name : String
  acc : Bool
  deriving DecidableEq, Repr

/-- The fields of an instance which say nothing about its placement (instance.py 24-38, without `mode`). -/
structure Body (X : Type) where
  type : TypeOf
  parameters : List (Named X) := []
  removable : Bool := false
  cpu : Bool := false
  split : Option X := none
  when_ : Option X := none
  group : Option String := none
  extend : List X := []
  jump : List X := []
  metadata : List X := []

/-- An instance. -/
structure FInst (E X : Type) where
  place : SInst E
  body : Body X

def FInst.name (i : FInst E X) : String := i.place.name

/-- The parts of an instrument used here. -/
structure FInstr (E X : Type) where
  name : String
  parameters : List (Named X)
  components : List (FInst E X)
  flags : List (List Char)

/-- `Instance.copy` (instance.py 227-231). -/
def FInst.copy (i : FInst E X) : FInst E X := ⟨i.place.copy, i.body⟩

/-- The removal of unused parameters (instr.py 471-487, property C25); `used` is `parameter_used`, given the components (the
sections of an instrument are copied unchanged to both parts). -/
def keepUsed (used : List (FInst E X) → String → Bool) (remove : Bool) (i : FInstr E X) : FInstr E X :=
  if remove then { i with parameters := i.parameters.filter fun p => used i.components p.1 } else i

/-- `Instr.split` (instr.py 344-378) given the name of an instance, as `split` of `Verif.Instr.SplitModel` with everything an
instance and an instrument hold. -/
noncomputable def FInstr.split (used : List (FInst E X) → String → Bool) (remove : Bool) (i : FInstr E X) (at_ : String) :
    Except Err (FInstr E X × FInstr E X) :=
  match (List.range i.components.length).filter (fun k => (i.components[k]?).map FInst.name == some at_) with
  | [index] =>
    let first := (i.components.take (index + 1)).map FInst.copy
    let second := (i.components.drop index).map FInst.copy
    let second' := second.map fun c => ⟨reReference (second.map FInst.name) c.place, c.body⟩
    .ok (keepUsed used remove { i with name := i.name ++ "_first", components := first },
      keepUsed used remove { i with name := i.name ++ "_second", components := second' })
  | _ => .error .runtimeError

/-- A component given by name or as an object (instr.py 386). -/
inductive Given
  | named (name : String)
  | type (t : TypeOf)

/-- The component type and the flags its reader collects (instr.py 386-390). -/
def Given.get (read : String → Except Err (TypeOf × List (List Char))) : Given → Except Err (TypeOf × List (List Char))
  | .named n => read n
  | .type t => .ok (t, [])

/-- The orientation of a new instance for which none is given (instance.py 99-110); `known` are the orientations of the
instances referred to. -/
noncomputable def newOrientation (known : Ref → Option (Orient E)) (p : SInst E) : Orient E :=
  fromDependentOrientations (p.atRef.bind known) p.at_
    (match p.rotRef with
      | some r => known r
      | none => p.atRef.bind known) p.rot

/-- `Instr.make_instance` (instr.py 380-392). The last two arguments are given to `Instance` in the places of `removable` and
`cpu`; `groupArg` and `removableArg` are those of `make_instance`. A type without `acc` makes the instance one for the CPU
(instance.py 112-113). The truth of a group is that of a text. -/
noncomputable def FInstr.makeInstance (read : String → Except Err (TypeOf × List (List Char))) (i : FInstr E X) (p : SInst E)
    (component : Given) (parameters : List (Named X)) (groupArg : Option String := none) (removableArg : Bool := false) :
    Except Err (FInstr E X) :=
  if i.components.any (fun x => x.name == p.name) then .error .runtimeError
  else match component.get read with
    | .error e => .error e
    | .ok (t, flags) => .ok { i with
        flags := i.flags ++ flags
        components := i.components ++ [⟨p,
          { type := t, parameters := parameters, removable := (groupArg.getD "") != "", cpu := removableArg || !t.acc }⟩] }

/-- Taking an instance of this name out of the components: references to it no longer are to a component of the instrument. -/
def forget (name : String) (i : FInst E X) : FInst E X :=
  let mark : Ref → Ref := fun r => if r.name = name then ⟨r.name, false⟩ else r
  ⟨{ i.place with atRef := i.place.atRef.map mark, rotRef := i.place.rotRef.map mark }, i.body⟩

/-- The name of the file, quoted (instr.py 406-409). -/
def quotedName (instr : String) (filename : Option (List Char)) : Except Err (List Char) :=
  let f := filename.getD (instr.toList ++ ".mcpl".toList)
  match f.head?, f.getLast? with
  | some a, some b => .ok (if a ≠ '"' ∨ b ≠ '"' then '"' :: (f ++ ['"']) else f)
  | _, _ => .error .indexError

/-- The arguments of `mcpl_split` (394-402). -/
structure McplArgs (X : Type) where
  filename : Option (List Char) := none
  output : Option Given := none
  outputParameters : Option (List (Named X)) := none
  input : Option Given := none
  inputParameters : Option (List (Named X)) := none
  remove : Bool := false

/-- What `mcpl_split` needs from elsewhere: reading of component types, parsing of `string mcpl_filename = ...`, the values of
the instance parameters `filename` (the instrument parameter) and `verbose` (zero), and `parameter_used`. -/
structure World (E X : Type) where
  read : String → Except Err (TypeOf × List (List Char))
  parse : List Char → Except Err X
  filenameValue : X
  verboseValue : X
  used : List (FInst E X) → String → Bool

/-- Parameters of the output (425-428). -/
def outParameters (w : World E X) (a : McplArgs X) : List (Named X) :=
  match a.outputParameters with
  | none => [("filename", w.filenameValue)]
  | some l => if l.any (fun p => p.1 == "filename") then l else ("filename", w.filenameValue) :: l

/-- Parameters of the input (435-441). -/
def inParameters (w : World E X) (a : McplArgs X) : List (Named X) :=
  let l := match a.inputParameters with
    | none => [("filename", w.filenameValue)]
    | some l => if l.any (fun p => p.1 == "filename") then l else ("filename", w.filenameValue) :: l
  if l.any (fun p => p.1 == "verbose") then l else ("verbose", w.verboseValue) :: l

/-- `add_parameter` (124-128). -/
def FInstr.addParameter (i : FInstr E X) (p : Named X) : Except Err (FInstr E X) :=
  if present i.parameters p.1 then .error .runtimeError else .ok { i with parameters := i.parameters ++ [p] }

/-- The output at the end of the first part (419-432). -/
noncomputable def mcplFirst (w : World E X) (a : McplArgs X) (first : FInstr E X) : Except Err (FInstr E X) :=
  match first.components.getLast? with
  | none => .error .indexError
  | some fc =>
    ({ first with components := first.components.dropLast.map (forget fc.name) }).makeInstance w.read fc.place
      (a.output.getD (.named "MCPL_output")) (outParameters w a)

/-- The input at the start of the second part (434-454). The instance is made without an orientation; the object it refers to
has the orientation of the component of its name. -/
noncomputable def mcplSecond (w : World E X) (a : McplArgs X) (second : FInstr E X) : Except Err (FInstr E X) :=
  match second.components with
  | [] => .error .indexError
  | sc :: rest =>
    let known : Ref → Option (Orient E) := fun r => (second.components.find? (·.name == r.name)).map fun c => c.place.orientation
    match ({ second with components := rest.map (forget sc.name) }).makeInstance w.read
        { sc.place with orientation := newOrientation known sc.place } (a.input.getD (.named "MCPL_input")) (inParameters w a) with
    | .error e => .error e
    | .ok second => .ok { second with components := second.components.getLast?.toList ++ second.components.dropLast }

/-- `Instr.mcpl_split` (394-456) given the name of an instance. -/
noncomputable def FInstr.mcplSplit (w : World E X) (i : FInstr E X) (after : String) (a : McplArgs X) :
    Except Err (FInstr E X × FInstr E X) := do
  let filename ← quotedName i.name a.filename
  let (first, second) ← i.split w.used a.remove after
  let value ← w.parse filename
  let first ← first.addParameter ("mcpl_filename", value)
  let second ← second.addParameter ("mcpl_filename", value)
  let first ← mcplFirst w a first
  let second ← mcplSecond w a second
  return (first, second)

end Verif.Instr
