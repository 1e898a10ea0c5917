import Verif.Common.Dict

/-!
Model of the bookkeeping of an instrument: components, parameters, metadata, groups
(src/mccode_antlr/instr/instr.py, instance.py, group.py and src/mccode_antlr/comp/comp.py).

A named object (component instance, parameter, metadata entry) is a pair of its name and the rest of it. Python tuples
are lists. Methods which change an object and may raise return the changed object together with the exception: a
statement before the `raise` keeps its effect.
-/

namespace Verif.Instr

/-- The exceptions raised by the modelled code. -/
inductive Err
  | runtimeError
  | indexError
  | other
  deriving DecidableEq, Repr

/-- A named object. -/
abbrev Named (α : Type) := String × α

/-- `any(name == x.name for x in l)` (parameters.py 78-80; instr.py 120, 161, 384). -/
def present {α : Type} (l : List (Named α)) (name : String) : Bool := l.any fun x => name == x.1

/-- The first object of a name. -/
def first? {α : Type} : List (Named α) → String → Option (Named α)
  | [], _ => none
  | x :: l, name => if x.1 = name then some x else first? l name

/-- The parts of `Instr` used here (instr.py 21-25). -/
structure Instr (C P M : Type) where
  components : List (Named C) := []
  parameters : List (Named P) := []
  metadata : List (Named M) := []

variable {C P M : Type}

/-- instr.py 119-122: `add_component`. -/
def Instr.addComponent (i : Instr C P M) (a : Named C) : Instr C P M × Option Err :=
  if present i.components a.1 then (i, some .runtimeError)
  else ({ i with components := i.components ++ [a] }, none)

/-- instr.py 380-392: `make_instance`; `c` is the new instance, or the exception raised while reading the component
type or building the instance. -/
def Instr.makeInstance (i : Instr C P M) (name : String) (c : Except Err C) : Instr C P M × Option Err :=
  if present i.components name then (i, some .runtimeError)
  else match c with
    | .error e => (i, some e)
    | .ok c => ({ i with components := i.components ++ [(name, c)] }, none)

/-- instr.py 124-128: `add_parameter`. -/
def Instr.addParameter (i : Instr C P M) (a : Named P) (ignoreRepeated : Bool) : Instr C P M × Option Err :=
  if !present i.parameters a.1 then ({ i with parameters := i.parameters ++ [a] }, none)
  else if !ignoreRepeated then (i, some .runtimeError)
  else (i, none)

/-- instr.py 130-135: `get_parameter`. -/
def Instr.getParameter (i : Instr C P M) (name : String) (default : Option (Named P)) : Option (Named P) :=
  if present i.parameters name then first? i.parameters name else default

/-- instr.py 152-158: `get_component`. -/
def Instr.getComponent (i : Instr C P M) (name : String) : Except Err (Named C) :=
  if name = "PREVIOUS" then
    match i.components.getLast? with
    | some c => .ok c
    | none => .error .indexError
  else match first? i.components name with
    | some c => .ok c
    | none => .error .runtimeError

/-- instr.py 195-198, instance.py 215-218, comp.py 106-109: `add_metadata` on the metadata tuple. -/
def addMetadata (l : List (Named M)) (m : Named M) : List (Named M) :=
  (if l.any (fun x => x.1 == m.1) then l.filter (fun x => x.1 != m.1) else l) ++ [m]

/-- A use of the methods of an instrument. -/
inductive Op (C P M : Type)
  | component (a : Named C)
  | instance (name : String) (c : Except Err C)
  | parameter (a : Named P) (ignoreRepeated : Bool)
  | metadata (m : Named M)

/-- The effect of a call, and the exception if it raises. -/
def Instr.call (i : Instr C P M) : Op C P M → Instr C P M × Option Err
  | .component a => i.addComponent a
  | .instance n c => i.makeInstance n c
  | .parameter a g => i.addParameter a g
  | .metadata m => ({ i with metadata := addMetadata i.metadata m }, none)

/-- A sequence of calls, each exception being caught by the caller. -/
def Instr.calls (i : Instr C P M) (ops : List (Op C P M)) : Instr C P M := ops.foldl (fun i o => (i.call o).1) i

/-! ### Collected metadata -/

/-- `{m.name: m for m in l}` on top of `d` (instance.py 223-224). -/
def intoDict (d : List (String × Named M)) (l : List (Named M)) : List (String × Named M) :=
  l.foldl (fun d m => dictSet d m.1 m) d

/-- instance.py 220-225: `Instance.collect_metadata`; `type` and `own` are the metadata tuples of the component type
and of the instance. -/
def collectInstance (type own : List (Named M)) : List (Named M) :=
  let md := intoDict [] type
  -- `md.update({m.name: m for m in self.metadata})`
  let md := (intoDict [] own).foldl (fun d p => dictSet d p.1 p.2) md
  md.map (·.2)

/-- instr.py 213-217: `Instr.collect_metadata`; every instance is given by the metadata of its type and its own. -/
def collectInstr (instances : List (List (Named M) × List (Named M))) (own : List (Named M)) : List (Named M) :=
  (instances.flatMap fun x => collectInstance x.1 x.2) ++ own

/-! ### Instance parameters -/

/-- The component type of an instance: its define and setting parameters (comp.py 15-20), their default values, and
what `set_parameter` does with a value: the compatibility test (instance.py 131) and the conversion (135-143), which
raises for text that is not an expression. -/
structure CompType (V W : Type) where
  define : List (Named W)
  setting : List (Named W)
  compatible : W → V → Bool
  convert : W → V → Except Err W

variable {V W : Type}

/-- comp.py 42-47: `Comp.get_parameter`. -/
def CompType.getParameter (t : CompType V W) (name : String) : Option (Named W) :=
  if present t.define name then first? t.define name
  else if present t.setting name then first? t.setting name
  else none

/-- instance.py 129-153: the end of `set_parameter`, once the name has been checked. -/
def appendParameter (t : CompType V W) (ps : List (Named W)) (name : String) (v : V) : List (Named W) × Option Err :=
  match t.getParameter name with
  | none => (ps, some .other)
  | some p =>
    if !t.compatible p.2 v then (ps, some .runtimeError)
    else match t.convert p.2 v with
      | .error e => (ps, some e)
      | .ok w => (ps ++ [(p.1, w)], none)

/-- instance.py 115-153: `set_parameter` on the `parameters` tuple. -/
def setParameter (t : CompType V W) (ps : List (Named W)) (name : String) (v : V)
    (overwrite : Bool := false) (allowRepeated : Bool := true) : List (Named W) × Option Err :=
  if !present t.define name && !present t.setting name then (ps, some .runtimeError)
  else if present ps name then
    if overwrite then appendParameter t (ps.filter fun x => name != x.1) name v
    else if allowRepeated then appendParameter t ps name v
    else (ps, some .runtimeError)
  else appendParameter t ps name v

/-- instance.py 162-166: `Instance.get_parameter`. -/
def getInstanceParameter (t : CompType V W) (ps : List (Named W)) (name : String) : Option (Named W) :=
  match first? ps name with
  | some p => some p
  | none => t.getParameter name

/-! ### Unused parameters -/

/-- The places of an instance where a parameter may occur (instance.py 233-246). Expressions are represented by what
the operator `in` says about them; code blocks by their text. -/
structure Places where
  parameters : List (String → Bool) := []
  atVector : String → Bool := fun _ => false
  rotateAngles : String → Bool := fun _ => false
  orientation : String → Bool := fun _ => false
  split : Option (String → Bool) := none
  when : Option (String → Bool) := none
  extend : List (List Char) := []
  jumps : List (String → Bool) := []

/-- Python `a in b` for strings: `a` occurs as a substring. -/
def isSubstring (a : List Char) : List Char → Bool
  | [] => a.isEmpty
  | c :: b => a.isPrefixOf (c :: b) || isSubstring a b

/-- instance.py 233-246: `Instance.parameter_used`. -/
def Places.used (x : Places) (name : String) : Bool :=
  if x.parameters.any (· name) then true
  else if x.atVector name || x.rotateAngles name || x.orientation name then true
  else if (x.split.getD fun _ => false) name || (x.when.getD fun _ => false) name then true
  else if x.extend.any (isSubstring name.toList) then true
  else x.jumps.any (· name)

/-- The code sections of an instrument (instr.py 27-31). -/
structure Sections where
  user : List (List Char) := []
  declare : List (List Char) := []
  init : List (List Char) := []
  save : List (List Char) := []
  final : List (List Char) := []

/-- instr.py 458-469: `Instr.parameter_used`. -/
def parameterUsed (instances : List Places) (s : Sections) (name : String) : Bool :=
  if instances.any (·.used name) then true
  else [s.declare, s.init, s.save, s.final].any fun sec => sec.any (isSubstring name.toList)

/-- instr.py 471-487: `check_instrument_parameters`: the remaining parameters and the number returned. -/
def checkParameters (instances : List Places) (s : Sections) (ps : List (Named P)) (remove : Bool) :
    List (Named P) × Int :=
  let used := ps.map fun p => parameterUsed instances s p.1
  let count : Int := used.length - used.count true
  if !used.all id then
    if remove then (((ps.zip used).filter (·.2)).map (·.1), count) else (ps, count)
  else (ps, count)

/-! ### Groups -/

/-- group.py 4-9, without the list of members, which parallels `ids`. -/
structure Group where
  name : String
  index : Nat
  ids : List Nat
  deriving DecidableEq, Repr

/-- One round of `determine_groups` (instr.py 201-205) for the instance number `id` with the group `g` (`none` for
`None` and the empty string, which are both false). -/
def groupStep (groups : List (String × Group)) (id : Nat) (g : Option String) : List (String × Group) :=
  match g with
  | none => groups
  | some g =>
    let groups := match dictGet groups g with
      | some _ => groups
      | none => dictSet groups g ⟨g, groups.length, []⟩
    match dictGet groups g with
    | some x => dictSet groups g { x with ids := x.ids ++ [id] }
    | none => groups

/-- The loop of `determine_groups` from the instance number `start`. -/
def groupLoop (start : Nat) (groups : List (String × Group)) : List (Option String) → List (String × Group)
  | [] => groups
  | g :: gs => groupLoop (start + 1) (groupStep groups start g) gs

/-- instr.py 200-205: `determine_groups` on an instrument whose `groups` are as given. -/
def determineGroups (groups : List (String × Group)) (insts : List (Option String)) : List (String × Group) :=
  groupLoop 0 groups insts

/-- group.py 15-16. -/
def Group.isLeader (g : Group) (index : Nat) : Bool :=
  match g.ids with
  | [] => false
  | i :: _ => i == index

/-- group.py 18-24: `min` and `max` of the ids (of a non-empty list). -/
def Group.firstId (g : Group) : Nat := g.ids.foldl min (g.ids.headD 0)
def Group.lastId (g : Group) : Nat := g.ids.foldl max 0

end Verif.Instr
