import Mathlib.Data.List.Basic

/-!
C54: model of reading instruments that include others: src/mccode_antlr/instr/visitor.py 27-52, 77-107, 151-155 and 291-304,
src/mccode_antlr/instr/instr.py 119-128 and 174-198, src/mccode_antlr/reader/reader.py 143-175.

Values of parameters and metadata, component instances and code are opaque. A section is the list of its blocks that are not
blank. Files are definitions in a library; the depth of inclusion is bounded, as Python's recursion is.
-/

namespace Verif.Include

inductive Err
  | runtimeError
  | notFound
  | recursion
  deriving DecidableEq, Repr

/-- An instance: its name, whether it is REMOVABLE, and what else it has. -/
structure Comp where
  name : String
  removable : Bool
  body : Nat
  deriving DecidableEq, Repr

/-- A parameter or an entry of metadata. -/
structure Named where
  name : String
  value : Nat
  deriving DecidableEq, Repr

/-- The sections. -/
structure Sections where
  declare : List String
  user : List String
  initialize_ : List String
  save : List String
  final : List String
  deriving DecidableEq, Repr

/-- `Instr` (instr.py 14-34) without groups, flags and registries. -/
structure Instr where
  name : String
  params : List Named
  metas : List Named
  comps : List Comp
  included : List String
  sec : Sections
  deriving DecidableEq, Repr

/-- `add_parameter` (instr.py 124-128). -/
def addParam (ignore : Bool) (ps : List Named) (a : Named) : Except Err (List Named) :=
  if !(ps.any fun x => a.name == x.name) then .ok (ps ++ [a])
  else if !ignore then .error .runtimeError
  else .ok ps

/-- The loops over parameters (visitor.py 42-43, 88-89). -/
def addParams (ignore : Bool) : List Named → List Named → Except Err (List Named)
  | ps, [] => .ok ps
  | ps, a :: l =>
    match addParam ignore ps a with
    | .error e => .error e
    | .ok ps => addParams ignore ps l

/-- `add_metadata` (instr.py 195-198). -/
def addMeta (ms : List Named) (m : Named) : List Named :=
  (if ms.any fun x => x.name == m.name then ms.filter fun x => x.name != m.name else ms) ++ [m]

/-- `add_component` (instr.py 119-122). -/
def addComp (cs : List Comp) (a : Comp) : Except Err (List Comp) :=
  if cs.any fun x => x.name == a.name then .error .runtimeError else .ok (cs ++ [a])

/-- The loop over the components of an included instrument (visitor.py 104-106). -/
def addComps : List Comp → List Comp → Except Err (List Comp)
  | cs, [] => .ok cs
  | cs, a :: l =>
    if !a.removable then
      match addComp cs a with
      | .error e => .error e
      | .ok cs => addComps cs l
    else addComps cs l

/-- Sections with those of an included instrument (visitor.py 92-101). -/
def Sections.append (a b : Sections) : Sections :=
  ⟨if b.declare.length ≠ 0 then a.declare ++ b.declare else a.declare, if b.user.length ≠ 0 then a.user ++ b.user else a.user,
   if b.initialize_.length ≠ 0 then a.initialize_ ++ b.initialize_ else a.initialize_,
   if b.save.length ≠ 0 then a.save ++ b.save else a.save, if b.final.length ≠ 0 then a.final ++ b.final else a.final⟩

/-- `visitInstrument_trace_include` (visitor.py 80-107) with the instrument `i` that has been read. -/
def includeInto (s i : Instr) : Except Err Instr :=
  match addParams true s.params i.params with
  | .error e => .error e
  | .ok ps =>
    match addComps s.comps i.comps with
    | .error e => .error e
    | .ok cs =>
      .ok { s with params := ps, metas := i.metas.foldl addMeta s.metas, comps := cs, included := s.included ++ [i.name],
                   sec := s.sec.append i.sec }

/-- What a TRACE section has. -/
inductive Item
  | comp (c : Comp)
  | incl (file : String)
  deriving DecidableEq, Repr

/-- The text of an instrument (McInstr.g4 18-26); `save` and `final` come after TRACE. -/
structure Def where
  name : String
  params : List Named
  metas : List Named
  declare : List String
  user : List String
  initialize_ : List String
  items : List Item
  save : List String
  final : List String
  deriving DecidableEq, Repr

/-- The TRACE section (visitor.py 77-107 and 151-155), where `get` reads an included file and `dest` tells whether this
instrument is included itself. -/
def readItems (get : String → Except Err Instr) (dest : Bool) : Instr → List Item → Except Err Instr
  | s, [] => .ok s
  | s, .comp c :: l =>
    if !dest || !c.removable then
      match addComp s.comps c with
      | .error e => .error e
      | .ok cs => readItems get dest { s with comps := cs } l
    else readItems get dest s l
  | s, .incl f :: l =>
    match get f with
    | .error e => .error e
    | .ok i =>
      match includeInto s i with
      | .error e => .error e
      | .ok s => readItems get dest s l

/-- `visitProg` (visitor.py 27-35) for a definition. -/
def readDef (get : String → Except Err Instr) (dest : Bool) (d : Def) : Except Err Instr :=
  match addParams false [] d.params with
  | .error e => .error e
  | .ok ps =>
    match readItems get dest ⟨d.name, ps, d.metas.foldl addMeta [], [], [], ⟨d.declare, d.user, d.initialize_, [], []⟩⟩ d.items with
    | .error e => .error e
    | .ok s => .ok { s with sec := { s.sec with save := s.sec.save ++ d.save, final := s.sec.final ++ d.final } }

/-- `get_instrument` with a destination (reader.py 143-175), to a depth. -/
def getFile (lib : String → Option Def) : Nat → String → Except Err Instr
  | 0, _ => .error .recursion
  | n + 1, f =>
    match lib f with
    | none => .error .notFound
    | some d => readDef (getFile lib n) true d

/-- An instrument that is not included. -/
def readInstr (lib : String → Option Def) (depth : Nat) (d : Def) : Except Err Instr := readDef (getFile lib depth) false d

end Verif.Include
