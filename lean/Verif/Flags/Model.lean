import Mathlib.Data.List.Basic

/-!
Model of how the flags of DEPENDENCY clauses are collected: src/mccode_antlr/reader/reader.py 65-66 and 113-175,
src/mccode_antlr/comp/visitor.py 27-34 and 136-139, src/mccode_antlr/instr/visitor.py 80-107 and 287-289,
src/mccode_antlr/loader/loader.py 17-27, src/mccode_antlr/instr/instr.py 380-392 and
src/mccode_antlr/assembler/assembler.py 77-83.

Definitions are given as what they ask of the reader, in order. Nested definitions are read with a bound on the depth, the
recursion limit of Python.
-/

namespace Verif.Flags

inductive Err
  | notFound
  | recursion
  deriving DecidableEq, Repr

/-- What a component definition does to the reader: `need` for `COPY` of a definition or section, `flag` for `DEPENDENCY`
with a literal between quotes. -/
inductive Step
  | need (comp : String)
  | flag (literal : List Char)
  deriving DecidableEq, Repr

/-- What an instrument does. -/
inductive Item
  | dependency (literal : List Char)
  | comp (name : String)
  | incl (instr : String)
  deriving DecidableEq, Repr

/-- The files. -/
structure Lib where
  comps : String → Option (List Step)
  instrs : String → Option (List Item)

/-- `Reader.c_flags` and the names of `Reader.components`. -/
structure Reader where
  flags : List (List Char)
  known : List String
  deriving DecidableEq, Repr

/-- `s.strip('"')` (comp/visitor.py 139). -/
def strip (s : List Char) : List Char :=
  ((s.dropWhile (· = '"')).reverse.dropWhile (· = '"')).reverse

/-- `s[1:-1]` (instr/visitor.py 289). -/
def middle (s : List Char) : List Char := (s.drop 1).dropLast

/-- The visit of a component definition, where `get` is `get_component`. -/
def runSteps (get : Reader → String → Except Err Reader) : List Step → Reader → Except Err Reader
  | [], r => .ok r
  | .flag s :: l, r => runSteps get l { r with flags := r.flags ++ [strip s] }
  | .need c :: l, r =>
    match get r c with
    | .error e => .error e
    | .ok r => runSteps get l r

/-- `Reader.get_component` (138-141) with `add_component` (113-136). -/
def getComponent (lib : Lib) : Nat → Reader → String → Except Err Reader
  | 0, _, _ => .error .recursion
  | n + 1, r, c =>
    if c ∈ r.known then .ok r
    else
      match lib.comps c with
      | none => .error .notFound
      | some steps =>
        match runSteps (getComponent lib n) steps r with
        | .error e => .error e
        | .ok r => .ok { r with known := r.known ++ [c] }

/-- The visit of an instrument: `own` are the flags of the instrument itself; `incl` reads another instrument and returns the
reader. -/
def runItems (get incl : Reader → String → Except Err Reader) :
    List Item → Reader → List (List Char) → Except Err (Reader × List (List Char))
  | [], r, own => .ok (r, own)
  | .dependency s :: l, r, own => runItems get incl l r (own ++ [middle s])
  | .comp c :: l, r, own =>
    match get r c with
    | .error e => .error e
    | .ok r => runItems get incl l r own
  | .incl i :: l, r, own =>
    match incl r i with
    | .error e => .error e
    | .ok r => runItems get incl l r own

/-- `Reader.get_instrument` (143-175) called for an included instrument: only the components of its result are used
(instr/visitor.py 85-106), not its flags. -/
def includeInstr (lib : Lib) : Nat → Reader → String → Except Err Reader
  | 0, _, _ => .error .recursion
  | n + 1, r, i =>
    match lib.instrs i with
    | none => .error .notFound
    | some items =>
      match runItems (getComponent lib n) (includeInstr lib n) items r [] with
      | .error e => .error e
      | .ok (r, _) => .ok r

/-- `Reader.get_instrument`: the flags of the instrument are those of the reader (173). -/
def getInstrument (lib : Lib) (n : Nat) (r : Reader) (items : List Item) : Except Err (Reader × List (List Char)) :=
  match runItems (getComponent lib n) (includeInstr lib n) items r [] with
  | .error e => .error e
  | .ok (r, _) => .ok (r, r.flags)

/-- `parse_mccode_instr` (loader.py 17-27): a new reader; its flags are added. -/
def parseInstr (lib : Lib) (n : Nat) (items : List Item) : Except Err (List (List Char)) :=
  match runItems (getComponent lib n) (includeInstr lib n) items ⟨[], []⟩ [] with
  | .error e => .error e
  | .ok (r, own) => .ok (own ++ r.flags)

/-- `Instr.make_instance` (instr.py 386-390) given the name of a component. -/
def makeInstance (lib : Lib) (n : Nat) (flags : List (List Char)) (c : String) : Except Err (List (List Char)) :=
  match getComponent lib n ⟨[], []⟩ c with
  | .error e => .error e
  | .ok r => .ok (flags ++ r.flags)

/-- `tuple(dict.fromkeys(l))`. -/
def fromKeys (l : List (List Char)) : List (List Char) :=
  l.foldl (fun acc x => if x ∈ acc then acc else acc ++ [x]) []

/-- `Assembler.component` (assembler.py 77-83). -/
def assemble (lib : Lib) (n : Nat) (r : Reader) (flags : List (List Char)) (c : String) :
    Except Err (Reader × List (List Char)) :=
  match getComponent lib n r c with
  | .error e => .error e
  | .ok r => .ok (r, if r.flags = [] then flags else fromKeys (flags ++ r.flags))

end Verif.Flags
