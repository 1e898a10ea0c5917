import Verif.Loader.Sim

/-!
C51, C52, C53, C72: model of the text of component instances: how it is printed (src/mccode_antlr/instr/instance.py 40-71 and
249-255, src/mccode_antlr/instr/jump.py 13-22, src/mccode_antlr/common/textwrap.py 112-180,
src/mccode_antlr/common/metadata.py 42-54) and how it is read (src/grammar/McInstr.g4 64-114, src/grammar/McCommon.g4,
src/mccode_antlr/instr/visitor.py 109-157, 209-285 and 330-347, src/mccode_antlr/instr/instance.py 99-113 and 176-218).

Texts are given as the tokens the lexer makes of them. Expressions, coordinates and parameter lists are one token each: how
they are printed and read is not modelled here. Names are single words; the lexer makes keywords of some of them.
-/

namespace Verif.InstrText

open Verif.Loader (Text t)

/-- The keywords that matter here; all others are `other`. -/
inductive Kw
  | absolute | at | relative | rotated | previous | next | myself | iterate | when | jump | group | extend
  | metadata | cpu | split | removable | component | copy | define | instrument | dependency | declare | uservars | initial
  | trace | save | final | ending | string | int | double | null | other
  deriving DecidableEq, Repr

/-- Tokens. `coords` stands for `( x , y , z )`, `params` for a parenthesized list of parameters. -/
inductive Tok (E V P : Type)
  | kw (k : Kw)
  | word (s : Text)
  | int (s : Text)
  | str (s : Text)
  | lpar
  | rpar
  | assign
  | coords (v : V)
  | expr (e : E)
  | params (p : P)
  | block (s : Text)
  | comma
  | div
  | junk
  deriving DecidableEq, Repr

/-- The spellings of keywords (McCommon.g4 90-138, c99.g4 29-126). -/
def keywords : List (Text × Kw) :=
  [(t "ABSOLUTE", .absolute), (t "Absolute", .absolute), (t "absolute", .absolute),
   (t "AT", .at), (t "At", .at), (t "at", .at),
   (t "RELATIVE", .relative), (t "Relative", .relative), (t "relative", .relative),
   (t "ROTATED", .rotated), (t "Rotated", .rotated), (t "rotated", .rotated),
   (t "PREVIOUS", .previous), (t "Previous", .previous), (t "previous", .previous),
   (t "NEXT", .next), (t "Next", .next), (t "next", .next),
   (t "MYSELF", .myself), (t "Myself", .myself), (t "myself", .myself),
   (t "ITERATE", .iterate), (t "Iterate", .iterate), (t "iterate", .iterate),
   (t "WHEN", .when), (t "When", .when), (t "when", .when),
   (t "JUMP", .jump), (t "Jump", .jump), (t "jump", .jump),
   (t "GROUP", .group), (t "Group", .group), (t "group", .group),
   (t "EXTEND", .extend), (t "Extend", .extend), (t "extend", .extend),
   (t "METADATA", .metadata), (t "MetaData", .metadata), (t "metadata", .metadata),
   (t "CPU", .cpu), (t "cpu", .cpu),
   (t "SPLIT", .split), (t "Split", .split), (t "split", .split),
   (t "REMOVABLE", .removable), (t "Removabel", .removable), (t "removable", .removable),
   (t "COMPONENT", .component), (t "Component", .component), (t "component", .component),
   (t "COPY", .copy), (t "Copy", .copy), (t "copy", .copy),
   (t "DEFINE", .define), (t "Define", .define), (t "define", .define),
   (t "INSTRUMENT", .instrument), (t "Instrument", .instrument), (t "instrument", .instrument),
   (t "DEPENDENCY", .dependency), (t "Dependency", .dependency), (t "dependency", .dependency),
   (t "DECLARE", .declare), (t "Declare", .declare), (t "declare", .declare),
   (t "USERVARS", .uservars), (t "UserVars", .uservars), (t "uservars", .uservars),
   (t "INITIALIZE", .initial), (t "INITIALISE", .initial), (t "Initialize", .initial), (t "initialize", .initial), (t "Initialise", .initial), (t "initialise", .initial),
   (t "TRACE", .trace), (t "Trace", .trace), (t "trace", .trace),
   (t "SAVE", .save), (t "Save", .save), (t "save", .save),
   (t "FINALLY", .final), (t "Finally", .final), (t "finally", .final),
   (t "END", .ending), (t "End", .ending), (t "end", .ending),
   (t "string", .string),
   (t "int", .int),
   (t "double", .double),
   (t "NULL", .null)] ++
  ([t "CATEGORY", t "Category", t "category", t "DEFINITION", t "Definition", t "definition", t "MCDISPLAY",
    t "DISPLAY", t "McDisplay", t "mcdisplay", t "Display", t "display", t "OUTPUT", t "Output", t "output",
    t "PRIVATE", t "Private", t "private", t "PARAMETERS", t "Parameters", t "parameters", t "SETTING", t "Setting",
    t "setting", t "SHARE", t "Share", t "share", t "NOACC", t "NoACC", t "NoAcc", t "noacc", t "SHELL", t "Shell",
    t "shell", t "SEARCH", t "Search", t "search", t "vector", t "symbol", t "asm", t "auto", t "_Bool", t "break",
    t "case", t "char", t "_Complex", t "const", t "continue", t "default", t "do", t "else", t "enum", t "extern",
    t "false", t "float", t "for", t "goto", t "if", t "_Imaginary", t "inline", t "long", t "register", t "return",
    t "short", t "signed", t "sizeof", t "static", t "struct", t "switch", t "true", t "typedef", t "union",
    t "unsigned", t "void", t "volatile", t "while", t "not", t "and", t "or"].map fun w => (w, .other))

/-- The token made of a word (McCommon.g4, c99.g4 157-161). -/
def lexWord {E V P : Type} (w : Text) : Tok E V P :=
  match keywords.lookup w with
  | some k => .kw k
  | none => .word w

/-- `Vector.is_null` (orientation.py 126-127) and the angles made when there is no ROTATED (visitor.py 125). -/
class Triple (V : Type) where
  null : V → Bool
  zero : V

/-- A placement: the references are indices of earlier components. -/
structure Placement (V : Type) where
  at_ : V
  atRef : Option Nat
  rot : V
  rotRef : Option Nat
  deriving DecidableEq, Repr

/-- The reference of `_triplet_ref_str` (instance.py 255). -/
def printRef {E V P : Type} (names : List Text) : Option Nat → List (Tok E V P)
  | none => [.kw .absolute]
  | some i => [.kw .relative, lexWord (names.getD i [])]

/-- `rf('AT', ...)` and `rf('ROTATED', ...)` (instance.py 50-57, 249-255). -/
def printPlacement {E V P : Type} [Triple V] (names : List Text) (p : Placement V) : List (Tok E V P) :=
  [.kw .at, .coords p.at_] ++ printRef names p.atRef ++
    (if Triple.null p.rot && p.rotRef.isNone then [] else [.kw .rotated, .coords p.rot] ++ printRef names p.rotRef)

inductive Err
  | syntaxError
  | valueError
  | typeError
  | indexError
  | runtimeError
  deriving DecidableEq, Repr

/-- `component_ref` (McCommon.g4 6). -/
inductive RefText
  | previous (count : Option Text)
  | named (name : Text)
  deriving DecidableEq, Repr

/-- A component: of the instrument read or of the one it is included in. -/
inductive Comp
  | own (i : Nat)
  | dest (i : Nat)
  deriving DecidableEq, Repr

/-- The components read so far and those of the instrument that includes this one (visitor.py 21-24). -/
structure Scope where
  names : List Text
  dest : Option (List Text) := none

/-- `int` of an integer literal: without suffix, prefix or digit separators. -/
def pyInt (s : Text) : Option Nat :=
  if s ≠ [] ∧ s.all Char.isDigit then some (s.foldl (fun n c => 10 * n + (c.toNat - '0'.toNat)) 0) else none

/-- `Instr.last_component` (instr.py 140-150) with `removable_ok`: an index. -/
def lastComponent (names : List Text) (count : Nat) : Except Err Nat :=
  if names.length < count then .error .runtimeError
  else if count = 0 then (if names = [] then .error .indexError else .ok 0)
  else .ok (names.length - count)

/-- `Instr.get_component` (instr.py 152-158). -/
def getComponent (names : List Text) (name : Text) : Except Err Nat :=
  if name = t "PREVIOUS" then (if names = [] then .error .indexError else .ok (names.length - 1))
  else if name ∈ names then .ok (names.idxOf name)
  else .error .runtimeError

def Except.mapC (f : Nat → Comp) : Except Err Nat → Except Err (Option Comp)
  | .error e => .error e
  | .ok i => .ok (some (f i))

/-- visitor.py 265-271; `none` is the result without a value. -/
def findNamed (s : Scope) (name : Text) : Except Err (Option Comp) :=
  if name ∈ s.names then Except.mapC .own (getComponent s.names name)
  else
    match s.dest with
    | some d => Except.mapC .dest (getComponent d name)
    | none => .ok none

/-- visitor.py 255-265. -/
def findPrevious (s : Scope) (count : Nat) : Except Err (Option Comp) :=
  if count ≤ s.names.length then Except.mapC .own (lastComponent s.names count)
  else
    match s.dest with
    | some d => Except.mapC .dest (lastComponent d (count - s.names.length))
    | none => findNamed s (t "None")

/-- `visitComponent_ref` (visitor.py 253-271). -/
def findRef (s : Scope) : RefText → Except Err (Option Comp)
  | .previous none => findPrevious s 1
  | .previous (some c) =>
    match pyInt c with
    | none => .error .valueError
    | some n => findPrevious s n
  | .named n => findNamed s n

/-- The optional number in parentheses of `component_ref` and `jumpname`. -/
def parseCount {E V P : Type} : List (Tok E V P) → Option Text × List (Tok E V P)
  | .lpar :: .int c :: .rpar :: l => (some c, l)
  | l => (none, l)

/-- `component_ref` (McCommon.g4 6). -/
def parseComponentRef {E V P : Type} : List (Tok E V P) → Except Err (RefText × List (Tok E V P))
  | .kw .previous :: l => .ok (.previous (parseCount l).1, (parseCount l).2)
  | .word n :: l => .ok (.named n, l)
  | _ => .error .syntaxError

/-- `reference` (McCommon.g4 8) and `visitReference` (visitor.py 283-285). -/
def readReference {E V P : Type} (s : Scope) : List (Tok E V P) → Except Err (Option Comp × List (Tok E V P))
  | .kw .absolute :: l => .ok (none, l)
  | .kw .relative :: .kw .absolute :: l => .ok (none, l)
  | .kw .relative :: l =>
    match parseComponentRef l with
    | .error e => .error e
    | .ok (r, l) =>
      match findRef s r with
      | .error e => .error e
      | .ok c => .ok (c, l)
  | _ => .error .syntaxError

/-- A placement as it is read. -/
structure Placed (V : Type) where
  at_ : V
  atRef : Option Comp
  rot : V
  rotRef : Option Comp
  deriving DecidableEq, Repr

/-- `place orientation?` (McInstr.g4 67) as in `visitComponent_instance` (visitor.py 119-125). -/
def readPlacement {E V P : Type} [Triple V] (s : Scope) : List (Tok E V P) → Except Err (Placed V × List (Tok E V P))
  | .kw .at :: .coords v :: l =>
    match readReference s l with
    | .error e => .error e
    | .ok (r, l) =>
      match l with
      | .kw .rotated :: .coords a :: l =>
        match readReference s l with
        | .error e => .error e
        | .ok (q, l) => .ok (⟨v, r, a, q⟩, l)
      | l => .ok (⟨v, r, Triple.zero, r⟩, l)
  | _ => .error .syntaxError

/-! ### Jumps -/

/-- `Jump` (jump.py 5-11). -/
structure Jump (E : Type) where
  target : Text
  relative : Int
  iterate : Bool
  condition : E
  absolute : Int := -1
  deriving DecidableEq, Repr

/-- The name that is printed (jump.py 16-18). -/
def jumpName (target : Text) : Text :=
  if '_' ∈ target ∧ ((t "PREVIOUS").isPrefixOf target ∨ (t "NEXT").isPrefixOf target) then target.takeWhile (· ≠ '_')
  else target

/-- The decimal digits of a number. -/
def digits (n : Nat) : Text := (toString n).toList

/-- `Jump.to_file` (jump.py 13-22). -/
def printJump {E V P : Type} (j : Jump E) : List (Tok E V P) :=
  [.kw .jump, lexWord (jumpName j.target)] ++
    (if 1 < j.relative.natAbs then [.lpar, .int (digits j.relative.natAbs), .rpar] else []) ++
    [.kw (if j.iterate then .iterate else .when), .expr j.condition]

/-- `jumpname` (McInstr.g4 106-110) and visitor.py 239-251: `int` of a node of the parse tree raises. -/
def readJumpName {E V P : Type} : List (Tok E V P) → Except Err ((Text × Int) × List (Tok E V P))
  | .kw .previous :: l =>
    match parseCount l with
    | (none, l) => .ok ((t "PREVIOUS", -1), l)
    | (some _, _) => .error .typeError
  | .kw .myself :: l => .ok ((t "MYSELF", 0), l)
  | .kw .next :: l =>
    match parseCount l with
    | (none, l) => .ok ((t "NEXT", 1), l)
    | (some _, _) => .error .typeError
  | .word n :: l => .ok ((n, 0), l)
  | _ => .error .syntaxError

/-- `jump` (McInstr.g4 105) and `visitJump` (visitor.py 233-237). -/
def readJump {E V P : Type} : List (Tok E V P) → Except Err (Jump E × List (Tok E V P))
  | .kw .jump :: l =>
    match readJumpName l with
    | .error e => .error e
    | .ok (n, .kw .iterate :: .expr e :: l) => .ok (⟨n.1, n.2, true, e, -1⟩, l)
    | .ok (n, .kw .when :: .expr e :: l) => .ok (⟨n.1, n.2, false, e, -1⟩, l)
    | .ok _ => .error .syntaxError
  | _ => .error .syntaxError

/-- `jumps?` (McInstr.g4 67, 104): as many as there are, at most `n`. -/
def readJumps {E V P : Type} : Nat → List (Tok E V P) → Except Err (List (Jump E) × List (Tok E V P))
  | n + 1, .kw .jump :: l =>
    match readJump (.kw .jump :: l) with
    | .error e => .error e
    | .ok (j, l) =>
      match readJumps n l with
      | .error e => .error e
      | .ok (js, l) => .ok (j :: js, l)
  | _, l => .ok ([], l)

/-! ### Instances -/

/-- `MetaData` (metadata.py 36-40) without its source. -/
structure Meta where
  name : Text
  mimetype : Text
  value : Text
  deriving DecidableEq, Repr

/-- `Instance` (instance.py 21-35); the extend blocks are given by their texts. -/
structure Instance (E V P : Type) where
  name : Text
  type : Text
  params : P
  place : Placement V
  removable : Bool := false
  cpu : Bool := false
  split : Option E := none
  when : Option E := none
  group : Option Text := none
  extend : List Text := []
  jumps : List (Jump E) := []
  metas : List Meta := []
  deriving DecidableEq, Repr

/-- The token made of a block `%{ ... %}` (McCommon.g4 143): it ends at the first `%}`. -/
def lexBlock {E V P : Type} (s : Text) : Tok E V P := if t "%}" <:+: s then .junk else .block s

/-- The token made of a metadata name (metadata.py 43, textwrap.py 155): a literal if it is in quotes, else words; names that
are not words are not read. -/
def lexMetaName {E V P : Type} (s : Text) : Tok E V P :=
  if s.head? = some '"' ∧ s.getLast? = some '"' ∧ 2 ≤ s.length then
    (if '"' ∈ s.tail.dropLast ∨ '\\' ∈ s.tail.dropLast ∨ '\n' ∈ s.tail.dropLast ∨ '\r' ∈ s.tail.dropLast then .junk
     else .str s.tail.dropLast)
  else if s ≠ [] ∧ (s.all fun c => c.isAlpha || c = '_' || c.isDigit) ∧ (s.head?.map Char.isDigit) = some false then lexWord s
  else .junk

/-- The token made of a string literal without escapes. -/
def lexStr {E V P : Type} (s : Text) : Tok E V P := if '"' ∈ s ∨ '\\' ∈ s ∨ '\n' ∈ s ∨ '\r' ∈ s then .junk else .str s

/-- `MetaData.to_file` (metadata.py 42-43, textwrap.py 154-155). -/
def printMeta {E V P : Type} (m : Meta) : List (Tok E V P) :=
  [.kw .metadata, lexStr m.mimetype, lexMetaName m.name, lexBlock (t "\n" ++ m.value ++ t "\n")]

/-- The texts of blocks, one per line (instance.py 66). -/
def joinBlocks : List Text → Text
  | [] => []
  | [s] => s
  | s :: l => s ++ t "\n" ++ joinBlocks l

/-- `Instance.to_file` (instance.py 40-71, textwrap.py 128-129). -/
def printInstance {E V P : Type} [Triple V] (names : List Text) (i : Instance E V P) : List (Tok E V P) :=
  (if i.cpu then [.kw .cpu] else []) ++
  [.kw .component, lexWord i.name, .assign, lexWord i.type, .params i.params] ++
  (match i.when with | some e => [.kw .when, .expr e] | none => []) ++
  printPlacement names i.place ++
  (match i.group with | some g => [.kw .group, lexWord g] | none => []) ++
  (if i.extend = [] then [] else [.kw .extend, lexBlock (t "\n\n" ++ joinBlocks i.extend ++ t "\n")]) ++
  (i.jumps.map printJump).flatten ++ (i.metas.map printMeta).flatten

/-- `RawC.is_empty` (block.py 14-17). -/
def blank (s : Text) : Bool := s.all fun c => c = ' ' || c = '\t' || c = '\n'

/-- `MetaData.partial_from_tokens` (metadata.py 46-54). -/
def makeMeta (mime name value : Text) : Meta where
  name := if ' ' ∈ name ∧ (name.head? ≠ some '"' ∨ name.getLast? ≠ some '"') then t "\"" ++ name ++ t "\"" else name
  mimetype := mime
  value := if (t "%{").isPrefixOf value ∧ (t "%}").isSuffixOf value then (value.drop 2).take (value.length - 4) else value

/-- `Instance.add_metadata` (instance.py 215-218). -/
def addMeta (ms : List Meta) (m : Meta) : List Meta := ms.filter (fun x => x.name ≠ m.name) ++ [m]

/-- `metadata*` (McCommon.g4 32, visitor.py 145-150 and 333-339), at most `n`. -/
def readMetas {E V P : Type} : Nat → List Meta → List (Tok E V P) → Except Err (List Meta × List (Tok E V P))
  | n + 1, ms, .kw .metadata :: .str mime :: .str name :: .block b :: l => readMetas n (addMeta ms (makeMeta mime name b)) l
  | n + 1, ms, .kw .metadata :: .str mime :: .word name :: .block b :: l => readMetas n (addMeta ms (makeMeta mime name b)) l
  | n + 1, ms, .kw .metadata :: .word mime :: .str name :: .block b :: l => readMetas n (addMeta ms (makeMeta mime name b)) l
  | n + 1, ms, .kw .metadata :: .word mime :: .word name :: .block b :: l => readMetas n (addMeta ms (makeMeta mime name b)) l
  | _, _, .kw .metadata :: _ => .error .syntaxError
  | _, ms, l => .ok (ms, l)

/-- What is needed to read: the constant expressions (`Expr.is_constant`, instance.py 194), the component types that are
found and those marked NOACC (instance.py 112). -/
structure Reader (E : Type) where
  constant : E → Bool
  known : Text → Bool
  noacc : Text → Bool

/-- An optional keyword. -/
def optKw {E V P : Type} [DecidableEq E] [DecidableEq V] [DecidableEq P] (k : Kw) (l : List (Tok E V P)) :
    Bool × List (Tok E V P) :=
  match l with
  | .kw k' :: l' => if k' = k then (true, l') else (false, l)
  | _ => (false, l)

/-- `split?` (McInstr.g4 96, visitor.py 209-210); `ten` is the default. -/
def optSplit {E V P : Type} (ten : E) : List (Tok E V P) → Option E × List (Tok E V P)
  | .kw .split :: .expr e :: l => (some e, l)
  | .kw .split :: l => (some ten, l)
  | l => (none, l)

/-- `when?`. -/
def optWhen {E V P : Type} : List (Tok E V P) → Option E × List (Tok E V P)
  | .kw .when :: .expr e :: l => (some e, l)
  | l => (none, l)

/-- `groupref?`. -/
def optGroup {E V P : Type} : List (Tok E V P) → Option Text × List (Tok E V P)
  | .kw .group :: .word g :: l => (some g, l)
  | l => (none, l)

/-- `extend?` with `Instance.EXTEND` and `blocks_to_raw_c` (instance.py 201-206, block.py 49-53). -/
def optExtend {E V P : Type} : List (Tok E V P) → List Text × List (Tok E V P)
  | .kw .extend :: .block b :: l => (if blank b then [] else [b], l)
  | l => ([], l)

/-- An instance as it is read: its references are components. -/
structure ReadInstance (E V P : Type) where
  name : Text
  type : Text
  params : P
  place : Placed V
  removable : Bool
  cpu : Bool
  split : Option E
  when : Option E
  group : Option Text
  extend : List Text
  jumps : List (Jump E)
  metas : List Meta
  deriving DecidableEq, Repr

/-- `component_instance` (McInstr.g4 65-67) and `visitComponent_instance` (visitor.py 109-157) for names that are not COPY and
component types that are not COPY. -/
def readInstance {E V P : Type} [DecidableEq E] [DecidableEq V] [DecidableEq P] [Triple V] (r : Reader E) (ten : E) (s : Scope)
    (l : List (Tok E V P)) : Except Err (ReadInstance E V P × List (Tok E V P)) :=
  match optKw .removable l with
  | (removable, l) =>
  match optKw .cpu l with
  | (cpu, l) =>
  match optSplit ten l with
  | (split, l) =>
  match l with
  | .kw .component :: .word name :: .assign :: .word type :: .params p :: l =>
    if r.known type then
      match optWhen l with
      | (w, l) =>
      match readPlacement s l with
      | .error e => .error e
      | .ok (place, l) =>
        if (w.map r.constant).getD false then .error .runtimeError
        else
          match optGroup l with
          | (g, l) =>
          match optExtend l with
          | (ext, l) =>
          match readJumps l.length l with
          | .error e => .error e
          | .ok (js, l) =>
            match readMetas l.length [] l with
            | .error e => .error e
            | .ok (ms, l) =>
              if name ∈ s.names then .error .runtimeError
              else .ok (⟨name, type, p, place, removable, cpu || r.noacc type, split, w, g, ext, js, ms⟩, l)
    else .error .runtimeError
  | _ => .error .syntaxError

/-- The components of `Instr.to_file` (instr.py 68-71). -/
def printTrace {E V P : Type} [Triple V] (is : List (Instance E V P)) : List (Tok E V P) :=
  (is.map (printInstance (is.map (·.name)))).flatten

/-- `(component_instance)+` of `instrument_trace` (McInstr.g4 47), at most `n`: the instances read so far are `acc`. A keyword
that can begin an instance does. -/
def readTrace {E V P : Type} [DecidableEq E] [DecidableEq V] [DecidableEq P] [Triple V] (r : Reader E) (ten : E) :
    Nat → List (ReadInstance E V P) → List (Tok E V P) → Except Err (List (ReadInstance E V P) × List (Tok E V P))
  | 0, acc, l => .ok (acc, l)
  | n + 1, acc, l =>
    match l with
    | .kw k :: l' =>
      if k ∈ [Kw.removable, .cpu, .split, .component] then
        match readInstance r ten ⟨acc.map (·.name), none⟩ (.kw k :: l') with
        | .error e => .error e
        | .ok (q, l) => readTrace r ten n (acc ++ [q]) l
      else .ok (acc, .kw k :: l')
    | l => .ok (acc, l)

end Verif.InstrText
