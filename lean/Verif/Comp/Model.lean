import Verif.Instr.Model

/-!
Model of a component definition: its parameters (src/mccode_antlr/comp/comp.py) and its sections, as read from a
definition which may be a copy of another one (src/mccode_antlr/comp/visitor.py).
-/

namespace Verif.Comp
open Verif.Instr

variable {W : Type}

/-- The parameters of a `Comp` (comp.py 16-18). -/
structure Comp (W : Type) where
  define : List (Named W) := []
  setting : List (Named W) := []
  output : List (Named W) := []

/-- comp.py 52-59: `parameter_name_used` raises. -/
def Comp.nameUsed (c : Comp W) (name : String) : Bool :=
  present c.define name || present c.setting name || present c.output name

/-- comp.py 61-63. -/
def Comp.addDefine (c : Comp W) (a : Named W) : Comp W × Option Err :=
  if c.nameUsed a.1 then (c, some .runtimeError) else ({ c with define := c.define ++ [a] }, none)

/-- comp.py 65-67. -/
def Comp.addSetting (c : Comp W) (a : Named W) : Comp W × Option Err :=
  if c.nameUsed a.1 then (c, some .runtimeError) else ({ c with setting := c.setting ++ [a] }, none)

/-- comp.py 69-76: only the output parameters are searched. -/
def Comp.addOutput (c : Comp W) (a : Named W) : Comp W × Option Err :=
  if present c.output a.1 then (c, some .runtimeError) else ({ c with output := c.output ++ [a] }, none)

/-- A use of these methods. -/
inductive Op (W : Type)
  | define (a : Named W)
  | setting (a : Named W)
  | output (a : Named W)

def Comp.call (c : Comp W) : Op W → Comp W × Option Err
  | .define a => c.addDefine a
  | .setting a => c.addSetting a
  | .output a => c.addOutput a

/-- A sequence of calls, each exception being caught by the caller. -/
def Comp.calls (c : Comp W) (ops : List (Op W)) : Comp W := ops.foldl (fun c o => (c.call o).1) c

/-- comp.py 42-47: `get_parameter`. -/
def Comp.getParameter (c : Comp W) (name : String) (default : Option (Named W)) : Option (Named W) :=
  if present c.define name then first? c.define name
  else if present c.setting name then first? c.setting name
  else default

/-! ### Sections -/

/-- The sections of a component definition (comp.py 23-30). -/
inductive Kind
  | share
  | user
  | declare
  | initialize
  | trace
  | save
  | final
  | display
  deriving DecidableEq, Repr

/-- A code block, of which only the text matters here. -/
abbrev Block := List Char

/-- block.py 14-17: nothing is left after removing blanks, tabs and newlines. -/
def Block.isEmpty (b : Block) : Bool := (b.filter fun c => !(c == ' ' || c == '\t' || c == '\n')).length == 0

/-- block.py 49-53: `blocks_to_raw_c`. -/
def blocksToRawC (bs : List Block) : List Block := bs.filter fun b => !Block.isEmpty b

/-- A section as written in a definition: `TRACE %{ ... %}`, or `TRACE COPY other` with or without
`EXTEND %{ ... %}`; `other` are the blocks of that section of the other component. -/
inductive Clause
  | block (b : Block)
  | copy (other : List Block) (extend : Option Block)

/-- Reading a section into a definition holding the blocks `old` (visitor.py 46-59 for TRACE, 141-154 DECLARE, 156-164
SHARE, 166-179 INITIALIZE, 181-182 USERVARS, 184-197 SAVE, 199-212 FINALLY, 214-227 DISPLAY; comp.py 82-104). Every
`COPY` visitor but that of SHARE empties the section first (USERVARS has no `COPY`). -/
def readSection (k : Kind) (old : List Block) : Clause → List Block
  | .block b => old ++ blocksToRawC [b]
  | .copy other extend =>
    let old := if k = .share then old else []
    old ++ blocksToRawC (other ++ extend.toList)

/-- A section of the definition `DEFINE COMPONENT new COPY old` (visitor.py 27-40: the state starts as a deep copy) or,
with `old` empty, of `DEFINE COMPONENT new` (21-25); `none` is a section not written. -/
def sectionOf (k : Kind) (old : List Block) : Option Clause → List Block
  | none => old
  | some c => readSection k old c

end Verif.Comp
