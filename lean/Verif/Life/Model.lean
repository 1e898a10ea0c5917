import Verif.Setpos.Model
import Verif.Names.Lemmas

/-!
Model of the functions of the generated program that run the INITIALIZE, SAVE, FINALLY and DISPLAY sections: `cogen_initialize`,
`cogen_comp_setpos` and `cogen_comp_initialize_class` (src/mccode_antlr/translators/c_initialise.py 102-224, 227-323),
`cogen_save` (c_save.py), `cogen_finally` (c_finally.py) and `cogen_display` (c_display.py), and of a C machine running these
functions: a function is found by its name and called with a pointer to the variable of an instance.

Left out: messages, macros (C37), pragmas, the private variables set by `setpos` (C78), the NeXus lines, the counters, and
what the code written by users does: a block of user code is one event. Placement is one statement (C17).
-/

namespace Verif.Life

open Verif.Setpos Verif.Escape

/-- comp/comp.py 11-32: a component definition, with its setting parameters and blocks of code. -/
structure CType where
  name : String
  setting : List Par := []
  init : List String := []
  save : List String := []
  final : List String := []
  display : List String := []
  deriving DecidableEq, Repr

/-- instr/instance.py 23-45: an instance of a definition, with the parameters given. -/
structure Inst where
  name : String
  type : CType
  own : List Par := []
  deriving DecidableEq, Repr

/-- instr/instr.py 31-62: an instrument: its blocks of code and its components. -/
structure Source where
  init : List String := []
  save : List String := []
  final : List String := []
  comps : List Inst := []

/-- instr.py 207-211. -/
def Source.types (s : Source) : List CType := Names.fromKeys (s.comps.map (·.type))

/-! ### The program written -/

/-- The statements of the functions. -/
inductive Stmt
  /-- A block of user code. -/
  | code (text : String)
  /-- A statement setting a parameter of `_<inst>_var`. -/
  | set (inst : String) (par : Text) (line : Setpos.Line)
  /-- The statements placing an instance. -/
  | place (inst : String)
  /-- `if(_<inst>_var._parameters.<par>) free(_<inst>_var._parameters.<par>);` -/
  | free (inst : String) (par : Text)
  /-- `<fn>();` or `<fn>(&_<inst>_var);` -/
  | call (fn : String) (inst : Option String)
  /-- `if (mcdotrace) display();` -/
  | display
  /-- `siminfo_init(NULL);`, if guarded only with `if (!handle)`. -/
  | openInfo (guarded : Bool)
  /-- `siminfo_close();`, if guarded only with `if (!handle)`. -/
  | closeInfo (guarded : Bool)
  /-- `save(siminfo_file);` -/
  | saveInfo
  /-- `printf("MCDISPLAY: component %s\n", ...)` with the name of `_comp`, or of `_<inst>_var`. -/
  | announce (inst : Option String)
  /-- `printf("MCDISPLAY: start\n");` and `printf("MCDISPLAY: end\n");` -/
  | mark (start : Bool)
  deriving DecidableEq, Repr

structure Fn where
  name : String
  body : List Stmt
  deriving DecidableEq, Repr

/-- c_initialise.py 181, 271. -/
def setposName (i : String) : String := "_" ++ i ++ "_setpos"

/-- c_initialise.py 307, c_save.py 54, c_finally.py 61, c_display.py 70. -/
def className (c : String) (sec : String) : String := "class_" ++ c ++ "_" ++ sec

/-- c_initialise.py 105-111 and 193-195: the statements for the setting parameters of the definition. -/
def parameterStmts (i : Inst) : List Par → Except Setpos.Err (List Stmt)
  | [] => .ok []
  | p :: ps =>
    match given i.own i.type.setting p.name with
    | none => parameterStmts i ps
    | some v => do
      let ls ← parameterLines p.value v
      let rest ← parameterStmts i ps
      .ok (ls.map (Stmt.set i.name p.name) ++ rest)

/-- c_initialise.py 102-224. -/
def setposFn (i : Inst) : Except Setpos.Err Fn := do
  let ls ← parameterStmts i i.type.setting
  .ok ⟨setposName i.name, ls ++ [.place i.name]⟩

def setposFns : List Inst → Except Setpos.Err (List Fn)
  | [] => .ok []
  | i :: is => do
    let f ← setposFn i
    let fs ← setposFns is
    .ok (f :: fs)

/-- c_initialise.py 240-241 and 299-323, c_save.py 7-8 and 46-70, c_finally.py 7-8 and 53-77, c_display.py 16-17 and 62-88: a
function for every definition with code; that for DISPLAY begins with the name of the component. -/
def classFns (s : Source) (blocks : CType → List String) (sec : String) (first : List Stmt) : List Fn :=
  s.types.flatMap fun c =>
    if (blocks c).length = 0 then [] else [⟨className c.name sec, first ++ (blocks c).map .code⟩]

/-- c_initialise.py 274-276, c_save.py 32-34, c_finally.py 37-39. -/
def classCall (blocks : CType → List String) (sec : String) (i : Inst) : List Stmt :=
  if (blocks i.type).length ≠ 0 then [.call (className i.type.name sec) (some i.name)] else []

/-- c_initialise.py 244-294. -/
def initFn (s : Source) : Fn :=
  ⟨"init", s.init.map .code ++ s.comps.map (fun i => .call (setposName i.name) none) ++
    s.comps.flatMap (classCall (·.init) "initialize") ++ [.display]⟩

/-- c_save.py 11-42. -/
def saveFn (s : Source) : Fn :=
  ⟨"save", [.openInfo true] ++ s.save.map .code ++ s.comps.flatMap (classCall (·.save) "save") ++ [.closeInfo true]⟩

/-- expression.py 1146-1148, c_finally.py 42: `p.value.is_vector and p.value.vector_known`. -/
def isList (v : Ex) : Bool := v.isVector && v.vectorKnown.isSome

/-- c_finally.py 41-44. -/
def freeStmts (i : Inst) : List Stmt := (i.own.filter fun p => isList p.value).map fun p => .free i.name p.name

/-- c_finally.py 10-51. -/
def finallyFn (s : Source) : Fn :=
  ⟨"finally", [.openInfo false, .saveInfo] ++ s.final.map .code ++
    s.comps.flatMap (fun i => classCall (·.final) "finally" i ++ freeStmts i) ++ [.closeInfo false]⟩

/-- c_display.py 22-59. -/
def displayFn (s : Source) : Fn :=
  ⟨"display", [.mark true] ++
    s.comps.flatMap (fun i => if i.type.display.length ≠ 0 then [.call (className i.type.name "display") (some i.name)]
      else [.announce (some i.name)]) ++ [.mark false]⟩

/-- target.py 134-173: the functions, in the order written. -/
def program (s : Source) : Except Setpos.Err (List Fn) := do
  let fs ← setposFns s.comps
  .ok (fs ++ classFns s (·.init) "initialize" [] ++ [initFn s] ++ classFns s (·.save) "save" [] ++ [saveFn s] ++
    classFns s (·.final) "finally" [] ++ [finallyFn s] ++ classFns s (·.display) "display" [.announce none] ++ [displayFn s])

/-! ### The program run -/

/-- What happens while the program runs. -/
inductive Event
  /-- User code is run, with `_comp` the variable of an instance, or none. -/
  | code (inst : Option String) (text : String)
  | set (inst : String) (par : Text) (line : Setpos.Line)
  | placed (inst : String)
  | free (inst : String) (par : Text)
  | opened
  | closed
  | announced (inst : String)
  | mark (start : Bool)
  deriving DecidableEq, Repr

/-- The circumstances of a run: whether the geometry is to be shown (`mcdotrace`), and whether the information file could be
opened (only the main process of several does). -/
structure Env where
  trace : Bool
  file : Bool

/-- One statement, in a function called with the variable of an instance and with a file given or not; `none`: not a valid
program. -/
def exec (e : Env) (call : String → Option String → Bool → Option (List Event)) (comp : Option String) (handle : Bool) :
    Stmt → Option (List Event)
  | .code t => some [.code comp t]
  | .set i p l => some [.set i p l]
  | .place i => some [.placed i]
  | .free i p => some [.free i p]
  | .call f i => call f i false
  | .display => if e.trace then call "display" none false else some []
  | .openInfo g => some (if g && handle then [] else [.opened])
  | .closeInfo g => some (if g && handle then [] else [.closed])
  | .saveInfo => call "save" none e.file
  | .announce (some i) => some [.announced i]
  | .announce none => comp.map fun i => [.announced i]
  | .mark b => some [.mark b]

def execAll (e : Env) (call : String → Option String → Bool → Option (List Event)) (comp : Option String) (handle : Bool) :
    List Stmt → Option (List Event)
  | [] => some []
  | st :: sts =>
    match exec e call comp handle st, execAll e call comp handle sts with
    | some a, some b => some (a ++ b)
    | _, _ => none

/-- A function called by its name; the first argument bounds the depth of calls. -/
def run (e : Env) (fns : List Fn) : Nat → String → Option String → Bool → Option (List Event)
  | 0, _, _, _ => none
  | n + 1, f, comp, handle =>
    match fns.find? (·.name = f) with
    | none => none
    | some fn => execAll e (run e fns n) comp handle fn.body

/-! ### The memory of the parameters -/

/-- What a pointer is: null, a block from `calloc` not yet freed (`true`) or freed (`false`), or anything else. -/
inductive Ptr
  | null
  | block (live : Bool)
  | other
  deriving DecidableEq, Repr

/-- A parameter of a structure: not there, a number, a text, or a pointer. `lost`: a block has lost its only pointer. -/
inductive Slot
  | missing
  | number
  | text
  | pointer (p : Ptr) (lost : Bool)
  deriving DecidableEq, Repr

inductive Fault
  | invalid
  | freedTwice
  | notAllocated
  deriving DecidableEq, Repr

/-- A statement at a parameter. `isNull` says which expressions other than `NULL` are null at run time. Pointers are not copied from one
parameter to another, so that a block is known to one parameter only. -/
def setSlot (isNull : Text → Bool) : Setpos.Line → Slot → Except Fault Slot
  | .alloc _, .pointer p lost => .ok (.pointer (.block true) (lost || p = .block true))
  | .assign src, .pointer p lost => .ok (.pointer (if src = txt "NULL" || isNull src then .null else .other) (lost || p = .block true))
  | .alloc _, _ => .error .invalid
  | _, s => .ok s

/-- `if(p) free(p);` -/
def freeSlot : Slot → Except Fault Slot
  | .pointer .null l => .ok (.pointer .null l)
  | .pointer (.block true) l => .ok (.pointer (.block false) l)
  | .pointer (.block false) _ => .error .freedTwice
  | .pointer .other _ => .error .notAllocated
  | .text => .error .notAllocated
  | _ => .error .invalid

/-- What the events do to one parameter of one instance. -/
def slotAfter (isNull : Text → Bool) (i : String) (p : Text) : List Event → Slot → Except Fault Slot
  | [], s => .ok s
  | .set j q l :: es, s =>
    if i = j ∧ p = q then
      match setSlot isNull l s with
      | .ok s' => slotAfter isNull i p es s'
      | .error f => .error f
    else slotAfter isNull i p es s
  | .free j q :: es, s =>
    if i = j ∧ p = q then
      match freeSlot s with
      | .ok s' => slotAfter isNull i p es s'
      | .error f => .error f
    else slotAfter isNull i p es s
  | _ :: es, s => slotAfter isNull i p es s

/-- c_decls.py 160-182: the parameters as declared; the variables of the instances have static storage. -/
def declared (s : Source) (i : String) (p : Text) : Slot :=
  match s.comps.find? (·.name = i) with
  | none => .missing
  | some c =>
    match c.type.setting.find? (·.name = p) with
    | none => .missing
    | some d => if d.value.isStr then .text else if d.value.isVector then .pointer .null false else .number

/-- A run that frees nothing but what was allocated, and once. -/
def Valid (isNull : Text → Bool) (s : Source) (es : List Event) : Prop :=
  ∀ i p, ∃ t, slotAfter isNull i p es (declared s i p) = .ok t

/-- A block was allocated for the parameter and is never freed. -/
def Leaks (isNull : Text → Bool) (s : Source) (es : List Event) (i : String) (p : Text) : Prop :=
  ∃ q lost, slotAfter isNull i p es (declared s i p) = .ok (.pointer q lost) ∧ (q = .block true ∨ lost = true)

end Verif.Life
