import Mathlib.Data.List.Basic
import Mathlib.Data.String.Basic

/-!
Model of the macros defined and undefined by the generated C program: src/mccode_antlr/translators/c_defines.py,
c_initialise.py 227-323, c_trace.py, c_raytrace.py 14-18 and 302-305, c_save.py, c_finally.py, c_display.py, and
the order of the sections (target.py 154-173, c.py 375-417), together with a C preprocessor keeping a table of macros.

Only the lines that define or undefine macros and the blocks of code written by users are kept. Blocks are assumed to hold
no directives themselves, and the program is compiled without OPENACC.
-/

namespace Verif.Macros

/-- The lines kept: directives, and blocks of user code with the name of whose code it is. -/
inductive Line
  | define (name body : String)
  | undef (name : String)
  | code (owner text : String)
  deriving DecidableEq, Repr

/-! ### The preprocessor -/

/-- The macros known at some place, with what they stand for. -/
abbrev Table := String → Option String

def step (m : Table) : Line → Table
  | .define n b => fun k => if k = n then some b else m k
  | .undef n => fun k => if k = n then none else m k
  | .code _ _ => m

/-- The macros known after some lines. -/
def after (m : Table) (ls : List Line) : Table := ls.foldl step m

/-- The blocks of user code, each with the macros known to it. -/
def seen (m : Table) : List Line → List (String × String × Table)
  | [] => []
  | .code o t :: ls => (o, t, m) :: seen m ls
  | l :: ls => seen (step m l) ls

/-- The macros that are defined while they stand for something else, which C does not allow (C99 6.10.3). -/
def redefined (m : Table) : List Line → List String
  | [] => []
  | .define n b :: ls =>
    if (m n).isSome ∧ m n ≠ some b then n :: redefined (step m (.define n b)) ls else redefined (step m (.define n b)) ls
  | l :: ls => redefined (step m l) ls

/-! ### The program -/

/-- A component type: names of its parameters and of the variables of its DECLARE section, and its code. -/
structure CType where
  name : String
  define : List String := []
  setting : List String := []
  output : List String := []
  declares : List String := []
  init : List String := []
  trace : List String := []
  save : List String := []
  final : List String := []
  display : List String := []
  /-- USERVARS of the instances of the type, as members of the particle. -/
  uservars : List String := []

/-- The names looped over in c_defines.py 16 and 22. -/
def CType.names (c : CType) : List String := c.define ++ c.setting ++ c.output ++ c.declares

/-- `cogen_parameter_define` (c_defines.py 6-7, 14-17). -/
def CType.defines (c : CType) : List Line := c.names.map fun n => .define n ("(_comp->_parameters." ++ n ++ ")")

/-- `cogen_parameter_undef` (c_defines.py 10-11, 20-23). -/
def CType.undefs (c : CType) : List Line := c.names.map .undef

/-- The instrument: its name, its parameters, its sections, the types of its components in the order of
`component_types()`, with the EXTEND blocks of the instances, and its USERVARS. -/
structure Source where
  name : String
  parameters : List String := []
  init : List String := []
  save : List String := []
  final : List String := []
  types : List CType := []
  /-- EXTEND blocks: the name of the type, the name of the instance, the text. -/
  extend : List (String × String × String) := []
  uservars : List String := []

/-- `cogen_comp_initialize_class` (c_initialise.py 299-323), `cogen_comp_save_class` (c_save.py 46-70),
`cogen_comp_finally_class` (c_finally.py 56-80) and `cogen_comp_display_class` (c_display.py 63-88), which differ in the
section only. -/
def classSection (blocks : CType → List String) (c : CType) : List Line :=
  if (blocks c).length = 0 then [] else c.defines ++ (blocks c).map (.code c.name) ++ c.undefs

/-- The directives around the code of the instrument (c_initialise.py 253-266, c_save.py 17-29, c_finally.py 21-33); `body`
is what a parameter stands for. -/
def instrSection (s : Source) (body : String → String) (blocks : List String) : List Line :=
  if blocks.length = 0 then []
  else s.parameters.map (fun p => .define p (body p)) ++ blocks.map (.code s.name) ++ s.parameters.map .undef

/-- c_initialise.py 262, c_finally.py 29. -/
def instrBody (p : String) : String := "(instrument->_parameters." ++ p ++ ")"

/-- c_save.py 25. -/
def saveBody (p : String) : String := "(instrument->_parameters." ++ p

/-- `cogen_initialize` (c_initialise.py 227-296). The macro `setpos_getdistance` (29) is meant to stay. -/
def initializeSection (s : Source) : List Line :=
  .define "setpos_getdistance" "checked_setpos_getdistance(current_setpos_index, first, second)" ::
    s.types.flatMap (classSection CType.init) ++ instrSection s instrBody s.init

/-- `cogen_save` (c_save.py 1-43). -/
def saveSection (s : Source) : List Line :=
  s.types.flatMap (classSection CType.save) ++ instrSection s saveBody s.save

/-- `cogen_finally` (c_finally.py 1-53). -/
def finallySection (s : Source) : List Line :=
  s.types.flatMap (classSection CType.final) ++ instrSection s instrBody s.final

/-- c_display.py 6-10. -/
def displayMacros : List (String × String) :=
  [("magnify", "mcdis_magnify"), ("line", "mcdis_line"), ("dashed_line", "mcdis_dashed_line"),
    ("multiline", "mcdis_multiline"), ("rectangle", "mcdis_rectangle"), ("box", "mcdis_box"),
    ("circle", "mcdis_circle"), ("cylinder", "mcdis_cylinder"), ("sphere", "mcdis_sphere"), ("cone", "mcdis_cone"),
    ("polygon", "mcdis_polygon"), ("polyhedron", "mcdis_polyhedron")]

/-- `cogen_display` (c_display.py 1-60). -/
def displaySection (s : Source) : List Line :=
  displayMacros.map (fun p => .define p.1 p.2) ++ s.types.flatMap (classSection CType.display) ++
    displayMacros.map (fun p => .undef p.1)

/-- `_runtime_parameters` (c_trace.py 5-13). -/
def runtimeParameters (isMcstas : Bool) : List String :=
  ["x", "y", "z"] ++
    (if isMcstas then ["vx", "vy", "vz", "t", "sx", "sy", "sz", "p", "mcgravitation", "mcMagnet", "allow_backprop"]
      else ["kx", "ky", "kz", "phi", "t", "Ex", "Ey", "Ez", "p"]) ++ ["_mctmp_a", "_mctmp_b", "_mctmp_c"]

/-- `restore_name` (c_particle.py 1-2). -/
def restoreName (isMcstas : Bool) : String := if isMcstas then "RESTORE_NEUTRON" else "RESTORE_XRAY"

/-- What the members of a particle stand for (c_trace.py 30, 169; c.py 392). -/
def particleBody (x : String) : String := "(_particle->" ++ x ++ ")"

/-- The macros of `def_trace_section` (c_trace.py 41-51) besides the members of the particle. -/
def traceMacros (isMcstas : Bool) : List (String × String) :=
  [("SCATTERED", "(_particle->_scattered)"), ("RESTORE", "(_particle->_restore)"), ("ABSORBED", "(_particle->_absorbed)"),
    (restoreName isMcstas, "_particle->_restore = _index;"), ("mcget_run_num", "_particle->_uid"),
    ("ABSORB0", "do { DEBUG_STATE(); DEBUG_ABSORB(); MAGNET_OFF; ABSORBED++; return(_comp); } while(0)"),
    ("ABSORB", "ABSORB0")]

/-- `def_trace_section` (c_trace.py 23-52). -/
def defTrace (isMcstas : Bool) : List Line :=
  (runtimeParameters isMcstas).map (fun x => .define x (particleBody x)) ++
    (traceMacros isMcstas).map fun p => .define p.1 p.2

/-- `undef_trace_section` (c_trace.py 55-76). -/
def undefTrace (isMcstas : Bool) : List Line :=
  (runtimeParameters isMcstas).map .undef ++
    ["SCATTERED", "RESTORE", restoreName isMcstas, "STORE_NEUTRON", "ABSORBED", "ABSORB", "ABSORB0"].map .undef

/-- A block without code: `RawC.is_empty` (common/block.py 14-17). -/
def isEmptyBlock (t : String) : Bool := t.toList.all fun c => c = ' ' || c = '\t' || c = '\n'

/-- The EXTEND blocks of the instances of a type (c_trace.py 107). -/
def extended (s : Source) (c : CType) : List (String × String × String) := s.extend.filter (·.1 = c.name)

/-- `list(dict.fromkeys(l))`. -/
def fromKeys (l : List String) : List String := l.foldl (fun acc x => if x ∈ acc then acc else acc ++ [x]) []

/-- c_trace.py 167. -/
def userNames (s : Source) (c : CType) : List String := fromKeys (s.uservars ++ c.uservars)

/-- c_trace.py 165-176. -/
def extendLines (s : Source) (c : CType) : List Line :=
  if (extended s c).length = 0 then []
  else (userNames s c).map (fun x => .define x (particleBody x)) ++
    (extended s c).map (fun e => .code e.2.1 e.2.2) ++ (userNames s c).map .undef

/-- `cogen_comp_trace_class` (c_trace.py 97-186). -/
def traceClass (s : Source) (c : CType) : List Line :=
  if (extended s c).length = 0 ∧ c.trace.all isEmptyBlock then []
  else c.defines ++ c.trace.map (.code c.name) ++ extendLines s c ++ c.undefs

/-- The members for user variables (c.py 280-285). -/
def allUser (s : Source) : List String := fromKeys (s.uservars ++ s.types.flatMap (·.uservars))

/-- c_raytrace.py 14-18, and again 302-305. -/
def absorbOverride : List Line :=
  [.undef "ABSORB0", .undef "ABSORB", .define "ABSORB0" "do { DEBUG_ABSORB(); MAGNET_OFF; ABSORBED++;} while(0)",
    .define "ABSORB" "ABSORB0"]

/-- `enter_trace`, `enter_uservars`, `visit_raytrace`, `leave_uservars` and `leave_trace` (c.py 379-401). -/
def traceSection (isMcstas : Bool) (s : Source) : List Line :=
  defTrace isMcstas ++ s.types.flatMap (traceClass s) ++ (allUser s).map (fun x => .define x (particleBody x)) ++
    absorbOverride ++ (allUser s).map .undef ++ undefTrace isMcstas

/-- The sections in the order of target.py 154-173. -/
def program (isMcstas : Bool) (s : Source) : List Line :=
  initializeSection s ++ traceSection isMcstas s ++ saveSection s ++ finallySection s ++ displaySection s

/-! ### Parentheses -/

/-- The number of parentheses open after a text, `none` if one is closed that was not open. -/
def depth : Nat → List Char → Option Nat
  | d, [] => some d
  | d, '(' :: t => depth (d + 1) t
  | 0, ')' :: _ => none
  | d + 1, ')' :: t => depth d t
  | d, _ :: t => depth d t

def Balanced (s : String) : Prop := depth 0 s.toList = some 0

end Verif.Macros
