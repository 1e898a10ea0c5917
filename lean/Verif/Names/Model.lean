import Mathlib.Data.List.Basic
import Mathlib.Data.String.Basic

/-!
Model of the identifiers the generated C program declares and uses: src/mccode_antlr/translators/c_header.py 18-21, 126-240,
258-303, c_decls.py, c_initialise.py, c_trace.py 79-186, c_raytrace.py, c_save.py, c_finally.py, c_display.py, c_macros.py,
with `Instr.component_types` (instr/instr.py 207-211) and `blocks_to_raw_c` (common/block.py 49-53).

Only what the translator itself declares at the level of the file is kept, in the name spaces of C99 6.2.3: the tags of
structures, the members of each structure, and the other identifiers (types, variables and functions). What user code,
libraries and the runtime files declare is not part of the repository and left out; so are prototypes, which may be repeated,
and names local to functions. The program is compiled with one of the layouts, with or without FUNNEL.
-/

namespace Verif.Names

/-- What a component definition gives to names: its parameters, the variables of its DECLARE section, and its blocks of code;
`other` stands for the rest of the definition (comp/comp.py 15-30). -/
structure Comp where
  name : String
  define : List String := []
  setting : List String := []
  output : List String := []
  declared : List String := []
  init : List String := []
  trace : List String := []
  save : List String := []
  final : List String := []
  display : List String := []
  other : String := ""
  deriving DecidableEq, Repr

/-- instr/jump.py 6-11, as far as names are concerned. -/
structure Jump where
  target : String
  iterate : Bool
  deriving DecidableEq, Repr

/-- A component instance. `refs` are the names of the instances its placement refers to, `vectors` the names of its
parameters that are lists of known length (c_finally.py 40-43). -/
structure Inst where
  name : String
  type : Comp
  split : Bool := false
  extend : List String := []
  jumps : List Jump := []
  refs : List String := []
  vectors : List String := []
  deriving DecidableEq, Repr

/-- An instrument; `groups` are the keys of a dictionary, `uservars` the members its USERVARS and those of its components
give to the particle (C34). -/
structure Source where
  name : String := "test"
  mcstas : Bool := true
  defaultMain : Bool := true
  funnel : Bool := false
  params : List String := []
  groups : List String := []
  uservars : List String := []
  comps : List Inst := []

/-- `list(dict.fromkeys(xs))`. -/
def fromKeys {α : Type} [DecidableEq α] (xs : List α) : List α :=
  xs.foldl (fun acc x => if x ∈ acc then acc else acc ++ [x]) []

/-- `component_types` (instr.py 207-211). Definitions are compared as a whole; the dictionary uses the hash of the `repr`
too, which is the same for definitions that are the same. -/
def Source.types (s : Source) : List Comp := fromKeys (s.comps.map (·.type))

/-- `RawC.is_empty` (common/block.py 15-17): nothing but blanks, tabs and ends of lines. -/
def isEmpty (block : String) : Bool := block.toList.all fun c => c == ' ' || c == '\t' || c == '\n'

/-- `blocks_to_raw_c` (common/block.py 49-53). -/
def blocksToRawC (blocks : List String) : List String := blocks.filter fun b => !isEmpty b

/-- `Comp.TRACE` (comp/comp.py 94-95). -/
def Comp.addTrace (c : Comp) (blocks : List String) : Comp := { c with trace := c.trace ++ blocksToRawC blocks }

/-- The identifiers declared by a C program: structures with their members, and types, variables and functions. -/
structure Program where
  structs : List (String × List String) := []
  names : List String := []

instance : Append Program := ⟨fun p q => ⟨p.structs ++ q.structs, p.names ++ q.names⟩⟩

/-- The jumps counted by the particle, with the names of their instances (c_header.py 20-21, c_raytrace.py 27-28). -/
def Source.counted (s : Source) : List (String × String) :=
  s.comps.flatMap fun i => (i.jumps.filter (·.iterate)).map fun j => (i.name, j.target)

def jumpName (p : String × String) : String := "Jump_" ++ p.1 ++ "_" ++ p.2

/-- The members of the particle before those of users (c_header.py 23-33, 130-151). -/
def particleMembers (mcstas : Bool) : List String :=
  ["x", "y", "z"] ++
  (if mcstas then ["vx", "vy", "vz", "sx", "sy", "sz", "mcgravitation", "mcMagnet", "allow_backprop"]
   else ["kx", "ky", "kz", "phi", "Ex", "Ey", "Ez"]) ++
  ["_mctmp_a", "_mctmp_b", "_mctmp_c", "randstate", "t", "p", "_uid", "_index", "_absorbed", "_scattered", "_restore",
   "flag_nocoordschange", "_logic"]

/-- `header_pre_runtime` and `header_post_runtime` (c_header.py 118-121, 126-240, 279-303). -/
def headerPart (s : Source) : Program where
  structs :=
    [("particle_logic_struct", "dummy" :: s.counted.map jumpName),
     ("_struct_particle", particleMembers s.mcstas ++ s.uservars)]
  names :=
    ["MCNUM", "Coords", "Rotation", "_class_particle", "_particle_global_randnbuse_var", "_particle", "mcallowbackprop",
     "mcgenstate", "particle_getvar", "particle_getvar_void", "particle_setvar_void", "particle_setvar_void_array",
     "particle_restore", "particle_getuservar_byid", "particle_uservar_init", "traceenabled", "defaultmain",
     "instrument_name", "instrument_source", "instrument_exe", "instrument_code"] ++
    (if s.defaultMain then ["main"] else [])

/-- c_decls.py 19-26. -/
def parametersStruct (s : Source) : String × List String :=
  ("_struct_instrument_parameters", if s.params.length = 0 then [s.name ++ "_has_no_parameters"] else s.params)

/-- c_decls.py 28, 30-40. A split is an expression, which Python takes for true. -/
def logicStruct (s : Source) : List (String × List String) :=
  if s.groups.length ≠ 0 ∨ s.comps.any (·.split) then
    [("instrument_logic_struct", s.groups.map (fun g => "Group_" ++ g) ++
      (s.comps.filter (·.split)).flatMap fun i => ["Split_" ++ i.name, "Split_" ++ i.name ++ "_particle"])]
  else []

/-- c_decls.py 42-61. -/
def instrumentStruct (s : Source) : String × List String :=
  ("_instrument_struct",
    ["_name", "counter_AbsorbProp", "counter_N", "counter_P", "counter_P2", "_trajectory", "_position_relative",
     "_position_absolute", "_parameters"] ++
    (if s.groups.length ≠ 0 ∨ s.comps.any (·.split) then ["logic"] else []))

/-- `component_type_declaration` (c_decls.py 140-202). -/
def typePart (c : Comp) : Program where
  structs :=
    [("_struct_" ++ c.name ++ "_parameters",
      c.setting ++ c.declared ++ (if c.setting.length + c.declared.length = 0 then [c.name ++ "_has_no_parameters"] else [])),
     ("_struct_" ++ c.name,
      ["_name", "_type", "_index", "_position_absolute", "_position_relative", "_rotation_absolute", "_rotation_relative",
       "_rotation_is_identity", "_position_relative_is_zero", "_parameters"])]
  names := ["_class_" ++ c.name ++ "_parameters", "_class_" ++ c.name]

def varName (i : String) : String := "_" ++ i ++ "_var"

def setposName (i : String) : String := "_" ++ i ++ "_setpos"

/-- `declarations_pre_libraries` (c_decls.py 16-137, 205-214). -/
def declarePart (s : Source) : Program where
  structs := [parametersStruct s] ++ logicStruct s ++ [instrumentStruct s] ++ s.types.flatMap fun c => (typePart c).structs
  names :=
    ["_class_instrument_parameters", "_instrument_var", "instrument", "numipar", "mcinputtable", "metadata_table",
     "num_metadata"] ++ s.types.flatMap (fun c => (typePart c).names) ++ s.comps.map (fun i => varName i.name) ++
    ["mcNUMCOMP"]

/-- The function of a section of a component definition (c_initialise.py 307, c_trace.py 117, c_save.py 54, c_finally.py 64,
c_display.py 71). -/
def className (c : Comp) (section_ : String) : String := "class_" ++ c.name ++ "_" ++ section_

/-- The functions written for a section but TRACE (c_initialise.py 301-302, c_save.py 48-49, c_finally.py 58-59,
c_display.py 65-66). -/
def classPart (s : Source) (blocks : Comp → List String) (section_ : String) : List String :=
  s.types.flatMap fun c => if (blocks c).length = 0 then [] else [className c section_]

/-- Whether the TRACE function of a definition is written (c_trace.py 108-113). -/
def hasTrace (s : Source) (c : Comp) : Bool :=
  s.comps.any (fun i => i.type.name = c.name ∧ i.extend.length ≠ 0) || c.trace.any fun b => !isEmpty b

/-- `cogen_initialize` (c_initialise.py 3-30, 227-296). -/
def initializePart (s : Source) : Program where
  names := ["index_getdistance", "getdistance", "checked_setpos_getdistance"] ++ s.comps.map (fun i => setposName i.name) ++
    classPart s Comp.init "initialize" ++ ["init"]

/-- `cogen_trace_section` (c_trace.py 79-94). -/
def tracePart (s : Source) : Program where
  names := s.types.flatMap fun c => if hasTrace s c then [className c "trace"] else []

/-- `cogen_raytrace` and `cogen_funnel` (c_raytrace.py 8-9, 168-169, 250-256). -/
def raytracePart (s : Source) : Program where
  names := if s.funnel then ["raytrace_all_funnel"] else ["raytrace", "raytrace_all"]

/-- `cogen_save`, `cogen_finally`, `cogen_display` (c_save.py 6-13, c_finally.py 6-11, c_display.py 15-22). -/
def finishPart (s : Source) : Program where
  names := classPart s Comp.save "save" ++ ["save"] ++ classPart s Comp.final "finally" ++ ["finally"] ++
    classPart s Comp.display "display" ++ ["display"]

/-- c_macros.py. -/
def macrosPart : Program where
  names := ["_getvar_parameters", "_get_particle_var", "_getcomp_index"]

/-- The whole program, in the order of `translate` (target.py 143-180). -/
def program (s : Source) : Program :=
  headerPart s ++ declarePart s ++ initializePart s ++ tracePart s ++ raytracePart s ++ finishPart s ++ macrosPart

/-! ### Names used -/

/-- The uses of identifiers in the code the translator writes: a type, variable or function, or a member of a structure. -/
inductive Use
  | name (n : String)
  | member (struct_ n : String)
  deriving DecidableEq, Repr

/-- c_decls.py 198, 209: the structure of a definition holds its parameters. -/
def typeUses (s : Source) : List Use :=
  s.types.map fun c => .name ("_class_" ++ c.name ++ "_parameters")

/-- A member of the parameters of a component (c_initialise.py 113, 201). -/
def parameterUse (c : Comp) (n : String) : Use := .member ("_struct_" ++ c.name ++ "_parameters") n

/-- `component_instance_declaration`, `cogen_comp_setpos` and `cogen_comp_init_position` of one instance, and the calls in
`init` (c_decls.py 205-214, c_initialise.py 38-223, 270-276). Not the expressions of users. -/
def setposUses (i : Inst) : List Use :=
  [.name ("_class_" ++ i.type.name), .name (varName i.name), .name "_instrument_var", .name "instrument"] ++
    i.refs.map (fun r => .name (varName r)) ++ i.type.setting.map (parameterUse i.type) ++
    i.type.declared.map (parameterUse i.type) ++ [.name (setposName i.name)] ++
    (if i.type.init.length = 0 then [] else [.name (className i.type "initialize")])

/-- What `raytrace` and `raytrace_all_funnel` use for one instance (c_raytrace.py 27-28, 61-112, 344-377). -/
def traceUses (s : Source) (i : Inst) : List Use :=
  [.name "_class_particle", .name (varName i.name)] ++
    (if i.type.trace.length ≠ 0 ∨ i.extend.length ≠ 0 then [.name (className i.type "trace")] else []) ++
    (if s.funnel then []
     else (i.jumps.filter (·.iterate)).map fun j => .member "particle_logic_struct" ("Jump_" ++ i.name ++ "_" ++ j.target))

/-- c_save.py 32-34, c_finally.py 36-43, c_display.py 42-47, c_macros.py 10-11. -/
def finishUses (i : Inst) : List Use :=
  [.name (varName i.name)] ++ (if i.type.save.length = 0 then [] else [.name (className i.type "save")]) ++
    (if i.type.final.length = 0 then [] else [.name (className i.type "finally")]) ++
    i.vectors.map (parameterUse i.type) ++
    (if i.type.display.length = 0 then [] else [.name (className i.type "display")])

/-- The members the macros of a definition stand for (c_defines.py 6-7, 14-17), which the code of the definition uses where
it uses a parameter. -/
def macroUses (c : Comp) : List Use := (c.define ++ c.setting ++ c.output ++ c.declared).map (parameterUse c)

def uses (s : Source) : List Use :=
  typeUses s ++ s.comps.flatMap (fun i => setposUses i ++ traceUses s i ++ finishUses i)

/-! ### What C asks for -/

/-- No identifier is declared twice in one name space (C99 6.7 3, 6.7.2.3, 6.9 3). -/
def Program.once (p : Program) : Prop :=
  (p.structs.map (·.1)).Nodup ∧ (∀ t ∈ p.structs, t.2.Nodup) ∧ p.names.Nodup

/-- An identifier that is used is declared. -/
def Program.declares (p : Program) : Use → Prop
  | .name n => n ∈ p.names
  | .member t n => ∃ ms, (t, ms) ∈ p.structs ∧ n ∈ ms

end Verif.Names
