import Verif.CDecl.Model

/-!
Model of the functions of the generated program which read and write the members of a particle by name
(src/mccode_antlr/translators/c_header.py 36-84 and 162-252, c_particle.py), and of those which find components by their
name (c_macros.py, c_initialise.py 3-30).

What the program does is modelled for the statements the Python code writes: a list of `if(!strcmp("name",name)){…}`, of
`case i: {…}` and of assignments.  A member of the particle is a cell, which holds a value of one type; reading a cell as
a `double` which is none gives no value (in C: some other number, or anything).

Not modelled: the size of types, OPENACC, the functions of the runtime library (`mcsetstate`, `mcgetstate`).
-/

namespace Verif.Particle

open Verif.CDecl

/-- The content of a member of a particle. -/
inductive Cell (R : Type)
  | double (r : R)
  | int (n : Int)
  | pointer (k : Nat)
  | other (type : String) (k : Nat)
  deriving DecidableEq, Repr

/-- A particle, by the names of its members. -/
abbrev Part (R : Type) := String → Cell R

/-- `*name = c`. -/
def put {R : Type} (p : Part R) (name : String) (c : Cell R) : Part R := fun n => if n = name then c else p n

/-- `*((double*)(&(p->x)))`. -/
def Cell.asDouble {R : Type} : Cell R → Option R
  | .double r => some r
  | _ => none

/-- `memcpy(&(p->x), value, sizeof(type))`, for a value of that type. -/
def Cell.hasType {R : Type} (type : String) : Cell R → Bool
  | .double _ => type = "double" || type = "MCNUM"
  | .int _ => type = "int"
  | .pointer _ => false
  | .other t _ => type = t && type ≠ "double" && type ≠ "MCNUM" && type ≠ "int"

/-! ### The members -/

/-- `xyz_Axyz_Bxyz` (c_particle.py 5-18), the names. -/
def xyzAxyzBxyz (mcstas : Bool) : List String × List String × List String :=
  let ps := if mcstas then ("", "v", "s") else ("", "k", "E")
  let three := fun (q : String) => ["x", "y", "z"].map (q ++ ·)
  (three ps.1, if mcstas then three ps.2.1 else three ps.2.1 ++ ["phi"], three ps.2.2)

/-- `accessible_struct_members` (c_particle.py 53-76); all are of type `double`. -/
def accessible (mcstas : Bool) : List String :=
  let m := xyzAxyzBxyz mcstas
  m.1 ++ m.2.1 ++ m.2.2 ++ ["t", "p", "_mctmp_a", "_mctmp_b", "_mctmp_c"]

/-- `restorable_struct_members` (c_particle.py 78-91). -/
def restorable (mcstas : Bool) : List String :=
  let m := xyzAxyzBxyz mcstas
  m.1 ++ m.2.1 ++ m.2.2 ++ ["t", "p"]

/-- `setstate_signature_members` (c_particle.py 94-107), the names. -/
def setstateMembers (mcstas : Bool) : List String :=
  let m := xyzAxyzBxyz mcstas
  m.1 ++ m.2.1 ++ ["t"] ++ m.2.2 ++ ["p", "mcgravitation", "mcMagnet", "allow_backprop"]

/-- `setstate_signature_call` (c_particle.py 120-129). -/
def setstateCall (mcstas : Bool) : List String :=
  (setstateMembers mcstas).map fun key =>
    if key = (if mcstas then "vz" else "kz") then "1"
    else if key = "p" then "1"
    else if key = "mcgravitation" then "mcgravitation"
    else if key = "mcMagnet" then "NULL"
    else if key = "allow_backprop" then "mcallowbackprop"
    else "0"

/-- The members of a declaration, but `declare`. -/
def attrOf : Decl → Attr
  | .plain a _ => a
  | .func a _ _ _ => a

/-- `CDeclarator.is_pointer` (c_listener.py 112-114). -/
def isPointer (d : Decl) : Bool :=
  match (attrOf d).pointer with
  | none => false
  | some s => s.toList.any (· ≠ ' ')

/-- `CDeclarator.is_array` (c_listener.py 116-121). -/
def isArray : Decl → Bool
  | .plain a _ => a.elements.isSome
  | .func a d _ _ => a.elements.isSome || isArray d

/-- `x.dtype`, which is a text once parsed (c_listener.py 241-249). -/
def dtype (d : Decl) : String := (attrOf d).dtype.getD "None"

/-! ### Reading by name -/

/-- c_header.py 43-47: the names compared with in `particle_getvar` and `particle_getvar_void`. -/
def getLines (mcstas : Bool) (uv : List Decl) : List String := accessible mcstas ++ uv.map (·.name)

/-- `particle_getvar` (c_header.py 182-191): the value of `*suc` and the number returned; nothing if some member was read
which is no `double`. -/
def getvar {R : Type} [Zero R] (mcstas : Bool) (uv : List Decl) (p : Part R) (name : String) : Option (Int × R) :=
  (getLines mcstas uv).foldl
    (fun acc x => acc.bind fun a => if x = name then (p x).asDouble.map fun r => (0, r) else some a) (some (1, 0))

/-- `particle_getvar_void` (c_header.py 201-210): the value of `*suc` and the member pointed to. -/
def getvarVoid (mcstas : Bool) (uv : List Decl) (name : String) : Int × Option String :=
  (getLines mcstas uv).foldl (fun acc x => if x = name then (0, some x) else acc) (1, none)

/-- c_header.py 72-73 and 239-247: `particle_getuservar_byid`. -/
def getById {R : Type} [Zero R] (uv : List Decl) (p : Part R) (id : Int) : Option (Int × R) :=
  match (uv.zipIdx.find? fun c => (c.2 : Int) = id) with
  | some c => (p c.1.name).asDouble.map fun r => (0, r)
  | none => some (1, 0)

/-- `_get_particle_var` (c_macros.py 21-36): the member pointed to. -/
def getParticleVar (uv : List Decl) (token : String) : Option String :=
  (uv.find? fun d => d.name = token).map (·.name)

/-! ### Writing by name -/

/-- c_header.py 54-60: the names and types of `particle_setvar_void`. -/
def setLines (mcstas : Bool) (uv : List Decl) : List (String × String) :=
  (accessible mcstas).map (fun x => (x, "double")) ++
    (uv.filter fun d => !isArray d && !isPointer d).map fun d => (d.name, dtype d)

/-- `particle_setvar_void` (c_header.py 215-222): the number returned and the particle then; nothing if the value is not of
the type of the member. -/
def setvar {R : Type} (mcstas : Bool) (uv : List Decl) (p : Part R) (name : String) (value : Cell R) :
    Option (Int × Part R) :=
  (setLines mcstas uv).foldl
    (fun acc l => acc.bind fun a =>
      if l.1 = name then (if value.hasType l.2 then some (0, put a.2 l.1 value) else none) else some a) (some (1, p))

/-- c_header.py 62-65 and 227-234: `particle_setvar_void_array`, for a number of values of the type of the member.  The
member of an array is declared without its size (`Verif.CDecl.array_member_without_size`) and has room for one value;
copying over a pointer leaves no pointer to what was given. -/
def setvarArray {R : Type} (uv : List Decl) (p : Part R) (name : String) (values : List (Cell R)) :
    Option (Int × Part R) :=
  (uv.filter fun d => isArray d || isPointer d).foldl
    (fun acc d => acc.bind fun a =>
      if d.name = name then
        match values with
        | [] => some (0, a.2)
        | [v] => if isPointer d then none else if v.hasType (dtype d) then some (0, put a.2 d.name v) else none
        | _ => none
      else some a) (some (1, p))

/-- c_header.py 68-70 and 237-242: `particle_restore`. -/
def restore {R : Type} (mcstas : Bool) (p p0 : Part R) : Part R :=
  put (put ((restorable mcstas).foldl (fun q x => put q x (p0 x)) p) "_absorbed" (.int 0)) "_restore" (.int 0)

/-- c_header.py 75-82 and 254-256: `particle_uservar_init`; `conv` is the value of an initializer, converted to a type. -/
def uservarInit {R : Type} [Zero R] (conv : String → String → Cell R) (uv : List Decl) (p : Part R) : Part R :=
  uv.foldl (fun q d =>
    if (dtype d ≠ "double" && dtype d ≠ "MCNUM" && dtype d ≠ "int" && (attrOf d).init.isNone) || isPointer d || isArray d
    then q
    else put q d.name (match (attrOf d).init with
      | none => if dtype d = "int" then .int 0 else .double 0
      | some e => conv (dtype d) e)) p

/-! ### Components by name -/

/-- `_getcomp_index` (c_macros.py 39-54), for the names of the components in order. -/
def compIndex (names : List String) (compname : String) : Int :=
  match names.zipIdx.find? (fun c => c.1 = compname) with
  | some c => 1 + c.2
  | none => -1

/-- `_getvar_parameters` (c_macros.py 1-18): the C expression whose address is returned. -/
def varParameters (names : List String) (compname : String) : Option String :=
  (names.find? fun n => n = compname).map fun n => "_" ++ n ++ "_var._parameters"

/-- `POS_A_COMP_INDEX(i)`, the member `_position_absolute[i]` of the instrument (c_decls.py 52, c_initialise.py 95), where the
positions of the components with indices from 1 are; nothing for another place of memory. -/
def posA {V : Type} (pos : List V) (i : Int) : Option V := if i < 1 then none else pos[(i - 1).toNat]?

/-- `index_getdistance` (c_initialise.py 4-8); `dist` is the length of the difference. -/
def indexDistance {V R : Type} (dist : V → V → R) (pos : List V) (i j : Int) : Option R :=
  (posA pos i).bind fun u => (posA pos j).map fun v => dist u v

/-- `getdistance` (c_initialise.py 10-16). -/
def getdistance {V R : Type} (dist : V → V → R) (names : List String) (pos : List V) (a b : String) : Option R :=
  indexDistance dist pos (compIndex names a) (compIndex names b)

/-- `checked_setpos_getdistance` (c_initialise.py 18-28), called as `setpos_getdistance` (29) from the function which places
the component with the index `current` (188); `pos` are the positions of those placed. -/
def setposDistance {V R : Type} [Zero R] (dist : V → V → R) (names : List String) (pos : List V) (current : Int)
    (a b : String) : Option R :=
  if compIndex names a ≥ current ∨ compIndex names b ≥ current then some 0
  else indexDistance dist pos (compIndex names a) (compIndex names b)

end Verif.Particle
