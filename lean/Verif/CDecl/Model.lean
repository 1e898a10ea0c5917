import Mathlib.Data.List.Basic
import Mathlib.Data.String.Basic

/-!
Model of parsed C declarations (src/mccode_antlr/translators/c_listener.py 50-209) and of the user variables of a particle
(`CTargetVisitor._determine_uservars` and `_instrument_and_component_uservars`, src/mccode_antlr/translators/c.py 158-225
and 280-285).

Not modelled: the C parser which makes the declarations.
-/

namespace Verif.CDecl

/-- An element of `CDeclarator.elements`: numbers if all could be converted, else texts. -/
inductive Elem
  | num (n : Nat)
  | text (s : String)
  deriving DecidableEq, Repr

/-- The members of a `CDeclarator` (100-106), but `declare`. -/
structure Attr where
  pointer : Option String := none
  extensions : List String := []
  elements : Option (List Elem) := none
  dtype : Option String := none
  init : Option String := none
  deriving DecidableEq, Repr

/-- A `CDeclarator`, whose `declare` is a name or a `CFuncPointer` (58-62) holding another one. -/
inductive Decl
  | plain (a : Attr) (name : String)
  | func (a : Attr) (inner : Decl) (modifiers args : Option String)
  deriving DecidableEq, Repr

/-- `not_both_None_or_not_equal` (50-53). -/
def notBothNoneOrNotEqual {α : Type} [DecidableEq α] (a b : Option α) : Bool :=
  if (a.isNone && b.isSome) || (a.isSome && b.isNone) then false else a.isSome && b.isSome && a ≠ b

/-- The part of `CDeclarator.__eq__` before the last line (142-153). -/
def attrEq (a b : Attr) : Bool :=
  if a.extensions.length ≠ b.extensions.length then false
  else if (a.extensions.zip b.extensions).any (fun p => p.1 ≠ p.2) then false
  else if notBothNoneOrNotEqual a.pointer b.pointer then false
  else if notBothNoneOrNotEqual a.elements b.elements then false
  else if notBothNoneOrNotEqual a.dtype b.dtype then false
  else if notBothNoneOrNotEqual a.init b.init then false
  else true

/-- `CDeclarator.__eq__` (142-154) and `CFuncPointer.__eq__` (75-82). -/
def Decl.eq : Decl → Decl → Bool
  | .plain a n, .plain b m => attrEq a b && n = m
  | .func a d m s, .func b d' m' s' =>
    attrEq a b &&
      (if notBothNoneOrNotEqual s s' then false else if notBothNoneOrNotEqual m m' then false else Decl.eq d d')
  | _, _ => false

/-- `CDeclarator.name` and `CFuncPointer.name` (123-125, 64-66). -/
def Decl.name : Decl → String
  | .plain _ n => n
  | .func _ d _ _ => d.name

/-- `if x` for a text that may be missing. -/
def given (x : Option String) : Bool :=
  match x with
  | none => false
  | some s => s ≠ ""

/-- `CDeclarator.string` (156-163). -/
def attrString (a : Attr) (dec : String) : String :=
  let ext := " ".intercalate a.extensions
  let dec := if ext.length ≠ 0 then dec ++ " " ++ ext else dec
  let dec := if given a.pointer then a.pointer.getD "" ++ " " ++ dec else dec
  if given a.dtype then a.dtype.getD "" ++ " " ++ dec else dec

/-- `CFuncPointer.string` (84-86). -/
def funcString (modifiers args : Option String) (dec : String) : String :=
  let f := if given modifiers then "(" ++ modifiers.getD "" ++ " " ++ dec ++ ")" else "(" ++ dec ++ ")"
  if given args then f ++ "(" ++ args.getD "" ++ ")" else f ++ "()"

/-- `CDeclarator.__str__` (165-166) and `CFuncPointer.__str__` (88-89). -/
def Decl.str : Decl → String
  | .plain a n => attrString a n
  | .func a d m s => attrString a (funcString m s d.str)

/-- `CDeclarator.copy` (127-140) and `CFuncPointer.copy` (68-73), with a suffix. -/
def Decl.copy (suffix : String) : Decl → Decl
  | .plain a n => .plain a (n ++ "_" ++ suffix)
  | .func a d m s => .func a (d.copy suffix) m s

/-- The same key of a `set` or `dict`: equal hash (168-169; two texts are taken to have the same hash only if they are
equal) and equal. -/
def Decl.same (d e : Decl) : Bool := d.str = e.str && d.eq e

/-- `list(dict.fromkeys(ds))`, and the elements of `set(ds)`. -/
def fromKeys (ds : List Decl) : List Decl := ds.foldl (fun acc d => if acc.any (·.same d) then acc else acc ++ [d]) []

/-- c.py 186-190, 203-207: the declarations of the blocks of a section. -/
def collect (blocks : List (List Decl)) : List Decl := blocks.foldl (fun acc b => fromKeys (acc ++ b)) []

/-- `len(set(names)) != len(...)`. -/
def repeatedNames (ds : List Decl) : Bool := !(ds.map (·.name)).dedup.length = ds.length

/-- c.py 214-220: the members for the instances of one type; `instances` are the names of the types of all components, in
order. -/
def instanceDeclares (instances : List String) (type : String) (ds : List Decl) : List Decl :=
  instances.zipIdx.flatMap fun p => if p.1 = type then ds.map (·.copy (toString (p.2 + 1))) else []

inductive Err
  | runtimeError
  | zeroDivisionError
  deriving DecidableEq, Repr

/-- `_determine_uservars` (158-225), for the USERVARS of the instrument, the component types (with different names) and
their USERVARS, and the types of the components. -/
def determineUservars (user : List (List Decl)) (types : List (String × List (List Decl))) (instances : List String) :
    Except Err (List Decl × List (String × List Decl)) :=
  let declares := collect user
  if repeatedNames declares then .error .runtimeError
  else if types.any (fun t => repeatedNames (collect t.2)) then .error .runtimeError
  else
    let comp := types.map fun t => (t.1, instanceDeclares instances t.1 (collect t.2))
    if repeatedNames (fromKeys (comp.flatMap (·.2) ++ declares)) then .error .runtimeError
    else .ok (declares, comp)

/-- `_instrument_and_component_uservars` (280-285): the members written into the particle. -/
def members (r : List Decl × List (String × List Decl)) : List Decl :=
  r.2.foldl (fun acc t => fromKeys (acc ++ t.2)) r.1

/-- The members every particle of a McStas program has (c_particle.py 22-51). -/
def structMembers : List String :=
  ["x", "y", "z", "vx", "vy", "vz", "mcgravitation", "mcMagnet", "allow_backprop", "sx", "sy", "sz", "_mctmp_a",
    "_mctmp_b", "_mctmp_c", "randstate", "t", "p", "_uid", "_index", "_absorbed", "_scattered", "_restore",
    "flag_nocoordschange", "_logic"]

/-! ### The size of arrays -/

def plainChar (c : Char) : Bool := c ≠ '{' && c ≠ '}'

/-- All matches of `{([^{}]*)}` from the left, and the text with each replaced by `_` (205-208). -/
def inner : Nat → List Char → List (List Char) × List Char
  | 0, t => ([], t)
  | _, [] => ([], [])
  | fuel + 1, c :: t =>
    if c = '{' then
      match t.dropWhile plainChar with
      | '}' :: rest => ((t.takeWhile plainChar) :: (inner fuel rest).1, '_' :: (inner fuel rest).2)
      | _ => ((inner fuel t).1, c :: (inner fuel t).2)
    else ((inner fuel t).1, c :: (inner fuel t).2)

/-- `len(s.split(','))`. -/
def pieces (s : List Char) : Nat := s.count ',' + 1

/-- The loop of `extract_initializer_size` (203-208). -/
def sizeLoop : Nat → List Char → List Nat → List Nat
  | 0, _, size => size
  | fuel + 1, x, size =>
    match (inner (x.length + 1) x).1 with
    | [] => size
    | y :: _ => sizeLoop fuel (inner (x.length + 1) x).2 (size ++ [pieces y])

/-- `extract_initializer_size` (191-209). -/
def initializerSize (x : List Char) : List Nat := (sizeLoop (x.length + 1) x []).reverse

def Elem.show : Elem → String
  | .num n => toString n
  | .text s => s

/-- `x if x != 0 else m` for the pairs of two tuples (185-186). -/
def fillZeros (no mal : List Elem) : List Elem :=
  if .num 0 ∈ no then (no.zip mal).map fun p => if p.1 = .num 0 then p.2 else p.1 else no

/-- 172-177: the sizes to use where none is given. -/
def maxLengths (a : Attr) (mal : List Elem) : Except Err (List Elem) :=
  let mal := if given a.init then (initializerSize (a.init.getD "").toList).map Elem.num else mal
  let dims := (a.elements.getD []).length
  if mal.length < dims then
    if mal.length = 0 then .error .zeroDivisionError else .ok (List.replicate (dims / mal.length) mal).flatten
  else .ok mal

/-- `self.elements if self.elements else mal` (178). -/
def sizesOr (a : Attr) (mal : List Elem) : List Elem :=
  if (a.elements.getD []).isEmpty then mal else a.elements.getD []

/-- `CDeclarator.as_struct_member` (171-188) and `CFuncPointer.as_struct_member` (94-96). -/
def Decl.asStructMember (mal : List Elem) : Decl → Except Err String
  | .plain a n =>
    (maxLengths a mal).map fun mal =>
      if a.elements.isSome then
        attrString a n ++ String.join ((fillZeros (sizesOr a mal) mal).map fun e => "[" ++ e.show ++ "]")
      else attrString a n
  | .func a d m s => do
    let mal ← maxLengths a mal
    let inner ← d.asStructMember (sizesOr a mal)
    return attrString a (funcString m s inner)

/-- c_decls.py 179: a member for a variable of a DECLARE section. -/
def Decl.declareMember (d : Decl) : Except Err String := d.asStructMember [.num 16384]

/-- c_header.py 41: a member of the particle for a variable of a USERVARS section. -/
def Decl.particleMember (d : Decl) : String := "  " ++ d.str ++ ";"

end Verif.CDecl
