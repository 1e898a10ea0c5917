import Verif.Setpos.Literal
import Verif.DataType.Model
import Mathlib.Algebra.Group.Defs

/-!
Model of the setting of component parameters in the generated `_<instance>_setpos` (`cogen_comp_setpos`,
src/mccode_antlr/translators/c_initialise.py 102-224), of the checks made when a value is given to an instance
(src/mccode_antlr/common/parameters.py 69-70, common/expression.py 730-736), and of the C program running the statements
written. The `#ifdef USE_NEXUS` part (152-176) and positions (211-212, see C17) are left out.

A value of an expression is what `Value` keeps (expression.py 638-649); an operation is kept as the text printed for it
with the format `p`, in which the names of instrument parameters are written as members of `_instrument_var`.
-/

namespace Verif.Setpos

open Verif.Escape Verif.DT

/-- expression.py 31-68: the object types used here. -/
inductive Obj
  | value
  | initializerList
  | identifier
  | parameter
  deriving DecidableEq, Repr

/-- The Python object kept in a `Value`. A number or an element of a list is kept as its `str`. -/
inductive Py
  | none
  | text (t : Text)
  | number (t : Text)
  | list (ts : List Text)
  deriving DecidableEq, Repr

/-- An `Expr` with one element: a `Value` (with shape `scalar` or `vector`) or an operation. -/
inductive Ex
  | val (v : Py) (data : DataType) (obj : Obj) (vector : Bool)
  | op (printed : Text) (data : DataType)
  deriving DecidableEq, Repr

/-- expression.py 794-796, 226-227. -/
def Ex.isStr : Ex → Bool
  | .val _ d o _ => o = .value && d = .str
  | .op _ d => d = .str

/-- expression.py 781-784, 211-212. -/
def Ex.isId : Ex → Bool
  | .val _ _ o _ => o = .identifier || o = .parameter
  | .op _ _ => false

def Ex.isOp : Ex → Bool
  | .val .. => false
  | .op .. => true

/-- expression.py 826-827, 236-237. -/
def Ex.isVector : Ex → Bool
  | .val _ _ _ v => v
  | .op .. => false

/-- expression.py 1142-1144 (with 1137-1139): identifiers have no value. -/
def Ex.hasValue : Ex → Bool
  | .val v d o s => !(Ex.val v d o s).isId && v ≠ .none
  | .op .. => false

/-- expression.py 1146-1148 with 701-703. -/
def Ex.vectorKnown : Ex → Option (List Text)
  | .val (.list ts) d o true => if (Ex.val (.list ts) d o true).isId then none else some ts
  | _ => none

/-- `str` of a Python list whose elements print as the given texts (numbers do, texts would get quotes). -/
def listText : List Text → Text
  | ts => ch '[' :: (ts.intersperse (txt ", ")).flatten ++ [ch ']']

/-- `str(value)`, expression.py 710-714. -/
def Py.print : Py → Text
  | .none => txt "None"
  | .text t => t
  | .number t => t
  | .list ts => listText ts

/-- `f'{value:p}'`, expression.py 705-708 and 716-722. -/
def Ex.printP : Ex → Text
  | .val v _ o _ => if o = .parameter then txt "_instrument_var._parameters." ++ v.print else v.print
  | .op t _ => t

/-- The statements written for one parameter. The left-hand side, the parameter of the instance, is left out. -/
inductive Line
  /-- `if (src && strlen(src)){ stracpy(par, src, n); } else { par[0] = '\0'; }` -/
  | copyIf (src : Text) (n : Nat)
  /-- `stracpy(par, src, n);` -/
  | copy (src : Text) (n : Nat)
  /-- `par[0] = '\0';` -/
  | clear
  /-- `par = calloc(sizeof(type), n);` -/
  | alloc (n : Nat)
  /-- `par[i] = src;` -/
  | elem (i : Nat) (src : Text)
  /-- `par = src;` -/
  | assign (src : Text)
  deriving DecidableEq, Repr

inductive Err
  | typeError
  | attributeError
  deriving DecidableEq, Repr

/-- c_initialise.py 105-150: the lines for a parameter with the default of the definition, given a value. In 135 `par` is the
parameter of the loop in 192, that is, the default; only its C type is taken from it. -/
def parameterLines (default value : Ex) : Except Err (List Line) :=
  if default.isStr || value.isStr then
    if value.isId || value.isOp then .ok [.copyIf value.printP 16384]
    else
      match value with
      | .val (.text t) _ _ _ =>
        if t ≠ txt "0" ∧ t ≠ txt "NULL" ∧ t ≠ txt "\"\"" then .ok [.copy value.printP (t.length - 1)] else .ok [.clear]
      | .val .none _ _ _ => .ok [.clear]
      | .val (.list ts) _ _ _ => .ok [.copy value.printP (ts.length - 1)]
      | _ => .error .typeError
  else if default.isVector || value.isVector then
    match value.vectorKnown with
    | some ts => .ok (.alloc ts.length :: ts.mapIdx fun i t => .elem i t)
    | none =>
      if value.isId then .ok [.assign value.printP]
      else .ok [.assign (if value.hasValue then value.printP else txt "NULL")]
  else if value.isId || value.isOp then .ok [.assign value.printP]
  else
    match value with
    | .val v _ _ _ => .ok [.assign (if value.hasValue then v.print else txt "0")]
    | .op t _ => .ok [.assign t]

/-! ### Values given to an instance -/

/-- parameters.py 69-70, expression.py 1168-1170 and 730-736: the value given may be used for a parameter of the definition.
The default is a value, not an operation; an operation with three operands and an unknown shape are left out. -/
def compatible (default value : Ex) : Bool :=
  match default, value with
  | .val _ d _ s, .val v d' o s' => (Ex.val v d' o s').isStr || (d.compatible d' && s = s')
  | _, .op .. => true
  | .op .., _ => false

/-- instr/visitor.py 191-200: the value of `name = NULL`. -/
def nullValue : Ex := .val (.text (txt "NULL")) .str .value false

/-- common/visitor.py 85-88: the value of `{e1, e2, ...}`; of each expression `value` is taken, which an operation with two
operands does not have. Operations with one operand are left out. instr/visitor.py 202-207 sets the data type. -/
def initializerList (es : List Ex) : Except Err Ex := do
  let ts ← es.mapM fun e => match e with
    | .val v _ _ _ => Except.ok v.print
    | .op _ _ => Except.error Err.attributeError
  return .val (.list ts) .float .initializerList true

/-! ### The program written -/

/-- What a C expression stands for: a number, a null pointer, a pointer to characters (up to a zero), or a pointer to
numbers. -/
inductive CVal (R : Type)
  | num (r : R)
  | null
  | chars (bs : List Nat)
  | array (rs : List R)
  deriving DecidableEq

/-- The member of the structure of parameters: an array of characters, a number, or a pointer to numbers (`none` is
null). -/
inductive Mem (R : Type)
  | text (bs : List Nat)
  | number (r : R)
  | pointer (p : Option (List R))
  deriving DecidableEq

variable {R : Type} [Zero R]

/-- The size of the arrays for texts, c_decls.py 178. -/
def textSize : Nat := 16384

/-- c_decls.py 160-182: the member declared for a parameter of the definition, before anything is set: the variables of the
instances have static storage. -/
def member (default : Ex) : Mem R :=
  if default.isStr then .text (List.replicate textSize 0) else if default.isVector then .pointer none else .number 0

/-- The characters of a C string: up to the first zero. -/
def cstr (bs : List Nat) : List Nat := bs.takeWhile (· ≠ 0)

/-- `stracpy(dst, src, n)` of the run time: at most `n` characters are copied, and none after a zero. Writing beyond the end
is undefined: `none`. -/
def stracpy (dst src : List Nat) (n : Nat) : Option (List Nat) :=
  let copied := (cstr src ++ [0]).take n
  if copied.length ≤ dst.length then some (copied ++ dst.drop copied.length) else none

/-- The text in an array of characters; `none` if there is no zero at its end. -/
def textIn (bs : List Nat) : Option (List Nat) := if 0 ∈ bs then some (cstr bs) else none

/-- The value of an expression: a literal and `NULL` stand for themselves, the rest is up to the variables. -/
def look (ev : Text → Option (CVal R)) (t : Text) : Option (CVal R) :=
  match litBytes t with
  | some bs => some (.chars bs)
  | none => if t = txt "NULL" then some .null else ev t

/-- `par[0] = '\0';` -/
def clear : Mem R → Option (Mem R)
  | .text (_ :: bs) => some (.text (0 :: bs))
  | .pointer (some (_ :: rs)) => some (.pointer (some (0 :: rs)))
  | _ => none

/-- One statement run. `none`: it does not compile, or is undefined. -/
def exec (ev : Text → Option (CVal R)) : Line → Mem R → Option (Mem R)
  | .copyIf src n, .text bs =>
    match look ev src with
    | some .null => clear (.text bs)
    | some (.chars s) => if cstr s = [] then clear (.text bs) else (stracpy bs s n).map .text
    | _ => none
  | .copy src n, .text bs =>
    match look ev src with
    | some (.chars s) => (stracpy bs s n).map .text
    | _ => none
  | .clear, m => clear m
  | .alloc n, .pointer _ => some (.pointer (some (List.replicate n 0)))
  | .elem i src, .pointer (some rs) =>
    match look ev src with
    | some (.num r) => if i < rs.length then some (.pointer (some (rs.set i r))) else none
    | _ => none
  | .assign src, .number _ =>
    match look ev src with
    | some (.num r) => some (.number r)
    | _ => none
  | .assign src, .pointer _ =>
    match look ev src with
    | some .null => some (.pointer none)
    | some (.array rs) => some (.pointer (some rs))
    | _ => none
  | _, _ => none

def run (ev : Text → Option (CVal R)) : List Line → Mem R → Option (Mem R)
  | [], m => some m
  | l :: ls, m => (exec ev l m).bind (run ev ls)

/-- What the parameter holds after `setpos`, for a value given. -/
def held (ev : Text → Option (CVal R)) (default value : Ex) : Option (Mem R) :=
  match parameterLines default value with
  | .ok ls => run ev ls (member default)
  | .error _ => none

/-- A parameter of a definition and the ones given to an instance: a name and a value. -/
structure Par where
  name : Text
  value : Ex
  deriving DecidableEq, Repr

/-- instr/instance.py 162-166 and comp/comp.py 42-47, without `DEFINITION` parameters: the value for a parameter. -/
def given (own setting : List Par) (name : Text) : Option Ex :=
  match own.find? (·.name = name) with
  | some p => some p.value
  | none => (setting.find? (·.name = name)).map (·.value)

/-- c_initialise.py 192-194, run: all setting parameters of a definition are set, for an instance with parameters `own`; the
members are kept by name. A parameter without a value gets no line (110-111). -/
def setAll (ev : Text → Option (CVal R)) (own setting : List Par) :
    List Par → (Text → Mem R) → Option (Text → Mem R)
  | [], m => some m
  | p :: ps, m =>
    match given own setting p.name with
    | none => setAll ev own setting ps m
    | some v =>
      match parameterLines p.value v with
      | .error _ => none
      | .ok ls =>
        match run ev ls (m p.name) with
        | none => none
        | some x => setAll ev own setting ps fun n => if n = p.name then x else m n

/-- c_decls.py 160-182: all members before anything is set. -/
def fresh (setting : List Par) (n : Text) : Mem R :=
  match setting.find? (·.name = n) with
  | some p => member p.value
  | none => .number 0

end Verif.Setpos
