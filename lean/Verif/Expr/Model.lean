import Verif.DataType.Model
import Mathlib.Data.Rat.Defs
import Mathlib.Algebra.Order.Ring.Rat
import Mathlib.Algebra.Field.Rat

/-!
Model of expressions: `Value`, `UnaryOp`, `BinaryOp`, `TrinaryOp`, `Expr`
(src/mccode_antlr/common/expression.py, lines 186-1339).

Simplifications:
* floating point numbers are exact rationals;
* vector values (`Value.array`, initialiser lists), the shape type and the value `None` are left out;
* arithmetic between Python strings (which can only be reached by folding function names or badly typed text)
  is the error `notModelled`;
* objects are immutable here: `verify_parameters`, which changes leaves in place, is a function returning the
  changed tree.

`Value.best(x)` applied to an `Expr` (which happens when an `Expr` is nested as an operand) makes a `Value` whose
payload is the whole `Expr`; this is the constructor `boxed`.
-/

namespace Verif.Ex
open Verif.DT

/-- The exceptions raised by the modelled code. -/
inductive Err
  | attributeError
  | runtimeError
  | typeError
  | notModelled
  deriving DecidableEq, Repr

/-- A Python number. -/
inductive Num
  | int (n : ℤ)
  | flt (q : ℚ)
  deriving DecidableEq, Repr

def Num.toRat : Num → ℚ
  | .int n => n
  | .flt q => q

/-- Python `+`/`-` on numbers. -/
def Num.addSub (plus : Bool) : Num → Num → Num
  | .int a, .int b => .int (if plus then a + b else a - b)
  | a, b => .flt (if plus then a.toRat + b.toRat else a.toRat - b.toRat)

/-- Python `*`. -/
def Num.mul : Num → Num → Num
  | .int a, .int b => .int (a * b)
  | a, b => .flt (a.toRat * b.toRat)

/-- Python `/` (only used with a non-zero divisor). -/
def Num.div (a b : Num) : Num := .flt (a.toRat / b.toRat)

/-- Python unary minus. -/
def Num.neg : Num → Num
  | .int n => .int (-n)
  | .flt q => .flt (-q)

/-- expression.py 37-42, without `initializer_list`. -/
inductive Obj
  | value
  | ident
  | func
  | param
  deriving DecidableEq, Repr

/-- The nodes of an expression: a `Value` holding a number, a `Value` holding a Python string (a string constant,
an identifier, a parameter or a function name), a `Value` holding an `Expr`, the operations, and `Expr` itself. -/
inductive Node
  | num (x : Num) (dt : DataType)
  | text (s : String) (dt : DataType) (o : Obj)
  | boxed (dt : DataType) (es : List Node)
  | un (op : String) (dt : DataType) (xs : List Node)
  | bin (op : String) (dt : DataType) (ls rs : List Node)
  | tri (op : String) (dt : DataType) (fs ss ts : List Node)
  | expr (es : List Node)

instance : Inhabited Node := ⟨.num (.int 0) .int⟩

/-- `isinstance(x, Value)` -/
def Node.isVal : Node → Bool
  | .num .. => true
  | .text .. => true
  | .boxed .. => true
  | _ => false

/-- expression.py 782-784 and 206-207, 1107-1108: `is_id`. -/
def Node.isId : Node → Bool
  | .text _ _ .ident => true
  | .text _ _ .param => true
  | .expr [.text _ _ .ident] => true
  | .expr [.text _ _ .param] => true
  | _ => false

/-- 203-204, 1099-1100: `is_op` -/
def Node.isOp : Node → Bool
  | .un .. => true
  | .bin .. => true
  | .tri .. => true
  | .expr [.un ..] => true
  | .expr [.bin ..] => true
  | .expr [.tri ..] => true
  | _ => false

/-- 210-211, 786-788, 1137-1138: `is_constant`. -/
def Node.isConstant : Node → Bool
  | .num .. => true
  | .text _ _ o => o = .value ∨ o = .func
  | .boxed .. => true
  | .expr [.num ..] => true
  | .expr [.text _ _ o] => o = .value ∨ o = .func
  | .expr [.boxed ..] => true
  | _ => false

mutual
/-- `is_value(v)` for a number `v` (220-221, 819-820, 1122-1123), and `x == v` for a number `v` (458-460, 577-579,
930-934, 1204-1212), which is the same. -/
def Node.isValue (v : ℚ) : Node → Bool
  | .num x _ => x.toRat = v
  | .text .. => false
  | .boxed _ es => isValueL v es
  | .un .. => false
  | .bin .. => false
  | .tri .. => false
  | .expr es => isValueL v es
/-- The same for the list inside an `Expr`: it must hold exactly one node. -/
def isValueL (v : ℚ) : List Node → Bool
  | [] => false
  | x :: xs => match xs with
    | [] => x.isValue v
    | _ :: _ => false
end

/-- Python `s.strip('"')` is empty exactly if the string has only double quotes. -/
def blank (s : String) : Bool := s.toList.all (· == '"')

mutual
/-- 203-204, 811-817, 1103-1104: `is_zero`. A number with the data type `str` has no `strip`. -/
def Node.isZero : Node → Except Err Bool
  | .num x dt => if dt = .str then .error .attributeError else .ok (x.toRat = 0)
  | .text s dt o =>
    match o with
    | .value => .ok (decide (dt = .str) && blank s)
    | _ => .ok false
  | .boxed dt es => if dt = .str then .error .attributeError else .ok (isValueL 0 es)
  | .un .. => .ok false
  | .bin .. => .ok false
  | .tri .. => .ok false
  | .expr es => isZeroL es
def isZeroL : List Node → Except Err Bool
  | [] => .ok false
  | x :: xs => match xs with
    | [] => x.isZero
    | _ :: _ => .ok false
end

mutual
/-- The `data_type` attribute; an `Expr` of several elements has none (1277-1280). -/
def Node.dataType : Node → Except Err DataType
  | .num _ dt => .ok dt
  | .text _ dt _ => .ok dt
  | .boxed dt _ => .ok dt
  | .un _ dt _ => .ok dt
  | .bin _ dt _ _ => .ok dt
  | .tri _ dt _ _ _ => .ok dt
  | .expr es => dataTypeL es
def dataTypeL : List Node → Except Err DataType
  | [] => .error .runtimeError
  | x :: xs => match xs with
    | [] => x.dataType
    | _ :: _ => .error .runtimeError
end

/-- 397-402, 548-550: the one data type of a list of operands, a `RuntimeError` if there is not exactly one. -/
def uniqueType (xs : List Node) : Except Err DataType := do
  match ← xs.mapM Node.dataType with
  | [] => .error .runtimeError
  | t :: ts => if ts.all (· = t) then .ok t else .error .runtimeError

/-- 394-395: the operations whose type is never computed. -/
def untyped (op : String) : Bool :=
  op = "__call__" || op = "__struct_access__" || op = "__pointer_access__" || op = "__getitem__"

/-- 537-552: `UnaryOp(op, [..])`. -/
def mkUn (op : String) (xs : List Node) : Except Err Node := do
  .ok (.un op (← uniqueType xs) xs)

/-- 383-404: `BinaryOp(op, [..], [..])`. -/
def mkBin (op : String) (ls rs : List Node) : Except Err Node := do
  if untyped op then .ok (.bin op .undefined ls rs)
  else
    let a ← uniqueType ls
    let b ← uniqueType rs
    .ok (.bin op (a.add b) ls rs)

/-- 294-313: `TrinaryOp(op, [..], [..], [..])`. -/
def mkTri (op : String) (fs ss ts : List Node) : Except Err Node := do
  let a ← uniqueType ss
  let b ← uniqueType ts
  .ok (.tri op (a.add b) fs ss ts)

/-- 386-392: an operand given as an `Expr` is replaced by its list, any other node by a one-element list. -/
def operands : Node → List Node
  | .expr es => es
  | x => [x]

mutual
/-- `as_type` (315-319, 406-409, 554-556, 837-838); `Expr` has no such method. -/
def Node.asType (t : DataType) : Node → Except Err Node
  | .num x _ => .ok (.num x t)
  | .text s _ o => .ok (.text s t o)
  | .boxed _ es => .ok (.boxed t es)
  | .un op _ xs => do mkUn op (← asTypeL t xs)
  | .bin op _ ls rs => do mkBin op (← asTypeL t ls) (← asTypeL t rs)
  | .tri op _ fs ss ts => do mkTri op (← asTypeL t fs) (← asTypeL t ss) (← asTypeL t ts)
  | .expr _ => .error .attributeError
def asTypeL (t : DataType) : List Node → Except Err (List Node)
  | [] => .ok []
  | x :: xs => do .ok ((← x.asType t) :: (← asTypeL t xs))
end

mutual
/-- Unary minus (280-281, 571-575, 917-918, 1192-1193). The negation of a `-[a, b]` with several elements is a bare
list, which is not modelled. -/
def Node.neg : Node → Except Err Node
  | .num x dt => if dt = .str then mkUn "-" [.num x dt] else .ok (.num x.neg dt)
  | .text s dt o =>
    if o = .ident ∨ o = .param ∨ dt = .str then mkUn "-" [.text s dt o] else .error .typeError
  | .boxed dt es => if dt = .str then mkUn "-" [.boxed dt es] else do .ok (.boxed dt (← negL es))
  | .un op dt xs =>
    if op = "-" then
      match xs with
      | [x] => .ok x
      | _ => .error .notModelled
    else mkUn "-" [.un op dt xs]
  | .bin op dt ls rs => mkUn "-" [.bin op dt ls rs]
  | .tri op dt fs ss ts => mkUn "-" [.tri op dt fs ss ts]
  | .expr es => do .ok (.expr (← negL es))
def negL : List Node → Except Err (List Node)
  | [] => .ok []
  | x :: xs => do .ok ((← x.neg) :: (← negL xs))
end

/-- 772-780: `Value.best` of a number. -/
def best (x : Num) : Node :=
  match x with
  | .int n => .num (.int n) .int
  | .flt q => if q.den = 1 then .num (.flt q) .int else .num (.flt q) .float

/-- `other if isinstance(other, (Value, Op)) else Value.best(other)` (e.g. 841). -/
def coerce : Node → Node
  | .expr es => .boxed .float es
  | x => x

mutual
/-- The truth value of `x < 0` (936-940, 1214-1222): comparing an identifier yields an operation, which is truthy;
comparing an operation or a string is a `TypeError`. -/
def Node.ltZero : Node → Except Err Bool
  | .num x _ => .ok (x.toRat < 0)
  | .text _ _ o => if o = .ident ∨ o = .param then .ok true else .error .typeError
  | .boxed _ es => ltZeroL es
  | .un .. => .error .typeError
  | .bin .. => .error .typeError
  | .tri .. => .error .typeError
  | .expr es => ltZeroL es
def ltZeroL : List Node → Except Err Bool
  | [] => .ok false
  | x :: xs => match xs with
    | [] => x.ltZero
    | _ :: _ => .ok false
end

/-- `other.expr[0] if (isinstance(other, Expr) and len(other.expr) == 1) else other` (1158-1161). -/
def prep : Node → Node
  | .expr [x] => x
  | x => x

/-- The other sign. -/
def flipSign : Bool → Bool := not

/-- `+` or `-`. -/
def signOp (plus : Bool) : String := if plus then "+" else "-"

/-- A test of 844-849: does `other` make the rule `self + (-n) → self - n` apply, i.e. is it a `Value` whose payload is
not a string and `other < 0`? -/
def negativeValue : Node → Except Err Bool
  | .num x dt => (Node.num x dt).ltZero
  | .boxed dt es => (Node.boxed dt es).ltZero
  | _ => .ok false

/-- `-other.value` followed by `Value.best` (848-849, 841). -/
def negatedPayload : Node → Except Err Node
  | .num x _ => .ok (best x.neg)
  | .boxed _ es => do .ok (.boxed .float (← negL es))
  | _ => .error .notModelled

/-- The one element inside an `Expr` operand of an arithmetic operator (1156-1157). -/
def single : List Node → Except Err Node
  | [x] => .ok x
  | _ => .error .runtimeError

/-- `Value(self.value OP other.value, t)` (853, 868, 885, 900): numbers are combined; if a payload is an `Expr`, the
operators of `Expr` are used (1168-1190), through `rec`. An operation combined with a bare number is an
`AttributeError` (e.g. 234: the number has no `is_zero`). -/
def foldPayload (rec : Node → Node → Except Err Node) (f : Num → Num → Num) (t : DataType) (l r : Node) :
    Except Err Node :=
  match l, r with
  | .num x _, .num y _ => .ok (.num (f x y) t)
  | .num x _, .boxed _ es => do .ok (.boxed t [← rec (best x) (← single es)])
  | .boxed _ es, .num y _ => do
    let e ← single es
    if e.isOp then .error .attributeError else .ok (.boxed t [← rec e (best y)])
  | .boxed _ es, .boxed _ fs => do .ok (.boxed t [← rec (← single es) (prep (.expr fs))])
  | _, _ => .error .notModelled

/-- `isinstance(other, UnaryOp) and other.op == '-' and len(other.value) == 1`, returning `other.value[0]`
(846-847). -/
def negated : Node → Option Node
  | .un "-" _ [x] => some x
  | _ => none

/-- `Value.__add__` and `Value.__sub__` (840-868); `rec` is the recursive use of the operators. -/
def valAddSub (rec : Bool → Node → Node → Except Err Node) (plus : Bool) (l other : Node) : Except Err Node := do
  let r := coerce other
  if ← l.isZero then (if plus then .ok r else r.neg)
  else if ← r.isZero then .ok l
  else
    match negated r with
    | some x => rec (flipSign plus) l x
    | none =>
      let negative ← (if l.isId then negativeValue r else .ok false)
      if negative then rec (flipSign plus) l (← negatedPayload r)
      else if r.isOp || l.isId || r.isId then mkBin (signOp plus) [l] [r]
      else
        let t := (← l.dataType).add (← r.dataType)
        if t = .str then mkBin (signOp plus) [l] [r]
        else foldPayload (rec plus) (Num.addSub plus) t l r

/-- `Op.__add__` and `Op.__sub__` (233-241). -/
def opAddSub (plus : Bool) (l r : Node) : Except Err Node := do
  if ← r.isZero then .ok l else mkBin (signOp plus) [l] (operands r)

/-- Python `l + r` or `l - r` on nodes; for an `Expr` see 1168-1172. The recursion is bounded by `fuel`. -/
def addSub (fuel : Nat) (plus : Bool) (l r : Node) : Except Err Node :=
  match fuel with
  | 0 => .error .notModelled
  | fuel + 1 =>
    match l with
    | .expr es => do .ok (.expr [← addSub fuel plus (← single es) (prep r)])
    | l => if l.isVal then valAddSub (addSub fuel) plus l r else opAddSub plus l r

/-- `Value.__mul__` (870-885). -/
def valMul (rec : Node → Node → Except Err Node) (l other : Node) : Except Err Node := do
  let r := coerce other
  let t := (← l.dataType).add (← r.dataType)
  if ← l.isZero then .ok (.num (.int 0) (if t = .str then .int else t))
  else if ← r.isZero then .ok (.num (.int 0) (if t = .str then .int else t))
  else if l.isValue 1 then r.asType t
  else if l.isValue (-1) then (← r.neg).asType t
  else if r.isValue 1 then l.asType t
  else if r.isValue (-1) then (← l.neg).asType t
  else if r.isOp || l.isId || r.isId then mkBin "*" [l] [r]
  else if t = .str then mkBin "*" [l] [r]
  else foldPayload rec Num.mul t l r

/-- `Op.__mul__` (243-250). -/
def opMul (l r : Node) : Except Err Node := do
  if ← r.isZero then .ok r
  else if r.isValue 1 then .ok l
  else if r.isValue (-1) then l.neg
  else mkBin "*" [l] (operands r)

/-- Python `l * r`; for an `Expr` see 1174. -/
def mul (fuel : Nat) (l r : Node) : Except Err Node :=
  match fuel with
  | 0 => .error .notModelled
  | fuel + 1 =>
    match l with
    | .expr es => do .ok (.expr [← mul fuel (← single es) (prep r)])
    | l => if l.isVal then valMul (mul fuel) l r else opMul l r

/-- The data type of a quotient (135-138). -/
def divType (a b : DataType) : Except Err DataType :=
  match a.truediv b with
  | some t => .ok t
  | none => .error .runtimeError

/-- `Value.__truediv__` (887-900). -/
def valDiv (rec : Node → Node → Except Err Node) (l other : Node) : Except Err Node := do
  let r := coerce other
  let t ← divType (← l.dataType) (← r.dataType)
  if ← l.isZero then .ok (.num (.int 0) (if t = .str then .int else t))
  else if r.isValue 1 then l.asType t
  else if r.isValue (-1) then (← l.neg).asType t
  else if ← r.isZero then .error .runtimeError
  else if r.isOp || l.isId || r.isId then mkBin "/" [l] [r]
  else if t = .str then mkBin "/" [l] [r]
  else foldPayload rec Num.div t l r

/-- `Op.__truediv__` (252-259). -/
def opDiv (l r : Node) : Except Err Node := do
  if ← r.isZero then .error .runtimeError
  else if r.isValue 1 then .ok l
  else if r.isValue (-1) then l.neg
  else mkBin "/" [l] (operands r)

/-- Python `l / r`; for an `Expr` see 1176-1177. -/
def truediv (fuel : Nat) (l r : Node) : Except Err Node :=
  match fuel with
  | 0 => .error .notModelled
  | fuel + 1 =>
    match l with
    | .expr es => do .ok (.expr [← truediv fuel (← single es) (prep r)])
    | l => if l.isVal then valDiv (truediv fuel) l r else opDiv l r

mutual
/-- The number of nodes, used as fuel. -/
def Node.size : Node → Nat
  | .num .. => 1
  | .text .. => 1
  | .boxed _ es => 1 + sizeL es
  | .un _ _ xs => 1 + sizeL xs
  | .bin _ _ ls rs => 1 + sizeL ls + sizeL rs
  | .tri _ _ fs ss ts => 1 + sizeL fs + sizeL ss + sizeL ts
  | .expr es => 1 + sizeL es
def sizeL : List Node → Nat
  | [] => 0
  | x :: xs => x.size + sizeL xs
end

/-- Enough recursion for any pair of operands. -/
def enough (l r : Node) : Nat := 4 * (l.size + r.size) + 8

/-- `l + r`, `l - r`, `l * r`, `l / r` in Python. -/
def pyAdd (l r : Node) : Except Err Node := addSub (enough l r) true l r
def pySub (l r : Node) : Except Err Node := addSub (enough l r) false l r
def pyMul (l r : Node) : Except Err Node := mul (enough l r) l r
def pyDiv (l r : Node) : Except Err Node := truediv (enough l r) l r

/-- 960-967: `l ** r`; operations have no `__pow__`. -/
def pyPow (l r : Node) : Except Err Node :=
  match l with
  | .expr es => do
    let e ← single es
    match e with
    | .num .. | .text .. | .boxed .. => do .ok (.expr [← pyPowValue e (prep r)])
    | _ => .error .typeError
  | .num .. | .text .. | .boxed .. => pyPowValue l r
  | _ => .error .typeError
where
  pyPowValue (l r : Node) : Except Err Node := do
    let r := coerce r
    if ← l.isZero then .ok l
    else if l.isValue 1 then .ok l
    else if ← r.isZero then .ok (.num (.int 1) (← l.dataType))
    else mkBin "__pow__" [l] [r]

/-- 608-610 -/
def simplifyUn (op : String) (xs : List Node) : Except Err Node :=
  match xs with
  | [x] => if op = "__group__" ∧ x.isVal then .ok x else mkUn op [x]
  | xs => mkUn op xs

/-- 497: `len(left) == 1 and ((left[0].is_zero and op == '+') or (left[0].is_value(1) and op == '*'))` -/
def neutralLeft (op : String) (ls : List Node) : Except Err Bool :=
  match ls with
  | [l] => do .ok (((← l.isZero) && op == "+") || (l.isValue 1 && op == "*"))
  | _ => .ok false

/-- 499-502 -/
def neutralRight (op : String) (rs : List Node) : Except Err Bool :=
  match rs with
  | [r] => do .ok (((← r.isZero) && (op == "+" || op == "-")) || (r.isValue 1 && (op == "*" || op == "/")))
  | _ => .ok false

/-- 497-515 -/
def simplifyBin (op : String) (ls rs : List Node) : Except Err Node := do
  if ← neutralLeft op ls then .ok (.expr rs)
  else if ← neutralRight op rs then .ok (.expr ls)
  else
    match ls, rs with
    | [l], [r] =>
      if l.isConstant && r.isConstant then
        if op = "+" then pyAdd l r
        else if op = "-" then pySub l r
        else if op = "*" then pyMul l r
        else if op = "/" then pyDiv l r
        else mkBin op [l] [r]
      else mkBin op [l] [r]
    | ls, rs => mkBin op ls rs

/-- 356-361 (`is_value(True)` is `is_value(1)`, `is_value(False)` is `is_value(0)`) -/
def simplifyTri (op : String) (fs ss ts : List Node) : Except Err Node :=
  match fs with
  | [f] =>
    if op = "__trinary__" then
      if f.isValue 1 && !f.isValue 0 then .ok (.expr ss)
      else if f.isValue 0 && !f.isValue 1 then .ok (.expr ts)
      else mkTri op [f] ss ts
    else mkTri op [f] ss ts
  | fs => mkTri op fs ss ts

mutual
/-- `simplify` (354-361, 494-515, 606-610, 987-988, 1297-1299). -/
def Node.simplify : Node → Except Err Node
  | .num x dt => .ok (.num x dt)
  | .text s dt o => .ok (.text s dt o)
  | .boxed dt es => .ok (.boxed dt es)
  | .un op _ xs => do simplifyUn op (← simplifyL xs)
  | .bin op _ ls rs => do simplifyBin op (← simplifyL ls) (← simplifyL rs)
  | .tri op _ fs ss ts => do simplifyTri op (← simplifyL fs) (← simplifyL ss) (← simplifyL ts)
  | .expr es => do .ok (.expr (← simplifyL es))
def simplifyL : List Node → Except Err (List Node)
  | [] => .ok []
  | x :: xs => do .ok ((← x.simplify) :: (← simplifyL xs))
end

/-- The dictionary given to `evaluate`: its values are `Expr` objects, lists of nodes. -/
abbrev Known := String → Option (List Node)

/-- 990-996: an identifier is replaced if it is known. -/
def lookupKnown (known : Known) (s : String) (dt : DataType) (o : Obj) : Node :=
  if o = .ident ∨ o = .param then
    match known s with
    | some [x] => x
    | some es => .expr es
    | none => .text s dt o
  else .text s dt o

mutual
/-- `evaluate` (363-365, 517-519, 612-614, 990-996, 1301-1302). -/
def Node.evaluate (known : Known) : Node → Except Err Node
  | .num x dt => .ok (.num x dt)
  | .text s dt o => .ok (lookupKnown known s dt o)
  | .boxed dt es => .ok (.boxed dt es)
  | .un op _ xs => do (← mkUn op (← evaluateL known xs)).simplify
  | .bin op _ ls rs => do (← mkBin op (← evaluateL known ls) (← evaluateL known rs)).simplify
  | .tri op _ fs ss ts => do
    (← mkTri op (← evaluateL known fs) (← evaluateL known ss) (← evaluateL known ts)).simplify
  | .expr es => do (Node.expr (← evaluateL known es)).simplify
def evaluateL (known : Known) : List Node → Except Err (List Node)
  | [] => .ok []
  | x :: xs => do .ok ((← x.evaluate known) :: (← evaluateL known xs))
end

mutual
/-- `depends_on` (367-368, 521-522, 616-617, 998-999, 1304-1305). -/
def Node.dependsOn (name : String) : Node → Bool
  | .num .. => false
  | .text s _ o => (o = .ident ∨ o = .param) ∧ s = name
  | .boxed .. => false
  | .un _ _ xs => dependsOnL name xs
  | .bin _ _ ls rs => dependsOnL name ls || dependsOnL name rs
  | .tri _ _ fs ss ts => dependsOnL name fs || dependsOnL name ss || dependsOnL name ts
  | .expr es => dependsOnL name es
def dependsOnL (name : String) : List Node → Bool
  | [] => false
  | x :: xs => x.dependsOn name || dependsOnL name xs
end

mutual
/-- `verify_parameters` (377-380, 531-534, 626-628, 1014-1016, 1310-1312), as a function. -/
def Node.verify (names : List String) : Node → Node
  | .num x dt => .num x dt
  | .text s dt o => .text s dt (if (o = .ident ∨ o = .param) ∧ s ∈ names then .param else o)
  | .boxed dt es => .boxed dt es
  | .un op dt xs => .un op dt (verifyL names xs)
  | .bin op dt ls rs => .bin op dt (verifyL names ls) (verifyL names rs)
  | .tri op dt fs ss ts => .tri op dt (verifyL names fs) (verifyL names ss) (verifyL names ts)
  | .expr es => .expr (verifyL names es)
def verifyL (names : List String) : List Node → List Node
  | [] => []
  | x :: xs => x.verify names :: verifyL names xs
end

end Verif.Ex
