import Verif.Common.Decimal

/-!
Integer literals in expressions: what is made of them (common/visitor.py 44-48, expression.py 746-753, 1061-1070), with the integer
constants of C99 6.4.4.1 as specification.
-/

namespace Verif.Lit

/-! ### The literals of the grammar -/

def digit (c : Char) : Bool := 48 ≤ c.toNat && c.toNat ≤ 57
def octal (c : Char) : Bool := 48 ≤ c.toNat && c.toNat ≤ 55
def hexLetter (c : Char) : Bool := (65 ≤ c.toNat && c.toNat ≤ 70) || (97 ≤ c.toNat && c.toNat ≤ 102)
def hex (c : Char) : Bool := digit c || hexLetter c

/-- The number a digit stands for. -/
def digitVal (c : Char) : Nat :=
  if digit c then c.toNat - 48 else if c.toNat ≤ 70 then c.toNat - 55 else c.toNat - 87

/-- `IntegerSuffix` (c99.g4 173-180), which are the suffixes of C99 6.4.4.1. -/
def suffixes : List (List Char) :=
  [['u'], ['U'], ['l'], ['L'], ['l', 'l'], ['L', 'L']] ++
    (['u', 'U'].flatMap fun u => [['l'], ['L'], ['l', 'l'], ['L', 'L']].flatMap fun l => [u :: l, l ++ [u]])

/-- Digits, at least one, and possibly a suffix. -/
def body (p : Char → Bool) (cs : List Char) : Bool :=
  cs.takeWhile p ≠ [] && (cs.dropWhile p = [] || (cs.dropWhile p) ∈ suffixes)

/-- The integer constants of C99 6.4.4.1, and their values. -/
def cInt (cs : List Char) : Option Nat :=
  match cs with
  | '0' :: c :: ds =>
    if c = 'x' ∨ c = 'X' then
      if body hex ds then some ((ds.takeWhile hex).foldl (fun a c => 16 * a + digitVal c) 0) else none
    else if body octal cs then some ((cs.takeWhile octal).foldl (fun a c => 8 * a + digitVal c) 0) else none
  | ['0'] => some 0
  | cs => if body digit cs then some ((cs.takeWhile digit).foldl (fun a c => 10 * a + digitVal c) 0) else none

/-! ### What is made of them -/

/-- The payload of a `Value` of integer type: a number, or the text if Python cannot make a number of it. -/
inductive Pay
  | num (n : Int)
  | txt (cs : List Char)
  deriving DecidableEq, Repr

/-- `Value.int` of the text of a literal (expression.py 746-753): Python's `int` accepts decimal digits, leading zeros or not, and
none of the other texts of the grammar. The literal `0` has a token of its own (visitor.py 47-48) with the same result. -/
def literal (cs : List Char) : Pay :=
  if cs ≠ [] ∧ cs.all digit then .num (cs.foldl (fun a c => 10 * a + digitVal c) 0 : Nat) else .txt cs

/-- `str(value)`, as it is written to C (expression.py 702-711), of payloads that are not negative. -/
def Pay.print : Pay → List Char
  | .num n => if n < 0 then '-' :: decimal n.natAbs else decimal n.natAbs
  | .txt cs => cs

/-- Exceptions. -/
inductive Err
  | typeError
  deriving DecidableEq, Repr

/-- `Value.__add__` of two constants of integer type (expression.py 840-852): Python's `+` on the payloads, which concatenates
texts. (The sum of texts is then taken for an identifier, 642-643, which is not followed further: only one operation is considered.) -/
def Pay.add : Pay → Pay → Except Err Pay
  | a, b =>
    if a = .num 0 then .ok b else if b = .num 0 then .ok a
    else match a, b with
      | .num m, .num n => .ok (.num (m + n))
      | .txt s, .txt t => .ok (.txt (s ++ t))
      | _, _ => .error .typeError

/-- `Value.__mul__` (870-885): a text times a number is repeated. -/
def Pay.mul : Pay → Pay → Except Err Pay
  | a, b =>
    if a = .num 0 ∨ b = .num 0 then .ok (.num 0)
    else if a = .num 1 then .ok b
    else if a = .num (-1) then neg b
    else if b = .num 1 then .ok a
    else if b = .num (-1) then neg a
    else match a, b with
      | .num m, .num n => .ok (.num (m * n))
      | .num m, .txt s => .ok (.txt (List.replicate m.toNat s).flatten)
      | .txt s, .num m => .ok (.txt (List.replicate m.toNat s).flatten)
      | .txt _, .txt _ => .error .typeError
where
  /-- `Value.__neg__` (917-918): texts have no opposite. -/
  neg : Pay → Except Err Pay
    | .num n => .ok (.num (-n))
    | .txt _ => .error .typeError

end Verif.Lit
