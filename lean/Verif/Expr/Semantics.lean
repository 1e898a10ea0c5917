import Verif.Expr.Model

/-!
The meaning of an expression: an independent specification, used to state properties C09-C13.

A value is a number or a text. An assignment gives a value to some identifiers and interprets every operation
other than `+ - * /`, unary minus, grouping and the conditional; such an operation is undefined if an argument is.
-/

namespace Verif.Ex
open Verif.DT

inductive Base
  | num (q : ℚ)
  | text (s : String)
  deriving DecidableEq, Repr

/-- An assignment of identifiers, and a meaning for all the other operations (functions, powers, comparisons,
structure and array access, ...). -/
structure Env where
  var : String → Option Base
  fn1 : String → List Base → Option Base
  fn2 : String → List Base → List Base → Option Base

/-- Arithmetic on numbers; division by zero is undefined. -/
def arith (op : String) (a b : ℚ) : Option ℚ :=
  if op = "+" then some (a + b)
  else if op = "-" then some (a - b)
  else if op = "*" then some (a * b)
  else if b = 0 then none else some (a / b)

/-- A binary operation applied to the values of its operands. -/
def apply2 (ρ : Env) (op : String) (ls rs : List Base) : Option Base :=
  if op = "+" ∨ op = "-" ∨ op = "*" ∨ op = "/" then
    match ls, rs with
    | [.num a], [.num b] => (arith op a b).map .num
    | _, _ => none
  else ρ.fn2 op ls rs

/-- A unary operation applied to the values of its operands. -/
def apply1 (ρ : Env) (op : String) (xs : List Base) : Option Base :=
  if op = "-" then
    match xs with
    | [.num a] => some (.num (-a))
    | _ => none
  else if op = "__group__" then
    match xs with
    | [v] => some v
    | _ => none
  else ρ.fn1 op xs

/-- The conditional chooses one of its branches. -/
def choose (op : String) (f : Option Base) (s t : Option Base) : Option Base :=
  if op = "__trinary__" then
    match f with
    | some (.num c) => if c = 0 then t else s
    | _ => none
  else none

/-- The value of a one-element list. -/
def only : Option (List Base) → Option Base
  | some [v] => some v
  | _ => none

mutual
/-- The value of an expression under an assignment, if it has one. -/
def Node.den (ρ : Env) : Node → Option Base
  | .num x _ => some (.num x.toRat)
  | .text s _ o => if o = .ident ∨ o = .param then ρ.var s else some (.text s)
  | .boxed _ es => only (denL ρ es)
  | .un op _ xs => (denL ρ xs).bind (apply1 ρ op)
  | .bin op _ ls rs => (denL ρ ls).bind fun a => (denL ρ rs).bind (apply2 ρ op a)
  | .tri op _ fs ss ts => choose op (only (denL ρ fs)) (only (denL ρ ss)) (only (denL ρ ts))
  | .expr es => only (denL ρ es)
def denL (ρ : Env) : List Node → Option (List Base)
  | [] => some []
  | x :: xs => (x.den ρ).bind fun v => (denL ρ xs).map (v :: ·)
end

/-- `b` is at least as defined as `a`, and agrees with it where that is defined. -/
def Le {α : Type} (a b : Option α) : Prop := ∀ v, a = some v → b = some v

end Verif.Ex
