import Verif.Expr.Props

/-!
C56: model of the evaluation of C assignments, src/mccode_antlr/translators/c_listener.py 403-455, with the visitor functions
of src/mccode_antlr/common/visitor.py 13-88 for numbers, identifiers, `+ - * /`, signs and parentheses. The statements are
given as parsed. On the other side the meaning of the statements in C: variables of type `int` or `double`, without overflow
and rounding.
-/

namespace Verif.CEval
open Verif.Ex Verif.DT

/-- A right hand side. -/
inductive CEx
  | int (n : ℤ)
  | flt (q : ℚ)
  | id (s : String)
  | add (a b : CEx)
  | sub (a b : CEx)
  | mul (a b : CEx)
  | div (a b : CEx)
  | neg (a : CEx)
  | plus (a : CEx)
  | group (a : CEx)
  deriving DecidableEq, Repr

/-- A dictionary of expressions. -/
abbrev Found := String → Option Node

/-- `EvalCVisitor.visitExpressionIdentifier` (421-427). -/
def ident (found : Found) (s : String) : Node :=
  match found s with
  | some e => e
  | none => .expr [.text s .undefined .ident]

/-- The expression made by the visitor (visitor.py 13-66). -/
def CEx.build (found : Found) : CEx → Except Err Node
  | .int n => .ok (.expr [.num (.int n) .int])
  | .flt q => .ok (.expr [.num (.flt q) .float])
  | .id s => .ok (ident found s)
  | .add a b => do pyAdd (← a.build found) (← b.build found)
  | .sub a b => do pySub (← a.build found) (← b.build found)
  | .mul a b => do pyMul (← a.build found) (← b.build found)
  | .div a b => do pyDiv (← a.build found) (← b.build found)
  | .neg a => do (← a.build found).neg
  | .plus a => a.build found
  | .group a => do
    let e ← a.build found
    .ok (.expr [← mkUn "__group__" (operands e)])

/-- `visitAssignment` (414-419): the dictionary is changed. -/
def assign (found : Found) (x : String) (a : CEx) : Except Err Found := do
  let v ← a.build found
  .ok fun s => if s = x then some v else found s

/-- The loop over the statements (441-446). -/
def run : Found → List (String × CEx) → Except Err Found
  | found, [] => .ok found
  | found, p :: l => do run (← assign found p.1 p.2) l

mutual
/-- Setting `data_type` of an operation or a value (expression.py 693-695), or of the only element of an `Expr` (1306-1310). -/
def setType (t : DataType) : Node → Except Err Node
  | .num x _ => .ok (.num x t)
  | .text s _ o => .ok (.text s t o)
  | .boxed _ es => .ok (.boxed t es)
  | .un op _ xs => .ok (.un op t xs)
  | .bin op _ ls rs => .ok (.bin op t ls rs)
  | .tri op _ fs ss ts => .ok (.tri op t fs ss ts)
  | .expr es => do .ok (.expr (← setTypeL t es))
def setTypeL (t : DataType) : List Node → Except Err (List Node)
  | [] => .error .runtimeError
  | x :: xs => match xs with
    | [] => do .ok [← setType t x]
    | _ :: _ => .error .runtimeError
end

/-- `get_found` (448-452). -/
def getFound (found : Found) (name : String) (t : DataType) : Except Err Node := do
  match ← (ident found name).simplify with
  | .expr [x] => setType t (.expr [x])
  | e => .ok e

/-- `evaluate_c_defined_variables` (430-454): the dictionary `known` as it is left, and the result for each variable. -/
def evaluate (vars : List (String × DataType)) (prog : List (String × CEx)) (known : Found) :
    Except Err (Found × List (String × Node)) := do
  let found ← run known prog
  .ok (found, ← vars.mapM fun v => do .ok (v.1, ← getFound found v.1 v.2))

/-! ### The meaning in C -/

inductive CType
  | int
  | double
  deriving DecidableEq, Repr

/-- The type of the result of an operation. -/
def CType.join : CType → CType → CType
  | .int, .int => .int
  | _, _ => .double

/-- The type of an expression. -/
def CEx.ctype (Γ : String → CType) : CEx → CType
  | .int _ => .int
  | .flt _ => .double
  | .id s => Γ s
  | .add a b => (a.ctype Γ).join (b.ctype Γ)
  | .sub a b => (a.ctype Γ).join (b.ctype Γ)
  | .mul a b => (a.ctype Γ).join (b.ctype Γ)
  | .div a b => (a.ctype Γ).join (b.ctype Γ)
  | .neg a => a.ctype Γ
  | .plus a => a.ctype Γ
  | .group a => a.ctype Γ

/-- Conversion to `int`: towards zero. -/
def trunc (q : ℚ) : ℚ := ((q.num.tdiv q.den : ℤ) : ℚ)

/-- Conversion of a value to a type. -/
def CType.convert : CType → ℚ → ℚ
  | .int, q => trunc q
  | .double, q => q

/-- The value of an expression; dividing by zero is undefined. -/
def CEx.value (Γ : String → CType) (σ : String → ℚ) : CEx → Option ℚ
  | .int n => some n
  | .flt q => some q
  | .id s => some (σ s)
  | .add a b => do some ((← a.value Γ σ) + (← b.value Γ σ))
  | .sub a b => do some ((← a.value Γ σ) - (← b.value Γ σ))
  | .mul a b => do some ((← a.value Γ σ) * (← b.value Γ σ))
  | .div a b => do
    let x ← a.value Γ σ
    let y ← b.value Γ σ
    if y = 0 then none else some (((a.ctype Γ).join (b.ctype Γ)).convert (x / y))
  | .neg a => do some (- (← a.value Γ σ))
  | .plus a => a.value Γ σ
  | .group a => a.value Γ σ

/-- The statements, run one after the other. -/
def exec (Γ : String → CType) : (String → ℚ) → List (String × CEx) → Option (String → ℚ)
  | σ, [] => some σ
  | σ, p :: l => do
    let v ← p.2.value Γ σ
    exec Γ (fun s => if s = p.1 then (Γ p.1).convert v else σ s) l

end Verif.CEval
