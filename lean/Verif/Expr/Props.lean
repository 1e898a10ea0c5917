import Verif.Expr.Simplify
import Verif.Expr.Progress

/-! Properties C09-C12 and C61: the value of expressions. The meaning `Node.den` is in Verif/Expr/Semantics.lean. -/

namespace Verif.Ex
open Verif.DT

/-! ### C09: building expressions with operators -/

/-- What a user writes in Python: numbers, identifiers and the operators. -/
inductive Arith
  | int (n : ℤ)
  | float (q : ℚ)
  | id (s : String)
  | add (a b : Arith)
  | sub (a b : Arith)
  | mul (a b : Arith)
  | div (a b : Arith)
  | neg (a : Arith)
  deriving DecidableEq, Repr

/-- The number it stands for (undefined if something is divided by zero). -/
def Arith.value (σ : String → ℚ) : Arith → Option ℚ
  | .int n => some n
  | .float q => some q
  | .id s => some (σ s)
  | .add a b => do some ((← a.value σ) + (← b.value σ))
  | .sub a b => do some ((← a.value σ) - (← b.value σ))
  | .mul a b => do some ((← a.value σ) * (← b.value σ))
  | .div a b => do
    let x ← a.value σ
    let y ← b.value σ
    if y = 0 then none else some (x / y)
  | .neg a => do some (- (← a.value σ))

/-- The object Python computes for it, from `Expr.int(n)`, `Expr.float(q)`, `Expr.id(s)`
(expression.py 1051-1093) with the operators of `Expr` (1168-1193). -/
def Arith.build : Arith → Except Err Node
  | .int n => .ok (.expr [.num (.int n) .int])
  | .float q => .ok (.expr [.num (.flt q) .float])
  | .id s => .ok (.expr [.text s .undefined .ident])
  | .add a b => do pyAdd (← a.build) (← b.build)
  | .sub a b => do pySub (← a.build) (← b.build)
  | .mul a b => do pyMul (← a.build) (← b.build)
  | .div a b => do pyDiv (← a.build) (← b.build)
  | .neg a => do (← a.build).neg

/-- The assignment `σ` of numbers to identifiers; the meaning of other operations is arbitrary. -/
def Env.ofNumbers (σ : String → ℚ) (fn1 : String → List Base → Option Base)
    (fn2 : String → List Base → List Base → Option Base) : Env :=
  { var := fun s => some (.num (σ s)), fn1 := fn1, fn2 := fn2 }

theorem enough_bound (l r : Node) : ∃ k, enough (.expr [l]) (.expr [r]) = k + 1 ∧ steps r + 1 ≤ k := by
  refine ⟨4 * ((Node.expr [l]).size + (Node.expr [r]).size) + 7, rfl, ?_⟩
  have : steps r ≤ r.size + 1 := by
    unfold steps; split
    · split <;> omega
    · omega
  simp only [Node.size, sizeL]
  omega

theorem add_expr_plain (plus : Bool) (l r : Node) (hl : l.plain = true) (hr : r.plain = true) :
    ∃ n, addSub (enough (.expr [l]) (.expr [r])) plus (.expr [l]) (.expr [r]) = .ok (.expr [n]) ∧
      n.plain = true := by
  obtain ⟨k, hk, hs⟩ := enough_bound l r
  obtain ⟨n, h1, h2⟩ := addSub_plain k plus l r hl hr hs
  exact ⟨n, by rw [hk]; simp [addSub, single, prep, bind, Except.bind, h1], h2⟩

theorem mul_expr_plain (l r : Node) (hl : l.plain = true) (hr : r.plain = true) :
    ∃ n, pyMul (.expr [l]) (.expr [r]) = .ok (.expr [n]) ∧ n.plain = true := by
  obtain ⟨k, hk, hs⟩ := enough_bound l r
  obtain ⟨n, h1, h2⟩ := mul_plain k l r hl hr (by omega)
  exact ⟨n, by rw [pyMul, hk]; simp [mul, single, prep, bind, Except.bind, h1], h2⟩

theorem div_expr_plain (l r : Node) (hl : l.plain = true) (hr : r.plain = true) (hz : r.isZero = .ok false) :
    ∃ n, pyDiv (.expr [l]) (.expr [r]) = .ok (.expr [n]) ∧ n.plain = true := by
  obtain ⟨k, hk, hs⟩ := enough_bound l r
  obtain ⟨n, h1, h2⟩ := truediv_plain k l r hl hr hz (by omega)
  exact ⟨n, by rw [pyDiv, hk]; simp [truediv, single, prep, bind, Except.bind, h1], h2⟩

theorem expr_den (ρ : Env) (n : Node) : (Node.expr [n]).den ρ = n.den ρ := by
  rw [Node.den, only_single]

/-- **C09**: whatever the user writes with numbers, identifiers, `+`, `-`, `*`, `/` and unary minus, if it has a
value under some assignment then Python computes an expression for it (no exception), and that expression has
the same value under the assignment. -/
theorem operators_preserve_value (σ : String → ℚ) (fn1 : String → List Base → Option Base)
    (fn2 : String → List Base → List Base → Option Base) :
    ∀ (a : Arith) (q : ℚ), a.value σ = some q →
      ∃ n, a.build = .ok (.expr [n]) ∧ n.plain = true ∧ n.den (.ofNumbers σ fn1 fn2) = some (.num q)
  | .int n, q, h => by
    simp only [Arith.value, Option.some.injEq] at h
    exact ⟨_, rfl, rfl, by rw [← h]; rfl⟩
  | .float x, q, h => by
    simp only [Arith.value, Option.some.injEq] at h
    exact ⟨_, rfl, rfl, by rw [← h]; rfl⟩
  | .id s, q, h => by
    simp only [Arith.value, Option.some.injEq] at h
    exact ⟨_, rfl, by simp [Node.plain], by rw [← h]; simp [Node.den, Env.ofNumbers]⟩
  | .add a b, q, h => by
    simp only [Arith.value, Option.bind_eq_bind, Option.bind_eq_some_iff, Option.some.injEq] at h
    obtain ⟨x, hx, y, hy, rfl⟩ := h
    obtain ⟨l, hl, pl, dl⟩ := operators_preserve_value σ fn1 fn2 a x hx
    obtain ⟨r, hr, pr, dr⟩ := operators_preserve_value σ fn1 fn2 b y hy
    obtain ⟨n, hn, pn⟩ := add_expr_plain true l r pl pr
    refine ⟨n, by simp [Arith.build, hl, hr, bind, Except.bind, pyAdd, hn], pn, ?_⟩
    have := addSub_den (.ofNumbers σ fn1 fn2) _ true _ _ _ x y hn (by rw [expr_den, dl]) (by rw [expr_den, dr])
    rw [expr_den] at this
    simpa using this
  | .sub a b, q, h => by
    simp only [Arith.value, Option.bind_eq_bind, Option.bind_eq_some_iff, Option.some.injEq] at h
    obtain ⟨x, hx, y, hy, rfl⟩ := h
    obtain ⟨l, hl, pl, dl⟩ := operators_preserve_value σ fn1 fn2 a x hx
    obtain ⟨r, hr, pr, dr⟩ := operators_preserve_value σ fn1 fn2 b y hy
    obtain ⟨n, hn, pn⟩ := add_expr_plain false l r pl pr
    refine ⟨n, by simp [Arith.build, hl, hr, bind, Except.bind, pySub, hn], pn, ?_⟩
    have := addSub_den (.ofNumbers σ fn1 fn2) _ false _ _ _ x y hn (by rw [expr_den, dl]) (by rw [expr_den, dr])
    rw [expr_den] at this
    simpa using this
  | .mul a b, q, h => by
    simp only [Arith.value, Option.bind_eq_bind, Option.bind_eq_some_iff, Option.some.injEq] at h
    obtain ⟨x, hx, y, hy, rfl⟩ := h
    obtain ⟨l, hl, pl, dl⟩ := operators_preserve_value σ fn1 fn2 a x hx
    obtain ⟨r, hr, pr, dr⟩ := operators_preserve_value σ fn1 fn2 b y hy
    obtain ⟨n, hn, pn⟩ := mul_expr_plain l r pl pr
    refine ⟨n, by simp [Arith.build, hl, hr, bind, Except.bind, hn], pn, ?_⟩
    have := mul_den (.ofNumbers σ fn1 fn2) _ _ _ _ x y hn (by rw [expr_den, dl]) (by rw [expr_den, dr])
    rwa [expr_den] at this
  | .div a b, q, h => by
    simp only [Arith.value, Option.bind_eq_bind, Option.bind_eq_some_iff] at h
    obtain ⟨x, hx, y, hy, h⟩ := h
    split at h
    · cases h
    · rename_i hy0
      simp only [Option.some.injEq] at h
      subst h
      obtain ⟨l, hl, pl, dl⟩ := operators_preserve_value σ fn1 fn2 a x hx
      obtain ⟨r, hr, pr, dr⟩ := operators_preserve_value σ fn1 fn2 b y hy
      have hz : r.isZero = .ok false := by
        obtain ⟨z, hz⟩ := plain_isZero r pr
        cases z with
        | false => exact hz
        | true => exact absurd (isZero_num _ r y hz dr) hy0
      obtain ⟨n, hn, pn⟩ := div_expr_plain l r pl pr hz
      refine ⟨n, by simp [Arith.build, hl, hr, bind, Except.bind, hn], pn, ?_⟩
      have := truediv_den (.ofNumbers σ fn1 fn2) _ _ _ _ x y hn (by rw [expr_den, dl]) (by rw [expr_den, dr]) hy0
      rwa [expr_den] at this
  | .neg a, q, h => by
    simp only [Arith.value, Option.bind_eq_bind, Option.bind_eq_some_iff, Option.some.injEq] at h
    obtain ⟨x, hx, rfl⟩ := h
    obtain ⟨l, hl, pl, dl⟩ := operators_preserve_value σ fn1 fn2 a x hx
    obtain ⟨n, hn, pn⟩ := neg_plain l pl
    refine ⟨n, by simp [Arith.build, hl, bind, Except.bind, Node.neg, negL, hn], pn, ?_⟩
    exact neg_den _ l n x hn dl

/-- The hypothesis holds, e.g., for `(x - (-3)) / (2 * x)` at `x = 5`. -/
example : (Arith.div (.sub (.id "x") (.neg (.int 3))) (.mul (.float 2) (.id "x"))).value (fun _ => 5) = some (4/5) := by
  decide +kernel

/-- **C09**, more generally: for arbitrary expressions (calls, comparisons, nested `Expr`s, any shape), whenever an
operator returns, the value of the result is the operation applied to the values of the operands. -/
theorem operators_sound (ρ : Env) (l r n : Node) (a b : ℚ)
    (hl : l.den ρ = some (.num a)) (hr : r.den ρ = some (.num b)) :
    (pyAdd l r = .ok n → n.den ρ = some (.num (a + b))) ∧
    (pySub l r = .ok n → n.den ρ = some (.num (a - b))) ∧
    (pyMul l r = .ok n → n.den ρ = some (.num (a * b))) ∧
    (b ≠ 0 → pyDiv l r = .ok n → n.den ρ = some (.num (a / b))) ∧
    (l.neg = .ok n → n.den ρ = some (.num (-a))) := by
  refine ⟨fun h => ?_, fun h => ?_, fun h => ?_, fun h0 h => ?_, fun h => ?_⟩
  · simpa using addSub_den ρ _ true l r n a b h hl hr
  · simpa using addSub_den ρ _ false l r n a b h hl hr
  · exact mul_den ρ _ l r n a b h hl hr
  · exact truediv_den ρ _ l r n a b h hl hr h0
  · exact neg_den ρ l n a h hl

example : ∃ (ρ : Env) (l r : Node), l.den ρ = some (.num 7) ∧ r.den ρ = some (.num 2) ∧
    ∃ n, pySub l r = .ok n := by
  refine ⟨.ofNumbers (fun _ => 2) (fun _ _ => some (.num 7)) (fun _ _ _ => none),
    .un "sin" .float [.text "x" .float .ident], .text "x" .float .ident, rfl, rfl, ?_⟩
  exact ⟨_, rfl⟩

/-! ### C10: simplify -/

/-- **C10** (partial): whenever `simplify()` returns, the result has the value of the original under every
assignment for which the original has one. Missing: `simplify()` can raise for an expression that has a value
(`simplify_can_raise`). -/
theorem simplify_preserves_value_partial (n n' : Node) (h : n.simplify = .ok n') (ρ : Env) (v : Base)
    (hv : n.den ρ = some v) : n'.den ρ = some v :=
  simplify_le ρ n n' h v hv

/-- `x ? 1 / 0 : 2` -/
def guardedDivision : Node :=
  .tri "__trinary__" .int [.text "x" .int .ident]
    [.bin "/" .int [.num (.int 1) .int] [.num (.int 0) .int]] [.num (.int 2) .int]

/-- The negation of the full claim C10: `x ? 1 / 0 : 2` has the value 2 if `x` is zero, but simplifying it raises a
`RuntimeError`. -/
theorem simplify_can_raise :
    guardedDivision.den (.ofNumbers (fun _ => 0) (fun _ _ => none) (fun _ _ _ => none)) = some (.num 2) ∧
    guardedDivision.simplify = .error .runtimeError := by
  constructor <;> rfl

example : ∃ n', (Node.bin "+" .int [.bin "*" .int [.num (.int 2) .int] [.num (.int 3) .int]]
    [.text "x" .int .ident]).simplify = .ok n' ∧
    n'.den (.ofNumbers (fun _ => 4) (fun _ _ => none) (fun _ _ _ => none)) = some (.num 10) := by
  refine ⟨_, rfl, by decide +kernel⟩

/-! ### C11: evaluate -/

/-- **C11** (partial): `e.evaluate(known)` has the value of `e` under the assignment updated with the known values.
Missing: expressions containing a `Value` that holds an `Expr` (`unboxed`), see `evaluate_ignores_boxed`. -/
theorem evaluate_is_substitution_partial (n n' : Node) (known : Known) (hu : n.unboxed = true)
    (h : n.evaluate known = .ok n') (ρ : Env) (v : Base)
    (hv : n.den { ρ with var := fun s => match known s with
      | some es => (Node.expr es).den ρ
      | none => ρ.var s } = some v) :
    n'.den ρ = some v :=
  evaluate_le ρ known n n' hu h v hv

/-- **C11** (partial): if every identifier the expression depends on is known, to a number, and the expression has a
value, then the result has that value under *every* assignment. -/
theorem evaluate_all_known_partial (n n' : Node) (σ : String → Option Num) (hu : n.unboxed = true)
    (hk : ∀ s, n.dependsOn s = true → (σ s).isSome)
    (h : n.evaluate (fun s => (σ s).map fun x => [best x]) = .ok n') (ρ : Env) (v : Base)
    (hv : n.den { ρ with var := fun s => (σ s).map fun x => .num x.toRat } = some v)
    (var : String → Option Base) :
    n'.den { ρ with var := var } = some v := by
  apply evaluate_le { ρ with var := var } _ n n' hu h v
  rw [← hv]
  apply den_agree _ _ n hu
  refine ⟨rfl, rfl, fun s hs => ?_⟩
  obtain ⟨x, hx⟩ := Option.isSome_iff_exists.1 (hk s hs)
  simp only [Env.update, hx, Option.map_some, expr_den, best_den]

/-- `x / (y - 1)` with `x = 6`, `y = 4`. -/
def ratio : Node := .bin "/" .undefined [.text "x" .undefined .ident]
  [.bin "-" .int [.text "y" .undefined .param] [.num (.int 1) .int]]

example : ratio.unboxed = true ∧
    (∀ s, ratio.dependsOn s = true → s = "x" ∨ s = "y") ∧
    ∃ n', ratio.evaluate (fun s => ((if s = "x" then some (.int 6) else if s = "y" then some (.int 4) else none
      : Option Num)).map fun x => [best x]) = .ok n' ∧
      n'.den { var := fun _ => none, fn1 := fun _ _ => none, fn2 := fun _ _ _ => none } = some (.num 2) := by
  refine ⟨rfl, fun s h => ?_, _, rfl, by decide +kernel⟩
  simp [ratio, Node.dependsOn, dependsOnL] at h
  rcases h with h | h <;> simp [h]

/-- What Python computes for `2 + Expr([-(x + a)]).evaluate({x: 0})`: the substitution leaves a nested `Expr`, and the
addition makes a `Value` of it. -/
def boxedSum : Except Err Node := do
  let e ← (Node.expr [.un "-" .undefined [.bin "+" .undefined [.text "x" .undefined .ident]
    [.text "a" .undefined .ident]]]).evaluate (fun s => if s = "x" then some [.num (.int 0) .int] else none)
  let inner ← e.neg
  pyAdd (.expr [.num (.int 2) .int]) inner

/-- The negation of the full claim C11 (and of C12): an expression made with the public operations, which does not
report to depend on `a`, whose value does depend on `a`, and in which `evaluate({a: 5})` leaves `a` in place. -/
theorem evaluate_ignores_boxed :
    ∃ n n', boxedSum = .ok n ∧ n.dependsOn "a" = false ∧
      n.evaluate (fun s => if s = "a" then some [.num (.int 5) .int] else none) = .ok n' ∧
      n'.den (.ofNumbers (fun _ => 1) (fun _ _ => none) (fun _ _ _ => none)) = some (.num 3) ∧
      n'.den (.ofNumbers (fun _ => 9) (fun _ _ => none) (fun _ _ _ => none)) = some (.num 11) := by
  refine ⟨_, _, rfl, rfl, rfl, by decide +kernel, by decide +kernel⟩

/-! ### C12: depends_on and verify_parameters -/

/-- **C12** (partial): changing the values of identifiers on which `e` does not depend does not change the value of
`e`. Missing: expressions containing a `Value` that holds an `Expr`, see `evaluate_ignores_boxed`. -/
theorem depends_on_sound_partial (n : Node) (hu : n.unboxed = true) (x : String) (h : n.dependsOn x = false)
    (ρ : Env) (v : Option Base) :
    n.den { ρ with var := fun s => if s = x then v else ρ.var s } = n.den ρ := by
  apply den_agree _ _ n hu
  refine ⟨rfl, rfl, fun s hs => ?_⟩
  have : s ≠ x := by rintro rfl; simp [h] at hs
  simp [this]

/-- **C12**: marking instrument parameters does not change the value of an expression. -/
theorem verify_parameters_preserves_value (n : Node) (names : List String) (ρ : Env) :
    (n.verify names).den ρ = n.den ρ :=
  verify_den ρ names n

mutual
theorem verify_dependsOn (names : List String) (x : String) : ∀ (n : Node),
    (n.verify names).dependsOn x = n.dependsOn x
  | .num .. => rfl
  | .text s dt o => by
    simp only [Node.verify, Node.dependsOn]
    by_cases h : (o = .ident ∨ o = .param) ∧ s ∈ names
    · simp [h]
    · simp [h]
  | .boxed .. => rfl
  | .un op dt xs => by simp only [Node.verify, Node.dependsOn, verifyL_dependsOn names x xs]
  | .bin op dt ls rs => by
    simp only [Node.verify, Node.dependsOn, verifyL_dependsOn names x ls, verifyL_dependsOn names x rs]
  | .tri op dt fs ss ts => by
    simp only [Node.verify, Node.dependsOn, verifyL_dependsOn names x fs, verifyL_dependsOn names x ss,
      verifyL_dependsOn names x ts]
  | .expr es => by simp only [Node.verify, Node.dependsOn, verifyL_dependsOn names x es]
theorem verifyL_dependsOn (names : List String) (x : String) : ∀ (xs : List Node),
    dependsOnL x (verifyL names xs) = dependsOnL x xs
  | [] => rfl
  | y :: ys => by simp only [verifyL, dependsOnL, verify_dependsOn names x y, verifyL_dependsOn names x ys]
end

/-- **C12**: nor does it change what an expression depends on. -/
theorem verify_parameters_preserves_dependence (n : Node) (names : List String) (x : String) :
    (n.verify names).dependsOn x = n.dependsOn x :=
  verify_dependsOn names x n

example : ratio.dependsOn "z" = false ∧ ratio.dependsOn "y" = true := by decide

/-! ### C61: mixing expressions and Python numbers -/

/-- `e + x`, `e - x`, `e * x`, `e / x` for an `Expr` `e` and a Python number `x` (1168-1177): a `Value` first makes
a `Value` of the number; an operation asks the number for `is_zero` (233-259) and fails. -/
def withNumber (op : Node → Node → Except Err Node) (es : List Node) (x : Num) : Except Err Node := do
  let e ← single es
  if e.isVal then do .ok (.expr [← op e (best x)]) else .error .attributeError

/-- `x + e` etc. for a Python number `x` (1162-1166, 1200-1210): the number becomes a `Value`. -/
def numberWith (op : Node → Node → Except Err Node) (x : Num) (es : List Node) : Except Err Node := do
  let e ← single es
  .ok (.expr [← op (best x) e])

/-- **C61** (partial): where adding, subtracting, multiplying or dividing an `Expr` and a Python number (in either
order) returns, the value is right. Missing: the operation always returns, see `operation_with_number_raises`. -/
theorem python_numbers_partial (ρ : Env) (es : List Node) (x : Num) (n : Node) (a : ℚ)
    (ha : (Node.expr es).den ρ = some (.num a)) :
    (withNumber pyAdd es x = .ok n → n.den ρ = some (.num (a + x.toRat))) ∧
    (withNumber pySub es x = .ok n → n.den ρ = some (.num (a - x.toRat))) ∧
    (withNumber pyMul es x = .ok n → n.den ρ = some (.num (a * x.toRat))) ∧
    (x.toRat ≠ 0 → withNumber pyDiv es x = .ok n → n.den ρ = some (.num (a / x.toRat))) ∧
    (numberWith pyAdd x es = .ok n → n.den ρ = some (.num (x.toRat + a))) ∧
    (numberWith pySub x es = .ok n → n.den ρ = some (.num (x.toRat - a))) ∧
    (numberWith pyMul x es = .ok n → n.den ρ = some (.num (x.toRat * a))) ∧
    (a ≠ 0 → numberWith pyDiv x es = .ok n → n.den ρ = some (.num (x.toRat / a))) := by
  have left : ∀ op, withNumber op es x = .ok n →
      ∃ e m, e.den ρ = some (.num a) ∧ op e (best x) = .ok m ∧ n = .expr [m] := by
    intro op h
    unfold withNumber at h
    simp only [bind_ok] at h
    obtain ⟨e, he, h⟩ := h
    have := single_ok he
    subst this
    split at h
    · simp only [bind_ok, Except.ok.injEq] at h
      obtain ⟨m, h1, h2⟩ := h
      exact ⟨e, m, by rw [← ha, expr_den], h1, h2.symm⟩
    · cases h
  have right : ∀ op, numberWith op x es = .ok n →
      ∃ e m, e.den ρ = some (.num a) ∧ op (best x) e = .ok m ∧ n = .expr [m] := by
    intro op h
    unfold numberWith at h
    simp only [bind_ok] at h
    obtain ⟨e, he, h⟩ := h
    have := single_ok he
    subst this
    simp only [bind_ok, Except.ok.injEq] at h
    obtain ⟨m, h1, h2⟩ := h
    exact ⟨e, m, by rw [← ha, expr_den], h1, h2.symm⟩
  have hb := best_den ρ x
  refine ⟨fun h => ?_, fun h => ?_, fun h => ?_, fun h0 h => ?_, fun h => ?_, fun h => ?_, fun h => ?_, fun h0 h => ?_⟩
  · obtain ⟨e, m, h1, h2, rfl⟩ := left _ h
    rw [expr_den]; exact (operators_sound ρ e _ m a _ h1 hb).1 h2
  · obtain ⟨e, m, h1, h2, rfl⟩ := left _ h
    rw [expr_den]; exact (operators_sound ρ e _ m a _ h1 hb).2.1 h2
  · obtain ⟨e, m, h1, h2, rfl⟩ := left _ h
    rw [expr_den]; exact (operators_sound ρ e _ m a _ h1 hb).2.2.1 h2
  · obtain ⟨e, m, h1, h2, rfl⟩ := left _ h
    rw [expr_den]; exact (operators_sound ρ e _ m a _ h1 hb).2.2.2.1 h0 h2
  · obtain ⟨e, m, h1, h2, rfl⟩ := right _ h
    rw [expr_den]; exact (operators_sound ρ _ e m _ a hb h1).1 h2
  · obtain ⟨e, m, h1, h2, rfl⟩ := right _ h
    rw [expr_den]; exact (operators_sound ρ _ e m _ a hb h1).2.1 h2
  · obtain ⟨e, m, h1, h2, rfl⟩ := right _ h
    rw [expr_den]; exact (operators_sound ρ _ e m _ a hb h1).2.2.1 h2
  · obtain ⟨e, m, h1, h2, rfl⟩ := right _ h
    rw [expr_den]; exact (operators_sound ρ _ e m _ a hb h1).2.2.2.1 h0 h2

/-- **C61**: a Python number on the left always works on numeric expressions (unless dividing by zero). -/
theorem number_on_the_left_returns (x : Num) (e : Node) (he : e.plain = true) :
    (∃ n, numberWith pyAdd x [e] = .ok n) ∧ (∃ n, numberWith pySub x [e] = .ok n) ∧
    (∃ n, numberWith pyMul x [e] = .ok n) ∧ (e.isZero = .ok false → ∃ n, numberWith pyDiv x [e] = .ok n) := by
  have hs : steps e + 1 ≤ enough (best x) e := by
    have : steps e ≤ e.size + 1 := by
      unfold steps; split
      · split <;> omega
      · omega
    simp only [enough]
    omega
  refine ⟨?_, ?_, ?_, fun hz => ?_⟩
  · obtain ⟨n, h, _⟩ := addSub_plain _ true (best x) e (best_plain x) he hs
    exact ⟨.expr [n], by simp [numberWith, single, bind, Except.bind, pyAdd, h]⟩
  · obtain ⟨n, h, _⟩ := addSub_plain _ false (best x) e (best_plain x) he hs
    exact ⟨.expr [n], by simp [numberWith, single, bind, Except.bind, pySub, h]⟩
  · obtain ⟨n, h, _⟩ := mul_plain (enough (best x) e) (best x) e (best_plain x) he (by omega)
    exact ⟨.expr [n], by simp [numberWith, single, bind, Except.bind, pyMul, h]⟩
  · obtain ⟨n, h, _⟩ := truediv_plain (enough (best x) e) (best x) e (best_plain x) he hz (by omega)
    exact ⟨.expr [n], by simp [numberWith, single, bind, Except.bind, pyDiv, h]⟩

/-- The negation of the full claim C61: `(a + b) + 1`, `(a + b) * 2` etc. raise an `AttributeError`. -/
theorem operation_with_number_raises :
    ∃ e : Node, e.plain = true ∧ e.den (.ofNumbers (fun _ => 3) (fun _ _ => none) (fun _ _ _ => none)) = some (.num 6) ∧
      ∀ (op : Node → Node → Except Err Node) (x : Num), withNumber op [e] x = .error .attributeError :=
  ⟨.bin "+" .int [.text "a" .int .ident] [.text "b" .int .ident], by decide, by decide +kernel, fun _ _ => rfl⟩

end Verif.Ex
