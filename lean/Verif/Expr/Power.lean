import Verif.Expr.Props
import Mathlib.Algebra.Order.Floor.Ring
import Mathlib.Data.Rat.Floor

/-! Properties C62 (floor division) and C63 (powers). -/

namespace Verif.Ex
open Verif.DT

/-! ### C62 -/

/-- Python `round(x)`: to the nearest integer, ties to the even one. -/
def pyRound (q : ℚ) : ℤ :=
  if q - ⌊q⌋ < 1/2 then ⌊q⌋
  else if q - ⌊q⌋ > 1/2 then ⌊q⌋ + 1
  else if ⌊q⌋ % 2 = 0 then ⌊q⌋ else ⌊q⌋ + 1

/-- `round(self.value)`: a `TypeError` for identifiers. -/
def roundPayload : Node → Except Err ℤ
  | .num x _ => .ok (pyRound x.toRat)
  | .text .. => .error .typeError
  | _ => .error .notModelled

/-- `Value.int(self.value // other.value)` -/
def floorPayload : Node → Node → Except Err Node
  | .num x _, .num y _ => .ok (.num (.int ⌊x.toRat / y.toRat⌋) .int)
  | _, _ => .error .notModelled

/-- expression.py 902-915 -/
def valFloorDiv (l other : Node) : Except Err Node := do
  let r := coerce other
  if ← l.isZero then .ok (.num (.int 0) .int)
  else if r.isValue 1 then do .ok (.num (.int (← roundPayload l)) .int)
  else if r.isValue (-1) then do .ok (.num (.int (-(← roundPayload l))) .int)
  else if ← r.isZero then .error .runtimeError
  else if r.isOp || l.isId || r.isId then mkBin "//" [l] [r]
  else floorPayload l r

/-- expression.py 261-268 -/
def opFloorDiv (l r : Node) : Except Err Node := do
  if ← r.isZero then .error .runtimeError
  else if r.isValue 1 then .ok l
  else if r.isValue (-1) then l.neg
  else mkBin "//" [l] (operands r)

/-- Python `l // r` for an expression which is not an `Expr`, and the one for `Expr` (1179-1180). -/
def floorDivNode (l r : Node) : Except Err Node := if l.isVal then valFloorDiv l r else opFloorDiv l r
def pyFloorDiv (l r : Node) : Except Err Node :=
  match l with
  | .expr es => do .ok (.expr [← floorDivNode (← single es) (prep r)])
  | l => floorDivNode l r

theorem floorPayload_den (ρ : Env) (l r n : Node) (a b : ℚ) (h : floorPayload l r = .ok n)
    (hl : l.den ρ = some (.num a)) (hr : r.den ρ = some (.num b)) :
    n.den ρ = some (.num (⌊a / b⌋ : ℤ)) := by
  unfold floorPayload at h
  split at h
  · simp only [Node.den, Option.some.injEq, Base.num.injEq] at hl hr
    simp only [Except.ok.injEq] at h
    subst hl hr h
    rfl
  · cases h

theorem bin_fn2_den (ρ : Env) (op : String) (t : DataType) (l : Node) (rs : List Node) (a b : ℚ) (v : Base)
    (hop : ¬ (op = "+" ∨ op = "-" ∨ op = "*" ∨ op = "/"))
    (hf : ρ.fn2 op [.num a] [.num b] = some v)
    (hl : l.den ρ = some (.num a)) (hr : only (denL ρ rs) = some (.num b)) :
    (Node.bin op t [l] rs).den ρ = some v := by
  obtain ⟨r, rfl, hr'⟩ := (only_denL_some ρ rs (.num b)).1 hr
  simp [Node.den, denL, hl, hr', apply2, hop, hf]

theorem floorDivNode_den (ρ : Env) (l r n : Node) (a b : ℚ)
    (hf : ∀ a b : ℚ, b ≠ 0 → ρ.fn2 "//" [.num a] [.num b] = some (.num (⌊a / b⌋ : ℤ)))
    (hl : l.den ρ = some (.num a)) (hr : r.den ρ = some (.num b)) (hb : b ≠ 0) (h1 : b ≠ 1) (h2 : b ≠ -1)
    (h : floorDivNode l r = .ok n) : n.den ρ = some (.num (⌊a / b⌋ : ℤ)) := by
  have n1 : ∀ m : Node, m.den ρ = some (.num b) → ¬ m.isValue 1 = true := by
    intro m hm hv; exact h1 (isValue_num ρ m 1 b hv hm)
  have n2 : ∀ m : Node, m.den ρ = some (.num b) → ¬ m.isValue (-1) = true := by
    intro m hm hv; exact h2 (isValue_num ρ m (-1) b hv hm)
  have mk : ∀ rs, only (denL ρ rs) = some (.num b) → mkBin "//" [l] rs = .ok n →
      n.den ρ = some (.num (⌊a / b⌋ : ℤ)) := by
    intro rs hrs hm
    obtain ⟨t, rfl⟩ := mkBin_ok hm
    exact bin_fn2_den ρ "//" t l rs a b _ (by decide) (hf a b hb) hl hrs
  unfold floorDivNode at h
  split at h
  · unfold valFloorDiv at h
    have hr' : (coerce r).den ρ = some (.num b) := by rw [coerce_den]; exact hr
    simp only [bind_ok] at h
    obtain ⟨z, hz, h⟩ := h
    split at h
    · rename_i hz'
      subst hz'
      have := isZero_num ρ l a hz hl
      simp only [Except.ok.injEq] at h
      subst this h
      simp [Node.den, Num.toRat]
    · rw [if_neg (n1 _ hr'), if_neg (n2 _ hr')] at h
      simp only [bind_ok] at h
      obtain ⟨z, hz, h⟩ := h
      split at h
      · cases h
      · split at h
        · exact mk _ (by rw [only_single]; exact hr') h
        · exact floorPayload_den ρ l _ n a b h hl hr'
  · unfold opFloorDiv at h
    simp only [bind_ok] at h
    obtain ⟨z, hz, h⟩ := h
    split at h
    · cases h
    · rw [if_neg (n1 _ hr), if_neg (n2 _ hr)] at h
      exact mk _ (by rw [operands_den]; exact hr) h

/-- **C62** (partial): floor division by anything but 0, 1 and -1, where it returns, gives the floor of the quotient
(where the operation `//` stands for floor division). Missing: divisors 1 and -1, see `floor_division_by_one_rounds`. -/
theorem floor_division_partial (ρ : Env) (l r n : Node) (a b : ℚ)
    (hf : ∀ a b : ℚ, b ≠ 0 → ρ.fn2 "//" [.num a] [.num b] = some (.num (⌊a / b⌋ : ℤ)))
    (hl : l.den ρ = some (.num a)) (hr : r.den ρ = some (.num b)) (hb : b ≠ 0) (h1 : b ≠ 1) (h2 : b ≠ -1)
    (h : pyFloorDiv l r = .ok n) : n.den ρ = some (.num (⌊a / b⌋ : ℤ)) := by
  unfold pyFloorDiv at h
  split at h
  · simp only [bind_ok, Except.ok.injEq] at h
    obtain ⟨e, he, m, hm, rfl⟩ := h
    have := single_ok he
    subst this
    rw [expr_den] at hl ⊢
    exact floorDivNode_den ρ e _ m a b hf hl (by rw [prep_den]; exact hr) hb h1 h2 hm
  · exact floorDivNode_den ρ _ _ n a b hf hl hr hb h1 h2 h

/-- The floor-division meaning of `//`. -/
def floorEnv (σ : String → ℚ) : Env := .ofNumbers σ (fun _ _ => none) fun op ls rs =>
  match op, ls, rs with
  | "//", [.num a], [.num b] => some (.num (⌊a / b⌋ : ℤ))
  | _, _, _ => none

example : (∀ a b : ℚ, b ≠ 0 → (floorEnv fun _ => 7).fn2 "//" [.num a] [.num b] = some (.num (⌊a / b⌋ : ℤ))) ∧
    ∃ n, pyFloorDiv (.expr [.text "x" .undefined .ident]) (.expr [.num (.int 2) .int]) = .ok n :=
  ⟨fun _ _ _ => rfl, _, rfl⟩

/-- The negation of the full claim C62: `2.7 // 1` is 3, `(a + b) // 1` is not rounded down at all, and `x // 1`
raises a `TypeError`. -/
theorem floor_division_by_one_rounds :
    (∃ n, pyFloorDiv (.expr [.num (.flt (27/10)) .float]) (.expr [.num (.int 1) .int]) = .ok n ∧
      ∀ ρ, n.den ρ = some (.num 3)) ∧
    (∃ n, pyFloorDiv (.expr [.bin "+" .undefined [.text "a" .undefined .ident] [.text "b" .undefined .ident]])
        (.expr [.num (.int 1) .int]) = .ok n ∧ n.den (floorEnv fun _ => 1/3) = some (.num (2/3))) ∧
    (∀ s dt, pyFloorDiv (.expr [.text s dt .ident]) (.expr [.num (.int 1) .int]) = .error .typeError) := by
  refine ⟨⟨.expr [.num (.int 3) .int], ?_, fun ρ => ?_⟩, ⟨_, rfl, ?_⟩, fun s dt => ?_⟩
  · have : pyRound (27/10) = 3 := by decide +kernel
    simp [pyFloorDiv, single, prep, floorDivNode, Node.isVal, valFloorDiv, coerce, Node.isZero, bind, Except.bind,
      Node.isValue, Num.toRat, roundPayload, this]
  · simp [Node.den, denL, only, Num.toRat]
  · decide +kernel
  · simp [pyFloorDiv, single, prep, floorDivNode, Node.isVal, valFloorDiv, coerce, Node.isZero, bind, Except.bind,
      Node.isValue, Num.toRat, roundPayload]

/-! ### C63 -/

/-- `a` to the power `b`, for integer `b`; `0` to a negative power is undefined. -/
def power (a b : ℚ) : Option ℚ :=
  if b.den = 1 then
    if a = 0 ∧ b < 0 then none else some (a ^ b.num)
  else none

theorem power_one (b c : ℚ) (h : power 1 b = some c) : c = 1 := by
  unfold power at h
  split at h
  · simpa using h.symm
  · cases h

theorem power_zero (a c : ℚ) (h : power a 0 = some c) : c = 1 := by
  unfold power at h
  simpa using h.symm

theorem powValue_den (ρ : Env) (l r n : Node) (a b c : ℚ)
    (hf : ∀ a b c : ℚ, power a b = some c → ρ.fn2 "__pow__" [.num a] [.num b] = some (.num c))
    (hl : l.den ρ = some (.num a)) (hr : r.den ρ = some (.num b)) (ha : a ≠ 0) (hc : power a b = some c)
    (h : pyPow.pyPowValue l r = .ok n) : n.den ρ = some (.num c) := by
  have hr' : (coerce r).den ρ = some (.num b) := by rw [coerce_den]; exact hr
  unfold pyPow.pyPowValue at h
  simp only [bind_ok] at h
  obtain ⟨z, hz, h⟩ := h
  split at h
  · rename_i hz'
    subst hz'
    exact absurd (isZero_num ρ l a hz hl) ha
  · split at h
    · rename_i h1
      have := isValue_num ρ l 1 a h1 hl
      simp only [Except.ok.injEq] at h
      subst this h
      rw [power_one b c hc]
      exact hl
    · simp only [bind_ok] at h
      obtain ⟨z, hz, h⟩ := h
      split at h
      · rename_i hz'
        subst hz'
        have := isZero_num ρ _ b hz hr'
        simp only [bind_ok, Except.ok.injEq] at h
        obtain ⟨t, _, rfl⟩ := h
        subst this
        rw [power_zero a c hc]
        simp [Node.den, Num.toRat]
      · obtain ⟨t, rfl⟩ := mkBin_ok h
        exact bin_fn2_den ρ "__pow__" t l _ a b _ (by decide) (hf a b c hc) hl (by rw [only_single]; exact hr')

/-- **C63** (partial): where `l ** r` returns and the base is not zero, the value is the power (for integer exponents,
where the operation printed as `^` stands for the power). Missing: base zero and bases which are operations, see
`power_of_operation_raises` and `zero_to_the_zero`. -/
theorem power_partial (ρ : Env) (l r n : Node) (a b c : ℚ)
    (hf : ∀ a b c : ℚ, power a b = some c → ρ.fn2 "__pow__" [.num a] [.num b] = some (.num c))
    (hl : l.den ρ = some (.num a)) (hr : r.den ρ = some (.num b)) (ha : a ≠ 0) (hc : power a b = some c)
    (h : pyPow l r = .ok n) : n.den ρ = some (.num c) := by
  unfold pyPow at h
  split at h
  · simp only [bind_ok] at h
    obtain ⟨e, he, h⟩ := h
    have := single_ok he
    subst this
    rw [expr_den] at hl
    have hp : (prep r).den ρ = some (.num b) := by rw [prep_den]; exact hr
    split at h
    all_goals first
      | cases h; done
      | (simp only [bind_ok, Except.ok.injEq] at h
         obtain ⟨m, hm, rfl⟩ := h
         rw [expr_den]
         exact powValue_den ρ _ _ m a b c hf hl hp ha hc hm)
  · exact powValue_den ρ _ _ n a b c hf hl hr ha hc h
  · exact powValue_den ρ _ _ n a b c hf hl hr ha hc h
  · exact powValue_den ρ _ _ n a b c hf hl hr ha hc h
  · cases h

/-- The power meaning of `__pow__`. -/
def powerEnv (σ : String → ℚ) : Env := .ofNumbers σ (fun _ _ => none) fun op ls rs =>
  match op, ls, rs with
  | "__pow__", [.num a], [.num b] => (power a b).map .num
  | _, _, _ => none

example : (∀ a b c : ℚ, power a b = some c →
      (powerEnv fun _ => 3).fn2 "__pow__" [.num a] [.num b] = some (.num c)) ∧
    (Node.expr [.text "x" .undefined .ident]).den (powerEnv fun _ => 3) = some (.num 3) ∧ power 3 (-2) = some (1/9) ∧
    ∃ n, pyPow (.expr [.text "x" .undefined .ident]) (.expr [.num (.int (-2)) .int]) = .ok n :=
  ⟨fun a b c h => by simp [powerEnv, Env.ofNumbers, h], rfl, by decide +kernel, _, rfl⟩

/-- The negation of the full claim C63: a power of a sum, product, function value, grouped or negated expression
raises a `TypeError` (so `sin(x)^2` or `(a+b)^2` cannot be read from an instrument file). -/
theorem power_of_operation_raises (e r : Node) (h : e.isOp = true) : pyPow (.expr [e]) r = .error .typeError ∨
    ∃ es, e = .expr es := by
  cases e <;> first
    | exact .inr ⟨_, rfl⟩
    | exact .inl rfl
    | simp [Node.isOp] at h

example : (Node.bin "__call__" .undefined [.text "sin" .undefined .func] [.text "x" .undefined .ident]).isOp = true :=
  rfl

/-- `0 ** 0` is 0 and `0 ** -1` is 0, where mathematically they are 1 and undefined. -/
theorem zero_to_the_zero :
    (∃ n, pyPow (.expr [.num (.int 0) .int]) (.expr [.num (.int 0) .int]) = .ok n ∧ ∀ ρ, n.den ρ = some (.num 0)) ∧
    power 0 0 = some 1 ∧
    (∃ n, pyPow (.expr [.num (.int 0) .int]) (.expr [.num (.int (-1)) .int]) = .ok n ∧ ∀ ρ, n.den ρ = some (.num 0)) ∧
    power 0 (-1) = none :=
  ⟨⟨_, rfl, fun _ => rfl⟩, by decide +kernel, ⟨_, rfl, fun _ => rfl⟩, by decide +kernel⟩

end Verif.Ex
