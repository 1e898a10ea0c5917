import Verif.Expr.CMeaning

/-!
Property C85: from the text in an instrument to the text in the generated C.

The functions of src/mccode_antlr/common/visitor.py make an expression from what the grammar read (`Tree.visit`), which is then
printed (`Node.toks`, Verif/Expr/Print.lean), and read by the C compiler (`CReads`, Verif/Expr/CRead.lean). The prefix
`_instrument_var._parameters.` put before parameters is left out.
-/

namespace Verif.Ex
open Verif.DT

/-! ### The visitor -/

/-- The binary operators: arithmetic uses the operators of `Expr`, `%`, shifts, comparisons and logic make a `BinaryOp` as it
is (visitor.py 51-58, 67-86, 92-131). -/
def arithOp (o : String) (l r : Node) : Except Err Node :=
  if o = "+" then pyAdd l r
  else if o = "-" then pySub l r
  else if o = "*" then pyMul l r
  else if o = "/" then pyDiv l r
  else if o = "__pow__" then pyPow l r
  else do .ok (.expr [← mkBin o (operands l) (operands r)])

/-- `ctx.expr[0]` (visitor.py 65). -/
def firstOf : Node → Except Err Node
  | .expr (x :: _) => .ok x
  | _ => .error .notModelled

/-- What is made of a missing operand: the empty string (visitor.py 142-144). -/
def missing : Node := .text "\"\"" .str .value

mutual
/-- What the visitor makes of a tree (visitor.py 12-144); `par` are the parameters of the instrument and their types. The
identifier before a bracket or member is never taken for a parameter (27-38). -/
def Tree.visit (par : String → Option DataType) : Tree → Except Err Node
  | .none => .ok (.expr [missing])
  | .lit (.int n) => .ok (.expr [.num (.int n) .int])
  | .lit (.flt q) => .ok (.expr [.num (.flt q) .float])
  | .id s => match par s with
    | some dt => .ok (.expr [.text s dt .param])
    | Option.none => .ok (.expr [.text s .undefined .ident])
  | .group t => do .ok (.expr [← mkUn "__group__" (operands (← t.visit par))])
  | .neg t => do (← t.visit par).neg
  | .pos t => t.visit par
  | .bin o l r =>
    if accessOp o then
      match l with
      | .id s => do .ok (.expr [← mkBin o [.text s .undefined .ident] (operands (← r.visit par))])
      | _ => .error .notModelled
    else do arithOp o (← l.visit par) (← r.visit par)
  | .call f as => do .ok (.expr [← mkBin "__call__" [.text f .undefined .func] (← Tree.visitL par as)])
  | .not t => do .ok (.expr [← mkUn "__not__" (operands (← t.visit par))])
  | .cond c a b => do
    .ok (.expr [← mkTri "__trinary__" (operands (← c.visit par)) (operands (← a.visit par)) (operands (← b.visit par))])
def Tree.visitL (par : String → Option DataType) : List Tree → Except Err (List Node)
  | [] => .ok []
  | t :: ts => do .ok ((← firstOf (← t.visit par)) :: (← Tree.visitL par ts))
end


theorem only_expr_neg (x n : Node) (h : (Node.expr [x]).neg = .ok n) : ∃ y, n = .expr [y] ∧ x.neg = .ok y := by
  simp only [Node.neg, negL, bind_ok, Except.ok.injEq] at h
  obtain ⟨es, ⟨y, hy, es', rfl, rfl⟩, rfl⟩ := h
  exact ⟨y, rfl, hy⟩

theorem addSub_expr (fuel : Nat) (plus : Bool) (x r n : Node) (h : addSub (fuel + 1) plus (.expr [x]) r = .ok n) :
    ∃ y, n = .expr [y] ∧ addSub fuel plus x (prep r) = .ok y := by
  simp only [addSub, single, bind_ok, Except.ok.injEq] at h
  obtain ⟨_, rfl, y, hy, rfl⟩ := h
  exact ⟨y, rfl, hy⟩

theorem mul_expr (fuel : Nat) (x r n : Node) (h : mul (fuel + 1) (.expr [x]) r = .ok n) :
    ∃ y, n = .expr [y] ∧ mul fuel x (prep r) = .ok y := by
  simp only [mul, single, bind_ok, Except.ok.injEq] at h
  obtain ⟨_, rfl, y, hy, rfl⟩ := h
  exact ⟨y, rfl, hy⟩

theorem div_expr (fuel : Nat) (x r n : Node) (h : truediv (fuel + 1) (.expr [x]) r = .ok n) :
    ∃ y, n = .expr [y] ∧ truediv fuel x (prep r) = .ok y := by
  simp only [truediv, single, bind_ok, Except.ok.injEq] at h
  obtain ⟨_, rfl, y, hy, rfl⟩ := h
  exact ⟨y, rfl, hy⟩

theorem enough_succ (l r : Node) : ∃ k, enough l r = k + 1 := ⟨4 * (l.size + r.size) + 7, rfl⟩

theorem bop_some (ρ : Env) (o : String) (x y : Option Base) (v : Base) (h : bop ρ o x y = some v) :
    ∃ a b, x = some a ∧ y = some b ∧ apply2 ρ o [a] [b] = some v := by
  simp only [bop, Option.bind_eq_some_iff] at h
  obtain ⟨a, ha, b, hb, h⟩ := h
  exact ⟨a, b, ha, hb, h⟩

theorem apply2_arith (ρ : Env) (o : String) (a b v : Base) (ho : o = "+" ∨ o = "-" ∨ o = "*" ∨ o = "/")
    (h : apply2 ρ o [a] [b] = some v) : ∃ x y z, a = .num x ∧ b = .num y ∧ v = .num z ∧ arith o x y = some z := by
  unfold apply2 at h
  rw [if_pos ho] at h
  match a, b, h with
  | .num x, .num y, h =>
    obtain ⟨z, hz, rfl⟩ := Option.map_eq_some_iff.mp h
    exact ⟨x, y, z, rfl, rfl, rfl, hz⟩

theorem arithOp_den (ρ : Env) (o : String) (hp : o ≠ "__pow__") (l r n : Node)
    (h : arithOp o (.expr [l]) (.expr [r]) = .ok n) :
    ∃ x, n = .expr [x] ∧ ∀ v, bop ρ o (l.den ρ) (r.den ρ) = some v → x.den ρ = some v := by
  have dl := expr_den ρ l
  have dr := expr_den ρ r
  obtain ⟨k, hk⟩ := enough_succ (.expr [l]) (.expr [r])
  have num : ∀ v, (o = "+" ∨ o = "-" ∨ o = "*" ∨ o = "/") → bop ρ o (l.den ρ) (r.den ρ) = some v →
      ∃ x y z, (Node.expr [l]).den ρ = some (.num x) ∧ (Node.expr [r]).den ρ = some (.num y) ∧ v = .num z ∧
        arith o x y = some z := fun v ho hv => by
    obtain ⟨a, b, ha, hb, hv⟩ := bop_some _ _ _ _ _ hv
    obtain ⟨x, y, z, rfl, rfl, rfl, hz⟩ := apply2_arith ρ o a b v ho hv
    exact ⟨x, y, z, by rw [dl, ha], by rw [dr, hb], rfl, hz⟩
  unfold arithOp at h
  split_ifs at h with h1 h2 h3 h4
  · subst h1
    obtain ⟨y, rfl, hy⟩ := addSub_expr k true l _ n (by rw [← hk]; exact h)
    refine ⟨y, rfl, fun v hv => ?_⟩
    obtain ⟨a, b, c, ha, hb, rfl, hc⟩ := num v (by simp) hv
    have := (operators_sound ρ _ _ _ a b ha hb).1 h
    rw [expr_den] at this
    simp only [arith, if_true, Option.some.injEq] at hc
    rw [this, hc]
  · subst h2
    obtain ⟨y, rfl, hy⟩ := addSub_expr k false l _ n (by rw [← hk]; exact h)
    refine ⟨y, rfl, fun v hv => ?_⟩
    obtain ⟨a, b, c, ha, hb, rfl, hc⟩ := num v (by simp) hv
    have := (operators_sound ρ _ _ _ a b ha hb).2.1 h
    rw [expr_den] at this
    rw [this]
    simpa [arith] using hc
  · subst h3
    obtain ⟨y, rfl, hy⟩ := mul_expr k l _ n (by rw [← hk]; exact h)
    refine ⟨y, rfl, fun v hv => ?_⟩
    obtain ⟨a, b, c, ha, hb, rfl, hc⟩ := num v (by simp) hv
    have := (operators_sound ρ _ _ _ a b ha hb).2.2.1 h
    rw [expr_den] at this
    rw [this]
    simpa [arith] using hc
  · subst h4
    obtain ⟨y, rfl, hy⟩ := div_expr k l _ n (by rw [← hk]; exact h)
    refine ⟨y, rfl, fun v hv => ?_⟩
    obtain ⟨a, b, c, ha, hb, rfl, hc⟩ := num v (by simp) hv
    simp only [arith] at hc
    by_cases hb0 : b = 0
    · simp [hb0] at hc
    · have := (operators_sound ρ _ _ _ a b ha hb).2.2.2.1 hb0 h
      rw [expr_den] at this
      rw [this]
      simpa [hb0] using hc
  · simp only [bind_ok, Except.ok.injEq, operands] at h
    obtain ⟨x, hx, rfl⟩ := h
    obtain ⟨dt, rfl⟩ := mkBin_ok hx
    exact ⟨_, rfl, fun v hv => by rw [bin_den_single]; exact hv⟩

theorem lead_not_id (o : String) (t : Tree) (s : String) : lead o t ≠ .id s := by
  cases t <;> simp only [lead, signed] <;> split_ifs <;> simp

theorem inC_id (t : Tree) (s : String) (h : t.inC = .id s) : t = .id s := by
  cases t with
  | id => exact h
  | bin o l r =>
    rcases bin_cases o l with ⟨rfl, ho⟩ | hb
    · rw [inC_sign o r ho] at h
      exact absurd h (lead_not_id o _ s)
    · rw [inC_bin o l r hb] at h
      simp at h
  | _ => simp [Tree.inC] at h

theorem missing_sign (o : String) (y n : Node) (ho : o = "-" ∨ o = "+") (h : arithOp o (.expr [missing]) (.expr [y]) = .ok n) :
    ∃ z, n = .expr [z] ∧ (o = "-" ∧ (coerce y).neg = .ok z ∨ o = "+" ∧ z = coerce y) := by
  have hk : enough (.expr [missing]) (.expr [y]) = (4 * ((Node.expr [missing]).size + (Node.expr [y]).size) + 6) + 1 + 1 := rfl
  have hb : blank "\"\"" = true := by decide
  rcases ho with rfl | rfl <;> simp only [arithOp, String.reduceEq, if_true, if_false, pySub, pyAdd] at h
  · rw [hk] at h
    obtain ⟨z, rfl, hz⟩ := addSub_expr _ false missing _ n h
    refine ⟨z, rfl, .inl ⟨rfl, ?_⟩⟩
    simpa [addSub, missing, prep, Node.isVal, valAddSub, Node.isZero, hb, bind, Except.bind] using hz
  · rw [hk] at h
    obtain ⟨z, rfl, hz⟩ := addSub_expr _ true missing _ n h
    refine ⟨z, rfl, .inr ⟨rfl, ?_⟩⟩
    have : (Except.ok (coerce y) : Except Err Node) = Except.ok z := by
      simpa [addSub, missing, prep, Node.isVal, valAddSub, Node.isZero, hb, bind, Except.bind] using hz
    simpa using this.symm

theorem choose_mono (c a b c' a' b' : Option Base) (v : Base) (hc : ∀ v, c = some v → c' = some v)
    (ha : ∀ v, a = some v → a' = some v) (hb : ∀ v, b = some v → b' = some v)
    (h : choose "__trinary__" c a b = some v) : choose "__trinary__" c' a' b' = some v := by
  simp only [choose, if_true] at h ⊢
  cases c with
  | none => simp at h
  | some w =>
    rw [hc w rfl]
    cases w with
    | text => simp at h
    | num q =>
      simp only at h ⊢
      split_ifs at h ⊢
      · exact hb v h
      · exact ha v h

mutual
/-- What the visitor makes of a tree without powers, in which no operand is missing other than before a sign, has the value of
the tree. -/
theorem visit_den (par : String → Option DataType) (ρ : Env) : ∀ (t : Tree), t.inC.cOk → ∀ n, t.visit par = .ok n →
    ∃ x, n = .expr [x] ∧ ∀ v, t.den ρ = some v → x.den ρ = some v
  | .none, hc, _, _ => by simp [Tree.inC, Tree.cOk] at hc
  | .lit x, _, n, h => by
    cases x <;> simp only [Tree.visit, Except.ok.injEq] at h <;> subst h <;> exact ⟨_, rfl, fun v hv => hv⟩
  | .id s, _, n, h => by
    simp only [Tree.visit] at h
    split at h <;> simp only [Except.ok.injEq] at h <;> subst h <;>
      exact ⟨_, rfl, fun v hv => by simpa [Node.den, Tree.den] using hv⟩
  | .group t, hc, n, h => by
    simp only [Tree.visit, bind_ok, Except.ok.injEq] at h
    obtain ⟨m, hm, y, hy, rfl⟩ := h
    obtain ⟨x, rfl, hx⟩ := visit_den par ρ t (by simpa [Tree.inC, Tree.cOk] using hc) m hm
    obtain ⟨dt, rfl⟩ := mkUn_ok hy
    exact ⟨_, rfl, fun v hv => by
      simp only [operands]
      rw [un_group_den]; exact hx v (by simpa [Tree.den] using hv)⟩
  | .neg t, hc, n, h => by
    simp only [Tree.visit, bind_ok] at h
    obtain ⟨m, hm, h⟩ := h
    obtain ⟨x, rfl, hx⟩ := visit_den par ρ t (by rw [Tree.inC, Tree.cOk] at hc; exact hc.1) m hm
    obtain ⟨y, rfl, hy⟩ := only_expr_neg x n h
    refine ⟨y, rfl, fun v hv => ?_⟩
    simp only [Tree.den, Option.bind_eq_some_iff] at hv
    obtain ⟨w, hw, hv⟩ := hv
    cases w with
    | text => simp [apply1] at hv
    | num a =>
      rw [neg_den ρ x y a hy (hx _ hw)]
      simpa [apply1] using hv
  | .pos t, hc, n, h => by
    simp only [Tree.visit] at h
    obtain ⟨x, rfl, hx⟩ := visit_den par ρ t (by rw [Tree.inC, Tree.cOk] at hc; exact hc.1) n h
    exact ⟨x, rfl, fun v hv => hx v (by simpa [Tree.den] using hv)⟩
  | .bin o l r, hc, n, h => by
    rcases bin_cases o l with ⟨rfl, ho⟩ | hb
    · rw [inC_sign o r ho] at hc
      obtain ⟨hr, _, _⟩ := lead_ok o _ hc
      have ha := sign_not_access o ho
      simp only [Tree.visit, ha, Bool.false_eq_true, if_false, bind_ok, Except.ok.injEq] at h
      obtain ⟨_, rfl, b, hb', h⟩ := h
      obtain ⟨y, rfl, hy⟩ := visit_den par ρ r hr b hb'
      obtain ⟨z, rfl, hz⟩ := missing_sign o y n ho h
      refine ⟨z, rfl, fun v hv => ?_⟩
      rw [sign_den ρ o r ho] at hv
      rcases hz with ⟨rfl, hz⟩ | ⟨rfl, rfl⟩
      · simp only [signVal, sgn, decide_true, if_true, Option.bind_eq_some_iff] at hv
        obtain ⟨w, hw, hv⟩ := hv
        cases w with
        | text => simp [apply1] at hv
        | num a =>
          rw [neg_den ρ (coerce y) z a hz (by rw [coerce_den, hy _ hw])]
          simpa [apply1] using hv
      · rw [coerce_den]
        exact hy v (by simpa [signVal, sgn] using hv)
    rw [inC_bin o l r hb] at hc
    by_cases ha : accessOp o = true
    · have hl : (∃ s, l = .id s) ∧ r.inC.cOk := by
        have key : ∀ s, l.inC = .id s → l = .id s := fun s h => inC_id l s h
        rw [Tree.cOk] at hc
        split_ifs at hc
        · obtain ⟨⟨s, hs⟩, h2⟩ := hc
          exact ⟨⟨s, key s hs⟩, h2⟩
        · obtain ⟨⟨s, hs⟩, m, hm⟩ := hc
          exact ⟨⟨s, key s hs⟩, by rw [hm]; trivial⟩
      obtain ⟨⟨s, rfl⟩, hr⟩ := hl
      simp only [Tree.visit, ha, if_true, bind_ok, Except.ok.injEq] at h
      obtain ⟨m, hm, y, hy, rfl⟩ := h
      obtain ⟨x, rfl, hx⟩ := visit_den par ρ r hr m hm
      obtain ⟨dt, rfl⟩ := mkBin_ok hy
      refine ⟨_, rfl, fun v hv => ?_⟩
      simp only [operands]
      rw [bin_den_single]
      rw [tree_bin_den _ _ _ _ rfl] at hv
      obtain ⟨a, b, h1, h2, h3⟩ := bop_some _ _ _ _ _ hv
      have h1' : ρ.var s = some a := h1
      simp only [bop, Node.den, hx b h2, Option.bind_some]
      simp [h1', h3]
    · have ha : accessOp o = false := by simpa using ha
      obtain ⟨h0, hl, hr, _, _⟩ := (cOk_infix o _ _ ha).mp hc
      simp only [Tree.visit, ha, Bool.false_eq_true, if_false, bind_ok] at h
      obtain ⟨a, ha', b, hb', h⟩ := h
      obtain ⟨x, rfl, hx⟩ := visit_den par ρ l hl a ha'
      obtain ⟨y, rfl, hy⟩ := visit_den par ρ r hr b hb'
      obtain ⟨z, rfl, hz⟩ := arithOp_den ρ o (by rintro rfl; simp [clev] at h0) x y n h
      refine ⟨z, rfl, fun v hv => hz v ?_⟩
      rw [tree_bin_den _ _ _ _ (inC_none l (cOk_some hl))] at hv
      obtain ⟨a, b, h1, h2, h3⟩ := bop_some _ _ _ _ _ hv
      simp [bop, hx a h1, hy b h2, h3]
  | .call f as, hc, n, h => by
    simp only [Tree.visit, bind_ok, Except.ok.injEq] at h
    obtain ⟨xs, hxs, y, hy, rfl⟩ := h
    obtain ⟨dt, rfl⟩ := mkBin_ok hy
    refine ⟨_, rfl, fun v hv => ?_⟩
    simp only [Tree.den, Option.bind_eq_some_iff] at hv
    obtain ⟨vs, h1, h2⟩ := hv
    rw [Tree.inC, Tree.cOk] at hc
    have := visitL_den par ρ as hc.2 xs hxs vs h1
    simp [Node.den, denL, this, apply2, h2]
  | .not t, hc, n, h => by
    simp only [Tree.visit, bind_ok, Except.ok.injEq] at h
    obtain ⟨m, hm, y, hy, rfl⟩ := h
    obtain ⟨x, rfl, hx⟩ := visit_den par ρ t (by rw [Tree.inC, Tree.cOk] at hc; exact hc.1) m hm
    obtain ⟨dt, rfl⟩ := mkUn_ok hy
    refine ⟨_, rfl, fun v hv => ?_⟩
    simp only [operands]
    rw [un_not_den]
    simp only [Tree.den, Option.bind_eq_some_iff] at hv
    obtain ⟨w, h1, h2⟩ := hv
    rw [hx w h1]; exact h2
  | .cond c a b, hc, n, h => by
    simp only [Tree.visit, bind_ok, Except.ok.injEq] at h
    obtain ⟨m1, hm1, m2, hm2, m3, hm3, y, hy, rfl⟩ := h
    rw [Tree.inC, Tree.cOk] at hc
    obtain ⟨x1, rfl, hx1⟩ := visit_den par ρ c hc.1 m1 hm1
    obtain ⟨x2, rfl, hx2⟩ := visit_den par ρ a hc.2.1 m2 hm2
    obtain ⟨x3, rfl, hx3⟩ := visit_den par ρ b hc.2.2.1 m3 hm3
    obtain ⟨dt, rfl⟩ := mkTri_ok hy
    refine ⟨_, rfl, fun v hv => ?_⟩
    simp only [operands]
    rw [tri_den]
    exact choose_mono _ _ _ _ _ _ v hx1 hx2 hx3 (by simpa [Tree.den] using hv)
theorem visitL_den (par : String → Option DataType) (ρ : Env) : ∀ (ts : List Tree), Tree.cOkL (Tree.inCL ts) → ∀ xs,
    Tree.visitL par ts = .ok xs → ∀ vs, Tree.denL ρ ts = some vs → denL ρ xs = some vs
  | [], _, xs, h, vs, hv => by
    simp only [Tree.visitL, Except.ok.injEq] at h
    subst h
    simpa [Tree.denL, denL] using hv
  | t :: ts, hc, xs, h, vs, hv => by
    simp only [Tree.visitL, bind_ok, Except.ok.injEq] at h
    obtain ⟨m, hm, x, hx, ys, hys, rfl⟩ := h
    obtain ⟨y, rfl, hy⟩ := visit_den par ρ t hc.1 m hm
    simp only [firstOf, Except.ok.injEq] at hx
    subst hx
    simp only [Tree.denL, Option.bind_eq_some_iff, Option.map_eq_some_iff] at hv
    obtain ⟨v, h1, ws, h2, rfl⟩ := hv
    simp [denL, hy v h1, visitL_den par ρ ts hc.2 ys hys ws h2]
end

/-! ### Arithmetic stays arithmetic -/

/-- `op` is an arithmetic operator, an array access or a call. -/
def arOp (op : String) : Bool := op = "+" || op = "-" || op = "*" || op = "/" || op = "__getitem__" || op = "__call__"

/-- A set of numbers closed under Python's arithmetic. -/
class Closed (P : Num → Bool) : Prop where
  zero : P (.int 0) = true
  neg {x : Num} : P x = true → P x.neg = true
  addSub {x y : Num} (plus : Bool) : P x = true → P y = true → P (Num.addSub plus x y) = true
  mul {x y : Num} : P x = true → P y = true → P (Num.mul x y) = true
  div {x y : Num} : P x = true → P y = true → P (Num.div x y) = true

mutual
/-- Numbers (those of `P`), names, signs, parentheses, arithmetic operators, elements of arrays, and calls. -/
def Node.ar (P : Num → Bool) : Node → Bool
  | .num x _ => P x
  | .text .. => true
  | .un op _ xs => (op = "-" || op = "__group__") && arL P xs
  | .bin op _ ls rs => arOp op && arL P ls && arL P rs
  | _ => false
def arL (P : Num → Bool) : List Node → Bool
  | [] => true
  | x :: xs => x.ar P && arL P xs
end

set_option linter.unusedSectionVars false

section
variable {P : Num → Bool} [Closed P]

theorem mkBin_ar {op : String} {ls rs : List Node} {n : Node} (h : mkBin op ls rs = .ok n) (ho : arOp op = true)
    (hl : arL P ls = true) (hr : arL P rs = true) : n.ar P = true := by
  obtain ⟨dt, rfl⟩ := mkBin_ok h
  simp [Node.ar, ho, hl, hr]

theorem mkUn_ar {op : String} {xs : List Node} {n : Node} (h : mkUn op xs = .ok n) (ho : op = "-" ∨ op = "__group__")
    (hx : arL P xs = true) : n.ar P = true := by
  obtain ⟨dt, rfl⟩ := mkUn_ok h
  simp [Node.ar, ho, hx]

theorem arL_single (x : Node) : arL P [x] = x.ar P := by simp [arL]

theorem neg_ar (n m : Node) (hn : n.ar P = true) (h : n.neg = .ok m) : m.ar P = true := by
  cases n with
  | num x dt =>
    simp only [Node.neg] at h
    split_ifs at h
    · exact mkUn_ar h (.inl rfl) (by rw [arL_single]; exact hn)
    · simp only [Except.ok.injEq] at h; subst h; exact Closed.neg hn
  | text s dt o =>
    simp only [Node.neg] at h
    split_ifs at h
    · exact mkUn_ar h (.inl rfl) (by simp [arL, Node.ar])
  | boxed => simp [Node.ar] at hn
  | un op dt xs =>
    simp only [Node.neg] at h
    split_ifs at h
    · split at h
      · simp only [Except.ok.injEq] at h; subst h
        simp only [Node.ar, arL, Bool.and_eq_true] at hn
        exact hn.2.1
      · simp at h
    · exact mkUn_ar h (.inl rfl) (by rw [arL_single]; exact hn)
  | bin op dt ls rs => exact mkUn_ar h (.inl rfl) (by rw [arL_single]; exact hn)
  | tri => simp [Node.ar] at hn
  | expr => simp [Node.ar] at hn

mutual
theorem asType_ar (t : DataType) : ∀ (n m : Node), n.ar P = true → n.asType t = .ok m → m.ar P = true
  | .num x dt, m, hn, h => by simp only [Node.asType, Except.ok.injEq] at h; subst h; exact hn
  | .text s dt o, m, _, h => by simp only [Node.asType, Except.ok.injEq] at h; subst h; rfl
  | .boxed .., _, hn, _ => by simp [Node.ar] at hn
  | .un op dt xs, m, hn, h => by
    simp only [Node.asType, bind_ok] at h
    obtain ⟨ys, hy, h⟩ := h
    simp only [Node.ar, Bool.and_eq_true, Bool.or_eq_true, decide_eq_true_eq] at hn
    exact mkUn_ar h hn.1 (asTypeL_ar t xs ys hn.2 hy)
  | .bin op dt ls rs, m, hn, h => by
    simp only [Node.asType, bind_ok] at h
    obtain ⟨ys, hy, zs, hz, h⟩ := h
    simp only [Node.ar, Bool.and_eq_true] at hn
    exact mkBin_ar h hn.1.1 (asTypeL_ar t ls ys hn.1.2 hy) (asTypeL_ar t rs zs hn.2 hz)
  | .tri .., _, hn, _ => by simp [Node.ar] at hn
  | .expr .., _, hn, _ => by simp [Node.ar] at hn
theorem asTypeL_ar (t : DataType) : ∀ (xs ys : List Node), arL P xs = true → asTypeL t xs = .ok ys → arL P ys = true
  | [], ys, _, h => by simp only [asTypeL, Except.ok.injEq] at h; subst h; rfl
  | x :: xs, ys, hn, h => by
    simp only [asTypeL, bind_ok, Except.ok.injEq] at h
    obtain ⟨y, hy, zs, hz, rfl⟩ := h
    simp only [arL, Bool.and_eq_true] at hn ⊢
    exact ⟨asType_ar t x y hn.1 hy, asTypeL_ar t xs zs hn.2 hz⟩
end

theorem coerce_ar (n : Node) (h : n.ar P = true) : coerce n = n := by
  cases n <;> first | rfl | simp [Node.ar] at h

theorem operands_ar (n : Node) (h : n.ar P = true) : operands n = [n] := by
  cases n <;> first | rfl | simp [Node.ar] at h

theorem prep_ar (n : Node) (h : n.ar P = true) : prep n = n := by
  cases n <;> first | rfl | simp [Node.ar] at h

theorem foldPayload_ar (rec : Node → Node → Except Err Node) (f : Num → Num → Num) (t : DataType) (l r n : Node)
    (hf : ∀ x y, P x = true → P y = true → P (f x y) = true) (hl : l.ar P = true) (hr : r.ar P = true)
    (h : foldPayload rec f t l r = .ok n) : n.ar P = true := by
  cases l <;> cases r <;> simp only [foldPayload, Node.ar, Except.ok.injEq, reduceCtorEq, Bool.false_eq_true] at h hl hr
  subst h; exact hf _ _ hl hr

theorem negated_ar (r x : Node) (h : negated r = some x) (hr : r.ar P = true) : x.ar P = true := by
  unfold negated at h
  split at h
  · simp only [Option.some.injEq] at h
    subst h
    simp only [Node.ar, arL, Bool.and_eq_true] at hr
    exact hr.2.1
  · simp at h

theorem best_ar {x : Num} (h : P x = true) : (best x).ar P = true := by
  unfold best
  split
  · exact h
  · split_ifs <;> exact h

theorem negatedPayload_ar (r n : Node) (h : negatedPayload r = .ok n) (hr : r.ar P = true) : n.ar P = true := by
  cases r <;> simp only [negatedPayload, Node.ar, Except.ok.injEq, reduceCtorEq, Bool.false_eq_true] at h hr
  subst h
  exact best_ar (Closed.neg hr)

theorem signOp_ar (plus : Bool) : arOp (signOp plus) = true := by cases plus <;> decide

theorem addSub_ar : ∀ (fuel : Nat) (plus : Bool) (l r n : Node), l.ar P = true → r.ar P = true →
    addSub fuel plus l r = .ok n → n.ar P = true
  | 0, _, _, _, _, _, _, h => by simp [addSub] at h
  | fuel + 1, plus, l, r, n, hl, hr, h => by
    have h : (if l.isVal then valAddSub (addSub fuel) plus l r else opAddSub plus l r) = .ok n := by
      cases l <;> first | exact h | simp [Node.ar] at hl
    split_ifs at h with hv
    · simp only [valAddSub, coerce_ar r hr, bind_ok] at h
      obtain ⟨z, _, h⟩ := h
      repeat' first
        | (simp only [bind_ok] at h; obtain ⟨_, _, h⟩ := h)
        | obtain ⟨_, _, h⟩ : ∃ _, _ ∧ _ := h
        | split at h
      all_goals first
        | exact addSub_ar fuel _ l _ n hl (negated_ar r _ (by assumption) hr) h
        | exact addSub_ar fuel _ l _ n hl (negatedPayload_ar r _ (by assumption) hr) h
        | exact mkBin_ar h (signOp_ar plus) (by rw [arL_single, hl]) (by rw [arL_single, hr])
        | exact foldPayload_ar _ _ _ _ _ _ (fun _ _ => Closed.addSub _) hl hr h
        | exact neg_ar r n hr h
        | (simp only [Except.ok.injEq] at h; exact h ▸ hr)
        | (simp only [Except.ok.injEq] at h; exact h ▸ hl)
    · simp only [opAddSub, operands_ar r hr, bind_ok] at h
      obtain ⟨z, _, h⟩ := h
      split_ifs at h
      · simp only [Except.ok.injEq] at h; exact h ▸ hl
      · exact mkBin_ar h (signOp_ar plus) (by rw [arL_single, hl]) (by rw [arL_single, hr])

theorem mul_ar (fuel : Nat) (l r n : Node) (hl : l.ar P = true) (hr : r.ar P = true) (h : mul fuel l r = .ok n) :
    n.ar P = true := by
  cases fuel with
  | zero => simp [mul] at h
  | succ fuel =>
    have h : (if l.isVal then valMul (mul fuel) l r else opMul l r) = .ok n := by
      cases l <;> first | exact h | simp [Node.ar] at hl
    have hb : ∀ n, mkBin "*" [l] [r] = .ok n → n.ar P = true := fun n h =>
      mkBin_ar h (by decide) (by rw [arL_single, hl]) (by rw [arL_single, hr])
    split_ifs at h with hv
    · simp only [valMul, coerce_ar r hr, bind_ok] at h
      obtain ⟨a, _, b, _, z, _, h⟩ := h
      repeat' first
        | (simp only [bind_ok] at h; obtain ⟨_, _, h⟩ := h)
        | obtain ⟨_, _, h⟩ : ∃ _, _ ∧ _ := h
        | split at h
      all_goals first
        | (simp only [Except.ok.injEq] at h; subst h; exact Closed.zero)
        | exact asType_ar _ _ _ hr h
        | exact asType_ar _ _ _ hl h
        | exact hb n h
        | exact foldPayload_ar _ _ _ _ _ _ (fun _ _ => Closed.mul) hl hr h
        | exact asType_ar _ _ _ (neg_ar r _ hr (by assumption)) h
        | exact asType_ar _ _ _ (neg_ar l _ hl (by assumption)) h
        | simp at h
    · simp only [opMul, operands_ar r hr, bind_ok] at h
      obtain ⟨z, _, h⟩ := h
      split_ifs at h
      · simp only [Except.ok.injEq] at h; exact h ▸ hr
      · simp only [Except.ok.injEq] at h; exact h ▸ hl
      · exact neg_ar l n hl h
      · exact hb n h

theorem div_ar (fuel : Nat) (l r n : Node) (hl : l.ar P = true) (hr : r.ar P = true) (h : truediv fuel l r = .ok n) :
    n.ar P = true := by
  cases fuel with
  | zero => simp [truediv] at h
  | succ fuel =>
    have h : (if l.isVal then valDiv (truediv fuel) l r else opDiv l r) = .ok n := by
      cases l <;> first | exact h | simp [Node.ar] at hl
    have hb : ∀ n, mkBin "/" [l] [r] = .ok n → n.ar P = true := fun n h =>
      mkBin_ar h (by decide) (by rw [arL_single, hl]) (by rw [arL_single, hr])
    split_ifs at h with hv
    · simp only [valDiv, coerce_ar r hr, bind_ok] at h
      obtain ⟨a, _, b, _, c, _, z, _, h⟩ := h
      repeat' first
        | (simp only [bind_ok] at h; obtain ⟨_, _, h⟩ := h)
        | obtain ⟨_, _, h⟩ : ∃ _, _ ∧ _ := h
        | split at h
      all_goals first
        | (simp only [Except.ok.injEq] at h; subst h; exact Closed.zero)
        | exact asType_ar _ _ _ hr h
        | exact asType_ar _ _ _ hl h
        | exact hb n h
        | exact foldPayload_ar _ _ _ _ _ _ (fun _ _ => Closed.div) hl hr h
        | exact asType_ar _ _ _ (neg_ar r _ hr (by assumption)) h
        | exact asType_ar _ _ _ (neg_ar l _ hl (by assumption)) h
        | simp at h
    · simp only [opDiv, operands_ar r hr, bind_ok] at h
      obtain ⟨z, _, h⟩ := h
      split_ifs at h
      · simp only [Except.ok.injEq] at h; exact h ▸ hl
      · exact neg_ar l n hl h
      · exact hb n h

/-! ### What is printed for arithmetic -/

/-- Tokens of arithmetic with numbers of `P`. -/
def Tok.overP (P : Num → Bool) (tk : Tok) : Prop := tk.over Arithmetic ∧ ∀ x, tk = .lit x → P x = true

/-- Tokens of arithmetic, or the token `--`. -/
def Tok.overD (P : Num → Bool) (tk : Tok) : Prop := tk.overP P ∨ tk = .decr

theorem overP_of {tk : Tok} (h : tk.over Arithmetic) (hl : ∀ x, tk ≠ .lit x) : tk.overP P := ⟨h, fun x e => absurd e (hl x)⟩

mutual
theorem ar_toks : ∀ (n : Node), n.ar P = true → ∀ tk ∈ n.toks, tk.overD P
  | .num x dt, hn => by
    simp only [Node.toks, numToks]
    split_ifs <;> intro tk h <;> simp only [List.mem_cons, List.not_mem_nil, or_false] at h
    · rcases h with rfl | rfl
      · exact .inl (overP_of (.inr (.inl rfl)) (by simp))
      · refine .inl ⟨trivial, fun y e => ?_⟩
        simp only [Tok.lit.injEq] at e
        subst e
        exact Closed.neg hn
    · subst h
      refine .inl ⟨trivial, fun y e => ?_⟩
      simp only [Tok.lit.injEq] at e
      subst e
      exact hn
  | .text s dt o, _ => by simp [Node.toks, Tok.overD, Tok.overP, Tok.over]
  | .boxed .., h => by simp [Node.ar] at h
  | .un op dt xs, h => by
    simp only [Node.ar, Bool.and_eq_true, Bool.or_eq_true, decide_eq_true_eq] at h
    have ih := arL_toks xs h.2
    rcases h.1 with rfl | rfl
    · simp only [Node.toks, minusBefore]
      intro tk ht
      simp only [String.reduceEq, if_false, if_true] at ht
      split at ht <;> rename_i heq <;> simp only [List.mem_cons] at ht
      · rcases ht with rfl | ht
        · exact .inr rfl
        · exact ih tk (by rw [heq]; exact .tail _ ht)
      · rcases ht with rfl | ht
        · exact .inl (overP_of (.inr (.inl rfl)) (by simp))
        · exact ih tk ht
    · intro tk ht
      simp only [Node.toks, if_true, List.cons_append, List.mem_cons, List.mem_append, List.not_mem_nil, or_false] at ht
      rcases ht with rfl | ht | rfl
      · exact .inl (overP_of trivial (by simp))
      · exact ih tk ht
      · exact .inl (overP_of trivial (by simp))
  | .bin op dt ls rs, h => by
    simp only [Node.ar, Bool.and_eq_true] at h
    have il := arL_toks ls h.1.2
    have ir := arL_toks rs h.2
    have ho := h.1.1
    simp only [arOp, Bool.or_eq_true, decide_eq_true_eq] at ho
    intro tk ht
    rcases ho with ((((rfl | rfl) | rfl) | rfl) | rfl) | rfl <;>
      simp [Node.toks, parenOp] at ht
    · rcases ht with rfl | ht | rfl | ht | rfl
      · exact .inl (overP_of trivial (by simp))
      · exact il tk ht
      · exact .inl (overP_of (.inl rfl) (by simp))
      · exact ir tk ht
      · exact .inl (overP_of trivial (by simp))
    · rcases ht with rfl | ht | rfl | ht | rfl
      · exact .inl (overP_of trivial (by simp))
      · exact il tk ht
      · exact .inl (overP_of (.inr (.inl rfl)) (by simp))
      · exact ir tk ht
      · exact .inl (overP_of trivial (by simp))
    · rcases ht with ht | rfl | ht
      · exact il tk ht
      · exact .inl (overP_of (.inr (.inr (.inl rfl))) (by simp))
      · exact ir tk ht
    · rcases ht with ht | rfl | ht
      · exact il tk ht
      · exact .inl (overP_of (.inr (.inr (.inr rfl))) (by simp))
      · exact ir tk ht
    · rcases ht with ht | rfl | ht | rfl
      · exact il tk ht
      · exact .inl (overP_of trivial (by simp))
      · exact ir tk ht
      · exact .inl (overP_of trivial (by simp))
    · rcases ht with ht | rfl | ht | rfl
      · exact il tk ht
      · exact .inl (overP_of trivial (by simp))
      · exact ir tk ht
      · exact .inl (overP_of trivial (by simp))
  | .tri .., h => by simp [Node.ar] at h
  | .expr .., h => by simp [Node.ar] at h
theorem arL_toks : ∀ (xs : List Node), arL P xs = true → ∀ tk ∈ toksL xs, tk.overD P
  | [], _ => by simp [toksL]
  | [x], h => by
    simp only [arL, Bool.and_true] at h
    simpa [toksL] using ar_toks x h
  | x :: y :: ys, h => by
    rw [arL, Bool.and_eq_true] at h
    have h1 := ar_toks x h.1
    have h2 := arL_toks (y :: ys) h.2
    intro tk ht
    rw [toksL] at ht
    simp only [List.mem_append, List.mem_cons] at ht
    rcases ht with ht | rfl | ht
    · exact h1 tk ht
    · exact .inl (overP_of trivial (by simp))
    · exact h2 tk ht
end

mutual
theorem tree_no_decr : ∀ (t : Tree), Tok.decr ∉ t.toks
  | .none => by simp [Tree.toks]
  | .lit x => by simp [Tree.toks]
  | .id s => by simp [Tree.toks]
  | .group t => by simp [Tree.toks, tree_no_decr t]
  | .neg t => by simp [Tree.toks, tree_no_decr t]
  | .pos t => by simp [Tree.toks, tree_no_decr t]
  | .bin o l r => by
    have h1 := tree_no_decr l
    have h2 := tree_no_decr r
    rw [Tree.toks]
    split_ifs <;> simp [h1, h2]
  | .call f as => by simp [Tree.toks, treeL_no_decr as]
  | .not t => by simp [Tree.toks, tree_no_decr t]
  | .cond c a b => by simp [Tree.toks, tree_no_decr c, tree_no_decr a, tree_no_decr b]
theorem treeL_no_decr : ∀ (ts : List Tree), Tok.decr ∉ Tree.toksL ts
  | [] => by simp [Tree.toksL]
  | [t] => by simpa [Tree.toksL] using tree_no_decr t
  | t :: u :: us => by
    rw [toksL_cons t (u :: us) (by simp)]
    simp only [List.mem_append, List.mem_cons, reduceCtorEq, false_or, not_or]
    exact ⟨tree_no_decr t, treeL_no_decr (u :: us)⟩
end

mutual
/-- The visitor makes arithmetic of arithmetic. -/
theorem visit_ar (par : String → Option DataType) : ∀ (t : Tree), t.inC.cOk → (∀ tk ∈ t.toks, tk.overP P) →
    ∀ n, t.visit par = .ok n → ∃ x, n = .expr [x] ∧ x.ar P = true
  | .none, hc, _, _, _ => by simp [Tree.inC, Tree.cOk] at hc
  | .lit x, _, hs, n, h => by
    cases x <;> simp only [Tree.visit, Except.ok.injEq] at h <;> subst h <;>
      exact ⟨_, rfl, (hs _ (by simp [Tree.toks])).2 _ rfl⟩
  | .id s, _, _, n, h => by
    simp only [Tree.visit] at h
    split at h <;> simp only [Except.ok.injEq] at h <;> subst h <;> exact ⟨_, rfl, rfl⟩
  | .group t, hc, hs, n, h => by
    simp only [Tree.visit, bind_ok, Except.ok.injEq] at h
    obtain ⟨m, hm, y, hy, rfl⟩ := h
    obtain ⟨x, rfl, hx⟩ := visit_ar par t (by simpa [Tree.inC, Tree.cOk] using hc) (fun tk h => hs tk (by simp [Tree.toks, h])) m hm
    exact ⟨y, rfl, mkUn_ar hy (.inr rfl) (by rw [operands, arL_single, hx])⟩
  | .neg t, hc, hs, n, h => by
    simp only [Tree.visit, bind_ok] at h
    obtain ⟨m, hm, h⟩ := h
    obtain ⟨x, rfl, hx⟩ := visit_ar par t (by rw [Tree.inC, Tree.cOk] at hc; exact hc.1) (fun tk h => hs tk (by simp [Tree.toks, h])) m hm
    obtain ⟨y, rfl, hy⟩ := only_expr_neg x n h
    exact ⟨y, rfl, neg_ar x y hx hy⟩
  | .pos t, hc, hs, n, h => by
    simp only [Tree.visit] at h
    exact visit_ar par t (by rw [Tree.inC, Tree.cOk] at hc; exact hc.1) (fun tk h => hs tk (by simp [Tree.toks, h])) n h
  | .bin o l r, hc, hs, n, h => by
    rcases bin_cases o l with ⟨rfl, ho⟩ | hb
    · rw [inC_sign o r ho] at hc
      obtain ⟨hr, _, _⟩ := lead_ok o _ hc
      have ha := sign_not_access o ho
      rw [toks_infix o .none r ha] at hs
      simp only [Tree.visit, ha, Bool.false_eq_true, if_false, bind_ok, Except.ok.injEq] at h
      obtain ⟨_, rfl, b, hb', h⟩ := h
      obtain ⟨y, rfl, hy⟩ := visit_ar par r hr (fun tk h => hs tk (by simp [h])) b hb'
      obtain ⟨z, rfl, hz⟩ := missing_sign o y n ho h
      rw [coerce_ar y hy] at hz
      rcases hz with ⟨_, hz⟩ | ⟨_, rfl⟩
      · exact ⟨z, rfl, neg_ar y z hy hz⟩
      · exact ⟨z, rfl, hy⟩
    rw [inC_bin o l r hb] at hc
    by_cases ha : accessOp o = true
    · by_cases hg : o = "__getitem__"
      · subst hg
        have hl : (∃ s, l = .id s) ∧ r.inC.cOk := by
          rw [Tree.cOk, if_pos rfl] at hc
          obtain ⟨⟨s, hs⟩, h2⟩ := hc
          exact ⟨⟨s, inC_id l s hs⟩, h2⟩
        obtain ⟨⟨s, rfl⟩, hr⟩ := hl
        simp only [Tree.visit, ha, if_true, bind_ok, Except.ok.injEq] at h
        obtain ⟨m, hm, y, hy, rfl⟩ := h
        obtain ⟨x, rfl, hx⟩ := visit_ar par r hr (fun tk h => hs tk (by simp [Tree.toks, h])) m hm
        exact ⟨y, rfl, mkBin_ar hy (by decide) (by rw [arL_single]; rfl) (by rw [operands, arL_single, hx])⟩
      · exfalso
        simp only [accessOp, Bool.or_eq_true, decide_eq_true_eq, hg, or_false] at ha
        rcases ha with rfl | rfl
        · exact (hs .dot (by simp [Tree.toks])).1
        · exact (hs .arrow (by simp [Tree.toks])).1
    · have ha : accessOp o = false := by simpa using ha
      obtain ⟨h0, hl, hr, _, _⟩ := (cOk_infix o _ _ ha).mp hc
      rw [toks_infix o l r ha] at hs
      simp only [Tree.visit, ha, Bool.false_eq_true, if_false, bind_ok] at h
      obtain ⟨a, ha', b, hb', h⟩ := h
      obtain ⟨x, rfl, hx⟩ := visit_ar par l hl (fun tk h => hs tk (by simp [h])) a ha'
      obtain ⟨y, rfl, hy⟩ := visit_ar par r hr (fun tk h => hs tk (by simp [h])) b hb'
      obtain ⟨k, hk⟩ := enough_succ (.expr [x]) (.expr [y])
      have ho : Arithmetic o := (hs (.op o) (by simp)).1
      rcases ho with rfl | rfl | rfl | rfl <;> simp only [arithOp, String.reduceEq, if_false, if_true] at h
      · obtain ⟨z, rfl, hz⟩ := addSub_expr k true x _ n (by rw [← hk]; exact h)
        exact ⟨z, rfl, addSub_ar _ _ _ _ _ hx (by simpa [prep] using hy) hz⟩
      · obtain ⟨z, rfl, hz⟩ := addSub_expr k false x _ n (by rw [← hk]; exact h)
        exact ⟨z, rfl, addSub_ar _ _ _ _ _ hx (by simpa [prep] using hy) hz⟩
      · obtain ⟨z, rfl, hz⟩ := mul_expr k x _ n (by rw [← hk]; exact h)
        exact ⟨z, rfl, mul_ar _ _ _ _ hx (by simpa [prep] using hy) hz⟩
      · obtain ⟨z, rfl, hz⟩ := div_expr k x _ n (by rw [← hk]; exact h)
        exact ⟨z, rfl, div_ar _ _ _ _ hx (by simpa [prep] using hy) hz⟩
  | .call f as, hc, hs, n, h => by
    simp only [Tree.visit, bind_ok, Except.ok.injEq] at h
    obtain ⟨xs, hxs, y, hy, rfl⟩ := h
    rw [Tree.inC, Tree.cOk] at hc
    exact ⟨y, rfl, mkBin_ar hy (by decide) (by rw [arL_single]; rfl)
      (visitL_ar par as hc.2 (fun tk h => hs tk (by simp [Tree.toks, h])) xs hxs)⟩
  | .not t, _, hs, _, _ => (hs .bang (by simp [Tree.toks])).1.elim
  | .cond c a b, _, hs, _, _ => (hs .quest (by simp [Tree.toks])).1.elim
theorem visitL_ar (par : String → Option DataType) : ∀ (ts : List Tree), Tree.cOkL (Tree.inCL ts) →
    (∀ tk ∈ Tree.toksL ts, tk.overP P) → ∀ xs, Tree.visitL par ts = .ok xs → arL P xs = true
  | [], _, _, xs, h => by simp only [Tree.visitL, Except.ok.injEq] at h; subst h; rfl
  | t :: ts, hc, hs, xs, h => by
    simp only [Tree.visitL, bind_ok, Except.ok.injEq] at h
    obtain ⟨m, hm, x, hx, ys, hys, rfl⟩ := h
    have h1 : ∀ tk ∈ t.toks, tk.overP P := by
      cases ts with
      | nil => simpa [Tree.toksL] using hs
      | cons u us =>
        rw [toksL_cons t _ (by simp)] at hs
        exact fun tk h => hs tk (by simp [h])
    have h2 : ∀ tk ∈ Tree.toksL ts, tk.overP P := by
      cases ts with
      | nil => simp [Tree.toksL]
      | cons u us =>
        rw [toksL_cons t _ (by simp)] at hs
        exact fun tk h => hs tk (by simp [h])
    obtain ⟨y, rfl, hy⟩ := visit_ar par t hc.1 h1 m hm
    simp only [firstOf, Except.ok.injEq] at hx
    subst hx
    rw [arL, hy, visitL_ar par ts hc.2 h2 ys hys]; rfl
end

end

instance : Closed fun _ => true := ⟨rfl, fun _ => rfl, fun _ _ _ => rfl, fun _ _ => rfl, fun _ _ => rfl⟩

theorem over_iff (tk : Tok) : tk.overP (fun _ => true) ↔ tk.over Arithmetic := by simp [Tok.overP]

/-- What is printed for arithmetic with numbers of `P` is again such a text. -/
theorem visit_toks (P : Num → Bool) [Closed P] (par : String → Option DataType) (t : Tree) (n : Node) (hc : t.inC.cOk)
    (hs : ∀ tk ∈ t.toks, tk.overP P) (hv : t.visit par = .ok n) (t' : Tree) (h' : ReadAs n.toks t') :
    ∀ tk ∈ t'.toks, tk.overP P := by
  rw [← readAs_toks _ _ h']
  obtain ⟨x, rfl, hx⟩ := visit_ar par t hc hs n hv
  have hx' : (Node.expr [x]).toks = x.toks := by simp [Node.toks, toksL]
  intro tk ht
  rcases ar_toks x hx tk (by rw [← hx']; exact ht) with h1 | rfl
  · exact h1
  · exact absurd (by rw [← readAs_toks _ _ h']; exact ht) (tree_no_decr t')

/-! ### The theorems -/

/-- C85, from text to text: suppose C reads `ts` as the grammar does, up to the place of the signs (`same_value_iff`), the visitor
makes an expression of it, and what is printed for it has enough parentheses (C13). Then if the generated text, too, is one which
C reads as the grammar does, it has in C the value that `ts` itself has in C. -/
theorem generated_meaning_partial (par : String → Option DataType) (ts : List Tok) (t : Tree) (n : Node)
    (h : ReadAs ts t) (hc : CReadAs ts t.inC) (hv : t.visit par = .ok n) (hp : n.printable = true)
    (hs : ∀ t', ReadAs n.toks t' → t'.whole = true → CReadAs n.toks t'.inC) :
    ∃ t', CReadAs n.toks t' ∧ ∀ (ρ : Env) (v : Base), t.inC.den ρ = some v → t'.den ρ = some v := by
  obtain ⟨t', h', hw, hd⟩ := print_read_whole n hp
  have hok := (same_value_iff ts t h).1.mp hc
  have hs' := hs t' h' hw
  refine ⟨t'.inC, hs', fun ρ v ht => ?_⟩
  obtain ⟨x, rfl, hx⟩ := visit_den par ρ t hok n hv
  rw [(same_value_iff _ t' h').2 hs' ρ, hd, expr_den]
  exact hx v (by rw [← ht, (same_value_iff ts t h).2 hc ρ])

/-- C85 for arithmetic, of any length and nesting: numbers, names, signs, `+ - * /`, parentheses, calls and elements of arrays, no
operand missing other than before a sign. When the visitor accepts it and what is printed has enough parentheses (C13), the
generated C text is read by C with the value that the text in the instrument has in C. -/
theorem generated_arithmetic_partial (par : String → Option DataType) (ts : List Tok) (t : Tree) (n : Node)
    (hts : ∀ tk ∈ ts, tk.over Arithmetic) (h : ReadAs ts t) (hw : t.whole = true) (hv : t.visit par = .ok n)
    (hp : n.printable = true) :
    CReadAs ts t.inC ∧ ∃ t', CReadAs n.toks t' ∧ ∀ (ρ : Env) (v : Base), t.inC.den ρ = some v → t'.den ρ = some v := by
  have hc := (arithmetic_read_as_in_c ts hts t h hw).1
  have hok := (same_value_iff ts t h).1.mp hc
  refine ⟨hc, generated_meaning_partial par ts t n h hc hv hp fun t' h' hw' => ?_⟩
  refine (arithmetic_read_as_in_c n.toks ?_ t' h' hw').1
  have e := readAs_toks ts t h
  have := visit_toks (fun _ => true) par t n hok (by rw [← e]; exact fun tk h => (over_iff tk).mpr (hts tk h)) hv t' h'
  rw [readAs_toks _ _ h']
  exact fun tk h => (over_iff tk).mp (this tk h)

/-- `-(E - 2) * v[i + 1] / f(x, 4)`, with a parameter `E` -/
example : ∃ t n, ReadAs [.op "-", .lpar, .id "E", .op "-", .lit (.int 2), .rpar, .op "*", .id "v", .lbr, .id "i", .op "+",
      .lit (.int 1), .rbr, .op "/", .id "f", .lpar, .id "x", .comma, .lit (.int 4), .rpar] t ∧ t.whole = true ∧
    t.visit (fun s => if s = "E" then some .float else none) = .ok n ∧ n.printable = true := by
  refine ⟨.bin "-" .none (.bin "/" (.bin "*" (.group (.bin "-" (.id "E") (.lit (.int 2))))
    (.bin "__getitem__" (.id "v") (.bin "+" (.id "i") (.lit (.int 1))))) (.call "f" [.id "x", .lit (.int 4)])), _, ?_, rfl, rfl,
    by decide +kernel⟩
  exact .none rfl (.bin (by decide) (by decide)
    (.group (.id rfl (.bin (by decide) (by decide) (.lit (.stop rfl)) (.stop rfl)))
      (.bin (by decide) (by decide) (.index (.id rfl (.bin (by decide) (by decide) (.lit (.stop rfl)) (.stop rfl))) (.stop rfl))
        (.bin (by decide) (by decide) (.call (.argsMore (.id rfl (.stop rfl)) (.argsLast (.lit (.stop rfl)))) (.stop rfl))
          (.stop rfl)))) (.stop rfl))

/-- C85 fails for `%` after a sum: of `a - b % c` the C text `((a - b) % c)` is generated, while C reads the instrument's own
text as `a - (b % c)`. -/
theorem remainder_changes_meaning (a b c : String) : ∃ t n,
    ReadAs [.id a, .op "-", .id b, .op "%", .id c] t ∧ t.visit (fun _ => none) = .ok n ∧
    CReadAs [.id a, .op "-", .id b, .op "%", .id c] (.bin "-" (.id a) (.bin "%" (.id b) (.id c))) ∧
    n.toks = [.lpar, .lpar, .id a, .op "-", .id b, .rpar, .op "%", .id c, .rpar] ∧
    CReadAs n.toks (.group (.bin "%" (.group (.bin "-" (.id a) (.id b))) (.id c))) := by
  refine ⟨.bin "%" (.bin "-" (.id a) (.id b)) (.id c),
    .expr [.bin "%" .undefined [.bin "-" .undefined [.text a .undefined .ident] [.text b .undefined .ident]]
      [.text c .undefined .ident]], ?_, rfl, ?_, rfl, ?_⟩
  · exact .id rfl (.bin (by decide) (by decide) (.id rfl (.stop (by simp [stops, cstops, rightLev, lev, clev])))
      (.bin (by decide) (by decide) (.id rfl (.stop rfl)) (.stop rfl)))
  · exact .id rfl (.bin (by decide) (by decide) (.id rfl (.bin (by decide) (by decide) (.id rfl (.stop rfl)) (.stop rfl)))
      (.stop rfl))
  · exact .group (.group (.id rfl (.bin (by decide) (by decide) (.id rfl (.stop rfl)) (.stop rfl)))
      (.bin (by decide) (by decide) (.id rfl (.stop rfl)) (.stop rfl))) (.stop rfl)

/-- `%` on whole numbers, as in C (of numbers that are not negative). -/
def remainder (op : String) : List Base → List Base → Option Base
  | [.num x], [.num y] => if op = "%" then some (.num ((x.num.toNat % y.num.toNat : Nat) : ℚ)) else none
  | _, _ => none

/-- With the numbers 7, 5 and 3 the two are 5 and 2. -/
example (fn1 : String → List Base → Option Base) :
    (Tree.bin "-" (.id "a") (.bin "%" (.id "b") (.id "c"))).den
      (Env.ofNumbers (fun s => if s = "a" then 7 else if s = "b" then 5 else 3) fn1 remainder) = some (.num 5) ∧
    (Tree.group (.bin "%" (.group (.bin "-" (.id "a") (.id "b"))) (.id "c"))).den
      (Env.ofNumbers (fun s => if s = "a" then 7 else if s = "b" then 5 else 3) fn1 remainder) = some (.num 2) := by
  have h : ((7 : ℚ) - 5) = ((2 : ℤ) : ℚ) := by norm_num
  constructor
  · simp [Tree.den, Tree.isNone, Env.ofNumbers, apply2, arith, remainder]
    norm_num
  · simp only [Tree.den, Env.ofNumbers, apply2, arith, remainder]
    simp [Tree.isNone, h]

/-- The same for shifts: of `a << b >> c` the C text `(a << (b >> c))` is generated, C reads it as `(a << b) >> c`. -/
theorem shift_changes_meaning (a b c : String) : ∃ t n,
    ReadAs [.id a, .op "<<", .id b, .op ">>", .id c] t ∧ t.visit (fun _ => none) = .ok n ∧
    CReadAs [.id a, .op "<<", .id b, .op ">>", .id c] (.bin ">>" (.bin "<<" (.id a) (.id b)) (.id c)) ∧
    n.toks = [.lpar, .id a, .op "<<", .lpar, .id b, .op ">>", .id c, .rpar, .rpar] ∧
    CReadAs n.toks (.group (.bin "<<" (.id a) (.group (.bin ">>" (.id b) (.id c))))) := by
  refine ⟨.bin "<<" (.id a) (.bin ">>" (.id b) (.id c)),
    .expr [.bin "<<" .undefined [.text a .undefined .ident] [.bin ">>" .undefined [.text b .undefined .ident]
      [.text c .undefined .ident]]], ?_, rfl, ?_, rfl, ?_⟩
  · exact .id rfl (.bin (by decide) (by decide) (.id rfl (.bin (by decide) (by decide) (.id rfl (.stop rfl)) (.stop rfl)))
      (.stop rfl))
  · exact .id rfl (.bin (by decide) (by decide) (.id rfl (.stop (by simp [stops, cstops, rightLev, lev, clev])))
      (.bin (by decide) (by decide) (.id rfl (.stop rfl)) (.stop rfl)))
  · exact .group (.id rfl (.bin (by decide) (by decide) (.group (.id rfl (.bin (by decide) (by decide) (.id rfl (.stop rfl))
      (.stop rfl))) (.stop rfl)) (.stop rfl))) (.stop rfl)

/-- Logic is read in another way by the grammar, too, `a || b && c` as `(a || b) && c`, but is printed without parentheses, so
that C reads the generated text as it reads the one in the instrument. -/
theorem logic_printed_as_written (a b c : String) : ∃ t n,
    ReadAs [.id a, .op "__or__", .id b, .op "__and__", .id c] t ∧ ¬CReadAs [.id a, .op "__or__", .id b, .op "__and__", .id c] t ∧
    t.visit (fun _ => none) = .ok n ∧ n.toks = [.id a, .op "__or__", .id b, .op "__and__", .id c] := by
  have h : ReadAs [.id a, .op "__or__", .id b, .op "__and__", .id c]
      (.bin "__and__" (.bin "__or__" (.id a) (.id b)) (.id c)) :=
    .id rfl (.bin (by decide) (by decide) (.id rfl (.stop (by simp [stops, cstops, rightLev, lev, clev])))
      (.bin (by decide) (by decide) (.id rfl (.stop rfl)) (.stop rfl)))
  refine ⟨_, .expr [.bin "__and__" .undefined [.bin "__or__" .undefined [.text a .undefined .ident]
    [.text b .undefined .ident]] [.text c .undefined .ident]], h, ?_, rfl, rfl⟩
  rw [same_reading_iff _ _ h, cOk_infix _ _ _ rfl]
  rintro ⟨_, _, _, h, _⟩
  rw [ctop_infix _ _ _ rfl] at h
  revert h
  decide

/-! ### A sign after an operator -/

/-- C86: a sign after an operator belongs to the operand behind it exactly if the operator is not one of `+ - * / ^`. After those
it is taken for a subtraction (or addition), whose left operand is the operation with nothing. -/
theorem sign_belongs_to_operand_iff (o sg a b : String) (ho : o ∈ "__pow__" :: binaryOperators) (hsg : sg = "-" ∨ sg = "+") :
    (ReadAs [.id a, .op o, .op sg, .id b] (.bin o (.id a) (.bin sg .none (.id b))) ↔ o ∉ ["+", "-", "*", "/", "__pow__"]) ∧
    (ReadAs [.id a, .op o, .op sg, .id b] (.bin sg (.bin o (.id a) .none) (.id b)) ↔ o ∈ ["+", "-", "*", "/", "__pow__"]) := by
  have key : ∀ o ∈ "__pow__" :: binaryOperators, 0 < lev o ∧ (rightLev o ≤ 12 ↔ o ∉ ["+", "-", "*", "/", "__pow__"]) := by
    decide +kernel
  obtain ⟨h0, hk⟩ := key o ho
  have hs : lev sg = 12 := by rcases hsg with rfl | rfl <;> rfl
  have hr : rightLev sg = 13 := by rcases hsg with rfl | rfl <;> rfl
  have hb : ∀ k, k ≤ 12 → Reads (.expr k [.op sg, .id b]) (.tree (.bin sg .none (.id b)) []) := fun k hk =>
    .none rfl (.bin (by omega) (by omega) (by rw [hr]; exact .id rfl (.stop rfl)) (.stop rfl))
  have hc : ∀ k, 12 < k → Reads (.expr k [.op sg, .id b]) (.tree .none [.op sg, .id b]) := fun k hk =>
    .none rfl (.stop (by simp [stops]; omega))
  by_cases hm : o ∈ ["+", "-", "*", "/", "__pow__"]
  · have hl : 12 < rightLev o := by
      by_contra h
      exact (hk.mp (by omega)) hm
    have h1 : ReadAs [.id a, .op o, .op sg, .id b] (.bin sg (.bin o (.id a) .none) (.id b)) :=
      .id rfl (.bin h0 (Nat.zero_le _) (hc _ hl)
        (.bin (by omega) (Nat.zero_le _) (by rw [hr]; exact .id rfl (.stop rfl)) (.stop rfl)))
    refine ⟨⟨fun h => ?_, fun h => absurd hm h⟩, ⟨fun _ => hm, fun _ => h1⟩⟩
    have := reads_unique _ _ _ h h1
    simp at this
  · have h1 : ReadAs [.id a, .op o, .op sg, .id b] (.bin o (.id a) (.bin sg .none (.id b))) :=
      .id rfl (.bin h0 (Nat.zero_le _) (hb _ (hk.mpr hm)) (.stop rfl))
    refine ⟨⟨fun _ => hm, fun _ => h1⟩, ⟨fun h => ?_, fun h => absurd h hm⟩⟩
    have := reads_unique _ _ _ h h1
    simp at this

example : "*" ∈ "__pow__" :: binaryOperators ∧ "__lt__" ∈ "__pow__" :: binaryOperators ∧
    "*" ∈ ["+", "-", "*", "/", "__pow__"] ∧ "__lt__" ∉ ["+", "-", "*", "/", "__pow__"] := by decide

/-- C85 and C86 fail for a sign after `*`: of `a * -b` the grammar makes the difference of the product of `a` with nothing, and `b`. The
C text `-b` is generated, while C reads the text of the instrument as the product of `a` and the opposite of `b`. -/
theorem sign_after_times_changes_meaning (a b : String) : ∃ t n,
    ReadAs [.id a, .op "*", .op "-", .id b] t ∧ t.visit (fun _ => none) = .ok n ∧ n.toks = [.op "-", .id b] ∧
    CReadAs n.toks (.neg (.id b)) ∧ CReadAs [.id a, .op "*", .op "-", .id b] (.bin "*" (.id a) (.neg (.id b))) := by
  refine ⟨.bin "-" (.bin "*" (.id a) .none) (.id b), .expr [.un "-" .undefined [.text b .undefined .ident]], ?_, rfl, rfl, ?_, ?_⟩
  · exact .id rfl (.bin (by decide) (by decide) (.none rfl (.stop (by simp [stops, rightLev, lev])))
      (.bin (by decide) (by decide) (.id rfl (.stop rfl)) (.stop rfl)))
  · exact .sign (.inl rfl) (.id rfl (.stop rfl)) (.stop rfl)
  · exact .id rfl (.bin (by decide) (by decide) (.sign (.inl rfl) (.id rfl (.stop rfl)) (.stop rfl)) (.stop rfl))

/-- C85 and C86 fail for a sign after `-`: of `a - -b` the C text `(a - b)` is generated. -/
theorem sign_after_minus_changes_meaning (a b : String) : ∃ t n,
    ReadAs [.id a, .op "-", .op "-", .id b] t ∧ t.visit (fun _ => none) = .ok n ∧
    n.toks = [.lpar, .id a, .op "-", .id b, .rpar] ∧ CReadAs n.toks (.group (.bin "-" (.id a) (.id b))) ∧
    CReadAs [.id a, .op "-", .op "-", .id b] (.bin "-" (.id a) (.neg (.id b))) := by
  refine ⟨.bin "-" (.bin "-" (.id a) .none) (.id b),
    .expr [.bin "-" .undefined [.text a .undefined .ident] [.text b .undefined .ident]], ?_, rfl, rfl, ?_, ?_⟩
  · exact .id rfl (.bin (by decide) (by decide) (.none rfl (.stop (by simp [stops, rightLev, lev])))
      (.bin (by decide) (by decide) (.id rfl (.stop rfl)) (.stop rfl)))
  · exact .group (.id rfl (.bin (by decide) (by decide) (.id rfl (.stop rfl)) (.stop rfl))) (.stop rfl)
  · exact .id rfl (.bin (by decide) (by decide) (.sign (.inl rfl) (.id rfl (.stop rfl)) (.stop rfl)) (.stop rfl))

/-- With the numbers 5 and 2: `5 * -2` and `-2`, `5 - -2` and `5 - 2`. -/
example : let ρ := Env.ofNumbers (fun s => if s = "a" then 5 else 2) (fun _ _ => none) fun _ _ _ => none
    (Tree.bin "*" (.id "a") (.neg (.id "b"))).den ρ = some (.num (-10)) ∧ (Tree.neg (.id "b")).den ρ = some (.num (-2)) ∧
    (Tree.bin "-" (.id "a") (.neg (.id "b"))).den ρ = some (.num 7) ∧
    (Tree.group (.bin "-" (.id "a") (.id "b"))).den ρ = some (.num 3) := by decide +kernel

/-- After `+` the result is the right one: of `a + -b` the C text `(a - b)` is generated. -/
theorem sign_after_plus (a b : String) : ∃ t n,
    ReadAs [.id a, .op "+", .op "-", .id b] t ∧ t.visit (fun _ => none) = .ok n ∧
    n.toks = [.lpar, .id a, .op "-", .id b, .rpar] := by
  refine ⟨.bin "-" (.bin "+" (.id a) .none) (.id b),
    .expr [.bin "-" .undefined [.text a .undefined .ident] [.text b .undefined .ident]], ?_, rfl, rfl⟩
  exact .id rfl (.bin (by decide) (by decide) (.none rfl (.stop (by simp [stops, rightLev, lev])))
    (.bin (by decide) (by decide) (.id rfl (.stop rfl)) (.stop rfl)))

/-- After `/` the text is refused: a string cannot divide. -/
theorem sign_after_divide_refused (a b : String) : ∃ t,
    ReadAs [.id a, .op "/", .op "-", .id b] t ∧ t.visit (fun _ => none) = .error .runtimeError := by
  refine ⟨.bin "-" (.bin "/" (.id a) .none) (.id b), ?_, rfl⟩
  exact .id rfl (.bin (by decide) (by decide) (.none rfl (.stop (by simp [stops, rightLev, lev])))
    (.bin (by decide) (by decide) (.id rfl (.stop rfl)) (.stop rfl)))

/-- C85 and C86 fail for a call without arguments: of `f()` the C text `f("")` is generated. -/
theorem call_without_arguments_gets_one (f : String) : ∃ t n,
    ReadAs [.id f, .lpar, .rpar] t ∧ t.visit (fun _ => none) = .ok n ∧ n.toks = [.id f, .lpar, .id "\"\"", .rpar] := by
  refine ⟨.call f [.none], .expr [.bin "__call__" .undefined [.text f .undefined .func] [missing]], ?_, rfl, rfl⟩
  exact .call (.argsLast (.none rfl (.stop rfl))) (.stop rfl)

/-! ### C13: negative numbers and opposites as right operands -/

/-- C13 fails for a product with a negative number: `x * (-3)`, built with the operators, prints as `x * -3`, which is read as
`-3`. -/
theorem negative_factor_changes_value (s : String) : ∃ n t m, (Arith.mul (.id s) (.int (-3))).build = .ok n ∧
    n.toks = [.id s, .op "*", .op "-", .lit (.int 3)] ∧ ReadAs n.toks t ∧ t.visit (fun _ => none) = .ok m ∧
    m = .expr [.num (.int (-3)) .int] := by
  refine ⟨.expr [.bin "*" .int [.text s .undefined .ident] [.num (.int (-3)) .int]],
    .bin "-" (.bin "*" (.id s) .none) (.lit (.int 3)), _, rfl, rfl, ?_, rfl, rfl⟩
  show ReadAs [.id s, .op "*", .op "-", .lit (.int 3)] _
  exact .id rfl (.bin (by decide) (by decide) (.none rfl (.stop (by simp [stops, rightLev, lev])))
    (.bin (by decide) (by decide) (.lit (.stop rfl)) (.stop rfl)))

/-- C13 fails for a difference of a product and an opposite: `x * y - (-z)` prints as `(x * y - -z)`, which is read as
`x * y - z`. -/
theorem opposite_subtracted_changes_value (x y z : String) : ∃ n t m,
    (Arith.sub (.mul (.id x) (.id y)) (.neg (.id z))).build = .ok n ∧
    n.toks = [.lpar, .id x, .op "*", .id y, .op "-", .op "-", .id z, .rpar] ∧ ReadAs n.toks t ∧
    t.visit (fun _ => none) = .ok m ∧
    m = .expr [.un "__group__" .undefined [.bin "-" .undefined [.bin "*" .undefined [.text x .undefined .ident]
      [.text y .undefined .ident]] [.text z .undefined .ident]]] := by
  refine ⟨.expr [.bin "-" .undefined [.bin "*" .undefined [.text x .undefined .ident] [.text y .undefined .ident]]
    [.un "-" .undefined [.text z .undefined .ident]]],
    .group (.bin "-" (.bin "-" (.bin "*" (.id x) (.id y)) .none) (.id z)), _, rfl, rfl, ?_, rfl, rfl⟩
  show ReadAs [.lpar, .id x, .op "*", .id y, .op "-", .op "-", .id z, .rpar] _
  exact .group (.id rfl (.bin (by decide) (by decide) (.id rfl (.stop (by simp [stops, rightLev, lev])))
    (.bin (by decide) (by decide) (.none rfl (.stop (by simp [stops, rightLev, lev])))
      (.bin (by decide) (by decide) (.id rfl (.stop rfl)) (.stop rfl))))) (.stop rfl)

end Verif.Ex
