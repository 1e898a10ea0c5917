import Verif.Expr.Progress

/-! `simplify` and `evaluate` return (properties C10 and C11), and what `verify_parameters` marks (property C12). -/

namespace Verif.Ex
open Verif.DT

/-- A `Value` holding a number, possibly through further `Expr` objects. -/
inductive Lit : Node → Prop
  | num (x : Num) (dt : DataType) (h : dt ≠ .str) : Lit (.num x dt)
  | boxed (dt : DataType) (c : Node) (h : dt ≠ .str) (hc : Lit c) : Lit (.boxed dt [c])

/-- Numeric expressions: numbers, identifiers which are not strings, operations with one operand in each place, calls,
member and array access with any arguments; a divisor is a literal number other than zero. -/
inductive Fine : Node → Prop
  | lit (n : Node) (h : Lit n) : Fine n
  | ident (s : String) (dt : DataType) (o : Obj) (ho : o = .ident ∨ o = .param) (h : dt ≠ .str) : Fine (.text s dt o)
  | un (op : String) (dt : DataType) (x : Node) (h : dt ≠ .str) (hx : Fine x) : Fine (.un op dt [x])
  | bin (op : String) (dt : DataType) (l r : Node) (h : dt ≠ .str) (hu : untyped op = false) (hl : Fine l) (hr : Fine r)
      (hd : op = "/" → ∃ y d, r = .num y d ∧ y.toRat ≠ 0) : Fine (.bin op dt [l] [r])
  | call (op : String) (ls rs : List Node) (hu : untyped op = true) (hl : ∀ x ∈ ls, x.isText = false → Fine x)
      (hr : ∀ x ∈ rs, x.isText = false → Fine x) : Fine (.bin op .undefined ls rs)
  | tri (op : String) (dt : DataType) (f s t : Node) (h : dt ≠ .str) (hf : Fine f) (hs : Fine s) (ht : Fine t) :
      Fine (.tri op dt [f] [s] [t])
  | expr (x : Node) (hx : Fine x) : Fine (.expr [x])

theorem Lit.dataType {n : Node} (h : Lit n) : ∃ t, n.dataType = .ok t ∧ t ≠ .str := by
  cases h with
  | num x dt h => exact ⟨dt, rfl, h⟩
  | boxed dt c h _ => exact ⟨dt, rfl, h⟩

theorem Lit.isZero {n : Node} (h : Lit n) : ∃ b, n.isZero = .ok b := by
  cases h with
  | num x dt h => exact ⟨_, by simp [Node.isZero, h]; rfl⟩
  | boxed dt c h _ => exact ⟨_, by simp [Node.isZero, h]; rfl⟩

theorem Lit.isVal {n : Node} (h : Lit n) : n.isVal = true := by cases h <;> rfl
theorem Lit.isOp {n : Node} (h : Lit n) : n.isOp = false := by cases h <;> rfl
theorem Lit.isId {n : Node} (h : Lit n) : n.isId = false := by cases h <;> rfl
theorem Lit.negated {n : Node} (h : Lit n) : negated n = none := by cases h <;> rfl
theorem Lit.coerce {n : Node} (h : Lit n) : coerce n = n := by cases h <;> rfl
theorem Lit.notExpr {n : Node} (h : Lit n) (es : List Node) : n ≠ .expr es := by cases h <;> simp

theorem best_lit (x : Num) : Lit (best x) := by
  obtain ⟨dt, h⟩ := best_is_num x
  have := best_plain x
  rw [h] at this ⊢
  simp only [Node.plain, decide_eq_true_eq, ne_eq] at this
  exact .num x dt (by simpa using this)

theorem best_size (x : Num) : (best x).size = 1 := by
  obtain ⟨dt, h⟩ := best_is_num x
  rw [h]; rfl

theorem Lit.neg {n : Node} (h : Lit n) : ∃ n', n.neg = .ok n' ∧ Lit n' := by
  induction h with
  | num x dt h => exact ⟨.num x.neg dt, by simp [Node.neg, h], .num _ _ h⟩
  | boxed dt c h _ ih =>
    obtain ⟨c', h1, h2⟩ := ih
    exact ⟨.boxed dt [c'], by simp [Node.neg, h, negL, h1, bind, Except.bind], .boxed _ _ h h2⟩

theorem Lit.asType {n : Node} (h : Lit n) (t : DataType) (ht : t ≠ .str) : ∃ n', n.asType t = .ok n' ∧ Lit n' := by
  cases h with
  | num x dt h => exact ⟨.num x t, rfl, .num _ _ ht⟩
  | boxed dt c h hc => exact ⟨.boxed t [c], rfl, .boxed _ _ ht hc⟩

/-- Combining the payloads of two literals. -/
theorem foldPayload_lit (rec : Node → Node → Except Err Node) (f : Num → Num → Num) (t : DataType) (ht : t ≠ .str)
    (l r : Node) (hl : Lit l) (hr : Lit r)
    (hrec : ∀ a b, Lit a → Lit b → a.size + b.size < l.size + r.size → ∃ n, rec a b = .ok n ∧ Lit n) :
    ∃ n, foldPayload rec f t l r = .ok n ∧ Lit n := by
  cases hl with
  | num x dt h =>
    cases hr with
    | num y dt' h' => exact ⟨_, rfl, .num _ _ ht⟩
    | boxed dt' c h' hc =>
      obtain ⟨n, h1, h2⟩ := hrec (best x) c (best_lit x) hc (by simp [best_size, Node.size, sizeL])
      exact ⟨.boxed t [n], by simp [foldPayload, single, bind, Except.bind, h1], .boxed _ _ ht h2⟩
  | boxed dt c h hc =>
    cases hr with
    | num y dt' h' =>
      obtain ⟨n, h1, h2⟩ := hrec c (best y) hc (best_lit y) (by simp [best_size, Node.size, sizeL])
      exact ⟨.boxed t [n], by simp [foldPayload, single, bind, Except.bind, h1, hc.isOp], .boxed _ _ ht h2⟩
    | boxed dt' d h' hd =>
      have hprep : prep (.expr [d]) = d := rfl
      obtain ⟨n, h1, h2⟩ := hrec c d hc hd (by simp [Node.size, sizeL]; omega)
      exact ⟨.boxed t [n], by simp [foldPayload, single, bind, Except.bind, hprep, h1], .boxed _ _ ht h2⟩

theorem addSub_lit (plus : Bool) : ∀ (fuel : Nat) (l r : Node), Lit l → Lit r → l.size + r.size < fuel →
    ∃ n, addSub fuel plus l r = .ok n ∧ Lit n := by
  intro fuel
  induction fuel with
  | zero => intro l r _ _ h; omega
  | succ fuel ih =>
    intro l r hl hr hf
    have e1 : addSub (fuel + 1) plus l r = valAddSub (addSub fuel) plus l r := by
      cases hl <;> simp [addSub, Node.isVal]
    rw [e1]
    obtain ⟨b, hb⟩ := hl.isZero
    obtain ⟨b', hb'⟩ := hr.isZero
    obtain ⟨t, htl, ht⟩ := hl.dataType
    obtain ⟨t', htr, ht'⟩ := hr.dataType
    obtain ⟨r', hn1, hn2⟩ := hr.neg
    have hts := add_ne_str t t' ht ht'
    simp only [valAddSub, hr.coerce, hb, hb', hr.negated, hl.isId, hr.isId, hr.isOp, htl, htr, bind, Except.bind]
    cases b with
    | true => cases plus <;> simp [hn1, hn2, hr]
    | false =>
      cases b' with
      | true => exact ⟨l, rfl, hl⟩
      | false =>
        simp only [Bool.false_eq_true, if_false, Bool.or_false, hts]
        exact foldPayload_lit _ _ _ hts l r hl hr fun a c ha hc hlt => ih a c ha hc (by omega)

theorem mul_lit : ∀ (fuel : Nat) (l r : Node), Lit l → Lit r → l.size + r.size < fuel →
    ∃ n, mul fuel l r = .ok n ∧ Lit n := by
  intro fuel
  induction fuel with
  | zero => intro l r _ _ h; omega
  | succ fuel ih =>
    intro l r hl hr hf
    have e1 : mul (fuel + 1) l r = valMul (mul fuel) l r := by cases hl <;> simp [mul, Node.isVal]
    rw [e1]
    obtain ⟨b, hb⟩ := hl.isZero
    obtain ⟨b', hb'⟩ := hr.isZero
    obtain ⟨t, htl, ht⟩ := hl.dataType
    obtain ⟨t', htr, ht'⟩ := hr.dataType
    obtain ⟨r', hn1, hn2⟩ := hr.neg
    obtain ⟨l', hm1, hm2⟩ := hl.neg
    have hts := add_ne_str t t' ht ht'
    obtain ⟨_, hr1, hr2⟩ := hr.asType _ hts
    obtain ⟨_, hl1, hl2⟩ := hl.asType _ hts
    obtain ⟨_, hr3, hr4⟩ := hn2.asType _ hts
    obtain ⟨_, hl3, hl4⟩ := hm2.asType _ hts
    simp only [valMul, hr.coerce, hb, hb', hl.isId, hr.isId, hr.isOp, htl, htr, bind, Except.bind, hn1, hm1]
    have hz : Lit (.num (.int 0) (if t.add t' = .str then .int else t.add t')) := by
      rw [if_neg hts]; exact .num _ _ hts
    cases b with
    | true => exact ⟨_, rfl, hz⟩
    | false =>
      cases b' with
      | true => exact ⟨_, rfl, hz⟩
      | false =>
        simp only [Bool.false_eq_true, if_false, Bool.or_false, hts]
        by_cases c1 : l.isValue 1 = true
        · rw [if_pos c1]; exact ⟨_, hr1, hr2⟩
        rw [if_neg c1]
        by_cases c2 : l.isValue (-1) = true
        · rw [if_pos c2]; exact ⟨_, hr3, hr4⟩
        rw [if_neg c2]
        by_cases c3 : r.isValue 1 = true
        · rw [if_pos c3]; exact ⟨_, hl1, hl2⟩
        rw [if_neg c3]
        by_cases c4 : r.isValue (-1) = true
        · rw [if_pos c4]; exact ⟨_, hl3, hl4⟩
        rw [if_neg c4]
        exact foldPayload_lit _ _ _ hts l r hl hr fun a c ha hc hlt => ih a c ha hc (by omega)

theorem divType_ok (a b : DataType) (ha : a ≠ .str) (hb : b ≠ .str) : ∃ t, divType a b = .ok t ∧ t ≠ .str := by
  revert ha hb
  cases a <;> cases b <;> simp [divType, DataType.truediv]

/-- Division of a literal by a number other than zero. -/
theorem div_lit : ∀ (fuel : Nat) (l : Node) (y : Num) (d : DataType), Lit l → y.toRat ≠ 0 → d ≠ .str → l.size + 1 < fuel →
    ∃ n, truediv fuel l (.num y d) = .ok n ∧ Lit n := by
  intro fuel
  induction fuel with
  | zero => intro l y d _ _ _ h; omega
  | succ fuel ih =>
    intro l y d hl hy hd hf
    have hr : Lit (.num y d) := .num y d hd
    have e1 : truediv (fuel + 1) l (.num y d) = valDiv (truediv fuel) l (.num y d) := by
      cases hl <;> simp [truediv, Node.isVal]
    rw [e1]
    obtain ⟨b, hb⟩ := hl.isZero
    have hb' : (Node.num y d).isZero = .ok false := by simp [Node.isZero, hd, hy]
    obtain ⟨t, htl, ht⟩ := hl.dataType
    have htr : (Node.num y d).dataType = .ok d := rfl
    obtain ⟨l', hm1, hm2⟩ := hl.neg
    obtain ⟨q, hq, hts⟩ := divType_ok t d ht hd
    obtain ⟨_, hl1, hl2⟩ := hl.asType _ hts
    obtain ⟨_, hl3, hl4⟩ := hm2.asType _ hts
    simp only [valDiv, hr.coerce, hb, hb', hl.isId, hr.isId, hr.isOp, htl, htr, bind, Except.bind, hm1, hq]
    cases b with
    | true => exact ⟨_, rfl, by rw [if_neg hts]; exact .num _ _ hts⟩
    | false =>
      simp only [Bool.false_eq_true, if_false, Bool.or_false, hts]
      by_cases c3 : (Node.num y d).isValue 1 = true
      · rw [if_pos c3]; exact ⟨_, hl1, hl2⟩
      rw [if_neg c3]
      by_cases c4 : (Node.num y d).isValue (-1) = true
      · rw [if_pos c4]; exact ⟨_, hl3, hl4⟩
      rw [if_neg c4]
      cases hl with
      | num x dt h => exact ⟨_, rfl, .num _ _ hts⟩
      | boxed dt c h hc =>
        obtain ⟨dy, hby⟩ := best_is_num y
        have hbl := best_lit y
        rw [hby] at hbl
        have hdy : dy ≠ .str := by cases hbl with | num _ _ h => exact h
        obtain ⟨n, h1, h2⟩ := ih c y dy hc hy hdy (by simp [Node.size, sizeL] at hf; omega)
        rw [← hby] at h1
        exact ⟨.boxed q [n], by simp [foldPayload, single, bind, Except.bind, h1, hc.isOp], .boxed _ _ hts h2⟩

/-- A constant operand of a simplified operation: a literal or an `Expr` holding one. -/
def Const (n : Node) : Prop := Lit n ∨ ∃ c, n = .expr [c] ∧ Lit c

theorem Const.coerce {n : Node} (h : Const n) : Lit (coerce n) ∧ (Verif.Ex.coerce n).size = n.size := by
  rcases h with h | ⟨c, rfl, h⟩
  · rw [h.coerce]; exact ⟨h, rfl⟩
  · exact ⟨.boxed _ _ (by decide) h, rfl⟩

theorem Const.prep {n : Node} (h : Const n) : Lit (prep n) ∧ (Verif.Ex.prep n).size ≤ n.size := by
  rcases h with h | ⟨c, rfl, h⟩
  · have : Verif.Ex.prep n = n := by cases h <;> rfl
    rw [this]; exact ⟨h, Nat.le_refl _⟩
  · exact ⟨h, by simp [Verif.Ex.prep, Node.size, sizeL]⟩

theorem coerce_coerce (n : Node) : coerce (coerce n) = coerce n := by cases n <;> rfl

theorem addSub_coerce (fuel : Nat) (plus : Bool) (l r : Node) (hl : Lit l) :
    addSub fuel plus l r = addSub fuel plus l (coerce r) := by
  cases fuel with
  | zero => rfl
  | succ fuel => cases hl <;> simp [addSub, Node.isVal, valAddSub, coerce_coerce]

theorem mul_coerce (fuel : Nat) (l r : Node) (hl : Lit l) : mul fuel l r = mul fuel l (coerce r) := by
  cases fuel with
  | zero => rfl
  | succ fuel => cases hl <;> simp [mul, Node.isVal, valMul, coerce_coerce]

theorem addSub_const (plus : Bool) (l r : Node) (hl : Const l) (hr : Const r) :
    ∃ n, addSub (enough l r) plus l r = .ok n ∧ Const n := by
  rcases hl with hl | ⟨c, rfl, hl⟩
  · rw [addSub_coerce _ _ _ _ hl]
    obtain ⟨n, h1, h2⟩ := addSub_lit plus (enough l r) l (coerce r) hl hr.coerce.1
      (by rw [hr.coerce.2, enough]; omega)
    exact ⟨n, h1, .inl h2⟩
  · obtain ⟨k, hk⟩ : ∃ k, enough (.expr [c]) r = k + 1 := ⟨4 * ((Node.expr [c]).size + r.size) + 7, rfl⟩
    obtain ⟨n, h1, h2⟩ := addSub_lit plus k c (prep r) hl hr.prep.1 (by
      have := hr.prep.2
      simp [enough, Node.size, sizeL] at hk
      omega)
    exact ⟨.expr [n], by rw [hk]; simp [addSub, single, bind, Except.bind, h1], .inr ⟨n, rfl, h2⟩⟩

theorem mul_const (l r : Node) (hl : Const l) (hr : Const r) : ∃ n, mul (enough l r) l r = .ok n ∧ Const n := by
  rcases hl with hl | ⟨c, rfl, hl⟩
  · rw [mul_coerce _ _ _ hl]
    obtain ⟨n, h1, h2⟩ := mul_lit (enough l r) l (coerce r) hl hr.coerce.1 (by rw [hr.coerce.2, enough]; omega)
    exact ⟨n, h1, .inl h2⟩
  · obtain ⟨k, hk⟩ : ∃ k, enough (.expr [c]) r = k + 1 := ⟨4 * ((Node.expr [c]).size + r.size) + 7, rfl⟩
    obtain ⟨n, h1, h2⟩ := mul_lit k c (prep r) hl hr.prep.1 (by
      have := hr.prep.2
      simp [enough, Node.size, sizeL] at hk
      omega)
    exact ⟨.expr [n], by rw [hk]; simp [mul, single, bind, Except.bind, h1], .inr ⟨n, rfl, h2⟩⟩

theorem div_const (l : Node) (y : Num) (d : DataType) (hl : Const l) (hy : y.toRat ≠ 0) (hd : d ≠ .str) :
    ∃ n, truediv (enough l (.num y d)) l (.num y d) = .ok n ∧ Const n := by
  rcases hl with hl | ⟨c, rfl, hl⟩
  · obtain ⟨n, h1, h2⟩ := div_lit (enough l (.num y d)) l y d hl hy hd (by simp [enough, Node.size]; omega)
    exact ⟨n, h1, .inl h2⟩
  · obtain ⟨k, hk⟩ : ∃ k, enough (.expr [c]) (.num y d) = k + 1 :=
      ⟨4 * ((Node.expr [c]).size + (Node.num y d).size) + 7, rfl⟩
    obtain ⟨n, h1, h2⟩ := div_lit k c y d hl hy hd (by
      simp [enough, Node.size, sizeL] at hk
      omega)
    have hp : prep (.num y d) = .num y d := rfl
    exact ⟨.expr [n], by rw [hk]; simp [truediv, single, bind, Except.bind, hp, h1], .inr ⟨n, rfl, h2⟩⟩

theorem Const.fine {n : Node} (h : Const n) : Fine n := by
  rcases h with h | ⟨c, rfl, h⟩
  · exact .lit _ h
  · exact .expr _ (.lit _ h)

theorem Fine.dataType {n : Node} (h : Fine n) : ∃ t, n.dataType = .ok t ∧ t ≠ .str := by
  induction h with
  | lit n h => exact h.dataType
  | ident s dt o ho h => exact ⟨dt, rfl, h⟩
  | un op dt x h _ _ => exact ⟨dt, rfl, h⟩
  | bin op dt l r h => exact ⟨dt, rfl, h⟩
  | call op ls rs => exact ⟨.undefined, rfl, by decide⟩
  | tri op dt f s t h => exact ⟨dt, rfl, h⟩
  | expr x _ ih => obtain ⟨t, h1, h2⟩ := ih; exact ⟨t, by simp [Node.dataType, dataTypeL, h1], h2⟩

theorem Fine.isZero {n : Node} (h : Fine n) : ∃ b, n.isZero = .ok b := by
  induction h with
  | lit n h => exact h.isZero
  | ident s dt o ho h => rcases ho with rfl | rfl <;> exact ⟨false, rfl⟩
  | expr x _ ih => obtain ⟨b, h1⟩ := ih; exact ⟨b, by simp [Node.isZero, isZeroL, h1]⟩
  | _ => exact ⟨false, rfl⟩

theorem Fine.const {n : Node} (h : Fine n) (hc : n.isConstant = true) : Const n := by
  cases h with
  | lit n h => exact .inl h
  | ident s dt o ho h => rcases ho with rfl | rfl <;> simp [Node.isConstant] at hc
  | un op dt x h _ => simp [Node.isConstant] at hc
  | bin op dt l r h => simp [Node.isConstant] at hc
  | call op ls rs => simp [Node.isConstant] at hc
  | tri op dt f s t h => simp [Node.isConstant] at hc
  | expr x hx =>
    cases hx with
    | lit n h => exact .inr ⟨x, rfl, h⟩
    | ident s dt o ho h => rcases ho with rfl | rfl <;> simp [Node.isConstant] at hc
    | un op dt x h _ => simp [Node.isConstant] at hc
    | bin op dt l r h => simp [Node.isConstant] at hc
    | call op ls rs => simp [Node.isConstant] at hc
    | tri op dt f s t h => simp [Node.isConstant] at hc
    | expr x hx => simp [Node.isConstant] at hc

theorem mkUn_fine (op : String) (x : Node) (hx : Fine x) : ∃ n, mkUn op [x] = .ok n ∧ Fine n := by
  obtain ⟨t, ht, hs⟩ := hx.dataType
  exact ⟨.un op t [x], by simp only [mkUn, uniqueType_single x t ht, bind, Except.bind], .un _ _ _ hs hx⟩

theorem mkBin_fine (op : String) (hu : untyped op = false) (l r : Node) (hl : Fine l) (hr : Fine r)
    (hd : op = "/" → ∃ y d, r = .num y d ∧ y.toRat ≠ 0) : ∃ n, mkBin op [l] [r] = .ok n ∧ Fine n := by
  obtain ⟨t, ht, hs⟩ := hl.dataType
  obtain ⟨t', ht', hs'⟩ := hr.dataType
  refine ⟨.bin op (t.add t') [l] [r], ?_, .bin _ _ _ _ (add_ne_str t t' hs hs') hu hl hr hd⟩
  simp [mkBin, hu, uniqueType_single _ _ ht, uniqueType_single _ _ ht', bind, Except.bind]

theorem mkTri_fine (op : String) (f l r : Node) (hf : Fine f) (hl : Fine l) (hr : Fine r) :
    ∃ n, mkTri op [f] [l] [r] = .ok n ∧ Fine n := by
  obtain ⟨t, ht, hs⟩ := hl.dataType
  obtain ⟨t', ht', hs'⟩ := hr.dataType
  refine ⟨.tri op (t.add t') [f] [l] [r], ?_, .tri _ _ _ _ _ (add_ne_str t t' hs hs') hf hl hr⟩
  simp [mkTri, uniqueType_single _ _ ht, uniqueType_single _ _ ht', bind, Except.bind]

theorem simplifyL_all {P : Node → Prop} (xs : List Node) (h : ∀ x ∈ xs, ∃ y, x.simplify = .ok y ∧ P y) :
    ∃ ys, simplifyL xs = .ok ys ∧ ∀ y ∈ ys, P y := by
  induction xs with
  | nil => exact ⟨[], rfl, by simp⟩
  | cons x xs ih =>
    obtain ⟨y, h1, h2⟩ := h x List.mem_cons_self
    obtain ⟨ys, h3, h4⟩ := ih fun z hz => h z (List.mem_cons_of_mem _ hz)
    refine ⟨y :: ys, by simp [simplifyL, h1, h3, bind, Except.bind], ?_⟩
    intro z hz
    rcases List.mem_cons.1 hz with rfl | hz
    · exact h2
    · exact h4 z hz

theorem simplifyL_single (x y : Node) (h : x.simplify = .ok y) : simplifyL [x] = .ok [y] := by
  simp [simplifyL, h, bind, Except.bind]

theorem fine_neutralLeft (op : String) (l : Node) (hl : Fine l) : ∃ b, neutralLeft op [l] = .ok b := by
  obtain ⟨b, h⟩ := hl.isZero
  simp only [neutralLeft, h, bind, Except.bind]
  exact ⟨_, rfl⟩

theorem fine_neutralRight (op : String) (r : Node) (hr : Fine r) : ∃ b, neutralRight op [r] = .ok b := by
  obtain ⟨b, h⟩ := hr.isZero
  simp only [neutralRight, h, bind, Except.bind]
  exact ⟨_, rfl⟩

theorem arg_isZero (x : Node) (h : x.isText = false → Fine x) : ∃ b, x.isZero = .ok b := by
  by_cases ht : x.isText = true
  · cases x with
    | text s dt o => cases o <;> simp [Node.isZero]
    | _ => simp [Node.isText] at ht
  · exact (h (by simpa using ht)).isZero

theorem simplifyBin_fine (op : String) (hu : untyped op = false) (l r : Node) (hl : Fine l) (hr : Fine r)
    (hd : op = "/" → ∃ y d, r = .num y d ∧ y.toRat ≠ 0) : ∃ n, simplifyBin op [l] [r] = .ok n ∧ Fine n := by
  obtain ⟨b, hb⟩ := fine_neutralLeft op l hl
  obtain ⟨b', hb'⟩ := fine_neutralRight op r hr
  obtain ⟨m, hm1, hm2⟩ := mkBin_fine op hu l r hl hr hd
  simp only [simplifyBin, hb, hb', bind, Except.bind]
  cases b with
  | true => exact ⟨.expr [r], rfl, .expr _ hr⟩
  | false =>
    cases b' with
    | true => exact ⟨.expr [l], rfl, .expr _ hl⟩
    | false =>
      simp only [Bool.false_eq_true, if_false, Bool.and_eq_true]
      by_cases hc : l.isConstant = true ∧ r.isConstant = true
      · rw [if_pos hc]
        have cl := hl.const hc.1
        have cr := hr.const hc.2
        by_cases h1 : op = "+"
        · rw [if_pos h1]
          obtain ⟨n, h2, h3⟩ := addSub_const true l r cl cr
          exact ⟨n, h2, h3.fine⟩
        rw [if_neg h1]
        by_cases h2 : op = "-"
        · rw [if_pos h2]
          obtain ⟨n, h2, h3⟩ := addSub_const false l r cl cr
          exact ⟨n, h2, h3.fine⟩
        rw [if_neg h2]
        by_cases h3 : op = "*"
        · rw [if_pos h3]
          obtain ⟨n, h2, h3⟩ := mul_const l r cl cr
          exact ⟨n, h2, h3.fine⟩
        rw [if_neg h3]
        by_cases h4 : op = "/"
        · rw [if_pos h4]
          obtain ⟨y, d, rfl, hy⟩ := hd h4
          have hdt : d ≠ .str := by obtain ⟨t, h5, h6⟩ := hr.dataType; cases h5; exact h6
          obtain ⟨n, h2, h3⟩ := div_const l y d cl hy hdt
          exact ⟨n, h2, h3.fine⟩
        rw [if_neg h4]
        exact ⟨m, hm1, hm2⟩
      · rw [if_neg hc]
        exact ⟨m, hm1, hm2⟩

theorem untyped_ops (op : String) (hu : untyped op = true) : op ≠ "+" ∧ op ≠ "-" ∧ op ≠ "*" ∧ op ≠ "/" := by
  simp only [untyped, Bool.or_eq_true, decide_eq_true_eq] at hu
  rcases hu with ((rfl | rfl) | rfl) | rfl <;> decide

theorem simplifyBin_call (op : String) (hu : untyped op = true) (ls rs : List Node)
    (hl : ∀ x ∈ ls, x.isText = false → Fine x) (hr : ∀ x ∈ rs, x.isText = false → Fine x) :
    simplifyBin op ls rs = .ok (.bin op .undefined ls rs) := by
  obtain ⟨n1, n2, n3, n4⟩ := untyped_ops op hu
  have b1 : neutralLeft op ls = .ok false := by
    match ls with
    | [] => rfl
    | [l] =>
      obtain ⟨b, hb⟩ := arg_isZero l (hl l List.mem_cons_self)
      simp [neutralLeft, hb, bind, Except.bind, n1, n3]
    | _ :: _ :: _ => rfl
  have b2 : neutralRight op rs = .ok false := by
    match rs with
    | [] => rfl
    | [r] =>
      obtain ⟨b, hb⟩ := arg_isZero r (hr r List.mem_cons_self)
      simp [neutralRight, hb, bind, Except.bind, n1, n2, n3, n4]
    | _ :: _ :: _ => rfl
  have m : ∀ a b : List Node, mkBin op a b = .ok (.bin op .undefined a b) := by intro a b; simp [mkBin, hu]
  simp only [simplifyBin, b1, b2, bind, Except.bind, Bool.false_eq_true, if_false]
  split
  · simp only [n1, n2, n3, n4, if_false, m, ite_self]
  · exact m _ _

theorem simplifyTri_fine (op : String) (f s t : Node) (hf : Fine f) (hs : Fine s) (ht : Fine t) :
    ∃ n, simplifyTri op [f] [s] [t] = .ok n ∧ Fine n := by
  obtain ⟨m, hm⟩ := mkTri_fine op f s t hf hs ht
  simp only [simplifyTri]
  split
  · split
    · exact ⟨_, rfl, .expr _ hs⟩
    · split
      · exact ⟨_, rfl, .expr _ ht⟩
      · exact ⟨m, hm⟩
  · exact ⟨m, hm⟩

theorem Lit.simplify {n : Node} (h : Lit n) : n.simplify = .ok n := by cases h <;> rfl

/-- C10: simplifying returns, for every numeric expression in which divisors are literal numbers other than zero; the
result is again such an expression. Together with `simplify_preserves_value_partial` it has the same value. Missing:
other divisors, for which simplifying can raise (`simplify_can_raise`). -/
theorem simplify_returns_partial (n : Node) (h : Fine n) :
    ∃ n', n.simplify = .ok n' ∧ Fine n' := by
  induction h with
  | lit n h => exact ⟨n, h.simplify, .lit n h⟩
  | ident s dt o ho h => exact ⟨_, rfl, .ident s dt o ho h⟩
  | un op dt x h hx ih =>
    obtain ⟨x', h1, h2⟩ := ih
    have e1 : (Node.un op dt [x]).simplify = simplifyUn op [x'] := by
      simp only [Node.simplify, simplifyL_single x x' h1, bind, Except.bind]
    rw [e1, simplifyUn]
    split
    · exact ⟨x', rfl, h2⟩
    · exact mkUn_fine op x' h2
  | bin op dt l r h hu hl hr hd ihl ihr =>
    obtain ⟨l', h1, h2⟩ := ihl
    obtain ⟨r', h3, h4⟩ := ihr
    have e1 : (Node.bin op dt [l] [r]).simplify = simplifyBin op [l'] [r'] := by
      simp only [Node.simplify, simplifyL_single l l' h1, simplifyL_single r r' h3, bind, Except.bind]
    rw [e1]
    apply simplifyBin_fine op hu l' r' h2 h4
    intro ho
    obtain ⟨y, d, rfl, hy⟩ := hd ho
    simp only [Node.simplify, Except.ok.injEq] at h3
    exact ⟨y, d, h3.symm, hy⟩
  | call op ls rs hu hl hr ihl ihr =>
    have args : ∀ xs : List Node, (∀ x ∈ xs, x.isText = false → ∃ n', x.simplify = .ok n' ∧ Fine n') →
        ∃ ys, simplifyL xs = .ok ys ∧ ∀ y ∈ ys, y.isText = false → Fine y := by
      intro xs hxs
      apply simplifyL_all
      intro x hx
      by_cases ht : x.isText = true
      · cases x with
        | text s dt o => exact ⟨_, rfl, fun hc => by simp [Node.isText] at hc⟩
        | _ => simp [Node.isText] at ht
      · obtain ⟨y, h1, h2⟩ := hxs x hx (by simpa using ht)
        exact ⟨y, h1, fun _ => h2⟩
    obtain ⟨ls', h1, h2⟩ := args ls ihl
    obtain ⟨rs', h3, h4⟩ := args rs ihr
    refine ⟨.bin op .undefined ls' rs', ?_, .call _ _ _ hu h2 h4⟩
    simp only [Node.simplify, h1, h3, bind, Except.bind]
    exact simplifyBin_call op hu ls' rs' h2 h4
  | tri op dt f s t h hf hs ht ihf ihs iht =>
    obtain ⟨f', h1, h2⟩ := ihf
    obtain ⟨s', h3, h4⟩ := ihs
    obtain ⟨t', h5, h6⟩ := iht
    have e1 : (Node.tri op dt [f] [s] [t]).simplify = simplifyTri op [f'] [s'] [t'] := by
      simp only [Node.simplify, simplifyL_single _ _ h1, simplifyL_single _ _ h3, simplifyL_single _ _ h5, bind, Except.bind]
    rw [e1]
    exact simplifyTri_fine op f' s' t' h2 h4 h6
  | expr x hx ih =>
    obtain ⟨x', h1, h2⟩ := ih
    exact ⟨.expr [x'], by simp only [Node.simplify, simplifyL_single x x' h1, bind, Except.bind], .expr _ h2⟩

theorem evaluateL_single (known : Known) (x y : Node) (h : x.evaluate known = .ok y) :
    evaluateL known [x] = .ok [y] := by
  simp [evaluateL, h, bind, Except.bind]

theorem evaluateL_all {P : Node → Prop} (known : Known) (xs : List Node)
    (h : ∀ x ∈ xs, ∃ y, x.evaluate known = .ok y ∧ P y) : ∃ ys, evaluateL known xs = .ok ys ∧ ∀ y ∈ ys, P y := by
  induction xs with
  | nil => exact ⟨[], rfl, by simp⟩
  | cons x xs ih =>
    obtain ⟨y, h1, h2⟩ := h x List.mem_cons_self
    obtain ⟨ys, h3, h4⟩ := ih fun z hz => h z (List.mem_cons_of_mem _ hz)
    refine ⟨y :: ys, by simp [evaluateL, h1, h3, bind, Except.bind], ?_⟩
    intro z hz
    rcases List.mem_cons.1 hz with rfl | hz
    · exact h2
    · exact h4 z hz

/-- C11: evaluating returns, for every numeric expression in which divisors are literal numbers other than zero, if the
known values are such expressions. Missing: other divisors; if one becomes zero, evaluating raises. -/
theorem evaluate_returns_partial (n : Node) (h : Fine n) (known : Known)
    (hk : ∀ s es, known s = some es → ∃ x, es = [x] ∧ Fine x) :
    ∃ n', n.evaluate known = .ok n' ∧ Fine n' := by
  have hid : ∀ (s : String) (dt : DataType) (o : Obj), (∃ x, lookupKnown known s dt o = x ∧ Fine x) ∨
      lookupKnown known s dt o = .text s dt o := by
    intro s dt o
    unfold lookupKnown
    split
    · cases hs : known s with
      | none => right; rfl
      | some es =>
        obtain ⟨x, rfl, hx⟩ := hk s es hs
        left; exact ⟨x, rfl, hx⟩
    · right; rfl
  induction h with
  | lit n h => exact ⟨n, by cases h <;> rfl, .lit n h⟩
  | ident s dt o ho h =>
    rcases hid s dt o with ⟨x, h1, h2⟩ | h1
    · exact ⟨x, by rw [Node.evaluate, h1], h2⟩
    · exact ⟨_, by rw [Node.evaluate, h1], .ident s dt o ho h⟩
  | un op dt x h hx ih =>
    obtain ⟨x', h1, h2⟩ := ih
    obtain ⟨m, h3, h4⟩ := mkUn_fine op x' h2
    obtain ⟨n, h5, h6⟩ := simplify_returns_partial m h4
    exact ⟨n, by simp only [Node.evaluate, evaluateL_single known x x' h1, bind, Except.bind, h3, h5], h6⟩
  | bin op dt l r h hu hl hr hd ihl ihr =>
    obtain ⟨l', h1, h2⟩ := ihl
    obtain ⟨r', h3, h4⟩ := ihr
    obtain ⟨m, h5, h6⟩ := mkBin_fine op hu l' r' h2 h4 (by
      intro ho
      obtain ⟨y, d, rfl, hy⟩ := hd ho
      simp only [Node.evaluate, Except.ok.injEq] at h3
      exact ⟨y, d, h3.symm, hy⟩)
    obtain ⟨n, h7, h8⟩ := simplify_returns_partial m h6
    exact ⟨n, by simp only [Node.evaluate, evaluateL_single known _ _ h1, evaluateL_single known _ _ h3, bind, Except.bind,
      h5, h7], h8⟩
  | call op ls rs hu hl hr ihl ihr =>
    have args : ∀ xs : List Node, (∀ x ∈ xs, x.isText = false → ∃ n', x.evaluate known = .ok n' ∧ Fine n') →
        ∃ ys, evaluateL known xs = .ok ys ∧ ∀ y ∈ ys, y.isText = false → Fine y := by
      intro xs hxs
      apply evaluateL_all
      intro x hx
      by_cases ht : x.isText = true
      · cases x with
        | text s dt o =>
          rcases hid s dt o with ⟨x, h1, h2⟩ | h1
          · exact ⟨x, by rw [Node.evaluate, h1], fun _ => h2⟩
          · exact ⟨_, by rw [Node.evaluate, h1], fun hc => by simp [Node.isText] at hc⟩
        | _ => simp [Node.isText] at ht
      · obtain ⟨y, h1, h2⟩ := hxs x hx (by simpa using ht)
        exact ⟨y, h1, fun _ => h2⟩
    obtain ⟨ls', h1, h2⟩ := args ls ihl
    obtain ⟨rs', h3, h4⟩ := args rs ihr
    have hm : mkBin op ls' rs' = .ok (.bin op .undefined ls' rs') := by simp [mkBin, hu]
    obtain ⟨n, h7, h8⟩ := simplify_returns_partial _ (.call op ls' rs' hu h2 h4)
    exact ⟨n, by simp only [Node.evaluate, h1, h3, bind, Except.bind, hm, h7], h8⟩
  | tri op dt f s t h hf hs ht ihf ihs iht =>
    obtain ⟨f', h1, h2⟩ := ihf
    obtain ⟨s', h3, h4⟩ := ihs
    obtain ⟨t', h5, h6⟩ := iht
    obtain ⟨m, h7, h8⟩ := mkTri_fine op f' s' t' h2 h4 h6
    obtain ⟨n, h9, h10⟩ := simplify_returns_partial m h8
    exact ⟨n, by simp only [Node.evaluate, evaluateL_single known _ _ h1, evaluateL_single known _ _ h3,
      evaluateL_single known _ _ h5, bind, Except.bind, h7, h9], h10⟩
  | expr x hx ih =>
    obtain ⟨x', h1, h2⟩ := ih
    obtain ⟨n, h3, h4⟩ := simplify_returns_partial _ (.expr x' h2)
    exact ⟨n, by simp only [Node.evaluate, evaluateL_single known x x' h1, bind, Except.bind, h3], h4⟩

/-- `(0 + x) * sin(y) / 2 - (a ? 1 : -3)` is such an expression. -/
example : Fine (.expr [.bin "-" .float [.bin "/" .float [.bin "*" .undefined
      [.bin "+" .undefined [.num (.int 0) .int] [.text "x" .undefined .ident]]
      [.bin "__call__" .undefined [.text "sin" .undefined .func] [.text "y" .undefined .ident]]]
      [.num (.int 2) .int]]
    [.tri "__trinary__" .int [.text "a" .undefined .ident] [.num (.int 1) .int] [.un "-" .int [.num (.int 3) .int]]]]) := by
  refine .expr _ (.bin _ _ _ _ (by decide) (by decide) (.bin _ _ _ _ (by decide) (by decide) (.bin _ _ _ _ (by decide)
    (by decide) (.bin _ _ _ _ (by decide) (by decide) (.lit _ (.num _ _ (by decide))) (.ident _ _ _ (.inl rfl) (by decide))
    (fun h => absurd h (by decide))) ?_ (fun h => absurd h (by decide))) (.lit _ (.num _ _ (by decide))) ?_) (.tri _ _ _ _ _ (by decide)
    (.ident _ _ _ (.inl rfl) (by decide)) (.lit _ (.num _ _ (by decide))) (.un _ _ _ (by decide)
    (.lit _ (.num _ _ (by decide))))) (fun h => absurd h (by decide)))
  · exact .call _ _ _ (by decide) (by simp [Node.isText]) (by simp [Node.isText])
  · exact fun _ => ⟨_, _, rfl, by simp [Num.toRat]⟩

/-! ### C12: the identifiers marked by `verify_parameters` -/

mutual
/-- The identifiers of an expression marked as parameters. -/
def Node.marked : Node → List String
  | .num .. => []
  | .text s _ o => if o = .param then [s] else []
  | .boxed _ es => markedL es
  | .un _ _ xs => markedL xs
  | .bin _ _ ls rs => markedL ls ++ markedL rs
  | .tri _ _ fs ss ts => markedL fs ++ markedL ss ++ markedL ts
  | .expr es => markedL es
def markedL : List Node → List String
  | [] => []
  | x :: xs => x.marked ++ markedL xs
end

theorem or_dist (a b n c d : Prop) : ((a ∨ n ∧ c) ∨ (b ∨ n ∧ d)) ↔ ((a ∨ b) ∨ n ∧ (c ∨ d)) := by
  by_cases n <;> by_cases a <;> by_cases b <;> simp [*]

mutual
theorem verify_marked (names : List String) (s : String) : ∀ n : Node,
    s ∈ (n.verify names).marked ↔ s ∈ n.marked ∨ (s ∈ names ∧ n.dependsOn s = true)
  | .num .. => by simp [Node.verify, Node.marked, Node.dependsOn]
  | .text t dt o => by
    simp only [Node.verify, Node.marked, Node.dependsOn, decide_eq_true_eq]
    by_cases h : (o = .ident ∨ o = .param) ∧ t ∈ names
    · rw [if_pos h, if_pos rfl, List.mem_singleton]
      constructor
      · rintro rfl; exact .inr ⟨h.2, h.1, rfl⟩
      · rintro (h2 | ⟨_, _, rfl⟩)
        · split at h2
          · exact List.mem_singleton.1 h2
          · simp at h2
        · rfl
    · rw [if_neg h]
      constructor
      · exact .inl
      · rintro (h2 | ⟨h2, h3, rfl⟩)
        · exact h2
        · exact absurd ⟨h3, h2⟩ h
  | .boxed dt es => by simp [Node.verify, Node.marked, Node.dependsOn]
  | .un op dt xs => by simpa [Node.verify, Node.marked, Node.dependsOn] using verifyL_marked names s xs
  | .bin op dt ls rs => by
    have h1 := verifyL_marked names s ls
    have h2 := verifyL_marked names s rs
    simp only [Node.verify, Node.marked, Node.dependsOn, List.mem_append, Bool.or_eq_true, h1, h2, or_dist]
  | .tri op dt fs ss ts => by
    have h1 := verifyL_marked names s fs
    have h2 := verifyL_marked names s ss
    have h3 := verifyL_marked names s ts
    simp only [Node.verify, Node.marked, Node.dependsOn, List.mem_append, Bool.or_eq_true, h1, h2, h3, or_dist]
  | .expr es => by simpa [Node.verify, Node.marked, Node.dependsOn] using verifyL_marked names s es
theorem verifyL_marked (names : List String) (s : String) : ∀ xs : List Node,
    s ∈ markedL (verifyL names xs) ↔ s ∈ markedL xs ∨ (s ∈ names ∧ dependsOnL s xs = true)
  | [] => by simp [verifyL, markedL, dependsOnL]
  | x :: xs => by
    have h1 := verify_marked names s x
    have h2 := verifyL_marked names s xs
    simp only [verifyL, markedL, dependsOnL, List.mem_append, Bool.or_eq_true, h1, h2, or_dist]
end

/-- C12: after `verify_parameters(names)` the identifiers marked as parameters are those marked before and those of
the given names the expression depends on. -/
theorem verify_parameters_marks (names : List String) (n : Node) (s : String) :
    s ∈ (n.verify names).marked ↔ s ∈ n.marked ∨ (s ∈ names ∧ n.dependsOn s = true) :=
  verify_marked names s n

example : ((Node.bin "+" .undefined [.text "x" .undefined .ident] [.text "y" .undefined .ident]).verify ["x", "z"]).marked =
    ["x"] := by decide +kernel

end Verif.Ex
