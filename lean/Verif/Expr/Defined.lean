import Verif.Expr.Returns
import Verif.Expr.Props

/-! C10 and C11: `simplify` and `evaluate` return for every numeric expression whose divisors are not zero. -/

namespace Verif.Ex
open Verif.DT

/-- Numeric expressions as in `Fine`, but with any divisors which, under the assignment `ρ`, are numbers other than zero. -/
inductive FineAt (ρ : Env) : Node → Prop
  | lit (n : Node) (h : Lit n) : FineAt ρ n
  | ident (s : String) (dt : DataType) (o : Obj) (ho : o = .ident ∨ o = .param) (h : dt ≠ .str) : FineAt ρ (.text s dt o)
  | un (op : String) (dt : DataType) (x : Node) (h : dt ≠ .str) (hx : FineAt ρ x) : FineAt ρ (.un op dt [x])
  | bin (op : String) (dt : DataType) (l r : Node) (h : dt ≠ .str) (hu : untyped op = false) (hl : FineAt ρ l)
      (hr : FineAt ρ r) (hd : op = "/" → ∃ q : ℚ, q ≠ 0 ∧ r.den ρ = some (.num q)) : FineAt ρ (.bin op dt [l] [r])
  | call (op : String) (dt : DataType) (ls rs : List Node) (h : dt ≠ .str) (hu : untyped op = true)
      (hl : ∀ x ∈ ls, x.isText = false → FineAt ρ x) (hr : ∀ x ∈ rs, x.isText = false → FineAt ρ x) :
      FineAt ρ (.bin op dt ls rs)
  | tri (op : String) (dt : DataType) (f s t : Node) (h : dt ≠ .str) (hf : FineAt ρ f) (hs : FineAt ρ s) (ht : FineAt ρ t) :
      FineAt ρ (.tri op dt [f] [s] [t])
  | expr (x : Node) (hx : FineAt ρ x) : FineAt ρ (.expr [x])

/-- Division of a literal by a literal other than zero. -/
theorem div_lit' (ρ : Env) : ∀ (fuel : Nat) (l r : Node) (q : ℚ), Lit l → Lit r → q ≠ 0 → r.den ρ = some (.num q) →
    l.size + r.size < fuel → ∃ n, truediv fuel l r = .ok n ∧ Lit n := by
  intro fuel
  induction fuel with
  | zero => intro l r q _ _ _ _ h; omega
  | succ fuel ih =>
    intro l r q hl hr hq hrq hf
    have e1 : truediv (fuel + 1) l r = valDiv (truediv fuel) l r := by
      cases hl <;> simp [truediv, Node.isVal]
    rw [e1]
    obtain ⟨b, hb⟩ := hl.isZero
    have hb' : r.isZero = .ok false := by
      obtain ⟨b', h⟩ := hr.isZero
      cases b' with
      | false => exact h
      | true => exact absurd (isZero_num ρ r q h hrq) hq
    obtain ⟨t, htl, ht⟩ := hl.dataType
    obtain ⟨d, htr, hd⟩ := hr.dataType
    obtain ⟨l', hm1, hm2⟩ := hl.neg
    obtain ⟨s, hs, hts⟩ := divType_ok t d ht hd
    obtain ⟨_, hl1, hl2⟩ := hl.asType _ hts
    obtain ⟨_, hl3, hl4⟩ := hm2.asType _ hts
    simp only [valDiv, hr.coerce, hb, hb', hl.isId, hr.isId, hr.isOp, htl, htr, bind, Except.bind, hm1, hs]
    cases b with
    | true => exact ⟨_, rfl, by rw [if_neg hts]; exact .num _ _ hts⟩
    | false =>
      simp only [Bool.false_eq_true, if_false, Bool.or_false, hts]
      by_cases c3 : r.isValue 1 = true
      · rw [if_pos c3]; exact ⟨_, hl1, hl2⟩
      rw [if_neg c3]
      by_cases c4 : r.isValue (-1) = true
      · rw [if_pos c4]; exact ⟨_, hl3, hl4⟩
      rw [if_neg c4]
      have hbest : ∀ x : Num, (best x).den ρ = some (.num x.toRat) := by
        intro x
        obtain ⟨dt, h⟩ := best_is_num x
        rw [h, Node.den]
      cases hl with
      | num x dt h =>
        cases hr with
        | num y dt' h' => exact ⟨_, rfl, .num _ _ hts⟩
        | boxed dt' c h' hc =>
          rw [Node.den, only_single] at hrq
          obtain ⟨n, h1, h2⟩ := ih (best x) c q (best_lit x) hc hq hrq (by simp [Node.size, sizeL, best_size] at hf ⊢; omega)
          exact ⟨.boxed s [n], by simp [foldPayload, single, bind, Except.bind, h1], .boxed _ _ hts h2⟩
      | boxed dt c h hc =>
        cases hr with
        | num y dt' h' =>
          rw [Node.den] at hrq
          have : y.toRat = q := by simpa using hrq
          obtain ⟨n, h1, h2⟩ := ih c (best y) q hc (best_lit y) hq (by rw [hbest, this])
            (by simp [Node.size, sizeL, best_size] at hf ⊢; omega)
          exact ⟨.boxed s [n], by simp [foldPayload, single, bind, Except.bind, h1, hc.isOp], .boxed _ _ hts h2⟩
        | boxed dt' e h' he =>
          rw [Node.den, only_single] at hrq
          have hprep : prep (.expr [e]) = e := rfl
          obtain ⟨n, h1, h2⟩ := ih c e q hc he hq hrq (by simp [Node.size, sizeL] at hf; omega)
          exact ⟨.boxed s [n], by simp [foldPayload, single, bind, Except.bind, hprep, h1], .boxed _ _ hts h2⟩

theorem div_coerce (fuel : Nat) (l r : Node) (hl : Lit l) : truediv fuel l r = truediv fuel l (coerce r) := by
  cases fuel with
  | zero => rfl
  | succ fuel => cases hl <;> simp [truediv, Node.isVal, valDiv, coerce_coerce]

theorem div_const' (ρ : Env) (l r : Node) (q : ℚ) (hl : Const l) (hr : Const r) (hq : q ≠ 0) (hd : r.den ρ = some (.num q)) :
    ∃ n, truediv (enough l r) l r = .ok n ∧ Const n := by
  rcases hl with hl | ⟨c, rfl, hl⟩
  · rw [div_coerce _ _ _ hl]
    obtain ⟨n, h1, h2⟩ := div_lit' ρ (enough l r) l (coerce r) q hl hr.coerce.1 hq (by rw [coerce_den, hd])
      (by rw [hr.coerce.2, enough]; omega)
    exact ⟨n, h1, .inl h2⟩
  · obtain ⟨k, hk⟩ : ∃ k, enough (.expr [c]) r = k + 1 := ⟨4 * ((Node.expr [c]).size + r.size) + 7, rfl⟩
    obtain ⟨n, h1, h2⟩ := div_lit' ρ k c (prep r) q hl hr.prep.1 hq (by rw [prep_den, hd]) (by
      have := hr.prep.2
      simp [enough, Node.size, sizeL] at hk
      omega)
    exact ⟨.expr [n], by rw [hk]; simp [truediv, single, bind, Except.bind, h1], .inr ⟨n, rfl, h2⟩⟩

theorem Const.fineAt {ρ : Env} {n : Node} (h : Const n) : FineAt ρ n := by
  rcases h with h | ⟨c, rfl, h⟩
  · exact .lit _ h
  · exact .expr _ (.lit _ h)

theorem FineAt.dataType {ρ : Env} {n : Node} (h : FineAt ρ n) : ∃ t, n.dataType = .ok t ∧ t ≠ .str := by
  induction h with
  | lit n h => exact h.dataType
  | ident s dt o ho h => exact ⟨dt, rfl, h⟩
  | un op dt x h _ _ => exact ⟨dt, rfl, h⟩
  | bin op dt l r h => exact ⟨dt, rfl, h⟩
  | call op dt ls rs h => exact ⟨dt, rfl, h⟩
  | tri op dt f s t h => exact ⟨dt, rfl, h⟩
  | expr x _ ih => obtain ⟨t, h1, h2⟩ := ih; exact ⟨t, by simp [Node.dataType, dataTypeL, h1], h2⟩

theorem FineAt.isZero {ρ : Env} {n : Node} (h : FineAt ρ n) : ∃ b, n.isZero = .ok b := by
  induction h with
  | lit n h => exact h.isZero
  | ident s dt o ho h => rcases ho with rfl | rfl <;> exact ⟨false, rfl⟩
  | expr x _ ih => obtain ⟨b, h1⟩ := ih; exact ⟨b, by simp [Node.isZero, isZeroL, h1]⟩
  | _ => exact ⟨false, rfl⟩

theorem FineAt.const {ρ : Env} {n : Node} (h : FineAt ρ n) (hc : n.isConstant = true) : Const n := by
  cases h with
  | lit n h => exact .inl h
  | ident s dt o ho h => rcases ho with rfl | rfl <;> simp [Node.isConstant] at hc
  | un op dt x h _ => simp [Node.isConstant] at hc
  | bin op dt l r h => simp [Node.isConstant] at hc
  | call op dt ls rs => simp [Node.isConstant] at hc
  | tri op dt f s t h => simp [Node.isConstant] at hc
  | expr x hx =>
    cases hx with
    | lit n h => exact .inr ⟨x, rfl, h⟩
    | ident s dt o ho h => rcases ho with rfl | rfl <;> simp [Node.isConstant] at hc
    | un op dt x h _ => simp [Node.isConstant] at hc
    | bin op dt l r h => simp [Node.isConstant] at hc
    | call op dt ls rs => simp [Node.isConstant] at hc
    | tri op dt f s t h => simp [Node.isConstant] at hc
    | expr x hx => simp [Node.isConstant] at hc

theorem mkUn_fineAt {ρ : Env} (op : String) (x : Node) (hx : FineAt ρ x) : ∃ n, mkUn op [x] = .ok n ∧ FineAt ρ n := by
  obtain ⟨t, ht, hs⟩ := hx.dataType
  exact ⟨.un op t [x], by simp only [mkUn, uniqueType_single x t ht, bind, Except.bind], .un _ _ _ hs hx⟩

theorem mkBin_fineAt {ρ : Env} (op : String) (hu : untyped op = false) (l r : Node) (hl : FineAt ρ l) (hr : FineAt ρ r)
    (hd : op = "/" → ∃ q : ℚ, q ≠ 0 ∧ r.den ρ = some (.num q)) : ∃ n, mkBin op [l] [r] = .ok n ∧ FineAt ρ n := by
  obtain ⟨t, ht, hs⟩ := hl.dataType
  obtain ⟨t', ht', hs'⟩ := hr.dataType
  refine ⟨.bin op (t.add t') [l] [r], ?_, .bin _ _ _ _ (add_ne_str t t' hs hs') hu hl hr hd⟩
  simp [mkBin, hu, uniqueType_single _ _ ht, uniqueType_single _ _ ht', bind, Except.bind]

theorem mkTri_fineAt {ρ : Env} (op : String) (f l r : Node) (hf : FineAt ρ f) (hl : FineAt ρ l) (hr : FineAt ρ r) :
    ∃ n, mkTri op [f] [l] [r] = .ok n ∧ FineAt ρ n := by
  obtain ⟨t, ht, hs⟩ := hl.dataType
  obtain ⟨t', ht', hs'⟩ := hr.dataType
  refine ⟨.tri op (t.add t') [f] [l] [r], ?_, .tri _ _ _ _ _ (add_ne_str t t' hs hs') hf hl hr⟩
  simp [mkTri, uniqueType_single _ _ ht, uniqueType_single _ _ ht', bind, Except.bind]

theorem simplifyBin_fineAt {ρ : Env} (op : String) (hu : untyped op = false) (l r : Node) (hl : FineAt ρ l) (hr : FineAt ρ r)
    (hd : op = "/" → ∃ q : ℚ, q ≠ 0 ∧ r.den ρ = some (.num q)) : ∃ n, simplifyBin op [l] [r] = .ok n ∧ FineAt ρ n := by
  obtain ⟨z, hz⟩ := hl.isZero
  obtain ⟨z', hz'⟩ := hr.isZero
  obtain ⟨m, hm1, hm2⟩ := mkBin_fineAt op hu l r hl hr hd
  simp only [simplifyBin, neutralLeft, neutralRight, hz, hz', bind, Except.bind]
  split
  · exact ⟨.expr [r], rfl, .expr _ hr⟩
  · split
    · exact ⟨.expr [l], rfl, .expr _ hl⟩
    · simp only [Bool.and_eq_true]
      by_cases hc : l.isConstant = true ∧ r.isConstant = true
      · rw [if_pos hc]
        have cl := hl.const hc.1
        have cr := hr.const hc.2
        by_cases h1 : op = "+"
        · rw [if_pos h1]
          obtain ⟨n, h2, h3⟩ := addSub_const true l r cl cr
          exact ⟨n, h2, h3.fineAt⟩
        rw [if_neg h1]
        by_cases h2 : op = "-"
        · rw [if_pos h2]
          obtain ⟨n, h2, h3⟩ := addSub_const false l r cl cr
          exact ⟨n, h2, h3.fineAt⟩
        rw [if_neg h2]
        by_cases h3 : op = "*"
        · rw [if_pos h3]
          obtain ⟨n, h2, h3⟩ := mul_const l r cl cr
          exact ⟨n, h2, h3.fineAt⟩
        rw [if_neg h3]
        by_cases h4 : op = "/"
        · rw [if_pos h4]
          obtain ⟨q, hq, hrq⟩ := hd h4
          obtain ⟨n, h2, h3⟩ := div_const' ρ l r q cl cr hq hrq
          exact ⟨n, h2, h3.fineAt⟩
        rw [if_neg h4]
        exact ⟨m, hm1, hm2⟩
      · rw [if_neg hc]
        exact ⟨m, hm1, hm2⟩

theorem simplifyTri_fineAt {ρ : Env} (op : String) (f s t : Node) (hf : FineAt ρ f) (hs : FineAt ρ s) (ht : FineAt ρ t) :
    ∃ n, simplifyTri op [f] [s] [t] = .ok n ∧ FineAt ρ n := by
  obtain ⟨m, hm⟩ := mkTri_fineAt op f s t hf hs ht
  simp only [simplifyTri]
  split
  · split
    · exact ⟨_, rfl, .expr _ hs⟩
    · split
      · exact ⟨_, rfl, .expr _ ht⟩
      · exact ⟨m, hm⟩
  · exact ⟨m, hm⟩

theorem simplifyBin_callAt {ρ : Env} (op : String) (hu : untyped op = true) (ls rs : List Node)
    (hl : ∀ x ∈ ls, x.isText = false → FineAt ρ x) (hr : ∀ x ∈ rs, x.isText = false → FineAt ρ x) :
    simplifyBin op ls rs = .ok (.bin op .undefined ls rs) := by
  obtain ⟨n1, n2, n3, n4⟩ := untyped_ops op hu
  have hz : ∀ x : Node, (x.isText = false → FineAt ρ x) → ∃ b, x.isZero = .ok b := by
    intro x h
    by_cases ht : x.isText = true
    · cases x with
      | text s dt o => cases o <;> simp [Node.isZero]
      | _ => simp [Node.isText] at ht
    · exact (h (by simpa using ht)).isZero
  have b1 : neutralLeft op ls = .ok false := by
    match ls with
    | [] => rfl
    | [x] =>
      obtain ⟨b, h⟩ := hz x (hl x List.mem_cons_self)
      simp [neutralLeft, h, bind, Except.bind, n1, n3]
    | _ :: _ :: _ => rfl
  have b2 : neutralRight op rs = .ok false := by
    match rs with
    | [] => rfl
    | [x] =>
      obtain ⟨b, h⟩ := hz x (hr x List.mem_cons_self)
      simp [neutralRight, h, bind, Except.bind, n1, n2, n3, n4]
    | _ :: _ :: _ => rfl
  have m : ∀ ls rs, mkBin op ls rs = .ok (.bin op .undefined ls rs) := by
    intro ls rs
    simp [mkBin, hu]
  simp only [simplifyBin, b1, b2, bind, Except.bind, Bool.false_eq_true, if_false]
  split
  · simp only [n1, n2, n3, n4, if_false, m, ite_self]
  · exact m _ _

/-- C10: simplifying returns, for every numeric expression in which, under some assignment, all divisors are numbers other
than zero; the result is again such an expression. With `simplify_preserves_value_partial` it has the same value. -/
theorem simplify_returns_defined (ρ : Env) (n : Node) (h : FineAt ρ n) : ∃ n', n.simplify = .ok n' ∧ FineAt ρ n' := by
  induction h with
  | lit n h => exact ⟨n, h.simplify, .lit n h⟩
  | ident s dt o ho h => exact ⟨_, rfl, .ident s dt o ho h⟩
  | un op dt x h hx ih =>
    obtain ⟨x', h1, h2⟩ := ih
    have e1 : (Node.un op dt [x]).simplify = simplifyUn op [x'] := by
      simp only [Node.simplify, simplifyL_single x x' h1, bind, Except.bind]
    rw [e1, simplifyUn]
    split
    · exact ⟨x', rfl, h2⟩
    · exact mkUn_fineAt op x' h2
  | bin op dt l r h hu hl hr hd ihl ihr =>
    obtain ⟨l', h1, h2⟩ := ihl
    obtain ⟨r', h3, h4⟩ := ihr
    have e1 : (Node.bin op dt [l] [r]).simplify = simplifyBin op [l'] [r'] := by
      simp only [Node.simplify, simplifyL_single l l' h1, simplifyL_single r r' h3, bind, Except.bind]
    rw [e1]
    apply simplifyBin_fineAt op hu l' r' h2 h4
    intro ho
    obtain ⟨q, hq, hrq⟩ := hd ho
    exact ⟨q, hq, simplify_preserves_value_partial r r' h3 ρ _ hrq⟩
  | call op dt ls rs h hu hl hr ihl ihr =>
    have args : ∀ xs : List Node, (∀ x ∈ xs, x.isText = false → ∃ n', x.simplify = .ok n' ∧ FineAt ρ n') →
        ∃ ys, simplifyL xs = .ok ys ∧ ∀ y ∈ ys, y.isText = false → FineAt ρ y := by
      intro xs hxs
      apply simplifyL_all
      intro x hx
      by_cases ht : x.isText = true
      · cases x with
        | text s dt o => exact ⟨_, rfl, fun hc => by simp [Node.isText] at hc⟩
        | _ => simp [Node.isText] at ht
      · obtain ⟨y, h1, h2⟩ := hxs x hx (by simpa using ht)
        exact ⟨y, h1, fun _ => h2⟩
    obtain ⟨ls', h1, h2⟩ := args ls ihl
    obtain ⟨rs', h3, h4⟩ := args rs ihr
    refine ⟨.bin op .undefined ls' rs', ?_, .call _ _ _ _ (by decide) hu h2 h4⟩
    simp only [Node.simplify, h1, h3, bind, Except.bind]
    exact simplifyBin_callAt op hu ls' rs' h2 h4
  | tri op dt f s t h hf hs ht ihf ihs iht =>
    obtain ⟨f', h1, h2⟩ := ihf
    obtain ⟨s', h3, h4⟩ := ihs
    obtain ⟨t', h5, h6⟩ := iht
    have e1 : (Node.tri op dt [f] [s] [t]).simplify = simplifyTri op [f'] [s'] [t'] := by
      simp only [Node.simplify, simplifyL_single _ _ h1, simplifyL_single _ _ h3, simplifyL_single _ _ h5, bind, Except.bind]
    rw [e1]
    exact simplifyTri_fineAt op f' s' t' h2 h4 h6
  | expr x hx ih =>
    obtain ⟨x', h1, h2⟩ := ih
    exact ⟨.expr [x'], by simp only [Node.simplify, simplifyL_single x x' h1, bind, Except.bind], .expr _ h2⟩

/-- C11: evaluating returns, for every numeric expression without boxed parts, if the known values are numeric expressions
and, under some assignment of the unknown identifiers, all divisors are numbers other than zero. With
`evaluate_is_substitution_partial` the result has the value of the substituted expression. -/
theorem evaluate_returns_defined (ρ : Env) (known : Known) (hk : ∀ s es, known s = some es → ∃ x, es = [x] ∧ FineAt ρ x)
    (n : Node) (h : FineAt (ρ.update known) n) (hub : n.unboxed = true) : ∃ n', n.evaluate known = .ok n' ∧ FineAt ρ n' := by
  have hid : ∀ (s : String) (dt : DataType) (o : Obj), (∃ x, lookupKnown known s dt o = x ∧ FineAt ρ x) ∨
      lookupKnown known s dt o = .text s dt o := by
    intro s dt o
    unfold lookupKnown
    split
    · cases hs : known s with
      | none => right; rfl
      | some es =>
        obtain ⟨x, rfl, hx⟩ := hk s es hs
        left; exact ⟨x, rfl, hx⟩
    · right; rfl
  induction h with
  | lit n h => exact ⟨n, by cases h <;> rfl, .lit n h⟩
  | ident s dt o ho h =>
    rcases hid s dt o with ⟨x, h1, h2⟩ | h1
    · exact ⟨x, by rw [Node.evaluate, h1], h2⟩
    · exact ⟨_, by rw [Node.evaluate, h1], .ident s dt o ho h⟩
  | un op dt x h hx ih =>
    obtain ⟨x', h1, h2⟩ := ih (by simpa [Node.unboxed, unboxedL] using hub)
    obtain ⟨m, h3, h4⟩ := mkUn_fineAt op x' h2
    obtain ⟨n, h5, h6⟩ := simplify_returns_defined ρ m h4
    exact ⟨n, by simp only [Node.evaluate, evaluateL_single known x x' h1, bind, Except.bind, h3, h5], h6⟩
  | bin op dt l r h hu hl hr hd ihl ihr =>
    have hub' : l.unboxed = true ∧ r.unboxed = true := by simpa [Node.unboxed, unboxedL] using hub
    obtain ⟨l', h1, h2⟩ := ihl hub'.1
    obtain ⟨r', h3, h4⟩ := ihr hub'.2
    obtain ⟨m, h5, h6⟩ := mkBin_fineAt op hu l' r' h2 h4 (by
      intro ho
      obtain ⟨q, hq, hrq⟩ := hd ho
      exact ⟨q, hq, evaluate_le ρ known r r' hub'.2 h3 _ hrq⟩)
    obtain ⟨n, h7, h8⟩ := simplify_returns_defined ρ m h6
    exact ⟨n, by simp only [Node.evaluate, evaluateL_single known _ _ h1, evaluateL_single known _ _ h3, bind, Except.bind,
      h5, h7], h8⟩
  | call op dt ls rs h hu hl hr ihl ihr =>
    have hub' : unboxedL ls = true ∧ unboxedL rs = true := by simpa [Node.unboxed] using hub
    have args : ∀ xs : List Node, unboxedL xs = true → (∀ x ∈ xs, x.isText = false → x.unboxed = true →
        ∃ n', x.evaluate known = .ok n' ∧ FineAt ρ n') →
        ∃ ys, evaluateL known xs = .ok ys ∧ ∀ y ∈ ys, y.isText = false → FineAt ρ y := by
      intro xs hux hxs
      apply evaluateL_all
      intro x hx
      have hxu : x.unboxed = true := by
        clear hxs
        induction xs with
        | nil => cases hx
        | cons a xs ih =>
          simp only [unboxedL, Bool.and_eq_true] at hux
          rcases List.mem_cons.mp hx with rfl | hx
          · exact hux.1
          · exact ih hux.2 hx
      by_cases ht : x.isText = true
      · cases x with
        | text s dt o =>
          rcases hid s dt o with ⟨x, h1, h2⟩ | h1
          · exact ⟨x, by rw [Node.evaluate, h1], fun _ => h2⟩
          · exact ⟨_, by rw [Node.evaluate, h1], fun hc => by simp [Node.isText] at hc⟩
        | _ => simp [Node.isText] at ht
      · obtain ⟨y, h1, h2⟩ := hxs x hx (by simpa using ht) hxu
        exact ⟨y, h1, fun _ => h2⟩
    obtain ⟨ls', h1, h2⟩ := args ls hub'.1 ihl
    obtain ⟨rs', h3, h4⟩ := args rs hub'.2 ihr
    have hm : mkBin op ls' rs' = .ok (.bin op .undefined ls' rs') := by simp [mkBin, hu]
    obtain ⟨n, h7, h8⟩ := simplify_returns_defined ρ _ (.call op .undefined ls' rs' (by decide) hu h2 h4)
    exact ⟨n, by simp only [Node.evaluate, h1, h3, bind, Except.bind, hm, h7], h8⟩
  | tri op dt f s t h hf hs ht ihf ihs iht =>
    have hub' : (f.unboxed = true ∧ s.unboxed = true) ∧ t.unboxed = true := by simpa [Node.unboxed, unboxedL] using hub
    obtain ⟨f', h1, h2⟩ := ihf hub'.1.1
    obtain ⟨s', h3, h4⟩ := ihs hub'.1.2
    obtain ⟨t', h5, h6⟩ := iht hub'.2
    obtain ⟨m, h7, h8⟩ := mkTri_fineAt op f' s' t' h2 h4 h6
    obtain ⟨n, h9, h10⟩ := simplify_returns_defined ρ m h8
    exact ⟨n, by simp only [Node.evaluate, evaluateL_single known _ _ h1, evaluateL_single known _ _ h3,
      evaluateL_single known _ _ h5, bind, Except.bind, h7, h9], h10⟩
  | expr x hx ih =>
    obtain ⟨x', h1, h2⟩ := ih (by simpa [Node.unboxed, unboxedL] using hub)
    obtain ⟨n, h3, h4⟩ := simplify_returns_defined ρ _ (.expr x' h2)
    exact ⟨n, by simp only [Node.evaluate, evaluateL_single known x x' h1, bind, Except.bind, h3], h4⟩

/-- `(x - 2) / (y * 3)` with `x = 2` given, where `y` is not zero. -/
example (ρ : Env) (hy : ρ.var "y" = some (.num 5)) :
    ∃ n', (Node.bin "/" .undefined [.bin "-" .undefined [.text "x" .undefined .ident] [.num (.int 2) .int]]
      [.bin "*" .undefined [.text "y" .undefined .ident] [.num (.int 3) .int]]).evaluate
      (fun s => if s = "x" then some [.num (.int 7) .int] else none) = .ok n' ∧ FineAt ρ n' := by
  apply evaluate_returns_defined ρ
  · intro s es h
    split at h
    · cases h; exact ⟨_, rfl, .lit _ (.num _ _ (by decide))⟩
    · cases h
  · refine .bin _ _ _ _ (by decide) (by decide +kernel) ?_ ?_ ?_
    · exact .bin _ _ _ _ (by decide) (by decide +kernel) (.ident _ _ _ (.inl rfl) (by decide))
        (.lit _ (.num _ _ (by decide))) (by intro h; exact absurd h (by decide))
    · exact .bin _ _ _ _ (by decide) (by decide +kernel) (.ident _ _ _ (.inl rfl) (by decide))
        (.lit _ (.num _ _ (by decide))) (by intro h; exact absurd h (by decide))
    · intro _
      refine ⟨15, by norm_num, ?_⟩
      simp [Node.den, denL, Env.update, hy, apply2, arith, Num.toRat]
      norm_num
  · decide +kernel

end Verif.Ex
