import Verif.Expr.Visit

/-!
Property C87: arithmetic with whole numbers. In C the quotient of two whole numbers is cut off to a whole number, while the
visitor folds numbers as Python does and drops factors and summands which are numbers of either kind (expression.py 840-900).
-/

namespace Verif.Ex
open Verif.DT

/-! ### Values in C -/

/-- A value in C: a whole number, a floating point number (exact), or something else, for example an array. -/
inductive CVal
  | int (n : ℤ)
  | dbl (q : ℚ)
  | other (s : String)
  deriving DecidableEq, Repr

/-- The value without the distinction between the two kinds of numbers. -/
def CVal.base : CVal → Base
  | .int n => .num n
  | .dbl q => .num q
  | .other s => .text s

/-- What variables, elements of arrays and functions are in C. The arguments of a function and an index are converted to the type
wanted, so that it does not matter which kind of number they are. -/
structure CEnv where
  var : String → Option CVal
  elem : Base → Base → Option CVal
  fn : String → List Base → Option CVal

/-- Arithmetic in C (C99 6.5.5, 6.5.6): if one operand is a floating point number, so is the result; the quotient of whole numbers
is cut off. Overflow and rounding are left out. -/
def cArith (o : String) : CVal → CVal → Option CVal
  | .int a, .int b =>
    if o = "+" then some (.int (a + b))
    else if o = "-" then some (.int (a - b))
    else if o = "*" then some (.int (a * b))
    else if o = "/" then if b = 0 then none else some (.int (a.tdiv b))
    else none
  | .int a, .dbl b => real o a b
  | .dbl a, .int b => real o a b
  | .dbl a, .dbl b => real o a b
  | _, _ => none
where
  real (o : String) (a b : ℚ) : Option CVal :=
    if o = "+" ∨ o = "-" ∨ o = "*" ∨ o = "/" then (arith o a b).map .dbl else none

/-- The opposite in C. -/
def cNeg : CVal → Option CVal
  | .int a => some (.int (-a))
  | .dbl a => some (.dbl (-a))
  | .other _ => none

mutual
/-- The value in C of arithmetic as C reads it. A literal is a floating point number if it is written with a point or exponent. -/
def Tree.cval (ρ : CEnv) : Tree → Option CVal
  | .lit (.int n) => some (.int n)
  | .lit (.flt q) => some (.dbl q)
  | .id s => ρ.var s
  | .group t => t.cval ρ
  | .neg t => (t.cval ρ).bind cNeg
  | .pos t => t.cval ρ
  | .bin o l r => (l.cval ρ).bind fun a => (r.cval ρ).bind fun b => if o = "__getitem__" then ρ.elem a.base b.base else cArith o a b
  | .call f as => (Tree.cvalL ρ as).bind fun vs => ρ.fn f (vs.map CVal.base)
  | _ => Option.none
def Tree.cvalL (ρ : CEnv) : List Tree → Option (List CVal)
  | [] => some []
  | t :: ts => (t.cval ρ).bind fun v => (Tree.cvalL ρ ts).map (v :: ·)
end

mutual
/-- Every quotient of two whole numbers comes out even. -/
def Tree.even (ρ : CEnv) : Tree → Prop
  | .group t => t.even ρ
  | .neg t => t.even ρ
  | .pos t => t.even ρ
  | .bin o l r => l.even ρ ∧ r.even ρ ∧
    (o = "/" → ∀ a b : ℤ, l.cval ρ = some (.int a) → r.cval ρ = some (.int b) → b ∣ a)
  | .call _ as => Tree.evenL ρ as
  | _ => True
def Tree.evenL (ρ : CEnv) : List Tree → Prop
  | [] => True
  | t :: ts => t.even ρ ∧ Tree.evenL ρ ts
end

/-- The same variables and functions, without the distinction of the kinds of numbers. -/
def CEnv.env (ρ : CEnv) : Env where
  var s := (ρ.var s).map CVal.base
  fn1 _ _ := Option.none
  fn2 op ls rs :=
    if op = "__getitem__" then
      match ls, rs with
      | [a], [b] => (ρ.elem a b).map CVal.base
      | _, _ => Option.none
    else if op = "__call__" then
      match ls with
      | [.text f] => (ρ.fn f rs).map CVal.base
      | _ => Option.none
    else Option.none

/-! ### Without the distinction the value is that of the rational numbers -/

theorem cNeg_base (ρ : CEnv) (v : CVal) : apply1 ρ.env "-" [v.base] = (cNeg v).map CVal.base := by
  cases v <;> simp [apply1, CVal.base, cNeg]

theorem cArith_base (ρ : CEnv) (o : String) (ho : Arithmetic o) (a b : CVal)
    (he : o = "/" → ∀ m n : ℤ, a = .int m → b = .int n → n ∣ m) :
    apply2 ρ.env o [a.base] [b.base] = (cArith o a b).map CVal.base := by
  have h : o = "+" ∨ o = "-" ∨ o = "*" ∨ o = "/" := ho
  unfold apply2
  rw [if_pos h]
  cases a with
  | other => cases b <;> rfl
  | int m =>
    cases b with
    | other => rfl
    | dbl q => simp only [CVal.base, cArith, cArith.real, if_pos h, Option.map_map]; rfl
    | int n =>
      simp only [CVal.base, cArith, arith]
      rcases ho with rfl | rfl | rfl | rfl
      · simp [CVal.base]
      · simp [CVal.base]
      · simp [CVal.base]
      · simp only [String.reduceEq, if_false, if_true, Int.cast_eq_zero]
        split_ifs with hn
        · rfl
        · obtain ⟨k, hk⟩ := he rfl m n rfl rfl
          subst hk
          have : ((n : ℚ) * k / n) = k := by field_simp
          simp [CVal.base, Int.mul_tdiv_cancel_left _ hn, this]
  | dbl p =>
    cases b with
    | other => rfl
    | dbl q => simp only [CVal.base, cArith, cArith.real, if_pos h, Option.map_map]; rfl
    | int q => simp only [CVal.base, cArith, cArith.real, if_pos h, Option.map_map]; rfl

mutual
theorem cval_den (ρ : CEnv) : ∀ t : Tree, (∀ tk ∈ t.toks, tk.over Arithmetic) → t.cOk → t.even ρ →
    t.den ρ.env = (t.cval ρ).map CVal.base
  | .none, _, hc, _ => by simp [Tree.cOk] at hc
  | .lit (.int n), _, _, _ => rfl
  | .lit (.flt q), _, _, _ => rfl
  | .id s, _, _, _ => rfl
  | .group t, hs, hc, he => by
    simpa [Tree.den, Tree.cval] using cval_den ρ t (fun tk h => hs tk (by simp [Tree.toks, h])) hc he
  | .neg t, hs, hc, he => by
    simp only [Tree.den, Tree.cval]
    rw [cval_den ρ t (fun tk h => hs tk (by simp [Tree.toks, h])) hc.1 he]
    cases t.cval ρ with
    | none => rfl
    | some v => simpa using cNeg_base ρ v
  | .pos t, hs, hc, he => by
    simpa [Tree.den, Tree.cval] using cval_den ρ t (fun tk h => hs tk (by simp [Tree.toks, h])) hc.1 he
  | .bin o l r, hs, hc, he => by
    by_cases ha : accessOp o = true
    · have hg : o = "__getitem__" := by
        by_contra hg
        simp only [accessOp, Bool.or_eq_true, decide_eq_true_eq, hg, or_false] at ha
        rcases ha with rfl | rfl
        · exact hs .dot (by simp [Tree.toks])
        · exact hs .arrow (by simp [Tree.toks])
      subst hg
      rw [Tree.cOk, if_pos rfl] at hc
      obtain ⟨⟨s, rfl⟩, hr⟩ := hc
      rw [tree_bin_den _ _ _ _ rfl, cval_den ρ r (fun tk h => hs tk (by simp [Tree.toks, h])) hr he.2.1]
      simp only [Tree.den, Tree.cval, CEnv.env, bop]
      cases ρ.var s with
      | none => rfl
      | some v =>
        cases r.cval ρ with
        | none => rfl
        | some w => simp [apply2]
    · have ha : accessOp o = false := by simpa using ha
      obtain ⟨h0, hl, hr, _, _⟩ := (cOk_infix o _ _ ha).mp hc
      rw [toks_infix o l r ha] at hs
      have ho : Arithmetic o := hs (.op o) (by simp)
      have hg : o ≠ "__getitem__" := by rintro rfl; simp [accessOp] at ha
      rw [tree_bin_den _ _ _ _ (cOk_some hl), cval_den ρ l (fun tk h => hs tk (by simp [h])) hl he.1,
        cval_den ρ r (fun tk h => hs tk (by simp [h])) hr he.2.1]
      simp only [Tree.cval, if_neg hg]
      have he' := he.2.2
      cases h1 : l.cval ρ with
      | none => rfl
      | some v =>
        cases h2 : r.cval ρ with
        | none => rfl
        | some w =>
          rw [h1, h2] at he'
          simpa [bop] using cArith_base ρ o ho v w (fun e m n h h' => he' e m n (by rw [h]) (by rw [h']))
  | .call f as, hs, hc, he => by
    simp only [Tree.den, Tree.cval]
    rw [cvalL_den ρ as (fun tk h => hs tk (by simp [Tree.toks, h])) hc.2 he]
    cases Tree.cvalL ρ as with
    | none => rfl
    | some vs => simp [CEnv.env]
  | .not t, hs, _, _ => (hs .bang (by simp [Tree.toks])).elim
  | .cond c a b, hs, _, _ => (hs .quest (by simp [Tree.toks])).elim
theorem cvalL_den (ρ : CEnv) : ∀ ts : List Tree, (∀ tk ∈ Tree.toksL ts, tk.over Arithmetic) → Tree.cOkL ts → Tree.evenL ρ ts →
    Tree.denL ρ.env ts = (Tree.cvalL ρ ts).map (·.map CVal.base)
  | [], _, _, _ => rfl
  | t :: ts, hs, hc, he => by
    have h1 : ∀ tk ∈ t.toks, tk.over Arithmetic := by
      cases ts with
      | nil => simpa [Tree.toksL] using hs
      | cons u us =>
        rw [toksL_cons t _ (by simp)] at hs
        exact fun tk h => hs tk (by simp [h])
    have h2 : ∀ tk ∈ Tree.toksL ts, tk.over Arithmetic := by
      cases ts with
      | nil => simp [Tree.toksL]
      | cons u us =>
        rw [toksL_cons t _ (by simp)] at hs
        exact fun tk h => hs tk (by simp [h])
    simp only [Tree.denL, Tree.cvalL]
    rw [cval_den ρ t h1 hc.1 he.1, cvalL_den ρ ts h2 hc.2 he.2]
    cases t.cval ρ with
    | none => rfl
    | some v => cases Tree.cvalL ρ ts <;> rfl
end

/-! ### The theorems -/

/-- C87: when C reads the text of the instrument without cutting off a quotient, the generated text has in C the same value, unless
a quotient of whole numbers is cut off there (which may happen, see `factor_one_dropped`). -/
theorem generated_whole_numbers_partial (par : String → Option DataType) (ts : List Tok) (t : Tree) (n : Node)
    (hts : ∀ tk ∈ ts, tk.over Arithmetic) (h : ReadAs ts t) (hw : t.whole = true) (hv : t.visit par = .ok n)
    (hp : n.printable = true) :
    CReadAs ts t.inC ∧ ∃ t', CReadAs n.toks t' ∧ ∀ (ρ : CEnv), t.inC.even ρ → t'.even ρ →
      ∀ v, t.inC.cval ρ = some v → ∃ w, t'.cval ρ = some w ∧ w.base = v.base := by
  obtain ⟨hc, -⟩ := arithmetic_read_as_in_c ts hts t h hw
  have hok := (same_value_iff ts t h).1.mp hc
  have e := readAs_toks ts t h
  obtain ⟨t', h', hw', hd⟩ := print_read_whole n hp
  have ht' := visit_toks (fun _ => true) par t n hok (by rw [← e]; exact fun tk h => (over_iff tk).mpr (hts tk h)) hv t' h'
  have ht'' : ∀ tk ∈ n.toks, tk.over Arithmetic := by
    rw [readAs_toks _ _ h']; exact fun tk h => (over_iff tk).mp (ht' tk h)
  obtain ⟨hc', hd'⟩ := arithmetic_read_as_in_c n.toks ht'' t' h' hw'
  have hok' := (same_value_iff _ t' h').1.mp hc'
  refine ⟨hc, t'.inC, hc', fun ρ he he' v hv' => ?_⟩
  have h1 := cval_den ρ t.inC (by rw [inC_toks, ← e]; exact hts) hok he
  have h2 := cval_den ρ t'.inC (by rw [inC_toks, ← readAs_toks _ _ h']; exact ht'') hok' he'
  obtain ⟨x, rfl, hx⟩ := visit_den par ρ.env t hok n hv
  rw [hv', Option.map_some, (same_value_iff ts t h).2 hc] at h1
  rw [hd', hd, expr_den, hx _ h1] at h2
  exact Option.map_eq_some_iff.mp h2.symm

/-- A number written with a point or exponent, or zero. -/
def Num.point : Num → Bool
  | .int n => n = 0
  | .flt _ => true

instance : Closed Num.point where
  zero := rfl
  neg {x} h := by cases x <;> simpa [Num.point, Num.neg] using h
  addSub {x y} plus hx hy := by
    cases x <;> cases y <;> simp_all [Num.point, Num.addSub]
  mul {x y} hx hy := by
    cases x <;> cases y <;> simp_all [Num.point, Num.mul]
  div _ _ := rfl

/-- No variable, element of an array or function is a whole number. -/
def CEnv.Doubles (ρ : CEnv) : Prop :=
  (∀ s n, ρ.var s ≠ some (.int n)) ∧ (∀ a b n, ρ.elem a b ≠ some (.int n)) ∧ ∀ f as n, ρ.fn f as ≠ some (.int n)

theorem cval_zero (ρ : CEnv) (hρ : ρ.Doubles) : ∀ t : Tree, (∀ tk ∈ t.toks, tk.overP Num.point) → ∀ n, t.cval ρ = some (.int n) → n = 0
  | .none, _, _, h => by simp [Tree.cval] at h
  | .lit (.int m), hs, n, h => by
    have := (hs (.lit (.int m)) (by simp [Tree.toks])).2 _ rfl
    simp only [Num.point, decide_eq_true_eq] at this
    simp only [Tree.cval, Option.some.injEq, CVal.int.injEq] at h
    omega
  | .lit (.flt q), _, _, h => by simp [Tree.cval] at h
  | .id s, _, n, h => absurd h (hρ.1 s n)
  | .group t, hs, n, h => cval_zero ρ hρ t (fun tk h => hs tk (by simp [Tree.toks, h])) n h
  | .pos t, hs, n, h => cval_zero ρ hρ t (fun tk h => hs tk (by simp [Tree.toks, h])) n h
  | .neg t, hs, n, h => by
    simp only [Tree.cval, Option.bind_eq_some_iff] at h
    obtain ⟨v, hv, h⟩ := h
    cases v with
    | int m =>
      have := cval_zero ρ hρ t (fun tk h => hs tk (by simp [Tree.toks, h])) m hv
      simp only [cNeg, Option.some.injEq, CVal.int.injEq] at h
      omega
    | dbl => simp [cNeg] at h
    | other => simp [cNeg] at h
  | .bin o l r, hs, n, h => by
    simp only [Tree.cval, Option.bind_eq_some_iff] at h
    obtain ⟨v, hv, w, hw, h⟩ := h
    split_ifs at h with hg
    · exact absurd h (hρ.2.1 _ _ n)
    · have sl : ∀ tk ∈ l.toks, tk ∈ (Tree.bin o l r).toks := by
        intro tk h
        rw [Tree.toks]; split_ifs <;> simp [h]
      have sr : ∀ tk ∈ r.toks, tk ∈ (Tree.bin o l r).toks := by
        intro tk h
        rw [Tree.toks]; split_ifs <;> simp [h]
      have real : ∀ o a b, cArith.real o a b ≠ some (.int n) := by
        intro o a b h
        simp only [cArith.real] at h
        split_ifs at h
        simp at h
      cases v with
      | other => simp [cArith] at h
      | dbl p =>
        cases w with
        | other => simp [cArith] at h
        | int b => exact absurd h (real _ _ _)
        | dbl b => exact absurd h (real _ _ _)
      | int a =>
        cases w with
        | other => simp [cArith] at h
        | dbl b => exact absurd h (real _ _ _)
        | int b =>
          have ha := cval_zero ρ hρ l (fun tk h => hs tk (sl tk h)) a hv
          have hb := cval_zero ρ hρ r (fun tk h => hs tk (sr tk h)) b hw
          subst ha hb
          simp only [cArith] at h
          split_ifs at h <;> simp at h <;> omega
  | .call f as, _, n, h => by
    simp only [Tree.cval, Option.bind_eq_some_iff] at h
    obtain ⟨vs, _, h⟩ := h
    exact absurd h (hρ.2.2 _ _ n)
  | .not t, _, _, h => by simp [Tree.cval] at h
  | .cond .., _, _, h => by simp [Tree.cval] at h

mutual
theorem even_doubles (ρ : CEnv) (hρ : ρ.Doubles) : ∀ t : Tree, (∀ tk ∈ t.toks, tk.overP Num.point) → t.even ρ
  | .none, _ => trivial
  | .lit _, _ => trivial
  | .id _, _ => trivial
  | .group t, hs => even_doubles ρ hρ t (fun tk h => hs tk (by simp [Tree.toks, h]))
  | .pos t, hs => even_doubles ρ hρ t (fun tk h => hs tk (by simp [Tree.toks, h]))
  | .neg t, hs => even_doubles ρ hρ t (fun tk h => hs tk (by simp [Tree.toks, h]))
  | .bin o l r, hs => by
    have sl : ∀ tk ∈ l.toks, tk ∈ (Tree.bin o l r).toks := by
      intro tk h
      rw [Tree.toks]; split_ifs <;> simp [h]
    have sr : ∀ tk ∈ r.toks, tk ∈ (Tree.bin o l r).toks := by
      intro tk h
      rw [Tree.toks]; split_ifs <;> simp [h]
    refine ⟨even_doubles ρ hρ l (fun tk h => hs tk (sl tk h)), even_doubles ρ hρ r (fun tk h => hs tk (sr tk h)),
      fun _ a b ha _ => ?_⟩
    rw [cval_zero ρ hρ l (fun tk h => hs tk (sl tk h)) a ha]
    exact dvd_zero b
  | .call f as, hs => evenL_doubles ρ hρ as (fun tk h => hs tk (by simp [Tree.toks, h]))
  | .not t, _ => trivial
  | .cond .., _ => trivial
theorem evenL_doubles (ρ : CEnv) (hρ : ρ.Doubles) : ∀ ts : List Tree, (∀ tk ∈ Tree.toksL ts, tk.overP Num.point) →
    Tree.evenL ρ ts
  | [], _ => trivial
  | t :: ts, hs => by
    refine ⟨even_doubles ρ hρ t ?_, evenL_doubles ρ hρ ts ?_⟩
    · cases ts with
      | nil => simpa [Tree.toksL] using hs
      | cons u us =>
        rw [toksL_cons t _ (by simp)] at hs
        exact fun tk h => hs tk (by simp [h])
    · cases ts with
      | nil => simp [Tree.toksL]
      | cons u us =>
        rw [toksL_cons t _ (by simp)] at hs
        exact fun tk h => hs tk (by simp [h])
end

/-- C87 for floating point numbers: if every number in the text is zero or written with a point or exponent, and no variable,
element or function is a whole number, the generated text has in C the value that the text has in C. -/
theorem generated_floating_point_partial (par : String → Option DataType) (ts : List Tok) (t : Tree) (n : Node)
    (hts : ∀ tk ∈ ts, tk.over Arithmetic) (hl : ∀ x, .lit x ∈ ts → x = .int 0 ∨ ∃ q, x = .flt q) (h : ReadAs ts t)
    (hw : t.whole = true) (hv : t.visit par = .ok n) (hp : n.printable = true) :
    CReadAs ts t.inC ∧ ∃ t', CReadAs n.toks t' ∧ ∀ (ρ : CEnv), (∀ s n, ρ.var s ≠ some (.int n)) →
      (∀ a b n, ρ.elem a b ≠ some (.int n)) → (∀ f as n, ρ.fn f as ≠ some (.int n)) →
      ∀ v, t.inC.cval ρ = some v → ∃ w, t'.cval ρ = some w ∧ w.base = v.base := by
  obtain ⟨hc, t', hc', H⟩ := generated_whole_numbers_partial par ts t n hts h hw hv hp
  have hok := (same_value_iff ts t h).1.mp hc
  have e := readAs_toks ts t h
  have hP : ∀ tk ∈ t.toks, tk.overP Num.point := by
    rw [← e]
    refine fun tk htk => ⟨hts tk htk, fun x ex => ?_⟩
    subst ex
    rcases hl x htk with rfl | ⟨q, rfl⟩ <;> rfl
  obtain ⟨u, hu, hw', -⟩ := print_read_whole n hp
  have hP' := visit_toks Num.point par t n hok hP hv u hu
  have : t'.toks = u.toks := by
    have := (creads_inv _ _ hc').1
    rw [← readAs_toks _ _ hu, this, List.append_nil]
  refine ⟨hc, t', hc', fun ρ h1 h2 h3 => H ρ (even_doubles ρ ⟨h1, h2, h3⟩ _ (by rw [inC_toks]; exact hP))
    (even_doubles ρ ⟨h1, h2, h3⟩ _ (by rw [this]; exact hP'))⟩

/-- `2.5 * E / v[i] - 0` -/
example : ∃ t n, ReadAs [.lit (.flt ⟨5, 2, by decide, by decide⟩), .op "*", .id "E", .op "/", .id "v", .lbr, .id "i", .rbr, .op "-", .lit (.int 0)] t ∧
    t.whole = true ∧ t.visit (fun s => if s = "E" then some .float else none) = .ok n ∧ n.printable = true := by
  refine ⟨.bin "-" (.bin "/" (.bin "*" (.lit (.flt ⟨5, 2, by decide, by decide⟩)) (.id "E")) (.bin "__getitem__" (.id "v") (.id "i"))) (.lit (.int 0)), _,
    ?_, rfl, rfl, by decide +kernel⟩
  exact .lit (.bin (by decide) (by decide) (.id rfl (.stop rfl))
    (.bin (by decide) (by decide) (.index (.id rfl (.stop rfl)) (.stop rfl))
      (.bin (by decide) (by decide) (.lit (.stop rfl)) (.stop rfl))))

/-! ### Where whole numbers go wrong -/

/-- C87 fails for the quotient of two whole numbers: the number generated for `a / b` is the exact quotient, while C cuts the
quotient off. The two agree exactly if the division comes out even. -/
theorem quotient_of_literals_iff (a b : ℕ) (hb : b ≠ 0) (ρ : CEnv) : ∃ t n t', ReadAs [.lit (.int a), .op "/", .lit (.int b)] t ∧
    t.visit (fun _ => none) = .ok n ∧ CReadAs [.lit (.int a), .op "/", .lit (.int b)] t ∧ CReadAs n.toks t' ∧
    ∃ v w, t.cval ρ = some v ∧ t'.cval ρ = some w ∧ (v.base = w.base ↔ b ∣ a) := by
  have h1 : ReadAs [.lit (.int a), .op "/", .lit (.int b)] (.bin "/" (.lit (.int a)) (.lit (.int b))) :=
    .lit (.bin (by decide) (by decide) (.lit (.stop rfl)) (.stop rfl))
  have h2 : CReadAs [.lit (.int a), .op "/", .lit (.int b)] (.bin "/" (.lit (.int a)) (.lit (.int b))) :=
    .lit (.bin (by decide) (by decide) (.lit (.stop rfl)) (.stop rfl))
  have hv : (Tree.bin "/" (.lit (.int a)) (.lit (.int b))).cval ρ = some (.int ((a : ℤ).tdiv b)) := by
    simp [Tree.cval, cArith, hb]
  have hx : (Tree.bin "/" (.lit (.int a)) (.lit (.int b))).visit (fun _ => none) = .ok (.expr [
      if a = 0 then .num (.int 0) .float else if b = 1 then .num (.int a) .float else .num (.flt ((a : ℚ) / b)) .float]) := by
    have hb' : ¬((b : ℚ) = -1) := by
      have : (0 : ℚ) ≤ b := Nat.cast_nonneg b
      intro h
      rw [h] at this
      norm_num at this
    have hk : enough (.expr [.num (.int a) .int]) (.expr [.num (.int b) .int]) = 22 + 1 + 1 := rfl
    simp [Tree.visit, accessOp, arithOp, pyDiv, hk, truediv, single, prep, Node.isVal, valDiv, coerce, Node.dataType, divType,
      DataType.truediv, Node.isZero, Node.isValue, Num.toRat, Node.isOp, Node.isId, foldPayload, Num.div, Node.asType, bind,
      Except.bind, hb, hb']
    split_ifs <;> rfl
  have key : ∀ x : Num, ¬x.toRat < 0 → ∀ dt, CReadAs (Node.expr [.num x dt]).toks (.lit x) := by
    intro x hx dt
    have : (Node.expr [.num x dt]).toks = [.lit x] := by simp [Node.toks, toksL, numToks, hx]
    rw [this]
    exact .lit (.stop rfl)
  by_cases ha : a = 0
  · subst ha
    refine ⟨_, _, _, h1, hx, h2, key _ (by simp [Num.toRat]) _, _, _, hv, rfl, ?_⟩
    simp [CVal.base]
  by_cases h1' : b = 1
  · subst h1'
    rw [if_neg ha, if_pos rfl] at hx
    refine ⟨_, _, _, h1, hx, h2, key _ (by simp [Num.toRat]) _, _, _, hv, rfl, ?_⟩
    simp [CVal.base]
  · rw [if_neg ha, if_neg h1'] at hx
    refine ⟨_, _, _, h1, hx, h2, key (.flt ((a : ℚ) / b)) (not_lt.mpr (div_nonneg (Nat.cast_nonneg a) (Nat.cast_nonneg b))) _, _, _, hv, rfl, ?_⟩
    have hbq : (b : ℚ) ≠ 0 := by exact_mod_cast hb
    have hbz : (b : ℤ) ≠ 0 := by exact_mod_cast hb
    simp only [CVal.base, Base.num.injEq]
    constructor
    · intro h
      rw [eq_div_iff hbq] at h
      have : (a : ℤ).tdiv b * b = a := by exact_mod_cast h
      exact Int.natCast_dvd_natCast.mp ⟨_, by rw [mul_comm]; exact this.symm⟩
    · rintro ⟨k, rfl⟩
      push_cast
      rw [Int.mul_tdiv_cancel_left _ hbz]
      push_cast
      field_simp

/-- C87 fails when a floating point factor one is dropped: of `n * 1.0 / 2` the C text `n / 2` is generated, which is cut off if `n`
is a whole number. -/
theorem factor_one_dropped (s : String) : ∃ t n t',
    ReadAs [.id s, .op "*", .lit (.flt 1), .op "/", .lit (.int 2)] t ∧ t.visit (fun _ => none) = .ok n ∧
    CReadAs [.id s, .op "*", .lit (.flt 1), .op "/", .lit (.int 2)] t ∧ CReadAs n.toks t' ∧
    n.toks = [.id s, .op "/", .lit (.int 2)] ∧
    ∀ (ρ : CEnv) (m : ℤ), ρ.var s = some (.int m) →
      t.cval ρ = some (.dbl (m / 2)) ∧ t'.cval ρ = some (.int (m.tdiv 2)) := by
  refine ⟨.bin "/" (.bin "*" (.id s) (.lit (.flt 1))) (.lit (.int 2)),
    .expr [.bin "/" .float [.text s .float .ident] [.num (.int 2) .int]], .bin "/" (.id s) (.lit (.int 2)), ?_, rfl, ?_, ?_, rfl, ?_⟩
  · exact .id rfl (.bin (by decide) (by decide) (.lit (.stop (by simp [stops, rightLev, lev])))
      (.bin (by decide) (by decide) (.lit (.stop rfl)) (.stop rfl)))
  · exact .id rfl (.bin (by decide) (by decide) (.lit (.stop (by simp [cstops, clev])))
      (.bin (by decide) (by decide) (.lit (.stop rfl)) (.stop rfl)))
  · show CReadAs [.id s, .op "/", .lit (.int 2)] _
    exact .id rfl (.bin (by decide) (by decide) (.lit (.stop rfl)) (.stop rfl))
  · intro ρ m hm
    simp [Tree.cval, hm, cArith, cArith.real, arith]

/-- The same for a floating point zero that is added: of `(n + 0.0) / 2` the C text `(n) / 2` is generated. -/
theorem zero_dropped (s : String) : ∃ t n t',
    ReadAs [.lpar, .id s, .op "+", .lit (.flt 0), .rpar, .op "/", .lit (.int 2)] t ∧ t.visit (fun _ => none) = .ok n ∧
    CReadAs [.lpar, .id s, .op "+", .lit (.flt 0), .rpar, .op "/", .lit (.int 2)] t ∧ CReadAs n.toks t' ∧
    n.toks = [.lpar, .id s, .rpar, .op "/", .lit (.int 2)] ∧
    ∀ (ρ : CEnv) (m : ℤ), ρ.var s = some (.int m) →
      t.cval ρ = some (.dbl (m / 2)) ∧ t'.cval ρ = some (.int (m.tdiv 2)) := by
  refine ⟨.bin "/" (.group (.bin "+" (.id s) (.lit (.flt 0)))) (.lit (.int 2)),
    _,
    .bin "/" (.group (.id s)) (.lit (.int 2)), ?_, rfl, ?_, ?_, rfl, ?_⟩
  · exact .group (.id rfl (.bin (by decide) (by decide) (.lit (.stop rfl)) (.stop rfl)))
      (.bin (by decide) (by decide) (.lit (.stop rfl)) (.stop rfl))
  · exact .group (.id rfl (.bin (by decide) (by decide) (.lit (.stop rfl)) (.stop rfl)))
      (.bin (by decide) (by decide) (.lit (.stop rfl)) (.stop rfl))
  · show CReadAs [.lpar, .id s, .rpar, .op "/", .lit (.int 2)] _
    exact .group (.id rfl (.stop rfl)) (.bin (by decide) (by decide) (.lit (.stop rfl)) (.stop rfl))
  · intro ρ m hm
    simp [Tree.cval, hm, cArith, cArith.real, arith]

end Verif.Ex
