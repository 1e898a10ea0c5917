import Verif.CEval.Model
import Verif.Expr.NoCond

/-! C56: the values found for the variables are those the statements leave in C. -/

namespace Verif.CEval
open Verif.Ex Verif.DT

/-- No division of integers by integers. -/
def CEx.Exact (Γ : String → CType) : CEx → Prop
  | .int _ => True
  | .flt _ => True
  | .id _ => True
  | .add a b => a.Exact Γ ∧ b.Exact Γ
  | .sub a b => a.Exact Γ ∧ b.Exact Γ
  | .mul a b => a.Exact Γ ∧ b.Exact Γ
  | .div a b => a.Exact Γ ∧ b.Exact Γ ∧ (a.ctype Γ = .double ∨ b.ctype Γ = .double)
  | .neg a => a.Exact Γ
  | .plus a => a.Exact Γ
  | .group a => a.Exact Γ

/-- What the dictionary says about the values: an entry is a numeric expression with the value of the variable, other
variables have their initial values. -/
def Agrees (ρ : Env) (ι : String → ℚ) (found : Found) (σ : String → ℚ) : Prop :=
  ∀ s, match found s with
    | some e => ∃ n, e = .expr [n] ∧ n.plain = true ∧ n.noTri = true ∧ n.den ρ = some (.num (σ s))
    | none => σ s = ι s

theorem trunc_int (n : ℤ) : trunc n = n := by simp [trunc]

/-- Expressions of type `int` have integers as values if the variables of type `int` do. -/
theorem value_int (Γ : String → CType) (σ : String → ℚ) (hσ : ∀ s, Γ s = .int → ∃ n : ℤ, σ s = n) :
    ∀ (a : CEx) (q : ℚ), a.ctype Γ = .int → a.value Γ σ = some q → ∃ n : ℤ, q = n
  | .int n, q, _, h => by
    simp only [CEx.value, Option.some.injEq] at h
    exact ⟨n, h.symm⟩
  | .flt q, _, ht, _ => by cases ht
  | .id s, q, ht, h => by
    simp only [CEx.value, Option.some.injEq] at h
    obtain ⟨n, hn⟩ := hσ s ht
    exact ⟨n, by rw [← h, hn]⟩
  | .add a b, q, ht, h => by
    simp only [CEx.value, Option.bind_eq_bind, Option.bind_eq_some_iff, Option.some.injEq] at h
    obtain ⟨x, hx, y, hy, rfl⟩ := h
    have hab : a.ctype Γ = .int ∧ b.ctype Γ = .int := by
      simp only [CEx.ctype] at ht
      cases ha : a.ctype Γ <;> cases hb : b.ctype Γ <;> simp_all [CType.join]
    obtain ⟨m, rfl⟩ := value_int Γ σ hσ a x hab.1 hx
    obtain ⟨n, rfl⟩ := value_int Γ σ hσ b y hab.2 hy
    exact ⟨m + n, by push_cast; rfl⟩
  | .sub a b, q, ht, h => by
    simp only [CEx.value, Option.bind_eq_bind, Option.bind_eq_some_iff, Option.some.injEq] at h
    obtain ⟨x, hx, y, hy, rfl⟩ := h
    have hab : a.ctype Γ = .int ∧ b.ctype Γ = .int := by
      simp only [CEx.ctype] at ht
      cases ha : a.ctype Γ <;> cases hb : b.ctype Γ <;> simp_all [CType.join]
    obtain ⟨m, rfl⟩ := value_int Γ σ hσ a x hab.1 hx
    obtain ⟨n, rfl⟩ := value_int Γ σ hσ b y hab.2 hy
    exact ⟨m - n, by push_cast; rfl⟩
  | .mul a b, q, ht, h => by
    simp only [CEx.value, Option.bind_eq_bind, Option.bind_eq_some_iff, Option.some.injEq] at h
    obtain ⟨x, hx, y, hy, rfl⟩ := h
    have hab : a.ctype Γ = .int ∧ b.ctype Γ = .int := by
      simp only [CEx.ctype] at ht
      cases ha : a.ctype Γ <;> cases hb : b.ctype Γ <;> simp_all [CType.join]
    obtain ⟨m, rfl⟩ := value_int Γ σ hσ a x hab.1 hx
    obtain ⟨n, rfl⟩ := value_int Γ σ hσ b y hab.2 hy
    exact ⟨m * n, by push_cast; rfl⟩
  | .div a b, q, ht, h => by
    simp only [CEx.value, Option.bind_eq_bind, Option.bind_eq_some_iff] at h
    obtain ⟨x, hx, y, hy, h⟩ := h
    split at h
    · cases h
    · simp only [CEx.ctype] at ht
      rw [ht] at h
      simp only [Option.some.injEq] at h
      exact ⟨_, h.symm⟩
  | .neg a, q, ht, h => by
    simp only [CEx.value, Option.bind_eq_bind, Option.bind_eq_some_iff, Option.some.injEq] at h
    obtain ⟨x, hx, rfl⟩ := h
    obtain ⟨m, rfl⟩ := value_int Γ σ hσ a x ht hx
    exact ⟨-m, by push_cast; rfl⟩
  | .plus a, q, ht, h => value_int Γ σ hσ a q ht h
  | .group a, q, ht, h => value_int Γ σ hσ a q ht h

/-- The expression made for a right hand side has its value. -/
theorem build_value (Γ : String → CType) (ι σ : String → ℚ) (fn1 : String → List Base → Option Base)
    (fn2 : String → List Base → List Base → Option Base) (found : Found) (hf : Agrees (.ofNumbers ι fn1 fn2) ι found σ) :
    ∀ (a : CEx) (q : ℚ), a.Exact Γ → a.value Γ σ = some q →
      ∃ n, a.build found = .ok (.expr [n]) ∧ n.plain = true ∧ n.noTri = true ∧ n.den (.ofNumbers ι fn1 fn2) = some (.num q)
  | .int n, q, _, h => by
    simp only [CEx.value, Option.some.injEq] at h
    exact ⟨_, rfl, rfl, rfl, by rw [← h]; rfl⟩
  | .flt x, q, _, h => by
    simp only [CEx.value, Option.some.injEq] at h
    exact ⟨_, rfl, rfl, rfl, by rw [← h]; rfl⟩
  | .id s, q, _, h => by
    simp only [CEx.value, Option.some.injEq] at h
    have := hf s
    rw [CEx.build, ident]
    cases hs : found s with
    | some e =>
      rw [hs] at this
      obtain ⟨n, rfl, hp, ht, hd⟩ := this
      exact ⟨n, rfl, hp, ht, by rw [hd, h]⟩
    | none =>
      rw [hs] at this
      exact ⟨_, rfl, by simp [Node.plain], rfl, by rw [← h]; simp [Node.den, Env.ofNumbers, this]⟩
  | .add a b, q, he, h => by
    simp only [CEx.value, Option.bind_eq_bind, Option.bind_eq_some_iff, Option.some.injEq] at h
    obtain ⟨x, hx, y, hy, rfl⟩ := h
    obtain ⟨l, hl, pl, tl, dl⟩ := build_value Γ ι σ fn1 fn2 found hf a x he.1 hx
    obtain ⟨r, hr, pr, tr, dr⟩ := build_value Γ ι σ fn1 fn2 found hf b y he.2 hy
    obtain ⟨n, hn, pn⟩ := add_expr_plain true l r pl pr
    refine ⟨n, by simp [CEx.build, hl, hr, bind, Except.bind, pyAdd, hn], pn,
      by simpa [Node.noTri, noTriL] using addSub_noTri _ _ _ _ _ hn (by simpa [Node.noTri, noTriL] using tl)
            (by simpa [Node.noTri, noTriL] using tr), ?_⟩
    have := addSub_den (.ofNumbers ι fn1 fn2) _ true _ _ _ x y hn (by rw [expr_den, dl]) (by rw [expr_den, dr])
    rw [expr_den] at this
    simpa using this
  | .sub a b, q, he, h => by
    simp only [CEx.value, Option.bind_eq_bind, Option.bind_eq_some_iff, Option.some.injEq] at h
    obtain ⟨x, hx, y, hy, rfl⟩ := h
    obtain ⟨l, hl, pl, tl, dl⟩ := build_value Γ ι σ fn1 fn2 found hf a x he.1 hx
    obtain ⟨r, hr, pr, tr, dr⟩ := build_value Γ ι σ fn1 fn2 found hf b y he.2 hy
    obtain ⟨n, hn, pn⟩ := add_expr_plain false l r pl pr
    refine ⟨n, by simp [CEx.build, hl, hr, bind, Except.bind, pySub, hn], pn,
      by simpa [Node.noTri, noTriL] using addSub_noTri _ _ _ _ _ hn (by simpa [Node.noTri, noTriL] using tl)
            (by simpa [Node.noTri, noTriL] using tr), ?_⟩
    have := addSub_den (.ofNumbers ι fn1 fn2) _ false _ _ _ x y hn (by rw [expr_den, dl]) (by rw [expr_den, dr])
    rw [expr_den] at this
    simpa using this
  | .mul a b, q, he, h => by
    simp only [CEx.value, Option.bind_eq_bind, Option.bind_eq_some_iff, Option.some.injEq] at h
    obtain ⟨x, hx, y, hy, rfl⟩ := h
    obtain ⟨l, hl, pl, tl, dl⟩ := build_value Γ ι σ fn1 fn2 found hf a x he.1 hx
    obtain ⟨r, hr, pr, tr, dr⟩ := build_value Γ ι σ fn1 fn2 found hf b y he.2 hy
    obtain ⟨n, hn, pn⟩ := mul_expr_plain l r pl pr
    refine ⟨n, by simp [CEx.build, hl, hr, bind, Except.bind, hn], pn,
      by simpa [Node.noTri, noTriL] using mul_noTri _ _ _ _ hn (by simpa [Node.noTri, noTriL] using tl)
            (by simpa [Node.noTri, noTriL] using tr), ?_⟩
    have := mul_den (.ofNumbers ι fn1 fn2) _ _ _ _ x y hn (by rw [expr_den, dl]) (by rw [expr_den, dr])
    rwa [expr_den] at this
  | .div a b, q, he, h => by
    simp only [CEx.value, Option.bind_eq_bind, Option.bind_eq_some_iff] at h
    obtain ⟨x, hx, y, hy, h⟩ := h
    obtain ⟨he1, he2, he3⟩ := he
    have ht : (a.ctype Γ).join (b.ctype Γ) = .double := by
      rcases he3 with e | e <;> rw [e]
      · rfl
      · cases a.ctype Γ <;> rfl
    split at h
    · cases h
    · rename_i hy0
      rw [ht] at h
      simp only [CType.convert, Option.some.injEq] at h
      subst h
      obtain ⟨l, hl, pl, tl, dl⟩ := build_value Γ ι σ fn1 fn2 found hf a x he1 hx
      obtain ⟨r, hr, pr, tr, dr⟩ := build_value Γ ι σ fn1 fn2 found hf b y he2 hy
      have hz : r.isZero = .ok false := by
        obtain ⟨z, hz⟩ := plain_isZero r pr
        cases z with
        | false => exact hz
        | true => exact absurd (isZero_num _ r y hz dr) hy0
      obtain ⟨n, hn, pn⟩ := div_expr_plain l r pl pr hz
      refine ⟨n, by simp [CEx.build, hl, hr, bind, Except.bind, hn], pn,
      by simpa [Node.noTri, noTriL] using truediv_noTri _ _ _ _ hn (by simpa [Node.noTri, noTriL] using tl)
            (by simpa [Node.noTri, noTriL] using tr), ?_⟩
      have := truediv_den (.ofNumbers ι fn1 fn2) _ _ _ _ x y hn (by rw [expr_den, dl]) (by rw [expr_den, dr]) hy0
      rwa [expr_den] at this
  | .neg a, q, he, h => by
    simp only [CEx.value, Option.bind_eq_bind, Option.bind_eq_some_iff, Option.some.injEq] at h
    obtain ⟨x, hx, rfl⟩ := h
    obtain ⟨l, hl, pl, tl, dl⟩ := build_value Γ ι σ fn1 fn2 found hf a x he hx
    obtain ⟨n, hn, pn⟩ := neg_plain l pl
    refine ⟨n, by simp [CEx.build, hl, bind, Except.bind, Node.neg, negL, hn], pn, neg_noTri l n hn tl, ?_⟩
    exact neg_den _ l n x hn dl
  | .plus a, q, he, h => build_value Γ ι σ fn1 fn2 found hf a q he h
  | .group a, q, he, h => by
    obtain ⟨l, hl, pl, tl, dl⟩ := build_value Γ ι σ fn1 fn2 found hf a q he h
    obtain ⟨t, ht, hs⟩ := plain_dataType l pl
    refine ⟨.un "__group__" t [l], ?_, ?_, by simpa [Node.noTri, noTriL] using tl, ?_⟩
    · simp only [CEx.build, hl, bind, Except.bind, operands, mkUn, uniqueType_single l t ht]
    · simp [Node.plain, isSingle, plainL, pl, hs]
    · simp [Node.den, denL, dl, apply1]

theorem setType_fine {ρ : Env} (t : DataType) {n : Node} (h : FineAt ρ n) :
    ∃ n', setType t n = .ok n' ∧ n'.den ρ = n.den ρ ∧ n'.dataType = .ok t := by
  induction h with
  | lit n h => cases h <;> exact ⟨_, rfl, by simp [Node.den], rfl⟩
  | expr x hx ih =>
    obtain ⟨x', h1, h2, h3⟩ := ih
    exact ⟨.expr [x'], by simp [setType, setTypeL, h1, bind, Except.bind], by rw [expr_den, expr_den, h2],
      by simp [Node.dataType, dataTypeL, h3]⟩
  | _ => exact ⟨_, rfl, by simp [Node.den], rfl⟩

/-- C56: if the statements have values in C, no integers are divided by integers, and variables of type `int` are given
values of type `int` only, then an expression is found for each variable; under the initial values of the variables it has the value the variable has at
the end, and it is given the type asked for. Missing: the conversions of C, see `int_conversion_lost` and `integer_division_wrong`. -/
theorem sequential_values_partial (Γ : String → CType) (ι : String → ℚ) (fn1 : String → List Base → Option Base)
    (fn2 : String → List Base → List Base → Option Base) :
    ∀ (prog : List (String × CEx)) (known : Found) (σ σ' : String → ℚ), Agrees (.ofNumbers ι fn1 fn2) ι known σ →
    (∀ s, Γ s = .int → ∃ n : ℤ, σ s = n) →
    (∀ p ∈ prog, p.2.Exact Γ ∧ (Γ p.1 = .int → p.2.ctype Γ = .int)) → exec Γ σ prog = some σ' →
    ∃ found, run known prog = .ok found ∧ Agrees (.ofNumbers ι fn1 fn2) ι found σ' ∧
      (∀ s t, ∃ e, getFound found s t = .ok e ∧ e.den (.ofNumbers ι fn1 fn2) = some (.num (σ' s)) ∧ e.dataType = .ok t)
  | [], known, σ, σ', ha, _, _, h => by
    simp only [exec, Option.some.injEq] at h
    subst h
    refine ⟨known, rfl, ha, ?_⟩
    intro s t
    have hid : ∃ n, ident known s = .expr [n] ∧ n.plain = true ∧ n.noTri = true ∧
        n.den (.ofNumbers ι fn1 fn2) = some (.num (σ s)) := by
      have := ha s
      rw [ident]
      cases hs : known s with
      | some e =>
        rw [hs] at this
        obtain ⟨n, rfl, h⟩ := this
        exact ⟨n, rfl, h⟩
      | none =>
        rw [hs] at this
        exact ⟨_, rfl, by simp [Node.plain], rfl, by simp [Node.den, Env.ofNumbers, this]⟩
    obtain ⟨n, hn, hp, ht, hd⟩ := hid
    obtain ⟨n', hs, hf⟩ := simplify_returns_defined _ n (plain_fineAt _ n _ hp ht hd)
    obtain ⟨m, h1, h2, h3⟩ := setType_fine t hf
    refine ⟨.expr [m], ?_, ?_, ?_⟩
    · simp only [getFound, hn, Node.simplify, simplifyL_single n n' hs, bind, Except.bind, setType, setTypeL, h1]
    · rw [expr_den, h2]
      exact simplify_preserves_value_partial n n' hs _ _ hd
    · simp [Node.dataType, dataTypeL, h3]
  | p :: prog, known, σ, σ', ha, hi, hp, h => by
    simp only [exec, Option.bind_eq_bind, Option.bind_eq_some_iff] at h
    obtain ⟨v, hv, h⟩ := h
    obtain ⟨he, ht⟩ := hp p List.mem_cons_self
    obtain ⟨n, hn, hpl, htr, hd⟩ := build_value Γ ι σ fn1 fn2 known ha p.2 v he hv
    have hc : (Γ p.1).convert v = v := by
      cases hg : Γ p.1 with
      | double => rfl
      | int =>
        obtain ⟨k, rfl⟩ := value_int Γ σ hi p.2 v (ht hg) hv
        exact trunc_int k
    rw [hc] at h
    have ha' : Agrees (.ofNumbers ι fn1 fn2) ι (fun s => if s = p.1 then some (.expr [n]) else known s)
        (fun s => if s = p.1 then v else σ s) := by
      intro s
      by_cases hs : s = p.1
      · simp only [hs, if_true]
        exact ⟨n, rfl, hpl, htr, hd⟩
      · simp only [hs, if_false]
        exact ha s
    have hi' : ∀ s, Γ s = .int → ∃ n : ℤ, (fun s => if s = p.1 then v else σ s) s = n := by
      intro s hs
      by_cases hsp : s = p.1
      · subst hsp
        simp only [if_true]
        exact value_int Γ σ hi p.2 v (ht hs) hv
      · simp only [hsp, if_false]
        exact hi s hs
    obtain ⟨found, h1, h2⟩ := sequential_values_partial Γ ι fn1 fn2 prog _ _ σ' ha' hi'
      (fun q hq => hp q (List.mem_cons_of_mem _ hq)) h
    exact ⟨found, by simp only [run, assign, hn, bind, Except.bind, h1], h2⟩

/-- The end values of all variables of a program without known values: the expressions returned have them. -/
theorem evaluate_values_partial (Γ : String → CType) (ι σ' : String → ℚ) (fn1 : String → List Base → Option Base)
    (fn2 : String → List Base → List Base → Option Base) (prog : List (String × CEx)) (vars : List (String × DataType))
    (hι : ∀ s, Γ s = .int → ∃ n : ℤ, ι s = n)
    (hp : ∀ p ∈ prog, p.2.Exact Γ ∧ (Γ p.1 = .int → p.2.ctype Γ = .int)) (h : exec Γ ι prog = some σ') :
    ∃ found res, evaluate vars prog (fun _ => none) = .ok (found, res) ∧ res.map (·.1) = vars.map (·.1) ∧
      (∀ r ∈ res, r.2.den (.ofNumbers ι fn1 fn2) = some (.num (σ' r.1))) ∧
      res.map (fun r => r.2.dataType) = vars.map (fun v => .ok v.2) := by
  obtain ⟨found, h1, -, h2⟩ := sequential_values_partial Γ ι fn1 fn2 prog (fun _ => none) ι σ' (fun s => rfl) hι hp h
  have h3 : ∀ vars : List (String × DataType), ∃ res : List (String × Node),
      (vars.mapM fun v => (do .ok (v.1, ← getFound found v.1 v.2) : Except Err (String × Node))) = .ok res ∧
      res.map (·.1) = vars.map (·.1) ∧
      (∀ r ∈ res, r.2.den (.ofNumbers ι fn1 fn2) = some (.num (σ' r.1))) ∧
      res.map (fun r => r.2.dataType) = vars.map (fun v => .ok v.2) := by
    intro vars
    induction vars with
    | nil => exact ⟨[], rfl, rfl, by simp, rfl⟩
    | cons v vars ih =>
      obtain ⟨res, r1, r2, r3, r4⟩ := ih
      obtain ⟨e, e1, e2, e3⟩ := h2 v.1 v.2
      refine ⟨(v.1, e) :: res, ?_, by simp [r2], ?_, by simp [r4, e3]⟩
      · rw [List.mapM_cons, e1]
        simp only [bind, Except.bind] at r1 ⊢
        rw [r1]
        rfl
      · intro r hr
        rcases List.mem_cons.mp hr with rfl | hr
        · exact e2
        · exact r3 r hr
  obtain ⟨res, r1, r2⟩ := h3 vars
  refine ⟨found, res, ?_, r2⟩
  simp only [evaluate, h1, bind, Except.bind] at r1 ⊢
  rw [r1]

/-- `a = 2; b = x + a; a = b * a; c = (a - x) / 2.5`. -/
def sample : List (String × CEx) :=
  [("a", .int 2), ("b", .add (.id "x") (.id "a")), ("a", .mul (.id "b") (.id "a")),
    ("c", .div (.group (.sub (.id "a") (.id "x"))) (.flt (5/2)))]

/-- The sample meets the conditions: with `x = 3` the end values are `a = 10`, `b = 5`, `c = 14/5`. -/
example : (exec (fun s => if s = "c" then .double else .int) (fun s => if s = "x" then 3 else 0) sample).map
      (fun σ => (σ "a", σ "b", σ "c")) = some (10, 5, 14 / 5) ∧
    ∀ p ∈ sample, p.2.Exact (fun s => if s = "c" then .double else .int) ∧
      ((if p.1 = "c" then CType.double else .int) = .int → p.2.ctype (fun s => if s = "c" then .double else .int) = .int) := by
  constructor
  · decide +kernel
  · intro p hp
    simp only [sample, List.mem_cons, List.not_mem_nil, or_false] at hp
    rcases hp with rfl | rfl | rfl | rfl <;> simp [CEx.Exact, CEx.ctype, CType.join]

/-- The number and the type of an expression which is a number. -/
def shown : Node → Option (ℚ × DataType)
  | .expr [.num x t] => some (x.toRat, t)
  | _ => none

/-- C56, negation: in C a value assigned to an `int` is converted. `a = 2.5; b = a * 2` with `int a` leaves 4 in `b`; the
expression found is 5. -/
theorem int_conversion_lost :
    (exec (fun s => if s = "a" then .int else .double) (fun _ => 0)
      [("a", .flt (5/2)), ("b", .mul (.id "a") (.int 2))]).map (· "b") = some 4 ∧
    (evaluate [("a", .int), ("b", .float)] [("a", .flt (5/2)), ("b", .mul (.id "a") (.int 2))] (fun _ => none)).toOption.map
      (fun r => r.2.map fun p => (p.1, shown p.2)) = some [("a", some (5/2, .int)), ("b", some (5, .float))] := by
  constructor <;> decide +kernel

/-- C56, negation: `x = 5 / 2` leaves 2 in `x`; the expression found is 5/2. -/
theorem integer_division_wrong :
    (exec (fun _ => .double) (fun _ => 0) [("x", .div (.int 5) (.int 2))]).map (· "x") = some 2 ∧
    (evaluate [("x", .float)] [("x", .div (.int 5) (.int 2))] (fun _ => none)).toOption.map
      (fun r => r.2.map fun p => (p.1, shown p.2)) = some [("x", some (5/2, .float))] := by
  constructor <;> decide +kernel

/-- The dictionary of known values which is given holds the assigned values afterwards: for every variable assigned to, its
last expression, for other variables what it held. -/
theorem known_changed (vars : List (String × DataType)) (prog : List (String × CEx)) (known found : Found)
    (res : List (String × Node)) (h : evaluate vars prog known = .ok (found, res)) :
    (∀ s, s ∉ prog.map (·.1) → found s = known s) ∧ (∀ s, s ∈ prog.map (·.1) → (found s).isSome = true) := by
  have key : ∀ (prog : List (String × CEx)) (known found : Found), run known prog = .ok found →
      (∀ s, s ∉ prog.map (·.1) → found s = known s) ∧
      (∀ s, s ∈ prog.map (·.1) ∨ (known s).isSome = true → (found s).isSome = true) := by
    intro prog
    induction prog with
    | nil => intro known found h; cases h; exact ⟨fun _ _ => rfl, by simp⟩
    | cons p prog ih =>
      intro known found h
      simp only [run, assign, bind_ok] at h
      obtain ⟨f, ⟨v, -, hf⟩, h⟩ := h
      cases hf
      obtain ⟨h1, h2⟩ := ih _ _ h
      constructor
      · intro s hs
        simp only [List.map_cons, List.mem_cons, not_or] at hs
        rw [h1 s hs.2, if_neg hs.1]
      · intro s hs
        apply h2
        by_cases hsp : s = p.1
        · right; simp [hsp]
        · rcases hs with hs | hs
          · simp only [List.map_cons, List.mem_cons, hsp, false_or] at hs
            exact .inl hs
          · right; simpa [hsp] using hs
  simp only [evaluate, bind_ok] at h
  obtain ⟨f, h1, r, -, h2⟩ := h
  cases h2
  exact ⟨(key prog known _ h1).1, fun s hs => (key prog known _ h1).2 s (.inl hs)⟩

example : ∃ found res, evaluate [("b", .int)] [("b", .add (.id "a") (.int 1))]
    (fun s => if s = "a" then some (.expr [.num (.int 4) .int]) else none) = .ok (found, res) ∧
    (found "b").bind shown = some (5, .int) := by
  refine ⟨_, _, rfl, ?_⟩
  decide +kernel

end Verif.CEval
