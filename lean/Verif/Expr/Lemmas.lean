import Verif.Expr.Semantics
import Mathlib.Tactic.Ring
import Mathlib.Tactic.Linarith
import Mathlib.Tactic.FieldSimp

/-! Lemmas about expressions. -/

namespace Verif.Ex
open Verif.DT

theorem bind_ok {α β : Type} (x : Except Err α) (f : α → Except Err β) (b : β) :
    (x >>= f) = .ok b ↔ ∃ a, x = .ok a ∧ f a = .ok b := by
  cases x <;> simp [bind, Except.bind]

theorem pure_ok {α : Type} (a b : α) : (pure a : Except Err α) = .ok b ↔ a = b := by
  simp [pure, Except.pure]

theorem mkUn_ok {op : String} {xs : List Node} {n : Node} (h : mkUn op xs = .ok n) :
    ∃ t, n = .un op t xs := by
  unfold mkUn at h
  simp only [bind_ok, Except.ok.injEq] at h
  obtain ⟨t, _, rfl⟩ := h
  exact ⟨t, rfl⟩

theorem mkBin_ok {op : String} {ls rs : List Node} {n : Node} (h : mkBin op ls rs = .ok n) :
    ∃ t, n = .bin op t ls rs := by
  unfold mkBin at h
  split at h
  · simp only [Except.ok.injEq] at h
    exact ⟨_, h.symm⟩
  · simp only [bind_ok, Except.ok.injEq] at h
    obtain ⟨a, _, b, _, rfl⟩ := h
    exact ⟨_, rfl⟩

theorem mkTri_ok {op : String} {fs ss ts : List Node} {n : Node} (h : mkTri op fs ss ts = .ok n) :
    ∃ t, n = .tri op t fs ss ts := by
  unfold mkTri at h
  simp only [bind_ok, Except.ok.injEq] at h
  obtain ⟨a, _, b, _, rfl⟩ := h
  exact ⟨_, rfl⟩

theorem denL_single (ρ : Env) (x : Node) : denL ρ [x] = (x.den ρ).map fun v => [v] := by
  simp only [denL, Option.map_some]
  cases x.den ρ <;> rfl

theorem only_single (ρ : Env) (x : Node) : only (denL ρ [x]) = x.den ρ := by
  rw [denL_single]
  cases x.den ρ <;> rfl

theorem denL_length (ρ : Env) : ∀ (xs : List Node) (vs : List Base), denL ρ xs = some vs →
    vs.length = xs.length
  | [], vs, h => by simp only [denL, Option.some.injEq] at h; subst h; rfl
  | x :: xs, vs, h => by
    simp only [denL, Option.bind_eq_some_iff, Option.map_eq_some_iff] at h
    obtain ⟨v, _, ws, h2, rfl⟩ := h
    simp [denL_length ρ xs ws h2]

theorem only_denL_some (ρ : Env) (es : List Node) (v : Base) :
    only (denL ρ es) = some v ↔ ∃ x, es = [x] ∧ x.den ρ = some v := by
  constructor
  · intro h
    match es, h with
    | [], h => cases h
    | [x], h => exact ⟨x, rfl, by rwa [only_single] at h⟩
    | x :: y :: zs, h =>
      exfalso
      cases hd : denL ρ (x :: y :: zs) with
      | none => rw [hd] at h; cases h
      | some vs =>
        have := denL_length ρ _ _ hd
        rw [hd] at h
        match vs, this with
        | a :: b :: cs, _ => cases h
  · rintro ⟨x, rfl, h⟩
    rw [only_single, h]

mutual
theorem isValue_den (ρ : Env) (v : ℚ) : ∀ (n : Node), n.isValue v = true → n.den ρ = some (.num v)
  | .num x _, h => by
    simp only [Node.isValue, decide_eq_true_eq] at h
    simp [Node.den, h]
  | .text .., h => by simp [Node.isValue] at h
  | .boxed _ es, h => by
    simp only [Node.isValue] at h
    simpa only [Node.den] using isValueL_den ρ v es h
  | .un .., h => by simp [Node.isValue] at h
  | .bin .., h => by simp [Node.isValue] at h
  | .tri .., h => by simp [Node.isValue] at h
  | .expr es, h => by
    simp only [Node.isValue] at h
    simpa only [Node.den] using isValueL_den ρ v es h
theorem isValueL_den (ρ : Env) (v : ℚ) : ∀ (es : List Node), isValueL v es = true →
    only (denL ρ es) = some (.num v)
  | [], h => by simp [isValueL] at h
  | [x], h => by
    simp only [isValueL] at h
    rw [only_single]
    exact isValue_den ρ v x h
  | x :: y :: zs, h => by simp [isValueL] at h
end

mutual
theorem isZero_den (ρ : Env) : ∀ (n : Node), n.isZero = .ok true →
    n.den ρ = some (.num 0) ∨ ∃ s, n.den ρ = some (.text s)
  | .num x dt, h => by
    simp only [Node.isZero] at h
    split at h
    · cases h
    · simp only [Except.ok.injEq, decide_eq_true_eq] at h
      simp [Node.den, h]
  | .text s dt o, h => by
    cases o <;> simp only [Node.isZero, Except.ok.injEq] at h
    · right; exact ⟨s, by simp [Node.den]⟩
    · cases h
    · cases h
    · cases h
  | .boxed dt es, h => by
    simp only [Node.isZero] at h
    split at h
    · cases h
    · simp only [Except.ok.injEq] at h
      left
      simpa only [Node.den] using isValueL_den ρ 0 es h
  | .un .., h => by simp [Node.isZero] at h
  | .bin .., h => by simp [Node.isZero] at h
  | .tri .., h => by simp [Node.isZero] at h
  | .expr es, h => by
    simp only [Node.isZero] at h
    simpa only [Node.den] using isZeroL_den ρ es h
theorem isZeroL_den (ρ : Env) : ∀ (es : List Node), isZeroL es = .ok true →
    only (denL ρ es) = some (.num 0) ∨ ∃ s, only (denL ρ es) = some (.text s)
  | [], h => by simp [isZeroL] at h
  | [x], h => by
    simp only [isZeroL] at h
    rw [only_single]
    exact isZero_den ρ x h
  | x :: y :: zs, h => by simp [isZeroL] at h
end

theorem isZero_num (ρ : Env) (n : Node) (a : ℚ) (h : n.isZero = .ok true) (hd : n.den ρ = some (.num a)) :
    a = 0 := by
  rcases isZero_den ρ n h with h | ⟨s, h⟩ <;> rw [hd] at h <;> simp at h
  exact h

mutual
theorem asType_den (ρ : Env) (t : DataType) : ∀ (n n' : Node), n.asType t = .ok n' → n'.den ρ = n.den ρ
  | .num x _, n', h => by simp only [Node.asType, Except.ok.injEq] at h; subst h; rfl
  | .text .., n', h => by simp only [Node.asType, Except.ok.injEq] at h; subst h; rfl
  | .boxed _ es, n', h => by simp only [Node.asType, Except.ok.injEq] at h; subst h; rfl
  | .un op _ xs, n', h => by
    simp only [Node.asType, bind_ok] at h
    obtain ⟨ys, h1, h2⟩ := h
    obtain ⟨t', rfl⟩ := mkUn_ok h2
    simp only [Node.den, asTypeL_den ρ t xs ys h1]
  | .bin op _ ls rs, n', h => by
    simp only [Node.asType, bind_ok] at h
    obtain ⟨ls', h1, rs', h2, h3⟩ := h
    obtain ⟨t', rfl⟩ := mkBin_ok h3
    simp only [Node.den, asTypeL_den ρ t ls ls' h1, asTypeL_den ρ t rs rs' h2]
  | .tri op _ fs ss ts, n', h => by
    simp only [Node.asType, bind_ok] at h
    obtain ⟨fs', h1, ss', h2, ts', h3, h4⟩ := h
    obtain ⟨t', rfl⟩ := mkTri_ok h4
    simp only [Node.den, asTypeL_den ρ t fs fs' h1, asTypeL_den ρ t ss ss' h2, asTypeL_den ρ t ts ts' h3]
  | .expr es, n', h => by simp [Node.asType] at h
theorem asTypeL_den (ρ : Env) (t : DataType) : ∀ (xs ys : List Node), asTypeL t xs = .ok ys →
    denL ρ ys = denL ρ xs
  | [], ys, h => by simp only [asTypeL, Except.ok.injEq] at h; subst h; rfl
  | x :: xs, ys, h => by
    simp only [asTypeL, bind_ok, Except.ok.injEq] at h
    obtain ⟨x', h1, xs', h2, rfl⟩ := h
    simp only [denL, asType_den ρ t x x' h1, asTypeL_den ρ t xs xs' h2]
end

theorem neg_toRat (x : Num) : x.neg.toRat = - x.toRat := by
  cases x <;> simp [Num.neg, Num.toRat]

theorem mkUn_neg_den (ρ : Env) (x n : Node) (a : ℚ) (h : mkUn "-" [x] = .ok n) (hd : x.den ρ = some (.num a)) :
    n.den ρ = some (.num (-a)) := by
  obtain ⟨t, rfl⟩ := mkUn_ok h
  simp [Node.den, denL_single, hd, apply1]

mutual
theorem neg_den (ρ : Env) : ∀ (n n' : Node) (a : ℚ), n.neg = .ok n' → n.den ρ = some (.num a) →
    n'.den ρ = some (.num (-a))
  | .num x dt, n', a, h, hd => by
    simp only [Node.neg] at h
    split at h
    · exact mkUn_neg_den ρ _ _ a h hd
    · simp only [Except.ok.injEq] at h
      subst h
      simp only [Node.den, Option.some.injEq, Base.num.injEq] at hd ⊢
      rw [neg_toRat, hd]
  | .text s dt o, n', a, h, hd => by
    simp only [Node.neg] at h
    split at h
    · exact mkUn_neg_den ρ _ _ a h hd
    · cases h
  | .boxed dt es, n', a, h, hd => by
    simp only [Node.neg] at h
    split at h
    · exact mkUn_neg_den ρ _ _ a h hd
    · simp only [bind_ok, Except.ok.injEq] at h
      obtain ⟨es', h1, rfl⟩ := h
      simp only [Node.den] at hd ⊢
      exact negL_den ρ es es' a h1 hd
  | .un op dt xs, n', a, h, hd => by
    simp only [Node.neg] at h
    split at h
    · rename_i hop
      subst hop
      split at h
      · rename_i x
        simp only [Except.ok.injEq] at h
        subst h
        simp only [Node.den, denL_single] at hd
        cases hx : x.den ρ with
        | none => rw [hx] at hd; simp at hd
        | some v =>
          rw [hx] at hd
          cases v with
          | num q => simp [apply1] at hd; simp [← hd]
          | text s => simp [apply1] at hd
      · cases h
    · exact mkUn_neg_den ρ _ _ a h hd
  | .bin .., n', a, h, hd => by
    simp only [Node.neg] at h
    exact mkUn_neg_den ρ _ _ a h hd
  | .tri .., n', a, h, hd => by
    simp only [Node.neg] at h
    exact mkUn_neg_den ρ _ _ a h hd
  | .expr es, n', a, h, hd => by
    simp only [Node.neg, bind_ok, Except.ok.injEq] at h
    obtain ⟨es', h1, rfl⟩ := h
    simp only [Node.den] at hd ⊢
    exact negL_den ρ es es' a h1 hd
theorem negL_den (ρ : Env) : ∀ (es es' : List Node) (a : ℚ), negL es = .ok es' →
    only (denL ρ es) = some (.num a) → only (denL ρ es') = some (.num (-a))
  | [], es', a, h, hd => by cases hd
  | x :: xs, es', a, h, hd => by
    obtain ⟨y, he, hy⟩ := (only_denL_some ρ _ _).1 hd
    simp only [List.cons.injEq] at he
    obtain ⟨rfl, rfl⟩ := he
    simp only [negL, bind_ok, Except.ok.injEq] at h
    obtain ⟨x', h1, ys, rfl, rfl⟩ := h
    rw [only_single]
    exact neg_den ρ x x' a h1 hy
end

theorem best_den (ρ : Env) (x : Num) : (best x).den ρ = some (.num x.toRat) := by
  cases x <;> simp only [best]
  · rfl
  · split <;> rfl

theorem coerce_den (ρ : Env) (n : Node) : (coerce n).den ρ = n.den ρ := by
  cases n <;> rfl

theorem prep_den (ρ : Env) (n : Node) : (prep n).den ρ = n.den ρ := by
  unfold prep
  split
  · rw [Node.den, only_single]
  · rfl

theorem single_ok {es : List Node} {x : Node} (h : single es = .ok x) : es = [x] := by
  unfold single at h
  split at h
  · simp only [Except.ok.injEq] at h
    rw [h]
  · cases h

theorem operands_den (ρ : Env) (n : Node) : only (denL ρ (operands n)) = n.den ρ := by
  cases n <;> simp only [operands, only_single]
  rfl

theorem bin_den (ρ : Env) (op : String) (t : DataType) (l : Node) (rs : List Node) (a b : ℚ)
    (hop : op = "+" ∨ op = "-" ∨ op = "*" ∨ op = "/")
    (hl : l.den ρ = some (.num a)) (hr : only (denL ρ rs) = some (.num b)) :
    (Node.bin op t [l] rs).den ρ = (arith op a b).map .num := by
  obtain ⟨r, rfl, hr'⟩ := (only_denL_some ρ _ _).1 hr
  simp [Node.den, denL_single, hl, hr', apply2, hop]

theorem arith_sign (plus : Bool) (a b : ℚ) :
    arith (signOp plus) a b = some (if plus then a + b else a - b) := by
  cases plus <;> simp [signOp, arith]

theorem mkBin_sign_den (ρ : Env) (plus : Bool) (l : Node) (rs : List Node) (n : Node) (a b : ℚ)
    (h : mkBin (signOp plus) [l] rs = .ok n)
    (hl : l.den ρ = some (.num a)) (hr : only (denL ρ rs) = some (.num b)) :
    n.den ρ = some (.num (if plus then a + b else a - b)) := by
  obtain ⟨t, rfl⟩ := mkBin_ok h
  rw [bin_den ρ _ t l rs a b (by cases plus <;> simp [signOp]) hl hr, arith_sign]
  rfl

theorem negatedPayload_den (ρ : Env) (n n' : Node) (a : ℚ) (h : negatedPayload n = .ok n')
    (hd : n.den ρ = some (.num a)) : n'.den ρ = some (.num (-a)) := by
  cases n with
  | num x dt =>
    simp only [negatedPayload, Except.ok.injEq] at h
    subst h
    simp only [Node.den, Option.some.injEq, Base.num.injEq] at hd
    rw [best_den, neg_toRat, hd]
  | boxed dt es =>
    simp only [negatedPayload, bind_ok, Except.ok.injEq] at h
    obtain ⟨es', h1, rfl⟩ := h
    simp only [Node.den] at hd ⊢
    exact negL_den ρ es es' a h1 hd
  | _ => simp [negatedPayload] at h

theorem addSub_toRat (plus : Bool) (x y : Num) :
    (x.addSub plus y).toRat = if plus then x.toRat + y.toRat else x.toRat - y.toRat := by
  cases x <;> cases y <;> cases plus <;> simp [Num.addSub, Num.toRat]

theorem mul_toRat (x y : Num) : (x.mul y).toRat = x.toRat * y.toRat := by
  cases x <;> cases y <;> simp [Num.mul, Num.toRat]

theorem un_neg_den (ρ : Env) (t : DataType) (x : Node) (b : ℚ)
    (h : (Node.un "-" t [x]).den ρ = some (.num b)) : x.den ρ = some (.num (-b)) := by
  simp only [Node.den, denL_single] at h
  cases hx : x.den ρ with
  | none => rw [hx] at h; simp at h
  | some v =>
    rw [hx] at h
    cases v with
    | num q => simp [apply1] at h; simp [← h]
    | text s => simp [apply1] at h

theorem foldPayload_den (ρ : Env) (rec : Node → Node → Except Err Node) (f : Num → Num → Num) (t : DataType)
    (l r n : Node) (a b c : ℚ) (g : ℚ → ℚ → ℚ) (hf : ∀ x y, (f x y).toRat = g x.toRat y.toRat) (hc : c = g a b)
    (hrec : ∀ l r n, rec l r = .ok n → l.den ρ = some (.num a) → r.den ρ = some (.num b) →
      n.den ρ = some (.num c))
    (h : foldPayload rec f t l r = .ok n) (hl : l.den ρ = some (.num a)) (hr : r.den ρ = some (.num b)) :
    n.den ρ = some (.num c) := by
  unfold foldPayload at h
  split at h
  · simp only [Except.ok.injEq] at h
    subst h
    simp only [Node.den, Option.some.injEq, Base.num.injEq] at hl hr ⊢
    rw [hf, hl, hr, hc]
  · rename_i x dt dt' es
    simp only [bind_ok, Except.ok.injEq] at h
    obtain ⟨e, he, m, hm, rfl⟩ := h
    have := single_ok he
    subst this
    rw [Node.den, only_single] at hr ⊢
    refine hrec _ _ _ hm ?_ hr
    rw [best_den]; exact hl
  · rename_i dt es y dt'
    simp only [bind_ok, Except.ok.injEq] at h
    obtain ⟨e, he, h⟩ := h
    have := single_ok he
    subst this
    split at h
    · cases h
    · simp only [bind_ok, Except.ok.injEq] at h
      obtain ⟨m, hm, rfl⟩ := h
      rw [Node.den, only_single] at hl ⊢
      refine hrec _ _ _ hm hl ?_
      rw [best_den]; exact hr
  · rename_i dt es dt' fs
    simp only [bind_ok, Except.ok.injEq] at h
    obtain ⟨e, he, m, hm, rfl⟩ := h
    have := single_ok he
    subst this
    rw [Node.den, only_single] at hl ⊢
    refine hrec _ _ _ hm hl ?_
    rw [prep_den]; exact hr
  · cases h

theorem negated_den (ρ : Env) (r x : Node) (b : ℚ) (h : negated r = some x) (hr : r.den ρ = some (.num b)) :
    x.den ρ = some (.num (-b)) := by
  unfold negated at h
  split at h
  · simp only [Option.some.injEq] at h
    subst h
    exact un_neg_den ρ _ _ b hr
  · cases h

theorem valAddSub_den (ρ : Env) (rec : Bool → Node → Node → Except Err Node)
    (hrec : ∀ plus l r n a b, rec plus l r = .ok n → l.den ρ = some (.num a) → r.den ρ = some (.num b) →
      n.den ρ = some (.num (if plus then a + b else a - b)))
    (plus : Bool) (l r n : Node) (a b : ℚ) (h : valAddSub rec plus l r = .ok n)
    (hl : l.den ρ = some (.num a)) (hr : r.den ρ = some (.num b)) :
    n.den ρ = some (.num (if plus then a + b else a - b)) := by
  have hr' : (coerce r).den ρ = some (.num b) := by rw [coerce_den, hr]
  unfold valAddSub at h
  simp only [bind_ok] at h
  obtain ⟨z, hz, h⟩ := h
  cases z with
  | true =>
    have := isZero_num ρ l a hz hl
    subst this
    simp only [if_true] at h
    cases plus with
    | true =>
      simp only [if_true, Except.ok.injEq] at h ⊢
      rw [← h, hr', zero_add]
    | false =>
      simp only [Bool.false_eq_true, if_false] at h ⊢
      rw [neg_den ρ _ _ b h hr', zero_sub]
  | false =>
    simp only [Bool.false_eq_true, if_false, bind_ok] at h
    obtain ⟨z, hz, h⟩ := h
    cases z with
    | true =>
      have := isZero_num ρ _ b hz hr'
      subst this
      simp only [if_true, Except.ok.injEq] at h
      rw [← h, hl]
      cases plus <;> simp
    | false =>
      simp only [Bool.false_eq_true, if_false] at h
      have flip : ∀ x, rec (flipSign plus) l x = .ok n → x.den ρ = some (.num (-b)) →
          n.den ρ = some (.num (if plus then a + b else a - b)) := by
        intro x hx hd
        rw [hrec _ _ _ _ _ _ hx hl hd]
        cases plus <;> simp [flipSign] <;> ring
      split at h
      · rename_i x hneg
        exact flip x h (negated_den ρ _ x b hneg hr')
      · simp only [bind_ok] at h
        obtain ⟨neg, _, h⟩ := h
        split at h
        · simp only [bind_ok] at h
          obtain ⟨p, hp, h⟩ := h
          exact flip p h (negatedPayload_den ρ _ p b hp hr')
        · split at h
          · exact mkBin_sign_den ρ plus l _ n a b h hl (by rw [only_single, hr'])
          · simp only [bind_ok] at h
            obtain ⟨t1, _, t2, _, h⟩ := h
            split at h
            · exact mkBin_sign_den ρ plus l _ n a b h hl (by rw [only_single, hr'])
            · refine foldPayload_den ρ _ _ _ _ _ _ a b _ (fun x y => if plus then x + y else x - y)
                (addSub_toRat plus) rfl ?_ h hl hr'
              intro l r n h1 h2 h3
              exact hrec _ _ _ _ _ _ h1 h2 h3

theorem opAddSub_den (ρ : Env) (plus : Bool) (l r n : Node) (a b : ℚ) (h : opAddSub plus l r = .ok n)
    (hl : l.den ρ = some (.num a)) (hr : r.den ρ = some (.num b)) :
    n.den ρ = some (.num (if plus then a + b else a - b)) := by
  simp only [opAddSub, bind_ok] at h
  obtain ⟨z, hz, h⟩ := h
  cases z with
  | true =>
    have := isZero_num ρ r b hz hr
    simp only [if_true, Except.ok.injEq] at h
    subst h this
    rw [hl]; cases plus <;> simp
  | false =>
    simp only [Bool.false_eq_true, if_false] at h
    exact mkBin_sign_den ρ plus l _ n a b h hl (by rw [operands_den, hr])

theorem addSub_den (ρ : Env) : ∀ (fuel : Nat) (plus : Bool) (l r n : Node) (a b : ℚ),
    addSub fuel plus l r = .ok n → l.den ρ = some (.num a) → r.den ρ = some (.num b) →
    n.den ρ = some (.num (if plus then a + b else a - b))
  | 0, plus, l, r, n, a, b, h, _, _ => by simp [addSub] at h
  | fuel + 1, plus, l, r, n, a, b, h, hl, hr => by
    have ih := addSub_den ρ fuel
    unfold addSub at h
    split at h
    · simp only [bind_ok, Except.ok.injEq] at h
      obtain ⟨x, hx, m, hm, rfl⟩ := h
      have := single_ok hx
      subst this
      rw [Node.den, only_single] at hl ⊢
      exact ih plus x (prep r) m a b hm hl (by rw [prep_den, hr])
    · split at h
      · exact valAddSub_den ρ _ ih plus _ r n a b h hl hr
      · exact opAddSub_den ρ plus _ r n a b h hl hr

theorem mkBin_mul_den (ρ : Env) (l : Node) (rs : List Node) (n : Node) (a b : ℚ)
    (h : mkBin "*" [l] rs = .ok n) (hl : l.den ρ = some (.num a)) (hr : only (denL ρ rs) = some (.num b)) :
    n.den ρ = some (.num (a * b)) := by
  obtain ⟨t, rfl⟩ := mkBin_ok h
  rw [bin_den ρ _ t l rs a b (by simp) hl hr]
  simp [arith]

theorem mkBin_div_den (ρ : Env) (l : Node) (rs : List Node) (n : Node) (a b : ℚ) (hb : b ≠ 0)
    (h : mkBin "/" [l] rs = .ok n) (hl : l.den ρ = some (.num a)) (hr : only (denL ρ rs) = some (.num b)) :
    n.den ρ = some (.num (a / b)) := by
  obtain ⟨t, rfl⟩ := mkBin_ok h
  rw [bin_den ρ _ t l rs a b (by simp) hl hr]
  simp [arith, hb]

theorem isValue_num (ρ : Env) (n : Node) (v a : ℚ) (h : n.isValue v = true) (hd : n.den ρ = some (.num a)) :
    a = v := by
  rw [isValue_den ρ v n h] at hd
  simpa using hd.symm

theorem valMul_den (ρ : Env) (rec : Node → Node → Except Err Node)
    (hrec : ∀ l r n a b, rec l r = .ok n → l.den ρ = some (.num a) → r.den ρ = some (.num b) →
      n.den ρ = some (.num (a * b)))
    (l r n : Node) (a b : ℚ) (h : valMul rec l r = .ok n)
    (hl : l.den ρ = some (.num a)) (hr : r.den ρ = some (.num b)) :
    n.den ρ = some (.num (a * b)) := by
  have hr' : (coerce r).den ρ = some (.num b) := by rw [coerce_den, hr]
  unfold valMul at h
  simp only [bind_ok] at h
  obtain ⟨t1, _, t2, _, z, hz, h⟩ := h
  split at h
  · rename_i hz'
    subst hz'
    simp only [Except.ok.injEq] at h
    have := isZero_num ρ l a hz hl
    subst this
    rw [← h]
    simp [Node.den, Num.toRat]
  · simp only [bind_ok] at h
    obtain ⟨z, hz, h⟩ := h
    split at h
    · rename_i hz'
      subst hz'
      simp only [Except.ok.injEq] at h
      have := isZero_num ρ _ b hz hr'
      subst this
      rw [← h]
      simp [Node.den, Num.toRat]
    · split at h
      · rename_i h1
        have := isValue_num ρ _ _ _ h1 hl
        rw [asType_den ρ _ _ _ h, hr', this, one_mul]
      · split at h
        · rename_i h1
          have := isValue_num ρ _ _ _ h1 hl
          simp only [bind_ok] at h
          obtain ⟨m, hm, h⟩ := h
          rw [asType_den ρ _ _ _ h, neg_den ρ _ m b hm hr', this, neg_one_mul]
        · split at h
          · rename_i h1
            have := isValue_num ρ _ _ _ h1 hr'
            rw [asType_den ρ _ _ _ h, hl, this, mul_one]
          · split at h
            · rename_i h1
              have := isValue_num ρ _ _ _ h1 hr'
              simp only [bind_ok] at h
              obtain ⟨m, hm, h⟩ := h
              rw [asType_den ρ _ _ _ h, neg_den ρ _ m a hm hl, this, mul_neg_one]
            · split at h
              · exact mkBin_mul_den ρ l _ n a b h hl (by rw [only_single, hr'])
              · split at h
                · exact mkBin_mul_den ρ l _ n a b h hl (by rw [only_single, hr'])
                · exact foldPayload_den ρ _ _ _ _ _ _ a b _ (· * ·) mul_toRat rfl
                    (fun l r n h1 h2 h3 => hrec _ _ _ _ _ h1 h2 h3) h hl hr'

theorem opMul_den (ρ : Env) (l r n : Node) (a b : ℚ) (h : opMul l r = .ok n)
    (hl : l.den ρ = some (.num a)) (hr : r.den ρ = some (.num b)) :
    n.den ρ = some (.num (a * b)) := by
  simp only [opMul, bind_ok] at h
  obtain ⟨z, hz, h⟩ := h
  split at h
  · rename_i hz'
    subst hz'
    have := isZero_num ρ r b hz hr
    simp only [Except.ok.injEq] at h
    rw [← h, hr, this, mul_zero]
  · split at h
    · rename_i h1
      have := isValue_num ρ _ _ _ h1 hr
      simp only [Except.ok.injEq] at h
      rw [← h, hl, this, mul_one]
    · split at h
      · rename_i h1
        have := isValue_num ρ _ _ _ h1 hr
        rw [neg_den ρ _ n a h hl, this, mul_neg_one]
      · exact mkBin_mul_den ρ l _ n a b h hl (by rw [operands_den, hr])

theorem mul_den (ρ : Env) : ∀ (fuel : Nat) (l r n : Node) (a b : ℚ),
    mul fuel l r = .ok n → l.den ρ = some (.num a) → r.den ρ = some (.num b) →
    n.den ρ = some (.num (a * b))
  | 0, l, r, n, a, b, h, _, _ => by simp [mul] at h
  | fuel + 1, l, r, n, a, b, h, hl, hr => by
    have ih := mul_den ρ fuel
    unfold mul at h
    split at h
    · simp only [bind_ok, Except.ok.injEq] at h
      obtain ⟨x, hx, m, hm, rfl⟩ := h
      have := single_ok hx
      subst this
      rw [Node.den, only_single] at hl ⊢
      exact ih x (prep r) m a b hm hl (by rw [prep_den, hr])
    · split at h
      · exact valMul_den ρ _ ih _ r n a b h hl hr
      · exact opMul_den ρ _ r n a b h hl hr

theorem valDiv_den (ρ : Env) (rec : Node → Node → Except Err Node)
    (hrec : ∀ l r n a b, rec l r = .ok n → l.den ρ = some (.num a) → r.den ρ = some (.num b) → b ≠ 0 →
      n.den ρ = some (.num (a / b)))
    (l r n : Node) (a b : ℚ) (h : valDiv rec l r = .ok n)
    (hl : l.den ρ = some (.num a)) (hr : r.den ρ = some (.num b)) (hb : b ≠ 0) :
    n.den ρ = some (.num (a / b)) := by
  have hr' : (coerce r).den ρ = some (.num b) := by rw [coerce_den, hr]
  unfold valDiv at h
  simp only [bind_ok] at h
  obtain ⟨t1, _, t2, _, t, _, z, hz, h⟩ := h
  split at h
  · rename_i hz'
    subst hz'
    simp only [Except.ok.injEq] at h
    have := isZero_num ρ l a hz hl
    subst this
    rw [← h]
    simp [Node.den, Num.toRat]
  · split at h
    · rename_i h1
      have := isValue_num ρ _ _ _ h1 hr'
      rw [asType_den ρ _ _ _ h, hl, this, div_one]
    · split at h
      · rename_i h1
        have := isValue_num ρ _ _ _ h1 hr'
        simp only [bind_ok] at h
        obtain ⟨m, hm, h⟩ := h
        rw [asType_den ρ _ _ _ h, neg_den ρ _ m a hm hl, this, div_neg, div_one]
      · simp only [bind_ok] at h
        obtain ⟨z, hz, h⟩ := h
        split at h
        · cases h
        · split at h
          · exact mkBin_div_den ρ l _ n a b hb h hl (by rw [only_single, hr'])
          · split at h
            · exact mkBin_div_den ρ l _ n a b hb h hl (by rw [only_single, hr'])
            · exact foldPayload_den ρ _ _ _ _ _ _ a b _ (· / ·) (fun _ _ => rfl) rfl
                (fun l r n h1 h2 h3 => hrec _ _ _ _ _ h1 h2 h3 hb) h hl hr'

theorem opDiv_den (ρ : Env) (l r n : Node) (a b : ℚ) (h : opDiv l r = .ok n)
    (hl : l.den ρ = some (.num a)) (hr : r.den ρ = some (.num b)) (hb : b ≠ 0) :
    n.den ρ = some (.num (a / b)) := by
  simp only [opDiv, bind_ok] at h
  obtain ⟨z, hz, h⟩ := h
  split at h
  · cases h
  · split at h
    · rename_i h1
      have := isValue_num ρ _ _ _ h1 hr
      simp only [Except.ok.injEq] at h
      rw [← h, hl, this, div_one]
    · split at h
      · rename_i h1
        have := isValue_num ρ _ _ _ h1 hr
        rw [neg_den ρ _ n a h hl, this, div_neg, div_one]
      · exact mkBin_div_den ρ l _ n a b hb h hl (by rw [operands_den, hr])

theorem truediv_den (ρ : Env) : ∀ (fuel : Nat) (l r n : Node) (a b : ℚ),
    truediv fuel l r = .ok n → l.den ρ = some (.num a) → r.den ρ = some (.num b) → b ≠ 0 →
    n.den ρ = some (.num (a / b))
  | 0, l, r, n, a, b, h, _, _, _ => by simp [truediv] at h
  | fuel + 1, l, r, n, a, b, h, hl, hr, hb => by
    have ih := truediv_den ρ fuel
    unfold truediv at h
    split at h
    · simp only [bind_ok, Except.ok.injEq] at h
      obtain ⟨x, hx, m, hm, rfl⟩ := h
      have := single_ok hx
      subst this
      rw [Node.den, only_single] at hl ⊢
      exact ih x (prep r) m a b hm hl (by rw [prep_den, hr]) hb
    · split at h
      · exact valDiv_den ρ _ ih _ r n a b h hl hr hb
      · exact opDiv_den ρ _ r n a b h hl hr hb

end Verif.Ex
