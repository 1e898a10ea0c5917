import Verif.Expr.Lemmas

/-! `simplify`, `evaluate`, `depends_on` and `verify_parameters` with respect to the meaning of expressions. -/

namespace Verif.Ex
open Verif.DT

theorem Le.refl {α : Type} (a : Option α) : Le a a := fun _ h => h
theorem Le.trans {α : Type} {a b c : Option α} (h : Le a b) (h' : Le b c) : Le a c := fun v hv => h' v (h v hv)
theorem Le.of_eq {α : Type} {a b : Option α} (h : b = a) : Le a b := fun v hv => by rw [h, hv]
theorem Le.bind {α β : Type} {a b : Option α} (f : α → Option β) (h : Le a b) : Le (a.bind f) (b.bind f) := by
  intro v hv
  rw [Option.bind_eq_some_iff] at hv ⊢
  obtain ⟨x, h1, h2⟩ := hv
  exact ⟨x, h x h1, h2⟩
theorem Le.only {a b : Option (List Base)} (h : Le a b) : Le (only a) (only b) := by
  intro v hv
  cases a with
  | none => cases hv
  | some l => rw [h l rfl]; exact hv

theorem un_le (ρ : Env) (op : String) (t t' : DataType) (xs ys : List Node) (h : Le (denL ρ xs) (denL ρ ys)) :
    Le ((Node.un op t xs).den ρ) ((Node.un op t' ys).den ρ) := by
  simp only [Node.den]
  exact h.bind _

theorem bin_le (ρ ρ' : Env) (he : ρ.fn2 = ρ'.fn2) (op : String) (t t' : DataType) (ls ls' rs rs' : List Node)
    (hl : Le (denL ρ ls) (denL ρ' ls')) (hr : Le (denL ρ rs) (denL ρ' rs')) :
    Le ((Node.bin op t ls rs).den ρ) ((Node.bin op t' ls' rs').den ρ') := by
  have e : ∀ a b, apply2 ρ op a b = apply2 ρ' op a b := by
    intro a b
    simp only [apply2, he]
  intro v hv
  simp only [Node.den, Option.bind_eq_some_iff] at hv ⊢
  obtain ⟨a, ha, b, hb, h⟩ := hv
  exact ⟨a, hl a ha, b, hr b hb, by rw [← e]; exact h⟩

theorem tri_le (ρ ρ' : Env) (op : String) (t t' : DataType) (fs fs' ss ss' ts ts' : List Node)
    (hf : Le (denL ρ fs) (denL ρ' fs')) (hs : Le (denL ρ ss) (denL ρ' ss')) (ht : Le (denL ρ ts) (denL ρ' ts')) :
    Le ((Node.tri op t fs ss ts).den ρ) ((Node.tri op t' fs' ss' ts').den ρ') := by
  intro v hv
  simp only [Node.den, choose] at hv ⊢
  by_cases hop : op = "__trinary__"
  · rw [if_pos hop] at hv ⊢
    split at hv
    · rename_i c hc
      rw [hf.only _ hc]
      simp only
      by_cases h0 : c = 0
      · rw [if_pos h0] at hv ⊢; exact ht.only _ hv
      · rw [if_neg h0] at hv ⊢; exact hs.only _ hv
    · cases hv
  · rw [if_neg hop] at hv; cases hv

theorem simplifyUn_le (ρ : Env) (op : String) (t : DataType) (xs : List Node) (n : Node)
    (h : simplifyUn op xs = .ok n) : Le ((Node.un op t xs).den ρ) (n.den ρ) := by
  unfold simplifyUn at h
  split at h
  · rename_i x
    split at h
    · rename_i hg
      simp only [Except.ok.injEq] at h
      subst h
      intro v hv
      rw [Node.den, denL_single, hg.1] at hv
      cases hx : x.den ρ with
      | none => rw [hx] at hv; simp at hv
      | some w => rw [hx] at hv; simpa [apply1] using hv
    · obtain ⟨t', rfl⟩ := mkUn_ok h
      exact un_le ρ op t t' _ _ (.refl _)
  · obtain ⟨t', rfl⟩ := mkUn_ok h
    exact un_le ρ op t t' _ _ (.refl _)

/-- The value of `+ - * /` applied to lists: both are single numbers. -/
theorem arith_bin_some (ρ : Env) (op : String) (t : DataType) (ls rs : List Node) (v : Base)
    (hop : op = "+" ∨ op = "-" ∨ op = "*" ∨ op = "/") (h : (Node.bin op t ls rs).den ρ = some v) :
    ∃ l r a b c, ls = [l] ∧ rs = [r] ∧ l.den ρ = some (.num a) ∧ r.den ρ = some (.num b) ∧
      arith op a b = some c ∧ v = .num c := by
  simp only [Node.den, Option.bind_eq_some_iff] at h
  obtain ⟨vl, hl, vr, hr, h⟩ := h
  unfold apply2 at h
  rw [if_pos hop] at h
  split at h
  · rename_i a b
    rw [Option.map_eq_some_iff] at h
    obtain ⟨c, hc, rfl⟩ := h
    obtain ⟨l, rfl, hl'⟩ := (only_denL_some ρ ls (.num a)).1 (by rw [hl]; rfl)
    obtain ⟨r, rfl, hr'⟩ := (only_denL_some ρ rs (.num b)).1 (by rw [hr]; rfl)
    exact ⟨l, r, a, b, c, rfl, rfl, hl', hr', hc, rfl⟩
  · cases h

theorem neutralLeft_true {op : String} {ls : List Node} (h : neutralLeft op ls = .ok true) :
    ∃ l, ls = [l] ∧ ((l.isZero = .ok true ∧ op = "+") ∨ (l.isValue 1 = true ∧ op = "*")) := by
  unfold neutralLeft at h
  split at h
  · rename_i l
    simp only [bind_ok, Except.ok.injEq] at h
    obtain ⟨z, hz, h⟩ := h
    refine ⟨l, rfl, ?_⟩
    simp only [Bool.or_eq_true, Bool.and_eq_true, beq_iff_eq] at h
    rcases h with h | h
    · exact .inl ⟨by rw [hz, h.1], h.2⟩
    · exact .inr h
  · cases h

theorem neutralRight_true {op : String} {rs : List Node} (h : neutralRight op rs = .ok true) :
    ∃ r, rs = [r] ∧ ((r.isZero = .ok true ∧ (op = "+" ∨ op = "-")) ∨
      (r.isValue 1 = true ∧ (op = "*" ∨ op = "/"))) := by
  unfold neutralRight at h
  split at h
  · rename_i r
    simp only [bind_ok, Except.ok.injEq] at h
    obtain ⟨z, hz, h⟩ := h
    refine ⟨r, rfl, ?_⟩
    simp only [Bool.or_eq_true, Bool.and_eq_true, beq_iff_eq] at h
    rcases h with h | h
    · exact .inl ⟨by rw [hz, h.1], h.2⟩
    · exact .inr h
  · cases h

theorem simplifyBin_le (ρ : Env) (op : String) (t : DataType) (ls rs : List Node) (n : Node)
    (h : simplifyBin op ls rs = .ok n) : Le ((Node.bin op t ls rs).den ρ) (n.den ρ) := by
  unfold simplifyBin at h
  simp only [bind_ok] at h
  obtain ⟨z, hz, h⟩ := h
  split at h
  · rename_i hz'
    subst hz'
    simp only [Except.ok.injEq] at h
    subst h
    obtain ⟨l, rfl, hl⟩ := neutralLeft_true hz
    have hop : op = "+" ∨ op = "-" ∨ op = "*" ∨ op = "/" := by
      rcases hl with ⟨_, h⟩ | ⟨_, h⟩ <;> simp [h]
    intro v hv
    obtain ⟨l', r, a, b, c, e1, rfl, hl', hr', hc, rfl⟩ := arith_bin_some ρ op t _ _ v hop hv
    simp only [List.cons.injEq, and_true] at e1
    subst e1
    rw [Node.den, only_single, hr']
    rcases hl with ⟨h0, rfl⟩ | ⟨h1, rfl⟩
    · have := isZero_num ρ l a h0 hl'
      subst this
      simpa [arith] using hc
    · have := isValue_num ρ l 1 a h1 hl'
      subst this
      simpa [arith] using hc
  · simp only [bind_ok] at h
    obtain ⟨z, hz, h⟩ := h
    split at h
    · rename_i hz'
      subst hz'
      simp only [Except.ok.injEq] at h
      subst h
      obtain ⟨r, rfl, hr⟩ := neutralRight_true hz
      have hop : op = "+" ∨ op = "-" ∨ op = "*" ∨ op = "/" := by
        rcases hr with ⟨_, h | h⟩ | ⟨_, h | h⟩ <;> simp [h]
      intro v hv
      obtain ⟨l, r', a, b, c, rfl, e1, hl', hr', hc, rfl⟩ := arith_bin_some ρ op t _ _ v hop hv
      simp only [List.cons.injEq, and_true] at e1
      subst e1
      rw [Node.den, only_single, hl']
      rcases hr with ⟨h0, h | h⟩ | ⟨h1, h | h⟩
      · have := isZero_num ρ r b h0 hr'
        subst this h
        simpa [arith] using hc
      · have := isZero_num ρ r b h0 hr'
        subst this h
        simpa [arith] using hc
      · have := isValue_num ρ r 1 b h1 hr'
        subst this h
        simpa [arith] using hc
      · have := isValue_num ρ r 1 b h1 hr'
        subst this h
        simpa [arith] using hc
    · have punt : ∀ ls rs, mkBin op ls rs = .ok n → Le ((Node.bin op t ls rs).den ρ) (n.den ρ) := by
        intro ls rs h
        obtain ⟨t', rfl⟩ := mkBin_ok h
        exact bin_le ρ ρ rfl op t t' _ _ _ _ (.refl _) (.refl _)
      split at h
      · rename_i l r
        split at h
        · split at h
          · rename_i hop
            intro v hv
            obtain ⟨l', r', a, b, c, e1, e2, hl', hr', hc, rfl⟩ := arith_bin_some ρ op t _ _ v (by simp [hop]) hv
            simp only [List.cons.injEq, and_true] at e1 e2
            subst e1 e2 hop
            have := addSub_den ρ _ true _ _ n a b h hl' hr'
            simp only [if_true] at this
            simp only [arith, if_true, Option.some.injEq] at hc
            rw [this, hc]
          · split at h
            · rename_i hop
              intro v hv
              obtain ⟨l', r', a, b, c, e1, e2, hl', hr', hc, rfl⟩ := arith_bin_some ρ op t _ _ v (by simp [hop]) hv
              simp only [List.cons.injEq, and_true] at e1 e2
              subst e1 e2 hop
              have := addSub_den ρ _ false _ _ n a b h hl' hr'
              simp only [Bool.false_eq_true, if_false] at this
              simp [arith] at hc
              rw [this, hc]
            · split at h
              · rename_i hop
                intro v hv
                obtain ⟨l', r', a, b, c, e1, e2, hl', hr', hc, rfl⟩ := arith_bin_some ρ op t _ _ v (by simp [hop]) hv
                simp only [List.cons.injEq, and_true] at e1 e2
                subst e1 e2 hop
                have := mul_den ρ _ _ _ n a b h hl' hr'
                simp [arith] at hc
                rw [this, hc]
              · split at h
                · rename_i hop
                  intro v hv
                  obtain ⟨l', r', a, b, c, e1, e2, hl', hr', hc, rfl⟩ := arith_bin_some ρ op t _ _ v (by simp [hop]) hv
                  simp only [List.cons.injEq, and_true] at e1 e2
                  subst e1 e2 hop
                  simp [arith] at hc
                  have := truediv_den ρ _ _ _ n a b h hl' hr' hc.1
                  rw [this, hc.2]
                · exact punt _ _ h
        · exact punt _ _ h
      · exact punt _ _ h

theorem simplifyTri_le (ρ : Env) (op : String) (t : DataType) (fs ss ts : List Node) (n : Node)
    (h : simplifyTri op fs ss ts = .ok n) : Le ((Node.tri op t fs ss ts).den ρ) (n.den ρ) := by
  have punt : ∀ fs, mkTri op fs ss ts = .ok n → Le ((Node.tri op t fs ss ts).den ρ) (n.den ρ) := by
    intro fs h
    obtain ⟨t', rfl⟩ := mkTri_ok h
    exact tri_le ρ ρ op t t' _ _ _ _ _ _ (.refl _) (.refl _) (.refl _)
  unfold simplifyTri at h
  split at h
  · rename_i f
    split at h
    · rename_i hop
      split at h
      · rename_i h1
        simp only [Except.ok.injEq] at h
        subst h
        simp only [Bool.and_eq_true] at h1
        have := isValue_den ρ 1 f h1.1
        intro v hv
        simpa [Node.den, choose, only_single, this, hop] using hv
      · split at h
        · rename_i h1
          simp only [Except.ok.injEq] at h
          subst h
          simp only [Bool.and_eq_true] at h1
          have := isValue_den ρ 0 f h1.1
          intro v hv
          simpa [Node.den, choose, only_single, this, hop] using hv
        · exact punt _ h
    · exact punt _ h
  · exact punt _ h

mutual
theorem simplify_le (ρ : Env) : ∀ (n n' : Node), n.simplify = .ok n' → Le (n.den ρ) (n'.den ρ)
  | .num x dt, n', h => by simp only [Node.simplify, Except.ok.injEq] at h; subst h; exact .refl _
  | .text .., n', h => by simp only [Node.simplify, Except.ok.injEq] at h; subst h; exact .refl _
  | .boxed .., n', h => by simp only [Node.simplify, Except.ok.injEq] at h; subst h; exact .refl _
  | .un op dt xs, n', h => by
    simp only [Node.simplify, bind_ok] at h
    obtain ⟨ys, h1, h2⟩ := h
    exact (un_le ρ op dt dt xs ys (simplifyL_le ρ xs ys h1)).trans (simplifyUn_le ρ op dt ys n' h2)
  | .bin op dt ls rs, n', h => by
    simp only [Node.simplify, bind_ok] at h
    obtain ⟨ls', h1, rs', h2, h3⟩ := h
    exact (bin_le ρ ρ rfl op dt dt ls ls' rs rs' (simplifyL_le ρ _ _ h1) (simplifyL_le ρ _ _ h2)).trans
      (simplifyBin_le ρ op dt ls' rs' n' h3)
  | .tri op dt fs ss ts, n', h => by
    simp only [Node.simplify, bind_ok] at h
    obtain ⟨fs', h1, ss', h2, ts', h3, h4⟩ := h
    exact (tri_le ρ ρ op dt dt _ fs' _ ss' _ ts' (simplifyL_le ρ _ _ h1) (simplifyL_le ρ _ _ h2)
      (simplifyL_le ρ _ _ h3)).trans (simplifyTri_le ρ op dt _ _ _ n' h4)
  | .expr es, n', h => by
    simp only [Node.simplify, bind_ok, Except.ok.injEq] at h
    obtain ⟨es', h1, rfl⟩ := h
    simp only [Node.den]
    exact (simplifyL_le ρ es es' h1).only
theorem simplifyL_le (ρ : Env) : ∀ (xs ys : List Node), simplifyL xs = .ok ys → Le (denL ρ xs) (denL ρ ys)
  | [], ys, h => by simp only [simplifyL, Except.ok.injEq] at h; subst h; exact .refl _
  | x :: xs, ys, h => by
    simp only [simplifyL, bind_ok, Except.ok.injEq] at h
    obtain ⟨x', h1, xs', h2, rfl⟩ := h
    intro v hv
    simp only [denL, Option.bind_eq_some_iff, Option.map_eq_some_iff] at hv ⊢
    obtain ⟨w, hw, ws, hws, rfl⟩ := hv
    exact ⟨w, simplify_le ρ x x' h1 w hw, ws, simplifyL_le ρ xs xs' h2 ws hws, rfl⟩
end

mutual
/-- No `Value` in the expression holds an `Expr`. -/
def Node.unboxed : Node → Bool
  | .num .. => true
  | .text .. => true
  | .boxed .. => false
  | .un _ _ xs => unboxedL xs
  | .bin _ _ ls rs => unboxedL ls && unboxedL rs
  | .tri _ _ fs ss ts => unboxedL fs && unboxedL ss && unboxedL ts
  | .expr es => unboxedL es
def unboxedL : List Node → Bool
  | [] => true
  | x :: xs => x.unboxed && unboxedL xs
end

/-- The assignment in which the known identifiers have the values of the given expressions. -/
def Env.update (ρ : Env) (known : Known) : Env :=
  { ρ with var := fun s => match known s with
      | some es => (Node.expr es).den ρ
      | none => ρ.var s }

theorem lookupKnown_den (ρ : Env) (known : Known) (s : String) (dt : DataType) (o : Obj) :
    (lookupKnown known s dt o).den ρ = (Node.text s dt o).den (ρ.update known) := by
  unfold lookupKnown
  simp only [Node.den, Env.update]
  split
  · rename_i ho
    cases hk : known s with
    | none => simp [Node.den, ho]
    | some es =>
      match es with
      | [] => rfl
      | [x] => simp only [only_single]
      | x :: y :: zs => rfl
  · rename_i ho
    simp [Node.den, ho]

theorem un_le' (ρ ρ' : Env) (he : ρ.fn1 = ρ'.fn1) (op : String) (t t' : DataType) (xs ys : List Node)
    (h : Le (denL ρ xs) (denL ρ' ys)) :
    Le ((Node.un op t xs).den ρ) ((Node.un op t' ys).den ρ') := by
  have e : ∀ a, apply1 ρ op a = apply1 ρ' op a := by
    intro a
    simp only [apply1, he]
  intro v hv
  simp only [Node.den, Option.bind_eq_some_iff] at hv ⊢
  obtain ⟨a, ha, hv⟩ := hv
  exact ⟨a, h a ha, by rw [← e]; exact hv⟩

mutual
theorem evaluate_le (ρ : Env) (known : Known) : ∀ (n n' : Node), n.unboxed = true → n.evaluate known = .ok n' →
    Le (n.den (ρ.update known)) (n'.den ρ)
  | .num x dt, n', _, h => by simp only [Node.evaluate, Except.ok.injEq] at h; subst h; exact .refl _
  | .text s dt o, n', _, h => by
    simp only [Node.evaluate, Except.ok.injEq] at h
    subst h
    exact .of_eq (lookupKnown_den ρ known s dt o)
  | .boxed .., n', hu, h => by simp [Node.unboxed] at hu
  | .un op dt xs, n', hu, h => by
    simp only [Node.unboxed] at hu
    simp only [Node.evaluate, bind_ok] at h
    obtain ⟨ys, h1, m, h2, h3⟩ := h
    obtain ⟨t', rfl⟩ := mkUn_ok h2
    exact (un_le' (ρ.update known) ρ rfl op dt t' xs ys (evaluateL_le ρ known xs ys hu h1)).trans
      (simplify_le ρ _ _ h3)
  | .bin op dt ls rs, n', hu, h => by
    simp only [Node.unboxed, Bool.and_eq_true] at hu
    simp only [Node.evaluate, bind_ok] at h
    obtain ⟨ls', h1, rs', h2, m, h3, h4⟩ := h
    obtain ⟨t', rfl⟩ := mkBin_ok h3
    exact (bin_le (ρ.update known) ρ rfl op dt t' ls ls' rs rs' (evaluateL_le ρ known _ _ hu.1 h1)
      (evaluateL_le ρ known _ _ hu.2 h2)).trans (simplify_le ρ _ _ h4)
  | .tri op dt fs ss ts, n', hu, h => by
    simp only [Node.unboxed, Bool.and_eq_true] at hu
    simp only [Node.evaluate, bind_ok] at h
    obtain ⟨fs', h1, ss', h2, ts', h3, m, h4, h5⟩ := h
    obtain ⟨t', rfl⟩ := mkTri_ok h4
    exact (tri_le (ρ.update known) ρ op dt t' _ fs' _ ss' _ ts' (evaluateL_le ρ known _ _ hu.1.1 h1)
      (evaluateL_le ρ known _ _ hu.1.2 h2) (evaluateL_le ρ known _ _ hu.2 h3)).trans (simplify_le ρ _ _ h5)
  | .expr es, n', hu, h => by
    simp only [Node.unboxed] at hu
    simp only [Node.evaluate, bind_ok] at h
    obtain ⟨es', h1, h2⟩ := h
    refine Le.trans ?_ (simplify_le ρ _ _ h2)
    simp only [Node.den]
    exact (evaluateL_le ρ known es es' hu h1).only
theorem evaluateL_le (ρ : Env) (known : Known) : ∀ (xs ys : List Node), unboxedL xs = true →
    evaluateL known xs = .ok ys → Le (denL (ρ.update known) xs) (denL ρ ys)
  | [], ys, _, h => by simp only [evaluateL, Except.ok.injEq] at h; subst h; exact .refl _
  | x :: xs, ys, hu, h => by
    simp only [unboxedL, Bool.and_eq_true] at hu
    simp only [evaluateL, bind_ok, Except.ok.injEq] at h
    obtain ⟨x', h1, xs', h2, rfl⟩ := h
    intro v hv
    simp only [denL, Option.bind_eq_some_iff, Option.map_eq_some_iff] at hv ⊢
    obtain ⟨w, hw, ws, hws, rfl⟩ := hv
    exact ⟨w, evaluate_le ρ known x x' hu.1 h1 w hw, ws, evaluateL_le ρ known xs xs' hu.2 h2 ws hws, rfl⟩
end

/-- Two assignments which agree on the identifiers an expression depends on give it the same value. -/
def AgreeOn (ρ ρ' : Env) (dep : String → Bool) : Prop :=
  ρ.fn1 = ρ'.fn1 ∧ ρ.fn2 = ρ'.fn2 ∧ ∀ s, dep s = true → ρ.var s = ρ'.var s

mutual
theorem den_agree (ρ ρ' : Env) : ∀ (n : Node), n.unboxed = true → AgreeOn ρ ρ' (fun s => n.dependsOn s) →
    n.den ρ = n.den ρ'
  | .num .., _, _ => rfl
  | .text s dt o, _, h => by
    simp only [Node.den]
    split
    · rename_i ho
      exact h.2.2 s (by simp [Node.dependsOn, ho])
    · rfl
  | .boxed .., hu, _ => by simp [Node.unboxed] at hu
  | .un op dt xs, hu, h => by
    simp only [Node.unboxed] at hu
    have : apply1 ρ op = apply1 ρ' op := by funext a; simp only [apply1, h.1]
    simp only [Node.den, this]
    rw [denL_agree ρ ρ' xs hu ⟨h.1, h.2.1, fun s hs => h.2.2 s (by simp [Node.dependsOn, hs])⟩]
  | .bin op dt ls rs, hu, h => by
    simp only [Node.unboxed, Bool.and_eq_true] at hu
    have : apply2 ρ op = apply2 ρ' op := by funext a b; simp only [apply2, h.2.1]
    simp only [Node.den, this]
    rw [denL_agree ρ ρ' ls hu.1 ⟨h.1, h.2.1, fun s hs => h.2.2 s (by simp [Node.dependsOn, hs])⟩,
      denL_agree ρ ρ' rs hu.2 ⟨h.1, h.2.1, fun s hs => h.2.2 s (by simp [Node.dependsOn, hs])⟩]
  | .tri op dt fs ss ts, hu, h => by
    simp only [Node.unboxed, Bool.and_eq_true] at hu
    simp only [Node.den]
    rw [denL_agree ρ ρ' fs hu.1.1 ⟨h.1, h.2.1, fun s hs => h.2.2 s (by simp [Node.dependsOn, hs])⟩,
      denL_agree ρ ρ' ss hu.1.2 ⟨h.1, h.2.1, fun s hs => h.2.2 s (by simp [Node.dependsOn, hs])⟩,
      denL_agree ρ ρ' ts hu.2 ⟨h.1, h.2.1, fun s hs => h.2.2 s (by simp [Node.dependsOn, hs])⟩]
  | .expr es, hu, h => by
    simp only [Node.unboxed] at hu
    simp only [Node.den]
    rw [denL_agree ρ ρ' es hu ⟨h.1, h.2.1, fun s hs => h.2.2 s (by simp [Node.dependsOn, hs])⟩]
theorem denL_agree (ρ ρ' : Env) : ∀ (xs : List Node), unboxedL xs = true →
    AgreeOn ρ ρ' (fun s => dependsOnL s xs) → denL ρ xs = denL ρ' xs
  | [], _, _ => rfl
  | x :: xs, hu, h => by
    simp only [unboxedL, Bool.and_eq_true] at hu
    simp only [denL]
    rw [den_agree ρ ρ' x hu.1 ⟨h.1, h.2.1, fun s hs => h.2.2 s (by simp [dependsOnL, hs])⟩,
      denL_agree ρ ρ' xs hu.2 ⟨h.1, h.2.1, fun s hs => h.2.2 s (by simp [dependsOnL, hs])⟩]
end

mutual
theorem verify_den (ρ : Env) (names : List String) : ∀ (n : Node), (n.verify names).den ρ = n.den ρ
  | .num .. => rfl
  | .text s dt o => by
    simp only [Node.verify, Node.den]
    by_cases h : (o = .ident ∨ o = .param) ∧ s ∈ names
    · simp [h]
    · simp [h]
  | .boxed .. => rfl
  | .un op dt xs => by simp only [Node.verify, Node.den, verifyL_den ρ names xs]
  | .bin op dt ls rs => by simp only [Node.verify, Node.den, verifyL_den ρ names ls, verifyL_den ρ names rs]
  | .tri op dt fs ss ts => by
    simp only [Node.verify, Node.den, verifyL_den ρ names fs, verifyL_den ρ names ss, verifyL_den ρ names ts]
  | .expr es => by simp only [Node.verify, Node.den, verifyL_den ρ names es]
theorem verifyL_den (ρ : Env) (names : List String) : ∀ (xs : List Node), denL ρ (verifyL names xs) = denL ρ xs
  | [] => rfl
  | x :: xs => by simp only [verifyL, denL, verify_den ρ names x, verifyL_den ρ names xs]
end

end Verif.Ex
