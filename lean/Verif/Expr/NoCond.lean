import Verif.Expr.Defined

/-! The arithmetic operators make no conditional expressions; plain expressions without them which have a value simplify. -/

namespace Verif.Ex
open Verif.DT

mutual
/-- There is no conditional in the expression. -/
def Node.noTri : Node → Bool
  | .num .. => true
  | .text .. => true
  | .boxed _ es => noTriL es
  | .un _ _ xs => noTriL xs
  | .bin _ _ ls rs => noTriL ls && noTriL rs
  | .tri .. => false
  | .expr es => noTriL es
def noTriL : List Node → Bool
  | [] => true
  | x :: xs => x.noTri && noTriL xs
end

theorem noTriL_single (x : Node) : noTriL [x] = x.noTri := by simp [noTriL]

theorem mkUn_noTri {op : String} {xs : List Node} {n : Node} (h : mkUn op xs = .ok n) (hx : noTriL xs = true) : n.noTri = true := by
  obtain ⟨t, rfl⟩ := mkUn_ok h
  simpa [Node.noTri] using hx

theorem mkBin_noTri {op : String} {ls rs : List Node} {n : Node} (h : mkBin op ls rs = .ok n) (hl : noTriL ls = true)
    (hr : noTriL rs = true) : n.noTri = true := by
  obtain ⟨t, rfl⟩ := mkBin_ok h
  simp [Node.noTri, hl, hr]

mutual
theorem asType_noTri (t : DataType) : ∀ (n n' : Node), n.asType t = .ok n' → n.noTri = true → n'.noTri = true
  | .num x dt, n', h, _ => by cases h; rfl
  | .text s dt o, n', h, _ => by cases h; rfl
  | .boxed dt es, n', h, hn => by cases h; exact hn
  | .un op dt xs, n', h, hn => by
    simp only [Node.asType, bind_ok] at h
    obtain ⟨ys, h1, h2⟩ := h
    exact mkUn_noTri h2 (asTypeL_noTri t xs ys h1 hn)
  | .bin op dt ls rs, n', h, hn => by
    simp only [Node.asType, bind_ok] at h
    obtain ⟨ys, h1, zs, h2, h3⟩ := h
    simp only [Node.noTri, Bool.and_eq_true] at hn
    exact mkBin_noTri h3 (asTypeL_noTri t ls ys h1 hn.1) (asTypeL_noTri t rs zs h2 hn.2)
  | .tri .., n', h, hn => by simp [Node.noTri] at hn
  | .expr es, n', h, _ => by cases h
theorem asTypeL_noTri (t : DataType) : ∀ (xs ys : List Node), asTypeL t xs = .ok ys → noTriL xs = true → noTriL ys = true
  | [], ys, h, _ => by cases h; rfl
  | x :: xs, ys, h, hn => by
    simp only [asTypeL, bind_ok] at h
    obtain ⟨y, h1, zs, h2, h3⟩ := h
    cases h3
    simp only [noTriL, Bool.and_eq_true] at hn ⊢
    exact ⟨asType_noTri t x y h1 hn.1, asTypeL_noTri t xs zs h2 hn.2⟩
end

mutual
theorem neg_noTri : ∀ (n n' : Node), n.neg = .ok n' → n.noTri = true → n'.noTri = true
  | .num x dt, n', h, _ => by
    simp only [Node.neg] at h
    split at h
    · exact mkUn_noTri h rfl
    · cases h; rfl
  | .text s dt o, n', h, _ => by
    simp only [Node.neg] at h
    split at h
    · exact mkUn_noTri h rfl
    · cases h
  | .boxed dt es, n', h, hn => by
    simp only [Node.neg] at h
    split at h
    · exact mkUn_noTri h (by rw [noTriL_single]; exact hn)
    · simp only [bind_ok] at h
      obtain ⟨fs, h1, h2⟩ := h
      cases h2
      exact negL_noTri es fs h1 hn
  | .un op dt xs, n', h, hn => by
    simp only [Node.neg] at h
    split at h
    · split at h
      · cases h
        simpa [Node.noTri, noTriL] using hn
      · cases h
    · exact mkUn_noTri h (by rw [noTriL_single]; exact hn)
  | .bin op dt ls rs, n', h, hn => mkUn_noTri (op := "-") (xs := [.bin op dt ls rs]) (by simpa [Node.neg] using h)
      (by rw [noTriL_single]; exact hn)
  | .tri .., n', h, hn => by simp [Node.noTri] at hn
  | .expr es, n', h, hn => by
    simp only [Node.neg, bind_ok] at h
    obtain ⟨fs, h1, h2⟩ := h
    cases h2
    exact negL_noTri es fs h1 hn
theorem negL_noTri : ∀ (xs ys : List Node), negL xs = .ok ys → noTriL xs = true → noTriL ys = true
  | [], ys, h, _ => by cases h; rfl
  | x :: xs, ys, h, hn => by
    simp only [negL, bind_ok] at h
    obtain ⟨y, h1, zs, h2, h3⟩ := h
    cases h3
    simp only [noTriL, Bool.and_eq_true] at hn ⊢
    exact ⟨neg_noTri x y h1 hn.1, negL_noTri xs zs h2 hn.2⟩
end

theorem coerce_noTri (n : Node) (h : n.noTri = true) : (coerce n).noTri = true := by
  cases n <;> first | exact h | simpa [coerce, Node.noTri] using h

theorem operands_noTri (n : Node) (h : n.noTri = true) : noTriL (operands n) = true := by
  cases n <;> first | (simp only [operands, noTriL_single]; exact h) | simpa [operands, Node.noTri] using h

theorem prep_noTri (n : Node) (h : n.noTri = true) : (prep n).noTri = true := by
  unfold prep
  split
  · simpa [Node.noTri, noTriL] using h
  · exact h

theorem best_noTri (x : Num) : (best x).noTri = true := by
  obtain ⟨dt, h⟩ := best_is_num x
  rw [h]; rfl

theorem single_noTri {es : List Node} {x : Node} (h : single es = .ok x) (he : noTriL es = true) : x.noTri = true := by
  rw [single_ok h, noTriL_single] at he
  exact he

theorem negated_noTri (r x : Node) (h : negated r = some x) (hr : r.noTri = true) : x.noTri = true := by
  unfold negated at h
  split at h
  · cases h
    simpa [Node.noTri, noTriL] using hr
  · cases h

theorem negatedPayload_noTri (r x : Node) (h : negatedPayload r = .ok x) (hr : r.noTri = true) : x.noTri = true := by
  unfold negatedPayload at h
  split at h
  · cases h; exact best_noTri _
  · simp only [bind_ok] at h
    obtain ⟨fs, h1, h2⟩ := h
    cases h2
    exact negL_noTri _ fs h1 hr
  · cases h

theorem foldPayload_noTri (rec : Node → Node → Except Err Node) (f : Num → Num → Num) (t : DataType)
    (ih : ∀ l r n, rec l r = .ok n → l.noTri = true → r.noTri = true → n.noTri = true)
    (l r n : Node) (h : foldPayload rec f t l r = .ok n) (hl : l.noTri = true) (hr : r.noTri = true) : n.noTri = true := by
  unfold foldPayload at h
  split at h
  · cases h; rfl
  · simp only [bind_ok] at h
    obtain ⟨e, h1, m, h2, h3⟩ := h
    cases h3
    simp only [Node.noTri, noTriL_single]
    exact ih _ _ _ h2 (best_noTri _) (single_noTri h1 hr)
  · simp only [bind_ok] at h
    obtain ⟨e, h1, h⟩ := h
    split at h
    · cases h
    · simp only [bind_ok] at h
      obtain ⟨m, h2, h3⟩ := h
      cases h3
      simp only [Node.noTri, noTriL_single]
      exact ih _ _ _ h2 (single_noTri h1 hl) (best_noTri _)
  · simp only [bind_ok] at h
    obtain ⟨e, h1, m, h2, h3⟩ := h
    cases h3
    simp only [Node.noTri, noTriL_single]
    exact ih _ _ _ h2 (single_noTri h1 hl) (prep_noTri _ hr)
  · cases h

theorem addSub_noTri : ∀ (fuel : Nat) (plus : Bool) (l r n : Node), addSub fuel plus l r = .ok n → l.noTri = true →
    r.noTri = true → n.noTri = true
  | 0, _, _, _, _, h, _, _ => by cases h
  | fuel + 1, plus, l, r, n, h, hl, hr => by
    have ih := addSub_noTri fuel
    have hc := coerce_noTri r hr
    unfold addSub at h
    split at h
    · simp only [bind_ok] at h
      obtain ⟨e, h1, m, h2, h3⟩ := h
      cases h3
      simp only [Node.noTri, noTriL_single]
      exact ih _ _ _ _ h2 (single_noTri h1 hl) (prep_noTri _ hr)
    · split at h
      · simp only [valAddSub, bind_ok] at h
        obtain ⟨zl, -, h⟩ := h
        split at h
        · split at h
          · cases h; exact hc
          · exact neg_noTri _ _ h hc
        · simp only [bind_ok] at h
          obtain ⟨zr, -, h⟩ := h
          split at h
          · cases h; exact hl
          · split at h
            · rename_i x hx
              exact ih _ _ _ _ h hl (negated_noTri _ _ hx hc)
            · simp only [bind_ok] at h
              obtain ⟨b, -, h⟩ := h
              split at h
              · simp only [bind_ok] at h
                obtain ⟨m, h1, h2⟩ := h
                exact ih _ _ _ _ h2 hl (negatedPayload_noTri _ _ h1 hc)
              · split at h
                · exact mkBin_noTri h (by rw [noTriL_single]; exact hl) (by rw [noTriL_single]; exact hc)
                · simp only [bind_ok] at h
                  obtain ⟨t, -, t', -, h⟩ := h
                  split at h
                  · exact mkBin_noTri h (by rw [noTriL_single]; exact hl) (by rw [noTriL_single]; exact hc)
                  · exact foldPayload_noTri _ _ _ (ih plus) _ _ _ h hl hc
      · simp only [opAddSub, bind_ok] at h
        obtain ⟨zr, -, h⟩ := h
        split at h
        · cases h; exact hl
        · exact mkBin_noTri h (by rw [noTriL_single]; exact hl) (operands_noTri r hr)

theorem mul_noTri : ∀ (fuel : Nat) (l r n : Node), mul fuel l r = .ok n → l.noTri = true →
    r.noTri = true → n.noTri = true
  | 0, _, _, _, h, _, _ => by cases h
  | fuel + 1, l, r, n, h, hl, hr => by
    have ih := mul_noTri fuel
    have hc := coerce_noTri r hr
    unfold mul at h
    split at h
    · simp only [bind_ok] at h
      obtain ⟨e, h1, m, h2, h3⟩ := h
      cases h3
      simp only [Node.noTri, noTriL_single]
      exact ih _ _ _ h2 (single_noTri h1 hl) (prep_noTri _ hr)
    · split at h
      · simp only [valMul, bind_ok] at h
        obtain ⟨t, -, t', -, zl, -, h⟩ := h
        split at h
        · cases h; rfl
        simp only [bind_ok] at h
        obtain ⟨zr, -, h⟩ := h
        split at h
        · cases h; rfl
        split at h
        · exact asType_noTri _ _ _ h hc
        split at h
        · simp only [bind_ok] at h
          obtain ⟨m, h1, h⟩ := h
          exact asType_noTri _ _ _ h (neg_noTri _ _ h1 hc)
        split at h
        · exact asType_noTri _ _ _ h hl
        split at h
        · simp only [bind_ok] at h
          obtain ⟨m, h1, h⟩ := h
          exact asType_noTri _ _ _ h (neg_noTri _ _ h1 hl)
        split at h
        · exact mkBin_noTri h (by rw [noTriL_single]; exact hl) (by rw [noTriL_single]; exact hc)
        split at h
        · exact mkBin_noTri h (by rw [noTriL_single]; exact hl) (by rw [noTriL_single]; exact hc)
        · exact foldPayload_noTri _ _ _ ih _ _ _ h hl hc
      · simp only [opMul, bind_ok] at h
        obtain ⟨zr, -, h⟩ := h
        split at h
        · cases h; exact hr
        split at h
        · cases h; exact hl
        split at h
        · exact neg_noTri _ _ h hl
        · exact mkBin_noTri h (by rw [noTriL_single]; exact hl) (operands_noTri r hr)

theorem truediv_noTri : ∀ (fuel : Nat) (l r n : Node), truediv fuel l r = .ok n → l.noTri = true →
    r.noTri = true → n.noTri = true
  | 0, _, _, _, h, _, _ => by cases h
  | fuel + 1, l, r, n, h, hl, hr => by
    have ih := truediv_noTri fuel
    have hc := coerce_noTri r hr
    unfold truediv at h
    split at h
    · simp only [bind_ok] at h
      obtain ⟨e, h1, m, h2, h3⟩ := h
      cases h3
      simp only [Node.noTri, noTriL_single]
      exact ih _ _ _ h2 (single_noTri h1 hl) (prep_noTri _ hr)
    · split at h
      · simp only [valDiv, bind_ok] at h
        obtain ⟨t, -, t', -, u, -, zl, -, h⟩ := h
        split at h
        · cases h; rfl
        split at h
        · exact asType_noTri _ _ _ h hl
        split at h
        · simp only [bind_ok] at h
          obtain ⟨m, h1, h⟩ := h
          exact asType_noTri _ _ _ h (neg_noTri _ _ h1 hl)
        simp only [bind_ok] at h
        obtain ⟨zr, -, h⟩ := h
        split at h
        · cases h
        split at h
        · exact mkBin_noTri h (by rw [noTriL_single]; exact hl) (by rw [noTriL_single]; exact hc)
        split at h
        · exact mkBin_noTri h (by rw [noTriL_single]; exact hl) (by rw [noTriL_single]; exact hc)
        · exact foldPayload_noTri _ _ _ ih _ _ _ h hl hc
      · simp only [opDiv, bind_ok] at h
        obtain ⟨zr, -, h⟩ := h
        split at h
        · cases h
        split at h
        · cases h; exact hl
        split at h
        · exact neg_noTri _ _ h hl
        · exact mkBin_noTri h (by rw [noTriL_single]; exact hl) (operands_noTri r hr)

mutual
/-- A numeric expression without conditionals which has a value divides by numbers other than zero only. -/
theorem plain_fineAt (ρ : Env) : ∀ (n : Node) (v : Base), n.plain = true → n.noTri = true → n.den ρ = some v → FineAt ρ n
  | .num x dt, _, hp, _, _ => .lit _ (.num _ _ (by simpa [Node.plain] using hp))
  | .text s dt o, _, hp, _, _ => by
    simp only [Node.plain, decide_eq_true_eq] at hp
    exact .ident s dt o hp.1 hp.2
  | .boxed .., _, hp, _, _ => by simp [Node.plain] at hp
  | .un op dt xs, v, hp, hn, hd => by
    simp only [Node.plain, Bool.and_eq_true, isSingle_iff, decide_eq_true_eq] at hp
    obtain ⟨⟨ht, x, rfl⟩, hx⟩ := hp
    simp only [plainL, Bool.and_eq_true] at hx
    simp only [Node.noTri, noTriL_single] at hn
    simp only [Node.den, denL_single, Option.bind_eq_some_iff, Option.map_eq_some_iff] at hd
    obtain ⟨_, ⟨w, hw, -⟩, -⟩ := hd
    exact .un op dt x ht (plain_fineAt ρ x w hx.1 hn hw)
  | .bin op dt ls rs, v, hp, hn, hd => by
    simp only [Node.plain, Bool.and_eq_true, decide_eq_true_eq] at hp
    simp only [Node.noTri, Bool.and_eq_true] at hn
    simp only [Node.den, Option.bind_eq_some_iff] at hd
    obtain ⟨a, ha, b, hb, hab⟩ := hd
    by_cases hu : untyped op = true
    · rw [if_pos hu, Bool.and_eq_true] at hp
      exact .call op dt ls rs hp.1 hu (plainArgs_fineAt ρ ls a hp.2.1 hn.1 ha) (plainArgs_fineAt ρ rs b hp.2.2 hn.2 hb)
    · rw [if_neg hu] at hp
      simp only [Bool.and_eq_true, isSingle_iff] at hp
      obtain ⟨ht, ⟨⟨⟨l, rfl⟩, r, rfl⟩, hl⟩, hr⟩ := hp
      simp only [plainL, Bool.and_eq_true] at hl hr
      simp only [noTriL_single] at hn
      simp only [denL_single, Option.map_eq_some_iff] at ha hb
      obtain ⟨x, hx, rfl⟩ := ha
      obtain ⟨y, hy, rfl⟩ := hb
      refine .bin op dt l r ht (by simpa using hu) (plain_fineAt ρ l x hl.1 hn.1 hx) (plain_fineAt ρ r y hr.1 hn.2 hy) ?_
      rintro rfl
      simp only [apply2] at hab
      cases x with
      | text => simp at hab
      | num p =>
        cases y with
        | text => simp at hab
        | num q =>
          refine ⟨q, ?_, hy⟩
          rintro rfl
          simp [arith] at hab
  | .tri .., _, _, hn, _ => by simp [Node.noTri] at hn
  | .expr .., _, hp, _, _ => by simp [Node.plain] at hp
theorem plainArgs_fineAt (ρ : Env) : ∀ (xs : List Node) (vs : List Base), plainArgs xs = true → noTriL xs = true →
    denL ρ xs = some vs → ∀ x ∈ xs, x.isText = false → FineAt ρ x
  | [], _, _, _, _ => fun _ h => by cases h
  | x :: xs, vs, hp, hn, hd => by
    simp only [plainArgs, Bool.and_eq_true, Bool.or_eq_true] at hp
    simp only [noTriL, Bool.and_eq_true] at hn
    simp only [denL, Option.bind_eq_some_iff, Option.map_eq_some_iff] at hd
    obtain ⟨w, hw, ws, hws, -⟩ := hd
    have hx : x.isText = false → FineAt ρ x := by
      intro ht
      rcases hp.1 with h | h
      · rw [h] at ht; cases ht
      · exact plain_fineAt ρ x w h hn.1 hw
    have hxs := plainArgs_fineAt ρ xs ws hp.2 hn.2 hws
    intro y hy ht
    rcases List.mem_cons.mp hy with rfl | hy
    · exact hx ht
    · exact hxs y hy ht
end

/-- C10: a numeric expression without conditionals which has a value under some assignment can be simplified. -/
theorem simplify_returns_valued (ρ : Env) (n : Node) (v : Base) (hp : n.plain = true) (hn : n.noTri = true)
    (hd : n.den ρ = some v) : ∃ n', n.simplify = .ok n' ∧ n'.den ρ = some v := by
  obtain ⟨n', h, -⟩ := simplify_returns_defined ρ n (plain_fineAt ρ n v hp hn hd)
  exact ⟨n', h, simplify_preserves_value_partial n n' h ρ v hd⟩

end Verif.Ex
