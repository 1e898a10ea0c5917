import Verif.Expr.Lemmas

/-! The arithmetic operators do not raise on numeric expressions (other than for a division by zero). -/

namespace Verif.Ex
open Verif.DT

/-- A one-element list. -/
def isSingle : List Node → Bool
  | [_] => true
  | _ => false

/-- A `Value` holding a Python string. -/
def Node.isText : Node → Bool
  | .text .. => true
  | _ => false

mutual
/-- A numeric expression as a user builds it: numbers, identifiers which are not strings, and operations with one
operand on each side (calls, member and array access may have any operands). -/
def Node.plain : Node → Bool
  | .num _ dt => dt ≠ .str
  | .text _ dt o => (o = .ident ∨ o = .param) ∧ dt ≠ .str
  | .boxed .. => false
  | .un _ dt xs => (dt ≠ .str) && isSingle xs && plainL xs
  | .bin op dt ls rs => (dt ≠ .str) && (if untyped op then plainArgs ls && plainArgs rs
      else isSingle ls && isSingle rs && plainL ls && plainL rs)
  | .tri _ dt fs ss ts => (dt ≠ .str) && isSingle fs && isSingle ss && isSingle ts &&
      plainL fs && plainL ss && plainL ts
  | .expr _ => false
def plainL : List Node → Bool
  | [] => true
  | x :: xs => x.plain && plainL xs
def plainArgs : List Node → Bool
  | [] => true
  | x :: xs => (x.isText || x.plain) && plainArgs xs
end

theorem add_ne_str (a b : DataType) (ha : a ≠ .str) (hb : b ≠ .str) : a.add b ≠ .str := by
  revert ha hb; cases a <;> cases b <;> decide

theorem plain_dataType (n : Node) (h : n.plain = true) : ∃ t, n.dataType = .ok t ∧ t ≠ .str := by
  cases n <;> simp [Node.plain, Node.dataType] at h ⊢
  all_goals first | exact h | exact h.2 | exact h.1 | exact h.1.1 | exact h.1.1.1.1.1.1

theorem plain_isZero (n : Node) (h : n.plain = true) : ∃ b, n.isZero = .ok b := by
  cases n with
  | num x dt => simp only [Node.plain, decide_eq_true_eq] at h; simp [Node.isZero, h]
  | text s dt o => cases o <;> simp [Node.isZero]
  | boxed => simp [Node.plain] at h
  | expr => simp [Node.plain] at h
  | _ => simp [Node.isZero]

theorem uniqueType_single (x : Node) (t : DataType) (h : x.dataType = .ok t) : uniqueType [x] = .ok t := by
  simp [uniqueType, h, bind, Except.bind, pure, Except.pure]

theorem mkUn_plain (op : String) (x : Node) (h : x.plain = true) :
    ∃ n, mkUn op [x] = .ok n ∧ n.plain = true := by
  obtain ⟨t, ht, hs⟩ := plain_dataType x h
  refine ⟨.un op t [x], ?_, ?_⟩
  · simp only [mkUn, uniqueType_single x t ht, bind, Except.bind]
  · simp [Node.plain, isSingle, plainL, h, hs]

theorem mkBin_plain (op : String) (l r : Node) (hl : l.plain = true) (hr : r.plain = true) :
    ∃ n, mkBin op [l] [r] = .ok n ∧ n.plain = true := by
  obtain ⟨t, ht, hs⟩ := plain_dataType l hl
  obtain ⟨t', ht', hs'⟩ := plain_dataType r hr
  by_cases hu : untyped op = true
  · exact ⟨.bin op .undefined [l] [r], by simp [mkBin, hu], by simp [Node.plain, hu, plainArgs, hl, hr]⟩
  · refine ⟨.bin op (t.add t') [l] [r], ?_, ?_⟩
    · simp [mkBin, hu, uniqueType_single _ _ ht, uniqueType_single _ _ ht', bind, Except.bind]
    · simp [Node.plain, hu, isSingle, plainL, hl, hr, add_ne_str t t' hs hs']

theorem mkTri_plain (op : String) (f l r : Node) (hf : f.plain = true) (hl : l.plain = true) (hr : r.plain = true) :
    ∃ n, mkTri op [f] [l] [r] = .ok n ∧ n.plain = true := by
  obtain ⟨t, ht, hs⟩ := plain_dataType l hl
  obtain ⟨t', ht', hs'⟩ := plain_dataType r hr
  refine ⟨.tri op (t.add t') [f] [l] [r], ?_, ?_⟩
  · simp [mkTri, uniqueType_single _ _ ht, uniqueType_single _ _ ht', bind, Except.bind]
  · simp [Node.plain, isSingle, plainL, hf, hl, hr, add_ne_str t t' hs hs']

theorem isSingle_iff (xs : List Node) : isSingle xs = true ↔ ∃ x, xs = [x] := by
  match xs with
  | [] => simp [isSingle]
  | [x] => simp [isSingle]
  | x :: y :: zs => simp [isSingle]

mutual
theorem asType_plain (t : DataType) (ht : t ≠ .str) : ∀ (n : Node), n.plain = true →
    ∃ n', n.asType t = .ok n' ∧ n'.plain = true
  | .num x dt, _ => ⟨_, rfl, by simp [Node.plain, ht]⟩
  | .text s dt o, h => ⟨_, rfl, by simp only [Node.plain, decide_eq_true_eq] at h ⊢; exact ⟨h.1, ht⟩⟩
  | .boxed .., h => by simp [Node.plain] at h
  | .un op dt xs, h => by
    simp only [Node.plain, Bool.and_eq_true, isSingle_iff] at h
    obtain ⟨⟨_, x, rfl⟩, h2⟩ := h
    simp only [plainL, Bool.and_eq_true] at h2
    obtain ⟨x', h1, hp⟩ := asType_plain t ht x h2.1
    obtain ⟨n', h3, h4⟩ := mkUn_plain op x' hp
    exact ⟨n', by simp [Node.asType, asTypeL, h1, bind, Except.bind, h3], h4⟩
  | .bin op dt ls rs, h => by
    simp only [Node.plain, Bool.and_eq_true] at h
    by_cases hu : untyped op = true
    · rw [if_pos hu, Bool.and_eq_true] at h
      obtain ⟨ls', h1, h1'⟩ := asTypeArgs_plain t ht ls h.2.1
      obtain ⟨rs', h2, h2'⟩ := asTypeArgs_plain t ht rs h.2.2
      refine ⟨.bin op .undefined ls' rs', ?_, ?_⟩
      · simp [Node.asType, h1, h2, bind, Except.bind, mkBin, hu]
      · simp [Node.plain, hu, h1', h2']
    · rw [if_neg hu] at h
      simp only [Bool.and_eq_true, isSingle_iff] at h
      obtain ⟨_, ⟨⟨⟨l, rfl⟩, r, rfl⟩, hl⟩, hr⟩ := h
      simp only [plainL, Bool.and_eq_true] at hl hr
      obtain ⟨l', h1, h1'⟩ := asType_plain t ht l hl.1
      obtain ⟨r', h2, h2'⟩ := asType_plain t ht r hr.1
      obtain ⟨n', h3, h4⟩ := mkBin_plain op l' r' h1' h2'
      exact ⟨n', by simp [Node.asType, asTypeL, h1, h2, bind, Except.bind, h3], h4⟩
  | .tri op dt fs ss ts, h => by
    simp only [Node.plain, Bool.and_eq_true, isSingle_iff] at h
    obtain ⟨⟨⟨⟨⟨⟨_, f, rfl⟩, s, rfl⟩, u, rfl⟩, hf⟩, hs⟩, hu⟩ := h
    simp only [plainL, Bool.and_eq_true] at hf hs hu
    obtain ⟨f', h1, h1'⟩ := asType_plain t ht f hf.1
    obtain ⟨s', h2, h2'⟩ := asType_plain t ht s hs.1
    obtain ⟨u', h3, h3'⟩ := asType_plain t ht u hu.1
    obtain ⟨n', h4, h5⟩ := mkTri_plain op f' s' u' h1' h2' h3'
    exact ⟨n', by simp [Node.asType, asTypeL, h1, h2, h3, bind, Except.bind, h4], h5⟩
  | .expr .., h => by simp [Node.plain] at h
theorem asTypeArgs_plain (t : DataType) (ht : t ≠ .str) : ∀ (xs : List Node), plainArgs xs = true →
    ∃ ys, asTypeL t xs = .ok ys ∧ plainArgs ys = true
  | [], _ => ⟨[], rfl, rfl⟩
  | x :: xs, h => by
    simp only [plainArgs, Bool.and_eq_true, Bool.or_eq_true] at h
    obtain ⟨ys, h1, h2⟩ := asTypeArgs_plain t ht xs h.2
    have : ∃ x', x.asType t = .ok x' ∧ (x'.isText || x'.plain) = true := by
      rcases h.1 with hx | hx
      · match x, hx with
        | .text s dt o, _ => exact ⟨_, rfl, rfl⟩
      · obtain ⟨x', h3, h4⟩ := asType_plain t ht x hx
        exact ⟨x', h3, by simp [h4]⟩
    obtain ⟨x', h3, h4⟩ := this
    exact ⟨x' :: ys, by simp [asTypeL, h1, h3, bind, Except.bind], by simp [plainArgs, h2, h4]⟩
end

theorem neg_plain (n : Node) (h : n.plain = true) : ∃ n', n.neg = .ok n' ∧ n'.plain = true := by
  match n, h with
  | .num x dt, h =>
    simp only [Node.plain, decide_eq_true_eq] at h
    exact ⟨.num x.neg dt, by simp [Node.neg, h], by simp [Node.plain, h]⟩
  | .text s dt o, h =>
    have h' := h
    simp only [Node.plain, decide_eq_true_eq] at h'
    obtain ⟨n', h1, h2⟩ := mkUn_plain "-" (.text s dt o) h
    refine ⟨n', ?_, h2⟩
    rw [← h1, Node.neg, if_pos]
    tauto
  | .boxed .., h => simp [Node.plain] at h
  | .un op dt xs, h =>
    by_cases hop : op = "-"
    · simp only [Node.plain, Bool.and_eq_true, isSingle_iff] at h
      obtain ⟨⟨_, x, rfl⟩, h2⟩ := h
      simp only [plainL, Bool.and_eq_true] at h2
      exact ⟨x, by simp [Node.neg, hop], h2.1⟩
    · obtain ⟨n', h1, h2⟩ := mkUn_plain "-" _ h
      exact ⟨n', by
        rw [← h1]
        match xs with
        | [] => simp [Node.neg, hop]
        | [a] => simp [Node.neg, hop]
        | a :: b :: bs => simp [Node.neg, hop], h2⟩
  | .bin .., h => obtain ⟨n', h1, h2⟩ := mkUn_plain "-" _ h; exact ⟨n', by rw [← h1, Node.neg], h2⟩
  | .tri .., h => obtain ⟨n', h1, h2⟩ := mkUn_plain "-" _ h; exact ⟨n', by rw [← h1, Node.neg], h2⟩
  | .expr .., h => simp [Node.plain] at h

theorem coerce_plain (n : Node) (h : n.plain = true) : coerce n = n := by
  cases n <;> first | rfl | simp [Node.plain] at h

theorem operands_plain (n : Node) (h : n.plain = true) : operands n = [n] := by
  cases n <;> first | rfl | simp [Node.plain] at h

theorem best_plain (x : Num) : (best x).plain = true := by
  cases x <;> simp only [best]
  · rfl
  · split <;> rfl

theorem best_is_num (x : Num) : ∃ dt, best x = .num x dt := by
  cases x <;> simp only [best]
  · exact ⟨_, rfl⟩
  · split <;> exact ⟨_, rfl⟩

theorem negated_plain (r x : Node) (h : negated r = some x) (hr : r.plain = true) :
    x.plain = true ∧ x.size < r.size := by
  unfold negated at h
  split at h
  · simp only [Option.some.injEq] at h
    subst h
    simp only [Node.plain, plainL, Bool.and_eq_true] at hr
    exact ⟨hr.2.1, by simp [Node.size, sizeL]⟩
  · cases h

theorem size_pos (n : Node) : 0 < n.size := by cases n <;> simp [Node.size] <;> omega

/-- The number of further steps `addSub` may take for a right operand. -/
def steps (r : Node) : Nat :=
  r.size + (match r with
    | .num x _ => if x.toRat < 0 then 1 else 0
    | _ => 1)

theorem foldPayload_plain (rec : Node → Node → Except Err Node) (f : Num → Num → Num) (t : DataType) (ht : t ≠ .str)
    (l r : Node) (hl : l.isVal = true) (hl' : l.plain = true) (hr' : r.plain = true)
    (hli : l.isId = false) (hri : r.isId = false) (hro : r.isOp = false) :
    ∃ n, foldPayload rec f t l r = .ok n ∧ n.plain = true := by
  match l, r with
  | .num x dt, .num y dt' => exact ⟨_, rfl, by simp [Node.plain, ht]⟩
  | .text s dt o, _ =>
    simp only [Node.plain, decide_eq_true_eq] at hl'
    rcases hl'.1 with rfl | rfl <;> simp [Node.isId] at hli
  | .boxed .., _ => simp [Node.plain] at hl'
  | .un .., _ => simp [Node.isVal] at hl
  | .bin .., _ => simp [Node.isVal] at hl
  | .tri .., _ => simp [Node.isVal] at hl
  | .expr .., _ => simp [Node.isVal] at hl
  | _, .text s dt o =>
    simp only [Node.plain, decide_eq_true_eq] at hr'
    rcases hr'.1 with rfl | rfl <;> simp [Node.isId] at hri
  | _, .boxed .. => simp [Node.plain] at hr'
  | _, .un .. => simp [Node.isOp] at hro
  | _, .bin .. => simp [Node.isOp] at hro
  | _, .tri .. => simp [Node.isOp] at hro
  | _, .expr .. => simp [Node.plain] at hr'

theorem addSub_plain : ∀ (fuel : Nat) (plus : Bool) (l r : Node), l.plain = true → r.plain = true →
    steps r + 1 ≤ fuel → ∃ n, addSub fuel plus l r = .ok n ∧ n.plain = true
  | 0, _, _, _, _, _, h => absurd h (by simp)
  | fuel + 1, plus, l, r, hl, hr, hf => by
    have ih := addSub_plain fuel
    obtain ⟨zl, hzl⟩ := plain_isZero l hl
    obtain ⟨zr, hzr⟩ := plain_isZero r hr
    have hne : ∀ es, l ≠ .expr es := by rintro es rfl; simp [Node.plain] at hl
    obtain ⟨m, hm, hmp⟩ := mkBin_plain (signOp plus) l r hl hr
    by_cases hv : l.isVal = true
    · have e : addSub (fuel + 1) plus l r = valAddSub (addSub fuel) plus l r := by
        cases l <;> first | rfl | simp [Node.isVal] at hv
      rw [e]
      unfold valAddSub
      simp only [coerce_plain r hr, hzl, hzr, bind, Except.bind]
      cases zl with
      | true =>
        simp only [if_true]
        cases plus with
        | true => exact ⟨r, rfl, hr⟩
        | false => exact neg_plain r hr
      | false =>
        simp only [Bool.false_eq_true, if_false]
        cases zr with
        | true => exact ⟨l, rfl, hl⟩
        | false =>
          simp only [Bool.false_eq_true, if_false]
          cases hn : negated r with
          | some x =>
            obtain ⟨h1, h2⟩ := negated_plain r x hn hr
            refine ih (flipSign plus) l x hl h1 ?_
            have : steps r = r.size + 1 := by
              cases r <;> first | rfl | simp [negated] at hn
            have : steps x ≤ x.size + 1 := by
              unfold steps; split
              · split <;> omega
              · omega
            omega
          | none =>
            simp only
            have hid : ∃ b, (if l.isId = true then negativeValue r else Except.ok false) = .ok b ∧
                (b = true → ∃ y dt, r = .num y dt ∧ y.toRat < 0) := by
              by_cases hi : l.isId = true
              · rw [if_pos hi]
                cases r with
                | num y dt =>
                  refine ⟨_, rfl, fun h => ⟨y, dt, rfl, by simpa using h⟩⟩
                | boxed => simp [Node.plain] at hr
                | _ => exact ⟨false, rfl, by simp⟩
              · rw [if_neg hi]; exact ⟨false, rfl, by simp⟩
            obtain ⟨b, hb, hb'⟩ := hid
            rw [hb]
            simp only
            cases b with
            | true =>
              obtain ⟨y, dt, rfl, hy⟩ := hb' rfl
              simp only [if_true, negatedPayload]
              refine ih _ l (best y.neg) hl (best_plain _) ?_
              obtain ⟨dt', hb⟩ := best_is_num y.neg
              rw [hb]
              have h1 : steps (.num y.neg dt') = 1 := by
                have : ¬ (y.neg.toRat < 0) := by rw [neg_toRat]; linarith
                simp [steps, Node.size, this]
              have h2 : steps (.num y dt) = 2 := by simp [steps, Node.size, hy]
              omega
            | false =>
              simp only [Bool.false_eq_true, if_false]
              by_cases hc : (r.isOp || l.isId || r.isId) = true
              · rw [if_pos hc]; exact ⟨m, hm, hmp⟩
              · rw [if_neg hc]
                obtain ⟨t, ht, hs⟩ := plain_dataType l hl
                obtain ⟨t', ht', hs'⟩ := plain_dataType r hr
                simp only [ht, ht']
                rw [if_neg (add_ne_str t t' hs hs')]
                simp only [Bool.or_eq_true, not_or, Bool.not_eq_true] at hc
                exact foldPayload_plain _ _ _ (add_ne_str t t' hs hs') l r hv hl hr hc.1.2 hc.2 hc.1.1
    · have e : addSub (fuel + 1) plus l r = opAddSub plus l r := by
        cases l <;> first | rfl | (simp [Node.plain] at hl; done) | (simp [Node.isVal] at hv; done)
      rw [e]
      simp only [opAddSub, hzr, bind, Except.bind]
      cases zr with
      | true => exact ⟨l, rfl, hl⟩
      | false =>
        simp only [Bool.false_eq_true, if_false, operands_plain r hr]
        exact ⟨m, hm, hmp⟩

theorem mul_plain : ∀ (fuel : Nat) (l r : Node), l.plain = true → r.plain = true →
    1 ≤ fuel → ∃ n, mul fuel l r = .ok n ∧ n.plain = true
  | 0, _, _, _, _, h => absurd h (by simp)
  | fuel + 1, l, r, hl, hr, hf => by
    obtain ⟨zl, hzl⟩ := plain_isZero l hl
    obtain ⟨zr, hzr⟩ := plain_isZero r hr
    obtain ⟨m, hm, hmp⟩ := mkBin_plain "*" l r hl hr
    obtain ⟨nl, hnl, hnlp⟩ := neg_plain l hl
    obtain ⟨nr, hnr, hnrp⟩ := neg_plain r hr
    obtain ⟨t, ht, hs⟩ := plain_dataType l hl
    obtain ⟨t', ht', hs'⟩ := plain_dataType r hr
    have hst := add_ne_str t t' hs hs'
    by_cases hv : l.isVal = true
    · have e : mul (fuel + 1) l r = valMul (mul fuel) l r := by
        cases l <;> first | rfl | simp [Node.isVal] at hv
      rw [e]
      unfold valMul
      simp only [coerce_plain r hr, hzl, hzr, bind, Except.bind, ht, ht', hnr, hnl]
      cases zl with
      | true => exact ⟨_, rfl, by simp [Node.plain, hst]⟩
      | false =>
        cases zr with
        | true => exact ⟨_, rfl, by simp [Node.plain, hst]⟩
        | false =>
          simp only [Bool.false_eq_true, if_false]
          split
          · exact asType_plain _ hst r hr
          · split
            · exact asType_plain _ hst nr hnrp
            · split
              · exact asType_plain _ hst l hl
              · split
                · exact asType_plain _ hst nl hnlp
                · split
                  · exact ⟨m, hm, hmp⟩
                  · rename_i hc
                    simp only [Bool.or_eq_true, not_or, Bool.not_eq_true] at hc
                    exact foldPayload_plain _ _ _ hst l r hv hl hr hc.1.2 hc.2 hc.1.1
    · have e : mul (fuel + 1) l r = opMul l r := by
        cases l <;> first | rfl | (simp [Node.plain] at hl; done) | (simp [Node.isVal] at hv; done)
      rw [e]
      simp only [opMul, hzr, bind, Except.bind]
      cases zr with
      | true => exact ⟨r, rfl, hr⟩
      | false =>
        simp only [Bool.false_eq_true, if_false, operands_plain r hr]
        split
        · exact ⟨l, rfl, hl⟩
        · split
          · exact ⟨nl, hnl, hnlp⟩
          · exact ⟨m, hm, hmp⟩

theorem truediv_plain : ∀ (fuel : Nat) (l r : Node), l.plain = true → r.plain = true → r.isZero = .ok false →
    1 ≤ fuel → ∃ n, truediv fuel l r = .ok n ∧ n.plain = true
  | 0, _, _, _, _, _, h => absurd h (by simp)
  | fuel + 1, l, r, hl, hr, hzr, hf => by
    obtain ⟨zl, hzl⟩ := plain_isZero l hl
    obtain ⟨m, hm, hmp⟩ := mkBin_plain "/" l r hl hr
    obtain ⟨nl, hnl, hnlp⟩ := neg_plain l hl
    obtain ⟨t, ht, hs⟩ := plain_dataType l hl
    obtain ⟨t', ht', hs'⟩ := plain_dataType r hr
    have hst : (DataType.float : DataType) ≠ .str := by decide
    have hdt : divType t t' = .ok .float := by
      simp [divType, DataType.truediv, hs, hs']
    by_cases hv : l.isVal = true
    · have e : truediv (fuel + 1) l r = valDiv (truediv fuel) l r := by
        cases l <;> first | rfl | simp [Node.isVal] at hv
      rw [e]
      unfold valDiv
      simp only [coerce_plain r hr, hzl, hzr, bind, Except.bind, ht, ht', hdt, hnl]
      cases zl with
      | true => exact ⟨_, rfl, by simp [Node.plain]⟩
      | false =>
        simp only [Bool.false_eq_true, if_false]
        split
        · exact asType_plain _ hst l hl
        · split
          · exact asType_plain _ hst nl hnlp
          · split
            · exact ⟨m, hm, hmp⟩
            · rename_i hc
              simp only [Bool.or_eq_true, not_or, Bool.not_eq_true] at hc
              exact foldPayload_plain _ _ _ hst l r hv hl hr hc.1.2 hc.2 hc.1.1
    · have e : truediv (fuel + 1) l r = opDiv l r := by
        cases l <;> first | rfl | (simp [Node.plain] at hl; done) | (simp [Node.isVal] at hv; done)
      rw [e]
      simp only [opDiv, hzr, bind, Except.bind, Bool.false_eq_true, if_false, operands_plain r hr]
      split
      · exact ⟨l, rfl, hl⟩
      · split
        · exact ⟨nl, hnl, hnlp⟩
        · exact ⟨m, hm, hmp⟩

end Verif.Ex
