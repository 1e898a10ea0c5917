import Verif.Expr.CRead

/-! Property C85: comparing the two readers, and the C text generated for what is written in an instrument. -/

namespace Verif.Ex
open Verif.DT

/-! ### Agreement of the two readers -/

/-- C85, exactly: when the grammar reads a text as `t`, C reads it as `t` too if and only if every operand in `t` binds strongly
enough for its place in C's order of the operators. -/
theorem same_reading_iff (ts : List Tok) (t : Tree) (h : ReadAs ts t) : CReadAs ts t ↔ t.cOk := by
  rw [readAs_toks ts t h]
  exact cReadAs_toks_iff t

/-- Tokens of texts whose operators are those of `S`: no `!`, no conditional, no members. -/
def Tok.over (S : String → Prop) : Tok → Prop
  | .lit _ => True
  | .id _ => True
  | .op o => S o
  | .lpar => True
  | .rpar => True
  | .comma => True
  | .lbr => True
  | .rbr => True
  | _ => False

/-! ### Signs -/

/-- A sign before the text of `t`, as C reads it: it belongs to the first factor. -/
def lead (o : String) : Tree → Tree
  | .bin o' l r => if o' = "*" ∨ o' = "/" then .bin o' (lead o l) r else signed o (.bin o' l r)
  | t => signed o t

mutual
/-- The tree with its signs, read as operators before which an operand is missing, put where C reads them. -/
def Tree.inC : Tree → Tree
  | .none => .none
  | .lit x => .lit x
  | .id s => .id s
  | .group t => .group t.inC
  | .neg t => .neg t.inC
  | .pos t => .pos t.inC
  | .bin o l r => if l.isNone && (o = "-" || o = "+") then lead o r.inC else .bin o l.inC r.inC
  | .call f as => .call f (Tree.inCL as)
  | .not t => .not t.inC
  | .cond c a b => .cond c.inC a.inC b.inC
def Tree.inCL : List Tree → List Tree
  | [] => []
  | t :: ts => t.inC :: Tree.inCL ts
end

theorem lead_toks (o : String) (ho : o = "-" ∨ o = "+") : ∀ t : Tree, (lead o t).toks = .op o :: t.toks
  | .bin o' l r => by
    rw [lead]
    split_ifs with h
    · have ha : accessOp o' = false := by rcases h with rfl | rfl <;> rfl
      rw [toks_infix _ _ _ ha, toks_infix _ _ _ ha, lead_toks o ho l]; rfl
    · exact toks_signed o _ ho
  | .none => toks_signed o _ ho
  | .lit _ => toks_signed o _ ho
  | .id _ => toks_signed o _ ho
  | .group _ => toks_signed o _ ho
  | .neg _ => toks_signed o _ ho
  | .pos _ => toks_signed o _ ho
  | .call .. => toks_signed o _ ho
  | .not _ => toks_signed o _ ho
  | .cond .. => toks_signed o _ ho

theorem isNone_iff (t : Tree) : t.isNone = true ↔ t = .none := by
  cases t <;> simp [Tree.isNone]

theorem inC_sign (o : String) (r : Tree) (ho : o = "-" ∨ o = "+") : (Tree.bin o .none r).inC = lead o r.inC := by
  simp [Tree.inC, Tree.isNone, ho]

theorem inC_bin (o : String) (l r : Tree) (h : l.isNone = false ∨ ¬(o = "-" ∨ o = "+")) :
    (Tree.bin o l r).inC = .bin o l.inC r.inC := by
  rw [Tree.inC, if_neg]
  simp only [Bool.and_eq_true, Bool.or_eq_true, decide_eq_true_eq, not_and]
  intro h1 h2
  rcases h with h | h
  · rw [h] at h1; cases h1
  · exact h h2

theorem bin_cases (o : String) (l : Tree) :
    (l = .none ∧ (o = "-" ∨ o = "+")) ∨ (l.isNone = false ∨ ¬(o = "-" ∨ o = "+")) := by
  cases h : l.isNone with
  | false => exact .inr (.inl rfl)
  | true =>
    rw [isNone_iff] at h
    by_cases ho : o = "-" ∨ o = "+"
    · exact .inl ⟨h, ho⟩
    · exact .inr (.inr ho)

theorem sign_not_access (o : String) (ho : o = "-" ∨ o = "+") : accessOp o = false := by
  rcases ho with rfl | rfl <;> rfl

mutual
/-- The text stays the same. -/
theorem inC_toks : ∀ t : Tree, t.inC.toks = t.toks
  | .none => rfl
  | .lit _ => rfl
  | .id _ => rfl
  | .group t => by simp [Tree.inC, Tree.toks, inC_toks t]
  | .neg t => by simp [Tree.inC, Tree.toks, inC_toks t]
  | .pos t => by simp [Tree.inC, Tree.toks, inC_toks t]
  | .bin o l r => by
    have h1 := inC_toks l
    have h2 := inC_toks r
    rcases bin_cases o l with ⟨rfl, ho⟩ | h
    · rw [inC_sign o r ho, lead_toks o ho, h2, toks_infix _ _ _ (sign_not_access o ho)]; rfl
    · rw [inC_bin o l r h, Tree.toks, Tree.toks, h1, h2]
  | .call f as => by simp [Tree.inC, Tree.toks, inCL_toks as]
  | .not t => by simp [Tree.inC, Tree.toks, inC_toks t]
  | .cond c a b => by simp [Tree.inC, Tree.toks, inC_toks c, inC_toks a, inC_toks b]
theorem inCL_toks : ∀ ts : List Tree, Tree.toksL (Tree.inCL ts) = Tree.toksL ts
  | [] => rfl
  | [t] => by simp [Tree.inCL, Tree.toksL, inC_toks t]
  | t :: u :: us => by
    have := inCL_toks (u :: us)
    rw [show Tree.inCL (t :: u :: us) = t.inC :: Tree.inCL (u :: us) from rfl, toksL_cons _ _ (by simp [Tree.inCL]), this,
      inC_toks t, toksL_cons t (u :: us) (by simp)]
end

/-- The value of a sign. -/
def signVal (ρ : Env) (o : String) (v : Option Base) : Option Base := sgn ρ (o = "-") v

theorem signed_den (ρ : Env) (o : String) (t : Tree) : (signed o t).den ρ = signVal ρ o (t.den ρ) := by
  by_cases h : o = "-" <;> simp [signed, signVal, h, Tree.den, sgn]

theorem cOk_some {t : Tree} (h : t.cOk) : t.isNone = false := by
  cases t <;> first | rfl | simp [Tree.cOk] at h

theorem signed_cOk (o : String) (t : Tree) : (signed o t).cOk ↔ t.cOk ∧ 8 ≤ t.ctop := by
  unfold signed
  split_ifs <;> simp [Tree.cOk]

theorem signed_ctop (o : String) (t : Tree) : (signed o t).ctop = 8 := by
  unfold signed
  split_ifs <;> rfl

theorem lead_ok_signed (o : String) (t : Tree) (h : (signed o t).cOk) :
    t.cOk ∧ (signed o t).ctop ≤ t.ctop ∧ ∀ ρ, (signed o t).den ρ = signVal ρ o (t.den ρ) := by
  rw [signed_cOk] at h
  exact ⟨h.1, by rw [signed_ctop]; exact h.2, fun ρ => signed_den ρ o _⟩

/-- What a sign is put before is an operand of products in C, and the sign changes the value of the product. -/
theorem lead_ok (o : String) : ∀ t : Tree, (lead o t).cOk →
    t.cOk ∧ (lead o t).ctop ≤ t.ctop ∧ ∀ ρ, (lead o t).den ρ = signVal ρ o (t.den ρ)
  | .bin o' l r, h => by
    rw [lead] at h ⊢
    split_ifs at h ⊢ with ho
    · have ha : accessOp o' = false := by rcases ho with rfl | rfl <;> rfl
      rw [cOk_infix _ _ _ ha] at h
      obtain ⟨h1, h2, h3, h4, h5⟩ := h
      obtain ⟨i1, i2, i3⟩ := lead_ok o l h2
      refine ⟨(cOk_infix _ _ _ ha).mpr ⟨h1, i1, h3, by omega, h5⟩, ?_, fun ρ => ?_⟩
      · rw [ctop_infix _ _ _ ha, ctop_infix _ _ _ ha]
      · rw [tree_bin_den _ _ _ _ (cOk_some h2), tree_bin_den _ _ _ _ (cOk_some i1), i3, signVal, signVal, bop_sgn ρ _ o' ho]
    · exact lead_ok_signed o _ h
  | .none, h => lead_ok_signed o _ h
  | .lit _, h => lead_ok_signed o _ h
  | .id _, h => lead_ok_signed o _ h
  | .group _, h => lead_ok_signed o _ h
  | .neg _, h => lead_ok_signed o _ h
  | .pos _, h => lead_ok_signed o _ h
  | .call .., h => lead_ok_signed o _ h
  | .not _, h => lead_ok_signed o _ h
  | .cond .., h => lead_ok_signed o _ h

theorem sign_den (ρ : Env) (o : String) (r : Tree) (ho : o = "-" ∨ o = "+") :
    (Tree.bin o .none r).den ρ = signVal ρ o (r.den ρ) := by
  rcases ho with rfl | rfl
  · rw [tree_sign_den]; rfl
  · rw [tree_plus_den]; rfl

theorem inC_none (t : Tree) (h : t.inC.isNone = false) : t.isNone = false := by
  cases t <;> first | rfl | simp [Tree.inC, Tree.isNone] at h

mutual
/-- Where C reads the text in this way, the value stays the same. -/
theorem inC_den (ρ : Env) : ∀ t : Tree, t.inC.cOk → t.inC.den ρ = t.den ρ
  | .none, h => by simp [Tree.inC, Tree.cOk] at h
  | .lit _, _ => rfl
  | .id _, _ => rfl
  | .group t, h => by
    rw [Tree.inC, Tree.cOk] at h
    rw [Tree.inC, Tree.den, Tree.den, inC_den ρ t h]
  | .neg t, h => by
    rw [Tree.inC, Tree.cOk] at h
    rw [Tree.inC, Tree.den, Tree.den, inC_den ρ t h.1]
  | .pos t, h => by
    rw [Tree.inC, Tree.cOk] at h
    rw [Tree.inC, Tree.den, Tree.den, inC_den ρ t h.1]
  | .bin o l r, h => by
    rcases bin_cases o l with ⟨rfl, ho⟩ | hb
    · rw [inC_sign o r ho] at h ⊢
      obtain ⟨h1, _, h3⟩ := lead_ok o _ h
      rw [h3, sign_den ρ o r ho, inC_den ρ r h1]
    · rw [inC_bin o l r hb] at h ⊢
      have hlr : l.inC.cOk ∧ r.inC.cOk := by
        rw [Tree.cOk] at h
        split_ifs at h
        · obtain ⟨⟨s, hs⟩, hr⟩ := h
          exact ⟨by rw [hs]; trivial, hr⟩
        · obtain ⟨⟨s, hs⟩, m, hm⟩ := h
          exact ⟨by rw [hs]; trivial, by rw [hm]; trivial⟩
        · exact ⟨h.2.1, h.2.2.1⟩
      have hn := cOk_some hlr.1
      rw [tree_bin_den _ _ _ _ hn, tree_bin_den _ _ _ _ (inC_none l hn), inC_den ρ l hlr.1, inC_den ρ r hlr.2]
  | .call f as, h => by
    rw [Tree.inC, Tree.cOk] at h
    rw [Tree.inC, Tree.den, Tree.den, inCL_den ρ as h.2]
  | .not t, h => by
    rw [Tree.inC, Tree.cOk] at h
    rw [Tree.inC, Tree.den, Tree.den, inC_den ρ t h.1]
  | .cond c a b, h => by
    rw [Tree.inC, Tree.cOk] at h
    rw [Tree.inC, Tree.den, Tree.den, inC_den ρ c h.1, inC_den ρ a h.2.1, inC_den ρ b h.2.2.1]
theorem inCL_den (ρ : Env) : ∀ ts : List Tree, Tree.cOkL (Tree.inCL ts) → Tree.denL ρ (Tree.inCL ts) = Tree.denL ρ ts
  | [], _ => rfl
  | t :: ts, h => by
    rw [Tree.inCL, Tree.cOkL] at h
    rw [Tree.inCL, Tree.denL, Tree.denL, inC_den ρ t h.1, inCL_den ρ ts h.2]
end

/-- C85 with signs: when the grammar reads a text as `t`, C reads it as the same tree, with the signs put before the first
factors, if and only if every operand in that tree binds strongly enough for its place in C and none is missing; and then the
text has the same value in both. -/
theorem same_value_iff (ts : List Tok) (t : Tree) (h : ReadAs ts t) :
    (CReadAs ts t.inC ↔ t.inC.cOk) ∧ (CReadAs ts t.inC → ∀ ρ, t.inC.den ρ = t.den ρ) := by
  have h1 : CReadAs ts t.inC ↔ t.inC.cOk := by
    rw [readAs_toks ts t h, ← inC_toks t]
    exact cReadAs_toks_iff t.inC
  exact ⟨h1, fun hc ρ => inC_den ρ t (h1.mp hc)⟩

/-! ### Operators in the same order -/

/-- How strongly the outermost operator binds in the grammar (16: there is none). -/
def Tree.gtop : Tree → Nat
  | .bin o _ _ => if accessOp o then 16 else lev o
  | _ => 16

theorem gtop_infix (o : String) (l r : Tree) (h : accessOp o = false) : (Tree.bin o l r).gtop = lev o := by
  simp [Tree.gtop, h]

mutual
/-- The trees read from texts whose operators are those of `S`. -/
def Tree.gOk (S : String → Prop) : Tree → Prop
  | .none => True
  | .lit _ => True
  | .id _ => True
  | .group t => t.gOk S
  | .bin o l r =>
    if o = "__getitem__" then (∃ s, l = .id s) ∧ r.gOk S
    else S o ∧ accessOp o = false ∧ l.gOk S ∧ r.gOk S ∧ lev o ≤ l.gtop ∧ lev o < r.gtop
  | .call _ as => as ≠ [] ∧ Tree.gOkL S as
  | _ => False
def Tree.gOkL (S : String → Prop) : List Tree → Prop
  | [] => True
  | t :: ts => t.gOk S ∧ Tree.gOkL S ts
end

theorem gOk_infix (S : String → Prop) (o : String) (l r : Tree) (h : accessOp o = false) :
    (Tree.bin o l r).gOk S ↔ S o ∧ l.gOk S ∧ r.gOk S ∧ lev o ≤ l.gtop ∧ lev o < r.gtop := by
  have hg : o ≠ "__getitem__" := by rintro rfl; simp [accessOp] at h
  rw [Tree.gOk, if_neg hg]
  tauto

def GInv (S : String → Prop) : Job → Res → Prop
  | .expr k ts, .tree t rest => (∀ tk ∈ ts, tk.over S) →
      t.gOk S ∧ min k 15 ≤ t.gtop ∧ stops k rest = true ∧ ∀ tk ∈ rest, tk.over S
  | .more k l ts, .tree t rest => (∀ tk ∈ ts, tk.over S) → l.gOk S → min k 15 ≤ l.gtop →
      (∀ o ts', ts = .op o :: ts' → lev o ≤ l.gtop) →
      t.gOk S ∧ min k 15 ≤ t.gtop ∧ stops k rest = true ∧ ∀ tk ∈ rest, tk.over S
  | .args ts, .trees as rest => (∀ tk ∈ ts, tk.over S) → as ≠ [] ∧ Tree.gOkL S as ∧ ∀ tk ∈ rest, tk.over S
  | .expr _ _, .trees _ _ => False
  | .more _ _ _, .trees _ _ => False
  | .args _, .tree _ _ => False

theorem ginv_prefix {S : String → Prop} {k l ts ts' r} (h : GInv S (.more k l ts') r) (hs : ∀ tk ∈ ts', tk.over S)
    (hl : l.gOk S) (ht : l.gtop = 16) : GInv S (.expr k ts) r := by
  cases r with
  | tree t rest => exact fun _ => h hs hl (by omega) (fun o _ _ => by have := lev_le o; omega)
  | trees => exact h.elim

theorem ginv_false {S : String → Prop} {k ts r} (h : ∀ t rest, r = .trees t rest → False)
    (hs : ¬∀ tk ∈ ts, Tok.over S tk) : GInv S (.expr k ts) r := by
  cases r with
  | tree t rest => exact fun h => absurd h hs
  | trees => exact (h _ _ rfl).elim

theorem reads_more_tree {k l ts r} (h : Reads (.more k l ts) r) : ∀ t rest, r = .trees t rest → False := by
  have := reads_spelt _ _ h
  rintro t rest rfl
  exact this

theorem ginv_reads (S : String → Prop) (hpow : ¬S "__pow__") (j : Job) (r : Res) (h : Reads j r) : GInv S j r := by
  induction h with
  | @lit k x ts r h ih =>
    cases r with
    | trees => exact ih.elim
    | tree => exact fun hs => ginv_prefix ih (fun tk h => hs tk (.tail _ h)) trivial rfl hs
  | @id k x ts r _ h ih =>
    cases r with
    | trees => exact ih.elim
    | tree => exact fun hs => ginv_prefix ih (fun tk h => hs tk (.tail _ h)) trivial rfl hs
  | @none k ts r _ h ih =>
    cases r with
    | trees => exact ih.elim
    | tree => exact fun hs => ginv_prefix ih hs trivial rfl hs
  | @call k s ts as ts' r _ _ ih1 ih2 =>
    cases r with
    | trees => exact ih2.elim
    | tree =>
      intro hs
      obtain ⟨h1, h2, h3⟩ := ih1 (fun tk h => hs tk (.tail _ (.tail _ h)))
      exact ginv_prefix ih2 h3 ⟨h1, h2⟩ rfl hs
  | @group k ts t ts' r _ _ ih1 ih2 =>
    cases r with
    | trees => exact ih2.elim
    | tree =>
      intro hs
      obtain ⟨h1, _, _, h3⟩ := ih1 (fun tk h => hs tk (.tail _ h))
      exact ginv_prefix ih2 (fun tk h => h3 tk (.tail _ h)) (by simpa [Tree.gOk] using h1) rfl hs
  | @bin k l o ts t ts' r h0 hk _ _ ih1 ih2 =>
    cases r with
    | trees => exact ih2.elim
    | tree =>
      intro hs hl hlv hf
      have hSo : S o := hs (.op o) (.head _)
      have ha := access_lev o h0
      have hnp : o ≠ "__pow__" := by rintro rfl; exact hpow hSo
      have h14 := lev_le o
      have hrl : rightLev o = lev o + 1 := by rw [rightLev, if_neg hnp]
      obtain ⟨h1, h2, h3, h4⟩ := ih1 (fun tk h => hs tk (.tail _ h))
      rw [hrl] at h2 h3
      have htop : (Tree.bin o l t).gtop = lev o := gtop_infix o l t ha
      refine ih2 h4 ((gOk_infix S o l t ha).mpr ⟨hSo, hl, h1, hf o ts rfl, by omega⟩) (by omega) ?_
      rintro o' ts'' rfl
      simp only [stops, Bool.or_eq_true, decide_eq_true_eq] at h3
      omega
  | not _ h2 _ _ => exact ginv_false (reads_more_tree h2) (fun h => h .bang (.head _))
  | @index k s ts t ts' r _ _ ih1 ih2 =>
    cases r with
    | trees => exact ih2.elim
    | tree =>
      intro hs
      obtain ⟨h1, _, _, h3⟩ := ih1 (fun tk h => hs tk (.tail _ (.tail _ h)))
      exact ginv_prefix ih2 (fun tk h => h3 tk (.tail _ h)) (by simpa [Tree.gOk] using h1) (by simp [Tree.gtop, accessOp]) hs
  | dot _ h2 _ _ => exact ginv_false (reads_more_tree h2) (fun h => h .dot (.tail _ (.head _)))
  | arrow _ h2 _ _ => exact ginv_false (reads_more_tree h2) (fun h => h .arrow (.tail _ (.head _)))
  | @cond c ts a ts' b ts'' r _ _ h _ _ _ =>
    cases r with
    | trees => exact reads_more_tree h _ _ rfl
    | tree => exact fun hs => (hs .quest (.head _)).elim
  | stop hst => exact fun hs hl hlv _ => ⟨hl, hlv, hst, hs⟩
  | argsLast _ ih =>
    intro hs
    obtain ⟨h1, _, _, h3⟩ := ih hs
    exact ⟨by simp, ⟨h1, trivial⟩, fun tk h => h3 tk (.tail _ h)⟩
  | argsMore _ _ ih1 ih2 =>
    intro hs
    obtain ⟨h1, _, _, h3⟩ := ih1 hs
    obtain ⟨_, h4, h5⟩ := ih2 (fun tk h => h3 tk (.tail _ h))
    exact ⟨by simp, ⟨h1, h4⟩, h5⟩

/-- What is proved by induction about a tree read by the grammar: it is read by C with its signs moved, may be an operand in C
where it is one in the grammar, and a sign may be put before it if it is an operand of products. -/
def FixOk (S : String → Prop) (t : Tree) : Prop :=
  t.inC.cOk ∧ (∀ o, S o → lev o ≤ t.gtop → clev o ≤ t.inC.ctop) ∧ (∀ o, S o → lev o < t.gtop → clev o < t.inC.ctop) ∧
    (13 ≤ t.gtop → ∀ o, (lead o t.inC).cOk ∧ 7 ≤ (lead o t.inC).ctop)

theorem fixOk_tight (S : String → Prop) (t : Tree) (h : t.inC.cOk) (ht : t.inC.ctop = 9)
    (hl : ∀ o, lead o t.inC = signed o t.inC) : FixOk S t :=
  ⟨h, fun o _ _ => by have := clev_le o; omega, fun o _ _ => by have := clev_le o; omega, fun _ o => by
    rw [hl, signed_cOk, signed_ctop]
    exact ⟨⟨h, by omega⟩, by omega⟩⟩

mutual
theorem fix_ok (S : String → Prop) (hpos : ∀ o, S o → 0 < clev o)
    (hS : ∀ o o', S o → S o' → (lev o ≤ lev o' ↔ clev o ≤ clev o')) : ∀ t : Tree, t.gOk S → t.whole = true → FixOk S t
  | .none, _, h => by simp [Tree.whole] at h
  | .lit _, _, _ => fixOk_tight S _ trivial rfl fun _ => rfl
  | .id _, _, _ => fixOk_tight S _ trivial rfl fun _ => rfl
  | .group t, h, hw => by
    rw [Tree.gOk] at h
    exact fixOk_tight S _ (by simpa [Tree.inC, Tree.cOk] using (fix_ok S hpos hS t h hw).1) rfl fun _ => rfl
  | .neg t, h, _ => by simp [Tree.gOk] at h
  | .pos t, h, _ => by simp [Tree.gOk] at h
  | .not t, h, _ => by simp [Tree.gOk] at h
  | .cond .., h, _ => by simp [Tree.gOk] at h
  | .call f as, h, hw => by
    rw [Tree.gOk] at h
    refine fixOk_tight S _ ?_ rfl fun _ => rfl
    rw [Tree.inC, Tree.cOk]
    exact ⟨by cases as <;> simp [Tree.inCL] at h ⊢, fixL_ok S hpos hS as h.2 hw⟩
  | .bin o l r, h, hw => by
    have hr : r.whole = true := by
      simp only [Tree.whole, Bool.and_eq_true] at hw
      exact hw.2
    by_cases hg : o = "__getitem__"
    · subst hg
      rw [Tree.gOk, if_pos rfl] at h
      obtain ⟨⟨s, rfl⟩, h⟩ := h
      have e : (Tree.bin "__getitem__" (.id s) r).inC = .bin "__getitem__" (.id s) r.inC :=
        inC_bin _ _ _ (.inl rfl)
      refine fixOk_tight S _ ?_ ?_ fun o => ?_
      · rw [e, Tree.cOk, if_pos rfl]
        exact ⟨⟨s, rfl⟩, (fix_ok S hpos hS r h hr).1⟩
      · rw [e]; rfl
      · rw [e, lead, if_neg (by decide)]
    · rw [Tree.gOk, if_neg hg] at h
      obtain ⟨hSo, ha, hl, hr', h1, h2⟩ := h
      have ir := fix_ok S hpos hS r hr' hr
      have hc := hpos o hSo
      have h7 := clev_le o
      have gt := gtop_infix o l r ha
      rcases bin_cases o l with ⟨rfl, ho⟩ | hb
      · have e := inC_sign o r ho
        have hl12 : lev o = 12 := by rcases ho with rfl | rfl <;> rfl
        have hc6 : clev o = 6 := by rcases ho with rfl | rfl <;> rfl
        obtain ⟨i1, i2⟩ := ir.2.2.2 (by omega) o
        refine ⟨by rw [e]; exact i1, fun o' ho' hle => ?_, fun o' ho' hlt => ?_, fun h => by omega⟩
        · rw [e]; rw [gt] at hle
          have := (hS o' o ho' hSo).mp hle
          omega
        · rw [e]; rw [gt] at hlt
          have := (hS o' o ho' hSo).mp (by omega)
          omega
      · have hn : l.isNone = false := by
          rcases hb with h | h
          · exact h
          · cases hln : l.isNone with
            | false => rfl
            | true => simp [Tree.whole, hln, h] at hw
        have hlw : l.whole = true := by
          simp only [Tree.whole, hn, Bool.false_eq_true, if_false, Bool.and_eq_true] at hw
          exact hw.1
        have il := fix_ok S hpos hS l hl hlw
        have e := inC_bin o l r hb
        have ct : (Tree.bin o l r).inC.ctop = clev o := by rw [e, ctop_infix _ _ _ ha]
        refine ⟨?_, fun o' ho' hle => ?_, fun o' ho' hlt => ?_, fun h13 s => ?_⟩
        · rw [e, cOk_infix _ _ _ ha]
          exact ⟨hc, il.1, ir.1, il.2.1 o hSo h1, ir.2.2.1 o hSo h2⟩
        · rw [ct]; rw [gt] at hle
          exact (hS o' o ho' hSo).mp hle
        · rw [ct]; rw [gt] at hlt
          by_contra hn
          have := (hS o o' hSo ho').mpr (by omega)
          omega
        · rw [gt] at h13
          have ho : o = "*" ∨ o = "/" := by
            have h14 := lev_le o
            rcases Nat.lt_or_ge (lev o) 14 with h | h
            · exact lev_mul o (by omega)
            · have := lev_pow o (by omega)
              subst this
              simp [clev] at hc
          obtain ⟨j1, j2⟩ := il.2.2.2 (by omega) s
          have hc7 : clev o = 7 := by rcases ho with rfl | rfl <;> rfl
          rw [e, lead, if_pos ho, cOk_infix _ _ _ ha, ctop_infix _ _ _ ha]
          exact ⟨⟨hc, j1, ir.1, by omega, ir.2.2.1 o hSo h2⟩, by omega⟩
theorem fixL_ok (S : String → Prop) (hpos : ∀ o, S o → 0 < clev o)
    (hS : ∀ o o', S o → S o' → (lev o ≤ lev o' ↔ clev o ≤ clev o')) : ∀ ts : List Tree, Tree.gOkL S ts →
    Tree.wholeL ts = true → Tree.cOkL (Tree.inCL ts)
  | [], _, _ => trivial
  | t :: ts, h, hw => by
    rw [Tree.gOkL] at h
    simp only [Tree.wholeL, Bool.and_eq_true] at hw
    exact ⟨(fix_ok S hpos hS t h.1 hw.1).1, fixL_ok S hpos hS ts h.2 hw.2⟩
end

/-- C85 for texts (of any length) whose operators the grammar and C put in the same order, and in which the grammar misses no
operand other than before a sign: C reads them as the grammar does, with the signs put before the first factors, and with the
same value. `S` are operators of C (so not `^`); the text has no `!`, no conditional and no members of structures. -/
theorem same_order_same_reading_partial (S : String → Prop) (hpos : ∀ o, S o → 0 < clev o)
    (hS : ∀ o o', S o → S o' → (lev o ≤ lev o' ↔ clev o ≤ clev o'))
    (ts : List Tok) (hts : ∀ tk ∈ ts, tk.over S) (t : Tree) (h : ReadAs ts t) (hw : t.whole = true) :
    CReadAs ts t.inC ∧ ∀ ρ, t.inC.den ρ = t.den ρ := by
  have hg := ((ginv_reads S (fun hp => by simpa [clev] using hpos _ hp) _ _ h) hts).1
  have := (same_value_iff ts t h).1.mpr (fix_ok S hpos hS t hg hw).1
  exact ⟨this, (same_value_iff ts t h).2 this⟩

/-- The arithmetic operators. -/
def Arithmetic (o : String) : Prop := o = "+" ∨ o = "-" ∨ o = "*" ∨ o = "/"

/-- In particular arithmetic, with signs, parentheses, calls and array elements, is read with the value it has in C. -/
theorem arithmetic_read_as_in_c (ts : List Tok) (hts : ∀ tk ∈ ts, tk.over Arithmetic) (t : Tree) (h : ReadAs ts t)
    (hw : t.whole = true) : CReadAs ts t.inC ∧ ∀ ρ, t.inC.den ρ = t.den ρ := by
  refine same_order_same_reading_partial Arithmetic ?_ ?_ ts hts t h hw
  · rintro o (rfl | rfl | rfl | rfl) <;> decide
  · rintro o o' (rfl | rfl | rfl | rfl) (rfl | rfl | rfl | rfl) <;> decide

/-- `-a * f(-b - 2, v[i]) / c` is read as the opposite of a quotient, in C as a quotient of the opposite of `a`. -/
example : ∃ t, ReadAs [.op "-", .id "a", .op "*", .id "f", .lpar, .op "-", .id "b", .op "-", .lit (.int 2), .comma, .id "v",
    .lbr, .id "i", .rbr, .rpar, .op "/", .id "c"] t ∧ t.whole = true ∧
    t.inC = .bin "/" (.bin "*" (.neg (.id "a")) (.call "f" [.bin "-" (.neg (.id "b")) (.lit (.int 2)),
      .bin "__getitem__" (.id "v") (.id "i")])) (.id "c") := by
  refine ⟨.bin "-" .none (.bin "/" (.bin "*" (.id "a") (.call "f" [.bin "-" (.bin "-" .none (.id "b")) (.lit (.int 2)),
    .bin "__getitem__" (.id "v") (.id "i")])) (.id "c")), ?_, rfl, by simp [Tree.inC, Tree.isNone, lead, signed, Tree.inCL]⟩
  exact .none rfl (.bin (by decide) (by decide) (.id rfl (.bin (by decide) (by decide) (.call
    (.argsMore (.none rfl (.bin (by decide) (by decide) (.id rfl (.stop (by decide)))
        (.bin (by decide) (by decide) (.lit (.stop rfl)) (.stop rfl))))
      (.argsLast (.index (.id rfl (.stop rfl)) (.stop rfl)))) (.stop rfl))
    (.bin (by decide) (by decide) (.id rfl (.stop rfl)) (.stop rfl)))) (.stop rfl))

/-- Comparisons of sums joined by `&&` are read as in C, too. -/
example (ts : List Tok) (hts : ∀ tk ∈ ts, tk.over fun o => o = "__and__" ∨ o = "__lt__" ∨ o = "+") (t : Tree)
    (h : ReadAs ts t) (hw : t.whole = true) : CReadAs ts t.inC := by
  refine (same_order_same_reading_partial _ ?_ ?_ ts hts t h hw).1
  · rintro o (rfl | rfl | rfl) <;> decide
  · rintro o o' (rfl | rfl | rfl) (rfl | rfl | rfl) <;> decide

/-- The condition on the order cannot be dropped: two operators `o` and `o'` of C in a row are read in the same way by both if
and only if the grammar and C agree on which of them binds more strongly (or as strongly). -/
theorem two_operators_iff (o o' a b c : String) (h : 0 < clev o) (h' : 0 < clev o') :
    (∃ t, ReadAs [.id a, .op o, .id b, .op o', .id c] t ∧ CReadAs [.id a, .op o, .id b, .op o', .id c] t) ↔
      (lev o' ≤ lev o ↔ clev o' ≤ clev o) := by
  have key : ∀ o, 0 < clev o → 0 < lev o ∧ o ≠ "__pow__" := by
    intro o h
    refine ⟨?_, by rintro rfl; simp [clev] at h⟩
    by_contra hn
    unfold clev at h
    have h0 : lev o = 0 := by omega
    split_ifs at h with h1 h2 h3 h4 h5 h6 h7
    · subst h1; simp [lev] at h0
    · subst h2; simp [lev] at h0
    · rcases h3 with rfl | rfl <;> simp [lev] at h0
    · rcases h4 with rfl | rfl | rfl | rfl <;> simp [lev] at h0
    · rcases h5 with rfl | rfl <;> simp [lev] at h0
    · rcases h6 with rfl | rfl <;> simp [lev] at h0
    · rcases h7 with rfl | rfl | rfl <;> simp [lev] at h0
    · omega
  obtain ⟨hl, hp⟩ := key o h
  obtain ⟨hl', hp'⟩ := key o' h'
  have ha := access_clev o h
  have ha' := access_clev o' h'
  have h7 := clev_le o
  have h7' := clev_le o'
  have hr : rightLev o = lev o + 1 := by rw [rightLev, if_neg hp]
  by_cases hle : lev o' ≤ lev o
  · have hread : ReadAs [.id a, .op o, .id b, .op o', .id c] (.bin o' (.bin o (.id a) (.id b)) (.id c)) := by
      refine .id rfl (.bin hl (Nat.zero_le _) (.id rfl (.stop ?_)) (.bin hl' (Nat.zero_le _) (.id rfl (.stop rfl)) (.stop rfl)))
      rw [hr]
      simp only [stops, Bool.or_eq_true, decide_eq_true_eq]
      omega
    constructor
    · rintro ⟨t, h1, h2⟩
      have := (same_reading_iff _ t h1).mp h2
      rw [readAs_unique _ _ _ h1 hread, cOk_infix _ _ _ ha'] at this
      have h3 := this.2.2.2.1
      rw [ctop_infix _ _ _ ha] at h3
      exact iff_of_true hle h3
    · intro hi
      refine ⟨_, hread, (same_reading_iff _ _ hread).mpr ?_⟩
      rw [cOk_infix _ _ _ ha', cOk_infix _ _ _ ha, ctop_infix _ _ _ ha]
      have := hi.mp hle
      simp only [Tree.cOk, Tree.ctop, true_and]
      omega
  · have hread : ReadAs [.id a, .op o, .id b, .op o', .id c] (.bin o (.id a) (.bin o' (.id b) (.id c))) := by
      refine .id rfl (.bin hl (Nat.zero_le _) (.id rfl (.bin hl' ?_ (.id rfl (.stop rfl)) (.stop rfl))) (.stop rfl))
      rw [hr]; omega
    constructor
    · rintro ⟨t, h1, h2⟩
      have := (same_reading_iff _ t h1).mp h2
      rw [readAs_unique _ _ _ h1 hread, cOk_infix _ _ _ ha] at this
      have h3 := this.2.2.2.2
      rw [ctop_infix _ _ _ ha'] at h3
      exact iff_of_false hle (by omega)
    · intro hi
      refine ⟨_, hread, (same_reading_iff _ _ hread).mpr ?_⟩
      rw [cOk_infix _ _ _ ha, cOk_infix _ _ _ ha', ctop_infix _ _ _ ha']
      have : ¬clev o' ≤ clev o := fun hc => hle (hi.mpr hc)
      simp only [Tree.cOk, Tree.ctop, true_and]
      omega

/-- The binary operators of C in the grammar. -/
def binaryOperators : List String :=
  ["__or__", "__and__", "__gt__", "__lt__", "__ge__", "__le__", "__eq__", "__neq__", "<<", ">>", "%", "+", "-", "*", "/"]

/-- The pairs of operators of which the grammar reads `a o b o' c` in another way than C. -/
def readOtherwise : List (String × String) :=
  [("__or__", "__and__"), ("__gt__", "__lt__"), ("__gt__", "__ge__"), ("__gt__", "__le__"), ("__gt__", "__eq__"),
    ("__gt__", "__neq__"), ("__lt__", "__ge__"), ("__lt__", "__le__"), ("__lt__", "__eq__"), ("__lt__", "__neq__"),
    ("__ge__", "__le__"), ("__ge__", "__eq__"), ("__ge__", "__neq__"), ("__le__", "__eq__"), ("__le__", "__neq__"),
    ("__eq__", "__gt__"), ("__eq__", "__lt__"), ("__eq__", "__ge__"), ("__eq__", "__le__"), ("__eq__", "__neq__"),
    ("__neq__", "__gt__"), ("__neq__", "__lt__"), ("__neq__", "__ge__"), ("__neq__", "__le__"), ("<<", ">>"), ("%", "+"),
    ("%", "-"), ("%", "*"), ("%", "/"), ("+", "%"), ("-", "%")]

/-- Of the 225 pairs of operators, exactly these 31 are read in another way. -/
theorem two_operators_listed (o o' a b c : String) (h : o ∈ binaryOperators) (h' : o' ∈ binaryOperators) :
    (∃ t, ReadAs [.id a, .op o, .id b, .op o', .id c] t ∧ CReadAs [.id a, .op o, .id b, .op o', .id c] t) ↔
      (o, o') ∉ readOtherwise := by
  have hp : ∀ o ∈ binaryOperators, 0 < clev o := by decide
  have ht : ∀ o ∈ binaryOperators, ∀ o' ∈ binaryOperators,
      ((lev o' ≤ lev o ↔ clev o' ≤ clev o) ↔ (o, o') ∉ readOtherwise) := by decide +kernel
  rw [two_operators_iff o o' a b c (hp o h) (hp o' h'), ht o h o' h']

example : ("%", "-") ∈ readOtherwise ∧ ("*", "-") ∉ readOtherwise ∧ ("__lt__", "__and__") ∉ readOtherwise := by decide

/-- For example `a - b % c` and `a || b && c` are read differently, `a - b * c` and `a < b && c` in the same way. -/
example : ¬(lev "%" ≤ lev "-" ↔ clev "%" ≤ clev "-") ∧ ¬(lev "__and__" ≤ lev "__or__" ↔ clev "__and__" ≤ clev "__or__") ∧
    (lev "*" ≤ lev "-" ↔ clev "*" ≤ clev "-") ∧ (lev "__and__" ≤ lev "__lt__" ↔ clev "__and__" ≤ clev "__lt__") := by
  decide

end Verif.Ex
