import Verif.Expr.Print

/-!
Property C85: an expression written in an instrument has the meaning it has in C.

The grammar of expressions (src/grammar/McCommon.g4, rule `expr`, 37-67) orders the operators by itself; here a second reader,
`CReads`, orders them as C does (C99, 6.5.2-6.5.15), and the two are compared on every text.

Simplifications: `^` is a power in the grammar and "exclusive or" in C, so a text with it has no reading in C here; C allows
chains of calls, brackets and members (`a.b[i]`), here they have no reading in C beyond `f(..)`, `a[..]`, `a.b`, `a->b`; casts,
`sizeof`, `++`, `--`, `&`, `|`, `~`, unary `*` and assignments are not expressions of the grammar.
-/

namespace Verif.Ex
open Verif.DT

/-- Binding strength of a binary operator in C (C99, 6.5.5-6.5.14); 0: not an operator. -/
def clev (o : String) : Nat :=
  if o = "__or__" then 1
  else if o = "__and__" then 2
  else if o = "__eq__" ∨ o = "__neq__" then 3
  else if o = "__lt__" ∨ o = "__gt__" ∨ o = "__le__" ∨ o = "__ge__" then 4
  else if o = "<<" ∨ o = ">>" then 5
  else if o = "+" ∨ o = "-" then 6
  else if o = "*" ∨ o = "/" ∨ o = "%" then 7
  else 0

/-- A list of tokens does not begin with an operator of C binding at least as strongly as `k`. -/
def cstops (k : Nat) : List Tok → Bool
  | .op o :: _ => clev o = 0 || clev o < k
  | .quest :: _ => 0 < k
  | _ => true

/-- A signed operand. -/
def signed (o : String) (t : Tree) : Tree := if o = "-" then .neg t else .pos t

/-- The reader of C: all binary operators are left associative, the signs and `!` bind more strongly than all of them, and
the conditional is right associative. -/
inductive CReads : Job → Res → Prop
  | lit {k x ts r} : CReads (.more k (.lit x) ts) r → CReads (.expr k (.lit x :: ts)) r
  | id {k s ts r} : noParen ts = true → CReads (.more k (.id s) ts) r → CReads (.expr k (.id s :: ts)) r
  | call {k s ts as ts' r} : CReads (.args ts) (.trees as ts') → CReads (.more k (.call s as) ts') r →
      CReads (.expr k (.id s :: .lpar :: ts)) r
  | group {k ts t ts' r} : CReads (.expr 0 ts) (.tree t (.rpar :: ts')) → CReads (.more k (.group t) ts') r →
      CReads (.expr k (.lpar :: ts)) r
  | index {k s ts t ts' r} : CReads (.expr 0 ts) (.tree t (.rbr :: ts')) →
      CReads (.more k (.bin "__getitem__" (.id s) t) ts') r → CReads (.expr k (.id s :: .lbr :: ts)) r
  | dot {k s m ts r} : CReads (.more k (.bin "__struct_access__" (.id s) (.id m)) ts) r →
      CReads (.expr k (.id s :: .dot :: .id m :: ts)) r
  | arrow {k s m ts r} : CReads (.more k (.bin "__pointer_access__" (.id s) (.id m)) ts) r →
      CReads (.expr k (.id s :: .arrow :: .id m :: ts)) r
  | sign {k o ts t ts' r} : o = "-" ∨ o = "+" → CReads (.expr 8 ts) (.tree t ts') →
      CReads (.more k (signed o t) ts') r → CReads (.expr k (.op o :: ts)) r
  | not {k ts t ts' r} : CReads (.expr 8 ts) (.tree t ts') → CReads (.more k (.not t) ts') r →
      CReads (.expr k (.bang :: ts)) r
  | bin {k l o ts t ts' r} : 0 < clev o → k ≤ clev o → CReads (.expr (clev o + 1) ts) (.tree t ts') →
      CReads (.more k (.bin o l t) ts') r → CReads (.more k l (.op o :: ts)) r
  | cond {c ts a ts' b ts'' r} : CReads (.expr 0 ts) (.tree a (.colon :: ts')) → CReads (.expr 0 ts') (.tree b ts'') →
      CReads (.more 0 (.cond c a b) ts'') r → CReads (.more 0 c (.quest :: ts)) r
  | stop {k l ts} : cstops k ts = true → CReads (.more k l ts) (.tree l ts)
  | argsLast {ts t ts'} : CReads (.expr 0 ts) (.tree t (.rpar :: ts')) → CReads (.args ts) (.trees [t] ts')
  | argsMore {ts t ts' as ts''} : CReads (.expr 0 ts) (.tree t (.comma :: ts')) → CReads (.args ts') (.trees as ts'') →
      CReads (.args ts) (.trees (t :: as) ts'')

/-- In C the text `ts`, all of it, is read as `t`. -/
def CReadAs (ts : List Tok) (t : Tree) : Prop := CReads (.expr 0 ts) (.tree t [])

/-! ### The text of what is read -/

mutual
/-- The tokens a tree was read from. -/
def Tree.toks : Tree → List Tok
  | .none => []
  | .lit x => [.lit x]
  | .id s => [.id s]
  | .group t => .lpar :: t.toks ++ [.rpar]
  | .neg t => .op "-" :: t.toks
  | .pos t => .op "+" :: t.toks
  | .bin o l r =>
    if o = "__getitem__" then l.toks ++ .lbr :: r.toks ++ [.rbr]
    else if o = "__struct_access__" then l.toks ++ .dot :: r.toks
    else if o = "__pointer_access__" then l.toks ++ .arrow :: r.toks
    else l.toks ++ .op o :: r.toks
  | .call f as => .id f :: .lpar :: Tree.toksL as ++ [.rpar]
  | .not t => .bang :: t.toks
  | .cond c a b => c.toks ++ .quest :: a.toks ++ .colon :: b.toks
/-- The arguments, separated by commas. -/
def Tree.toksL : List Tree → List Tok
  | [] => []
  | t :: ts => match ts with
    | [] => t.toks
    | _ :: _ => t.toks ++ .comma :: Tree.toksL ts
end

theorem toksL_cons (t : Tree) (ts : List Tree) (h : ts ≠ []) :
    Tree.toksL (t :: ts) = t.toks ++ .comma :: Tree.toksL ts := by
  cases ts with
  | nil => exact absurd rfl h
  | cons => rfl

theorem toks_infix (o : String) (l r : Tree) (h : accessOp o = false) :
    (Tree.bin o l r).toks = l.toks ++ .op o :: r.toks := by
  simp only [accessOp, Bool.or_eq_false_iff, decide_eq_false_iff_not] at h
  rw [Tree.toks, if_neg h.2, if_neg h.1.1, if_neg h.1.2]

theorem toks_signed (o : String) (t : Tree) (h : o = "-" ∨ o = "+") : (signed o t).toks = .op o :: t.toks := by
  rcases h with rfl | rfl <;> simp [signed, Tree.toks]

theorem access_lev (o : String) (h : 0 < lev o) : accessOp o = false := by
  cases ha : accessOp o with
  | false => rfl
  | true => have := (lev_access o ha).1; omega

theorem access_clev (o : String) (h : 0 < clev o) : accessOp o = false := by
  cases ha : accessOp o with
  | false => rfl
  | true =>
    simp only [accessOp, Bool.or_eq_true, decide_eq_true_eq] at ha
    rcases ha with (rfl | rfl) | rfl <;> simp [clev] at h

/-- What a job and its result say about the text. -/
def Spelt : Job → Res → Prop
  | .expr _ ts, .tree t rest => ts = t.toks ++ rest
  | .more _ l ts, .tree t rest => l.toks ++ ts = t.toks ++ rest
  | .args ts, .trees as rest => as ≠ [] ∧ ts = Tree.toksL as ++ .rpar :: rest
  | .expr _ _, .trees _ _ => False
  | .more _ _ _, .trees _ _ => False
  | .args _, .tree _ _ => False

theorem spelt_expr {k l k' ts ts' r} (h : Spelt (.more k l ts') r) (e : ts = Tree.toks l ++ ts') :
    Spelt (.expr k' ts) r := by
  cases r with
  | tree t rest => exact e.trans h
  | trees => exact h.elim

theorem spelt_more {k k' l l' ts ts' r} (h : Spelt (.more k l ts') r) (e : Tree.toks l' ++ ts = Tree.toks l ++ ts') :
    Spelt (.more k' l' ts) r := by
  cases r with
  | tree t rest => exact e.trans h
  | trees => exact h.elim

/-- Nothing is lost or added: the tree has the tokens of the text. -/
theorem reads_spelt (j : Job) (r : Res) (h : Reads j r) : Spelt j r := by
  induction h with
  | lit _ ih => exact spelt_expr ih rfl
  | id _ _ ih => exact spelt_expr ih rfl
  | call _ _ ih1 ih2 => exact spelt_expr ih2 (by rw [ih1.2]; simp [Tree.toks])
  | group _ _ ih1 ih2 => exact spelt_expr ih2 (by rw [Spelt] at ih1; rw [ih1]; simp [Tree.toks])
  | none _ _ ih => exact spelt_expr ih rfl
  | bin h0 _ _ _ ih1 ih2 =>
    exact spelt_more ih2 (by rw [Spelt] at ih1; rw [ih1, toks_infix _ _ _ (access_lev _ h0)]; simp)
  | not _ _ ih1 ih2 => exact spelt_expr ih2 (by rw [Spelt] at ih1; rw [ih1]; simp [Tree.toks])
  | index _ _ ih1 ih2 => exact spelt_expr ih2 (by rw [Spelt] at ih1; rw [ih1]; simp [Tree.toks])
  | dot _ _ ih1 ih2 => exact spelt_expr ih2 (by rw [Spelt] at ih1; rw [ih1]; simp [Tree.toks])
  | arrow _ _ ih1 ih2 => exact spelt_expr ih2 (by rw [Spelt] at ih1; rw [ih1]; simp [Tree.toks])
  | cond _ _ _ ih1 ih2 ih3 =>
    exact spelt_more ih3 (by rw [Spelt] at ih1 ih2; rw [ih1, ih2]; simp [Tree.toks])
  | stop => rfl
  | argsLast _ ih => rw [Spelt] at ih; exact ⟨by simp, by rw [ih]; simp [Tree.toksL]⟩
  | argsMore _ _ ih1 ih2 =>
    rw [Spelt] at ih1
    exact ⟨by simp, by rw [ih1, ih2.2, toksL_cons _ _ ih2.1]; simp⟩

theorem readAs_toks (ts : List Tok) (t : Tree) (h : ReadAs ts t) : ts = t.toks := by
  have := reads_spelt _ _ h
  rw [Spelt] at this
  simpa using this

/-! ### Which trees the reader of C yields -/

/-- How strongly the outermost operator of a tree binds in C (8: a sign or `!`; 9: there is none). -/
def Tree.ctop : Tree → Nat
  | .bin o _ _ => if accessOp o then 9 else clev o
  | .neg _ => 8
  | .pos _ => 8
  | .not _ => 8
  | .cond .. => 0
  | _ => 9

mutual
/-- Every operand binds, in C, strongly enough for its place without parentheses: the left operand of a binary operator at
least as strongly as the operator, the right one more strongly, the operand of a sign or `!` more strongly than any binary
operator, the condition of a conditional is not itself a conditional, and no operand is missing. -/
def Tree.cOk : Tree → Prop
  | .none => False
  | .lit _ => True
  | .id _ => True
  | .group t => t.cOk
  | .neg t => t.cOk ∧ 8 ≤ t.ctop
  | .pos t => t.cOk ∧ 8 ≤ t.ctop
  | .not t => t.cOk ∧ 8 ≤ t.ctop
  | .bin o l r =>
    if o = "__getitem__" then (∃ s, l = .id s) ∧ r.cOk
    else if accessOp o then (∃ s, l = .id s) ∧ ∃ m, r = .id m
    else 0 < clev o ∧ l.cOk ∧ r.cOk ∧ clev o ≤ l.ctop ∧ clev o < r.ctop
  | .call _ as => as ≠ [] ∧ Tree.cOkL as
  | .cond c a b => c.cOk ∧ a.cOk ∧ b.cOk ∧ 1 ≤ c.ctop
def Tree.cOkL : List Tree → Prop
  | [] => True
  | t :: ts => t.cOk ∧ Tree.cOkL ts
end

theorem cOk_infix (o : String) (l r : Tree) (h : accessOp o = false) :
    (Tree.bin o l r).cOk ↔ 0 < clev o ∧ l.cOk ∧ r.cOk ∧ clev o ≤ l.ctop ∧ clev o < r.ctop := by
  have hg : o ≠ "__getitem__" := by rintro rfl; simp [accessOp] at h
  rw [Tree.cOk, if_neg hg, if_neg (by simp [h])]

theorem ctop_infix (o : String) (l r : Tree) (h : accessOp o = false) : (Tree.bin o l r).ctop = clev o := by
  simp [Tree.ctop, h]

theorem clev_le (o : String) : clev o ≤ 7 := by
  unfold clev
  repeat' apply ite_le_nat
  all_goals omega

/-- After the tree `l` the text may go on with `ts`: an operator there does not bind more strongly than that of `l`. -/
def Follows (l : Tree) (ts : List Tok) : Prop :=
  (∀ o ts', ts = .op o :: ts' → clev o ≤ l.ctop) ∧ ∀ ts', ts = .quest :: ts' → 1 ≤ l.ctop

theorem follows_tight (l : Tree) (ts : List Tok) (h : 8 ≤ l.ctop) : Follows l ts :=
  ⟨fun o _ _ => by have := clev_le o; omega, fun _ _ => by omega⟩

theorem cstops_op (k : Nat) (o : String) (ts : List Tok) (h : cstops k (.op o :: ts) = true) : clev o = 0 ∨ clev o < k := by
  simpa [cstops] using h

/-- What a job and its result say about the tree. -/
def CInv : Job → Res → Prop
  | .expr k ts, .tree t rest => ts = t.toks ++ rest ∧ t.cOk ∧ min k 8 ≤ t.ctop ∧ cstops k rest = true
  | .more k l ts, .tree t rest => l.cOk → min k 8 ≤ l.ctop → Follows l ts →
      l.toks ++ ts = t.toks ++ rest ∧ t.cOk ∧ min k 8 ≤ t.ctop ∧ cstops k rest = true
  | .args ts, .trees as rest => as ≠ [] ∧ Tree.cOkL as ∧ ts = Tree.toksL as ++ .rpar :: rest
  | .expr _ _, .trees _ _ => False
  | .more _ _ _, .trees _ _ => False
  | .args _, .tree _ _ => False

theorem cinv_prefix {k l ts ts' r} (h : CInv (.more k l ts') r) (e : ts = Tree.toks l ++ ts') (hl : l.cOk)
    (ht : 8 ≤ l.ctop) : CInv (.expr k ts) r := by
  cases r with
  | tree t rest =>
    obtain ⟨h1, h2⟩ := h hl (by omega) (follows_tight l ts' ht)
    exact ⟨by rw [e, h1], h2⟩
  | trees => exact h.elim

theorem creads_inv (j : Job) (r : Res) (h : CReads j r) : CInv j r := by
  induction h with
  | lit _ ih => exact cinv_prefix ih rfl trivial (by simp [Tree.ctop])
  | id _ _ ih => exact cinv_prefix ih rfl trivial (by simp [Tree.ctop])
  | call _ _ ih1 ih2 =>
    exact cinv_prefix ih2 (by rw [ih1.2.2]; simp [Tree.toks]) ⟨ih1.1, ih1.2.1⟩ (by simp [Tree.ctop])
  | group _ _ ih1 ih2 => exact cinv_prefix ih2 (by rw [ih1.1]; simp [Tree.toks]) ih1.2.1 (by simp [Tree.ctop])
  | index _ _ ih1 ih2 =>
    exact cinv_prefix ih2 (by rw [ih1.1]; simp [Tree.toks]) (by simpa [Tree.cOk] using ih1.2.1)
      (by simp [Tree.ctop, accessOp])
  | dot _ ih => exact cinv_prefix ih (by simp [Tree.toks]) (by simp [Tree.cOk, accessOp]) (by simp [Tree.ctop, accessOp])
  | arrow _ ih => exact cinv_prefix ih (by simp [Tree.toks]) (by simp [Tree.cOk, accessOp]) (by simp [Tree.ctop, accessOp])
  | sign ho _ _ ih1 ih2 =>
    refine cinv_prefix ih2 (by rw [ih1.1, toks_signed _ _ ho]; simp) ?_ ?_
    · rcases ho with rfl | rfl <;> exact ⟨ih1.2.1, ih1.2.2.1⟩
    · rcases ho with rfl | rfl <;> simp [signed, Tree.ctop]
  | not _ _ ih1 ih2 =>
    exact cinv_prefix ih2 (by rw [ih1.1]; simp [Tree.toks]) ⟨ih1.2.1, ih1.2.2.1⟩ (by simp [Tree.ctop])
  | @bin k l o ts t ts' r h0 hk _ _ ih1 ih2 =>
    have ha := access_clev o h0
    have h7 := clev_le o
    obtain ⟨e1, ok1, top1, st1⟩ := ih1
    cases r with
    | trees => exact ih2.elim
    | tree t' rest =>
      intro hl hkl hf
      have htop : (Tree.bin o l t).ctop = clev o := ctop_infix o l t ha
      obtain ⟨e2, h2⟩ := ih2 ((cOk_infix o l t ha).mpr ⟨h0, hl, ok1, hf.1 o ts rfl, by omega⟩) (by omega)
        ⟨fun o' ts'' e => by
          rw [htop]; subst e
          rcases cstops_op _ _ _ st1 with h | h <;> omega, fun _ _ => by omega⟩
      exact ⟨by rw [← e2, e1, toks_infix o l t ha]; simp, h2⟩
  | @cond c ts a ts' b ts'' r _ _ _ ih1 ih2 ih3 =>
    obtain ⟨e1, ok1, _, _⟩ := ih1
    obtain ⟨e2, ok2, _, st2⟩ := ih2
    cases r with
    | trees => exact ih3.elim
    | tree t' rest =>
      intro hl hkl hf
      obtain ⟨e3, h3⟩ := ih3 ⟨hl, ok1, ok2, hf.2 ts rfl⟩ (by omega)
        ⟨fun o' _ e => by
          subst e
          rcases cstops_op _ _ _ st2 with h | h <;> omega, fun _ e => by subst e; simp [cstops] at st2⟩
      exact ⟨by rw [← e3, e1, e2]; simp [Tree.toks], h3⟩
  | stop hs => exact fun hl hk _ => ⟨rfl, hl, hk, hs⟩
  | argsLast _ ih => exact ⟨by simp, ⟨ih.2.1, trivial⟩, by rw [ih.1]; simp [Tree.toksL]⟩
  | argsMore _ _ ih1 ih2 =>
    exact ⟨by simp, ⟨ih1.2.1, ih2.2.1⟩, by rw [ih1.1, ih2.2.2, toksL_cons _ _ ih2.1]; simp⟩

/-- The text after an operand read at C level `m` does not continue it. -/
def CEnds (m : Nat) (rest : List Tok) : Prop :=
  noParen rest = true ∧ (∀ o ts, rest = .op o :: ts → clev o ≤ m) ∧ ∀ ts, rest = .quest :: ts → 1 ≤ m

theorem cstops_8 (rest : List Tok) : cstops 8 rest = true := by
  unfold cstops
  split
  · rename_i o _
    have := clev_le o
    simp only [Bool.or_eq_true, decide_eq_true_eq]; omega
  · rfl
  · rfl

theorem CEnds.tight {m m' : Nat} {rest : List Tok} (h : CEnds m rest) (hm : 8 ≤ m') : CEnds m' rest :=
  ⟨h.1, fun o _ _ => by have := clev_le o; omega, fun _ _ => by omega⟩

theorem CEnds.mono {m m' : Nat} {rest : List Tok} (h : CEnds m rest) (hm : m ≤ m') : CEnds m' rest :=
  ⟨h.1, fun o ts e => (h.2.1 o ts e).trans hm, fun ts e => (h.2.2 ts e).trans hm⟩

theorem CEnds.stops {m k : Nat} {rest : List Tok} (h : CEnds m rest) (hk : m < k) : cstops k rest = true := by
  unfold cstops
  split
  · rename_i o ts
    have := h.2.1 o ts rfl
    simp only [Bool.or_eq_true, decide_eq_true_eq]; omega
  · rename_i ts
    have := h.2.2 ts rfl
    simp only [decide_eq_true_eq]; omega
  · rfl

theorem CEnds.stops_zero {rest : List Tok} (h : CEnds 0 rest) : cstops 0 rest = true := by
  unfold cstops
  split
  · rename_i o ts
    have := h.2.1 o ts rfl
    simp only [Bool.or_eq_true, decide_eq_true_eq]; omega
  · rename_i ts
    have := h.2.2 ts rfl
    omega
  · rfl

theorem cends_close (m : Nat) (tk : Tok) (rest : List Tok)
    (h : tk = .rpar ∨ tk = .comma ∨ tk = .rbr ∨ tk = .colon) : CEnds m (tk :: rest) ∧ cstops 0 (tk :: rest) = true := by
  rcases h with rfl | rfl | rfl | rfl <;> exact ⟨⟨rfl, by simp, by simp⟩, rfl⟩

mutual
theorem creads_of_cOk : ∀ (t : Tree), t.cOk → ∀ k rest res, k ≤ t.ctop → CEnds t.ctop rest →
    CReads (.more k t rest) res → CReads (.expr k (t.toks ++ rest)) res
  | .none, h, _, _, _, _, _, _ => by simp [Tree.cOk] at h
  | .lit x, _, k, rest, res, _, _, hm => .lit hm
  | .id s, _, k, rest, res, _, he, hm => .id he.1 hm
  | .group t, h, k, rest, res, _, he, hm => by
    rw [Tree.cOk] at h
    have hc := cends_close t.ctop .rpar rest (by simp)
    have := creads_of_cOk t h 0 (.rpar :: rest) (.tree t (.rpar :: rest)) (Nat.zero_le _) hc.1 (.stop hc.2)
    have e : (Tree.group t).toks ++ rest = .lpar :: (t.toks ++ .rpar :: rest) := by simp [Tree.toks]
    rw [e]
    exact .group this hm
  | .neg t, h, k, rest, res, _, he, hm => by
    rw [Tree.cOk] at h
    have := creads_of_cOk t h.1 8 rest (.tree t rest) h.2 (he.tight h.2) (.stop (cstops_8 rest))
    exact .sign (.inl rfl) this (by simpa [signed] using hm)
  | .pos t, h, k, rest, res, _, he, hm => by
    rw [Tree.cOk] at h
    have := creads_of_cOk t h.1 8 rest (.tree t rest) h.2 (he.tight h.2) (.stop (cstops_8 rest))
    exact .sign (.inr rfl) this (by simpa [signed] using hm)
  | .not t, h, k, rest, res, _, he, hm => by
    rw [Tree.cOk] at h
    have := creads_of_cOk t h.1 8 rest (.tree t rest) h.2 (he.tight h.2) (.stop (cstops_8 rest))
    exact .not this hm
  | .bin o l r, h, k, rest, res, hk, he, hm => by
    by_cases hg : o = "__getitem__"
    · subst hg
      rw [Tree.cOk, if_pos rfl] at h
      obtain ⟨⟨s, rfl⟩, hr⟩ := h
      have hc := cends_close r.ctop .rbr rest (by simp)
      have := creads_of_cOk r hr 0 (.rbr :: rest) (.tree r (.rbr :: rest)) (Nat.zero_le _) hc.1 (.stop hc.2)
      have e : (Tree.bin "__getitem__" (.id s) r).toks ++ rest = .id s :: .lbr :: (r.toks ++ .rbr :: rest) := by
        simp [Tree.toks]
      rw [e]
      exact .index this hm
    · by_cases ha : accessOp o = true
      · rw [Tree.cOk, if_neg hg, if_pos ha] at h
        obtain ⟨⟨s, rfl⟩, m, rfl⟩ := h
        simp only [accessOp, Bool.or_eq_true, decide_eq_true_eq] at ha
        rcases ha with (rfl | rfl) | rfl
        · simpa [Tree.toks] using CReads.dot hm
        · simpa [Tree.toks] using CReads.arrow hm
        · exact absurd rfl hg
      · have ha : accessOp o = false := by simpa using ha
        rw [cOk_infix o l r ha] at h
        obtain ⟨h0, hl, hr, h1, h2⟩ := h
        rw [ctop_infix o l r ha] at hk he
        have hrr := creads_of_cOk r hr (clev o + 1) rest (.tree r rest) h2 (he.mono (by omega))
          (.stop (he.stops (by omega)))
        have := creads_of_cOk l hl k (.op o :: (r.toks ++ rest)) res (by omega)
          ⟨rfl, fun o' ts e => by
            simp only [List.cons.injEq, Tok.op.injEq] at e
            rw [← e.1]; exact h1, by simp⟩ (.bin h0 hk hrr hm)
        rw [toks_infix o l r ha]
        simpa using this
  | .call f as, h, k, rest, res, _, he, hm => by
    rw [Tree.cOk] at h
    have e : (Tree.call f as).toks ++ rest = .id f :: .lpar :: (Tree.toksL as ++ .rpar :: rest) := by simp [Tree.toks]
    rw [e]
    exact .call (cargs_of_cOk as h.2 h.1 rest) hm
  | .cond c a b, h, k, rest, res, hk, he, hm => by
    rw [Tree.cOk] at h
    obtain ⟨hc, ha, hb, h1⟩ := h
    have e0 : (Tree.cond c a b).ctop = 0 := rfl
    rw [e0] at hk he
    obtain rfl : k = 0 := by omega
    have hcl := cends_close a.ctop .colon (b.toks ++ rest) (by simp)
    have ra := creads_of_cOk a ha 0 _ (.tree a _) (Nat.zero_le _) hcl.1 (.stop hcl.2)
    have rb := creads_of_cOk b hb 0 rest (.tree b rest) (Nat.zero_le _) (he.mono (Nat.zero_le _)) (.stop he.stops_zero)
    have := creads_of_cOk c hc 0 (.quest :: (a.toks ++ .colon :: (b.toks ++ rest))) res (Nat.zero_le _)
      ⟨rfl, by simp, fun _ _ => h1⟩ (.cond ra rb hm)
    simpa [Tree.toks] using this
theorem cargs_of_cOk : ∀ (as : List Tree), Tree.cOkL as → as ≠ [] → ∀ rest,
    CReads (.args (Tree.toksL as ++ .rpar :: rest)) (.trees as rest)
  | [], _, h, _ => absurd rfl h
  | [t], h, _, rest => by
    have hc := cends_close t.ctop .rpar rest (by simp)
    exact .argsLast (creads_of_cOk t h.1 0 _ (.tree t _) (Nat.zero_le _) hc.1 (.stop hc.2))
  | t :: u :: us, h, _, rest => by
    have hc := cends_close t.ctop .comma (Tree.toksL (u :: us) ++ .rpar :: rest) (by simp)
    have h1 := creads_of_cOk t h.1 0 _ (.tree t _) (Nat.zero_le _) hc.1 (.stop hc.2)
    have h2 := cargs_of_cOk (u :: us) h.2 (by simp) rest
    have e : Tree.toksL (t :: u :: us) ++ .rpar :: rest =
        t.toks ++ .comma :: (Tree.toksL (u :: us) ++ .rpar :: rest) := by
      rw [toksL_cons _ _ (by simp)]; simp
    rw [e]
    exact .argsMore h1 h2
end

/-- The reader of C has at most one result. -/
theorem creads_unique (j : Job) (r r' : Res) (h : CReads j r) (h' : CReads j r') : r = r' := by
  induction h generalizing r' with
  | lit _ ih => cases h' with | lit h => exact ih _ h
  | id hn _ ih =>
    cases h' with
    | id _ h => exact ih _ h
    | call => simp [noParen] at hn
    | index => simp [noParen] at hn
    | dot => simp [noParen] at hn
    | arrow => simp [noParen] at hn
  | call _ _ ih1 ih2 =>
    cases h' with
    | id hn => simp [noParen] at hn
    | call h1 h2 =>
      have e := ih1 _ h1
      simp only [Res.trees.injEq] at e
      obtain ⟨rfl, rfl⟩ := e
      exact ih2 _ h2
  | group _ _ ih1 ih2 =>
    cases h' with
    | group h1 h2 =>
      have e := ih1 _ h1
      simp only [Res.tree.injEq, List.cons.injEq, true_and] at e
      obtain ⟨rfl, rfl⟩ := e
      exact ih2 _ h2
  | index _ _ ih1 ih2 =>
    cases h' with
    | id hn => simp [noParen] at hn
    | index h1 h2 =>
      have e := ih1 _ h1
      simp only [Res.tree.injEq, List.cons.injEq, true_and] at e
      obtain ⟨rfl, rfl⟩ := e
      exact ih2 _ h2
  | dot _ ih =>
    cases h' with
    | id hn => simp [noParen] at hn
    | dot h => exact ih _ h
  | arrow _ ih =>
    cases h' with
    | id hn => simp [noParen] at hn
    | arrow h => exact ih _ h
  | sign _ _ _ ih1 ih2 =>
    cases h' with
    | sign _ h1 h2 =>
      have e := ih1 _ h1
      simp only [Res.tree.injEq] at e
      obtain ⟨rfl, rfl⟩ := e
      exact ih2 _ h2
  | not _ _ ih1 ih2 =>
    cases h' with
    | not h1 h2 =>
      have e := ih1 _ h1
      simp only [Res.tree.injEq] at e
      obtain ⟨rfl, rfl⟩ := e
      exact ih2 _ h2
  | bin h0 hk _ _ ih1 ih2 =>
    cases h' with
    | bin _ _ h1 h2 =>
      have e := ih1 _ h1
      simp only [Res.tree.injEq] at e
      obtain ⟨rfl, rfl⟩ := e
      exact ih2 _ h2
    | stop hs => rcases cstops_op _ _ _ hs with h | h <;> omega
  | cond _ _ _ ih1 ih2 ih3 =>
    cases h' with
    | cond h1 h2 h3 =>
      have e := ih1 _ h1
      simp only [Res.tree.injEq, List.cons.injEq, true_and] at e
      obtain ⟨rfl, rfl⟩ := e
      have e := ih2 _ h2
      simp only [Res.tree.injEq] at e
      obtain ⟨rfl, rfl⟩ := e
      exact ih3 _ h3
    | stop hs => simp [cstops] at hs
  | stop hs =>
    cases h' with
    | bin h0 hk => rcases cstops_op _ _ _ hs with h | h <;> omega
    | cond => simp [cstops] at hs
    | stop => rfl
  | argsLast _ ih =>
    cases h' with
    | argsLast h =>
      have e := ih _ h
      simp only [Res.tree.injEq, List.cons.injEq, true_and] at e
      obtain ⟨rfl, rfl⟩ := e
      rfl
    | argsMore h =>
      have e := ih _ h
      simp at e
  | argsMore _ _ ih1 ih2 =>
    cases h' with
    | argsLast h =>
      have e := ih1 _ h
      simp at e
    | argsMore h1 h2 =>
      have e := ih1 _ h1
      simp only [Res.tree.injEq, List.cons.injEq, true_and] at e
      obtain ⟨rfl, rfl⟩ := e
      have e := ih2 _ h2
      simp only [Res.trees.injEq] at e
      obtain ⟨rfl, rfl⟩ := e
      rfl

theorem cReadAs_unique (ts : List Tok) (t t' : Tree) (h : CReadAs ts t) (h' : CReadAs ts t') : t = t' := by
  have := creads_unique _ _ _ h h'
  simpa using this

/-- C reads the tokens of a tree as that tree exactly if the tree respects C's order of the operators. -/
theorem cReadAs_toks_iff (t : Tree) : CReadAs t.toks t ↔ t.cOk := by
  constructor
  · intro h
    exact (creads_inv _ _ h).2.1
  · intro h
    have := creads_of_cOk t h 0 [] (.tree t []) (Nat.zero_le _) ⟨rfl, by simp, by simp⟩ (.stop rfl)
    simpa [CReadAs] using this

end Verif.Ex
