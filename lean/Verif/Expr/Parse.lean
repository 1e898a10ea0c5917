import Verif.Expr.Visit

/-!
C115: `Expr.parse` (src/mccode_antlr/common/expression.py 1043-1049), which reads the rule `expr` (src/grammar/McCommon.g4 37-67) at the start of
a text with src/mccode_antlr/grammar/mccode_parse.py 9-31. The rule does not ask for the end of the text, so the parser stops where the
expression ends. The visitor has an instrument without parameters. The tokens and the reader are those of Print.lean; a token that is no
operator of the grammar, like `=`, is `op` of level 0. Texts that are no expression followed by something, for which ANTLR reports an error and
goes on, are not modelled: nothing is read from them.
-/

namespace Verif.Ex
open Verif.DT

/-- `Expr.parse` returns `n`. -/
def Parsed (ts : List Tok) (n : Node) : Prop :=
  ∃ t rest, Reads (.expr 0 ts) (.tree t rest) ∧ t.visit (fun _ => Option.none) = .ok n

/-! ### Lemmas -/

def Job.toks : Job → List Tok
  | .expr _ ts => ts
  | .more _ _ ts => ts
  | .args ts => ts

def Res.rest : Res → List Tok
  | .tree _ r => r
  | .trees _ r => r

def Job.app (more : List Tok) : Job → Job
  | .expr k ts => .expr k (ts ++ more)
  | .more k l ts => .more k l (ts ++ more)
  | .args ts => .args (ts ++ more)

def Res.app (more : List Tok) : Res → Res
  | .tree t r => .tree t (r ++ more)
  | .trees l r => .trees l (r ++ more)

theorem reads_suffix (j : Job) (r : Res) (h : Reads j r) : r.rest <:+ j.toks := by
  induction h with
  | lit _ ih => exact ih.trans (List.suffix_cons _ _)
  | id _ _ ih => exact ih.trans (List.suffix_cons _ _)
  | call _ _ ih1 ih2 => exact (ih2.trans ih1).trans ((List.suffix_cons _ _).trans (List.suffix_cons _ _))
  | group _ _ ih1 ih2 => exact ih2.trans ((List.suffix_cons _ _).trans (List.IsSuffix.trans ih1 (List.suffix_cons _ _)))
  | none _ _ ih => exact ih
  | bin _ _ _ _ ih1 ih2 => exact ih2.trans (List.IsSuffix.trans ih1 (List.suffix_cons _ _))
  | not _ _ ih1 ih2 => exact ih2.trans (List.IsSuffix.trans ih1 (List.suffix_cons _ _))
  | index _ _ ih1 ih2 =>
    exact ih2.trans ((List.suffix_cons _ _).trans (List.IsSuffix.trans ih1 ((List.suffix_cons _ _).trans (List.suffix_cons _ _))))
  | dot _ _ ih1 ih2 => exact ih2.trans (List.IsSuffix.trans ih1 ((List.suffix_cons _ _).trans (List.suffix_cons _ _)))
  | arrow _ _ ih1 ih2 => exact ih2.trans (List.IsSuffix.trans ih1 ((List.suffix_cons _ _).trans (List.suffix_cons _ _)))
  | cond _ _ _ ih1 ih2 ih3 =>
    exact ih3.trans (List.IsSuffix.trans ih2 ((List.suffix_cons _ _).trans (List.IsSuffix.trans ih1 (List.suffix_cons _ _))))
  | stop => exact List.suffix_rfl
  | argsLast _ ih => exact (List.suffix_cons _ _).trans ih
  | argsMore _ _ ih1 ih2 => exact ih2.trans ((List.suffix_cons _ _).trans ih1)

/-- A token with which an operand may end. -/
def closes : Tok → Bool
  | .lit _ => true
  | .id _ => true
  | .rpar => true
  | .rbr => true
  | _ => false

/-- A text that is empty or ends with such a token. -/
def EndsOperand (ts : List Tok) : Prop := ∀ x ∈ ts.getLast?, closes x = true

theorem closed_suffix {a b : List Tok} (h : EndsOperand b) (hs : a <:+ b) : EndsOperand a := by
  obtain ⟨c, rfl⟩ := hs
  intro x hx
  refine h x ?_
  rw [List.getLast?_append]
  rw [Option.mem_def] at hx ⊢
  rw [hx]
  rfl

theorem closed_tail {x : Tok} {ts : List Tok} (h : EndsOperand (x :: ts)) (hx : closes x = false) : ts ≠ [] := by
  rintro rfl
  have := h x rfl
  rw [hx] at this
  cases this

/-- The text of a job is not empty where an operand is expected, and ends with an operand. -/
def Job.ok : Job → Prop
  | .expr _ ts => ts ≠ [] ∧ EndsOperand ts
  | .more _ _ ts => EndsOperand ts
  | .args ts => ts ≠ [] ∧ EndsOperand ts

theorem noParen_append (ts more : List Tok) (h : noParen ts = true) (hm : noParen more = true) : noParen (ts ++ more) = true := by
  match ts with
  | [] => exact hm
  | .lit _ :: _ => rfl
  | .id _ :: _ => rfl
  | .rpar :: _ => rfl
  | .comma :: _ => rfl
  | .decr :: _ => rfl
  | .bang :: _ => rfl
  | .quest :: _ => rfl
  | .colon :: _ => rfl
  | .rbr :: _ => rfl
  | .op _ :: _ => rfl

theorem opens_append (ts more : List Tok) (h : opens ts = false) (hn : ts ≠ []) : opens (ts ++ more) = false := by
  match ts with
  | [] => exact absurd rfl hn
  | .op _ :: _ => rfl
  | .rpar :: _ => rfl
  | .comma :: _ => rfl
  | .decr :: _ => rfl
  | .quest :: _ => rfl
  | .colon :: _ => rfl
  | .lbr :: _ => rfl
  | .rbr :: _ => rfl
  | .dot :: _ => rfl
  | .arrow :: _ => rfl

theorem stops_append (k : Nat) (ts more : List Tok) (h : stops k ts = true) (hm : stops k more = true) : stops k (ts ++ more) = true := by
  match ts with
  | [] => exact hm
  | .op _ :: _ => exact h
  | .quest :: _ => exact h
  | .lit _ :: _ => rfl
  | .id _ :: _ => rfl
  | .lpar :: _ => rfl
  | .rpar :: _ => rfl
  | .comma :: _ => rfl
  | .decr :: _ => rfl
  | .bang :: _ => rfl
  | .colon :: _ => rfl
  | .lbr :: _ => rfl
  | .rbr :: _ => rfl
  | .dot :: _ => rfl
  | .arrow :: _ => rfl

theorem reads_append (more : List Tok) (hs : ∀ k, stops k more = true) (hn : noParen more = true) (j : Job) (r : Res) (h : Reads j r) :
    j.ok → Reads (j.app more) (r.app more) := by
  induction h with
  | lit _ ih => exact fun ho => .lit (ih (closed_suffix ho.2 (List.suffix_cons _ _)))
  | id hp _ ih => exact fun ho => .id (noParen_append _ _ hp hn) (ih (closed_suffix ho.2 (List.suffix_cons _ _)))
  | call h1 _ ih1 ih2 =>
    intro ho
    have c1 := closed_suffix ho.2 (List.suffix_cons _ _)
    have c2 := closed_suffix c1 (List.suffix_cons _ _)
    exact .call (ih1 ⟨closed_tail c1 rfl, c2⟩) (ih2 (closed_suffix c2 (reads_suffix _ _ h1)))
  | group h1 _ ih1 ih2 =>
    intro ho
    have c := closed_suffix ho.2 (List.suffix_cons _ _)
    exact .group (ih1 ⟨closed_tail ho.2 rfl, c⟩) (ih2 (closed_suffix c ((List.suffix_cons _ _).trans (reads_suffix _ _ h1))))
  | none hop _ ih => exact fun ho => .none (opens_append _ _ hop ho.1) (ih ho.2)
  | bin h0 hk h1 _ ih1 ih2 =>
    intro ho
    have c := closed_suffix ho (List.suffix_cons _ _)
    exact .bin h0 hk (ih1 ⟨closed_tail ho rfl, c⟩) (ih2 (closed_suffix c (reads_suffix _ _ h1)))
  | not h1 _ ih1 ih2 =>
    intro ho
    have c := closed_suffix ho.2 (List.suffix_cons _ _)
    exact .not (ih1 ⟨closed_tail ho.2 rfl, c⟩) (ih2 (closed_suffix c (reads_suffix _ _ h1)))
  | index h1 _ ih1 ih2 =>
    intro ho
    have c1 := closed_suffix ho.2 (List.suffix_cons _ _)
    have c2 := closed_suffix c1 (List.suffix_cons _ _)
    exact .index (ih1 ⟨closed_tail c1 rfl, c2⟩) (ih2 (closed_suffix c2 ((List.suffix_cons _ _).trans (reads_suffix _ _ h1))))
  | dot h1 _ ih1 ih2 =>
    intro ho
    have c1 := closed_suffix ho.2 (List.suffix_cons _ _)
    have c2 := closed_suffix c1 (List.suffix_cons _ _)
    exact .dot (ih1 ⟨closed_tail c1 rfl, c2⟩) (ih2 (closed_suffix c2 (reads_suffix _ _ h1)))
  | arrow h1 _ ih1 ih2 =>
    intro ho
    have c1 := closed_suffix ho.2 (List.suffix_cons _ _)
    have c2 := closed_suffix c1 (List.suffix_cons _ _)
    exact .arrow (ih1 ⟨closed_tail c1 rfl, c2⟩) (ih2 (closed_suffix c2 (reads_suffix _ _ h1)))
  | cond h1 h2 _ ih1 ih2 ih3 =>
    intro ho
    have c1 := closed_suffix ho (List.suffix_cons _ _)
    have c2 := closed_suffix c1 (reads_suffix _ _ h1)
    have c3 := closed_suffix c2 (List.suffix_cons _ _)
    exact .cond (ih1 ⟨closed_tail ho rfl, c1⟩) (ih2 ⟨closed_tail c2 rfl, c3⟩) (ih3 (closed_suffix c3 (reads_suffix _ _ h2)))
  | stop h => exact fun _ => .stop (stops_append _ _ _ h (hs _))
  | argsLast _ ih => exact fun ho => .argsLast (ih ho)
  | argsMore h1 _ ih1 ih2 =>
    intro ho
    have c2 := closed_suffix ho.2 (reads_suffix _ _ h1)
    exact .argsMore (ih1 ho) (ih2 ⟨closed_tail c2 rfl, closed_suffix c2 (List.suffix_cons _ _)⟩)

/-! ### C115 -/

/-- C115: there is at most one result. -/
theorem parsed_unique (ts : List Tok) (n n' : Node) (h : Parsed ts n) (h' : Parsed ts n') : n = n' := by
  obtain ⟨t, rest, h1, h2⟩ := h
  obtain ⟨t', rest', h1', h2'⟩ := h'
  have e := reads_unique _ _ _ h1 h1'
  simp only [Res.tree.injEq] at e
  rw [e.1, h2'] at h2
  exact (Except.ok.inj h2).symm

/-- C115: what is returned is made of a beginning of the text. -/
theorem parsed_beginning (ts : List Tok) (n : Node) (h : Parsed ts n) :
    ∃ (t : Tree) (rest : List Tok), ts = t.toks ++ rest ∧ t.visit (fun _ => Option.none) = .ok n := by
  obtain ⟨t, rest, h1, h2⟩ := h
  exact ⟨t, rest, reads_spelt _ _ h1, h2⟩

/-- C115: a text that can be read as a whole is. -/
theorem whole_partial (ts : List Tok) (t : Tree) (n : Node) (h : ReadAs ts t) : Parsed ts n ↔ t.visit (fun _ => Option.none) = .ok n := by
  constructor
  · rintro ⟨t', rest, h1, h2⟩
    have e := reads_unique _ _ _ h1 h
    simp only [Res.tree.injEq] at e
    rw [← e.1]
    exact h2
  · exact fun h2 => ⟨t, [], h, h2⟩

/-- C115 fails: whatever follows an expression is ignored, if its first token can not continue the expression. Nothing is refused. -/
theorem rest_ignored (ts more : List Tok) (t : Tree) (x : Tok) (h : ReadAs (ts ++ [x]) t)
    (hx : (∃ v, x = .lit v) ∨ (∃ s, x = .id s) ∨ x = .rpar ∨ x = .rbr)
    (hm : ∀ y l, more = y :: l → (∃ v, y = .lit v) ∨ (∃ s, y = .id s) ∨ (∃ o, y = .op o ∧ lev o = 0) ∨ y = .rpar ∨ y = .rbr ∨ y = .comma ∨
      y = .colon ∨ y = .decr ∨ y = .bang) (n : Node) :
    Parsed (ts ++ [x] ++ more) n ↔ Parsed (ts ++ [x]) n := by
  have hc : closes x = true := by rcases hx with ⟨v, rfl⟩ | ⟨s, rfl⟩ | rfl | rfl <;> rfl
  have hok : (Job.expr 0 (ts ++ [x])).ok := by
    refine ⟨by simp, fun y hy => ?_⟩
    rw [List.getLast?_append, Option.mem_def] at hy
    have : y = x := by simpa using hy.symm
    rw [this]
    exact hc
  have hmore : noParen more = true ∧ ∀ k, stops k more = true := by
    cases more with
    | nil => exact ⟨rfl, fun _ => rfl⟩
    | cons y l =>
      rcases hm y l rfl with ⟨v, rfl⟩ | ⟨s, rfl⟩ | ⟨o, rfl, ho⟩ | rfl | rfl | rfl | rfl | rfl | rfl
      case inr.inr.inl => exact ⟨rfl, fun k => by simp [stops, ho]⟩
      all_goals exact ⟨rfl, fun _ => rfl⟩
  have h1 := reads_append more hmore.2 hmore.1 _ _ h hok
  constructor
  · rintro ⟨t', rest, h2, h3⟩
    have e := reads_unique _ _ _ h2 h1
    simp only [Res.app, Res.tree.injEq] at e
    exact ⟨t, [], h, e.1 ▸ h3⟩
  · rintro ⟨t', rest, h2, h3⟩
    have e := reads_unique _ _ _ h2 h
    simp only [Res.tree.injEq] at e
    exact ⟨t, _, h1, e.1 ▸ h3⟩

/-- C115 fails: the condition `flag = 1` is read as `flag`. -/
theorem assignment_read : Parsed [.id "flag", .op "=", .lit (.int 1)] (.expr [.text "flag" .undefined .ident]) :=
  ⟨.id "flag", _, .id rfl (.stop rfl), rfl⟩

/-- C115 fails: `2 3` is read as `2`. -/
theorem second_number_ignored : Parsed [.lit (.int 2), .lit (.int 3)] (.expr [.num (.int 2) .int]) :=
  ⟨.lit (.int 2), _, .lit (.stop rfl), rfl⟩

/-- The sum of an identifier and a number, followed by another number, meets the hypotheses of `rest_ignored`. -/
example : ReadAs ([.id "x", .op "+"] ++ [.lit (.int 1)]) (.bin "+" (.id "x") (.lit (.int 1))) :=
  .id rfl (.bin (by decide) (by decide) (.lit (.stop rfl)) (.stop rfl))

end Verif.Ex
