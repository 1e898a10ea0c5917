import Mathlib.Data.Rat.Defs
import Mathlib.Algebra.Order.Ring.Rat
import Mathlib.Data.List.Forall2
import Mathlib.Tactic.NormNum

/-!
C106: the comparisons `<`, `>`, `<=` and `>=` of expressions (src/mccode_antlr/common/expression.py 936-958, 1241-1279, 609-611).

The elements of an `Expr` are numbers, texts in quotes, identifiers and operations. `UnaryOp` has `__gt__` only, the other operations no
comparison, so that Python turns a comparison around where the left operand has none. What is modelled of the result is whether it is
true in a condition: a `BinaryOp` is.

Simplified: numbers are exact; of an operation only its value is kept.
-/

namespace Verif.Ex.Compare

/-- The values of identifiers. -/
abbrev Env := String → ℚ

inductive Leaf
  | num (q : ℚ)
  | str (s : String)
  | id (name : String)
  | op (unary : Bool) (value : Env → ℚ)

inductive Cmp
  | lt
  | gt
  | le
  | ge
  deriving DecidableEq

inductive Err
  | typeError
  | runtimeError
  deriving DecidableEq, Repr

def Cmp.swap : Cmp → Cmp
  | .lt => .gt
  | .gt => .lt
  | .le => .ge
  | .ge => .le

def Cmp.num : Cmp → ℚ → ℚ → Bool
  | .lt, a, b => decide (a < b)
  | .gt, a, b => decide (b < a)
  | .le, a, b => decide (a ≤ b)
  | .ge, a, b => decide (b ≤ a)

def Cmp.str : Cmp → String → String → Bool
  | .lt, a, b => decide (a < b)
  | .gt, a, b => decide (b < a)
  | .le, a, b => !decide (b < a)
  | .ge, a, b => !decide (a < b)

/-- `Value.__lt__` and the others (936-958). -/
def valueCmp (c : Cmp) : Leaf → Leaf → Except Err Bool
  | .id _, _ => .ok true
  | _, .op .. => .ok true
  | _, .id _ => .ok true
  | .num a, .num b => .ok (c.num a b)
  | .str a, .str b => .ok (c.str a b)
  | _, _ => .error .typeError

/-- `bool(a < b)` for elements of expressions: the method of the left operand, or that of the right one turned around. -/
def leafCmp (c : Cmp) (a b : Leaf) : Except Err Bool :=
  match a with
  | .op unary _ =>
    if unary ∧ c = .gt then .ok false
    else
      match b with
      | .op unary' _ => if unary' ∧ c.swap = .gt then .ok false else .error .typeError
      | b => valueCmp c.swap b a
  | a => valueCmp c a b

/-- The comparison made for each pair, with the element of the other one to the left (1246, 1256, 1266, 1276). -/
def Cmp.opposite : Cmp → Cmp
  | .lt => .le
  | .gt => .ge
  | .le => .lt
  | .ge => .gt

/-- The loop over the pairs `(o_expr, s_expr)`. -/
def loop (c : Cmp) : List (Leaf × Leaf) → Except Err Bool
  | [] => .ok true
  | (o, s) :: rest =>
    match leafCmp c.opposite o s with
    | .error e => .error e
    | .ok true => .ok false
    | .ok false => loop c rest

/-- `Expr.__lt__` and the others for an `Expr` (1241-1279). -/
def exprCmp (c : Cmp) (self other : List Leaf) : Except Err Bool :=
  if other.length ≠ self.length then .error .runtimeError else loop c (other.zip self)

/-- `Expr.__lt__` and the others for a Python number, which no operation can be compared with (1249). -/
def exprCmpNum (c : Cmp) (self : List Leaf) (q : ℚ) : Except Err Bool :=
  match self with
  | [.op unary _] => if unary ∧ c = .gt then .ok false else .error .typeError
  | [v] => valueCmp c v (.num q)
  | _ => .ok false

/-! ### The properties -/

/-- The value of an element that has one. -/
def Leaf.value (env : Env) : Leaf → Option ℚ
  | .num q => some q
  | .str _ => none
  | .id n => some (env n)
  | .op _ f => some (f env)

theorem loop_true (c : Cmp) (ps : List (Leaf × Leaf)) : loop c ps = .ok true ↔ ∀ p ∈ ps, leafCmp c.opposite p.1 p.2 = .ok false := by
  induction ps with
  | nil => simp [loop]
  | cons p ps ih =>
    obtain ⟨o, s⟩ := p
    rw [loop]
    rcases h : leafCmp c.opposite o s with e | b
    · simp [h]
    · cases b
      · simp [h, ih]
      · simp [h]

theorem le_false (o s : Leaf) : leafCmp .le o s = .ok false ↔
    (∃ a b, o = .num a ∧ s = .num b ∧ b < a) ∨ ∃ a b, o = .str a ∧ s = .str b ∧ b < a := by
  cases o <;> cases s <;> simp [leafCmp, valueCmp, Cmp.num, Cmp.str, Cmp.swap]

theorem ge_false (o s : Leaf) : leafCmp .ge o s = .ok false ↔
    (∃ a b, o = .num a ∧ s = .num b ∧ a < b) ∨ ∃ a b, o = .str a ∧ s = .str b ∧ a < b := by
  cases o <;> cases s <;> simp [leafCmp, valueCmp, Cmp.num, Cmp.str, Cmp.swap]

theorem lt_false (o s : Leaf) : leafCmp .lt o s = .ok false ↔
    (∃ a b, o = .num a ∧ s = .num b ∧ b ≤ a) ∨ (∃ a b, o = .str a ∧ s = .str b ∧ ¬ a < b) ∨
      ∃ u f g, o = .op u f ∧ s = .op true g := by
  cases o <;> cases s <;> simp [leafCmp, valueCmp, Cmp.num, Cmp.str, Cmp.swap]

theorem gt_false (o s : Leaf) : leafCmp .gt o s = .ok false ↔
    (∃ a b, o = .num a ∧ s = .num b ∧ a ≤ b) ∨ (∃ a b, o = .str a ∧ s = .str b ∧ ¬ b < a) ∨ ∃ f, o = .op true f := by
  cases o <;> cases s <;> simp [leafCmp, valueCmp, Cmp.num, Cmp.str, Cmp.swap]

theorem mem_zip_swap (a b : Leaf) (xs ys : List Leaf) (h : (a, b) ∈ xs.zip ys) : (b, a) ∈ ys.zip xs := by
  induction xs generalizing ys with
  | nil => simp at h
  | cons x xs ih =>
    cases ys with
    | nil => simp at h
    | cons y ys =>
      rw [List.zip_cons_cons] at h ⊢
      rcases List.mem_cons.1 h with h | h
      · rw [Prod.mk.injEq] at h
        rw [h.1, h.2]
        exact List.mem_cons_self
      · exact List.mem_cons_of_mem _ (ih ys h)

theorem exprCmp_true (c : Cmp) (self other : List Leaf) :
    exprCmp c self other = .ok true ↔ List.Forall₂ (fun s o => leafCmp c.opposite o s = .ok false) self other := by
  rw [exprCmp]
  split_ifs with h
  · constructor
    · intro h'; cases h'
    · intro h'; exact absurd h'.length_eq.symm h
  · push Not at h
    rw [loop_true, List.forall₂_iff_zip]
    constructor
    · intro hp
      refine ⟨h.symm, fun {a b} hab => ?_⟩
      exact hp (b, a) (mem_zip_swap a b _ _ hab)
    · rintro ⟨_, hp⟩ ⟨o, s⟩ hos
      exact hp (mem_zip_swap o s _ _ hos)

/-- C106: `e < f` is true exactly if both have as many elements, and each is a number below the other number, or a text before the
other text. -/
theorem lt_true_iff (e f : List Leaf) : exprCmp .lt e f = .ok true ↔
    List.Forall₂ (fun s o => (∃ a b, s = .num a ∧ o = .num b ∧ a < b) ∨ ∃ a b, s = .str a ∧ o = .str b ∧ a < b) e f := by
  rw [exprCmp_true]
  have : (fun s o : Leaf => leafCmp Cmp.lt.opposite o s = .ok false) =
      fun s o => (∃ a b, s = .num a ∧ o = .num b ∧ a < b) ∨ ∃ a b, s = .str a ∧ o = .str b ∧ a < b := by
    funext s o
    rw [eq_iff_iff, Cmp.opposite, le_false]
    constructor
    · rintro (⟨a, b, h1, h2, h⟩ | ⟨a, b, h1, h2, h⟩)
      · exact .inl ⟨b, a, h2, h1, h⟩
      · exact .inr ⟨b, a, h2, h1, h⟩
    · rintro (⟨a, b, h1, h2, h⟩ | ⟨a, b, h1, h2, h⟩)
      · exact .inl ⟨b, a, h2, h1, h⟩
      · exact .inr ⟨b, a, h2, h1, h⟩
  rw [this]

/-- C106: the same for `e > f`. -/
theorem gt_true_iff (e f : List Leaf) : exprCmp .gt e f = .ok true ↔
    List.Forall₂ (fun s o => (∃ a b, s = .num a ∧ o = .num b ∧ b < a) ∨ ∃ a b, s = .str a ∧ o = .str b ∧ b < a) e f := by
  rw [exprCmp_true]
  have : (fun s o : Leaf => leafCmp Cmp.gt.opposite o s = .ok false) =
      fun s o => (∃ a b, s = .num a ∧ o = .num b ∧ b < a) ∨ ∃ a b, s = .str a ∧ o = .str b ∧ b < a := by
    funext s o
    rw [eq_iff_iff, Cmp.opposite, ge_false]
    constructor
    · rintro (⟨a, b, h1, h2, h⟩ | ⟨a, b, h1, h2, h⟩)
      · exact .inl ⟨b, a, h2, h1, h⟩
      · exact .inr ⟨b, a, h2, h1, h⟩
    · rintro (⟨a, b, h1, h2, h⟩ | ⟨a, b, h1, h2, h⟩)
      · exact .inl ⟨b, a, h2, h1, h⟩
      · exact .inr ⟨b, a, h2, h1, h⟩
  rw [this]

/-- C106: where `<` or `>` is true it holds for the values, whatever the identifiers are. -/
theorem strict_sound (e f : List Leaf) (env : Env) :
    (exprCmp .lt e f = .ok true → ∀ (i : Nat) (x y : Leaf), e[i]? = some x → f[i]? = some y → ∀ a b : ℚ, x.value env = some a → y.value env = some b → a < b) ∧
      (exprCmp .gt e f = .ok true →
        ∀ (i : Nat) (x y : Leaf), e[i]? = some x → f[i]? = some y → ∀ a b : ℚ, x.value env = some a → y.value env = some b → b < a) := by
  constructor
  · intro h i x y hx hy a b ha hb
    have := (List.forall₂_iff_get.1 ((lt_true_iff e f).1 h)).2
    obtain ⟨hi, hx⟩ := List.getElem?_eq_some_iff.1 hx
    obtain ⟨hj, hy⟩ := List.getElem?_eq_some_iff.1 hy
    have h2 := this i hi hj
    simp only [List.get_eq_getElem, hx, hy] at h2
    rcases h2 with ⟨a', b', rfl, rfl, h⟩ | ⟨a', b', rfl, rfl, h⟩
    · simp only [Leaf.value, Option.some.injEq] at ha hb
      rw [← ha, ← hb]
      exact h
    · simp [Leaf.value] at ha
  · intro h i x y hx hy a b ha hb
    have := (List.forall₂_iff_get.1 ((gt_true_iff e f).1 h)).2
    obtain ⟨hi, hx⟩ := List.getElem?_eq_some_iff.1 hx
    obtain ⟨hj, hy⟩ := List.getElem?_eq_some_iff.1 hy
    have h2 := this i hi hj
    simp only [List.get_eq_getElem, hx, hy] at h2
    rcases h2 with ⟨a', b', rfl, rfl, h⟩ | ⟨a', b', rfl, rfl, h⟩
    · simp only [Leaf.value, Option.some.injEq] at ha hb
      rw [← ha, ← hb]
      exact h
    · simp [Leaf.value] at ha

/-- `[1, 2] < [2, 3]`, and `x < 2` is not known. -/
example : exprCmp .lt [.num 1, .num 2] [.num 2, .num 3] = .ok true ∧ exprCmp .lt [.id "x"] [.num 2] = .ok false := by
  decide +kernel

theorem loop_numbers (c : Cmp) (rel : ℚ → ℚ → Prop) (hc : ∀ o s, leafCmp c.opposite (.num o) (.num s) = .ok false ↔ rel s o)
    (ht : ∀ o s, leafCmp c.opposite (.num o) (.num s) = .ok true ↔ ¬ rel s o) (e f : List ℚ) (h : e.length = f.length) :
    (exprCmp c (e.map .num) (f.map .num) = .ok true ∧ List.Forall₂ rel e f) ∨
      (exprCmp c (e.map .num) (f.map .num) = .ok false ∧ ¬ List.Forall₂ rel e f) := by
  induction e generalizing f with
  | nil =>
    cases f with
    | nil => exact .inl ⟨rfl, .nil⟩
    | cons y f => simp at h
  | cons x e ih =>
    cases f with
    | nil => simp at h
    | cons y f =>
      have ih := ih f (by simpa using h)
      have hl : ¬ (f.map Leaf.num).length ≠ (e.map Leaf.num).length := by simp at h ⊢; exact h.symm
      have hl' : ¬ ((y :: f).map Leaf.num).length ≠ ((x :: e).map Leaf.num).length := by simp at h ⊢; exact h.symm
      rw [exprCmp, if_neg hl] at ih
      rw [exprCmp, if_neg hl', List.map_cons, List.map_cons, List.zip_cons_cons, loop]
      by_cases hr : rel x y
      · rw [(hc y x).2 hr]
        simpa [hr] using ih
      · rw [(ht y x).2 hr]
        exact .inr ⟨rfl, by simp [hr]⟩

/-- C106: numbers are compared one by one, and the comparison is true exactly if it holds for all of them. -/
theorem numbers_compared (e f : List ℚ) (h : e.length = f.length) :
    (exprCmp .lt (e.map .num) (f.map .num) = .ok true ↔ List.Forall₂ (· < ·) e f) ∧
      (exprCmp .le (e.map .num) (f.map .num) = .ok true ↔ List.Forall₂ (· ≤ ·) e f) ∧
      (exprCmp .gt (e.map .num) (f.map .num) = .ok true ↔ List.Forall₂ (· > ·) e f) ∧
      (exprCmp .ge (e.map .num) (f.map .num) = .ok true ↔ List.Forall₂ (· ≥ ·) e f) ∧
      ∀ c : Cmp, exprCmp c (e.map .num) (f.map .num) = .ok true ∨ exprCmp c (e.map .num) (f.map .num) = .ok false := by
  have key : ∀ (c : Cmp) (rel : ℚ → ℚ → Prop), (∀ o s, leafCmp c.opposite (.num o) (.num s) = .ok false ↔ rel s o) →
      (∀ o s, leafCmp c.opposite (.num o) (.num s) = .ok true ↔ ¬ rel s o) →
      (exprCmp c (e.map .num) (f.map .num) = .ok true ↔ List.Forall₂ rel e f) ∧
        (exprCmp c (e.map .num) (f.map .num) = .ok true ∨ exprCmp c (e.map .num) (f.map .num) = .ok false) := by
    intro c rel hc ht
    rcases loop_numbers c rel hc ht e f h with ⟨h1, h2⟩ | ⟨h1, h2⟩
    · exact ⟨by simp [h1, h2], .inl h1⟩
    · exact ⟨by simp [h1, h2], .inr h1⟩
  have h1 := key .lt (· < ·) (by intro o s; simp [leafCmp, valueCmp, Cmp.opposite, Cmp.num]) (by intro o s; simp [leafCmp, valueCmp, Cmp.opposite, Cmp.num])
  have h2 := key .le (· ≤ ·) (by intro o s; simp [leafCmp, valueCmp, Cmp.opposite, Cmp.num]) (by intro o s; simp [leafCmp, valueCmp, Cmp.opposite, Cmp.num])
  have h3 := key .gt (· > ·) (by intro o s; simp [leafCmp, valueCmp, Cmp.opposite, Cmp.num]) (by intro o s; simp [leafCmp, valueCmp, Cmp.opposite, Cmp.num])
  have h4 := key .ge (· ≥ ·) (by intro o s; simp [leafCmp, valueCmp, Cmp.opposite, Cmp.num]) (by intro o s; simp [leafCmp, valueCmp, Cmp.opposite, Cmp.num])
  refine ⟨h1.1, h2.1, h3.1, h4.1, fun c => ?_⟩
  cases c
  · exact h1.2
  · exact h3.2
  · exact h2.2
  · exact h4.2

/-- C106: numbers of elements that differ are refused. -/
theorem lengths_refused (c : Cmp) (e f : List Leaf) (h : e.length ≠ f.length) : exprCmp c e f = .error .runtimeError := by
  rw [exprCmp, if_pos (Ne.symm h)]

/-- C106 does not hold for `>=` with a negated (or otherwise unary) expression to the right: it is true whatever the values;
`3 >= -y` is true although `-y` may be five. -/
theorem ge_unary_true (s : Leaf) (f : Env → ℚ) : exprCmp .ge [s] [.op true f] = .ok true := by
  cases s <;> simp [exprCmp, loop, leafCmp, Cmp.opposite]

theorem ge_unsound : ∃ (e f : List Leaf) (env : Env) (a b : ℚ), exprCmp .ge e f = .ok true ∧
    e.map (Leaf.value env) = [some a] ∧ f.map (Leaf.value env) = [some b] ∧ ¬ b ≤ a :=
  ⟨[.num 3], [.op true fun env => -env "y"], fun _ => -5, 3, 5, ge_unary_true _ _, rfl, by simp [Leaf.value], by norm_num⟩

/-- C106: the same for `<=` of a unary and any other operation. -/
theorem le_unsound : ∃ (e f : List Leaf) (env : Env) (a b : ℚ), exprCmp .le e f = .ok true ∧
    e.map (Leaf.value env) = [some a] ∧ f.map (Leaf.value env) = [some b] ∧ ¬ a ≤ b :=
  ⟨[.op true fun env => -env "y"], [.op false fun env => env "y" + 1], fun _ => -5, 5, -4,
    by simp [exprCmp, loop, leafCmp, Cmp.opposite, Cmp.swap], by simp [Leaf.value], by simp [Leaf.value]; norm_num, by norm_num⟩

/-- C106: an identifier is not less than or equal to itself, but compared with a number everything is true. -/
theorem identifier_compared (name : String) (q : ℚ) (c : Cmp) :
    exprCmp c [.id name] [.id name] = .ok false ∧ exprCmpNum c [.id name] q = .ok true := by
  cases c <;> simp [exprCmp, loop, leafCmp, valueCmp, exprCmpNum]

/-- C106: so a comparison with a number is not sound, and `x < 3` and `x > 3` are both true. -/
theorem number_unsound : ∃ (e : List Leaf) (env : Env) (q a : ℚ), exprCmpNum .lt e q = .ok true ∧ exprCmpNum .gt e q = .ok true ∧
    e.map (Leaf.value env) = [some a] ∧ ¬ a < q :=
  ⟨[.id "x"], fun _ => 5, 3, 5, rfl, rfl, rfl, by norm_num⟩

/-- C106: no comparison of a vector with a number is true. -/
theorem vector_with_number (c : Cmp) (e : List Leaf) (q : ℚ) (h : e.length ≠ 1) : exprCmpNum c e q = .ok false := by
  match e with
  | [] => rfl
  | [x] => exact absurd rfl h
  | x :: y :: e => cases x <;> rfl

/-- C106: for a number the comparison with a number is right. -/
theorem number_with_number (a q : ℚ) :
    exprCmpNum .lt [.num a] q = .ok (decide (a < q)) ∧ exprCmpNum .gt [.num a] q = .ok (decide (q < a)) ∧
      exprCmpNum .le [.num a] q = .ok (decide (a ≤ q)) ∧ exprCmpNum .ge [.num a] q = .ok (decide (q ≤ a)) :=
  ⟨rfl, rfl, rfl, rfl⟩

end Verif.Ex.Compare
