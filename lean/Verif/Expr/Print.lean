import Verif.Expr.Equal
import Mathlib.Tactic.Ring
import Mathlib.Tactic.FieldSimp

/-!
Property C13: printing an expression and reading it back.

The text is represented by its sequence of tokens. The reader is a specification of the expression grammar
(src/grammar/McCommon.g4, rule `expr`, 37-67): ANTLR's precedence climbing, in which the alternatives listed earlier bind
tighter, every binary operator (and the conditional) is left associative except `^`, and the operand of `!` is everything
up to an `&&`, `||` or `?`.

A sign is not read by the alternative for signs (48): the alternative for strings (43) also matches nothing, and of two
alternatives which both match ANTLR takes the one listed first, so that `+` and `-` are always binary operators, before
which an operand may be missing (expression.py 815: "-1 is interpreted as an empty string minus 1";
tests/test_expression.py 373-385: `sin( -PI * x / 2. )` is the opposite of a quotient). A missing operand is read as the
empty string, which the operations of expression.py treat like 0.

Left out: strings, `PREVIOUS` and `MYSELF`.
-/

namespace Verif.Ex
open Verif.DT

/-- Tokens. The sign tokens `+ - * / % << >>` are `op` with that name; `^ < > <= >= != == || &&` are `op` with the name
of the operation (`__pow__` etc.). `decr` is the token `--` (src/grammar/c99.g4 142), `bang` is `!`, `lbr` and `rbr` are
the square brackets. -/
inductive Tok
  | lit (x : Num)
  | id (s : String)
  | op (o : String)
  | lpar
  | rpar
  | comma
  | decr
  | bang
  | quest
  | colon
  | lbr
  | rbr
  | dot
  | arrow
  deriving DecidableEq

/-- What is read; array, structure and pointer access are `bin` with an identifier on the left. `none` is a missing
operand. `neg` and `pos` (a signed operand) are never read by this reader, but by that of C (CRead.lean). -/
inductive Tree
  | none
  | lit (x : Num)
  | id (s : String)
  | group (t : Tree)
  | neg (t : Tree)
  | pos (t : Tree)
  | bin (o : String) (l r : Tree)
  | call (f : String) (as : List Tree)
  | not (t : Tree)
  | cond (c a b : Tree)

/-- The operand is missing. -/
def Tree.isNone : Tree → Bool
  | .none => true
  | _ => false

mutual
/-- The value of what is read: `-` and `+` without a left operand are signs; no other operation has a value if an operand
is missing. -/
def Tree.den (ρ : Env) : Tree → Option Base
  | .none => Option.none
  | .lit x => some (.num x.toRat)
  | .id s => ρ.var s
  | .group t => t.den ρ
  | .neg t => (t.den ρ).bind fun v => apply1 ρ "-" [v]
  | .pos t => t.den ρ
  | .bin o l r =>
    if l.isNone then
      if o = "-" then (r.den ρ).bind fun v => apply1 ρ "-" [v] else if o = "+" then r.den ρ else Option.none
    else (l.den ρ).bind fun a => (r.den ρ).bind fun b => apply2 ρ o [a] [b]
  | .call f as => (Tree.denL ρ as).bind fun vs => ρ.fn2 "__call__" [.text f] vs
  | .not t => (t.den ρ).bind fun v => apply1 ρ "__not__" [v]
  | .cond c a b => choose "__trinary__" (c.den ρ) (a.den ρ) (b.den ρ)
def Tree.denL (ρ : Env) : List Tree → Option (List Base)
  | [] => some []
  | t :: ts => (t.den ρ).bind fun v => (Tree.denL ρ ts).map (v :: ·)
end

mutual
/-- No operand is missing, other than that before a sign. -/
def Tree.whole : Tree → Bool
  | .none => false
  | .lit _ => true
  | .id _ => true
  | .group t => t.whole
  | .neg t => t.whole
  | .pos t => t.whole
  | .bin o l r => (if l.isNone then o = "-" || o = "+" else l.whole) && r.whole
  | .call _ as => Tree.wholeL as
  | .not t => t.whole
  | .cond c a b => c.whole && a.whole && b.whole
def Tree.wholeL : List Tree → Bool
  | [] => true
  | t :: ts => t.whole && Tree.wholeL ts
end

theorem whole_some {t : Tree} (h : t.whole = true) : t.isNone = false := by
  cases t <;> first | rfl | simp [Tree.whole] at h

theorem whole_bin (o : String) {l r : Tree} (hl : l.whole = true) (hr : r.whole = true) :
    (Tree.bin o l r).whole = true := by
  simp [Tree.whole, (whole_some hl), hl, hr]

/-- Binding strength of a binary operator, from the order of the alternatives in McCommon.g4 48-64 (0: not a binary
operator; 2 is the place of `!`). -/
def lev (o : String) : Nat :=
  if o = "__or__" ∨ o = "__and__" then 1
  else if o = "__gt__" then 3
  else if o = "__lt__" then 4
  else if o = "__ge__" then 5
  else if o = "__le__" then 6
  else if o = "__eq__" then 7
  else if o = "__neq__" then 8
  else if o = "<<" then 9
  else if o = ">>" then 10
  else if o = "%" then 11
  else if o = "+" ∨ o = "-" then 12
  else if o = "*" ∨ o = "/" then 13
  else if o = "__pow__" then 14
  else 0

/-- The level at which the right operand is read: the same for the right associative `^`. -/
def rightLev (o : String) : Nat := if o = "__pow__" then 14 else lev o + 1

/-- The tasks of the reader: read an expression binding at least as strongly as `k`; continue after a left operand;
read the arguments of a call up to the closing parenthesis. -/
inductive Job
  | expr (k : Nat) (ts : List Tok)
  | more (k : Nat) (l : Tree) (ts : List Tok)
  | args (ts : List Tok)

inductive Res
  | tree (t : Tree) (rest : List Tok)
  | trees (l : List Tree) (rest : List Tok)
  deriving Inhabited

/-- A list of tokens does not begin with an operator of level at least `k`, `k > 0` or any operator (or `?`) for
`k = 0`. -/
def stops (k : Nat) : List Tok → Bool
  | .op o :: _ => lev o = 0 || lev o < k
  | .quest :: _ => 0 < k
  | _ => true

/-- A list of tokens does not begin with an opening parenthesis or bracket, nor with `.` or `->`. -/
def noParen : List Tok → Bool
  | .lpar :: _ => false
  | .lbr :: _ => false
  | .dot :: _ => false
  | .arrow :: _ => false
  | _ => true

/-- A list of tokens begins with an operand. -/
def opens : List Tok → Bool
  | .lit _ :: _ => true
  | .id _ :: _ => true
  | .lpar :: _ => true
  | .bang :: _ => true
  | _ => false

/-- The reader. -/
inductive Reads : Job → Res → Prop
  | lit {k q ts r} : Reads (.more k (.lit q) ts) r → Reads (.expr k (.lit q :: ts)) r
  | id {k s ts r} : noParen ts = true → Reads (.more k (.id s) ts) r → Reads (.expr k (.id s :: ts)) r
  | call {k s ts as ts' r} : Reads (.args ts) (.trees as ts') → Reads (.more k (.call s as) ts') r →
      Reads (.expr k (.id s :: .lpar :: ts)) r
  | group {k ts t ts' r} : Reads (.expr 0 ts) (.tree t (.rpar :: ts')) → Reads (.more k (.group t) ts') r →
      Reads (.expr k (.lpar :: ts)) r
  | none {k ts r} : opens ts = false → Reads (.more k .none ts) r → Reads (.expr k ts) r
  | bin {k l o ts t ts' r} : 0 < lev o → k ≤ lev o → Reads (.expr (rightLev o) ts) (.tree t ts') →
      Reads (.more k (.bin o l t) ts') r → Reads (.more k l (.op o :: ts)) r
  | not {k ts t ts' r} : Reads (.expr 2 ts) (.tree t ts') → Reads (.more k (.not t) ts') r →
      Reads (.expr k (.bang :: ts)) r
  | index {k s ts t ts' r} : Reads (.expr 0 ts) (.tree t (.rbr :: ts')) →
      Reads (.more k (.bin "__getitem__" (.id s) t) ts') r → Reads (.expr k (.id s :: .lbr :: ts)) r
  | dot {k s ts t ts' r} : Reads (.expr 15 ts) (.tree t ts') →
      Reads (.more k (.bin "__struct_access__" (.id s) t) ts') r → Reads (.expr k (.id s :: .dot :: ts)) r
  | arrow {k s ts t ts' r} : Reads (.expr 15 ts) (.tree t ts') →
      Reads (.more k (.bin "__pointer_access__" (.id s) t) ts') r → Reads (.expr k (.id s :: .arrow :: ts)) r
  | cond {c ts a ts' b ts'' r} : Reads (.expr 0 ts) (.tree a (.colon :: ts')) → Reads (.expr 1 ts') (.tree b ts'') →
      Reads (.more 0 (.cond c a b) ts'') r → Reads (.more 0 c (.quest :: ts)) r
  | stop {k l ts} : stops k ts = true → Reads (.more k l ts) (.tree l ts)
  | argsLast {ts t ts'} : Reads (.expr 0 ts) (.tree t (.rpar :: ts')) → Reads (.args ts) (.trees [t] ts')
  | argsMore {ts t ts' as ts''} : Reads (.expr 0 ts) (.tree t (.comma :: ts')) → Reads (.args ts') (.trees as ts'') →
      Reads (.args ts) (.trees (t :: as) ts'')

/-- The reader has at most one result. -/
theorem reads_unique (j : Job) (r r' : Res) (h : Reads j r) (h' : Reads j r') : r = r' := by
  induction h generalizing r' with
  | lit _ ih => cases h' with
    | lit h => exact ih _ h
    | none ho => simp [opens] at ho
  | id hn _ ih =>
    cases h' with
    | none ho => simp [opens] at ho
    | id _ h => exact ih _ h
    | call => simp [noParen] at hn
    | index => simp [noParen] at hn
    | dot => simp [noParen] at hn
    | arrow => simp [noParen] at hn
  | call _ _ ih1 ih2 =>
    cases h' with
    | none ho => simp [opens] at ho
    | id hn => simp [noParen] at hn
    | call h1 h2 =>
      have e := ih1 _ h1
      simp only [Res.trees.injEq] at e
      obtain ⟨rfl, rfl⟩ := e
      exact ih2 _ h2
  | group _ _ ih1 ih2 =>
    cases h' with
    | none ho => simp [opens] at ho
    | group h1 h2 =>
      have e := ih1 _ h1
      simp only [Res.tree.injEq, List.cons.injEq, true_and] at e
      obtain ⟨rfl, rfl⟩ := e
      exact ih2 _ h2
  | none ho _ ih =>
    cases h' with
    | none _ h => exact ih _ h
    | _ => simp [opens] at ho
  | not _ _ ih1 ih2 =>
    cases h' with
    | none ho => simp [opens] at ho
    | not h1 h2 =>
      have e := ih1 _ h1
      simp only [Res.tree.injEq] at e
      obtain ⟨rfl, rfl⟩ := e
      exact ih2 _ h2
  | index _ _ ih1 ih2 =>
    cases h' with
    | none ho => simp [opens] at ho
    | id hn => simp [noParen] at hn
    | index h1 h2 =>
      have e := ih1 _ h1
      simp only [Res.tree.injEq, List.cons.injEq, true_and] at e
      obtain ⟨rfl, rfl⟩ := e
      exact ih2 _ h2
  | dot _ _ ih1 ih2 =>
    cases h' with
    | none ho => simp [opens] at ho
    | id hn => simp [noParen] at hn
    | dot h1 h2 =>
      have e := ih1 _ h1
      simp only [Res.tree.injEq] at e
      obtain ⟨rfl, rfl⟩ := e
      exact ih2 _ h2
  | arrow _ _ ih1 ih2 =>
    cases h' with
    | none ho => simp [opens] at ho
    | id hn => simp [noParen] at hn
    | arrow h1 h2 =>
      have e := ih1 _ h1
      simp only [Res.tree.injEq] at e
      obtain ⟨rfl, rfl⟩ := e
      exact ih2 _ h2
  | cond _ _ _ ih1 ih2 ih3 =>
    cases h' with
    | cond h1 h2 h3 =>
      have e := ih1 _ h1
      simp only [Res.tree.injEq, List.cons.injEq, true_and] at e
      obtain ⟨rfl, rfl⟩ := e
      have e := ih2 _ h2
      simp only [Res.tree.injEq] at e
      obtain ⟨rfl, rfl⟩ := e
      exact ih3 _ h3
    | stop hs => simp [stops] at hs
  | bin h0 hk _ _ ih1 ih2 =>
    cases h' with
    | bin _ _ h1 h2 =>
      have e := ih1 _ h1
      simp only [Res.tree.injEq] at e
      obtain ⟨rfl, rfl⟩ := e
      exact ih2 _ h2
    | stop hs =>
      simp only [stops, Bool.or_eq_true, decide_eq_true_eq] at hs
      omega
  | stop hs =>
    cases h' with
    | bin h0 hk =>
      simp only [stops, Bool.or_eq_true, decide_eq_true_eq] at hs
      omega
    | cond => simp [stops] at hs
    | stop => rfl
  | argsLast _ ih =>
    cases h' with
    | argsLast h =>
      have e := ih _ h
      simp only [Res.tree.injEq, List.cons.injEq, true_and] at e
      obtain ⟨rfl, rfl⟩ := e
      rfl
    | argsMore h =>
      have e := ih _ h
      simp at e
  | argsMore _ _ ih1 ih2 =>
    cases h' with
    | argsLast h =>
      have e := ih1 _ h
      simp at e
    | argsMore h1 h2 =>
      have e := ih1 _ h1
      simp only [Res.tree.injEq, List.cons.injEq, true_and] at e
      obtain ⟨rfl, rfl⟩ := e
      have e := ih2 _ h2
      simp only [Res.trees.injEq] at e
      obtain ⟨rfl, rfl⟩ := e
      rfl

/-! ### Printing (expression.py 321-325, 411-449, 558-566, as tokens) -/

/-- Operations printed in parentheses (444-445). -/
def parenOp (o : String) : Bool := o = "+" || o = "-" || o = "%" || o = "<<" || o = ">>"

/-- `-` before a text: two signs make the token `--`. -/
def minusBefore : List Tok → List Tok
  | .op "-" :: ts => .decr :: ts
  | ts => .op "-" :: ts

/-- A number: `str` of a negative number begins with the sign. -/
def numToks (x : Num) : List Tok := if x.toRat < 0 then [.op "-", .lit x.neg] else [.lit x]

mutual
/-- The tokens of `str(n)`. -/
def Node.toks : Node → List Tok
  | .num x _ => numToks x
  | .text s _ _ => [.id s]
  | .boxed _ es => toksL es
  | .un op _ xs =>
    if op = "__group__" then .lpar :: toksL xs ++ [.rpar]
    else if op = "__not__" then .bang :: toksL xs
    else if op = "-" then minusBefore (toksL xs)
    else .id op :: .lpar :: toksL xs ++ [.rpar]
  | .bin op _ ls rs =>
    if op = "__call__" then toksL ls ++ .lpar :: toksL rs ++ [.rpar]
    else if op = "__struct_access__" then toksL ls ++ .dot :: toksL rs
    else if op = "__pointer_access__" then toksL ls ++ .arrow :: toksL rs
    else if op = "__getitem__" then toksL ls ++ .lbr :: toksL rs ++ [.rbr]
    else if parenOp op then .lpar :: toksL ls ++ .op op :: toksL rs ++ [.rpar]
    else if op = "//" then toksL ls ++ .op "/" :: toksL rs
    else toksL ls ++ .op op :: toksL rs
  | .tri op _ fs ss ts => if op = "__trinary__" then toksL fs ++ .quest :: toksL ss ++ .colon :: toksL ts else []
  | .expr es => toksL es
/-- The elements of a list, separated by commas. -/
def toksL : List Node → List Tok
  | [] => []
  | x :: xs => match xs with
    | [] => x.toks
    | _ :: _ => x.toks ++ .comma :: toksL xs
end

/-! ### Which expressions are printed with enough parentheses -/

/-- A product or quotient. -/
def isChain : Node → Bool
  | .bin op _ _ _ => op = "*" || op = "/"
  | _ => false

mutual
/-- The text is that of a negative number, of an opposite, or of a product or quotient beginning with one: it begins with
a sign. -/
def Node.signed : Node → Bool
  | .num x _ => x.toRat < 0
  | .un op _ _ => op = "-"
  | .bin op _ ls _ => (op = "*" || op = "/") && signedL ls
  | _ => false
def signedL : List Node → Bool
  | [] => false
  | x :: xs => match xs with
    | [] => x.signed
    | _ :: _ => false
end

/-- How strongly the outermost visible operator binds (16: there is none; 12: a sign; 0: unknown, for an `Expr` object as
argument of a call, or the conditional). -/
def Node.top : Node → Nat
  | .num x _ => if x.toRat < 0 then 12 else 16
  | .bin op dt ls rs =>
    if parenOp op || lev op = 0 then 16 else if (Node.bin op dt ls rs).signed then 12 else lev op
  | .un op _ [_] => if op = "__not__" then 2 else if op = "-" then 12 else 16
  | .tri .. => 0
  | .expr _ => 0
  | _ => 16

/-- Array, structure and pointer access. -/
def accessOp (o : String) : Bool := o = "__struct_access__" || o = "__pointer_access__" || o = "__getitem__"

/-- Operations whose right operand must bind more strongly. -/
def plainInfix (o : String) : Bool := 0 < lev o && o ≠ "__pow__" && o ≠ "*"

/-- An identifier or parameter. -/
def isName : Node → Bool
  | .text _ _ o => o = .ident || o = .param
  | _ => false

/-- Something which can be a member of a structure. -/
def isMember : Node → Bool
  | .text _ _ o => o = .ident || o = .param
  | .bin op _ _ _ => op = "__call__" || accessOp op
  | _ => false

/-- A function name. -/
def isFunc : Node → Bool
  | .text _ _ o => o = .func
  | _ => false

mutual
/-- Every operand binds strongly enough for its place (a product may be the right operand of a product, and a negative
number or opposite the left operand of a product or quotient). -/
def Node.printable : Node → Bool
  | .num .. => true
  | .text _ _ o => o = .ident ∨ o = .param
  | .boxed .. => false
  | .un op _ xs => match xs with
    | [x] => x.printable && (op = "__group__" || (op = "-" && 13 ≤ x.top) || (op = "__not__" && 2 ≤ x.top))
    | _ => false
  | .bin op _ ls rs => match ls with
    | [l] =>
      if op = "__call__" then isFunc l && printableL rs && rs.length ≠ 0
      else match rs with
        | [r] => l.printable && r.printable &&
          ((op = "__getitem__" && isName l) ||
           (op = "__struct_access__" && isName l && isMember r) ||
           (op = "__pointer_access__" && isName l && isMember r) ||
           (op = "*" && (13 ≤ l.top || l.signed) && 13 ≤ r.top) ||
           (op = "__pow__" && 14 < l.top && 14 ≤ r.top) ||
           (op = "/" && l.signed && 13 < r.top) ||
           (plainInfix op && lev op ≤ l.top && lev op < r.top))
        | _ => false
    | _ => false
  | .tri op _ fs ss ts => match fs with
    | [f] => match ss with
      | [s] => match ts with
        | [t] => op = "__trinary__" && f.printable && s.printable && t.printable && 1 ≤ t.top
        | _ => false
      | _ => false
    | _ => false
  | .expr es => match es with
    | [x] => x.printable
    | _ => false
def printableL : List Node → Bool
  | [] => true
  | x :: xs => x.printable && printableL xs
end

/-! ### Values -/

/-- A binary operation on possibly undefined values. -/
def bop (ρ : Env) (o : String) (x y : Option Base) : Option Base :=
  x.bind fun a => y.bind fun b => apply2 ρ o [a] [b]

/-- Changing the sign, if `neg`. -/
def sgn (ρ : Env) (neg : Bool) (x : Option Base) : Option Base :=
  if neg then x.bind fun v => apply1 ρ "-" [v] else x

theorem bin_den_single (ρ : Env) (o : String) (t : DataType) (l r : Node) :
    (Node.bin o t [l] [r]).den ρ = bop ρ o (l.den ρ) (r.den ρ) := by
  simp only [Node.den, denL, bop]
  cases l.den ρ <;> cases r.den ρ <;> rfl

theorem un_minus_den (ρ : Env) (t : DataType) (x : Node) : (Node.un "-" t [x]).den ρ = sgn ρ true (x.den ρ) := by
  simp only [Node.den, denL, sgn, if_true]
  cases x.den ρ <;> rfl

theorem un_group_den (ρ : Env) (t : DataType) (x : Node) : (Node.un "__group__" t [x]).den ρ = x.den ρ := by
  simp only [Node.den, denL]
  cases x.den ρ <;> simp [apply1]

theorem un_not_den (ρ : Env) (t : DataType) (x : Node) :
    (Node.un "__not__" t [x]).den ρ = (x.den ρ).bind fun v => apply1 ρ "__not__" [v] := by
  simp only [Node.den, denL]
  cases x.den ρ <;> rfl

theorem tri_den (ρ : Env) (dt : DataType) (f s t : Node) :
    (Node.tri "__trinary__" dt [f] [s] [t]).den ρ = choose "__trinary__" (f.den ρ) (s.den ρ) (t.den ρ) := by
  have h : ∀ x : Node, only (denL ρ [x]) = x.den ρ := fun x => by
    simp only [denL]
    cases x.den ρ <;> rfl
  simp only [Node.den, h]

theorem tree_bin_den (ρ : Env) (o : String) (l r : Tree) (hl : l.isNone = false) :
    (Tree.bin o l r).den ρ = bop ρ o (l.den ρ) (r.den ρ) := by
  simp [Tree.den, bop, hl]

theorem tree_sign_den (ρ : Env) (t : Tree) : (Tree.bin "-" .none t).den ρ = sgn ρ true (t.den ρ) := by
  simp [Tree.den, sgn, Tree.isNone]

theorem tree_plus_den (ρ : Env) (t : Tree) : (Tree.bin "+" .none t).den ρ = t.den ρ := by
  simp [Tree.den, Tree.isNone]

theorem tree_neg_den (ρ : Env) (t : Tree) : (Tree.neg t).den ρ = sgn ρ true (t.den ρ) := by
  simp only [Tree.den, sgn, if_true]

theorem bop_mul_assoc (ρ : Env) (o : String) (ho : o = "*" ∨ o = "/") (x y z : Option Base) :
    bop ρ o (bop ρ "*" x y) z = bop ρ "*" x (bop ρ o y z) := by
  rcases x with _ | x
  · rfl
  rcases y with _ | y
  · rfl
  rcases z with _ | z
  · rcases x with x | x <;> rcases y with y | y <;> rcases ho with rfl | rfl <;> simp [bop, apply2, arith]
  rcases ho with rfl | rfl
  · rcases x with x | x <;> rcases y with y | y <;> rcases z with z | z <;> simp [bop, apply2, arith, mul_assoc]
  · rcases x with x | x <;> rcases y with y | y <;> rcases z with z | z <;> simp [bop, apply2, arith]
    by_cases h : z = 0 <;> simp [h, mul_div_assoc]

theorem bop_sgn (ρ : Env) (neg : Bool) (o : String) (ho : o = "*" ∨ o = "/") (x y : Option Base) :
    bop ρ o (sgn ρ neg x) y = sgn ρ neg (bop ρ o x y) := by
  cases neg
  · rfl
  simp only [sgn, if_true]
  rcases x with _ | x
  · rfl
  rcases y with _ | y
  · rcases x with x | x <;> rcases ho with rfl | rfl <;> simp [bop, apply2, apply1]
  rcases ho with rfl | rfl
  · rcases x with x | x <;> rcases y with y | y <;> simp [bop, apply2, apply1, arith]
  · rcases x with x | x <;> rcases y with y | y <;> simp [bop, apply2, apply1, arith]
    by_cases h : y = 0 <;> simp [h, neg_div]

/-! ### Reading what was printed -/

/-- The tokens after an operand are such that the operand ends there. -/
def Ends (m : Nat) (rest : List Tok) : Prop :=
  noParen rest = true ∧ ∀ o ts, rest = .op o :: ts → lev o < m ∨ (lev o = m ∧ o ≠ "__pow__")

theorem ite_le_nat {p : Prop} [Decidable p] {a b m : Nat} (ha : a ≤ m) (hb : b ≤ m) : (if p then a else b) ≤ m := by
  split <;> assumption

theorem ite_else {p : Prop} [Decidable p] {a b m : Nat} (h : (if p then a else b) = m) (ha : a ≠ m) : b = m := by
  split at h
  · exact absurd h ha
  · exact h

theorem ite_then {p : Prop} [Decidable p] {a b m : Nat} (h : (if p then a else b) = m) (hb : b ≠ m) : p := by
  split at h
  · assumption
  · exact absurd h hb

theorem lev_le (o : String) : lev o ≤ 14 := by
  unfold lev
  repeat' apply ite_le_nat
  all_goals omega

theorem lev_pow (o : String) (h : lev o = 14) : o = "__pow__" := by
  unfold lev at h
  iterate 12 replace h := ite_else h (by decide)
  exact ite_then h (by decide)

theorem lev_mul (o : String) (h : lev o = 13) : o = "*" ∨ o = "/" := by
  unfold lev at h
  iterate 11 replace h := ite_else h (by decide)
  refine ite_then h ?_
  split <;> decide

theorem Ends.mono {m m' : Nat} {rest : List Tok} (h : Ends m rest) (hm : m < m') : Ends m' rest :=
  ⟨h.1, fun o ts e => by rcases h.2 o ts e with h | h <;> omega⟩

theorem Ends.stops {m k : Nat} {rest : List Tok} (h : Ends m rest) (hk : m < k) : stops k rest = true := by
  match rest with
  | .op o :: ts =>
    simp only [Verif.Ex.stops, Bool.or_eq_true, decide_eq_true_eq]
    rcases h.2 o ts rfl with h | h <;> omega
  | [] => rfl
  | .lit _ :: _ => rfl
  | .id _ :: _ => rfl
  | .lpar :: _ => rfl
  | .rpar :: _ => rfl
  | .comma :: _ => rfl
  | .decr :: _ => rfl
  | .bang :: _ => rfl
  | .quest :: _ => simp only [Verif.Ex.stops, decide_eq_true_eq]; omega
  | .colon :: _ => rfl
  | .lbr :: _ => rfl
  | .rbr :: _ => rfl
  | .dot :: _ => rfl
  | .arrow :: _ => rfl

theorem Ends.stops_pow {rest : List Tok} (h : Ends 14 rest) : Verif.Ex.stops 14 rest = true := by
  match rest with
  | .op o :: ts =>
    simp only [Verif.Ex.stops, Bool.or_eq_true, decide_eq_true_eq]
    rcases h.2 o ts rfl with h | h
    · omega
    · exact absurd (lev_pow o h.1) h.2
  | [] => rfl
  | .lit _ :: _ => rfl
  | .id _ :: _ => rfl
  | .lpar :: _ => rfl
  | .rpar :: _ => rfl
  | .comma :: _ => rfl
  | .decr :: _ => rfl
  | .bang :: _ => rfl
  | .quest :: _ => rfl
  | .colon :: _ => rfl
  | .lbr :: _ => rfl
  | .rbr :: _ => rfl
  | .dot :: _ => rfl
  | .arrow :: _ => rfl

theorem lev_ne_two (o : String) : lev o ≠ 2 := by
  intro h
  unfold lev at h
  iterate 13 replace h := ite_else h (by decide)
  cases h

theorem Ends.stops_not {rest : List Tok} (h : Ends 2 rest) : Verif.Ex.stops 2 rest = true := by
  match rest with
  | .op o :: ts =>
    simp only [Verif.Ex.stops, Bool.or_eq_true, decide_eq_true_eq]
    rcases h.2 o ts rfl with h | h
    · omega
    · exact absurd h.1 (lev_ne_two o)
  | .quest :: _ => rfl
  | [] => rfl
  | .lit _ :: _ => rfl
  | .id _ :: _ => rfl
  | .lpar :: _ => rfl
  | .rpar :: _ => rfl
  | .comma :: _ => rfl
  | .decr :: _ => rfl
  | .bang :: _ => rfl
  | .colon :: _ => rfl
  | .lbr :: _ => rfl
  | .rbr :: _ => rfl
  | .dot :: _ => rfl
  | .arrow :: _ => rfl

theorem stops_15 (rest : List Tok) : stops 15 rest = true := by
  match rest with
  | .op o :: ts =>
    simp only [stops, Bool.or_eq_true, decide_eq_true_eq]
    have := lev_le o
    omega
  | [] => rfl
  | .lit _ :: _ => rfl
  | .id _ :: _ => rfl
  | .lpar :: _ => rfl
  | .rpar :: _ => rfl
  | .comma :: _ => rfl
  | .decr :: _ => rfl
  | .bang :: _ => rfl
  | .quest :: _ => rfl
  | .colon :: _ => rfl
  | .lbr :: _ => rfl
  | .rbr :: _ => rfl
  | .dot :: _ => rfl
  | .arrow :: _ => rfl

theorem ends_of_noParen {rest : List Tok} (h : noParen rest = true) : Ends 15 rest :=
  ⟨h, fun o _ _ => .inl (by have := lev_le o; omega)⟩

theorem ends_op (m : Nat) (o : String) (ts : List Tok) (h : lev o < m ∨ (lev o = m ∧ o ≠ "__pow__")) :
    Ends m (.op o :: ts) :=
  ⟨rfl, fun o' ts' e => by
    simp only [List.cons.injEq, Tok.op.injEq] at e
    rw [← e.1]; exact h⟩

/-- The tokens `c` are read as a tree of value `d`, as an operand of operators of level up to `m`. -/
def ReadsBack (c : List Tok) (m : Nat) (d : Env → Option Base) : Prop :=
  ∃ t : Tree, t.whole = true ∧ (∀ ρ, t.den ρ = d ρ) ∧
    ∀ k rest res, k ≤ m → Ends m rest → Reads (.more k t rest) res → Reads (.expr k (c ++ rest)) res

/-- The tokens `c` are read as the right operand of a product or quotient. -/
def ReadsFactor (c : List Tok) (m : Nat) (d : Env → Option Base) : Prop :=
  ∀ (o : String) (l : Tree), l.whole = true → (o = "*" ∨ (o = "/" ∧ 13 < m)) → 13 ≤ m →
    ∃ t : Tree, t.whole = true ∧ (∀ ρ, t.den ρ = bop ρ o (l.den ρ) (d ρ)) ∧
      ∀ k rest res, k ≤ 13 → Ends 13 rest → Reads (.more k t rest) res →
        Reads (.more k l (.op o :: c ++ rest)) res

theorem ReadsBack.mono {c m m' d} (h : ReadsBack c m d) (hm : m' ≤ m) : ReadsBack c m' d := by
  obtain ⟨t, hn, hd, hr⟩ := h
  refine ⟨t, hn, hd, fun k rest res hk he hmo => hr k rest res (by omega) ?_ hmo⟩
  rcases Nat.lt_or_eq_of_le hm with h | rfl
  · exact he.mono h
  · exact he

/-- A factor which is not a product itself. -/
theorem factor_of_strong {c m d} (hA : ReadsBack c m d) (h : 13 ≤ m → 13 < m) : ReadsFactor c m d := by
  intro o l hl ho h13
  obtain ⟨t, wt, hd, hr⟩ := hA
  have ho : o = "*" ∨ o = "/" := by tauto
  have hlev : lev o = 13 := by rcases ho with rfl | rfl <;> rfl
  have hrl : rightLev o = 14 := by rcases ho with rfl | rfl <;> rfl
  refine ⟨.bin o l t, whole_bin o hl wt, fun ρ => by rw [tree_bin_den _ _ _ _ (whole_some hl), hd], fun k rest res hk he hm => ?_⟩
  refine Reads.bin (by omega) (by omega) ?_ hm
  rw [hrl]
  exact hr 14 rest _ (h h13) (he.mono (h h13)) (.stop (he.stops (by omega)))

/-- A left-associative operator between two operands which bind strongly enough. -/
theorem reads_infix (o : String) {c1 m1 d1 c2 m2 d2} (hl : ReadsBack c1 m1 d1) (hr : ReadsBack c2 m2 d2) (h0 : 0 < lev o)
    (hp : o ≠ "__pow__") (h1 : lev o ≤ m1) (h2 : lev o < m2) :
    ReadsBack (c1 ++ .op o :: c2) (lev o) fun ρ => bop ρ o (d1 ρ) (d2 ρ) := by
  obtain ⟨tl, nl, dl, rl⟩ := hl
  obtain ⟨tr, nr, dr, rr⟩ := hr
  refine ⟨.bin o tl tr, whole_bin _ nl nr, fun ρ => by rw [tree_bin_den _ _ _ _ (whole_some nl), dl, dr], fun k rest res hk he hm => ?_⟩
  have e : c1 ++ .op o :: c2 ++ rest = c1 ++ (.op o :: (c2 ++ rest)) := by simp
  rw [e]
  refine rl k _ res (by omega) (ends_op _ o _ ?_) ?_
  · rcases Nat.lt_or_eq_of_le h1 with h | h
    · exact .inl h
    · exact .inr ⟨h, hp⟩
  · refine Reads.bin h0 hk ?_ hm
    rw [rightLev, if_neg hp]
    exact rr (lev o + 1) rest _ (by omega) (he.mono h2) (.stop (he.stops (by omega)))

theorem reads_pow {c1 m1 d1 c2 m2 d2} (hl : ReadsBack c1 m1 d1) (hr : ReadsBack c2 m2 d2) (h1 : 14 < m1) (h2 : 14 ≤ m2) :
    ReadsBack (c1 ++ .op "__pow__" :: c2) 14 fun ρ => bop ρ "__pow__" (d1 ρ) (d2 ρ) := by
  obtain ⟨tl, nl, dl, rl⟩ := hl
  obtain ⟨tr, nr, dr, rr⟩ := hr.mono h2
  refine ⟨.bin "__pow__" tl tr, whole_bin _ nl nr, fun ρ => by rw [tree_bin_den _ _ _ _ (whole_some nl), dl, dr], fun k rest res hk he hm => ?_⟩
  have e : c1 ++ .op "__pow__" :: c2 ++ rest = c1 ++ (.op "__pow__" :: (c2 ++ rest)) := by simp
  rw [e]
  exact rl k _ res (by omega) (ends_op _ "__pow__" _ (.inl h1))
    (Reads.bin (by decide) hk (rr 14 rest _ (Nat.le_refl _) he (.stop he.stops_pow)) hm)

/-- A product or quotient whose left operand is read. -/
theorem reads_chain {o c1 m1 d1 c2 m2 d2} (ho : o = "*" ∨ o = "/") (hl : ReadsBack c1 m1 d1) (hr : ReadsFactor c2 m2 d2)
    (h1 : 13 ≤ m1) (h2 : o = "*" ∧ 13 ≤ m2 ∨ o = "/" ∧ 13 < m2) :
    ReadsBack (c1 ++ .op o :: c2) 13 fun ρ => bop ρ o (d1 ρ) (d2 ρ) := by
  have hlev : lev o = 13 := by rcases ho with rfl | rfl <;> rfl
  have hnp : o ≠ "__pow__" := by rcases ho with rfl | rfl <;> decide
  obtain ⟨tl, nl, dl, rl⟩ := hl.mono h1
  obtain ⟨t, nt, dt, rt⟩ := hr o tl nl
    (by rcases h2 with ⟨h, _⟩ | ⟨h, h'⟩
        · exact .inl h
        · exact .inr ⟨h, h'⟩)
    (by rcases h2 with ⟨_, h⟩ | ⟨_, h⟩ <;> omega)
  refine ⟨t, nt, fun ρ => by rw [dt, dl], fun k rest res hk he hm => ?_⟩
  have e : c1 ++ .op o :: c2 ++ rest = c1 ++ (.op o :: c2 ++ rest) := by simp
  rw [e]
  exact rl k _ res hk (ends_op _ o _ (.inr ⟨hlev, hnp⟩)) (rt k rest res hk he hm)

/-- The right operand of a product may be a product or quotient. -/
theorem factor_chain {o' c1 m1 d1 c2 m2 d2} (ho' : o' = "*" ∨ o' = "/") (ha : ReadsFactor c1 m1 d1)
    (hb : ReadsFactor c2 m2 d2) (h1 : 13 ≤ m1) (h2 : o' = "*" ∧ 13 ≤ m2 ∨ o' = "/" ∧ 13 < m2) :
    ReadsFactor (c1 ++ .op o' :: c2) 13 fun ρ => bop ρ o' (d1 ρ) (d2 ρ) := by
  intro o l hl ho _
  obtain rfl : o = "*" := by
    rcases ho with h | ⟨_, h⟩
    · exact h
    · omega
  obtain ⟨t1, n1, e1, r1⟩ := ha "*" l hl (.inl rfl) h1
  obtain ⟨t2, n2, e2, r2⟩ := hb o' t1 n1
    (by rcases h2 with ⟨h, _⟩ | ⟨h, h'⟩
        · exact .inl h
        · exact .inr ⟨h, h'⟩)
    (by rcases h2 with ⟨_, h⟩ | ⟨_, h⟩ <;> omega)
  refine ⟨t2, n2, fun ρ => by rw [e2, e1, bop_mul_assoc ρ o' ho'], fun k rest res hk he hm => ?_⟩
  have e : Tok.op "*" :: (c1 ++ .op o' :: c2) ++ rest = .op "*" :: c1 ++ (.op o' :: c2 ++ rest) := by simp
  rw [e]
  refine r1 k _ res hk (ends_op _ o' _ ?_) (r2 k rest res hk he hm)
  rcases ho' with rfl | rfl <;> exact .inr ⟨rfl, by decide⟩

/-- A sign before an operand of products: the difference of a missing operand and this one. -/
theorem reads_signed {c d} (h : ReadsBack c 13 d) : ReadsBack (.op "-" :: c) 12 fun ρ => sgn ρ true (d ρ) := by
  obtain ⟨t, nt, hd, hr⟩ := h
  refine ⟨.bin "-" .none t, by simp [Tree.whole, Tree.isNone, nt], fun ρ => by rw [tree_sign_den, hd], fun k rest res hk he hm => ?_⟩
  refine Reads.none rfl (Reads.bin (by decide) hk ?_ hm)
  exact hr 13 rest _ (Nat.le_refl _) (he.mono (by omega)) (.stop (he.stops (by omega)))

theorem lev_access (op : String) (h : accessOp op = true) :
    lev op = 0 ∧ plainInfix op = false ∧ op ≠ "*" ∧ op ≠ "/" ∧ op ≠ "__pow__" ∧ op ≠ "__call__" ∧
      parenOp op = false := by
  simp only [accessOp, Bool.or_eq_true, decide_eq_true_eq] at h
  rcases h with (rfl | rfl) | rfl <;> decide

/-- An access is printable only for an identifier on the left. -/
theorem printable_access (op : String) (dt : DataType) (l r : Node) (ha : accessOp op = true)
    (h : (Node.bin op dt [l] [r]).printable = true) :
    isName l = true ∧ r.printable = true ∧ (op = "__getitem__" ∨ isMember r = true) := by
  obtain ⟨_, h1, h2, h3, h4, h5, _⟩ := lev_access op ha
  simp only [Node.printable, if_neg h5, h1, h2, h4, Bool.and_eq_true, Bool.or_eq_true, decide_eq_true_eq, false_and,
    or_false, Bool.false_eq_true, decide_false] at h
  obtain ⟨⟨_, h2⟩, h3⟩ := h
  refine ⟨?_, h2, ?_⟩
  · tauto
  · tauto

theorem signed_top (n : Node) (h : n.signed = true) (hp : n.printable = true) : n.top = 12 := by
  match n, h with
  | .num x dt, h => simpa [Node.signed, Node.top] using h
  | .un op dt xs, h =>
    simp only [Node.signed, decide_eq_true_eq] at h
    subst h
    match xs, hp with
    | [], hp => simp [Node.printable] at hp
    | _ :: _ :: _, hp => simp [Node.printable] at hp
    | [x], hp => simp [Node.top]
  | .bin op dt ls rs, h =>
    have hop : op = "*" ∨ op = "/" := by
      simp only [Node.signed, Bool.and_eq_true, Bool.or_eq_true, decide_eq_true_eq] at h
      exact h.1
    simp only [Node.top, h, if_true]
    rcases hop with rfl | rfl <;> simp [parenOp, lev]

theorem unsigned_top (op : String) (dt : DataType) (ls rs : List Node) (h : (Node.bin op dt ls rs).signed = false) :
    (Node.bin op dt ls rs).top = if parenOp op || lev op = 0 then 16 else lev op := by
  simp [Node.top, h]

theorem printable_bin (op : String) (dt : DataType) (l r : Node) (hop : op ≠ "__call__") (hacc : accessOp op = false)
    (h : (Node.bin op dt [l] [r]).printable = true) :
    l.printable = true ∧ r.printable = true ∧
    ((op = "*" ∧ (13 ≤ l.top ∨ l.signed = true) ∧ 13 ≤ r.top) ∨ (op = "__pow__" ∧ 14 < l.top ∧ 14 ≤ r.top) ∨
      (op = "/" ∧ l.signed = true ∧ 13 < r.top) ∨ (plainInfix op = true ∧ lev op ≤ l.top ∧ lev op < r.top)) := by
  simp only [Node.printable, if_neg hop, Bool.and_eq_true, Bool.or_eq_true, decide_eq_true_eq] at h
  obtain ⟨⟨h1, h2⟩, h3⟩ := h
  simp only [accessOp, Bool.or_eq_false_iff, decide_eq_false_iff_not] at hacc
  refine ⟨h1, h2, ?_⟩
  tauto

theorem head_ne_append {l : List Tok} {o : String} {ts us : List Tok} (ho : o ≠ "-") (hl : ∀ us, l ≠ .op "-" :: us) :
    l ++ .op o :: ts ≠ .op "-" :: us := by
  cases l with
  | nil => simp [ho]
  | cons t l =>
    intro h
    simp only [List.cons_append, List.cons.injEq] at h
    exact hl l (by rw [h.1])

/-- Nothing that binds like a product, or more strongly, begins with a sign. -/
theorem head_no_minus (n : Node) (hp : n.printable = true) (ht : 13 ≤ n.top) : ∀ ts, n.toks ≠ .op "-" :: ts := by
  induction hs : n.size using Nat.strongRecOn generalizing n with
  | ind m ih =>
    intro ts
    subst hs
    match n, hp, ht with
    | .num x dt, _, ht =>
      have hx : ¬x.toRat < 0 := fun h => by simp [Node.top, h] at ht
      simp [Node.toks, numToks, if_neg hx]
    | .text s dt o, _, _ => simp [Node.toks]
    | .un op dt xs, hp, ht =>
      match xs, hp with
      | [], hp => simp [Node.printable] at hp
      | _ :: _ :: _, hp => simp [Node.printable] at hp
      | [x], hp =>
        have hn : op ≠ "-" := by rintro rfl; simp [Node.top] at ht
        simp only [Node.toks, if_neg hn]
        split_ifs <;> simp
    | .bin op dt ls rs, hp, ht =>
      match ls, hp with
      | [], hp => simp [Node.printable] at hp
      | _ :: _ :: _, hp => simp [Node.printable] at hp
      | [l], hp =>
        by_cases hop : op = "__call__"
        · subst hop
          unfold Node.printable at hp
          simp only [if_true, Bool.and_eq_true] at hp
          cases l <;> simp [isFunc] at hp
          simp [Node.toks, toksL]
        match rs, hp with
        | [], hp => simp [Node.printable, hop] at hp
        | _ :: _ :: _, hp => simp [Node.printable, hop] at hp
        | [r], hp =>
          by_cases hacc : accessOp op = true
          · have hl := (printable_access op dt l r hacc hp).1
            cases l <;> simp [isName] at hl
            simp only [accessOp, Bool.or_eq_true, decide_eq_true_eq] at hacc
            rcases hacc with (rfl | rfl) | rfl <;> simp [toksL, Node.toks]
          have hacc : accessOp op = false := by simpa using hacc
          have h3 : op ≠ "__struct_access__" ∧ op ≠ "__pointer_access__" ∧ op ≠ "__getitem__" := by
            simpa [accessOp, and_assoc] using hacc
          by_cases hpar : parenOp op = true
          · simp [Node.toks, hop, hpar, h3]
          have hminus : op ≠ "-" := by rintro rfl; simp [parenOp] at hpar
          obtain ⟨hl, hr, hc⟩ := printable_bin op dt l r hop hacc hp
          have hus : (Node.bin op dt [l] [r]).signed = false := by
            cases h : (Node.bin op dt [l] [r]).signed with
            | false => rfl
            | true => have := signed_top _ h hp; omega
          have hlev : 13 ≤ lev op := by
            rw [unsigned_top op dt [l] [r] hus] at ht
            split at ht
            · rename_i h
              simp only [Bool.or_eq_true, decide_eq_true_eq] at h
              rcases h with h | h
              · exact absurd h hpar
              · rcases hc with ⟨rfl, _⟩ | ⟨rfl, _⟩ | ⟨rfl, _⟩ | ⟨h', _⟩
                · cases h
                · cases h
                · cases h
                · simp [plainInfix, h] at h'
            · exact ht
          have hltop : 13 ≤ l.top := by
            rcases hc with ⟨rfl, h | h, _⟩ | ⟨rfl, h, _⟩ | ⟨rfl, h, _⟩ | ⟨_, h, _⟩
            · exact h
            · simp [Node.signed, signedL, h] at hus
            · omega
            · simp [Node.signed, signedL, h] at hus
            · omega
          have := ih l.size (by simp only [Node.size, sizeL]; omega) l hl hltop rfl
          have hss : op ≠ "//" := by rintro rfl; simp [lev] at hlev
          simp only [Node.toks, if_neg hop, if_neg h3.1, if_neg h3.2.1, if_neg h3.2.2, hpar, if_neg hss, toksL]
          exact head_ne_append hminus this
    | .boxed .., hp, _ => simp [Node.printable] at hp
    | .tri .., _, ht => simp [Node.top] at ht
    | .expr .., _, ht => simp [Node.top] at ht

theorem minusBefore_toks (n : Node) (hp : n.printable = true) (ht : 13 ≤ n.top) :
    minusBefore n.toks = .op "-" :: n.toks := by
  unfold minusBefore
  split
  · rename_i ts h
    exact absurd h (head_no_minus n hp ht ts)
  · rfl

/-- `n` is read as a tree of the same value. -/
def Back (n : Node) : Prop := ReadsBack n.toks n.top fun ρ => n.den ρ

/-- Array, structure and pointer access. -/
theorem readsBack_access (op : String) (dt : DataType) (l r : Node) (ha : accessOp op = true) (hl : isName l = true)
    (hr : Back r) (hm : op = "__getitem__" ∨ isMember r = true) : Back (.bin op dt [l] [r]) := by
  obtain ⟨t, nt, hd, hr⟩ := hr
  match l, hl with
  | .text s dt' o, hl =>
    have hden : ∀ ρ, (Tree.bin op (.id s) t).den ρ = (Node.bin op dt [.text s dt' o] [r]).den ρ := fun ρ => by
      simp only [isName, Bool.or_eq_true, decide_eq_true_eq] at hl
      rw [tree_bin_den _ _ _ _ rfl, hd, bin_den_single]
      simp [Tree.den, Node.den, hl]
    simp only [accessOp, Bool.or_eq_true, decide_eq_true_eq] at ha
    have key : op ≠ "__getitem__" → ∀ rest res, noParen rest = true →
        Reads (.more 15 t rest) res → Reads (.expr 15 (r.toks ++ rest)) res := fun hg rest res he h => by
      have hr16 : r.top = 16 := by
        cases r <;> simp [isMember, hg] at hm
        · rfl
        · rcases hm with rfl | h
          · simp [Node.top, lev]
          · simp [Node.top, (lev_access _ h).1]
      exact hr 15 rest res (by omega) (by rw [hr16]; exact (ends_of_noParen he).mono (by omega)) h
    refine ⟨_, whole_bin op rfl nt, hden, fun k rest res hk he h => ?_⟩
    rcases ha with (rfl | rfl) | rfl
    · have e : (Node.bin "__struct_access__" dt [.text s dt' o] [r]).toks ++ rest =
          .id s :: .dot :: (r.toks ++ rest) := by simp [Node.toks, toksL]
      rw [e]
      exact .dot (key (by decide) rest _ he.1 (.stop (stops_15 rest))) h
    · have e : (Node.bin "__pointer_access__" dt [.text s dt' o] [r]).toks ++ rest =
          .id s :: .arrow :: (r.toks ++ rest) := by simp [Node.toks, toksL]
      rw [e]
      exact .arrow (key (by decide) rest _ he.1 (.stop (stops_15 rest))) h
    · have e : (Node.bin "__getitem__" dt [.text s dt' o] [r]).toks ++ rest =
          .id s :: .lbr :: (r.toks ++ .rbr :: rest) := by simp [Node.toks, toksL]
      rw [e]
      exact .index (hr 0 _ _ (Nat.zero_le _) ⟨rfl, by simp⟩ (.stop rfl)) h

/-- The conditional. -/
theorem readsBack_cond (dt : DataType) (f s t : Node) (hf : Back f) (hs : Back s) (ht : Back t) (h1 : 1 ≤ t.top) :
    Back (.tri "__trinary__" dt [f] [s] [t]) := by
  obtain ⟨tf, nf, df, rf⟩ := hf
  obtain ⟨ts, ns, ds, rs⟩ := hs
  obtain ⟨tt, nt, dt', rt⟩ := ht
  refine ⟨.cond tf ts tt, by simp [Tree.whole, nf, ns, nt], fun ρ => ?_, fun k rest res hk he hm => ?_⟩
  · simp only [Tree.den, df, ds, dt', tri_den]
  · have h0 : (Node.tri "__trinary__" dt [f] [s] [t]).top = 0 := by simp [Node.top]
    rw [h0] at hk he
    obtain rfl : k = 0 := by omega
    have e : (Node.tri "__trinary__" dt [f] [s] [t]).toks ++ rest =
        f.toks ++ .quest :: (s.toks ++ .colon :: (t.toks ++ rest)) := by
      simp [Node.toks, toksL]
    rw [e]
    refine rf 0 _ _ (Nat.zero_le _) ⟨rfl, by simp⟩ (.cond (rs 0 _ _ (Nat.zero_le _) ⟨rfl, by simp⟩ (.stop rfl)) ?_ hm)
    exact rt 1 _ _ h1 (he.mono (by omega)) (.stop (he.stops (by omega)))

/-- Reading the arguments of a call. -/
def ReadsArgs (xs : List Node) : Prop :=
  xs ≠ [] → ∃ as : List Tree, Tree.wholeL as = true ∧ (∀ ρ, Tree.denL ρ as = denL ρ xs) ∧
    ∀ rest, Reads (.args (toksL xs ++ .rpar :: rest)) (.trees as rest)

theorem readsArgs_cons (x : Node) (xs : List Node) (hx : Back x) (hxs : ReadsArgs xs) :
    ReadsArgs (x :: xs) := by
  intro _
  obtain ⟨t, nt, hd, hr⟩ := hx
  have e15 : ∀ (tk : Tok) (rest : List Tok), (tk = .rpar ∨ tk = .comma) → Ends x.top (tk :: rest) := by
    intro tk rest h
    rcases h with rfl | rfl <;> exact ⟨rfl, by simp⟩
  have st : ∀ (tk : Tok) (rest : List Tok), (tk = .rpar ∨ tk = .comma) → stops 0 (tk :: rest) = true := by
    intro tk rest h
    rcases h with rfl | rfl <;> rfl
  cases xs with
  | nil =>
    refine ⟨[t], by simp [Tree.wholeL, nt], fun ρ => ?_, fun rest => ?_⟩
    · simp only [Tree.denL, denL, hd]
    · simp only [toksL]
      exact .argsLast (hr 0 _ _ (Nat.zero_le _) (e15 _ _ (.inl rfl)) (.stop (st _ _ (.inl rfl))))
  | cons y ys =>
    obtain ⟨as, na, hd', hr'⟩ := hxs (by simp)
    refine ⟨t :: as, by simp [Tree.wholeL, nt, na], fun ρ => ?_, fun rest => ?_⟩
    · rw [Tree.denL, denL, hd, hd']
    · simp only [toksL, List.append_assoc, List.cons_append]
      exact .argsMore (hr 0 _ _ (Nat.zero_le _) (e15 _ _ (.inr rfl)) (.stop (st _ _ (.inr rfl)))) (hr' rest)

/-- What is proved by induction: `n` is read back, also as the right operand of a product, and the text of a negative number
or opposite is a sign before something of the opposite value. -/
def All (n : Node) : Prop :=
  Back n ∧ ReadsFactor n.toks n.top (fun ρ => n.den ρ) ∧
    (n.signed = true → ∃ c d, n.toks = .op "-" :: c ∧ ReadsBack c 13 d ∧ ∀ ρ, n.den ρ = sgn ρ true (d ρ))

theorem all_plain (n : Node) (h : Back n) (ht : 13 ≤ n.top → 13 < n.top) (hs : n.signed = false) : All n :=
  ⟨h, factor_of_strong h ht, fun h => by rw [hs] at h; cases h⟩

theorem all_signed (n : Node) (c : List Tok) (d : Env → Option Base) (ht : n.top = 12) (hc : n.toks = .op "-" :: c)
    (hr : ReadsBack c 13 d) (hd : ∀ ρ, n.den ρ = sgn ρ true (d ρ)) : All n := by
  have h : Back n := by
    have := reads_signed hr
    rw [← hc] at this
    obtain ⟨t, nt, dt, rt⟩ := this
    exact ⟨t, nt, fun ρ => (dt ρ).trans (hd ρ).symm, by rw [ht]; exact rt⟩
  exact ⟨h, factor_of_strong h (by omega), fun _ => ⟨c, d, hc, hr, hd⟩⟩

theorem chain_toks (op : String) (dt : DataType) (l r : Node) (h : op = "*" ∨ op = "/") :
    (Node.bin op dt [l] [r]).toks = l.toks ++ .op op :: r.toks := by
  rcases h with rfl | rfl <;> simp [Node.toks, toksL, parenOp]

mutual
theorem reads_all : ∀ (n : Node), n.printable = true → All n
  | .num x dt, hp => by
    by_cases hx : x.toRat < 0
    · refine all_signed _ [.lit x.neg] (fun _ => some (.num x.neg.toRat)) (by simp [Node.top, hx])
        (by simp [Node.toks, numToks, hx]) ⟨.lit x.neg, rfl, fun ρ => by simp [Tree.den], fun k rest res hk he hm => ?_⟩
        (fun ρ => by simp [Node.den, sgn, apply1, neg_toRat])
      exact .lit hm
    · refine all_plain _ ⟨.lit x, rfl, fun ρ => by simp [Tree.den, Node.den], fun k rest res hk he hm => ?_⟩
        (by simp [Node.top, hx]) (by simp [Node.signed, not_lt.mp hx])
      simp only [Node.toks, numToks, if_neg hx, List.cons_append, List.nil_append]
      exact .lit hm
  | .text s dt o, hp => by
    simp only [Node.printable, decide_eq_true_eq] at hp
    exact all_plain _ ⟨.id s, rfl, fun ρ => by simp [Tree.den, Node.den, hp], fun k rest res hk he hm => .id he.1 hm⟩
      (by simp [Node.top]) rfl
  | .boxed .., hp => by simp [Node.printable] at hp
  | .un op dt xs, hp => by
    match xs, hp with
    | [], hp => simp [Node.printable] at hp
    | _ :: _ :: _, hp => simp [Node.printable] at hp
    | [x], hp =>
      simp only [Node.printable, Bool.and_eq_true, Bool.or_eq_true, decide_eq_true_eq] at hp
      obtain ⟨hx, hop⟩ := hp
      have IH := reads_all x hx
      rcases hop with (rfl | ⟨rfl, hneg⟩) | ⟨rfl, h2⟩
      · have A : Back (.un "__group__" dt [x]) := by
          obtain ⟨t, nt, hd, hr⟩ := IH.1
          refine ⟨.group t, nt, fun ρ => ?_, fun k rest res hk he hm => ?_⟩
          · beta_reduce; rw [un_group_den, Tree.den, hd]
          · have e : (Node.un "__group__" dt [x]).toks ++ rest = .lpar :: (x.toks ++ .rpar :: rest) := by
              simp [Node.toks, toksL]
            rw [e]
            exact .group (hr 0 _ _ (Nat.zero_le _) ⟨rfl, by simp⟩ (.stop rfl)) hm
        exact all_plain _ A (by simp [Node.top]) (by simp [Node.signed])
      · exact all_signed _ x.toks (fun ρ => x.den ρ) (by simp [Node.top])
          (by simp [Node.toks, toksL, minusBefore_toks x hx hneg]) (IH.1.mono hneg) (fun ρ => un_minus_den ρ dt x)
      · have htop : (Node.un "__not__" dt [x]).top = 2 := by simp [Node.top]
        have A : Back (.un "__not__" dt [x]) := by
          obtain ⟨t, nt, hd, hr⟩ := IH.1.mono h2
          refine ⟨.not t, nt, fun ρ => ?_, fun k rest res hk he hm => ?_⟩
          · beta_reduce; rw [un_not_den, Tree.den, hd]
          · rw [htop] at he
            have e : (Node.un "__not__" dt [x]).toks ++ rest = .bang :: (x.toks ++ rest) := by
              simp [Node.toks, toksL]
            rw [e]
            exact .not (hr 2 _ _ (Nat.le_refl _) he (.stop he.stops_not)) hm
        exact all_plain _ A (by omega) (by simp [Node.signed])
  | .bin op dt ls rs, hp => by
    match ls, hp with
    | [], hp => simp [Node.printable] at hp
    | _ :: _ :: _, hp => simp [Node.printable] at hp
    | [l], hp =>
      by_cases hcall : op = "__call__"
      · subst hcall
        unfold Node.printable at hp
        simp only [if_true, Bool.and_eq_true, decide_eq_true_eq] at hp
        have A : Back (.bin "__call__" dt [l] rs) := by
          obtain ⟨as, na, hd, hr⟩ := reads_args rs hp.1.2 (by intro h; simp [h] at hp)
          match l, hp.1.1 with
          | .text s dt' o, hf =>
            simp only [isFunc, decide_eq_true_eq] at hf
            subst hf
            refine ⟨.call s as, na, fun ρ => ?_, fun k rest res hk he hm => ?_⟩
            · simp only [Tree.den, hd, Node.den, denL]
              cases denL ρ rs <;> simp [apply2]
            · have e : (Node.bin "__call__" dt [.text s dt' .func] rs).toks ++ rest =
                  .id s :: .lpar :: (toksL rs ++ .rpar :: rest) := by
                simp [Node.toks, toksL]
              rw [e]
              exact .call (hr rest) hm
        exact all_plain _ A (by simp [Node.top, lev]) (by simp [Node.signed])
      · match rs, hp with
        | [], hp => simp [Node.printable, hcall] at hp
        | _ :: _ :: _, hp => simp [Node.printable, hcall] at hp
        | [r], hp =>
          by_cases hacc : accessOp op = true
          · obtain ⟨hl, hr, hm⟩ := printable_access op dt l r hacc hp
            obtain ⟨h0, _, hs, hd, _, _, hpar⟩ := lev_access op hacc
            exact all_plain _ (readsBack_access op dt l r hacc hl (reads_all r hr).1 hm) (by simp [Node.top, h0])
              (by simp [Node.signed, hs, hd])
          have hacc : accessOp op = false := by simpa using hacc
          have h3 : op ≠ "__struct_access__" ∧ op ≠ "__pointer_access__" ∧ op ≠ "__getitem__" := by
            simpa [accessOp, and_assoc] using hacc
          obtain ⟨hl, hr, hc⟩ := printable_bin op dt l r hcall hacc hp
          have IHl := reads_all l hl
          have IHr := reads_all r hr
          by_cases hch : op = "*" ∨ op = "/"
          · have h12 : (13 ≤ l.top ∨ l.signed = true) ∧ (op = "*" ∧ 13 ≤ r.top ∨ op = "/" ∧ 13 < r.top) := by
              rcases hch with rfl | rfl
              · rcases hc with ⟨_, h1, h2⟩ | ⟨h, _⟩ | ⟨h, _⟩ | ⟨h, _⟩
                · exact ⟨h1, .inl ⟨rfl, h2⟩⟩
                · simp at h
                · simp at h
                · simp [plainInfix] at h
              · rcases hc with ⟨h, _⟩ | ⟨h, _⟩ | ⟨_, h1, h2⟩ | ⟨_, h1, h2⟩
                · simp at h
                · simp at h
                · exact ⟨.inr h1, .inr ⟨rfl, h2⟩⟩
                · exact ⟨.inl h1, .inr ⟨rfl, h2⟩⟩
            have hsig : (Node.bin op dt [l] [r]).signed = l.signed := by
              rcases hch with rfl | rfl <;> simp [Node.signed, signedL]
            cases hs : l.signed with
            | true =>
              obtain ⟨c, d, ec, rc, dc⟩ := IHl.2.2 hs
              have := reads_chain hch rc IHr.2.1 (Nat.le_refl _) h12.2
              refine all_signed _ _ _ (signed_top _ (hsig.trans hs) hp) ?_ this (fun ρ => ?_)
              · rw [chain_toks op dt l r hch, ec]; rfl
              · rw [bin_den_single, dc, bop_sgn ρ true op hch]
            | false =>
              have hlt : 13 ≤ l.top := by
                rcases h12.1 with h | h
                · exact h
                · rw [hs] at h; cases h
              have htop : (Node.bin op dt [l] [r]).top = 13 := by
                rw [unsigned_top _ _ _ _ (hsig.trans hs)]
                rcases hch with rfl | rfl <;> simp [parenOp, lev]
              have B := reads_chain hch IHl.1 IHr.2.1 hlt h12.2
              have F := factor_chain hch IHl.2.1 IHr.2.1 hlt h12.2
              refine ⟨?_, ?_, fun h => by rw [hsig, hs] at h; cases h⟩
              · simp only [Back, htop, chain_toks op dt l r hch, bin_den_single]
                exact B
              · simp only [htop, chain_toks op dt l r hch, bin_den_single]
                exact F
          · have hus : (Node.bin op dt [l] [r]).signed = false := by
              simp only [Node.signed, Bool.and_eq_false_iff]
              exact .inl (by simpa using hch)
            by_cases hpow : op = "__pow__"
            · subst hpow
              have h13 : 14 < l.top ∧ 14 ≤ r.top := by
                rcases hc with ⟨h, _⟩ | ⟨_, h⟩ | ⟨h, _⟩ | ⟨h, _⟩
                · simp at h
                · exact h
                · simp at h
                · simp [plainInfix] at h
              have htop : (Node.bin "__pow__" dt [l] [r]).top = 14 := by
                rw [unsigned_top _ _ _ _ hus]; simp [parenOp, lev]
              have htk : (Node.bin "__pow__" dt [l] [r]).toks = l.toks ++ .op "__pow__" :: r.toks := by
                simp [Node.toks, parenOp, toksL]
              have B := reads_pow IHl.1 IHr.1 h13.1 h13.2
              refine all_plain _ ?_ (by omega) hus
              simp only [Back, htop, htk, bin_den_single]
              exact B
            · have hpi : plainInfix op = true ∧ lev op ≤ l.top ∧ lev op < r.top := by
                rcases hc with ⟨h, _⟩ | ⟨h, _⟩ | ⟨h, _⟩ | h
                · exact absurd (.inl h) hch
                · exact absurd h hpow
                · exact absurd (.inr h) hch
                · exact h
              have h0 : 0 < lev op := by
                have := hpi.1
                simp only [plainInfix, Bool.and_eq_true, decide_eq_true_eq] at this
                exact this.1.1
              have B := reads_infix op IHl.1 IHr.1 h0 hpow hpi.2.1 hpi.2.2
              by_cases hpar : parenOp op = true
              · obtain ⟨t, nt, hd, hrd⟩ := B
                refine all_plain _ ⟨.group t, nt, fun ρ => by beta_reduce; rw [bin_den_single, Tree.den, hd],
                  fun k rest res hk he hm => ?_⟩ (by simp [Node.top, hpar]) hus
                have e : (Node.bin op dt [l] [r]).toks ++ rest =
                    .lpar :: (l.toks ++ .op op :: r.toks ++ .rpar :: rest) := by
                  simp [Node.toks, toksL, hcall, hpar, h3]
                rw [e]
                exact .group (hrd 0 _ _ (Nat.zero_le _) ⟨rfl, by simp⟩ (.stop rfl)) hm
              · have hss : op ≠ "//" := by rintro rfl; simp [lev] at h0
                have htop : (Node.bin op dt [l] [r]).top = lev op := by
                  rw [unsigned_top _ _ _ _ hus, if_neg]
                  simp only [Bool.or_eq_true, decide_eq_true_eq, not_or]
                  exact ⟨hpar, by omega⟩
                have htk : (Node.bin op dt [l] [r]).toks = l.toks ++ .op op :: r.toks := by
                  simp [Node.toks, toksL, hcall, hpar, hss, h3]
                have hlt : lev op ≠ 13 := fun h => hch (lev_mul op h)
                refine all_plain _ ?_ (by omega) hus
                simp only [Back, htop, htk, bin_den_single]
                exact B
  | .tri op dt fs ss ts, hp => by
    match fs, ss, ts, hp with
    | [f], [s], [t], hp =>
      simp only [Node.printable, Bool.and_eq_true, decide_eq_true_eq] at hp
      obtain ⟨⟨⟨⟨rfl, hf⟩, hs⟩, ht⟩, h1⟩ := hp
      exact all_plain _ (readsBack_cond dt f s t (reads_all f hf).1 (reads_all s hs).1 (reads_all t ht).1 h1)
        (by simp [Node.top]) rfl
    | [], _, _, hp => simp [Node.printable] at hp
    | _ :: _ :: _, _, _, hp => simp [Node.printable] at hp
    | [_], [], _, hp => simp [Node.printable] at hp
    | [_], _ :: _ :: _, _, hp => simp [Node.printable] at hp
    | [_], [_], [], hp => simp [Node.printable] at hp
    | [_], [_], _ :: _ :: _, hp => simp [Node.printable] at hp
  | .expr es, hp => by
    match es, hp with
    | [], hp => simp [Node.printable] at hp
    | _ :: _ :: _, hp => simp [Node.printable] at hp
    | [x], hp =>
      simp only [Node.printable] at hp
      have B : ReadsBack x.toks 0 fun ρ => x.den ρ := (reads_all x hp).1.mono (Nat.zero_le _)
      have htk : (Node.expr [x]).toks = x.toks := by simp [Node.toks, toksL]
      have htop : (Node.expr [x]).top = 0 := rfl
      refine all_plain _ ?_ (by omega) rfl
      simp only [Back, htop, htk, expr_den]
      exact B
theorem reads_args : ∀ (xs : List Node), printableL xs = true → ReadsArgs xs
  | [], _ => fun h => absurd rfl h
  | x :: xs, h => by
    simp only [printableL, Bool.and_eq_true] at h
    exact readsArgs_cons x xs (reads_all x h.1).1 (reads_args xs h.2)
end

/-! ### C13 -/

/-- The text `ts`, all of it, is read as `t`. -/
def ReadAs (ts : List Tok) (t : Tree) : Prop := Reads (.expr 0 ts) (.tree t [])

theorem readAs_unique (ts : List Tok) (t t' : Tree) (h : ReadAs ts t) (h' : ReadAs ts t') : t = t' := by
  have := reads_unique _ _ _ h h'
  simpa using this

/-- The printed text can be read, as a tree of the same value in which no operand is missing other than before a sign. -/
theorem print_read_whole (n : Node) (h : n.printable = true) :
    ∃ t, ReadAs n.toks t ∧ t.whole = true ∧ ∀ ρ, t.den ρ = n.den ρ := by
  obtain ⟨t, nt, hd, hr⟩ := (reads_all n h).1
  have hread : ReadAs n.toks t := by
    have := hr 0 [] (.tree t []) (Nat.zero_le _) ⟨rfl, by simp⟩ (.stop rfl)
    simpa [ReadAs] using this
  exact ⟨t, hread, nt, hd⟩

/-- C13, for expressions whose printed operands bind strongly enough for their place (`Node.printable`): the printed text
can be read, in exactly one way, and what is read has the value of the expression, whatever the identifiers, functions
and non-arithmetic operations stand for. Missing: expressions for which this condition fails (see the theorems below, where
it does and the claim is false, and those at the end of Visit.lean for negative numbers and opposites as right operands of
`+ - * / ^`), strings, functions other than calls (`abs`, `round`). -/
theorem print_read_partial (n : Node) (h : n.printable = true) :
    ∃ t, ReadAs n.toks t ∧ (∀ t', ReadAs n.toks t' → t' = t) ∧ ∀ ρ, t.den ρ = n.den ρ := by
  obtain ⟨t, hread, _, hd⟩ := print_read_whole n h
  exact ⟨t, hread, fun t' h' => readAs_unique _ _ _ h' hread, hd⟩

/-- What the Python expression `a` prints. -/
def Arith.text (a : Arith) : Except Err (List Tok) := a.build.map Node.toks

/-- `x * (y - 2 * z) / w`, built with the operators, meets the hypothesis. -/
example : ∃ n, (Arith.div (.mul (.id "x") (.sub (.id "y") (.mul (.int 2) (.id "z")))) (.id "w")).build = .ok n ∧
    n.printable = true :=
  ⟨.expr [.bin "/" .int [.bin "*" .int [.text "x" .undefined .ident]
    [.bin "-" .int [.text "y" .undefined .ident]
      [.bin "*" .int [.num (.int 2) .int] [.text "z" .undefined .ident]]]] [.text "w" .undefined .ident]],
    rfl, by decide +kernel⟩

/-- A call with a comparison of a power as argument. -/
example : (Node.bin "__call__" .float [.text "f" .float .func]
    [.bin "__lt__" .int [.bin "__pow__" .float [.text "x" .float .ident] [.num (.int 2) .int]]
      [.un "-" .float [.bin "*" .float [.text "y" .float .ident] [.text "z" .float .ident]]]]).printable = true := by
  decide +kernel

/-- `!x && v[i + 1] < s.m ? p->q : -y` -/
example : (Node.tri "__trinary__" .int
    [.bin "__and__" .int [.un "__not__" .int [.text "x" .int .ident]]
      [.bin "__lt__" .undefined
        [.bin "__getitem__" .undefined [.text "v" .undefined .ident]
          [.bin "+" .int [.text "i" .int .ident] [.num (.int 1) .int]]]
        [.bin "__struct_access__" .undefined [.text "s" .undefined .ident] [.text "m" .undefined .ident]]]]
    [.bin "__pointer_access__" .undefined [.text "p" .undefined .ident] [.text "q" .undefined .ident]]
    [.un "-" .float [.text "y" .float .param]]).printable = true := by
  decide +kernel

/-- C13 fails for a sum with a conditional: `Expr.parse('a ? b : c') + 1` prints as `(a ? b : c + 1)`. -/
theorem conditional_in_sum_changes_value :
    ∃ n t, pyAdd (.expr [.tri "__trinary__" .undefined [.text "a" .undefined .ident] [.text "b" .undefined .ident]
        [.text "c" .undefined .ident]]) (.expr [.num (.int 1) .int]) = .ok n ∧ ReadAs n.toks t ∧
      ∃ σ : String → ℚ, n.den (Env.ofNumbers σ (fun _ _ => none) (fun _ _ _ => none)) = some (.num 6) ∧
        t.den (Env.ofNumbers σ (fun _ _ => none) (fun _ _ _ => none)) = some (.num 5) := by
  refine ⟨.expr [.bin "+" .int [.tri "__trinary__" .undefined [.text "a" .undefined .ident]
      [.text "b" .undefined .ident] [.text "c" .undefined .ident]] [.num (.int 1) .int]],
    .group (.cond (.id "a") (.id "b") (.bin "+" (.id "c") (.lit (.int 1)))), rfl, ?_,
    fun _ => 5, by decide +kernel, by decide +kernel⟩
  have e : Node.toks (.expr [.bin "+" .int [.tri "__trinary__" .undefined [.text "a" .undefined .ident]
      [.text "b" .undefined .ident] [.text "c" .undefined .ident]] [.num (.int 1) .int]]) =
      [.lpar, .id "a", .quest, .id "b", .colon, .id "c", .op "+", .lit (.int 1), .rpar] := by decide +kernel
  rw [ReadAs, e]
  refine .group (.id rfl (.cond (.id rfl (.stop rfl)) (.id rfl ?_) (.stop rfl))) (.stop rfl)
  exact .bin (by decide) (by decide) (.lit (.stop rfl)) (.stop rfl)

/-- C13 fails for a comparison in a product: `Expr.parse('a < b') * c` prints as `a<b * c`. -/
theorem comparison_in_product_changes_value :
    ∃ n t, pyMul (.expr [.bin "__lt__" .undefined [.text "a" .undefined .ident] [.text "b" .undefined .ident]])
        (.expr [.text "c" .undefined .ident]) = .ok n ∧ ReadAs n.toks t ∧
      t = .bin "__lt__" (.id "a") (.bin "*" (.id "b") (.id "c")) := by
  refine ⟨.expr [.bin "*" .undefined [.bin "__lt__" .undefined [.text "a" .undefined .ident]
      [.text "b" .undefined .ident]] [.text "c" .undefined .ident]], _, rfl, ?_, rfl⟩
  have e : Node.toks (.expr [.bin "*" .undefined [.bin "__lt__" .undefined [.text "a" .undefined .ident]
      [.text "b" .undefined .ident]] [.text "c" .undefined .ident]]) =
      [.id "a", .op "__lt__", .id "b", .op "*", .id "c"] := by decide +kernel
  rw [ReadAs, e]
  exact .id rfl (.bin (by decide) (by decide) (.id rfl (.bin (by decide) (by decide) (.id rfl (.stop rfl))
    (.stop rfl))) (.stop rfl))

/-- C13 fails for a quotient by a product: `a / (b * c)`, built with the operators, prints as `a / b * c`, which is read as
`(a / b) * c`. -/
theorem quotient_by_product_changes_value :
    ∃ n t, (Arith.div (.id "a") (.mul (.id "b") (.id "c"))).build = .ok n ∧ ReadAs n.toks t ∧
      ∃ σ : String → ℚ, n.den (Env.ofNumbers σ (fun _ _ => none) (fun _ _ _ => none)) = some (.num (1 / 4)) ∧
        t.den (Env.ofNumbers σ (fun _ _ => none) (fun _ _ _ => none)) = some (.num 1) := by
  refine ⟨.expr [.bin "/" .undefined [.text "a" .undefined .ident]
    [.bin "*" .undefined [.text "b" .undefined .ident] [.text "c" .undefined .ident]]],
    .bin "*" (.bin "/" (.id "a") (.id "b")) (.id "c"), rfl, ?_,
    fun s => if s = "a" then 1 else 2, by decide +kernel, by decide +kernel⟩
  have e : Node.toks (.expr [.bin "/" .undefined [.text "a" .undefined .ident]
      [.bin "*" .undefined [.text "b" .undefined .ident] [.text "c" .undefined .ident]]]) =
      [.id "a", .op "/", .id "b", .op "*", .id "c"] := by decide +kernel
  rw [ReadAs, e]
  exact .id rfl (.bin (by decide) (by decide) (.id rfl (.stop (by decide)))
    (.bin (by decide) (by decide) (.id rfl (.stop rfl)) (.stop rfl)))

theorem starts_decr_unreadable (ts : List Tok) (t : Tree) : ¬ReadAs (.decr :: ts) t := by
  intro h
  cases h with
  | none _ h => cases h

/-- C13 fails for the opposite of a product with a negative factor: `-((-3) * x)`, built with the operators, prints as
`--3 * x`, which cannot be read. -/
theorem opposite_of_negative_product_unreadable :
    ∃ n, (Arith.neg (.mul (.int (-3)) (.id "x"))).build = .ok n ∧ ∀ t, ¬ReadAs n.toks t := by
  refine ⟨.expr [.un "-" .int [.bin "*" .int [.num (.int (-3)) .int] [.text "x" .undefined .ident]]],
    rfl, ?_⟩
  have e : Node.toks (.expr [.un "-" .int [.bin "*" .int [.num (.int (-3)) .int] [.text "x" .undefined .ident]]]) =
      [.decr, .lit (.int 3), .op "*", .id "x"] := by decide +kernel
  rw [e]
  exact starts_decr_unreadable _

end Verif.Ex
