import Verif.Expr.Lemmas
import Verif.Expr.Semantics

/-!
Property C120: the names of instrument parameters in expressions.

In the generated C an instrument parameter `E` is `_instrument_var._parameters.E`. The prefix is written where a `Value` is
flagged as a parameter (src/mccode_antlr/common/expression.py 706-722), which is done when an instrument is read, and once more for
all instances when the translator is made (src/mccode_antlr/translators/target.py 31), for what was made without reading.
Values that are lists are not modelled here (see C77 and C119).
-/

namespace Verif.Ex
open Verif.DT

mutual
/-- `verify_parameters` (expression.py 377-380, 531-534, 633-635, 1014-1016, 1337-1339). A `Value` that holds an `Expr` is
no identifier, and its inside is not looked at. -/
def Node.flag (names : List String) : Node → Node
  | .num x dt => .num x dt
  | .text s dt o => if (o = .ident ∨ o = .param) ∧ s ∈ names then .text s dt .param else .text s dt o
  | .boxed dt es => .boxed dt es
  | .un op dt xs => .un op dt (flagL names xs)
  | .bin op dt ls rs => .bin op dt (flagL names ls) (flagL names rs)
  | .tri op dt fs ss ts => .tri op dt (flagL names fs) (flagL names ss) (flagL names ts)
  | .expr es => .expr (flagL names es)
/-- The same for a list of nodes. -/
def flagL (names : List String) : List Node → List Node
  | [] => []
  | x :: xs => x.flag names :: flagL names xs
end

mutual
/-- The names written into the C for an expression, from left to right, each with whether it has the prefix
(expression.py 190-191, 328-329, 452-453, 568-569, 706-722, 1030-1032). The text of an `Expr` inside a `Value` is that of `str`, without
prefixes (709). Names of operations are left out. -/
def Node.written : Node → List (String × Bool)
  | .num _ _ => []
  | .text s _ o => if o = .ident then [(s, false)] else if o = .param then [(s, true)] else []
  | .boxed _ es => (writtenL es).map fun p => (p.1, false)
  | .un _ _ xs => writtenL xs
  | .bin _ _ ls rs => writtenL ls ++ writtenL rs
  | .tri _ _ fs ss ts => writtenL fs ++ writtenL ss ++ writtenL ts
  | .expr es => writtenL es
/-- The same for a list of nodes. -/
def writtenL : List Node → List (String × Bool)
  | [] => []
  | x :: xs => x.written ++ writtenL xs
end

mutual
/-- No `Value` holds an `Expr`. -/
def Node.boxFree : Node → Bool
  | .num _ _ => true
  | .text _ _ _ => true
  | .boxed _ _ => false
  | .un _ _ xs => boxFreeL xs
  | .bin _ _ ls rs => boxFreeL ls && boxFreeL rs
  | .tri _ _ fs ss ts => boxFreeL fs && boxFreeL ss && boxFreeL ts
  | .expr es => boxFreeL es
/-- The same for a list of nodes. -/
def boxFreeL : List Node → Bool
  | [] => true
  | x :: xs => x.boxFree && boxFreeL xs
end

/-- An instance as far as expressions go (instr/instance.py 21-35): the values of its parameters, its place and rotation, and
the conditions of SPLIT, WHEN and JUMP. -/
structure Placed where
  parameters : List (String × Node)
  place : List Node := []
  split : Option Node := none
  when_ : Option Node := none
  jump : List Node := []

/-- `Instance.verify_parameters` (instr/instance.py 155-160). -/
def Placed.verify (names : List String) (i : Placed) : Placed :=
  { i with parameters := i.parameters.map fun p => (p.1, p.2.flag names) }

/-- `Instr.verify_instance_parameters` (instr/instr.py 489-493), which the translator calls (translators/target.py 31). -/
def verifyAll (names : List String) (is : List Placed) : List Placed := is.map (Placed.verify names)

/-- `Instr.check_expr` of a text (instr/instr.py 495-502), as called for the places and rotations of an `Assembler`
(assembler/assembler.py 41): `Expr.best` (common/expression.py 771-779, 1096-1097) takes any text that is not in double quotes for one
identifier; it is then flagged. The empty text is left out, which raises. -/
def checkText (names : List String) (s : String) : Node :=
  (Node.expr [if s.front = '"' ∧ s.back = '"' then .text s .str .value else .text s .undefined .ident]).flag names

/-! ### The names -/

mutual
theorem written_flag (names : List String) : ∀ n : Node, n.boxFree = true →
    (n.flag names).written = n.written.map fun p => (p.1, p.2 || decide (p.1 ∈ names))
  | .num _ _, _ => rfl
  | .text s dt o, _ => by
    by_cases hs : s ∈ names <;> cases o <;> simp [Node.flag, Node.written, hs]
  | .boxed _ _, h => by simp [Node.boxFree] at h
  | .un _ _ xs, h => by
    simp only [Node.boxFree] at h
    simp only [Node.flag, Node.written, writtenL_flag names xs h]
  | .bin _ _ ls rs, h => by
    simp only [Node.boxFree, Bool.and_eq_true] at h
    simp only [Node.flag, Node.written, writtenL_flag names ls h.1, writtenL_flag names rs h.2, List.map_append]
  | .tri _ _ fs ss ts, h => by
    simp only [Node.boxFree, Bool.and_eq_true] at h
    simp only [Node.flag, Node.written, writtenL_flag names fs h.1.1, writtenL_flag names ss h.1.2,
      writtenL_flag names ts h.2, List.map_append]
  | .expr es, h => by
    simp only [Node.boxFree] at h
    simp only [Node.flag, Node.written, writtenL_flag names es h]
theorem writtenL_flag (names : List String) : ∀ xs : List Node, boxFreeL xs = true →
    writtenL (flagL names xs) = (writtenL xs).map fun p => (p.1, p.2 || decide (p.1 ∈ names))
  | [], _ => rfl
  | x :: xs, h => by
    simp only [boxFreeL, Bool.and_eq_true] at h
    simp only [flagL, writtenL, written_flag names x h.1, writtenL_flag names xs h.2, List.map_append]
end

/-- C120, as far as it goes: in the C for a parameter of an instance, all names are those which were there before, in the same
order; they are written with the prefix if they are the name of an instrument parameter, and otherwise if they had it
before. (Missing: values that hold an `Expr`, see `boxed_unflagged`; the other expressions of an instance, see
`conditions_unflagged`; and members of structures, see `member_prefixed`.) -/
theorem names_prefixed_partial (names : List String) (is : List Placed) (i : Nat) (a : Placed) (ha : is[i]? = some a) :
    ∃ b, (verifyAll names is)[i]? = some b ∧ b.parameters.length = a.parameters.length ∧
      ∀ (k : Nat) (p : String) (n : Node), a.parameters[k]? = some (p, n) → n.boxFree = true →
        ∃ m, b.parameters[k]? = some (p, m) ∧
          m.written = n.written.map fun q => (q.1, q.2 || decide (q.1 ∈ names)) := by
  refine ⟨a.verify names, by simp [verifyAll, ha], by simp [Placed.verify], fun k p n hk hu => ?_⟩
  exact ⟨n.flag names, by simp [Placed.verify, hk], written_flag names n hu⟩

/-- `E` is a parameter, `k` is not; `f` is a function. -/
example : ((Node.expr [.bin "*" .float [.text "E" .undefined .ident]
    [.bin "__call__" .undefined [.text "f" .undefined .func] [.text "k" .undefined .ident]]]).flag ["E"]).written =
    [("E", true), ("k", false)] := by decide +kernel

/-! ### The values -/

mutual
/-- The value of an expression in C: names with the prefix are members of the parameters, others are variables. What is inside a
`Value` is written without prefixes. -/
def Node.inC (ρ : Env) (par : String → Option Base) : Node → Option Base
  | .num x _ => some (.num x.toRat)
  | .text s _ o => if o = .ident then ρ.var s else if o = .param then par s else some (.text s)
  | .boxed _ es => only (denL ρ es)
  | .un op _ xs => (inCL ρ par xs).bind (apply1 ρ op)
  | .bin op _ ls rs => (inCL ρ par ls).bind fun a => (inCL ρ par rs).bind (apply2 ρ op a)
  | .tri op _ fs ss ts => choose op (only (inCL ρ par fs)) (only (inCL ρ par ss)) (only (inCL ρ par ts))
  | .expr es => only (inCL ρ par es)
/-- The same for a list of nodes. -/
def inCL (ρ : Env) (par : String → Option Base) : List Node → Option (List Base)
  | [] => some []
  | x :: xs => (x.inC ρ par).bind fun v => (inCL ρ par xs).map (v :: ·)
end

/-- The meaning intended: a name is a parameter of the instrument, if there is one of that name, or else a variable. -/
def Env.within (ρ : Env) (names : List String) (par : String → Option Base) : Env :=
  { ρ with var := fun s => if s ∈ names then par s else ρ.var s }

mutual
theorem inC_flag (ρ : Env) (names : List String) (par : String → Option Base) : ∀ n : Node, n.boxFree = true →
    (∀ s, (s, true) ∈ n.written → s ∈ names) → (n.flag names).inC ρ par = n.den (ρ.within names par)
  | .num _ _, _, _ => rfl
  | .text s dt o, _, h => by
    by_cases hs : s ∈ names
    · cases o <;> simp [Node.flag, Node.inC, Node.den, Env.within, hs]
    · cases o <;> simp [Node.flag, Node.inC, Node.den, Env.within, hs]
      exact absurd (h s (by simp [Node.written])) hs
  | .boxed _ _, h, _ => by simp [Node.boxFree] at h
  | .un _ _ xs, h, hw => by
    simp only [Node.boxFree] at h
    simp only [Node.flag, Node.inC, Node.den, inCL_flag ρ names par xs h hw]
    rfl
  | .bin _ _ ls rs, h, hw => by
    simp only [Node.boxFree, Bool.and_eq_true] at h
    simp only [Node.written, List.mem_append] at hw
    simp only [Node.flag, Node.inC, Node.den, inCL_flag ρ names par ls h.1 fun s hs => hw s (.inl hs),
      inCL_flag ρ names par rs h.2 fun s hs => hw s (.inr hs)]
    rfl
  | .tri _ _ fs ss ts, h, hw => by
    simp only [Node.boxFree, Bool.and_eq_true] at h
    simp only [Node.written, List.mem_append] at hw
    simp only [Node.flag, Node.inC, Node.den, inCL_flag ρ names par fs h.1.1 fun s hs => hw s (.inl (.inl hs)),
      inCL_flag ρ names par ss h.1.2 fun s hs => hw s (.inl (.inr hs)),
      inCL_flag ρ names par ts h.2 fun s hs => hw s (.inr hs)]
  | .expr es, h, hw => by
    simp only [Node.boxFree] at h
    simp only [Node.flag, Node.inC, Node.den, inCL_flag ρ names par es h hw]
theorem inCL_flag (ρ : Env) (names : List String) (par : String → Option Base) : ∀ xs : List Node, boxFreeL xs = true →
    (∀ s, (s, true) ∈ writtenL xs → s ∈ names) → inCL ρ par (flagL names xs) = denL (ρ.within names par) xs
  | [], _, _ => rfl
  | x :: xs, h, hw => by
    simp only [boxFreeL, Bool.and_eq_true] at h
    simp only [writtenL, List.mem_append] at hw
    simp only [flagL, inCL, denL, inC_flag ρ names par x h.1 fun s hs => hw s (.inl hs),
      inCL_flag ρ names par xs h.2 fun s hs => hw s (.inr hs)]
end

/-- C120, as far as it goes: the value which C gives to a parameter of an instance is that of the expression, where each name is the
instrument parameter of that name, if there is one, and else a variable. The condition on `n` is that no name is flagged
already, other than those of parameters of this instrument. -/
theorem values_in_C_partial (ρ : Env) (names : List String) (par : String → Option Base) (a : Placed) (k : Nat) (p : String)
    (n : Node) (hk : a.parameters[k]? = some (p, n)) (hu : n.boxFree = true)
    (hn : ∀ s, (s, true) ∈ n.written → s ∈ names) :
    ∃ m, (a.verify names).parameters[k]? = some (p, m) ∧ m.inC ρ par = n.den (ρ.within names par) :=
  ⟨n.flag names, by simp [Placed.verify, hk], inC_flag ρ names par n hu hn⟩

/-- `2 * E` with `E = 5`, and a variable `E` of another value. -/
example : ((Node.bin "*" .float [.num (.int 2) .int] [.text "E" .undefined .ident]).flag ["E"]).inC
    { var := fun _ => some (.num 1), fn1 := fun _ _ => none, fn2 := fun _ _ _ => none } (fun _ => some (.num 5)) =
    some (.num 10) := by decide +kernel

/-! ### Where it fails -/

/-- C120, where it fails: a name in the condition of WHEN, SPLIT or JUMP, or in a place or rotation, which was not flagged when
that was made, is written without the prefix although there is a parameter of that name. -/
theorem conditions_unflagged (names : List String) (is : List Placed) (i : Nat) (a : Placed) (ha : is[i]? = some a) (n : Node)
    (hn : n ∈ a.when_.toList ++ a.split.toList ++ a.jump ++ a.place) (s : String) (_hs : s ∈ names)
    (hw : (s, false) ∈ n.written) :
    ∃ b, (verifyAll names is)[i]? = some b ∧
      ∃ m ∈ b.when_.toList ++ b.split.toList ++ b.jump ++ b.place, (s, false) ∈ m.written :=
  ⟨a.verify names, by simp [verifyAll, ha], n, hn, hw⟩

/-- An instance with `WHEN E > 3`, made without reading a file: the C has the bare name. -/
example : ((Placed.verify ["E"] { parameters := [], when_ := some (.bin "__gt__" .undefined
    [.text "E" .undefined .ident] [.num (.int 3) .int]) }).when_.map Node.written) = some [("E", false)] := by decide +kernel

/-- C120, where it fails: no name in an `Expr` inside a `Value` has the prefix, whether flagged or not. -/
theorem boxed_unflagged (names : List String) (dt : DataType) (es : List Node) :
    ((Node.boxed dt es).flag names).written = (writtenL es).map fun p => (p.1, false) := rfl

/-- C120, where it fails: the member `x.E` of a structure becomes `x._instrument_var._parameters.E` if there is a parameter `E`. -/
theorem member_prefixed (names : List String) (op : String) (dt d1 d2 : DataType) (x s : String) (hs : s ∈ names)
    (hx : x ∉ names) :
    ((Node.bin op dt [.text x d1 .ident] [.text s d2 .ident]).flag names).written = [(x, false), (s, true)] := by
  simp [Node.flag, flagL, Node.written, writtenL, hs, hx]

/-- C120, where it fails: a name flagged before keeps the prefix, although there is no such parameter any more. -/
theorem flagged_stays (names : List String) (s : String) (dt : DataType) (hs : s ∉ names) :
    ((Node.text s dt .param).flag names).written = [(s, true)] := by
  simp [Node.flag, Node.written, hs]

mutual
theorem flag_flag (names : List String) : ∀ n : Node, (n.flag names).flag names = n.flag names
  | .num _ _ => rfl
  | .text s dt o => by by_cases hs : s ∈ names <;> cases o <;> simp [Node.flag, hs]
  | .boxed _ _ => rfl
  | .un _ _ xs => by simp only [Node.flag, flagL_flagL names xs]
  | .bin _ _ ls rs => by simp only [Node.flag, flagL_flagL names ls, flagL_flagL names rs]
  | .tri _ _ fs ss ts => by simp only [Node.flag, flagL_flagL names fs, flagL_flagL names ss, flagL_flagL names ts]
  | .expr es => by simp only [Node.flag, flagL_flagL names es]
theorem flagL_flagL (names : List String) : ∀ xs : List Node, flagL names (flagL names xs) = flagL names xs
  | [] => rfl
  | x :: xs => by simp only [flagL, flag_flag names x, flagL_flagL names xs]
end

/-- C120: a text given for a place or rotation of an `Assembler` is written with the prefix exactly if it is the name of a parameter
the instrument has by then. Where it fails: it is not if the parameter is added later, and a text such as `2*E` is written as
it is, unless there is a parameter of that strange name. -/
theorem place_text (names : List String) (s : String) (hq : s.front ≠ '"') (later : List String) :
    (checkText names s).written = [(s, decide (s ∈ names))] ∧
      ∀ a : Placed, checkText names s ∈ a.place →
        ∃ m ∈ (a.verify later).place, m.written = [(s, decide (s ∈ names))] := by
  have h : (checkText names s).written = [(s, decide (s ∈ names))] := by
    rw [checkText, if_neg fun h => hq h.1]
    by_cases hs : s ∈ names <;> simp [Node.flag, flagL, Node.written, writtenL, hs]
  exact ⟨h, fun a ha => ⟨_, ha, h⟩⟩

example : (checkText ["E"] "E").written = [("E", true)] ∧ (checkText ["E"] "2*E").written = [("2*E", false)] := by
  decide +kernel

/-- C120: to do it again changes nothing. -/
theorem flag_again (names : List String) (is : List Placed) : verifyAll names (verifyAll names is) = verifyAll names is := by
  have h : ∀ n : Node, (n.flag names).flag names = n.flag names := flag_flag names
  simp [verifyAll, Placed.verify, h]

end Verif.Ex
