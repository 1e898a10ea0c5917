import Mathlib.Data.List.Nodup
import Mathlib.Data.Rat.Defs

/-!
C102: `Assembler.parameters` (src/mccode_antlr/assembler/assembler.py 107-124), with `Value.best`
(src/mccode_antlr/common/expression.py 771-779) and `Instr.add_parameter` (src/mccode_antlr/instr/instr.py 124-128).
Values of Python are those that matter to the branches; reading a parameter from a text is any function (C83).
-/

namespace Verif.AsmParams

abbrev Text := List Char

/-- Exceptions. -/
inductive Err
  | repeated
  | indexError
  | attributeError
  | parse
  deriving DecidableEq, Repr

/-- A value handed over; `ε` are expressions. -/
inductive Py (ε : Type)
  | expr (e : ε)
  | int (i : Int)
  | float (q : Rat)
  | str (s : Text)
  | seq (l : List (Py ε))
  | dict (l : List (Text × Py ε))
  | param (name : Text) (unit : Py ε) (e : ε)

/-- What a parameter holds: an expression handed over, or what `Expr.best` makes of a value. -/
inductive Held (ε : Type)
  | given (e : ε)
  | literal (s : Text)
  | ident (s : Text)
  | int (q : Rat)
  | float (v : Py ε)

/-- `InstrumentParameter` (parameters.py 6-10); the type of the unit is not checked. -/
structure Param (ε : Type) where
  name : Text
  unit : Py ε
  value : Held ε

variable {ε : Type}

/-- `Value.best` (expression.py 771-779). -/
def best : Py ε → Except Err (Held ε)
  | .str [] => .error .indexError
  | .str (c :: s) => .ok (if c = '"' ∧ (c :: s).getLast? = some '"' then .literal (c :: s) else .ident (c :: s))
  | .int i => .ok (.int i)
  | .float q => .ok (if q.den = 1 then .int q else .float (.float q))
  | v => .ok (.float v)

/-- A key of a dictionary. -/
def lookup (k : Text) (l : List (Text × Py ε)) : Option (Py ε) := (l.find? (·.1 == k)).map (·.2)

/-- The value and the unit (assembler.py 117-122). -/
def valueUnit : Py ε → Py ε × Py ε
  | .dict l =>
    match lookup "unit".toList l, lookup "value".toList l with
    | some u, some v => (v, u)
    | _, _ => (.dict l, .str [])
  | .seq [v, .str u] => (v, .str u)
  | v => (v, .str [])

/-- `value if isinstance(value, Expr) else Expr.best(value)` (assembler.py 123). -/
def hold : Py ε → Except Err (Held ε)
  | .expr e => .ok (.given e)
  | v => best v

/-- The parameter made of a name and a value (assembler.py 116-123). -/
def make (name : Text) : Py ε → Except Err (Param ε)
  | .param n u e => .ok ⟨n, u, .given e⟩
  | v => match hold (valueUnit v).1 with
    | .ok h => .ok ⟨name, (valueUnit v).2, h⟩
    | .error e => .error e

/-- `Instr.add_parameter` (instr.py 124-128). -/
def add (ps : List (Param ε)) (p : Param ε) : Except Err (List (Param ε)) :=
  if ps.any (·.name == p.name) then .error .repeated else .ok (ps ++ [p])

/-- A positional argument (assembler.py 108-113). -/
def positional (parse : Text → Except Err (Param ε)) : Py ε → Except Err (Param ε)
  | .str s => parse s
  | .param n u e => .ok ⟨n, u, .given e⟩
  | _ => .error .attributeError

/-- Parameters are made and added one after the other; the instrument as it is when the method returns or raises. -/
def addEach : List (Except Err (Param ε)) → List (Param ε) → List (Param ε) × Option Err
  | [], ps => (ps, none)
  | .error e :: _, ps => (ps, some e)
  | .ok p :: rest, ps =>
    match add ps p with
    | .error e => (ps, some e)
    | .ok ps' => addEach rest ps'

/-- `Assembler.parameters` (assembler.py 107-124). -/
def parameters (parse : Text → Except Err (Param ε)) (ps : List (Param ε)) (pars : List (Py ε)) (pairs : List (Text × Py ε)) :
    List (Param ε) × Option Err :=
  addEach (pars.map (positional parse) ++ pairs.map fun x => make x.1 x.2) ps

/-! ### What is described -/

/-- The value of a parameter that an expression, a number or a text stands for. -/
inductive StandsFor : Py ε → Held ε → Prop
  | expr (e : ε) : StandsFor (.expr e) (.given e)
  | int (i : Int) : StandsFor (.int i) (.int i)
  | wholeFloat (i : Int) : StandsFor (.float i) (.int i)
  | float (q : Rat) (h : ∀ i : Int, q ≠ i) : StandsFor (.float q) (.float (.float q))
  | literal (s : Text) : StandsFor (.str ('"' :: s ++ ['"'])) (.literal ('"' :: s ++ ['"']))
  | ident (s : Text) (hs : s ≠ []) (hq : s.head? ≠ some '"') : StandsFor (.str s) (.ident s)

/-- The parameter a keyword argument describes, as documented: a parameter is itself; a dictionary has value and unit, a pair has
the value and the unit as text, other values have no unit. -/
inductive Describes : Text → Py ε → Param ε → Prop
  | itself (k n : Text) (u : Py ε) (e : ε) : Describes k (.param n u e) ⟨n, u, .given e⟩
  | dict (k : Text) (l : List (Text × Py ε)) (v u : Py ε) (h : Held ε) (hv : (l.find? (·.1 == "value".toList)).map (·.2) = some v)
      (hu : (l.find? (·.1 == "unit".toList)).map (·.2) = some u) (hh : StandsFor v h) : Describes k (.dict l) ⟨k, u, h⟩
  | pair (k : Text) (v : Py ε) (u : Text) (h : Held ε) (hh : StandsFor v h) : Describes k (.seq [v, .str u]) ⟨k, .str u, h⟩
  | plain (k : Text) (v : Py ε) (h : Held ε) (hh : StandsFor v h) : Describes k v ⟨k, .str [], h⟩

theorem hold_of {v : Py ε} {h : Held ε} (hs : StandsFor v h) : hold v = .ok h := by
  cases hs with
  | expr e => rfl
  | int i => rfl
  | wholeFloat i => simp [hold, best]
  | float q h =>
    have : q.den ≠ 1 := fun hc => h q.num (Rat.den_eq_one_iff q |>.1 hc).symm
    simp [hold, best, this]
  | literal s => simp [hold, best, List.getLast?_cons]
  | ident s hs hq =>
    cases s with
    | nil => exact absurd rfl hs
    | cons c s =>
      have : c ≠ '"' := by simpa using hq
      simp [hold, best, this]

theorem make_of_describes {k : Text} {v : Py ε} {p : Param ε} (h : Describes k v p) : make k v = .ok p := by
  cases h with
  | itself n u e => rfl
  | dict l v u h hv hu hh => simp only [make, valueUnit, lookup, hu, hv, hold_of hh]
  | pair v u h hh => simp only [make, valueUnit, hold_of hh]
  | plain _ h hh =>
    have := hold_of hh
    cases hh <;> simp only [make, valueUnit, this]

theorem addEach_ok (l : List (Param ε)) : ∀ ps : List (Param ε), ((ps ++ l).map (·.name)).Nodup →
    addEach (l.map .ok) ps = (ps ++ l, none) := by
  induction l with
  | nil => intro ps _; simp [addEach]
  | cons p l ih =>
    intro ps h
    have hp : ps.any (·.name == p.name) = false := by
      rw [Bool.eq_false_iff]
      intro hc
      obtain ⟨x, hx, he⟩ := List.any_eq_true.1 hc
      rw [List.map_append, List.nodup_append] at h
      exact h.2.2 x.name (List.mem_map.2 ⟨x, hx, rfl⟩) p.name (by simp) (by simpa using he)
    simp only [List.map_cons, addEach, add, hp, Bool.false_eq_true, if_false]
    rw [ih (ps ++ [p]) (by simpa using h)]
    simp

/-- C102: arguments that describe parameters of different names, none of which the instrument has, add these parameters in order. -/
theorem described_added (parse : Text → Except Err (Param ε)) (ps : List (Param ε)) (pairs : List (Text × Py ε)) (l : List (Param ε))
    (hd : List.Forall₂ (fun x p => Describes x.1 x.2 p) pairs l) (hn : ((ps ++ l).map (·.name)).Nodup) :
    parameters parse ps [] pairs = (ps ++ l, none) := by
  have : pairs.map (fun x => make x.1 x.2) = l.map .ok := by
    induction hd with
    | nil => rfl
    | cons h _ ih =>
      have := make_of_describes h
      simp only [List.map_cons, this]
      congr 1
      exact ih (by
        refine hn.sublist ?_
        simp)
  simp only [parameters, List.map_nil, List.nil_append, this]
  exact addEach_ok l ps hn

theorem addEach_spec (l : List (Except Err (Param ε))) : ∀ (ps ps' : List (Param ε)) (e : Option Err),
    (ps.map (·.name)).Nodup → addEach l ps = (ps', e) →
    ∃ done, ps' = ps ++ done ∧ (ps'.map (·.name)).Nodup ∧ (done.map .ok <+: l) ∧
      (e = none ↔ done.map .ok = l) := by
  induction l with
  | nil =>
    intro ps ps' e hn h
    cases h
    exact ⟨[], by simp, by simpa using hn, by simp, by simp⟩
  | cons a l ih =>
    intro ps ps' e hn h
    cases a with
    | error e' =>
      cases h
      exact ⟨[], by simp, by simpa using hn, by simp, by simp⟩
    | ok p =>
      by_cases hp : ps.any (·.name == p.name) = true
      · simp only [addEach, add, hp, if_true] at h
        cases h
        exact ⟨[], by simp, by simpa using hn, by simp, by simp⟩
      · simp only [addEach, add, hp, Bool.false_eq_true, if_false] at h
        have hn' : ((ps ++ [p]).map (·.name)).Nodup := by
          rw [List.map_append, List.nodup_append]
          refine ⟨hn, by simp, ?_⟩
          intro x hx y hy hxy
          obtain ⟨q, hq, rfl⟩ := List.mem_map.1 hx
          simp only [List.map_cons, List.map_nil, List.mem_singleton] at hy
          apply hp
          rw [List.any_eq_true]
          exact ⟨q, hq, by simp [hxy, hy]⟩
        obtain ⟨done, h1, h2, h3, h4⟩ := ih _ _ _ hn' h
        refine ⟨p :: done, by simp [h1], h2, ?_, ?_⟩
        · rw [List.map_cons, List.cons_prefix_cons]
          exact ⟨rfl, h3⟩
        · rw [h4, List.map_cons]
          simp

/-- C102: whatever the arguments, the instrument keeps its parameters, no name is there twice, what is added are the first arguments
in order, and it is all of them iff nothing is raised. -/
theorem first_ones_added (parse : Text → Except Err (Param ε)) (ps ps' : List (Param ε)) (pars : List (Py ε))
    (pairs : List (Text × Py ε)) (e : Option Err) (hn : (ps.map (·.name)).Nodup) (h : parameters parse ps pars pairs = (ps', e)) :
    ∃ done, ps' = ps ++ done ∧ (ps'.map (·.name)).Nodup ∧
      (done.map .ok <+: pars.map (positional parse) ++ pairs.map fun x => make x.1 x.2) ∧
      (e = none ↔ done.length = pars.length + pairs.length) := by
  obtain ⟨done, h1, h2, h3, h4⟩ := addEach_spec _ _ _ _ hn h
  refine ⟨done, h1, h2, h3, ?_⟩
  rw [h4]
  constructor
  · intro he
    have := congrArg List.length he
    simpa using this
  · intro hl
    exact h3.eq_of_length (by simpa using hl)

/-- C102 does not hold for the pair documented, `par2=('m', 100)`: there is no unit, and the value is the pair. -/
theorem unit_first_not_unit (parse : Text → Except Err (Param ε)) (ps : List (Param ε)) (k u : Text) (i : Int)
    (hk : ∀ p ∈ ps, p.name ≠ k) :
    parameters parse ps [] [(k, .seq [.str u, .int i])] = (ps ++ [⟨k, .str [], .float (.seq [.str u, .int i])⟩], none) := by
  have : ps.any (fun x => x.name == k) = false := by
    rw [Bool.eq_false_iff]
    intro hc
    obtain ⟨x, hx, he⟩ := List.any_eq_true.1 hc
    exact hk x hx (by simpa using he)
  simp [parameters, make, valueUnit, hold, best, addEach, add, this]

/-- C102 does not hold as all or nothing: parameters before one that is there already stay when the method raises. -/
theorem raised_but_added (parse : Text → Except Err (Param ε)) (ps : List (Param ε)) (k k' : Text) (i j : Int)
    (hk : ∀ p ∈ ps, p.name ≠ k) (hk' : k' = k ∨ ∃ p ∈ ps, p.name = k') (rest : List (Text × Py ε)) :
    parameters parse ps [] ((k, .int i) :: (k', .int j) :: rest) = (ps ++ [⟨k, .str [], .int i⟩], some .repeated) := by
  have h1 : ps.any (fun x => x.name == k) = false := by
    rw [Bool.eq_false_iff]
    intro hc
    obtain ⟨x, hx, he⟩ := List.any_eq_true.1 hc
    exact hk x hx (by simpa using he)
  have h2 : (ps ++ [(⟨k, .str [], .int i⟩ : Param ε)]).any (fun x => x.name == k') = true := by
    rw [List.any_append, Bool.or_eq_true]
    rcases hk' with rfl | ⟨p, hp, rfl⟩
    · right; simp
    · left; rw [List.any_eq_true]; exact ⟨p, hp, by simp⟩
  simp only [parameters, List.map_nil, List.nil_append, List.map_cons, make, valueUnit, hold, best, addEach, add, h1, Bool.false_eq_true,
    if_false]
  simp only [h2, if_true]

/-- C102 does not hold for the name of a parameter handed over under another one. -/
theorem keyword_ignored (parse : Text → Except Err (Param ε)) (k n : Text) (u : Py ε) (e : ε) :
    parameters parse [] [] [(k, .param n u e)] = ([⟨n, u, .given e⟩], none) := rfl

/-- The hypotheses of `described_added` are met: `a=3`, `b=(2.5, 'm')`, `c='x'`. -/
example : List.Forall₂ (fun x p => Describes (ε := Unit) x.1 x.2 p)
    [("a".toList, .int 3), ("b".toList, .seq [.float (5 / 2), .str "m".toList]), ("c".toList, .str "x".toList)]
    [⟨"a".toList, .str [], .int 3⟩, ⟨"b".toList, .str "m".toList, .float (.float (5 / 2))⟩, ⟨"c".toList, .str [], .ident "x".toList⟩] := by
  refine .cons (.plain _ _ _ (.int 3)) (.cons (.pair _ _ _ _ (.float _ ?_)) (.cons (.plain _ _ _ (.ident _ (by decide) (by decide))) .nil))
  intro i hi
  have h1 : (5 / 2 : ℚ).den = 2 := by decide +kernel
  rw [hi] at h1
  simp at h1

example : (["a".toList, "b".toList, "c".toList] : List Text).Nodup := by decide +kernel

end Verif.AsmParams
