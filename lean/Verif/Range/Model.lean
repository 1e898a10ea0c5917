import Mathlib.Data.Rat.Floor

/-!
Model of `MRange` (src/mccode_antlr/run/range.py, lines 6-76).

Numbers are exact rationals: Python `int` and `float` values are both represented in `ℚ`; rounding of
floating point arithmetic is not modelled.
-/

namespace Verif.Range

/-- The exceptions the range code can raise. -/
inductive Err
  | valueError | zeroDivision | indexError | typeError | attributeError
  deriving DecidableEq, Repr

/-- range.py 10-13: the three attributes of a range. -/
structure MRange where
  start : ℚ
  stop : ℚ
  step : ℚ
  deriving DecidableEq, Repr

/-- range.py 10-18: `MRange.__init__`. -/
def MRange.new (start stop step : ℚ) : Except Err MRange :=
  if start = stop then .error .valueError
  else if step = 0 then .error .zeroDivision
  else .ok ⟨start, stop, step⟩

/-- range.py 35: the condition of the `while` loop in `range_gen`, with `v` the loop variable. -/
def MRange.cond (r : MRange) (v : ℚ) : Bool :=
  (decide (r.step > 0) && decide (v + r.step ≤ r.stop)) ||
  (decide (r.step < 0) && decide (v + r.step ≥ r.stop))

/-- range.py 32-38: the body of the generator, run for at most `fuel` iterations from the loop state
`(v, i)`. The answer is `none` when the loop has not ended after `fuel` iterations. -/
def MRange.loop (r : MRange) : Nat → ℚ → Nat → Option (List ℚ)
  | 0, _, _ => none
  | fuel + 1, v, i =>
    if r.cond v then
      -- `v = i * step + start; i += 1; yield v`
      (r.loop fuel ((i : ℚ) * r.step + r.start) (i + 1)).map
        (fun l => ((i : ℚ) * r.step + r.start) :: l)
    else some []

/-- range.py 31-39: `list(r)`, given up after `fuel` iterations. -/
def MRange.iter (r : MRange) (fuel : Nat) : Option (List ℚ) := r.loop fuel r.start 0

/-- Python's `int(x)`: truncation towards zero. -/
def pyInt (q : ℚ) : ℤ := if 0 ≤ q then ⌊q⌋ else ⌈q⌉

/-- range.py 52-53: `__len__`; the builtin `len` raises `ValueError` for a negative answer and
the division raises for a zero step. -/
def MRange.len (r : MRange) : Except Err Nat :=
  if r.step = 0 then .error .zeroDivision
  else
    let n := pyInt ((r.stop - r.start) / r.step) + 1
    if n < 0 then .error .valueError else .ok n.toNat

/-- range.py 41-44: `__getitem__`. -/
def MRange.getitem (r : MRange) (index : Int) : Except Err ℚ :=
  match r.len with
  | .error e => if index < 0 then .error .indexError else .error e
  | .ok n =>
    if index < 0 ∨ index ≥ n then .error .indexError
    else .ok ((index : ℚ) * r.step + r.start)

/-- range.py 24-29: the reported extremes. -/
def MRange.min (r : MRange) : ℚ := r.start
def MRange.max (r : MRange) : ℚ := r.stop

/-! ### Text form (range.py 46-47, 55-76) -/

/-- Python `str.count(':')`. -/
def colons (s : List Char) : Nat := s.count ':'

/-- Python `str.split(':')` on a single separator character. -/
def splitColon : List Char → List (List Char)
  | [] => [[]]
  | c :: cs =>
    if c = ':' then [] :: splitColon cs
    else match splitColon cs with
      | [] => [[c]]
      | w :: ws => (c :: w) :: ws

/-- range.py 55-76: `MRange.from_str`; `num` is the `float_or_int` conversion (lines 60-65). -/
def MRange.fromStr (num : List Char → Except Err ℚ) (s : List Char) : Except Err MRange :=
  if colons s > 2 then .error .valueError
  else
    match splitColon s with
    | [a] => do MRange.new (← num a) (← num a) (← num ['1'])
    | [a, b] => do MRange.new (← num a) (← num b) (← num ['1'])
    | [a, b, c] => do MRange.new (← num a) (← num c) (← num b)
    | _ => .error .valueError

/-- range.py 46-47: `MRange.__str__`; `shw` prints one number. -/
def MRange.str (shw : ℚ → List Char) (r : MRange) : List Char :=
  shw r.start ++ ':' :: shw r.step ++ ':' :: shw r.stop

end Verif.Range
