import Verif.Range.Model
import Verif.Common.Dict

/-!
Model of scans: `Singular`, `parse_list`, `parameters_to_scan`, `parse_command_line_parameters` and
`parse_scan_parameters` (src/mccode_antlr/run/range.py, lines 79-232).

Parameter values are elements of a type `Val` (numbers or words).
A Python dictionary is an association list in insertion order with distinct keys.
-/

namespace Verif.Scan
open Verif.Range

/-- A parameter value: `Singular` values may be words (range.py 127-135). -/
inductive Val
  | num (q : ℚ)
  | word (s : List Char)
  deriving DecidableEq, Repr

/-- What a parameter may be set to (range.py 157): a range, a (possibly bounded) repeated value, or
a plain list; `scalar` is any object without `__iter__` (line 172). -/
inductive Src
  | range (r : MRange)
  | singular (v : Val) (maximum : Option Nat)
  | list (l : List Val)
  | scalar (v : Val)
  deriving DecidableEq, Repr

/-- range.py 171-172: `x if hasattr(x, '__iter__') else [x]`. -/
def Src.norm : Src → Src
  | .scalar v => .list [v]
  | s => s

/-- `len(v)` for the normalised sources (range.py 52-53, 122-123); `len` of an unbounded `Singular` is
`None`, a `TypeError`. -/
def Src.len : Src → Except Err Nat
  | .range r => r.len
  | .singular _ (some n) => .ok n
  | .singular _ none => .error .typeError
  | .list l => .ok l.length
  | .scalar _ => .error .typeError

/-- The values a source produces when iterated, for at most `fuel` loop iterations; `none` if it has not
ended by then (an unbounded `Singular` never ends, range.py 110-112). -/
def Src.vals (fuel : Nat) : Src → Option (List Val)
  | .range r => (r.iter fuel).map (·.map .num)
  | .singular v (some n) => some (List.replicate n v)
  | .singular _ none => none
  | .list l => some l
  | .scalar _ => none

/-- range.py 190: the replacement of one-element entries by a `Singular` of `n_max` repetitions. A plain
list has no attribute `value`. -/
def Src.spread (nmax : Nat) (s : Src) : Except Err Src :=
  match s.len with
  | .error e => .error e
  | .ok n =>
    if n > 1 then .ok s
    else match s with
      | .range r => (r.getitem 0).map fun q => .singular (.num q) (some nmax)
      | .singular v _ => .ok (.singular v (some nmax))
      | .list _ => .error .attributeError
      | .scalar _ => .error .attributeError

/-- Python's `zip(*columns)`: rows until the shortest column ends. -/
def zipCols : List (List Val) → Nat → List (List Val)
  | _, 0 => []
  | cols, n + 1 =>
    if cols.all (fun c => !c.isEmpty) then
      cols.filterMap List.head? :: zipCols (cols.map List.tail) n
    else []

/-- `zip(*cols)` where the number of rows is at most the length of the first column. -/
def pyZip : List (List Val) → List (List Val)
  | [] => []
  | c :: cs => zipCols (c :: cs) c.length

/-- `itertools.product(*columns)`: the rightmost column advances on every row. -/
def product : List (List Val) → List (List Val)
  | [] => [[]]
  | c :: cs => c.flatMap fun v => (product cs).map (v :: ·)

/-- The answer of `parameters_to_scan`: number of points, names, rows. The rows are `none` if the
iterator has not ended within the fuel. -/
structure Plan where
  n : Nat
  names : List String
  rows : Option (List (List Val))
  deriving DecidableEq, Repr

/-- range.py 166-169: in grid mode every `Singular` gets `maximum` one. -/
def gridify : Src → Src
  | .singular v _ => .singular v (some 1)
  | s => s

/-- Python `max` of a non-empty list of naturals (0 for the empty list, which is excluded at line 173). -/
def maxLen (l : List Nat) : Nat := l.foldl max 0

/-- range.py 157-190: `parameters_to_scan`. `lower` is `str.lower`. -/
def parametersToScan (lower : String → String) (fuel : Nat)
    (ps : List (String × Src)) (grid : Bool) : Except Err Plan :=
  let ps := if grid then ps.map (fun p => (p.1, gridify p.2)) else ps
  let names := ps.map (fun p => lower p.1)
  let values := ps.map (fun p => p.2.norm)
  if values.isEmpty then .ok ⟨0, names, some []⟩
  else if grid then do
    let lens ← values.mapM Src.len
    .ok ⟨lens.prod, names, (values.mapM (Src.vals fuel)).map product⟩
  else do
    let lens ← values.mapM Src.len
    let nmax := maxLen lens
    if lens.any (fun n => decide (n > 1) && decide (n ≠ nmax)) then .error .valueError
    else
      let cols ← values.mapM (Src.spread nmax)
      .ok ⟨nmax, names, (cols.mapM (Src.vals fuel)).map pyZip⟩

/-! ### Command line words (range.py 142-154, 199-217) -/

abbrev Word := List Char

/-- Python `w.split('=', 1)` when `'=' in w`. -/
def splitEq : Word → Word × Word
  | [] => ([], [])
  | c :: cs => if c = '=' then ([], cs) else let (k, v) := splitEq cs; (c :: k, v)

/-- range.py 199-217: the scanner loop of `parse_command_line_parameters`, on the words not yet
consumed. `conv` is `_MRange_or_Singular`. -/
def parseLoop {V : Type} (conv : Word → Except Err V) (d : List (Word × V)) :
    List Word → Except Err (List (Word × V))
  | [] => .ok d
  | [w] =>
    if '=' ∈ w then
      match conv (splitEq w).2 with
      | .error e => .error e
      | .ok v => .ok (dictSet d (splitEq w).1 v)
    else .error .valueError
  | w :: w' :: ws =>
    if '=' ∈ w then
      match conv (splitEq w).2 with
      | .error e => .error e
      | .ok v => parseLoop conv (dictSet d (splitEq w).1 v) (w' :: ws)
    else if '=' ∉ w' then
      match conv w' with
      | .error e => .error e
      | .ok v => parseLoop conv (dictSet d w v) ws
    else .error .valueError

/-- range.py 199-217. -/
def parseCommandLine {V : Type} (conv : Word → Except Err V) (ws : List Word) :
    Except Err (List (Word × V)) := parseLoop conv [] ws

/-- range.py 142-154: `parse_list`, which lower-cases names and consumes its argument; the second
component is what is left of the argument list. -/
def parseListLoop {V : Type} (lower : Word → Word) (conv : Word → Except Err V) (d : List (Word × V)) :
    List Word → Except Err (List (Word × V) × List Word)
  | [] => .ok (d, [])
  | [w] =>
    if '=' ∈ w then
      match conv (splitEq w).2 with
      | .error e => .error e
      | .ok v => .ok (dictSet d (lower (splitEq w).1) v, [])
    else .error .valueError
  | w :: w' :: ws =>
    if '=' ∈ w then
      match conv (splitEq w).2 with
      | .error e => .error e
      | .ok v => parseListLoop lower conv (dictSet d (lower (splitEq w).1) v) (w' :: ws)
    else if '=' ∉ w' then
      match conv w' with
      | .error e => .error e
      | .ok v => parseListLoop lower conv (dictSet d (lower w) v) ws
    else .error .valueError

/-- range.py 228: `len(v) if isinstance(v, MRange) else 1`. -/
def Src.scanLen : Src → Except Err Nat
  | .range r => r.len
  | _ => .ok 1

/-- range.py 229-231: an unbounded `Singular` is replaced by one of `m` repetitions. -/
def Src.bound (m : Nat) : Src → Src
  | .singular v none => .singular v (some m)
  | s => s

/-- range.py 220-232: `parse_scan_parameters` after the words have been parsed: unbounded `Singular`s are
bounded by the longest range (at least one). -/
def boundSingulars (ps : List (String × Src)) : Except Err (List (String × Src)) :=
  match ps.mapM (fun p => p.2.scanLen) with
  | .error e => .error e
  | .ok lens =>
    let m := if ps.isEmpty then 1 else maxLen lens
    .ok (ps.map fun p => (p.1, p.2.bound m))

end Verif.Scan
