import Verif.Scan.Model
import Verif.Common.Decimal

/-!
Model of src/mccode_antlr/run/runner.py, lines 5-73 and 150-188.

Words of the command line are lists of characters. Running a binary is modelled by the list of command
lines that would be issued; the file system is not modelled.
-/

namespace Verif.Runner
open Verif.Range Verif.Scan

abbrev Word := List Char

/-! ### sort_args (runner.py 58-73) -/

/-- `w.startswith('-')` -/
def isOpt (w : Word) : Bool := w.head? == some '-'

/-- line 67: `not w.startswith('-') and '=' not in w` -/
def isPlain (w : Word) : Bool := !isOpt w && !w.contains '='

/-- runner.py 61-72: the loop, returning `(first, last)`. -/
def sortLoop : List Word → List Word × List Word
  | [] => ([], [])
  | [w] => if isOpt w then ([w], []) else ([], [w])
  | w :: v :: ws =>
    if isOpt w then
      if !w.contains '=' && isPlain v then
        let r := sortLoop ws
        (w :: v :: r.1, r.2)
      else
        let r := sortLoop (v :: ws)
        (w :: r.1, r.2)
    else
      let r := sortLoop (v :: ws)
      (r.1, w :: r.2)

/-- runner.py 58-73. -/
def sortArgs (args : List Word) : List Word := (sortLoop args).1 ++ (sortLoop args).2

/-! ### Run-time options (runner.py 5-49) -/

/-- A run-time option value: `None`, a flag, or something printed as text. -/
inductive RVal
  | none
  | flag (b : Bool)
  | text (s : String)
  deriving DecidableEq, Repr

/-- Python truthiness of a value (a text is a non-empty string or number other than zero: only the
emptiness of the text is modelled). -/
def RVal.truthy : RVal → Bool
  | .none => false
  | .flag b => b
  | .text s => s != ""

/-- `str(value)` inside an f-string. -/
def RVal.str : RVal → String
  | .none => "None"
  | .flag true => "True"
  | .flag false => "False"
  | .text s => s

/-- runner.py 6-15: `insert_best_of(src, snk, names)`, with `names = canonical :: aliases`. -/
def insertBestOf (src snk : List (String × RVal)) (canonical : String) (aliases : List String) :
    List (String × RVal) :=
  match (canonical :: aliases).findSome? (dictGet src) with
  | some v => dictSet snk canonical v
  | none => snk

/-- runner.py 17-24. -/
def regularDict (args : List (String × RVal)) : List (String × RVal) :=
  let t := insertBestOf args [] "seed" ["s"]
  let t := insertBestOf args t "ncount" ["n"]
  let t := insertBestOf args t "dir" ["out_dir", "d"]
  let t := insertBestOf args t "trace" ["t"]
  let t := insertBestOf args t "gravitation" ["g"]
  let t := insertBestOf args t "bufsiz" []
  let t := insertBestOf args t "format" []
  t

/-- One `if 'key' in args and args['key'] is not None: out.append(f'--key={...}')` (e.g. lines 35-36). -/
def valueArg (args : List (String × RVal)) (key : String) : List String :=
  match dictGet args key with
  | some .none => []
  | some v => ["--" ++ key ++ "=" ++ v.str]
  | none => []

/-- One `if 'key' in args and args['key']: out.append('--key')` (e.g. lines 41-42). -/
def flagArg (args : List (String × RVal)) (key : String) : List String :=
  match dictGet args key with
  | some v => if v.truthy then ["--" ++ key] else []
  | none => []

/-- runner.py 27-49: `mccode_runtime_dict_to_args_list`. -/
def argsList (args : List (String × RVal)) : List String :=
  valueArg args "seed" ++ valueArg args "ncount" ++ valueArg args "dir" ++ flagArg args "trace" ++
  flagArg args "gravitation" ++ valueArg args "bufsiz" ++ valueArg args "format"

/-! ### Running a scan (runner.py 52-55, 150-188) -/

/-- `str(v)` of a parameter setting: a range prints as `start:step:stop` (range.py 46-47), a repeated value
prints its value (95-96), a list prints as Python prints lists. -/
inductive Shown
  | range (start step stop : ℚ)
  | value (v : Val)
  | list (l : List Val)
  deriving DecidableEq, Repr

def showSrc : Src → Shown
  | .range r => .range r.start r.step r.stop
  | .singular v _ => .value v
  | .list l => .list l
  | .scalar v => .value v

/-- A command line: its `--dir`, its option words, and its `name=value` words. -/
structure Command where
  dir : List String
  options : List String
  settings : List (String × Shown)
  deriving DecidableEq, Repr

/-- The commands of the scan branch (lines 175-183): `mccode_runtime_parameters(r_args, parameters)` is
computed anew for every point, from the unchanged `r_args` and `parameters`; `joinpath(str(number))` appends
the decimal number to the directory, a list of path components. -/
def scanCommands (rows : List (List Val)) (parameters : List (String × Src))
    (directory : List String) (rArgs : List (String × RVal)) : List Command :=
  rows.zipIdx.map fun p =>
    { dir := directory ++ [String.ofList (decimal p.2)],
      options := argsList rArgs,
      settings := parameters.map fun q => (q.1, showSrc q.2) }

/-- runner.py 161-188: the commands issued by `mccode_run_scan`, in order; `none` if the scan's rows do not
end within `fuel` iterations. In grid mode `parameters_to_scan` also replaces the `Singular` entries of
`parameters` (range.py 166-169), which does not change how they print. -/
def runScan (lower : String → String) (fuel : Nat) (parameters : List (String × Src)) (grid : Bool)
    (directory : List String) (rArgs : List (String × RVal)) : Except Err (Option (List Command)) := do
  let plan ← parametersToScan lower fuel parameters grid
  if plan.n > 1 then
    .ok (plan.rows.map fun rows => scanCommands rows parameters directory rArgs)
  else
    .ok (some [{ dir := directory, options := argsList (regularDict rArgs),
                 settings := parameters.map fun q => (q.1, showSrc q.2) }])

end Verif.Runner
