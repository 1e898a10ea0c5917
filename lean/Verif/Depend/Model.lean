import Verif.Loader.SimProps

/-!
C49: model of the directives in dependency strings, src/mccode_antlr/instr/instr.py 219-266. The environment, the files of the
registries and the output of commands are given by functions. White space is that of ASCII.
-/

namespace Verif.Depend

open Verif.Loader (Text t strip partition)

inductive Err
  | valueError
  | indexError
  | runtimeError
  deriving DecidableEq, Repr

/-- `replace` (250-261), with at most `n` directives. -/
def replaceN (start : Text) (f : Text → Except Err Text) : Nat → Text → Except Err Text
  | 0, s => .ok s
  | n + 1, s =>
    if ¬ start <:+: s then .ok s
    else
      match (partition start s).2 with
      | [] => .error .indexError
      | c :: rest =>
        if c ≠ '(' then .error .valueError
        else if ')' ∉ c :: rest then .error .valueError
        else if start <:+: (partition [')'] rest).1 then .error .valueError
        else
          match f (partition [')'] rest).1 with
          | .error e => .error e
          | .ok v =>
            match replaceN start f n (partition [')'] rest).2 with
            | .error e => .error e
            | .ok r => .ok ((partition start s).1 ++ v ++ r)

/-- `replace` (250-261): a text has fewer directives than characters. -/
def replace (start : Text) (f : Text → Except Err Text) (s : Text) : Except Err Text := replaceN start f (s.length + 1) s

/-- A registry: the files it knows and where they are. -/
structure Registry where
  known : Text → Bool
  path : Text → Text

/-- `_getpath` (219-224) as a POSIX path (232); `Path()` is `.`. -/
def getpath (regs : List Registry) (name : Text) : Text :=
  match regs.find? fun r => r.known name with
  | some r => r.path name
  | none => t "."

/-- `line.strip() for line in output.splitlines() if line.strip()` (241). Line ends next to each other give empty lines, which
are dropped. -/
def outputLines (out : Text) : List Text :=
  ((out.splitOnP fun c => c = '\n' || c = '\r' || c = '\x0b' || c = '\x0c').map strip).filter (· ≠ [])

/-- `eval_cmd` (234-244); `none` is a command that fails. -/
def evalCmd (run : Text → Option Text) (cmd : Text) : Except Err Text :=
  match run cmd with
  | none => .error .runtimeError
  | some out =>
    match outputLines out with
    | [] => .ok []
    | [l] => .ok l
    | _ :: _ :: _ => .error .runtimeError

/-- What the directives are replaced by: `environ`, the registries of the instrument and the shell (235-248). -/
structure World where
  env : Text → Option Text
  regs : List Registry
  run : Text → Option Text

/-- `eval_env` (246-248). -/
def World.evalEnv (w : World) (x : Text) : Except Err Text := .ok ((w.env x).getD [])

/-- `getpath` (231-232). -/
def World.evalPath (w : World) (x : Text) : Except Err Text := .ok (getpath w.regs x)

/-- `_replace_env_getpath_cmd` (226-266). -/
def decode (w : World) (s : Text) : Except Err Text :=
  match replace (t "ENV") w.evalEnv s with
  | .error e => .error e
  | .ok s =>
    match replace (t "GETPATH") w.evalPath s with
    | .error e => .error e
    | .ok s => replace (t "CMD") (evalCmd w.run) s

end Verif.Depend
