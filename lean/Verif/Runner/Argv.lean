import Verif.Loader.DatProps
import Verif.Compile.Split
import Verif.Common.Decimal

/-!
C96: the directory, options and parameters given to a run are the arguments of the program. Model of
`mccode_runtime_parameters` and `mccode_run_compiled` (src/mccode_antlr/run/runner.py 52-55, 150-158) and
`run_compiled_instrument` (src/mccode_antlr/compiler/c.py 279-313). White space is as in `Loader.isSpace` (ASCII).
-/

namespace Verif.Runner

open Verif.Loader (Text t words isSpace)
open Verif.Compile (Target)

/-- `' '.join(ws)` -/
def joinBlank (ws : List Text) : Text := [' '].intercalate ws

/-- runner.py 52-55, 155 -/
def optionText (dir : Text) (options settings : List Text) : Text :=
  t "--dir " ++ dir ++ ' ' :: (joinBlank options ++ ' ' :: joinBlank settings)

/-- The number of processes: a number, or the list of one number that `nargs=1` makes of `--process-count` (runner.py 107, 250). -/
inductive Count
  | number (n : Nat)
  | listed (n : Nat)
  deriving DecidableEq, Repr

/-- `str(target.count)` -/
def Count.text : Count → Text
  | .number n => decimal n
  | .listed n => '[' :: decimal n ++ [']']

/-- c.py 289-313: the command; `none`: not implemented. -/
def command (mpi acc : Bool) (count : Count) (mpirun : Text) (machines : Option Text) (binary : Text) (options : Text) :
    Option (List Text) :=
  let run := if mpi then
      [mpirun] ++ (if count = .number 0 then [] else [t "-np", count.text]) ++
        (match machines with | some m => [t "-machinefile", m] | none => [])
    else []
  if mpi && acc then none else some (run ++ binary :: words options)

theorem splitOnP_blank (a b : Text) : (a ++ ' ' :: b).splitOnP isSpace = a.splitOnP isSpace ++ b.splitOnP isSpace := by
  induction a with
  | nil => simp [List.splitOnP_cons_eq_if_modifyHead, isSpace]
  | cons c a ih =>
    rw [List.cons_append, List.splitOnP_cons_eq_if_modifyHead, List.splitOnP_cons_eq_if_modifyHead, ih]
    split_ifs
    · rfl
    · obtain ⟨x, xs, hx⟩ := List.exists_cons_of_ne_nil (List.splitOnP_ne_nil isSpace a)
      rw [hx]
      rfl

theorem words_blank (a b : Text) : words (a ++ ' ' :: b) = words a ++ words b := by
  rw [words, splitOnP_blank, List.filter_append]
  rfl

theorem words_join : ∀ ws : List Text, words (joinBlank ws) = ws.flatMap words
  | [] => rfl
  | [w] => by simp [joinBlank]
  | w :: v :: ws => by
    have : joinBlank (w :: v :: ws) = w ++ ' ' :: joinBlank (v :: ws) := by simp [joinBlank, List.intercalate]
    rw [this, words_blank, words_join (v :: ws)]
    rfl

/-- The words a text is given as: one if and only if it has characters but no white space. -/
theorem words_self_iff (w : Text) : words w = [w] ↔ w ≠ [] ∧ ∀ c ∈ w, isSpace c = false := by
  constructor
  · intro h
    exact Compile.words_plain w w (by rw [h]; simp)
  · rintro ⟨h1, h2⟩
    rw [words, List.splitOnP_eq_singleton h2]
    simp [h1]

/-- C96, exactly: the arguments of the program are the words of the directory, the options and the parameters. -/
theorem arguments_given (acc : Bool) (count : Count) (mpirun : Text) (machines : Option Text) (binary dir : Text)
    (options settings : List Text) :
    command false acc count mpirun machines binary (optionText dir options settings) =
      some (binary :: t "--dir" :: (words dir ++ options.flatMap words ++ settings.flatMap words)) := by
  have : optionText dir options settings = t "--dir" ++ ' ' :: (dir ++ ' ' :: (joinBlank options ++ ' ' :: joinBlank settings)) := by
    simp [optionText, t]
  rw [this]
  have hd : words (t "--dir") = [t "--dir"] := by decide +kernel
  simp only [command, words_blank, words_join, hd]
  simp

/-- A list of texts consists of the words it is split into if and only if each is a word. -/
theorem flatMap_words_iff (ws : List Text) : ws.flatMap words = ws ↔ ∀ w ∈ ws, w ≠ [] ∧ ∀ c ∈ w, isSpace c = false := by
  constructor
  · intro h w hw
    rw [← h] at hw
    obtain ⟨v, _, hw⟩ := List.mem_flatMap.1 hw
    exact Compile.words_plain v w hw
  · intro h
    induction ws with
    | nil => rfl
    | cons w ws ih =>
      rw [List.flatMap_cons, (words_self_iff w).2 (h w (by simp)), ih (fun v hv => h v (by simp [hv]))]
      rfl

/-- C96: the program gets the directory, the options and the parameters as they were given if and only if none of them is empty or
has white space in it. -/
theorem arguments_given_iff (acc : Bool) (count : Count) (mpirun : Text) (machines : Option Text) (binary dir : Text)
    (options settings : List Text) :
    command false acc count mpirun machines binary (optionText dir options settings) =
      some (binary :: t "--dir" :: dir :: (options ++ settings)) ↔
    ∀ w ∈ dir :: (options ++ settings), w ≠ [] ∧ ∀ c ∈ w, isSpace c = false := by
  rw [arguments_given, ← flatMap_words_iff]
  simp [List.flatMap_cons, List.flatMap_append]

/-- A parameter `file=my data.dat` becomes two arguments, the second of which is no setting. -/
example (binary : Text) : command false false (.number 0) (t "mpirun") none binary (optionText (t "out") [] [t "file=my data.dat"]) =
    some [binary, t "--dir", t "out", t "file=my", t "data.dat"] := by
  rw [arguments_given]
  rfl

/-- With MPI the program and its arguments follow the number of processes, which is as asked if it is given as a number. -/
theorem processes_given (n : Nat) (hn : n ≠ 0) (mpirun : Text) (binary : Text) (options : Text) :
    command true false (.number n) mpirun none binary options = some ([mpirun, t "-np", decimal n, binary] ++ words options) := by
  simp [command, hn, Count.text]

/-- C96 fails for the number of processes on the command line: whatever it is, `-np` gets a text that is no number. -/
theorem process_count_refused (n : Nat) (mpirun : Text) (machines : Option Text) (binary options : Text) :
    ∃ x rest, command true false (.listed n) mpirun machines binary options = some (mpirun :: t "-np" :: x :: rest) ∧
      ∀ m, x ≠ decimal m := by
  refine ⟨(Count.listed n).text, _, by simp [command]; rfl, ?_⟩
  intro m h
  have h1 : '[' ∈ decimal m := by rw [← h]; simp [Count.text]
  exact not_mem_decimal m '[' (.inr (by decide)) h1

end Verif.Runner
