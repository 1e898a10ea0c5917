import Mathlib.Data.List.Basic
import Mathlib.Logic.Function.Basic

/-!
C95: running an instrument runs that instrument. Model of `_compile_instrument` and `compile_instrument`
(src/mccode_antlr/compiler/c.py 175-276), `mccode_compile`, `mccode_run` and `mccode_run_cmd`
(src/mccode_antlr/run/runner.py 131-188, 191-295), as far as it decides which program is run.

The file system maps paths to files. A compiled program is the instrument and the options it was made from. How often a program is
run (once for every point of a scan, at least once) is a number `runs`; the arguments given to it are C06 and C96.
-/

namespace Verif.Runner

inductive LErr
  | runtimeError
  | valueError
  | attributeError
  deriving DecidableEq, Repr

/-- What is at a path: a directory, or a file with its permissions; `prog` is the program if it is one. -/
inductive Entry (P : Type)
  | dir
  | file (prog : Option P) (readable executable : Bool)
  deriving DecidableEq, Repr

/-- A compiled program: what it was made from. -/
structure Prog (I O : Type) where
  instr : I
  opts : O
  deriving DecidableEq, Repr

/-- `path.is_dir()` -/
def isDir {P : Type} : Option (Entry P) → Bool
  | some .dir => true
  | _ => false

abbrev Fs (Path P : Type) := Path → Option (Entry P)

/-- The parts of the world a run depends on: the name of an instrument, joining of paths (with the extension of programs),
the working directory, whether there is a working compiler (check.py 59-92), and whether a program can be compiled. -/
structure World (Path I O : Type) where
  name : I → String
  join : Path → String → Path
  ext : String
  cwd : Path
  compiler : Bool
  compiles : I → O → Bool

section
variable {Path I O : Type} [DecidableEq Path]

/-- c.py 196-206: where the program is written. -/
def outputPath (w : World Path I O) (fs : Fs Path (Prog I O)) (instr : I) (output : Option Path) : Path :=
  let o := output.getD w.cwd
  if isDir (fs o) then w.join o (w.name instr ++ w.ext) else o

/-- c.py 191-229 behind the check of the compiler (232-244, check.py 76-92). A program that was not compiled leaves the files as they
were. A directory in the place of the program makes the compiler fail. -/
def compileInstrument (w : World Path I O) (fs : Fs Path (Prog I O)) (instr : I) (opts : O) (output : Option Path)
    (replace : Bool) : Fs Path (Prog I O) × Except LErr Path :=
  if !w.compiler then (fs, .error .runtimeError)
  else
    let o := outputPath w fs instr output
    if (fs o).isSome && !replace then (fs, .ok o)
    else if !w.compiles instr opts || isDir (fs o) then (fs, .error .runtimeError)
    else (Function.update fs o (some (.file (some ⟨instr, opts⟩) true true)), .ok o)

/-- c.py 279-324 and runner.py 150-188: the program at a path is run for every point. What is no program can not be run. -/
def execute (fs : Fs Path (Prog I O)) (binary : Path) (runs : Nat) : Except LErr (List (Prog I O)) :=
  match fs binary with
  | some (.file (some p) _ true) => .ok (List.replicate (max runs 1) p)
  | _ => .error .runtimeError

/-- runner.py 191-226: `mccode_run`. If there is a file already the target stays a `dict`, which has no attribute `type`
(c.py 290). -/
def mccodeRun (w : World Path I O) (fs : Fs Path (Prog I O)) (instr : I) (opts : O) (directory : Path)
    (binaryName : Option String) (runs : Nat) : Fs Path (Prog I O) × Except LErr (List (Prog I O)) :=
  let b := w.join directory (binaryName.getD (w.name instr))
  match fs b with
  | some (.file _ false _) => (fs, .error .valueError)
  | some _ => (fs, .error .attributeError)
  | none =>
    match compileInstrument w fs instr opts (some b) false with
    | (fs', .ok o) => (fs', execute fs' o runs)
    | (fs', .error e) => (fs', .error e)

/-- One call of the command line program. `instr` is what the file says at the time. -/
structure Invocation (Path I O : Type) where
  filename : Path
  instr : I
  opts : O
  outputFile : Option Path
  directory : Option String
  /-- are there any parameters -/
  parameters : Bool
  runs : Nat

/-- runner.py 229-295: `mccode_run_cmd`. The directory given with `-d` is a `str` (line 89), which has neither `mkdir` nor
`parent` (174, 185). -/
def runCmd (w : World Path I O) (fs : Fs Path (Prog I O)) (c : Invocation Path I O) :
    Fs Path (Prog I O) × Except LErr (List (Prog I O)) :=
  let executable : Bool := match fs c.filename with
    | some .dir => true
    | some (.file _ _ x) => x
    | none => false
  let readable : Bool := match fs c.filename with
    | some .dir => true
    | some (.file _ r _) => r
    | none => false
  if c.outputFile.isNone && executable then
    -- the target is a `dict`
    if !c.parameters then (fs, .ok [])
    else (fs, .error .attributeError)
  else if !readable then (fs, .error .runtimeError)
  else
    match compileInstrument w fs c.instr c.opts c.outputFile false with
    | (fs', .error e) => (fs', .error e)
    | (fs', .ok b) =>
      if !c.parameters then (fs', .ok [])
      else if c.directory.isSome then (fs', .error .attributeError)
      else (fs', execute fs' b c.runs)

/-- The file of the instrument is readable and no program, as is usual for a text. -/
def IsText (fs : Fs Path (Prog I O)) (p : Path) : Prop := ∃ prog, fs p = some (.file prog true false)

/-- C95, exactly: a call of the command with parameters and without `-d`, for a text that compiles, runs the program found at the
place of the output; only if there was nothing it is the program of the instrument given. -/
theorem run_cmd_runs (w : World Path I O) (fs : Fs Path (Prog I O)) (c : Invocation Path I O) (hf : IsText fs c.filename)
    (hw : w.compiler = true) (hc : w.compiles c.instr c.opts = true) (hp : c.parameters = true) (hd : c.directory = none) :
    (fs (outputPath w fs c.instr c.outputFile) = none →
      (runCmd w fs c).2 = .ok (List.replicate (max c.runs 1) ⟨c.instr, c.opts⟩)) ∧
    (∀ old r, fs (outputPath w fs c.instr c.outputFile) = some (.file (some old) r true) →
      runCmd w fs c = (fs, .ok (List.replicate (max c.runs 1) old))) := by
  obtain ⟨prog, hf⟩ := hf
  constructor
  · intro h
    simp [runCmd, hf, compileInstrument, isDir, hw, h, hc, hp, hd, execute]
  · intro old r h
    simp [runCmd, hf, compileInstrument, isDir, hw, h, hp, hd, execute]

/-- So the program run is the one of the instrument given if and only if nothing or the same program was at the place of the
output. -/
theorem run_cmd_given_iff (w : World Path I O) (fs : Fs Path (Prog I O)) (c : Invocation Path I O) (hf : IsText fs c.filename)
    (hw : w.compiler = true) (hc : w.compiles c.instr c.opts = true) (hp : c.parameters = true) (hd : c.directory = none) :
    (∃ n, (runCmd w fs c).2 = .ok (List.replicate (n + 1) ⟨c.instr, c.opts⟩)) ↔
      fs (outputPath w fs c.instr c.outputFile) = none ∨
      ∃ r, fs (outputPath w fs c.instr c.outputFile) = some (.file (some ⟨c.instr, c.opts⟩) r true) := by
  obtain ⟨h1, h2⟩ := run_cmd_runs w fs c hf hw hc hp hd
  obtain ⟨prog, hf⟩ := hf
  obtain ⟨m, hm⟩ : ∃ m, max c.runs 1 = m + 1 := ⟨max c.runs 1 - 1, by omega⟩
  constructor
  · rintro ⟨n, h⟩
    cases he : fs (outputPath w fs c.instr c.outputFile) with
    | none => exact .inl rfl
    | some e =>
      right
      cases e with
      | dir => simp [runCmd, hf, compileInstrument, isDir, hw, he, hp, hd, execute] at h
      | file p r x =>
        cases p with
        | none => simp [runCmd, hf, compileInstrument, isDir, hw, he, hp, hd, execute] at h
        | some old =>
          cases x with
          | false => simp [runCmd, hf, compileInstrument, isDir, hw, he, hp, hd, execute] at h
          | true =>
            rw [h2 old r he, hm] at h
            simp only [Except.ok.injEq, List.replicate_succ, List.cons.injEq] at h
            exact ⟨r, by rw [h.1]⟩
  · rintro (h | ⟨r, h⟩)
    · exact ⟨m, by rw [h1 h, hm]⟩
    · exact ⟨m, by rw [h2 _ r h, hm]⟩

/-- Calls of the command one after the other, on the same files: what each has run. -/
def runAll (w : World Path I O) : Fs Path (Prog I O) → List (Invocation Path I O) → List (Except LErr (List (Prog I O)))
  | _, [] => []
  | fs, c :: cs => (runCmd w fs c).2 :: runAll w (runCmd w fs c).1 cs

/-- C95 does not hold for a second call: however often the instrument is changed, and whatever the options, all calls which write
their program to the same place run the program of the first one. -/
theorem first_program_always (w : World Path I O) (fs : Fs Path (Prog I O)) (c : Invocation Path I O)
    (cs : List (Invocation Path I O)) (file out : Path) (hne : file ≠ out) (hf : IsText fs file) (ho : fs out = none)
    (hw : w.compiler = true) (hall : ∀ d ∈ c :: cs, d.filename = file ∧ w.compiles d.instr d.opts = true ∧ d.parameters = true ∧
      d.directory = none ∧ (d.outputFile = some out ∨
        (d.outputFile = none ∧ fs w.cwd = some .dir ∧ w.join w.cwd (w.name d.instr ++ w.ext) = out ∧ w.cwd ≠ out))) :
    runAll w fs (c :: cs) = (c :: cs).map fun d => .ok (List.replicate (max d.runs 1) ⟨c.instr, c.opts⟩) := by
  have place : ∀ (fs' : Fs Path (Prog I O)), (∀ p, p ≠ out → fs' p = fs p) → isDir (fs' out) = false → ∀ d ∈ c :: cs,
      outputPath w fs' d.instr d.outputFile = out := by
    intro fs' hsame hdir d hd
    rcases (hall d hd).2.2.2.2 with h | ⟨h, h1, h2, h3⟩
    · simp [outputPath, h, hdir]
    · simp [outputPath, h, hsame _ h3, h1, h2, isDir]
  have rest : ∀ (fs' : Fs Path (Prog I O)), (∀ p, p ≠ out → fs' p = fs p) →
      fs' out = some (.file (some ⟨c.instr, c.opts⟩) true true) → ∀ ds : List (Invocation Path I O), (∀ d ∈ ds, d ∈ c :: cs) →
      runAll w fs' ds = ds.map fun d => .ok (List.replicate (max d.runs 1) ⟨c.instr, c.opts⟩) := by
    intro fs' hsame hout ds
    induction ds with
    | nil => intro; rfl
    | cons d ds ih =>
      intro hmem
      have hd := hall d (hmem d (by simp))
      have hf' : IsText fs' d.filename := by
        obtain ⟨p, hp⟩ := hf
        exact ⟨p, by rw [hd.1, hsame _ hne, hp]⟩
      have hpl := place fs' hsame (by rw [hout]; rfl) d (hmem d (by simp))
      have := (run_cmd_runs w fs' d hf' hw hd.2.1 hd.2.2.1 hd.2.2.2.1).2 ⟨c.instr, c.opts⟩ true (by rw [hpl, hout])
      simp only [runAll, this, List.map_cons]
      rw [ih (fun d hd => hmem d (by simp [hd]))]
  have hc := hall c (by simp)
  have hpl := place fs (fun _ _ => rfl) (by rw [ho]; rfl) c (by simp)
  have h1 := (run_cmd_runs w fs c (by rw [hc.1]; exact hf) hw hc.2.1 hc.2.2.1 hc.2.2.2.1).1 (by rw [hpl, ho])
  have hfs : (runCmd w fs c).1 = Function.update fs out (some (.file (some ⟨c.instr, c.opts⟩) true true)) := by
    obtain ⟨p, hp⟩ := hf
    simp [runCmd, hc.1, hp, compileInstrument, isDir, hw, hpl, ho, hc.2.1, hc.2.2.1, hc.2.2.2.1]
  simp only [runAll, h1, List.map_cons]
  rw [rest _ ?_ ?_ cs (fun d hd => by simp [hd])]
  · intro p hp
    rw [hfs, Function.update_of_ne hp]
  · rw [hfs, Function.update_self]

/-- C95 for `mccode_run`: what it runs is the instrument given, and it runs something exactly if there is no file with the name of the
program in the directory and the instrument can be compiled. -/
theorem mccode_run_given (w : World Path I O) (fs : Fs Path (Prog I O)) (instr : I) (opts : O) (directory : Path)
    (binaryName : Option String) (runs : Nat) :
    (∀ ps, (mccodeRun w fs instr opts directory binaryName runs).2 = .ok ps → ps ≠ [] ∧ ∀ p ∈ ps, p = ⟨instr, opts⟩) ∧
    ((∃ ps, (mccodeRun w fs instr opts directory binaryName runs).2 = .ok ps) ↔
      fs (w.join directory (binaryName.getD (w.name instr))) = none ∧ w.compiler = true ∧ w.compiles instr opts = true) := by
  unfold mccodeRun
  simp only
  cases h : fs (w.join directory (binaryName.getD (w.name instr))) with
  | none =>
    cases hw : w.compiler <;> cases hc : w.compiles instr opts <;>
      simp [compileInstrument, isDir, hw, hc, outputPath, h, execute]
  | some e =>
    cases e with
    | dir => simp
    | file p r x => cases r <;> simp

/-- … so a second call for the same directory raises, for the same or any other instrument with the same name. -/
theorem second_mccode_run_raises (w : World Path I O) (fs : Fs Path (Prog I O)) (instr instr' : I) (opts opts' : O) (directory : Path)
    (binaryName : Option String) (runs runs' : Nat) (hn : w.name instr' = w.name instr) (ps : List (Prog I O))
    (h : (mccodeRun w fs instr opts directory binaryName runs).2 = .ok ps) :
    (mccodeRun w (mccodeRun w fs instr opts directory binaryName runs).1 instr' opts' directory binaryName runs').2 =
      .error .attributeError := by
  obtain ⟨h1, h2, h3⟩ := (mccode_run_given w fs instr opts directory binaryName runs).2.1 ⟨ps, h⟩
  have : (mccodeRun w fs instr opts directory binaryName runs).1 (w.join directory (binaryName.getD (w.name instr))) =
      some (.file (some ⟨instr, opts⟩) true true) := by
    simp [mccodeRun, h1, compileInstrument, isDir, h2, h3, outputPath]
  generalize (mccodeRun w fs instr opts directory binaryName runs).1 = fs' at this
  simp [mccodeRun, hn, this]

/-- Compiling with `replace` always makes the program of the instrument given. -/
theorem replace_makes_given (w : World Path I O) (fs : Fs Path (Prog I O)) (instr : I) (opts : O) (output : Option Path) (b : Path)
    (h : (compileInstrument w fs instr opts output true).2 = .ok b) :
    (compileInstrument w fs instr opts output true).1 b = some (.file (some ⟨instr, opts⟩) true true) := by
  cases hw : w.compiler <;> cases hc : w.compiles instr opts <;>
    cases hd : isDir (fs (outputPath w fs instr output)) <;> simp [compileInstrument, hw, hc, hd] at h ⊢
  rw [h, Function.update_self]

/-- A run into a directory chosen with `-d` always raises. -/
theorem directory_option_raises (w : World Path I O) (fs : Fs Path (Prog I O)) (c : Invocation Path I O) (hp : c.parameters = true)
    (hd : c.directory.isSome = true) : ∃ e, (runCmd w fs c).2 = .error e := by
  unfold runCmd
  simp only [hp, hd, Bool.not_true, if_true, Bool.false_eq_true, if_false]
  split_ifs
  · exact ⟨_, rfl⟩
  · exact ⟨_, rfl⟩
  · split <;> exact ⟨_, rfl⟩

/-- Without parameters nothing is run, also if the instrument has none (runner.py 288-292). -/
theorem nothing_run_without_parameters (w : World Path I O) (fs : Fs Path (Prog I O)) (c : Invocation Path I O)
    (hp : c.parameters = false) (ps : List (Prog I O)) (h : (runCmd w fs c).2 = .ok ps) : ps = [] := by
  unfold runCmd at h
  simp only [hp, Bool.not_false, if_true] at h
  split_ifs at h
  · simpa using h.symm
  · split at h
    · simp at h
    · simpa using h.symm

/-- A program already compiled, given as the file, is never run. -/
theorem program_given_raises (w : World Path I O) (fs : Fs Path (Prog I O)) (c : Invocation Path I O) (p : Option (Prog I O)) (r : Bool)
    (hf : fs c.filename = some (.file p r true)) (ho : c.outputFile = none) (hp : c.parameters = true) :
    (runCmd w fs c).2 = .error .attributeError := by
  simp [runCmd, hf, ho, hp]

end

/-! ### Examples -/

/-- Two versions of an instrument, 1 and 2, in the file `a.instr`; the program is `./a.out`. -/
def exWorld : World String Nat Unit where
  name _ := "a"
  join d f := d ++ "/" ++ f
  ext := ".out"
  cwd := "."
  compiler := true
  compiles _ _ := true

def exFs : Fs String (Prog Nat Unit) := fun p =>
  if p = "a.instr" then some (.file none true false) else if p = "." then some .dir else none

def exCall (version : Nat) : Invocation String Nat Unit := ⟨"a.instr", version, (), none, none, true, 1⟩

example : runAll exWorld exFs [exCall 1, exCall 2] = [.ok [⟨1, ()⟩], .ok [⟨1, ()⟩]] :=
  first_program_always exWorld exFs (exCall 1) [exCall 2] "a.instr" "./a.out" (by decide) ⟨none, by decide⟩ (by decide) rfl (by
    intro d hd
    simp only [List.mem_cons, List.not_mem_nil, or_false] at hd
    rcases hd with rfl | rfl <;> exact ⟨rfl, rfl, rfl, rfl, .inr ⟨rfl, by decide, by decide, by decide⟩⟩)

example : IsText exFs "a.instr" ∧ exFs (outputPath exWorld exFs 1 none) = none := ⟨⟨none, by decide⟩, by decide⟩

example : ∃ ps, (mccodeRun exWorld exFs 1 () "." none 1).2 = .ok ps :=
  (mccode_run_given exWorld exFs 1 () "." none 1).2.2 ⟨by decide, rfl, rfl⟩

example : (compileInstrument exWorld exFs 1 () none true).2 = .ok "./a.out" := by decide +kernel

end Verif.Runner
