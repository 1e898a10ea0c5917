import Mathlib.Data.List.Basic

/-!
Property C124: an instrument is compiled if, and only if, the configured compiler works.

Model of src/mccode_antlr/compiler/check.py and of `compile_instrument` with the functions it calls
(src/mccode_antlr/compiler/c.py 233-282). What is outside (the configuration, the compilers on the path, the result of compiling the
trial instrument) may be different at every call.
-/

namespace Verif.Check

inductive Exc
  | runtimeError
  | fileNotFound
  | calledProcess
  | indexError
  | skipTest
  | other (name : String)
  deriving DecidableEq, Repr

/-- What is outside at the time of a call. -/
structure World where
  /-- `config[...]...get(str)`: the value as written, by the path of its key. -/
  value : String → Except Exc String
  /-- `as_str_expanded`: with the environment variables replaced. -/
  expand : String → String
  /-- `shutil.which`. -/
  which : String → Bool
  /-- Reading and compiling the trial instrument (67-69): with the name of a compiler, and whether for MPI and for OpenACC. -/
  trial : String → Bool → Bool → Except Exc Bool

/-- `@functools.cache` (2, 4, 60) for functions of one text: what was returned; an exception is not kept. -/
abbrev Memo := List (String × Bool)

/-- The two caches. -/
structure Caches where
  present : Memo := []
  works : Memo := []
  deriving DecidableEq, Repr

/-- The body of `check_for_mccode_antlr_compiler` (6-19). -/
def presentNow (w : World) (kind : String) : Except Exc Bool :=
  match w.value kind with
  | .error e => .error e
  | .ok cc => if !w.which cc then .ok false else .ok true

/-- `check_for_mccode_antlr_compiler` (4-19). -/
def present (w : World) (kind : String) (c : Caches) : Except Exc Bool × Caches :=
  match c.present.lookup kind with
  | some b => (.ok b, c)
  | none =>
    match presentNow w kind with
    | .error e => (.error e, c)
    | .ok b => (.ok b, { c with present := (kind, b) :: c.present })

/-- `'mpi' in compiler` (33). -/
def forMpi (kind : String) : Bool := decide ("mpi".toList <:+: kind.toList)

/-- `compiler == 'acc'` (33). -/
def forAcc (kind : String) : Bool := decide (kind = "acc")

/-- The key of `CBinaryTarget.compiler` (c.py 47-57). -/
def compilerKey (mpi acc : Bool) : String := if acc then "acc" else if mpi then "mpi/cc" else "cc"

/-- `compiles(which, instr)` for the trial instrument (22-57, 67-69). -/
def compiles (w : World) (kind : String) : Except Exc Bool :=
  match w.value (compilerKey (forMpi kind) (forAcc kind)) with
  | .error e => .error e
  | .ok cc => w.trial (w.expand cc) (forMpi kind) (forAcc kind)

/-- The `except` clauses (70-75). -/
def caught : Exc → Bool
  | .runtimeError => true
  | .fileNotFound => true
  | .calledProcess => true
  | _ => false

/-- The `try` (66-75). -/
def attempt (w : World) (kind : String) : Except Exc Bool :=
  match compiles w kind with
  | .ok b => .ok b
  | .error e => if caught e then .ok false else .error e

/-- `simple_instr_compiles` (60-75). -/
def works (w : World) (kind : String) (c : Caches) : Except Exc Bool × Caches :=
  match c.works.lookup kind with
  | some b => (.ok b, c)
  | none =>
    match present w kind c with
    | (.error e, c1) => (.error e, c1)
    | (.ok false, c1) => (.ok false, { c1 with works := (kind, false) :: c1.works })
    | (.ok true, c1) =>
      match attempt w kind with
      | .error e => (.error e, c1)
      | .ok b => (.ok b, { c1 with works := (kind, b) :: c1.works })

/-- The positional arguments of a call: none, a first one that is a `TestCase`, another first one. -/
inductive First
  | missing
  | testCase
  | instrument
  deriving DecidableEq, Repr

/-- The function made by `compiled` (78-91); `method` is what the function decorated does. -/
def wrapper {α : Type} (w : World) (kind : String) (first : First) (method : Except Exc α) (c : Caches) : Except Exc α × Caches :=
  match works w kind c with
  | (.error e, c1) => (.error e, c1)
  | (.ok true, c1) => (method, c1)
  | (.ok false, c1) =>
    match first with
    | .missing => (.error .indexError, c1)
    | .testCase => (.error .skipTest, c1)
    | .instrument => (.error .runtimeError, c1)

/-- The check for a target (c.py 233-245, 277-282; check.py 78-82, 94-103). -/
def kindOf (mpi acc : Bool) : String := if acc then "acc" else if mpi then "mpi/cc" else "cc"

/-- `compile_instrument` (c.py 248-282); `compile` is `_compile_instrument` with the same arguments. -/
def compileInstrument {α : Type} (w : World) (mpi acc : Bool) (compile : Except Exc α) (c : Caches) : Except Exc α × Caches :=
  if acc then wrapper w "acc" .instrument compile c
  else if mpi then wrapper w "mpi/cc" .instrument compile c
  else wrapper w "cc" .instrument compile c

/-- The caches after calls that check a compiler each, in the world as it is then. -/
def after (calls : List (World × String)) : Caches :=
  calls.foldl (fun c p => (works p.1 p.2 c).2) {}

/-! ### C124 -/

/-- The compiler works: it is found under the name written, and the trial instrument is compiled with it. -/
def Works (w : World) (kind : String) : Prop :=
  ∃ cc, w.value kind = .ok cc ∧ w.which cc = true ∧ compiles w kind = .ok true

/-- The exceptions by which a trial may fail. -/
def Expected (e : Exc) : Prop := e = .runtimeError ∨ e = .fileNotFound ∨ e = .calledProcess

theorem caught_iff (e : Exc) : caught e = true ↔ Expected e := by
  cases e <;> simp [caught, Expected]

/-- The check gives an answer: the value is in the configuration, and if the compiler is found the trial is not ended by an
exception that is not expected. -/
def Answers (w : World) (kind : String) : Prop :=
  ∃ cc, w.value kind = .ok cc ∧ (w.which cc = true → ∀ e, compiles w kind = .error e → Expected e)

/-- The answer without caches. -/
theorem fresh_answer (w : World) (kind : String) (h : Answers w kind) :
    ∃ b p, (b = true ↔ Works w kind) ∧ ∀ c : Caches, c.works.lookup kind = none → c.present.lookup kind = none →
      works w kind c = (.ok b, ⟨(kind, p) :: c.present, (kind, b) :: c.works⟩) := by
  obtain ⟨cc, hv, ha⟩ := h
  cases hw : w.which cc with
  | false =>
    refine ⟨false, false, ⟨fun h => (by cases h), ?_⟩, ?_⟩
    · rintro ⟨cc', hv', hw', -⟩
      rw [hv] at hv'
      cases hv'
      rw [hw] at hw'
      cases hw'
    · intro c h1 h2
      simp [works, present, presentNow, h1, h2, hv, hw]
  | true =>
    cases hc : compiles w kind with
    | ok b =>
      refine ⟨b, true, ⟨fun h => ⟨cc, hv, hw, by rw [hc, h]⟩, ?_⟩, ?_⟩
      · rintro ⟨_, _, _, h⟩
        rw [hc] at h
        cases h
        rfl
      · intro c h1 h2
        simp [works, present, presentNow, attempt, h1, h2, hv, hw, hc]
    | error e =>
      have he := (caught_iff e).mpr (ha hw e hc)
      refine ⟨false, true, ⟨fun h => (by cases h), ?_⟩, ?_⟩
      · rintro ⟨_, _, _, h⟩
        rw [hc] at h
        cases h
      · intro c h1 h2
        simp [works, present, presentNow, attempt, h1, h2, hv, hw, hc, he]

theorem works_kept (w : World) (kind : String) (c : Caches) (b : Bool) (h : c.works.lookup kind = some b) :
    works w kind c = (.ok b, c) := by
  rw [works, h]

theorem present_others (w : World) (kind k : String) (hk : k ≠ kind) (c : Caches) :
    (present w k c).2.present.lookup kind = c.present.lookup kind ∧ (present w k c).2.works = c.works := by
  have hb : (kind == k) = false := by simpa using Ne.symm hk
  unfold present
  split
  · exact ⟨rfl, rfl⟩
  · split
    · exact ⟨rfl, rfl⟩
    · exact ⟨by simp [List.lookup, hb], rfl⟩

theorem works_others (w : World) (kind k : String) (hk : k ≠ kind) (c : Caches) :
    (works w k c).2.present.lookup kind = c.present.lookup kind ∧ (works w k c).2.works.lookup kind = c.works.lookup kind := by
  have hb : (kind == k) = false := by simpa using Ne.symm hk
  have h := present_others w kind k hk c
  unfold works
  split
  · exact ⟨rfl, rfl⟩
  · split <;> rename_i h1
    · rw [h1] at h
      exact ⟨h.1, by rw [h.2]⟩
    · rw [h1] at h
      exact ⟨h.1, by simp only [List.lookup, hb]; rw [h.2]⟩
    · rw [h1] at h
      split
      · exact ⟨h.1, by rw [h.2]⟩
      · exact ⟨h.1, by simp only [List.lookup, hb]; rw [h.2]⟩

/-- The world of the first of the calls that checks this compiler, or that of now. -/
def firstWorld (calls : List (World × String)) (now : World) (kind : String) : World :=
  ((calls.find? fun p => p.2 = kind).map (·.1)).getD now

theorem foldl_answer (calls : List (World × String)) (kind : String)
    (ha : ∀ p ∈ calls, p.2 = kind → Answers p.1 kind) (now : World) (hn : Answers now kind) (c : Caches) :
    (∀ b, c.works.lookup kind = some b →
      (calls.foldl (fun c p => (works p.1 p.2 c).2) c).works.lookup kind = some b) ∧
    (c.works.lookup kind = none → c.present.lookup kind = none →
      ∃ b, (works now kind (calls.foldl (fun c p => (works p.1 p.2 c).2) c)).1 = .ok b ∧
        (b = true ↔ Works (firstWorld calls now kind) kind)) := by
  induction calls generalizing c with
  | nil =>
    refine ⟨fun b h => h, fun h1 h2 => ?_⟩
    obtain ⟨b, p, hb, h⟩ := fresh_answer now kind hn
    exact ⟨b, by rw [List.foldl_nil, h c h1 h2], hb⟩
  | cons x calls ih =>
    have ih := ih (fun p hp => ha p (List.mem_cons_of_mem _ hp)) (works x.1 x.2 c).2
    rw [List.foldl_cons]
    by_cases hk : x.2 = kind
    · constructor
      · intro b h
        refine ih.1 b ?_
        rw [hk, works_kept x.1 kind c b h]
        exact h
      · intro h1 h2
        obtain ⟨b, p, hb, h⟩ := fresh_answer x.1 kind (ha x (by simp) hk)
        refine ⟨b, ?_, ?_⟩
        · rw [works_kept now kind _ b]
          refine ih.1 b ?_
          rw [hk, h c h1 h2]
          simp [List.lookup]
        · rw [hb, firstWorld, List.find?_cons_of_pos (by simpa using hk)]
          rfl
    · have ho := works_others x.1 kind x.2 hk c
      constructor
      · intro b h
        exact ih.1 b (ho.2.trans h)
      · intro h1 h2
        obtain ⟨b, hb, hw⟩ := ih.2 (ho.2.trans h1) (ho.1.trans h2)
        refine ⟨b, hb, ?_⟩
        rw [hw, firstWorld, firstWorld, List.find?_cons_of_neg (by simpa using hk)]

/-- C124, as far as it holds: after any calls, `compile_instrument` compiles if the compiler for the target worked when it was
checked first, and raises `RuntimeError` without compiling if it did not. -/
theorem compiled_iff_partial {α : Type} (calls : List (World × String)) (now : World) (mpi acc : Bool)
    (ha : ∀ p ∈ calls, p.2 = kindOf mpi acc → Answers p.1 (kindOf mpi acc)) (hn : Answers now (kindOf mpi acc))
    (compile : Except Exc α) :
    (Works (firstWorld calls now (kindOf mpi acc)) (kindOf mpi acc) →
      (compileInstrument now mpi acc compile (after calls)).1 = compile) ∧
    (¬ Works (firstWorld calls now (kindOf mpi acc)) (kindOf mpi acc) →
      (compileInstrument now mpi acc compile (after calls)).1 = .error .runtimeError) := by
  have h1 : compileInstrument now mpi acc compile (after calls) =
      wrapper now (kindOf mpi acc) .instrument compile (after calls) := by
    cases mpi <;> cases acc <;> rfl
  obtain ⟨b, hb, hw⟩ := (foldl_answer calls (kindOf mpi acc) ha now hn {}).2 rfl rfl
  rw [h1, ← hw]
  have hb : (works now (kindOf mpi acc) (after calls)).1 = .ok b := hb
  rw [wrapper]
  generalize works now (kindOf mpi acc) (after calls) = r at hb
  obtain ⟨r1, r2⟩ := r
  simp only at hb
  subst hb
  cases b <;> simp

/-- C124: the trial uses the compiler that is used for the target afterwards. -/
theorem trial_is_for_target (mpi acc : Bool) :
    compilerKey (forMpi (kindOf mpi acc)) (forAcc (kindOf mpi acc)) = compilerKey mpi acc ∧
      kindOf mpi acc = compilerKey mpi acc := by
  cases mpi <;> cases acc <;> decide +kernel

/-- C124: what it means for a target that its compiler works: the name written is found, and the trial is compiled for the target
with the name in which variables are replaced. -/
theorem works_for_target (w : World) (mpi acc : Bool) :
    Works w (kindOf mpi acc) ↔ ∃ cc, w.value (kindOf mpi acc) = .ok cc ∧ w.which cc = true ∧
      w.trial (w.expand cc) (mpi && !acc) acc = .ok true := by
  have h1 : forMpi (kindOf mpi acc) = (mpi && !acc) := by cases mpi <;> cases acc <;> decide +kernel
  have h2 : forAcc (kindOf mpi acc) = acc := by cases mpi <;> cases acc <;> decide +kernel
  have h3 := trial_is_for_target mpi acc
  have hc : ∀ cc, w.value (kindOf mpi acc) = .ok cc →
      compiles w (kindOf mpi acc) = w.trial (w.expand cc) (mpi && !acc) acc := by
    intro cc h
    rw [compiles, h3.1, ← h3.2, h, h1, h2]
  constructor
  · rintro ⟨cc, hv, hw, hcc⟩
    exact ⟨cc, hv, hw, by rw [← hc cc hv, hcc]⟩
  · rintro ⟨cc, hv, hw, hcc⟩
    exact ⟨cc, hv, hw, by rw [hc cc hv, hcc]⟩

/-- C124: a check of one compiler has no effect on that of another. -/
theorem checks_independent (calls : List (World × String)) (now : World) (kind : String)
    (ho : ∀ p ∈ calls, p.2 ≠ kind) (hn : Answers now kind) :
    ∃ b, (works now kind (after calls)).1 = .ok b ∧ (b = true ↔ Works now kind) := by
  obtain ⟨b, hb, hw⟩ := (foldl_answer calls kind (fun p hp h => absurd h (ho p hp)) now hn {}).2 rfl rfl
  refine ⟨b, hb, ?_⟩
  rw [hw, firstWorld, List.find?_eq_none.mpr fun p hp => by simpa using ho p hp]
  rfl

/-- C124 fails: whether a compiler is there or not, the first answer is given for as long as the program runs. -/
theorem first_answer_stays {α : Type} (before now : World) (mpi acc : Bool) (hb : Answers before (kindOf mpi acc))
    (hn : Answers now (kindOf mpi acc)) (compile : Except Exc α) :
    (Works before (kindOf mpi acc) → ¬ Works now (kindOf mpi acc) →
      (compileInstrument now mpi acc compile (after [(before, kindOf mpi acc)])).1 = compile) ∧
    (¬ Works before (kindOf mpi acc) → Works now (kindOf mpi acc) →
      (compileInstrument now mpi acc compile (after [(before, kindOf mpi acc)])).1 = .error .runtimeError) := by
  have h := compiled_iff_partial [(before, kindOf mpi acc)] now mpi acc
    (fun p hp _ => by rw [List.mem_singleton] at hp; subst hp; exact hb) hn compile
  have hf : firstWorld [(before, kindOf mpi acc)] now (kindOf mpi acc) = before := by
    rw [firstWorld, List.find?_cons_of_pos (by simp)]
    rfl
  rw [hf] at h
  exact ⟨fun h1 _ => h.1 h1, fun h1 _ => h.2 h1⟩

/-- C124 fails: the compiler is looked for under the name as written, and used under the name with variables replaced: if
there is a variable in it (and no program of that very name) nothing is compiled although the compiler works. -/
theorem variable_not_found {α : Type} (now : World) (mpi acc : Bool) (cc : String) (hv : now.value (kindOf mpi acc) = .ok cc)
    (hw : now.which cc = false) (compile : Except Exc α) :
    (compileInstrument now mpi acc compile {}).1 = .error .runtimeError := by
  have hn : Answers now (kindOf mpi acc) := ⟨cc, hv, fun h => by rw [hw] at h; cases h⟩
  refine (compiled_iff_partial [] now mpi acc (by simp) hn compile).2 ?_
  rintro ⟨cc', hv', hw', -⟩
  rw [show firstWorld [] now (kindOf mpi acc) = now from rfl] at hv' hw'
  rw [hv] at hv'
  cases hv'
  rw [hw] at hw'
  cases hw'

/-- C124: a decorated function of one's own is run, skipped as a test, or an error is raised; called with keywords only it raises
`IndexError` in place of the message. -/
theorem decorated {α : Type} (w : World) (kind : String) (first : First) (method : Except Exc α) (hw : Answers w kind) :
    (Works w kind → (wrapper w kind first method {}).1 = method) ∧
    (¬ Works w kind → first = .testCase → (wrapper w kind first method {}).1 = .error .skipTest) ∧
    (¬ Works w kind → first = .instrument → (wrapper w kind first method {}).1 = .error .runtimeError) ∧
    (¬ Works w kind → first = .missing → (wrapper w kind first method {}).1 = .error .indexError) := by
  obtain ⟨b, p, hb, h⟩ := fresh_answer w kind hw
  rw [wrapper, h {} rfl rfl, ← hb]
  cases b <;> cases first <;> simp

/-- C124: an exception that is not expected passes, and the next call asks again. -/
theorem asked_again (w now : World) (kind : String) (e : Exc) (h : (works w kind {}).1 = .error e) :
    (∀ cc, w.value kind = .ok cc → ¬ Expected e ∧ compiles w kind = .error e ∧
      ∀ b, compiles now kind = .ok b → (works now kind (works w kind {}).2).1 = .ok b) ∧
    (w.value kind = .error e → works now kind (works w kind {}).2 = works now kind {}) := by
  have hp : present w kind {} = match presentNow w kind with
      | .error e => (.error e, {})
      | .ok b => (.ok b, ⟨[(kind, b)], []⟩) := rfl
  have hw : works w kind {} = match present w kind {} with
    | (.error e, c1) => (.error e, c1)
    | (.ok false, c1) => (.ok false, { c1 with works := (kind, false) :: c1.works })
    | (.ok true, c1) =>
      match attempt w kind with
      | .error e => (.error e, c1)
      | .ok b => (.ok b, { c1 with works := (kind, b) :: c1.works }) := rfl
  rw [hp] at hw
  cases hv : w.value kind with
  | error e' =>
    simp only [presentNow, hv] at hw
    rw [hw]
    exact ⟨fun cc h => by (cases h), fun _ => rfl⟩
  | ok cc =>
    cases hc : w.which cc with
    | false =>
      simp [presentNow, hv, hc] at hw
      rw [hw] at h
      cases h
    | true =>
      cases hd : compiles w kind with
      | ok b =>
        simp [presentNow, hv, hc, attempt, hd] at hw
        rw [hw] at h
        cases h
      | error e' =>
        cases he : caught e' with
        | true =>
          simp [presentNow, hv, hc, attempt, hd, he] at hw
          rw [hw] at h
          cases h
        | false =>
          simp [presentNow, hv, hc, attempt, hd, he] at hw
          rw [hw] at h ⊢
          cases h
          refine ⟨fun _ _ => ⟨fun h => (by rw [(caught_iff _).mpr h] at he; cases he), rfl, fun b hb => ?_⟩, fun h => by cases h⟩
          simp [works, present, attempt, hb]

/-! ### Examples -/

/-- A world with `gcc`, where the configuration says `cc`. -/
def world (cc : String) (there : List String) : World :=
  ⟨fun _ => .ok cc, fun s => if s = "$CC" then "gcc" else s, fun s => decide (s ∈ there),
    fun s _ _ => if s ∈ there then .ok true else .error .fileNotFound⟩

example : Answers (world "gcc" ["gcc"]) "cc" ∧ Works (world "gcc" ["gcc"]) "cc" ∧ ¬ Works (world "icx" ["gcc"]) "cc" ∧
    Answers (world "icx" ["gcc"]) "cc" := by
  refine ⟨⟨"gcc", rfl, fun _ e h => ?_⟩, ⟨"gcc", rfl, by decide, rfl⟩, ?_, ⟨"icx", rfl, fun h => ?_⟩⟩
  · have : compiles (world "gcc" ["gcc"]) "cc" = .ok true := rfl
    rw [this] at h
    cases h
  · rintro ⟨cc, h, hw, -⟩
    cases h
    exact absurd hw (by decide)
  · exact absurd h (by decide)

example : (compileInstrument (world "$CC" ["gcc"]) false false (.ok "a.out" : Except Exc String) {}).1 = .error .runtimeError ∧
    compiles (world "$CC" ["gcc"]) "cc" = .ok true := ⟨rfl, rfl⟩

end Verif.Check
