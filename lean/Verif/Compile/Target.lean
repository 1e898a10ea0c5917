import Verif.Loader.Dat

/-!
C47: model of `CBinaryTarget`, src/mccode_antlr/compiler/c.py 11-80 and 238-265, and its use in
src/mccode_antlr/run/runner.py 131-149. The values of the options are taken as Booleans (their truth value is all that is
used). The configuration gives the commands and flags as texts.
-/

namespace Verif.Compile

open Verif.Loader (Text t words)

/-- `CBinaryTarget.Type` (12-16): which flags are set. -/
structure Kind where
  single : Bool
  acc : Bool
  mpi : Bool
  nexus : Bool
  deriving DecidableEq, Repr

/-- `CBinaryTarget` (18-29). -/
structure Target where
  count : Int
  type : Kind
  deriving DecidableEq, Repr

/-- The choice among single, acc and mpi (20-27, 36-43); without nexus. -/
def chosen (mpi acc : Bool) : Kind :=
  if mpi && acc then { single := false, acc := true, mpi := true, nexus := false }
  else if mpi then { single := false, acc := false, mpi := true, nexus := false }
  else if acc then { single := false, acc := true, mpi := false, nexus := false }
  else { single := true, acc := false, mpi := false, nexus := false }

/-- `self.type |= nexus` (28-29, 44-45). -/
def Kind.withNexus (k : Kind) (nexus : Bool) : Kind := if nexus then { k with nexus := true } else k

/-- `CBinaryTarget.__init__` (18-29). -/
def Target.new (mpi acc : Bool) (count : Int) (nexus : Bool) : Target :=
  { count, type := (chosen mpi acc).withNexus nexus }

/-- The options in a dictionary; `none` if the key is absent. -/
structure Options where
  count : Option Int
  mpi : Option Bool
  acc : Option Bool
  nexus : Option Bool
  deriving DecidableEq, Repr

/-- `CBinaryTarget.update` (31-45). The default of `nexus` is that of the new type (44). -/
def Target.update (s : Target) (d : Options) : Target :=
  let new := chosen (d.mpi.getD s.type.mpi) (d.acc.getD s.type.acc)
  { count := d.count.getD s.count, type := new.withNexus (d.nexus.getD new.nexus) }

/-- The configuration used for compilation. -/
structure Config where
  cc : Text
  accCC : Text
  mpiCC : Text
  ccFlags : Text
  accFlags : Text
  ldFlags : Text
  mpiFlags : Text
  nexusFlags : Text

/-- `compiler` (47-57). -/
def Target.compiler (s : Target) (c : Config) : Text :=
  if s.type.acc then c.accCC else if s.type.mpi then c.mpiCC else c.cc

/-- `flags` (59-66). -/
def Target.flags (s : Target) (c : Config) : List Text :=
  if s.type.acc then words c.accFlags else words c.ccFlags

/-- `linker_flags` (68-71). -/
def Target.linkerFlags (_ : Target) (c : Config) : List Text := words c.ldFlags

/-- `extra_flags` (73-82). -/
def Target.extraFlags (s : Target) (c : Config) : List Text :=
  (if s.type.mpi then words c.mpiFlags else []) ++ if s.type.nexus then words c.nexusFlags else []

/-- The target made by `mccode_compile` (runner.py 135-139). -/
def runnerTarget (d : Options) : Target := (Target.new false false 1 false).update d

/-- The states a target can be in. -/
inductive Reached : Target → Prop
  | new (mpi acc : Bool) (count : Int) (nexus : Bool) : Reached (Target.new mpi acc count nexus)
  | update {s : Target} (d : Options) : Reached s → Reached (s.update d)

/-- In every reachable state exactly the single flag excludes acc and mpi. -/
theorem reached_single {s : Target} (h : Reached s) : s.type.single = (!s.type.acc && !s.type.mpi) := by
  have hc : ∀ mpi acc nexus, ((chosen mpi acc).withNexus nexus).single =
      (!((chosen mpi acc).withNexus nexus).acc && !((chosen mpi acc).withNexus nexus).mpi) := by decide
  cases h with
  | new => exact hc _ _ _
  | update => exact hc _ _ _

/-- A new target has the options asked for. -/
theorem new_options (mpi acc : Bool) (count : Int) (nexus : Bool) :
    (Target.new mpi acc count nexus).count = count ∧ (Target.new mpi acc count nexus).type.mpi = mpi ∧
      (Target.new mpi acc count nexus).type.acc = acc ∧ (Target.new mpi acc count nexus).type.nexus = nexus := by
  cases mpi <;> cases acc <;> cases nexus <;> exact ⟨rfl, rfl, rfl, rfl⟩

/-- C47: an update sets the options given, and leaves the number of processes, MPI and OpenACC as they were if they are not
given; NeXus is as given, but is switched off if it is not given. -/
theorem update_partial (s : Target) (d : Options) :
    (∀ n, d.count = some n → (s.update d).count = n) ∧ (d.count = none → (s.update d).count = s.count) ∧
    (∀ b, d.mpi = some b → (s.update d).type.mpi = b) ∧ (d.mpi = none → (s.update d).type.mpi = s.type.mpi) ∧
    (∀ b, d.acc = some b → (s.update d).type.acc = b) ∧ (d.acc = none → (s.update d).type.acc = s.type.acc) ∧
    (∀ b, d.nexus = some b → (s.update d).type.nexus = b) ∧ (d.nexus = none → (s.update d).type.nexus = false) := by
  have hm : ∀ mpi acc n, ((chosen mpi acc).withNexus n).mpi = mpi := by decide
  have ha : ∀ mpi acc n, ((chosen mpi acc).withNexus n).acc = acc := by decide
  have hn : ∀ mpi acc n, ((chosen mpi acc).withNexus n).nexus = n := by decide
  have hn' : ∀ mpi acc, ((chosen mpi acc).withNexus (chosen mpi acc).nexus).nexus = false := by decide
  refine ⟨fun n h => ?_, fun h => ?_, fun b h => ?_, fun h => ?_, fun b h => ?_, fun h => ?_, fun b h => ?_, fun h => ?_⟩
  · simp [Target.update, h]
  · simp [Target.update, h]
  · simp [Target.update, h, hm]
  · simp [Target.update, h, hm]
  · simp [Target.update, h, ha]
  · simp [Target.update, h, ha]
  · simp [Target.update, h, hn]
  · simp [Target.update, h, hn']

/-- An update without options changes nothing exactly if the target does not use NeXus. -/
theorem update_nothing_iff {s : Target} (h : Reached s) : s.update ⟨none, none, none, none⟩ = s ↔ s.type.nexus = false := by
  have h1 := reached_single h
  obtain ⟨n, ⟨a, b, c, d⟩⟩ := s
  simp only at h1
  subst h1
  cases b <;> cases c <;> cases d <;> simp [Target.update, chosen, Kind.withNexus]

/-- Updating only the number of processes switches NeXus off. -/
theorem nexus_lost : ∃ s : Target, Reached s ∧ s.type.nexus = true ∧ (s.update ⟨some 4, none, none, none⟩).type.nexus = false :=
  ⟨_, .new true false 1 true, rfl, rfl⟩

/-- The compiler and the flags of a target: OpenACC comes before MPI. -/
theorem commands (s : Target) (c : Config) :
    (s.type.acc = true → s.compiler c = c.accCC ∧ s.flags c = words c.accFlags) ∧
    (s.type.acc = false → s.flags c = words c.ccFlags ∧ s.compiler c = if s.type.mpi then c.mpiCC else c.cc) ∧
    (∀ w, w ∈ s.extraFlags c ↔ (s.type.mpi = true ∧ w ∈ words c.mpiFlags) ∨ (s.type.nexus = true ∧ w ∈ words c.nexusFlags)) := by
  refine ⟨fun h => ?_, fun h => ?_, fun w => ?_⟩
  · simp [Target.compiler, Target.flags, h]
  · simp [Target.compiler, Target.flags, h]
  · rw [Target.extraFlags, List.mem_append]
    cases s.type.mpi <;> cases s.type.nexus <;> simp

/-- The target of a run has exactly the options asked for. -/
theorem runner_options (d : Options) :
    (runnerTarget d).count = d.count.getD 1 ∧ (runnerTarget d).type.mpi = d.mpi.getD false ∧
      (runnerTarget d).type.acc = d.acc.getD false ∧ (runnerTarget d).type.nexus = d.nexus.getD false := by
  obtain ⟨a1, a2, b1, b2, c1, c2, d1, d2⟩ := update_partial (Target.new false false 1 false) d
  refine ⟨?_, ?_, ?_, ?_⟩
  · cases h : d.count with
    | none => exact a2 h
    | some n => exact a1 n h
  · cases h : d.mpi with
    | none => exact b2 h
    | some n => exact b1 n h
  · cases h : d.acc with
    | none => exact c2 h
    | some n => exact c1 n h
  · cases h : d.nexus with
    | none => exact d2 h
    | some n => exact d1 n h

example : Reached ((Target.new true false 3 true).update ⟨none, some false, none, some true⟩) := .update _ (.new _ _ _ _)

end Verif.Compile
