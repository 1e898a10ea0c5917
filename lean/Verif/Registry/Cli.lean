import Verif.Registry.Props

/-!
Property C121: which files the translators started from the command line use.

Model of `mccode` (src/mccode_antlr/cli/commands.py 43-93) as far as files go: the registries made of the options, the file that is
read and the file that is written. The other options are passed on as they are.
-/

namespace Verif.Registry

/-- The arguments (commands.py 11-24): the file name, resolved; `-o`; the directories of `-I`, `None` if there is none. A
directory is its path and the files below it; one that does not exist has none. -/
structure CliArgs where
  filename : String
  output : Option String := none
  dirs : Option (List (String × List String)) := none

/-- `d.stem`: the last part of the path without its suffix. -/
def stem (path : String) : String := withoutSuffix (lastPart path)

/-- `LocalRegistry(name, root)` with the default priority (registry.py 280-284). -/
def localRegistry (name root : String) (files : List String) : Registry :=
  { name := name, priority := 10, store := .dir root files }

/-- The registries of the reader (commands.py 61-66, 73; reader.py 45-49): that of McStas or McXtrace, the given directories, and the
working directory, sorted. -/
def cliReader (library : Registry) (args : CliArgs) (cwd : String × List String) : List Registry :=
  let extra := match args.dirs with
    | none => []
    | some ds => ds.map fun d => localRegistry (stem d.1) d.1 d.2
  ordered (library :: extra ++ [localRegistry "working_directory" cwd.1 cwd.2])

/-- Whether the file is read as HDF5 (commands.py 68): `args.filename.suffix.lower() == '.h5'`. -/
def isH5 (filename : String) : Bool := lower (suffix filename) = ".h5"

/-- The registries that the translator asks for files (commands.py 68-79; reader.py 174): those of the reader, or those stored in the
HDF5 file. -/
def cliRegistries (library : Registry) (stored : List Registry) (args : CliArgs) (cwd : String × List String) :
    List Registry :=
  if isH5 args.filename then stored else cliReader library args cwd

/-- The instrument file that is read (reader.py 152-154), where there is one of that name. -/
def cliSource (filename : String) : String := if suffix filename = ".instr" then filename else filename ++ ".instr"

/-- The file that is written (commands.py 58, 81): `args.filename.with_suffix('.c')` if `-o` is not given. -/
def cliOutput (args : CliArgs) : String :=
  match args.output with
  | some o => o
  | none => withoutSuffix args.filename ++ ".c"

theorem insert_last (x : Registry) (l : List Registry) (h : ∀ y ∈ l, x.priority < y.priority) :
    l.orderedInsert (fun a b : Registry => b.priority ≤ a.priority) x = l ++ [x] := by
  induction l with
  | nil => rfl
  | cons y l ih =>
    have hy := h y (by simp)
    rw [List.orderedInsert_cons, if_neg (by omega), ih fun z hz => h z (by simp [hz])]
    rfl

theorem ordered_same (q : Int) (l : List Registry) (h : ∀ y ∈ l, y.priority = q) : ordered l = l := by
  refine List.Pairwise.insertionSort_eq ?_
  refine List.Pairwise.imp_of_mem (R := fun _ _ => True) ?_ (List.pairwise_of_forall fun _ _ => trivial)
  intro a b ha hb _
  rw [h a ha, h b hb]

/-- C121: the directories given are searched in the order given, then the working directory, and the library last, which has a
lower priority (-10, registry.py 486). -/
theorem cli_order (library : Registry) (hl : library.priority < 10) (args : CliArgs) (cwd : String × List String) :
    cliReader library args cwd =
      (args.dirs.getD []).map (fun d => ⟨stem d.1, 10, .dir d.1 d.2⟩) ++
        [⟨"working_directory", 10, .dir cwd.1 cwd.2⟩, library] := by
  have key : ∀ ds : List (String × List String),
      ordered (library :: (ds.map fun d => localRegistry (stem d.1) d.1 d.2) ++ [localRegistry "working_directory" cwd.1 cwd.2]) =
        ds.map (fun d => ⟨stem d.1, 10, .dir d.1 d.2⟩) ++ [⟨"working_directory", 10, .dir cwd.1 cwd.2⟩, library] := by
    intro ds
    have hp : ∀ y ∈ (ds.map fun d => localRegistry (stem d.1) d.1 d.2) ++ [localRegistry "working_directory" cwd.1 cwd.2],
        y.priority = 10 := by
      intro y hy
      rcases List.mem_append.mp hy with hy | hy
      · obtain ⟨d, _, rfl⟩ := List.mem_map.mp hy
        rfl
      · rw [List.mem_singleton.mp hy]
        rfl
    have h2 := ordered_same 10 _ hp
    unfold ordered at h2 ⊢
    rw [List.cons_append, List.insertionSort_cons, h2, insert_last _ _ fun y hy => by rw [hp y hy]; exact hl]
    simp [localRegistry]
  unfold cliReader
  cases args.dirs with
  | none => exact key []
  | some ds => exact key ds

/-- C121: a file is taken from the first of the directories that has one of that name; from the working directory only if none of
them has; and from the library only if that has none either. -/
theorem cli_choice (library : Registry) (hl : library.priority < 10) (args : CliArgs) (cwd : String × List String)
    (name : String) (ext : Option String) (strict : Bool) :
    (∀ (i : Nat) (d : String × List String), (args.dirs.getD [])[i]? = some d → dirKnown d.2 name ext = true →
      (∀ (j : Nat) (e : String × List String), j < i → (args.dirs.getD [])[j]? = some e → dirKnown e.2 name ext = false) →
      chosen (cliReader library args cwd) name none ext strict = some ⟨stem d.1, 10, .dir d.1 d.2⟩) ∧
    ((∀ d ∈ args.dirs.getD [], dirKnown d.2 name ext = false) →
      (dirKnown cwd.2 name ext = true →
        chosen (cliReader library args cwd) name none ext strict = some ⟨"working_directory", 10, .dir cwd.1 cwd.2⟩) ∧
      (dirKnown cwd.2 name ext = false →
        chosen (cliReader library args cwd) name none ext strict =
          if library.known name ext strict then some library else none)) := by
  rw [cli_order library hl]
  generalize args.dirs.getD [] = ds
  unfold chosen selected
  refine ⟨fun i d hd hk hj => ?_, fun hn => ⟨fun hc => ?_, fun hc => ?_⟩⟩
  · induction ds generalizing i with
    | nil => simp at hd
    | cons e ds ih =>
      cases i with
      | zero =>
        simp only [List.getElem?_cons_zero, Option.some.injEq] at hd
        subst hd
        simp [Registry.known, hk]
      | succ i =>
        have he := hj 0 e (by omega) rfl
        have := ih i (by simpa using hd) fun j f hjf hf => hj (j + 1) f (by omega) (by simpa using hf)
        simpa [Registry.known, he] using this
  · induction ds with
    | nil => simp [Registry.known, hc]
    | cons e ds ih =>
      have := ih fun d hd => hn d (by simp [hd])
      simpa [Registry.known, hn e (by simp)] using this
  · induction ds with
    | nil =>
      have h1 : ∀ r : Registry, (if r.known name ext strict = true then some r else none) = [r].find? fun r => r.known name ext strict := by
        intro r
        by_cases h : r.known name ext strict = true <;> simp [h]
      rw [h1]
      simp [Registry.known, hc]
    | cons e ds ih =>
      have := ih fun d hd => hn d (by simp [hd])
      simpa [Registry.known, hn e (by simp)] using this

/-- C121, where it fails: with an HDF5 file the directories given have no effect. -/
theorem h5_ignores_dirs (library : Registry) (stored : List Registry) (args : CliArgs) (cwd : String × List String)
    (h : lower (suffix args.filename) = ".h5") (dirs : Option (List (String × List String))) :
    cliRegistries library stored { args with dirs := dirs } cwd = stored := by
  simp [cliRegistries, isH5, h]

/-- C121, where it fails: two files of the same name in subdirectories of the working directory, or of a directory given, hide
that of the library, and the look-up raises. -/
theorem two_below_raise (library : Registry) (hl : library.priority < 10) (filename a b root name : String)
    (ha : parts (namePlusSuffix name (some ".comp")) <:+ parts a) (hb : parts (namePlusSuffix name (some ".comp")) <:+ parts b)
    (hane : a ≠ namePlusSuffix name (some ".comp")) (hbne : b ≠ namePlusSuffix name (some ".comp"))
    (hna : ¬parts name <:+ parts a) (hnb : ¬parts name <:+ parts b) :
    locate (cliReader library { filename := filename } (root, [a, b])) name none (some ".comp") true = .error .runtimeError := by
  have hk : dirKnown [a, b] name (some ".comp") = true := by
    simp [dirKnown, globAny, ha, hb]
  have hc := ((cli_choice library hl { filename := filename } (root, [a, b]) name (some ".comp") true).2 (by simp)).1 hk
  have h1 : a ≠ name := fun h => hna (by rw [h])
  have h2 : b ≠ name := fun h => hnb (by rw [h])
  rw [locate, hc]
  simp [Registry.path, Registry.fullname, dirFullname, globExact, globAny, ha, hb, hane, hbne, hna, hnb, h1, h2]
  rfl

/-- Two copies of `Arm.comp` below the working directory, and one in the library. -/
example : locate (cliReader ⟨"mcstas", -10, .remote "u" ["optics/Arm.comp"]⟩ { filename := "x.instr" }
      ("/w", ["old/Arm.comp", "new/Arm.comp"])) "Arm" none (some ".comp") true = .error .runtimeError ∧
    locate (cliReader ⟨"mcstas", -10, .remote "u" ["optics/Arm.comp"]⟩ { filename := "x.instr" }
      ("/w", [])) "Arm" none (some ".comp") true = .ok (some "optics/Arm.comp") ∧
    locate (cliReader ⟨"mcstas", -10, .remote "u" ["optics/Arm.comp"]⟩ { filename := "x.instr", dirs := some [("/a/b", ["Arm.comp"])] }
      ("/w", ["old/Arm.comp", "new/Arm.comp"])) "Arm" none (some ".comp") true = .ok (some "Arm.comp") := by
  decide +kernel

theorem suffix_suffix (s : String) : (suffix s).toList <:+ s.toList := by
  have h1 : ∀ rev : List Char, suffixRev rev <+: rev := by
    intro rev
    unfold suffixRev
    split
    · rename_i c t h
      dsimp only
      split_ifs with he
      · exact List.nil_prefix
      · refine ⟨c :: t, ?_⟩
        conv_rhs => rw [← List.takeWhile_append_dropWhile (p := fun x => decide (x ≠ '.')) (l := rev), h]
        simp
    · exact List.nil_prefix
  have h2 : (lastPart s).toList <:+ s.toList := by
    simp only [lastPart, String.toList_ofList]
    have := List.takeWhile_prefix (fun x => decide (x ≠ '/')) (l := s.toList.reverse)
    have := List.reverse_suffix.mpr this
    simpa using this
  simp only [suffix, String.toList_ofList]
  have h3 := List.reverse_suffix.mpr (h1 (lastPart s).toList.reverse)
  rw [List.reverse_reverse] at h3
  exact h3.trans h2

/-- C121: the file written is that given by `-o`. Without it, it is the one named with the suffix replaced; this is the file named
itself exactly if that ends in `.c`. -/
theorem default_output (args : CliArgs) :
    (∀ o, args.output = some o → cliOutput args = o) ∧
    (args.output = none →
      cliOutput args = withoutSuffix args.filename ++ ".c" ∧ (cliOutput args = args.filename ↔ suffix args.filename = ".c")) := by
  refine ⟨fun o ho => by simp [cliOutput, ho], fun h => ?_⟩
  have h0 : cliOutput args = withoutSuffix args.filename ++ ".c" := by simp [cliOutput, h]
  refine ⟨h0, ?_⟩
  rw [h0]
  generalize args.filename = s
  obtain ⟨p, hp⟩ := suffix_suffix s
  have hw : withoutSuffix s = String.ofList p := by
    unfold withoutSuffix
    rw [← hp]
    simp
  rw [hw]
  constructor
  · intro e
    have e' : p ++ ".c".toList = s.toList := by rw [← e]; simp
    rw [← hp] at e'
    exact (String.toList_inj.mp (List.append_cancel_left e')).symm
  · intro e
    rw [e] at hp
    refine String.toList_inj.mp ?_
    rw [← hp]
    simp

example : cliOutput { filename := "/w/a.instr" } = "/w/a.c" ∧ cliOutput { filename := "/w/a.c" } = "/w/a.c" ∧
    cliOutput { filename := "/w/a", output := some "b.c" } = "b.c" := by decide +kernel

theorem without_append (s : String) : withoutSuffix s ++ suffix s = s := by
  obtain ⟨p, hp⟩ := suffix_suffix s
  have hw : withoutSuffix s = String.ofList p := by
    unfold withoutSuffix
    rw [← hp]
    simp
  rw [hw]
  refine String.toList_inj.mp ?_
  rw [← hp]
  simp

/-- C121: instrument files named in full are read under their own names, and no two of them are written to the same file. -/
theorem outputs_distinct (f g : String) (hf : suffix f = ".instr") (hg : suffix g = ".instr")
    (h : cliOutput { filename := f } = cliOutput { filename := g }) : cliSource f = f ∧ f = g := by
  refine ⟨by simp [cliSource, hf], ?_⟩
  simp only [cliOutput] at h
  have h' : withoutSuffix f = withoutSuffix g := by
    have := congrArg String.toList h
    simp only [String.toList_append] at this
    exact String.toList_inj.mp (List.append_cancel_right this)
  rw [← without_append f, ← without_append g, h', hf, hg]

/-- C121, where it fails: of names given without `.instr`, what follows the last dot is lost, so that instruments are written to the same
file. -/
theorem outputs_collide (f g : String) (h : withoutSuffix f = withoutSuffix g) (hf : suffix f ≠ ".instr")
    (hg : suffix g ≠ ".instr") (hne : f ≠ g) :
    cliSource f ≠ cliSource g ∧ cliOutput { filename := f } = cliOutput { filename := g } := by
  constructor
  · simp only [cliSource, hf, hg, if_false]
    intro e
    have := congrArg String.toList e
    simp only [String.toList_append] at this
    exact hne (String.toList_inj.mp (List.append_cancel_right this))
  · simp [cliOutput, h]

example : cliSource "/w/run.1" = "/w/run.1.instr" ∧ cliSource "/w/run.2" = "/w/run.2.instr" ∧
    cliOutput { filename := "/w/run.1" } = "/w/run.c" ∧ cliOutput { filename := "/w/run.2" } = "/w/run.c" := by decide +kernel

end Verif.Registry
