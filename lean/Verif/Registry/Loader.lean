import Verif.Registry.Props

/-!
Property C123: the library of the program is among the registries an instrument is read with.

Model of `ensure_registry`, `parse_mccode_instr`, `parse_mcstas_instr` and `parse_mcxtrace_instr` and the functions that read a file
first (src/mccode_antlr/loader/loader.py 17-58), as far as registries go. The instrument has no SEARCH (for that see C41 and C97).
-/

namespace Verif.Registry

variable (cache : Registry → String)

/-- `item == needed`, where `needed` is one of the registries of a library, so remote. `cache` is `pooch.path`, the directory where the
files of a remote registry are kept. `RemoteRegistry.__eq__` (registry.py 186-197); `LocalRegistry.__eq__` (345-352), which compares the
root, and a remote registry has none (41); an in-memory registry has no `__eq__`, so that of the library is asked, and an in-memory
registry has no `pooch` (42, 191-192). The files are not compared. -/
def sameAs (item needed : Registry) : Bool :=
  match item.store, needed.store with
  | .remote u _, .remote v _ => decide (needed.name = item.name) && decide (cache needed = cache item) && decide (v = u)
  | _, _ => false

/-- `ensure_registry` (loader.py 30-35). -/
def ensure (needed : Registry) (given : Option (List Registry)) : List Registry :=
  match given with
  | none => [needed]
  | some l => if l.length = 0 then [needed] else if l.any fun r => sameAs cache r needed then l else l ++ [needed]

/-- `Reader(registries=...)` (reader.py 41, 45-49), where `mcstas` is the library of McStas. -/
def readerInit (mcstas : Registry) (l : List Registry) : List Registry :=
  ordered (if l.length = 0 then [mcstas] else l)

/-- The registries of the reader, and those kept in the instrument. -/
structure Loaded where
  used : List Registry
  kept : List Registry
  deriving DecidableEq

/-- `parse_mccode_instr` (loader.py 17-27); the instrument has none before (26, instr.py 34). -/
def parseMccode (mcstas : Registry) (l : List Registry) : Loaded := ⟨readerInit mcstas l, [] ++ l⟩

/-- `parse_mcstas_instr` and `load_mcstas_instr` (38-40, 52-54), and with the other library `parse_mcxtrace_instr` and
`load_mcxtrace_instr` (43-45, 57-59). -/
def parseWith (mcstas library : Registry) (given : Option (List Registry)) : Loaded :=
  parseMccode mcstas (ensure cache library given)

/-! ### C123 -/

theorem sameAs_self (r : Registry) (u : String) (h : r.baseUrl? = some u) : sameAs cache r r = true := by
  unfold Registry.baseUrl? at h
  unfold sameAs
  split at h
  · simp_all
  · cases h

theorem ensure_eq (needed : Registry) (given : Option (List Registry)) :
    ensure cache needed given =
      if (given.getD []).any (fun r => sameAs cache r needed) then given.getD [] else given.getD [] ++ [needed] := by
  cases given with
  | none => simp [ensure]
  | some l =>
    cases l with
    | nil => simp [ensure]
    | cons a l => simp [ensure]

theorem ensure_length (needed : Registry) (given : Option (List Registry)) : (ensure cache needed given).length ≠ 0 := by
  rw [ensure_eq]
  split_ifs with h
  · intro h0
    rw [List.length_eq_zero_iff.mp h0] at h
    simp at h
  · simp

/-- C123: the registries kept in the instrument are those given, in order, and after them the library unless one of those
given is equal to it; these are the ones used. -/
theorem kept_registries (mcstas library : Registry) (given : Option (List Registry)) :
    ((∃ r ∈ given.getD [], sameAs cache r library = true) → (parseWith cache mcstas library given).kept = given.getD []) ∧
    ((∀ r ∈ given.getD [], sameAs cache r library = false) →
      (parseWith cache mcstas library given).kept = given.getD [] ++ [library]) ∧
    (parseWith cache mcstas library given).used.Perm (parseWith cache mcstas library given).kept ∧
    (parseWith cache mcstas library given).used.Pairwise (fun a b => b.priority ≤ a.priority) := by
  refine ⟨?_, ?_, ?_, ordered_pairwise _⟩
  · rintro ⟨r, hr, hs⟩
    simp only [parseWith, parseMccode, List.nil_append, ensure_eq]
    rw [if_pos (List.any_eq_true.mpr ⟨r, hr, hs⟩)]
  · intro h
    simp only [parseWith, parseMccode, List.nil_append, ensure_eq]
    rw [if_neg]
    intro ha
    obtain ⟨r, hr, hs⟩ := List.any_eq_true.mp ha
    rw [h r hr] at hs
    cases hs
  · simp only [parseWith, parseMccode, List.nil_append, readerInit]
    rw [if_neg (ensure_length cache library given)]
    exact ordered_perm _

/-- C123: the library is added once: parsing with the registries kept in an instrument keeps the same. -/
theorem library_once (mcstas library : Registry) (url : String) (hl : library.baseUrl? = some url)
    (given : Option (List Registry)) :
    parseWith cache mcstas library (some (parseWith cache mcstas library given).kept) = parseWith cache mcstas library given ∧
    ((∀ r ∈ given.getD [], sameAs cache r library = false) →
      (parseWith cache mcstas library given).used.countP (fun r => sameAs cache r library) = 1) := by
  constructor
  · have : ensure cache library (some (ensure cache library given)) = ensure cache library given := by
      rw [ensure_eq cache library (some _), Option.getD_some, if_pos]
      rw [ensure_eq]
      split_ifs with h
      · exact h
      · simp [sameAs_self cache library url hl]
    simp only [parseWith, parseMccode, List.nil_append, this]
  · intro h
    have h1 := (kept_registries cache mcstas library given).2.1 h
    have h2 := (kept_registries cache mcstas library given).2.2.1
    rw [h2.countP_eq, h1, List.countP_append, List.countP_eq_zero.mpr]
    · simp [sameAs_self cache library url hl]
    · intro r hr
      simp [h r hr]

/-- C123: a file that the library knows is found, if those given that are equal to the library have the same files. It is
found in one of those given if one of them knows it and does not have a lower priority than the library. -/
theorem library_found_partial (mcstas library : Registry) (given : Option (List Registry))
    (hs : ∀ r ∈ given.getD [], sameAs cache r library = true → r.store = library.store)
    (name : String) (ext : Option String) (strict : Bool) :
    (library.known name ext strict = true →
      ∃ r, chosen (parseWith cache mcstas library given).used name none ext strict = some r ∧ r.known name ext strict = true) ∧
    ((∃ x ∈ given.getD [], x.known name ext strict = true ∧ library.priority ≤ x.priority) →
      ∃ r ∈ given.getD [], chosen (parseWith cache mcstas library given).used name none ext strict = some r ∧
        ∀ x ∈ given.getD [], x.known name ext strict = true → x.priority ≤ r.priority) := by
  have hu : (parseWith cache mcstas library given).used = ordered (ensure cache library given) := by
    simp only [parseWith, parseMccode, readerInit]
    rw [if_neg (ensure_length cache library given)]
  rw [hu]
  have hsub : ∀ x ∈ given.getD [], x ∈ ensure cache library given := by
    intro x hx
    rw [ensure_eq]
    split_ifs
    · exact hx
    · exact List.mem_append_left _ hx
  have hfind : ∀ x ∈ ensure cache library given, x.known name ext strict = true →
      ∃ r, chosen (ordered (ensure cache library given)) name none ext strict = some r := by
    intro x hx hk
    cases hc : chosen (ordered (ensure cache library given)) name none ext strict with
    | some r => exact ⟨r, rfl⟩
    | none =>
      have := (chosen_none_iff (ensure cache library given) name none ext strict).1.mp hc x hx
      rw [hk] at this
      cases this
  constructor
  · intro hk
    have : ∃ x ∈ ensure cache library given, x.known name ext strict = true := by
      by_cases ha : ∃ r ∈ given.getD [], sameAs cache r library = true
      · obtain ⟨r, hr, hsr⟩ := ha
        refine ⟨r, hsub r hr, ?_⟩
        have := hs r hr hsr
        rw [Registry.known, this]
        exact hk
      · refine ⟨library, ?_, hk⟩
        rw [ensure_eq, if_neg]
        · simp
        · intro h
          obtain ⟨r, hr, hsr⟩ := List.any_eq_true.mp h
          exact ha ⟨r, hr, hsr⟩
    obtain ⟨x, hx, hkx⟩ := this
    obtain ⟨r, hr⟩ := hfind x hx hkx
    exact ⟨r, hr, (chosen_has_priority _ _ _ _ _ _ hr).2.1⟩
  · rintro ⟨x, hx, hkx, hpx⟩
    obtain ⟨r, hr⟩ := hfind x (hsub x hx) hkx
    obtain ⟨hm, hkr, hmax, hfirst⟩ := chosen_has_priority _ _ _ _ _ _ hr
    have hall : ∀ y ∈ given.getD [], y.known name ext strict = true → y.priority ≤ r.priority :=
      fun y hy hky => hmax y (hsub y hy) hky
    refine ⟨r, ?_, hr, hall⟩
    simp only [selected] at hm hfirst
    by_cases hg : r ∈ given.getD []
    · exact hg
    · exfalso
      rw [ensure_eq] at hm hfirst
      split_ifs at hm hfirst with ha
      · exact hg hm
      · rcases List.mem_append.mp hm with h | h
        · exact hg h
        · rw [List.mem_singleton] at h
          have hp : x.priority = r.priority := le_antisymm (hall x hx hkx) (h ▸ hpx)
          rw [List.find?_append] at hfirst
          cases hf : (given.getD []).find? fun x => x.known name ext strict && decide (x.priority = r.priority) with
          | none =>
            have := List.find?_eq_none.mp hf x hx
            simp [hkx, hp] at this
          | some y =>
            rw [hf] at hfirst
            simp only [Option.some_or, Option.some.injEq] at hfirst
            exact hg (hfirst ▸ List.mem_of_find?_eq_some hf)

/-- A registry with the name, address and cache of the library, but a shorter list of files. -/
def stdLib : Registry := ⟨"mcstas", -10, .remote "https://x/v3/" ["optics/Arm.comp", "optics/Slit.comp"]⟩

def ownList : Registry := ⟨"mcstas", 0, .remote "https://x/v3/" ["optics/Arm.comp"]⟩

def xLib : Registry := ⟨"mcxtrace", -10, .remote "https://x/v3/" ["optics/Mirror.comp"]⟩

def ownDir : Registry := ⟨"mine", 10, .dir "/mine" ["Arm.comp"]⟩

example : (∀ r ∈ [ownDir, stdLib], sameAs (fun r => r.name) r stdLib = true → r.store = stdLib.store) ∧
    sameAs (fun r => r.name) stdLib stdLib = true ∧ stdLib.baseUrl? = some "https://x/v3/" := by decide

example : stdLib.known "Slit" (some ".comp") true = true ∧ ownDir.known "Arm" (some ".comp") true = true ∧
    (chosen (parseWith (fun r => r.name) stdLib stdLib (some [ownDir])).used "Arm" none (some ".comp") true = some ownDir) ∧
    (chosen (parseWith (fun r => r.name) stdLib stdLib (some [ownDir])).used "Slit" none (some ".comp") true = some stdLib) := by
  decide +kernel

/-- C123 fails: a registry with another list of files for the same address and cache is taken for the library. -/
theorem library_missing :
    stdLib.known "Slit" (some ".comp") true = true ∧
    chosen (parseWith (fun r => r.name) stdLib stdLib (some [ownList])).used "Slit" none (some ".comp") true = none := by
  decide +kernel

/-- C123 fails for `parse_mccode_instr` without registries: the library of McStas is used, whatever the instrument is for, and
the instrument keeps no registry. -/
theorem none_kept (mcstas : Registry) (name : String) (ext : Option String) (strict : Bool)
    (h : mcstas.known name ext strict = true) :
    chosen (parseMccode mcstas []).used name none ext strict = some mcstas ∧
    chosen (parseMccode mcstas []).kept name none ext strict = none := by
  simp [parseMccode, readerInit, ordered, chosen, selected, h]

example : stdLib.known "Arm" (some ".comp") true = true := by decide +kernel

/-- C123: with registries given, those kept and those used find the same, if a reader is made of those kept. -/
theorem kept_suffices (mcstas : Registry) (l : List Registry) :
    (parseMccode mcstas (parseMccode mcstas l).kept).used = (parseMccode mcstas l).used := by
  simp [parseMccode]

/-- C123: the libraries of McStas and McXtrace are different registries; each is added where only the other is given. -/
theorem other_library (mcstas library other : Registry) (hn : other.name ≠ library.name) :
    (parseWith cache mcstas library (some [other])).kept = [other, library] := by
  have : sameAs cache other library = false := by
    unfold sameAs
    split
    · simp [Ne.symm hn]
    · rfl
  simp [parseWith, parseMccode, ensure_eq, this]

example : stdLib.name ≠ xLib.name := by decide

end Verif.Registry
