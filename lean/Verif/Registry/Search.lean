import Verif.Registry.Props

/-!
C41: a directory that is searched is used first, and is added once, if it is given without quotes. An instrument gives it
with quotes.
-/

namespace Verif.Registry

variable (fs : FS) (isUrl : String → Bool)
  (remote : String → String → String → Option String → Except Err (Option Registry))

theorem anyMatch_true {spec : String} {regs : List Registry} (h : anyMatch fs spec regs = .ok true) :
    ∃ r ∈ regs, matchesSpec fs r spec = .ok true := by
  induction regs with
  | nil => simp [anyMatch] at h
  | cons r rs ih =>
    rw [anyMatch] at h
    split at h
    · cases h
    · exact ⟨r, List.mem_cons_self, by assumption⟩
    · obtain ⟨x, hx, hm⟩ := ih h
      exact ⟨x, List.mem_cons_of_mem _ hx, hm⟩

/-- Exactly what is written in the name of a directory: one word, or a name and the directory. -/
def IsDirSpec (spec dir : String) : Prop := words spec = [dir] ∨ ∃ n, words spec = [n, dir]

theorem matches_dirSpec {spec dir : String} (h : IsDirSpec spec dir) (r : Registry) :
    matchesSpec fs r spec =
      .ok (decide (fs.exist dir = true ∧ r.root? = some (fs.resolve dir) ∨ r.baseUrl? = some dir)) := by
  have h1 : pathWord (words spec) = some dir := by
    rcases h with h | ⟨n, h⟩ <;> simp [h, pathWord]
  have h2 : urlWord (words spec) = some dir := by
    rcases h with h | ⟨n, h⟩ <;> simp [h, urlWord]
  rw [matchesSpec, h1, h2]
  simp only
  split_ifs with h3 h4
  · rw [decide_eq_true (.inl h3)]
  · rw [decide_eq_true (.inr h4)]
  · rw [decide_eq_false]
    rintro (h | h)
    · exact h3 h
    · exact h4 h

theorem anyMatch_dirSpec {spec dir : String} (h : IsDirSpec spec dir) (regs : List Registry) :
    anyMatch fs spec regs =
      .ok (regs.any fun r => decide (fs.exist dir = true ∧ r.root? = some (fs.resolve dir) ∨ r.baseUrl? = some dir)) := by
  induction regs with
  | nil => rfl
  | cons r rs ih =>
    rw [anyMatch, matches_dirSpec fs h, List.any_cons]
    by_cases hd : fs.exist dir = true ∧ r.root? = some (fs.resolve dir) ∨ r.baseUrl? = some dir
    · rw [decide_eq_true hd]
      rfl
    · rw [decide_eq_false hd]
      exact ih

theorem fromSpec_dirSpec {spec dir : String} (h : IsDirSpec spec dir) (hd : fs.exist (unquote dir) = true)
    (hi : fs.isDir (unquote dir) = true) :
    ∃ n, fromSpec fs isUrl remote spec = .ok (some
      { name := n, priority := 10, store := .dir (fs.resolve (unquote dir)) (fs.below (fs.resolve (unquote dir))) }) := by
  rcases h with h | ⟨n, h⟩
  · exact ⟨unquote dir, by simp [fromSpec, h, hd, hi]⟩
  · exact ⟨unquote n, by simp [fromSpec, h, hd, hi]⟩

/-- C41: searching a directory, written without quotes and alone or after a name, does not fail; either it is among the
registries already (or a remote one has its name for its address) and nothing happens, or a registry of this directory is put
before the others. -/
theorem search_directory (regs : List Registry) (spec dir : String) (h : IsDirSpec spec dir)
    (hq : unquote dir = dir) (hd : fs.exist dir = true) (hi : fs.isDir dir = true) :
    ((∃ r ∈ regs, r.root? = some (fs.resolve dir) ∨ r.baseUrl? = some dir) ∧
        handleSearch fs isUrl remote regs spec = .ok regs) ∨
      ((∀ r ∈ regs, r.root? ≠ some (fs.resolve dir)) ∧
        ∃ r, handleSearch fs isUrl remote regs spec = .ok (r :: regs) ∧
          r.store = .dir (fs.resolve dir) (fs.below (fs.resolve dir))) := by
  rw [handleSearch, anyMatch_dirSpec fs h]
  by_cases ha : ∃ r ∈ regs, r.root? = some (fs.resolve dir) ∨ r.baseUrl? = some dir
  · left
    refine ⟨ha, ?_⟩
    have : (regs.any fun r =>
        decide (fs.exist dir = true ∧ r.root? = some (fs.resolve dir) ∨ r.baseUrl? = some dir)) = true := by
      obtain ⟨r, hr, ha⟩ := ha
      rw [List.any_eq_true]
      exact ⟨r, hr, by simpa [hd] using ha⟩
    rw [this]
  · right
    push Not at ha
    refine ⟨fun r hr => (ha r hr).1, ?_⟩
    have : (regs.any fun r =>
        decide (fs.exist dir = true ∧ r.root? = some (fs.resolve dir) ∨ r.baseUrl? = some dir)) = false := by
      rw [List.any_eq_false]
      intro r hr
      simp [(ha r hr).1, (ha r hr).2]
    obtain ⟨n, hf⟩ := fromSpec_dirSpec fs isUrl remote h (by rw [hq]; exact hd) (by rw [hq]; exact hi)
    rw [this, hf]
    exact ⟨_, rfl, by rw [hq]⟩

/-- C41: if a search adds a registry, its components are used before all others. -/
theorem searched_is_used_first (regs regs' : List Registry) (spec : String)
    (h : handleSearch fs isUrl remote regs spec = .ok regs') :
    regs' = regs ∨ ∃ r, regs' = r :: regs ∧ fromSpec fs isUrl remote spec = .ok (some r) ∧
      ∀ name ext strict, r.known name ext strict = true → chosen regs' name none ext strict = some r := by
  unfold handleSearch at h
  split at h
  · cases h
  · cases h
    exact .inl rfl
  · split at h
    · cases h
    · cases h
    · rename_i r hr
      cases h
      refine .inr ⟨r, rfl, hr, fun name ext strict hk => ?_⟩
      rw [chosen, selected, List.find?_cons]
      simp only [hk]

/-- C41, partial: repeating a search changes nothing, if the directory is written without quotes. Missing: the same as
written in an instrument, between quotes. -/
theorem search_again_partial (regs regs' : List Registry) (spec dir : String) (h : IsDirSpec spec dir)
    (hq : unquote dir = dir) (hd : fs.exist dir = true) (hi : fs.isDir dir = true)
    (h1 : handleSearch fs isUrl remote regs spec = .ok regs') :
    handleSearch fs isUrl remote regs' spec = .ok regs' := by
  rcases search_directory fs isUrl remote regs spec dir h hq hd hi with ⟨_, h2⟩ | ⟨_, r, h2, hr⟩
  · rw [h2] at h1
    cases h1
    exact h2
  · rw [h2] at h1
    cases h1
    rcases search_directory fs isUrl remote (r :: regs) spec dir h hq hd hi with ⟨_, h3⟩ | ⟨h3, _⟩
    · exact h3
    · exact absurd (by rw [Registry.root?, hr]) (h3 r List.mem_cons_self)

/-- A file system with a directory `/data/my comps` beside `/data/comps`, which is the working directory's `comps`. -/
def exampleFS : FS where
  exist p := ["comps", "/data/comps", "/data/my comps", "/data/comps/Arm.comp"].contains p
  isDir p := ["comps", "/data/comps", "/data/my comps"].contains p
  resolve p := if p = "comps" then "/data/comps" else p
  below p := if p = "/data/comps" then ["Arm.comp"] else []

example : IsDirSpec "comps" "comps" ∧ IsDirSpec " x  /data/comps " "/data/comps" ∧ unquote "comps" = "comps" ∧
    exampleFS.exist "comps" = true ∧ exampleFS.isDir "comps" = true := by
  refine ⟨.inl ?_, .inr ⟨"x", ?_⟩, ?_, ?_, ?_⟩ <;> decide +kernel

theorem words_of_no_blank {s : String} (hne : s.toList ≠ []) (h : ∀ c ∈ s.toList, c.isWhitespace = false) : words s = [s] := by
  rw [words, List.splitOnP_eq_singleton h]
  simp [hne]

theorem unquote_quoted (t : String) : unquote ("\"" ++ t ++ "\"") = t := by
  have h : ("\"" ++ t ++ "\"").toList = '"' :: (t.toList ++ ['"']) := by simp
  have hl : ('"' :: (t.toList ++ ['"'])).getLast? = some '"' := by
    rw [← List.cons_append, List.getLast?_concat]
  rw [unquote, h, if_pos ⟨rfl, hl⟩]
  simp

/-- C41 does not hold for instruments: the path of a SEARCH is passed with its quotes, so a directory that is searched again is
added again, however often. Conditions: it has no blank, and nothing is called so with the quotes. -/
theorem search_in_instrument_again (regs : List Registry) (t : String) (hb : ∀ c ∈ t.toList, c.isWhitespace = false)
    (hd : fs.exist t = true) (hi : fs.isDir t = true) (hn : fs.exist ("\"" ++ t ++ "\"") = false)
    (hu : ∀ r ∈ regs, r.baseUrl? ≠ some ("\"" ++ t ++ "\"")) :
    ∃ r, searchPath fs isUrl remote regs t = .ok (r :: regs) ∧
      searchPath fs isUrl remote (r :: regs) t = .ok (r :: r :: regs) := by
  have hw : words ("\"" ++ t ++ "\"") = ["\"" ++ t ++ "\""] := by
    refine words_of_no_blank (by simp) ?_
    intro c hc
    have h : ("\"" ++ t ++ "\"").toList = '"' :: (t.toList ++ ['"']) := by simp
    rw [h, List.mem_cons, List.mem_append, List.mem_singleton] at hc
    rcases hc with rfl | hc | rfl
    · rfl
    · exact hb c hc
    · rfl
  obtain ⟨r, hr, hf⟩ : ∃ r : Registry, r.baseUrl? = none ∧
      fromSpec fs isUrl remote ("\"" ++ t ++ "\"") = .ok (some r) := by
    obtain ⟨n, hf⟩ := fromSpec_dirSpec fs isUrl remote (spec := "\"" ++ t ++ "\"") (.inl hw)
      (by rw [unquote_quoted]; exact hd) (by rw [unquote_quoted]; exact hi)
    exact ⟨_, rfl, hf⟩
  have hm : ∀ l : List Registry, (∀ r ∈ l, r.baseUrl? ≠ some ("\"" ++ t ++ "\"")) →
      anyMatch fs ("\"" ++ t ++ "\"") l = .ok false := by
    intro l hl
    rw [anyMatch_dirSpec fs (.inl hw)]
    congr 1
    rw [List.any_eq_false]
    intro r hr
    simp [hn, hl r hr]
  refine ⟨r, ?_, ?_⟩
  · rw [searchPath, handleSearch, hm regs hu, hf]
  · rw [searchPath, handleSearch, hm _ ?_, hf]
    intro x hx
    rcases List.mem_cons.mp hx with rfl | hx
    · simp [hr]
    · exact hu x hx

example : (∀ c ∈ "comps".toList, c.isWhitespace = false) ∧ exampleFS.exist "comps" = true ∧
    exampleFS.isDir "comps" = true ∧ exampleFS.exist ("\"" ++ "comps" ++ "\"") = false := by decide +kernel

/-- C41 does not hold for a directory with a blank in its name: the search raises. -/
theorem search_with_blank_raises :
    exampleFS.exist "/data/my comps" = true ∧ exampleFS.isDir "/data/my comps" = true ∧
      searchPath exampleFS (fun _ => false) remote [remA] "/data/my comps" = .error .runtimeError := by
  refine ⟨by decide +kernel, by decide +kernel, ?_⟩
  have hw : words ("\"" ++ "/data/my comps" ++ "\"") = ["\"/data/my", "comps\""] := by decide +kernel
  have h1 : anyMatch exampleFS ("\"" ++ "/data/my comps" ++ "\"") [remA] = .ok false := by decide +kernel
  have h2 : exampleFS.exist (unquote "comps\"") = false := by decide +kernel
  rw [searchPath, handleSearch, h1, fromSpec, hw]
  simp [h2]

/-- C41 does not hold for SEARCH SHELL: the output of a command ends with a line end, and the empty text after it is searched
too, which raises. -/
theorem search_shell_raises (regs : List Registry) (out : String) :
    ∃ e, searchShell fs isUrl remote regs (out ++ "\n") = .error e := by
  have hs : ((out ++ "\n").toList.splitOn '\n').map String.ofList =
      (out.toList.splitOn '\n').map String.ofList ++ [""] := by
    have h : (out ++ "\n").toList = out.toList ++ '\n' :: [] := by simp
    rw [h, List.splitOn_append_cons_self, List.map_append]
    rfl
  rw [searchShell, hs, List.foldlM_append]
  cases h : ((out.toList.splitOn '\n').map String.ofList).foldlM (handleSearch fs isUrl remote) regs with
  | error e => exact ⟨e, rfl⟩
  | ok regs' =>
    have hw : words "" = [] := by decide +kernel
    cases regs' with
    | nil => exact ⟨.runtimeError, by simp [bind, Except.bind, List.foldlM, handleSearch, anyMatch, fromSpec, hw]⟩
    | cons r rs =>
      exact ⟨.indexError, by simp [bind, Except.bind, List.foldlM, handleSearch, anyMatch, matchesSpec, pathWord, hw]⟩

end Verif.Registry
