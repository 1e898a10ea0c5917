import Verif.Loader.SimProps

/-! C44: summaries that are not read as they were written. -/

namespace Verif.Loader

def header0 : Header := { description := t "McStas simulation", date := t "Mon", program := t "3.5" }

def instr0 : SimInstr :=
  { name := t "a.instr", file := t "a.instr", source := t "a.instr", parameters := t "x(double)", trace := true, dflt := true,
    embed := false }

def sim0 : Simulation :=
  { name := t "out", format := t "McCode", url := [], creator := t "me", instrument := t "a.instr", ncount := 100,
    trace := false, gravitation := true, seed := -5, directory := t "out", params := [t "x=1", t "y=2"] }

/-- Data of a one-dimensional monitor, with one attribute changed. -/
def datum1 (key : Text) (v : Option Text) : Datum :=
  { keywords := keywords1, ncount := 100,
    attr := fun k => if k = t "Ncount" then none else if k = key then v else if k ∈ keywords1 then some (t "v w") else none }

def file0 : SimFile := ⟨header0, instr0, sim0, [datum1 (t "title") (some []), datum1 (t "title") (some (t "a: b"))]⟩

example : file0.Good := by
  have hcl : ∀ s ∈ [t "v w", t "a: b"], Clean s := by
    intro s hs
    refine ⟨⟨?_, ?_⟩, ?_, ?_⟩
    · have : ∀ s ∈ [t "v w", t "a: b"], ∀ c ∈ s.head?.toList, isSpace c = false := by decide +kernel
      intro c hc
      exact this s hs c (by simp [hc])
    · have : ∀ s ∈ [t "v w", t "a: b"], ∀ c ∈ s.getLast?.toList, isSpace c = false := by decide +kernel
      intro c hc
      exact this s hs c (by simp [hc])
    · revert s
      decide +kernel
    · revert s
      decide +kernel
  have hnil : Clean [] := clean_of_no_space (by simp)
  have hd : ∀ v : Text, Clean v → (datum1 (t "title") (some v)).Good := by
    intro v hv
    refine ⟨by simp [datum1], ?_, by simp [datum1], ?_⟩
    · intro k hk hne
      simp only [datum1, if_neg hne]
      split_ifs
      · exact ⟨v, rfl, hv⟩
      · exact ⟨_, rfl, hcl _ (by simp)⟩
      · rename_i h
        exact absurd hk h
    · intro k hk
      have h1 : t "Ncount" ∈ keywords1 := by decide
      have h2 : t "title" ∈ keywords1 := by decide
      have h3 : k ≠ t "title" := fun h => hk (by rw [h]; exact h2)
      simp only [datum1]
      split_ifs with h
      · rfl
      · rename_i h4
        exact absurd h4 hk
      · rfl
  have hns : ∀ s ∈ [t "Mon", t "3.5", t "a.instr", t "x(double)", t "out", t "McCode", t "me", t "x=1", t "y=2"],
      ∀ c ∈ s, isSpace c = false := by decide +kernel
  have hh : Clean (t "McStas simulation") := by
    refine ⟨⟨?_, ?_⟩, by decide, by decide +kernel⟩
    · have : ∀ c ∈ (t "McStas simulation").head?.toList, isSpace c = false := by decide +kernel
      intro c hc
      exact this c (by simp [hc])
    · have : ∀ c ∈ (t "McStas simulation").getLast?.toList, isSpace c = false := by decide +kernel
      intro c hc
      exact this c (by simp [hc])
  have hc : ∀ s ∈ [t "Mon", t "3.5", t "a.instr", t "x(double)", t "out", t "McCode", t "me", t "x=1", t "y=2"], Clean s :=
    fun s hs => clean_of_no_space (hns s hs)
  refine ⟨⟨hh, by decide, hc _ (by decide), hc _ (by decide)⟩,
    ⟨hc _ (by decide), by decide, hc _ (by decide), hc _ (by decide), hc _ (by decide)⟩,
    ⟨hc _ (by decide), by decide, hc _ (by decide), hnil, hc _ (by decide), hc _ (by decide), hc _ (by decide), ?_⟩, ?_⟩
  · intro p hp
    refine hc p ?_
    simp only [file0, sim0, List.mem_cons, List.not_mem_nil, or_false] at hp
    rcases hp with rfl | rfl <;> decide
  · intro d hd'
    simp only [file0, List.mem_cons, List.not_mem_nil, or_false] at hd'
    rcases hd' with rfl | rfl
    · exact hd _ hnil
    · exact hd _ (hcl _ (by simp))

/-- Whether reading raises. -/
def raises {α : Type} : Except Err α → Bool
  | .error _ => true
  | .ok _ => false

/-- A summary without a description, or with an instrument or simulation without name, cannot be read. -/
theorem empty_text_refused : ∃ s : SimFile, raises (parse s.text) = false ∧
    raises (parse { s with header := { s.header with description := [] } }.text) = true ∧
    raises (parse { s with instrument := { s.instrument with name := [] } }.text) = true ∧
    raises (parse { s with simulation := { s.simulation with name := [] } }.text) = true :=
  ⟨⟨header0, instr0, sim0, []⟩, by decide +kernel, by decide +kernel, by decide +kernel, by decide +kernel⟩

/-- Data of which an attribute in its keywords is `None` is written without the line and cannot be read. -/
theorem missing_attribute_refused : ∃ (s : SimFile) (d : Datum), s.data = [d] ∧ d.attr (t "xlabel") = none ∧
    d.keywords = keywords1 ∧ raises (parse s.text) = true :=
  ⟨⟨header0, instr0, sim0, [datum1 (t "xlabel") none]⟩, _, rfl, by decide +kernel, rfl, by decide +kernel⟩

/-- A title with the words `end data` ends the data: they cannot be read. -/
theorem mark_in_title_refused : ∃ s : SimFile, (s.data.map fun d => d.attr (t "title")) = [some (t "to the end data")] ∧
    raises (parse s.text) = true :=
  ⟨⟨header0, instr0, sim0, [datum1 (t "title") (some (t "to the end data"))]⟩, by decide +kernel, by decide +kernel⟩

/-- A parameter with the words `end simulation` silently loses the parameters after it. -/
theorem mark_in_parameter_loses : ∃ s : SimFile, s.simulation.params = [t "f=at end simulation", t "y=2"] ∧
    (match parse s.text with | .ok r => some r.simulation.params | .error _ => none) = some [t "f=at"] :=
  ⟨⟨header0, instr0, { sim0 with params := [t "f=at end simulation", t "y=2"] }, []⟩, rfl, by decide +kernel⟩

/-- White space at the ends of a text is lost. -/
theorem blanks_lost : ∃ (s : SimFile), s.header.program = t "3.5 " ∧
    (match parse s.text with | .ok r => some r.header.program | .error _ => none) = some (t "3.5") :=
  ⟨⟨{ header0 with program := t "3.5 " }, instr0, sim0, []⟩, rfl, by decide +kernel⟩

/-- The entries of the data of a summary that is read, in the order of the lines. -/
theorem data_entries (s : Text) (d : Datum) (h : parseDatum s = .ok d) :
    d.keywords =
        [t "Date", t "type", t "Source", t "component", t "position", t "title", t "Ncount", t "statistics", t "signal",
          t "values", t "xylimits", t "variables"] ∨
      d.keywords =
        [t "Date", t "type", t "Source", t "component", t "position", t "title", t "Ncount", t "filename", t "statistics",
          t "signal", t "values", t "xylimits", t "variables"] ∨
      d.keywords =
        [t "Date", t "type", t "Source", t "component", t "position", t "title", t "Ncount", t "filename", t "statistics",
          t "signal", t "values", t "xvar", t "yvar", t "xlabel", t "ylabel", t "xlimits", t "variables"] ∨
      d.keywords =
        [t "Date", t "type", t "Source", t "component", t "position", t "title", t "Ncount", t "filename", t "statistics",
          t "signal", t "values", t "xvar", t "yvar", t "xlabel", t "ylabel", t "zvar", t "zlabel", t "xylimits",
          t "variables"] := by
  rw [parseDatum] at h
  split at h
  · cases h
  rename_i ks hks
  split at h
  · cases h
  split at h
  · cases h
  split at h
  · cases h
  cases h
  rw [keywordsFor] at hks
  split_ifs at hks
  · exact Or.inl (Option.some.inj hks).symm
  · exact Or.inr (Or.inl (Option.some.inj hks).symm)
  · exact Or.inr (Or.inr (Or.inl (Option.some.inj hks).symm))
  · exact Or.inr (Or.inr (Or.inr (Option.some.inj hks).symm))

end Verif.Loader
