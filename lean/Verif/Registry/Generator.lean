import Verif.Registry.Search

/-!
C97: the translator finds files where the reader found them. Model of how an instrument gets its registries:
`Reader.__post_init__` (src/mccode_antlr/reader/reader.py 45-49), `Reader.get_instrument` (174), `parse_mccode_instr`
(src/mccode_antlr/loader/loader.py 17-27), and of the translator's list of registries
(src/mccode_antlr/translators/c.py 235-237) and look-up (translators/target.py 62-69, without `ext` and not strict).
-/

namespace Verif.Registry

/-- reader.py 45-49: the registries a reader starts with. -/
def readerStart (default : Registry) (given : List Registry) : List Registry :=
  ordered (if given.length = 0 then [default] else given)

section
variable (fs : FS) (isUrl : String → Bool) (remote : String → String → String → Option String → Except Err (Option Registry))

/-- The registries of the reader once all SEARCH statements of an instrument are read. -/
def readerRegistries (default : Registry) (given : List Registry) (specs : List String) : Except Err (List Registry) :=
  specs.foldlM (handleSearch fs isUrl remote) (readerStart default given)
end

/-- The two ways to read an instrument: `parse_mccode_instr` and those that use it, or `Reader.get_instrument`. -/
inductive Way
  | parse
  | get
  deriving DecidableEq, Repr

/-- loader.py 26 and reader.py 174: the registries of the instrument, `final` being those of the reader. -/
def instrRegistries (way : Way) (given final : List Registry) : List Registry :=
  match way with
  | .parse => given
  | .get => final

/-- translators/c.py 235-237. Simplified: `==` compares all of a registry, while that of remote registries compares name, path and
address (registry.py 186-197). -/
def generatorRegistries (libc : Registry) (regs : List Registry) : List Registry :=
  ordered (if regs.any (· = libc) then regs else regs ++ [libc])

/-- A list that is in order stays as it is. -/
theorem ordered_of_sorted (l : List Registry) (h : l.Pairwise fun a b => b.priority ≤ a.priority) : ordered l = l :=
  h.insertionSort_eq

/-- C97, where it holds: an instrument read by a reader whose registries are in order of priority at the end, none of them below the
C library's. The translator takes each file from where the reader takes it, and from the C library if the reader has it not. -/
theorem generator_agrees_partial (libc : Registry) (given final : List Registry)
    (hs : final.Pairwise fun a b => b.priority ≤ a.priority) (hl : ∀ x ∈ final, libc.priority ≤ x.priority) (name : String) :
    chosen (generatorRegistries libc (instrRegistries .get given final)) name none none false =
      (chosen final name none none false).or (if libc.known name none false then some libc else none) := by
  rw [show instrRegistries .get given final = final from rfl, generatorRegistries]
  by_cases h1 : (final.any fun x => decide (x = libc)) = true
  · rw [if_pos h1, ordered_of_sorted _ hs]
    cases hc : chosen final name none none false with
    | some r => rfl
    | none =>
      simp only [chosen, selected, List.find?_eq_none] at hc
      simp only [List.any_eq_true, decide_eq_true_eq] at h1
      obtain ⟨x, hx, rfl⟩ := h1
      rw [if_neg (hc x hx)]
      rfl
  · rw [if_neg h1, ordered_of_sorted _ (List.pairwise_append.2 ⟨hs, List.pairwise_singleton _ _, fun a ha b hb => by
      rw [List.mem_singleton] at hb; subst hb; exact hl a ha⟩)]
    simp only [chosen, selected, List.find?_append]
    congr 1
    by_cases h2 : libc.known name none false = true <;> simp [h2]

/-- The registries of a reader are in order if all that were given have at most the priority 10 of a directory, and only directories
are SEARCHed. -/
theorem directories_stay_sorted (fs : FS) (isUrl : String → Bool)
    (remote : String → String → String → Option String → Except Err (Option Registry)) (default : Registry) (given : List Registry)
    (specs : List String) (final : List Registry) (hd : default.priority ≤ 10) (hg : ∀ x ∈ given, x.priority ≤ 10)
    (hdir : ∀ s ∈ specs, ∀ r, fromSpec fs isUrl remote s = .ok (some r) → r.priority = 10)
    (h : readerRegistries fs isUrl remote default given specs = .ok final) :
    (final.Pairwise fun a b => b.priority ≤ a.priority) ∧
      ∀ x ∈ final, x.priority = 10 ∨ x ∈ given ∨ x = default := by
  have key : ∀ (specs : List String) (start final : List Registry), (∀ s ∈ specs, ∀ r, fromSpec fs isUrl remote s = .ok (some r) → r.priority = 10) →
      specs.foldlM (handleSearch fs isUrl remote) start = .ok final →
      (start.Pairwise fun a b => b.priority ≤ a.priority) → (∀ x ∈ start, x.priority ≤ 10) →
      (final.Pairwise fun a b => b.priority ≤ a.priority) ∧ ∀ x ∈ final, x.priority = 10 ∨ x ∈ start := by
    intro specs
    induction specs with
    | nil =>
      intro start final _ h hp hle
      cases h
      exact ⟨hp, fun x hx => .inr hx⟩
    | cons s specs ih =>
      intro start final hdir h hp hle
      rw [List.foldlM_cons] at h
      cases hh : handleSearch fs isUrl remote start s with
      | error e => rw [hh] at h; cases h
      | ok mid =>
        rw [hh] at h
        have hdir' := fun s' hs' => hdir s' (List.mem_cons_of_mem _ hs')
        rcases searched_is_used_first fs isUrl remote start mid s hh with rfl | ⟨r, rfl, hr, _⟩
        · exact ih _ _ hdir' h hp hle
        · have h10 := hdir s (by simp) r hr
          obtain ⟨h1, h2⟩ := ih (r :: start) final hdir' h
            (List.pairwise_cons.2 ⟨fun x hx => by rw [h10]; exact hle x hx, hp⟩)
            (fun x hx => by
              rcases List.mem_cons.1 hx with rfl | hx
              · omega
              · exact hle x hx)
          refine ⟨h1, fun x hx => ?_⟩
          rcases h2 x hx with h | h
          · exact .inl h
          · rcases List.mem_cons.1 h with rfl | h
            · exact .inl h10
            · exact .inr h
  have hmem : ∀ x ∈ readerStart default given, x ∈ given ∨ x = default := by
    intro x hx
    rw [readerStart, (ordered_perm _).mem_iff] at hx
    split_ifs at hx with hz
    · exact .inr (List.mem_singleton.1 hx)
    · exact .inl hx
  obtain ⟨h1, h2⟩ := key specs _ _ hdir h (ordered_pairwise _) (fun x hx => by
    rcases hmem x hx with hx | rfl
    · exact hg x hx
    · exact hd)
  refine ⟨h1, fun x hx => ?_⟩
  rcases h2 x hx with h | h
  · exact .inl h
  · exact .inr (hmem x h)

/-- C97 for directories: with registries of at most their priority 10 and at least that of the C library, `Reader.get_instrument` gives
an instrument for which the translator takes each file that the reader finds from where the reader takes it. -/
theorem directories_agree_partial (fs : FS) (isUrl : String → Bool)
    (remote : String → String → String → Option String → Except Err (Option Registry)) (libc default : Registry) (given : List Registry)
    (specs : List String) (final : List Registry) (hl : libc.priority ≤ 10) (hd : libc.priority ≤ default.priority ∧ default.priority ≤ 10)
    (hg : ∀ x ∈ given, libc.priority ≤ x.priority ∧ x.priority ≤ 10)
    (hdir : ∀ s ∈ specs, ∀ r, fromSpec fs isUrl remote s = .ok (some r) → r.priority = 10)
    (h : readerRegistries fs isUrl remote default given specs = .ok final) (name : String) (r : Registry)
    (hr : chosen final name none none false = some r) :
    chosen (generatorRegistries libc (instrRegistries .get given final)) name none none false = some r := by
  obtain ⟨h1, h2⟩ := directories_stay_sorted fs isUrl remote default given specs final hd.2 (fun x hx => (hg x hx).2) hdir h
  rw [generator_agrees_partial libc given final h1 (fun x hx => by
    rcases h2 x hx with h | h | rfl
    · omega
    · exact (hg x h).1
    · exact hd.1), hr]
  rfl

theorem generator_mem (libc : Registry) (regs : List Registry) (x : Registry) :
    x ∈ generatorRegistries libc regs ↔ x ∈ regs ∨ x = libc := by
  rw [generatorRegistries, (ordered_perm _).mem_iff]
  by_cases h : (regs.any fun x => decide (x = libc)) = true
  · rw [if_pos h]
    simp only [List.any_eq_true, decide_eq_true_eq] at h
    obtain ⟨y, hy, rfl⟩ := h
    exact ⟨.inl, fun h => h.elim id fun h => h ▸ hy⟩
  · rw [if_neg h]
    simp

/-- C97 does not hold for `parse_mccode_instr` and the functions that use it: whatever was SEARCHed, and whatever the reader finds, the
translator finds a file iff one of the registries that were given, or the C library, has it. -/
theorem parsed_ignores_search (libc : Registry) (given final : List Registry) (name : String) :
    (∃ r, chosen (generatorRegistries libc (instrRegistries .parse given final)) name none none false = some r) ↔
      ∃ r, (r ∈ given ∨ r = libc) ∧ r.known name none false = true := by
  rw [show instrRegistries .parse given final = given from rfl]
  constructor
  · rintro ⟨r, hr⟩
    simp only [chosen, selected] at hr
    exact ⟨r, (generator_mem libc given r).1 (List.mem_of_find?_eq_some hr), by simpa using List.find?_some hr⟩
  · rintro ⟨r, hr, hk⟩
    rw [← Option.isSome_iff_exists, chosen, selected, List.find?_isSome]
    exact ⟨r, (generator_mem libc given r).2 hr, hk⟩

/-- C97 does not hold for `Reader.get_instrument` either, if a registry was given whose priority is above that of a directory: of a
file in both, the reader takes that of the SEARCHed directory, the translator never does. -/
theorem searched_loses_to_memory (fs : FS) (isUrl : String → Bool)
    (remote : String → String → String → Option String → Except Err (Option Registry)) (libc default : Registry) (given : List Registry)
    (spec name : String) (d m : Registry) (hm : m ∈ given) (hp : d.priority < m.priority)
    (hd : fromSpec fs isUrl remote spec = .ok (some d)) (hn : anyMatch fs spec (readerStart default given) = .ok false)
    (kd : d.known name none false = true) (km : m.known name none false = true) :
    ∃ final, readerRegistries fs isUrl remote default given [spec] = .ok final ∧ chosen final name none none false = some d ∧
      ∃ r, chosen (generatorRegistries libc (instrRegistries .get given final)) name none none false = some r ∧
        d.priority < r.priority := by
  refine ⟨d :: readerStart default given, ?_, ?_, ?_⟩
  · simp [readerRegistries, handleSearch, hn, hd]
  · simp [chosen, selected, kd]
  · rw [show instrRegistries .get given (d :: readerStart default given) = d :: readerStart default given from rfl]
    have hmem : m ∈ generatorRegistries libc (d :: readerStart default given) := by
      rw [generator_mem]
      refine .inl (List.mem_cons_of_mem _ ?_)
      rw [readerStart, (ordered_perm _).mem_iff, if_neg (by rw [List.length_eq_zero_iff]; rintro rfl; simp at hm)]
      exact hm
    have hs : (generatorRegistries libc (d :: readerStart default given)).Pairwise fun a b => b.priority ≤ a.priority := ordered_pairwise _
    generalize generatorRegistries libc (d :: readerStart default given) = l at hmem hs
    have : (chosen l name none none false).isSome := by
      rw [chosen, selected, List.find?_isSome]
      exact ⟨m, hmem, km⟩
    obtain ⟨r, hr⟩ := Option.isSome_iff_exists.1 this
    refine ⟨r, hr, ?_⟩
    simp only [chosen, selected] at hr
    obtain ⟨_, as, bs, rfl, hno⟩ := List.find?_eq_some_iff_append.1 hr
    rw [List.mem_append, List.mem_cons] at hmem
    rcases hmem with h | rfl | h
    · have := hno m h
      simp [km] at this
    · exact hp
    · have := (List.pairwise_cons.1 (List.pairwise_append.1 hs).2.1).1 m h
      omega

/-- A C library. -/
def libcR : Registry := { name := "libc", priority := -10, store := .remote "libc" ["share/lib.h", "share/lib.c"] }
/-- A directory with a file to include. -/
def dirL : Registry := { name := "here", priority := 10, store := .dir "/here" ["Arm.comp", "mine.h"] }

/-- The hypotheses of `generator_agrees_partial` are met by a directory before the components. -/
example : ([dirL, remA].Pairwise fun a b => b.priority ≤ a.priority) ∧ (∀ x ∈ [dirL, remA], libcR.priority ≤ x.priority) ∧
    chosen [dirL, remA] "mine.h" none none false = some dirL ∧
    chosen (generatorRegistries libcR (instrRegistries .get [remA] [dirL, remA])) "mine.h" none none false = some dirL ∧
    chosen (generatorRegistries libcR (instrRegistries .get [remA] [dirL, remA])) "share/lib.h" none none false = some libcR := by
  decide +kernel

/-- A file of a SEARCHed directory that the translator of a parsed instrument does not find. -/
example : chosen [dirL, remA] "mine.h" none none false = some dirL ∧
    chosen (generatorRegistries libcR (instrRegistries .parse [remA] [dirL, remA])) "mine.h" none none false = none := by
  decide +kernel

/-- A file system with one directory. -/
def oneDir : FS where
  exist p := p = "/here"
  isDir p := p = "/here"
  resolve p := p
  below _ := ["Arm.comp", "mine.h"]

/-- The hypotheses of `directories_agree_partial` and of `searched_loses_to_memory` are met. -/
example : readerRegistries oneDir (fun _ => false) (fun _ _ _ _ => .ok none) remA [] ["/here"] =
      .ok [{ dirL with name := "/here" }, remA] ∧
    readerRegistries oneDir (fun _ => false) (fun _ _ _ _ => .ok none) remA [memA] ["/here"] =
      .ok [{ dirL with name := "/here" }, memA] ∧
    anyMatch oneDir "/here" (readerStart remA [memA]) = .ok false ∧
    fromSpec oneDir (fun _ => false) (fun _ _ _ _ => .ok none) "/here" = .ok (some { dirL with name := "/here" }) ∧
    dirL.known "Arm.comp" none false = true ∧ memA.known "Arm.comp" none false = true ∧
    chosen (generatorRegistries libcR [{ dirL with name := "/here" }, memA]) "Arm.comp" none none false = some memA := by
  decide +kernel

end Verif.Registry
