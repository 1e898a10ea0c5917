import Verif.Macros.Lemmas

/-!
C37: in every section of the generated program each macro that is defined is undefined again, but for `mcget_run_num`; user
code sees the macros of its own parameters. The definitions written for SAVE of an instrument lack a parenthesis. A
parameter with the name of a member of the particle, or of a drawing function, takes that macro away from the
components that come later.
-/

namespace Verif.Macros

/-- The lines define the macro somewhere. -/
def Defines (k : String) (ls : List Line) : Prop := ∃ b, Line.define k b ∈ ls

theorem defines_append (k : String) (a b : List Line) : Defines k (a ++ b) ↔ Defines k a ∨ Defines k b := by
  simp only [Defines, List.mem_append]
  exact ⟨fun ⟨x, h⟩ => h.imp (fun h => ⟨x, h⟩) fun h => ⟨x, h⟩,
    fun h => h.elim (fun ⟨x, h⟩ => ⟨x, .inl h⟩) fun ⟨x, h⟩ => ⟨x, .inr h⟩⟩

theorem defines_flatMap {α : Type} (k : String) (l : List α) (f : α → List Line) :
    Defines k (l.flatMap f) ↔ ∃ x ∈ l, Defines k (f x) := by
  simp only [Defines, List.mem_flatMap]
  exact ⟨fun ⟨b, x, hx, h⟩ => ⟨x, hx, b, h⟩, fun ⟨x, hx, b, h⟩ => ⟨b, x, hx, h⟩⟩

theorem defines_map {α : Type} (k : String) (l : List α) (n b : α → String) :
    Defines k (l.map fun x => .define (n x) (b x)) ↔ k ∈ l.map n := by
  simp only [Defines, List.mem_map, Line.define.injEq]
  exact ⟨fun ⟨_, x, hx, h, _⟩ => ⟨x, hx, h⟩, fun ⟨x, hx, h⟩ => ⟨b x, x, hx, h, rfl⟩⟩

theorem defines_codes {α : Type} (k : String) (l : List α) (o t : α → String) :
    ¬Defines k (l.map fun x => .code (o x) (t x)) := by simp [Defines]

theorem defines_undefs (k : String) (l : List String) : ¬Defines k (l.map .undef) := by simp [Defines]

theorem defines_block (k : String) (names : List String) (b : String → String) (mid : List Line) :
    Defines k (names.map (fun n => .define n (b n)) ++ mid ++ names.map .undef) ↔ k ∈ names ∨ Defines k mid := by
  rw [defines_append, defines_append, defines_map]
  simp [defines_undefs]

theorem defines_class (k : String) (blocks : CType → List String) (c : CType) :
    Defines k (classSection blocks c) ↔ blocks c ≠ [] ∧ k ∈ c.names := by
  rw [classSection]
  split_ifs with h
  · simp [Defines, List.length_eq_zero_iff.mp h]
  · have hne : blocks c ≠ [] := fun hb => h (by rw [hb]; rfl)
    refine (defines_block k c.names _ _).trans ?_
    have := defines_codes k (blocks c) (fun _ => c.name) (fun t => t)
    simp only [hne, ne_eq, not_false_eq_true, true_and, or_iff_left_iff_imp]
    exact fun h => absurd h this

theorem defines_instr (k : String) (s : Source) (body : String → String) (blocks : List String) :
    Defines k (instrSection s body blocks) ↔ blocks ≠ [] ∧ k ∈ s.parameters := by
  rw [instrSection]
  split_ifs with h
  · simp [Defines, List.length_eq_zero_iff.mp h]
  · have hne : blocks ≠ [] := fun hb => h (by rw [hb]; rfl)
    refine (defines_block k s.parameters _ _).trans ?_
    have := defines_codes k blocks (fun _ => s.name) (fun t => t)
    simp only [hne, ne_eq, not_false_eq_true, true_and, or_iff_left_iff_imp]
    exact fun h => absurd h this

theorem defines_extend (k : String) (s : Source) (c : CType) :
    Defines k (extendLines s c) ↔ extended s c ≠ [] ∧ k ∈ userNames s c := by
  rw [extendLines]
  split_ifs with h
  · simp [Defines, List.length_eq_zero_iff.mp h]
  · have hne : extended s c ≠ [] := fun hb => h (by rw [hb]; rfl)
    refine (defines_block k (userNames s c) _ _).trans ?_
    have := defines_codes k (extended s c) (fun e => e.2.1) (fun e => e.2.2)
    simp only [hne, ne_eq, not_false_eq_true, true_and, or_iff_left_iff_imp]
    exact fun h => absurd h this

theorem defines_traceClass (k : String) (s : Source) (c : CType) :
    Defines k (traceClass s c) ↔ Traced s c ∧ (k ∈ c.names ∨ extended s c ≠ [] ∧ k ∈ userNames s c) := by
  rw [traceClass]
  split_ifs with h
  · simp [Defines, (not_traced_iff s c).mp h]
  · have ht : Traced s c := by_contra fun h' => h ((not_traced_iff s c).mpr h')
    have e : c.defines ++ c.trace.map (.code c.name) ++ extendLines s c ++ c.undefs =
        c.names.map (fun n => .define n ("(_comp->_parameters." ++ n ++ ")")) ++
          (c.trace.map (fun t => .code c.name t) ++ extendLines s c) ++ c.names.map .undef := by
      simp [CType.defines, CType.undefs]
    rw [e, defines_block, defines_append, defines_extend]
    simp [ht, defines_codes k c.trace (fun _ => c.name) (fun t => t)]

/-- A section leaves a macro as it is due: undefined if the section has defined it, as it was otherwise. -/
def Tidy (k : String) (ls : List Line) : Prop := ClearsAt k ls (Defines k ls)

theorem tidy_class (blocks : CType → List String) (c : CType) (k : String) : Tidy k (classSection blocks c) :=
  (clears_class blocks c k).congr (defines_class k blocks c).symm

theorem tidy_instr (s : Source) (body : String → String) (blocks : List String) (k : String) :
    Tidy k (instrSection s body blocks) :=
  (clears_instr s body blocks k).congr (defines_instr k s body blocks).symm

theorem tidy_traceClass (s : Source) (c : CType) (k : String) : Tidy k (traceClass s c) :=
  (clears_traceClass s c k).congr (defines_traceClass k s c).symm

theorem Tidy.append {k : String} {a b : List Line} (ha : Tidy k a) (hb : Tidy k b) : Tidy k (a ++ b) :=
  (ClearsAt.append ha hb).congr (defines_append k a b).symm

theorem tidy_flatMap {α : Type} {k : String} (l : List α) (f : α → List Line) (h : ∀ x, Tidy k (f x)) :
    Tidy k (l.flatMap f) :=
  (ClearsAt.flatMap h).congr (defines_flatMap k l f).symm

/-- C37: after INITIALIZE, SAVE, FINALLY and DISPLAY every macro they have defined is undefined, and the others are as they
were before; the macro `setpos_getdistance` is kept for the whole program. -/
theorem sections_tidy (s : Source) (k : String) (m : Table) :
    (k ≠ "setpos_getdistance" →
      (Defines k (initializeSection s) → after m (initializeSection s) k = none) ∧
        (¬Defines k (initializeSection s) → after m (initializeSection s) k = m k)) ∧
    ((Defines k (saveSection s) → after m (saveSection s) k = none) ∧
      (¬Defines k (saveSection s) → after m (saveSection s) k = m k)) ∧
    ((Defines k (finallySection s) → after m (finallySection s) k = none) ∧
      (¬Defines k (finallySection s) → after m (finallySection s) k = m k)) ∧
    ((Defines k (displaySection s) → after m (displaySection s) k = none) ∧
      (¬Defines k (displaySection s) → after m (displaySection s) k = m k)) := by
  refine ⟨fun hk => ?_, ?_, ?_, ?_⟩
  · have ht : Tidy k (s.types.flatMap (classSection CType.init) ++ instrSection s instrBody s.init) :=
      (tidy_flatMap _ _ fun c => tidy_class _ c k).append (tidy_instr s _ _ k)
    have hd : Defines k (initializeSection s) ↔
        Defines k (s.types.flatMap (classSection CType.init) ++ instrSection s instrBody s.init) := by
      simp only [Defines, initializeSection, List.cons_append, List.mem_cons, Line.define.injEq, hk, false_and, false_or]
    have ha : after m (initializeSection s) = after (step m (.define "setpos_getdistance"
        "checked_setpos_getdistance(current_setpos_index, first, second)"))
        (s.types.flatMap (classSection CType.init) ++ instrSection s instrBody s.init) := rfl
    rw [hd, ha]
    refine ⟨(ht _).1, fun h => ?_⟩
    rw [(ht _).2 h]
    simp [step, hk]
  · exact ((tidy_flatMap _ _ fun c => tidy_class _ c k).append (tidy_instr s _ _ k) : Tidy k (saveSection s)) m
  · exact ((tidy_flatMap _ _ fun c => tidy_class _ c k).append (tidy_instr s _ _ k) : Tidy k (finallySection s)) m
  · have ht : Tidy k (s.types.flatMap (classSection CType.display)) := tidy_flatMap _ _ fun c => tidy_class _ c k
    have hd : Defines k (displaySection s) ↔
        k ∈ displayMacros.map (·.1) ∨ Defines k (s.types.flatMap (classSection CType.display)) := by
      have hu : (displayMacros.map fun p => Line.undef p.1) = (displayMacros.map (·.1)).map .undef := by
        rw [List.map_map]; rfl
      rw [displaySection, defines_append, defines_append, hu]
      have := defines_map k displayMacros (fun p => p.1) (fun p => p.2)
      simp only [this, defines_undefs, or_false]
    have hu : (displayMacros.map fun p => Line.undef p.1) = (displayMacros.map (·.1)).map .undef := by
      rw [List.map_map]; rfl
    have hdm := (after_defines displayMacros (fun p => p.1) (fun p => p.2)
      (by decide) m k)
    rw [hd, displaySection, after_append, after_append, hu, after_undefs]
    constructor
    · intro h
      split_ifs with h1
      · rfl
      · exact (ht _).1 (h.resolve_left h1)
    · intro h
      rw [not_or] at h
      rw [if_neg h.1, (ht _).2 h.2]
      exact hdm.2 h.1

/-- The names of macros undefined at the end of TRACE. -/
def traceUndefs (isMcstas : Bool) : List String :=
  ["SCATTERED", "RESTORE", restoreName isMcstas, "STORE_NEUTRON", "ABSORBED", "ABSORB", "ABSORB0"]

theorem defines_trace (isMcstas : Bool) (s : Source) (k : String) (hk : k ≠ "mcget_run_num") (hs : k ≠ "STORE_NEUTRON") :
    Defines k (traceSection isMcstas s) ↔
      k ∈ runtimeParameters isMcstas ∨ k ∈ traceUndefs isMcstas ∨ Defines k (s.types.flatMap (traceClass s)) ∨
        k ∈ allUser s := by
  have h1 := defines_map k (runtimeParameters isMcstas) (fun x => x) particleBody
  have h2 := defines_map k (traceMacros isMcstas) (fun p => p.1) (fun p => p.2)
  have h3 := defines_map k (allUser s) (fun x => x) particleBody
  have h4 : Defines k absorbOverride ↔ k = "ABSORB0" ∨ k = "ABSORB" := by
    simp only [Defines, absorbOverride, List.mem_cons, Line.define.injEq, List.not_mem_nil, or_false, reduceCtorEq, false_or]
    exact ⟨fun ⟨b, h⟩ => h.imp And.left And.left, fun h => h.elim (fun h => ⟨_, .inl ⟨h, rfl⟩⟩) fun h => ⟨_, .inr ⟨h, rfl⟩⟩⟩
  have h5 : k ∈ (traceMacros isMcstas).map (·.1) ↔ k ∈ traceUndefs isMcstas := by
    simp only [traceMacros, traceUndefs, List.map_cons, List.map_nil, List.mem_cons, List.not_mem_nil, or_false, hk, hs,
      false_or]
    constructor <;> rintro (h | h | h | h | h | h) <;> simp [h]
  simp only [List.map_id'] at h1 h3
  rw [traceSection, defTrace, undefTrace]
  simp only [defines_append, defines_undefs, h1, h2, h3, h4, h5, or_false]
  constructor
  · rintro ((((h | h) | h) | h) | h)
    · exact .inl h
    · exact .inr (.inl h)
    · exact .inr (.inr (.inl h))
    · exact .inr (.inr (.inr h))
    · refine .inr (.inl ?_)
      rcases h with rfl | rfl <;> simp [traceUndefs]
  · rintro (h | h | h | h)
    · exact .inl (.inl (.inl (.inl h)))
    · exact .inl (.inl (.inl (.inr h)))
    · exact .inl (.inl (.inr h))
    · exact .inl (.inr h)

/-- C37, partial: so it is with TRACE, but for `mcget_run_num`. Missing: that macro, see `run_number_macro_stays`. The
macro `STORE_NEUTRON` is undefined although it is not defined in TRACE. -/
theorem trace_section_tidy_partial (isMcstas : Bool) (s : Source) (k : String) (m : Table) (hk : k ≠ "mcget_run_num")
    (hs : k ≠ "STORE_NEUTRON") :
    (Defines k (traceSection isMcstas s) → after m (traceSection isMcstas s) k = none) ∧
      (¬Defines k (traceSection isMcstas s) → after m (traceSection isMcstas s) k = m k) := by
  have ht : Tidy k (s.types.flatMap (traceClass s)) := tidy_flatMap _ _ fun c => tidy_traceClass s c k
  have hm : ((runtimeParameters isMcstas).map Line.undef ++
      ["SCATTERED", "RESTORE", restoreName isMcstas, "STORE_NEUTRON", "ABSORBED", "ABSORB", "ABSORB0"].map .undef) =
      (runtimeParameters isMcstas ++ traceUndefs isMcstas).map .undef := by
    rw [List.map_append]; rfl
  rw [defines_trace isMcstas s k hk hs, traceSection, undefTrace, hm, after_append, after_undefs]
  by_cases h1 : k ∈ runtimeParameters isMcstas ++ traceUndefs isMcstas
  · rw [if_pos h1]
    refine ⟨fun _ => rfl, fun h => absurd ?_ h⟩
    rcases List.mem_append.mp h1 with h | h
    · exact .inl h
    · exact .inr (.inl h)
  · rw [if_neg h1]
    rw [List.mem_append, not_or] at h1
    have hab : ∀ m : Table, after m absorbOverride k = m k := by
      intro m
      have ha : k ≠ "ABSORB" := by rintro rfl; exact h1.2 (by simp [traceUndefs])
      have hb : k ≠ "ABSORB0" := by rintro rfl; exact h1.2 (by simp [traceUndefs])
      simp [absorbOverride, after, step, ha, hb]
    have e : after m (defTrace isMcstas ++ s.types.flatMap (traceClass s) ++
        (allUser s).map (fun x => .define x (particleBody x)) ++ absorbOverride ++ (allUser s).map .undef) k =
        if k ∈ allUser s then none else after (after m (defTrace isMcstas)) (s.types.flatMap (traceClass s)) k := by
      rw [after_append, after_undefs, after_append, hab, after_append, after_defines', after_append]
      split_ifs <;> rfl
    rw [e]
    by_cases hu : k ∈ allUser s
    · rw [if_pos hu]
      exact ⟨fun _ => rfl, fun h => absurd (.inr (.inr (.inr hu))) h⟩
    · rw [if_neg hu]
      refine ⟨fun h => (ht _).1 ?_, fun h => ?_⟩
      · rcases h with h | h | h | h
        · exact absurd h h1.1
        · exact absurd h h1.2
        · exact h
        · exact absurd h hu
      · rw [(ht _).2 fun h' => h (.inr (.inr (.inl h')))]
        rw [defTrace, after_append]
        have h5 : k ∉ (traceMacros isMcstas).map (·.1) := by
          have := h1.2
          simp only [traceUndefs, List.mem_cons, List.not_mem_nil, or_false, not_or] at this
          simp only [traceMacros, List.map_cons, List.map_nil, List.mem_cons, List.not_mem_nil, or_false, not_or]
          tauto
        have := (after_defines (traceMacros isMcstas) (fun p => p.1) (fun p => p.2) (by cases isMcstas <;> decide)
          (after m ((runtimeParameters isMcstas).map fun x => .define x (particleBody x))) k).2 h5
        rw [this, after_defines', if_neg h1.1]

/-- Something is defined in every section of this instrument. -/
example : let s : Source := {
      name := "i", parameters := ["E"], init := ["a"], save := ["b"], final := ["c"]
      types := [{ name := "T", setting := ["w"], trace := ["d"], display := ["e"] }], uservars := ["u"] }
    Defines "E" (initializeSection s) ∧ Defines "E" (saveSection s) ∧ Defines "E" (finallySection s) ∧
      Defines "w" (displaySection s) ∧ Defines "w" (traceSection true s) ∧ Defines "u" (traceSection true s) ∧
      Defines "x" (traceSection true s) := by
  exact ⟨⟨instrBody "E", by decide +kernel⟩, ⟨saveBody "E", by decide +kernel⟩, ⟨instrBody "E", by decide +kernel⟩,
    ⟨"(_comp->_parameters.w)", by decide +kernel⟩, ⟨"(_comp->_parameters.w)", by decide +kernel⟩,
    ⟨particleBody "u", by decide +kernel⟩, ⟨particleBody "x", by decide +kernel⟩⟩

/-- C37 does not hold for `mcget_run_num`: unless some parameter or user variable has that name, it is still defined at the
end of the program, where it stands for a member of a particle that does not exist there. -/
theorem run_number_macro_stays (isMcstas : Bool) (s : Source) (m : Table)
    (hp : "mcget_run_num" ∉ s.parameters) (hu : "mcget_run_num" ∉ s.uservars)
    (hc : ∀ c ∈ s.types, "mcget_run_num" ∉ c.names ∧ "mcget_run_num" ∉ c.uservars) :
    after m (program isMcstas s) "mcget_run_num" = some "_particle->_uid" := by
  have hcls : ∀ (blocks : CType → List String) (m : Table),
      after m (s.types.flatMap (classSection blocks)) "mcget_run_num" = m "mcget_run_num" := fun blocks m =>
    ((ClearsAt.flatMap fun c => clears_class blocks c "mcget_run_num") m).2 fun ⟨c, hcm, _, h⟩ => (hc c hcm).1 h
  have hins : ∀ (body : String → String) (blocks : List String) (m : Table),
      after m (instrSection s body blocks) "mcget_run_num" = m "mcget_run_num" := fun body blocks m =>
    (clears_instr s body blocks "mcget_run_num" m).2 fun h => hp h.2
  have huser : "mcget_run_num" ∉ allUser s := by
    rw [allUser, mem_fromKeys, List.mem_append, List.mem_flatMap, not_or]
    exact ⟨hu, fun ⟨c, hcm, h⟩ => (hc c hcm).2 h⟩
  have htr : ∀ m : Table, after m (s.types.flatMap (traceClass s)) "mcget_run_num" = m "mcget_run_num" := fun m =>
    ((ClearsAt.flatMap fun c => clears_traceClass s c "mcget_run_num") m).2 fun ⟨c, hcm, _, h⟩ => by
      rcases h with h | ⟨_, h⟩
      · exact (hc c hcm).1 h
      · rw [userNames, mem_fromKeys, List.mem_append] at h
        exact h.elim hu (hc c hcm).2
  have hdis : ∀ m : Table, after m (displaySection s) "mcget_run_num" = m "mcget_run_num" := by
    intro m
    have hu : (displayMacros.map fun p => Line.undef p.1) = (displayMacros.map (·.1)).map .undef := by
      rw [List.map_map]; rfl
    rw [displaySection, after_append, after_append, hu, after_undefs, if_neg (by decide), hcls]
    exact (after_defines displayMacros (fun p => p.1) (fun p => p.2) (by decide) m "mcget_run_num").2 (by decide)
  have hab : ∀ m : Table, after m absorbOverride "mcget_run_num" = m "mcget_run_num" := by
    intro m
    simp [absorbOverride, after, step]
  have hund : ∀ m : Table, after m (undefTrace isMcstas) "mcget_run_num" = m "mcget_run_num" := by
    intro m
    rw [undefTrace, after_append, after_undefs, after_undefs]
    cases isMcstas <;> rfl
  have hdef : ∀ m : Table, after m (defTrace isMcstas) "mcget_run_num" = some "_particle->_uid" := by
    intro m
    rw [defTrace, after_append]
    exact (after_defines (traceMacros isMcstas) (fun p => p.1) (fun p => p.2) (by cases isMcstas <;> decide) _
      "mcget_run_num").1 ("mcget_run_num", "_particle->_uid") (by simp [traceMacros]) rfl
  rw [program, after_append, hdis, after_append, finallySection, after_append, hins, hcls, after_append, saveSection,
    after_append, hins, hcls, after_append, traceSection, after_append, hund, after_append, after_undefs, if_neg huser,
    after_append, hab, after_append, after_defines', if_neg huser, after_append, htr, hdef]

/-! ### What user code sees -/

/-- What a parameter of a component stands for. -/
def compBody (n : String) : String := "(_comp->_parameters." ++ n ++ ")"

/-- The names of the parameters of a component and of the variables it declares. -/
def CType.own (c : CType) : List String := c.define ++ c.setting ++ c.output ++ c.declares

theorem CType.own_eq (c : CType) : c.own = c.names := rfl

theorem seen_flatMap_mem {f : CType → List Line} (l1 l2 : List CType) (c : CType) (m : Table) (x : String × String × Table)
    (h : x ∈ seen (after m (l1.flatMap f)) (f c)) : x ∈ seen m ((l1 ++ c :: l2).flatMap f) := by
  rw [List.flatMap_append, List.flatMap_cons, seen_append, seen_append]
  exact List.mem_append.mpr (.inr (List.mem_append.mpr (.inl h)))

/-- C37: in the sections INITIALIZE, SAVE and FINALLY the code of a component sees its own parameters, whatever comes
before. -/
theorem component_code_sees_parameters (s : Source) (c : CType) (hc : c ∈ s.types) (m : Table) (t : String) :
    (t ∈ c.init → ∃ m', (c.name, t, m') ∈ seen m (initializeSection s) ∧ ∀ k ∈ c.own, m' k = some (compBody k)) ∧
    (t ∈ c.save → ∃ m', (c.name, t, m') ∈ seen m (saveSection s) ∧ ∀ k ∈ c.own, m' k = some (compBody k)) ∧
    (t ∈ c.final → ∃ m', (c.name, t, m') ∈ seen m (finallySection s) ∧ ∀ k ∈ c.own, m' k = some (compBody k)) := by
  simp only [CType.own_eq]
  obtain ⟨l1, l2, hl⟩ := List.append_of_mem hc
  have key : ∀ (blocks : CType → List String) (m : Table), t ∈ blocks c →
      ∃ m', (c.name, t, m') ∈ seen m (s.types.flatMap (classSection blocks)) ∧ ∀ k ∈ c.names, m' k = some (compBody k) := by
    intro blocks m ht
    refine ⟨within c.names compBody (after m (l1.flatMap (classSection blocks))), ?_, fun k hk => ?_⟩
    · rw [hl]
      refine seen_flatMap_mem l1 l2 c m _ ?_
      rw [seen_class]
      exact List.mem_map.mpr ⟨t, ht, rfl⟩
    · rw [within, if_pos hk]
  refine ⟨fun h => ?_, fun h => ?_, fun h => ?_⟩
  · obtain ⟨m', h1, h2⟩ := key CType.init _ h
    refine ⟨m', ?_, h2⟩
    rw [initializeSection, List.cons_append, seen, seen_append]
    · exact List.mem_append.mpr (.inl h1)
    · intro _ _ h; cases h
  · obtain ⟨m', h1, h2⟩ := key CType.save m h
    exact ⟨m', by rw [saveSection, seen_append]; exact List.mem_append.mpr (.inl h1), h2⟩
  · obtain ⟨m', h1, h2⟩ := key CType.final m h
    exact ⟨m', by rw [finallySection, seen_append]; exact List.mem_append.mpr (.inl h1), h2⟩

/-- C37: the code of the instrument sees its parameters. -/
theorem instrument_code_sees_parameters (s : Source) (m : Table) (t : String) :
    (t ∈ s.init → ∃ m', (s.name, t, m') ∈ seen m (initializeSection s) ∧
      ∀ k ∈ s.parameters, m' k = some ("(instrument->_parameters." ++ k ++ ")")) ∧
    (t ∈ s.final → ∃ m', (s.name, t, m') ∈ seen m (finallySection s) ∧
      ∀ k ∈ s.parameters, m' k = some ("(instrument->_parameters." ++ k ++ ")")) := by
  refine ⟨fun h => ?_, fun h => ?_⟩
  · rw [initializeSection, List.cons_append, seen, seen_append, seen_instr]
    · exact ⟨_, List.mem_append.mpr (.inr (List.mem_map.mpr ⟨t, h, rfl⟩)), fun k hk => by rw [within, if_pos hk]; rfl⟩
    · intro _ _ h; cases h
  · rw [finallySection, seen_append, seen_instr]
    exact ⟨_, List.mem_append.mpr (.inr (List.mem_map.mpr ⟨t, h, rfl⟩)), fun k hk => by rw [within, if_pos hk]; rfl⟩

open Classical in
theorem trace_code_sees_names (isMcstas : Bool) (s : Source) (l1 l2 : List CType) (c : CType) (hl : s.types = l1 ++ c :: l2)
    (m : Table) (t : String) (ht : t ∈ c.trace) (hr : Traced s c) :
    ∃ m', (c.name, t, m') ∈ seen m (traceSection isMcstas s) ∧ ∀ k, m' k =
      if k ∈ c.names then some (compBody k)
      else if ∃ d ∈ l1, Traced s d ∧ (k ∈ d.names ∨ extended s d ≠ [] ∧ k ∈ userNames s d) then none
      else after m (defTrace isMcstas) k := by
  refine ⟨within c.names compBody (after (after m (defTrace isMcstas)) (l1.flatMap (traceClass s))), ?_, fun k => ?_⟩
  · have : (c.name, t, within c.names compBody (after (after m (defTrace isMcstas)) (l1.flatMap (traceClass s)))) ∈
        seen (after m (defTrace isMcstas)) (s.types.flatMap (traceClass s)) := by
      rw [hl]
      refine seen_flatMap_mem l1 l2 c _ _ ?_
      rw [seen_traceClass s c _ hr]
      exact List.mem_append.mpr (.inl (List.mem_map.mpr ⟨t, ht, rfl⟩))
    simp only [traceSection, seen_append, List.mem_append]
    exact .inl (.inl (.inl (.inl (.inr this))))
  · rw [within]
    split_ifs with h1 h2
    · rfl
    · exact ((ClearsAt.flatMap fun c => clears_traceClass s c k) _).1 h2
    · exact ((ClearsAt.flatMap fun c => clears_traceClass s c k) _).2 h2

open Classical in
/-- C37: the macros known to a TRACE block of a component: its own parameters, and everything else of the section, but
for what components before it have taken away. -/
theorem trace_code_sees (isMcstas : Bool) (s : Source) (l1 l2 : List CType) (c : CType) (hl : s.types = l1 ++ c :: l2)
    (m : Table) (t : String) (ht : t ∈ c.trace) (hr : Traced s c) :
    ∃ m', (c.name, t, m') ∈ seen m (traceSection isMcstas s) ∧ ∀ k, m' k =
      if k ∈ c.own then some (compBody k)
      else if ∃ d ∈ l1, Traced s d ∧ (k ∈ d.own ∨ extended s d ≠ [] ∧ k ∈ userNames s d) then none
      else after m (defTrace isMcstas) k :=
  trace_code_sees_names isMcstas s l1 l2 c hl m t ht hr

/-- C37: the macros known to an EXTEND block: the user variables, and the parameters of the component that do not have the
name of one. -/
theorem extend_code_sees (isMcstas : Bool) (s : Source) (c : CType) (hc : c ∈ s.types) (m : Table)
    (e : String × String × String) (he : e ∈ extended s c) :
    ∃ m', (e.2.1, e.2.2, m') ∈ seen m (traceSection isMcstas s) ∧
      (∀ k ∈ s.uservars ++ c.uservars, m' k = some ("(_particle->" ++ k ++ ")")) ∧
      ∀ k ∈ c.own, k ∉ s.uservars ++ c.uservars → m' k = some (compBody k) := by
  simp only [CType.own_eq]
  obtain ⟨l1, l2, hl⟩ := List.append_of_mem hc
  have hr : Traced s c := .inl fun h => by rw [h] at he; cases he
  refine ⟨within (userNames s c) particleBody
    (within c.names compBody (after (after m (defTrace isMcstas)) (l1.flatMap (traceClass s)))), ?_, fun k hk => ?_,
    fun k hk hu => ?_⟩
  · have : (e.2.1, e.2.2, within (userNames s c) particleBody
        (within c.names compBody (after (after m (defTrace isMcstas)) (l1.flatMap (traceClass s))))) ∈
        seen (after m (defTrace isMcstas)) (s.types.flatMap (traceClass s)) := by
      rw [hl]
      refine seen_flatMap_mem l1 l2 c _ _ ?_
      rw [seen_traceClass s c _ hr]
      exact List.mem_append.mpr (.inr (List.mem_map.mpr ⟨e, he, rfl⟩))
    simp only [traceSection, seen_append, List.mem_append]
    exact .inl (.inl (.inl (.inl (.inr this))))
  · have : k ∈ userNames s c := (mem_fromKeys _ k).mpr hk
    rw [within, if_pos this]; rfl
  · have : k ∉ userNames s c := fun h => hu ((mem_fromKeys _ k).mp h)
    rw [within, if_neg this, within, if_pos hk]

open Classical in
theorem display_code_sees_names (s : Source) (l1 l2 : List CType) (c : CType) (hl : s.types = l1 ++ c :: l2) (m : Table)
    (t : String) (ht : t ∈ c.display) :
    ∃ m', (c.name, t, m') ∈ seen m (displaySection s) ∧ (∀ k ∈ c.names, m' k = some (compBody k)) ∧
      ∀ p ∈ displayMacros, p.1 ∉ c.names →
        m' p.1 = if ∃ d ∈ l1, d.display ≠ [] ∧ p.1 ∈ d.names then none else some p.2 := by
  refine ⟨within c.names compBody (after (after m (displayMacros.map fun p => .define p.1 p.2))
    (l1.flatMap (classSection CType.display))), ?_, fun k hk => by rw [within, if_pos hk], fun p hp hn => ?_⟩
  · have : (c.name, t, within c.names compBody (after (after m (displayMacros.map fun p => .define p.1 p.2))
        (l1.flatMap (classSection CType.display)))) ∈
        seen (after m (displayMacros.map fun p => .define p.1 p.2)) (s.types.flatMap (classSection CType.display)) := by
      rw [hl]
      refine seen_flatMap_mem l1 l2 c _ _ ?_
      rw [seen_class]
      exact List.mem_map.mpr ⟨t, ht, rfl⟩
    simp only [displaySection, seen_append, List.mem_append]
    exact .inl (.inr this)
  · rw [within, if_neg hn]
    split_ifs with h
    · exact ((ClearsAt.flatMap fun c => clears_class CType.display c p.1) _).1 h
    · rw [((ClearsAt.flatMap fun c => clears_class CType.display c p.1) _).2 h]
      exact (after_defines displayMacros (fun p => p.1) (fun p => p.2) (by decide) m p.1).1 p hp rfl

open Classical in
/-- C37: the macros known to a DISPLAY block of a component. -/
theorem display_code_sees (s : Source) (l1 l2 : List CType) (c : CType) (hl : s.types = l1 ++ c :: l2) (m : Table)
    (t : String) (ht : t ∈ c.display) :
    ∃ m', (c.name, t, m') ∈ seen m (displaySection s) ∧ (∀ k ∈ c.own, m' k = some (compBody k)) ∧
      ∀ p ∈ displayMacros, p.1 ∉ c.own →
        m' p.1 = if ∃ d ∈ l1, d.display ≠ [] ∧ p.1 ∈ d.own then none else some p.2 :=
  display_code_sees_names s l1 l2 c hl m t ht

/-- Two component types, the first with a parameter `t`. -/
def shadowing : Source where
  name := "i"
  types := [{ name := "A", setting := ["t"], trace := ["t = 1;"] }, { name := "B", trace := ["t = 2;"] }]

/-- C37 does not hold for the macros of the section: a parameter called as a member of the particle is defined while that
macro is, which C does not allow, and the code of the components after does not see the member any more. -/
theorem parameter_takes_member_away :
    redefined (fun _ => none) (traceSection true shadowing) = ["t"] ∧
      (seen (fun _ => none) (traceSection true shadowing)).map (fun x => (x.1, x.2.1, x.2.2 "t")) =
        [("A", "t = 1;", some "(_comp->_parameters.t)"), ("B", "t = 2;", none)] := by decide +kernel

/-! ### Parentheses -/

/-- No parentheses. -/
def NoParen (s : String) : Prop := '(' ∉ s.toList ∧ ')' ∉ s.toList

instance (s : String) : Decidable (NoParen s) := inferInstanceAs (Decidable (_ ∧ _))

theorem depth_skip (a t : List Char) (d : Nat) (h : '(' ∉ a ∧ ')' ∉ a) : depth d (a ++ t) = depth d t := by
  induction a with
  | nil => rfl
  | cons c a ih =>
    simp only [List.mem_cons, not_or] at h
    have := ih ⟨h.1.2, h.2.2⟩
    rw [List.cons_append, depth]
    · exact this
    · intro hc; exact h.1.1 hc.symm
    · intro _ hc; exact h.2.1 hc.symm
    · intro _ _ hc; exact h.2.1 hc.symm

theorem balanced_wrap (pre n : String) (hp : NoParen pre) (h : NoParen n) : Balanced ("(" ++ pre ++ n ++ ")") := by
  have e : ("(" ++ pre ++ n ++ ")").toList = '(' :: (pre.toList ++ (n.toList ++ [')'])) := by simp [String.toList_append]
  rw [Balanced, e, depth, depth_skip _ _ _ hp, depth_skip _ _ _ h]
  rfl

theorem unbalanced_wrap (pre n : String) (hp : NoParen pre) (h : NoParen n) : ¬Balanced ("(" ++ pre ++ n) := by
  have e : ("(" ++ pre ++ n).toList = '(' :: (pre.toList ++ (n.toList ++ [])) := by simp [String.toList_append]
  rw [Balanced, e, depth, depth_skip _ _ _ hp, depth_skip _ _ _ h]
  simp [depth]

instance (s : String) : Decidable (Balanced s) := inferInstanceAs (Decidable (_ = _))

theorem comp_balanced (n : String) (h : NoParen n) : Balanced (compBody n) :=
  balanced_wrap "_comp->_parameters." n (by decide) h

theorem instr_balanced (n : String) (h : NoParen n) : Balanced (instrBody n) :=
  balanced_wrap "instrument->_parameters." n (by decide) h

theorem particle_balanced (n : String) (h : NoParen n) : Balanced (particleBody n) :=
  balanced_wrap "_particle->" n (by decide) h

/-- All names of an instrument are without parentheses, as identifiers are. -/
def Source.Named (s : Source) : Prop :=
  (∀ n ∈ s.parameters, NoParen n) ∧ (∀ n ∈ s.uservars, NoParen n) ∧
    ∀ c ∈ s.types, (∀ n ∈ c.names, NoParen n) ∧ ∀ n ∈ c.uservars, NoParen n

theorem class_balanced (blocks : CType → List String) (c : CType) (h : ∀ n ∈ c.names, NoParen n) (n b : String)
    (hm : .define n b ∈ classSection blocks c) : Balanced b := by
  rw [classSection] at hm
  split_ifs at hm
  · cases hm
  · simp only [List.mem_append, CType.defines, CType.undefs, List.mem_map, reduceCtorEq, and_false, exists_false,
      or_false] at hm
    obtain ⟨k, hk, he⟩ := hm
    cases he
    exact comp_balanced _ (h _ hk)

/-- C37, partial: every definition has balanced parentheses. Missing: those of SAVE of the instrument, which have not. -/
theorem definitions_balanced_partial (isMcstas : Bool) (s : Source) (hs : s.Named) (n b : String)
    (h : .define n b ∈ initializeSection s ++ traceSection isMcstas s ++ s.types.flatMap (classSection CType.save) ++
      finallySection s ++ displaySection s) : Balanced b := by
  have hcls : ∀ blocks, .define n b ∈ s.types.flatMap (classSection blocks) → Balanced b := by
    intro blocks h
    obtain ⟨c, hc, h⟩ := List.mem_flatMap.mp h
    exact class_balanced blocks c (hs.2.2 c hc).1 n b h
  have hins : ∀ blocks, .define n b ∈ instrSection s instrBody blocks → Balanced b := by
    intro blocks h
    rw [instrSection] at h
    split_ifs at h
    · cases h
    · simp only [List.mem_append, List.mem_map, reduceCtorEq, and_false, exists_false, or_false] at h
      obtain ⟨k, hk, he⟩ := h
      cases he
      exact instr_balanced _ (hs.1 _ hk)
  simp only [List.mem_append] at h
  rcases h with (((h | h) | h) | h) | h
  · rw [initializeSection, List.cons_append, List.mem_cons, List.mem_append] at h
    rcases h with h | h | h
    · cases h
      decide +kernel
    · exact hcls _ h
    · exact hins _ h
  · simp only [traceSection, undefTrace, defTrace, absorbOverride, List.mem_append, List.mem_map, reduceCtorEq, and_false,
      exists_false, or_false, List.mem_cons, List.not_mem_nil, false_or] at h
    rcases h with ((((h | h) | h) | h) | h)
    · obtain ⟨k, hk, he⟩ := h
      cases he
      refine particle_balanced _ ?_
      revert hk
      have : ∀ n ∈ runtimeParameters isMcstas, NoParen n := by
        cases isMcstas <;> unfold NoParen <;> decide
      exact this _
    · obtain ⟨p, hp, he⟩ := h
      cases he
      have : ∀ p ∈ traceMacros isMcstas, Balanced p.2 := by
        cases isMcstas <;> unfold Balanced <;> decide +kernel
      exact this p hp
    · obtain ⟨c, hc, h⟩ := List.mem_flatMap.mp h
      rw [traceClass] at h
      split_ifs at h
      · cases h
      · simp only [List.mem_append, CType.defines, CType.undefs, List.mem_map, reduceCtorEq, and_false, exists_false,
          or_false] at h
        rcases h with h | h
        · obtain ⟨k, hk, he⟩ := h
          cases he
          exact comp_balanced _ ((hs.2.2 c hc).1 _ hk)
        · rw [extendLines] at h
          split_ifs at h
          · cases h
          · simp only [List.mem_append, List.mem_map, reduceCtorEq, and_false, exists_false, or_false] at h
            obtain ⟨k, hk, he⟩ := h
            cases he
            rw [userNames, mem_fromKeys, List.mem_append] at hk
            exact particle_balanced _ (hk.elim (hs.2.1 _) ((hs.2.2 c hc).2 _))
    · obtain ⟨k, hk, he⟩ := h
      cases he
      rw [allUser, mem_fromKeys, List.mem_append, List.mem_flatMap] at hk
      refine particle_balanced _ (hk.elim (hs.2.1 _) ?_)
      rintro ⟨c, hc, hk⟩
      exact (hs.2.2 c hc).2 _ hk
    · rcases h with h | h <;> cases h <;> decide +kernel
  · exact hcls _ h
  · rw [finallySection, List.mem_append] at h
    exact h.elim (hcls _) (hins _)
  · simp only [displaySection, List.mem_append, List.mem_map, reduceCtorEq, and_false, exists_false, or_false] at h
    rcases h with h | h
    · obtain ⟨p, hp, he⟩ := h
      cases he
      have : ∀ p ∈ displayMacros, Balanced p.2 := by unfold Balanced; decide +kernel
      exact this p hp
    · exact hcls _ h

/-- C37 does not hold for SAVE: the definition of every parameter of an instrument with a SAVE section lacks a
parenthesis, and so does every use of the parameter there. -/
theorem save_definitions_unbalanced (s : Source) (hs : s.save ≠ []) (p : String) (hp : p ∈ s.parameters) (h : NoParen p)
    (m : Table) (t : String) (ht : t ∈ s.save) :
    ∃ b, .define p b ∈ saveSection s ∧ ¬Balanced b ∧
      ∃ m', (s.name, t, m') ∈ seen m (saveSection s) ∧ m' p = some b := by
  refine ⟨saveBody p, ?_, ?_, ?_⟩
  · rw [saveSection, List.mem_append, instrSection, if_neg fun h => hs (List.length_eq_zero_iff.mp h)]
    have : Line.define p (saveBody p) ∈ s.parameters.map fun p => .define p (saveBody p) := List.mem_map.mpr ⟨p, hp, rfl⟩
    simp only [List.mem_append]
    exact .inr (.inl (.inl this))
  · exact unbalanced_wrap "instrument->_parameters." p (by decide) h
  · refine ⟨within s.parameters saveBody (after m (s.types.flatMap (classSection CType.save))), ?_, ?_⟩
    · rw [saveSection, seen_append, seen_instr]
      exact List.mem_append.mpr (.inr (List.mem_map.mpr ⟨t, ht, rfl⟩))
    · rw [within, if_pos hp]

example : saveSection { name := "i", parameters := ["E"], save := ["printf(E);"] } =
    [.define "E" "(instrument->_parameters.E", .code "i" "printf(E);", .undef "E"] := by decide +kernel

/-- C37: the EXTEND blocks written into the function of a type, where its macros and those of the user variables are known, are
exactly those of the instances of that type. -/
theorem extend_of_type (s : Source) (c : CType) (o t : String) :
    Line.code o t ∈ extendLines s c ↔ (c.name, o, t) ∈ s.extend := by
  have hm : (∃ e ∈ extended s c, Line.code e.2.1 e.2.2 = Line.code o t) ↔ (c.name, o, t) ∈ s.extend := by
    simp only [extended, List.mem_filter, decide_eq_true_eq, Line.code.injEq]
    constructor
    · rintro ⟨⟨a, b, d⟩, ⟨h1, h2⟩, h3, h4⟩
      simp only at h2 h3 h4
      subst h2 h3 h4
      exact h1
    · exact fun h => ⟨_, ⟨h, rfl⟩, rfl, rfl⟩
  rw [extendLines, ← hm]
  split_ifs with h
  · simp [List.length_eq_zero_iff.mp h]
  · simp

example : Line.code "mon" "n++;" ∈ extendLines { name := "i", extend := [("Arm", "a", "k=1;"), ("Mon", "mon", "n++;")] } { name := "Mon" } ∧
    Line.code "a" "k=1;" ∉ extendLines { name := "i", extend := [("Arm", "a", "k=1;"), ("Mon", "mon", "n++;")] } { name := "Mon" } := by
  decide +kernel

/-- C37: the macro to restore the particle is that of the program, McStas or McXtrace, and the other one is not defined, in
the functions of the components. -/
theorem restore_macro (m : Table) :
    after m (defTrace true) "RESTORE_NEUTRON" = some "_particle->_restore = _index;" ∧
    after m (defTrace true) "RESTORE_XRAY" = m "RESTORE_XRAY" ∧
    after m (defTrace false) "RESTORE_XRAY" = some "_particle->_restore = _index;" ∧
    after m (defTrace false) "RESTORE_NEUTRON" = m "RESTORE_NEUTRON" := by
  refine ⟨?_, ?_, ?_, ?_⟩ <;> simp [after, defTrace, traceMacros, restoreName, runtimeParameters, step, particleBody]

end Verif.Macros
