import Verif.Names.Lemmas

/-!
The names of the program in an order convenient for proofs, and when they are distinct.
-/

namespace Verif.Names

/-- The types, variables and functions declared whatever the components are. -/
def fixedNames (main funnel : Bool) : List String :=
  ["MCNUM", "Coords", "Rotation", "_class_particle", "_particle_global_randnbuse_var", "_particle", "mcallowbackprop",
     "mcgenstate", "particle_getvar", "particle_getvar_void", "particle_setvar_void", "particle_setvar_void_array",
     "particle_restore", "particle_getuservar_byid", "particle_uservar_init", "traceenabled", "defaultmain",
     "instrument_name", "instrument_source", "instrument_exe", "instrument_code"] ++
    (if main then ["main"] else []) ++
  ["_class_instrument_parameters", "_instrument_var", "instrument", "numipar", "mcinputtable", "metadata_table",
     "num_metadata"] ++ ["mcNUMCOMP"] ++ ["index_getdistance", "getdistance", "checked_setpos_getdistance"] ++ ["init"] ++
  (if funnel then ["raytrace_all_funnel"] else ["raytrace", "raytrace_all"]) ++ ["save"] ++ ["finally"] ++ ["display"] ++
  ["_getvar_parameters", "_get_particle_var", "_getcomp_index"]

theorem fixedNames_nodup (m f : Bool) : (fixedNames m f).Nodup := by
  revert m f
  decide +kernel

theorem fixed_var (m f : Bool) : (fixedNames m f).filterMap (strip "_" "_var") =
    ["particle_global_randnbuse", "instrument", "get_particle"] := by
  revert m f
  decide +kernel

theorem fixed_setpos (m f : Bool) : (fixedNames m f).filterMap (strip "_" "_setpos") = [] := by
  revert m f
  decide +kernel

theorem fixed_class (m f : Bool) : (fixedNames m f).filterMap (strip "_class_" "") =
    ["particle", "instrument_parameters"] := by
  revert m f
  decide +kernel

theorem fixed_class_parameters (m f : Bool) : (fixedNames m f).filterMap (strip "_class_" "_parameters") =
    ["instrument"] := by
  revert m f
  decide +kernel

theorem fixed_function (m f : Bool) : (fixedNames m f).filterMap (strip "class_" "") = [] := by
  revert m f
  decide +kernel

/-- The functions of the sections of the definitions. -/
def functions (s : Source) : List String :=
  classPart s Comp.init "initialize" ++ (tracePart s).names ++ classPart s Comp.save "save" ++
    classPart s Comp.final "finally" ++ classPart s Comp.display "display"

theorem flatMap_pair {α β : Type} (l : List α) (f g : α → β) :
    (l.flatMap fun a => [f a, g a]).Perm (l.map f ++ l.map g) := by
  have := List.flatMap_append_perm l (fun a => [f a]) (fun a => [g a])
  rw [List.map_eq_flatMap, List.map_eq_flatMap]
  exact this.symm

theorem program_names_perm (s : Source) :
    (program s).names.Perm (fixedNames s.defaultMain s.funnel ++ s.types.map (fun c => "_class_" ++ c.name ++ "_parameters") ++
      s.types.map (fun c => "_class_" ++ c.name) ++ s.comps.map (fun i => varName i.name) ++
      s.comps.map (fun i => setposName i.name) ++ functions s) := by
  have h : (program s).names = (headerPart s).names ++ (declarePart s).names ++ (initializePart s).names ++
    (tracePart s).names ++ (raytracePart s).names ++ (finishPart s).names ++ macrosPart.names := rfl
  rw [h]
  have hp := flatMap_pair s.types (fun c => "_class_" ++ c.name ++ "_parameters") (fun c => "_class_" ++ c.name)
  rw [List.perm_iff_count] at hp ⊢
  intro a
  have hp := hp a
  simp only [headerPart, declarePart, typePart, initializePart, raytracePart, finishPart, macrosPart, functions, fixedNames,
    List.count_append] at hp ⊢
  omega

theorem mem_functions {s : Source} {n : String} (h : n ∈ functions s) : ∃ x, n = "class_" ++ x := by
  simp only [functions, classPart_eq, tracePart, List.mem_append, mem_classFunctions] at h
  rcases h with (((h | h) | h) | h) | h <;>
  · obtain ⟨c, _, _, rfl⟩ := h
    exact ⟨_, by rw [className, String.append_assoc, String.append_assoc]⟩

theorem className_ne {c d : Comp} (t u e f : String) (hl : e.length = f.length) (h : e ≠ f) :
    className c (t ++ e) ≠ className d (u ++ f) := by
  unfold className
  rw [← String.append_assoc, ← String.append_assoc (s₂ := u)]
  exact ne_of_endings hl h

/-- The ends of the names of the sections. -/
theorem section_ends : "initialize" = "initiali" ++ "ze" ∧ "trace" = "tra" ++ "ce" ∧ "save" = "sa" ++ "ve" ∧
    "finally" = "final" ++ "ly" ∧ "display" = "displ" ++ "ay" := by decide +kernel

theorem functions_nodup {s : Source} (h : (s.types.map (·.name)).Nodup) : (functions s).Nodup := by
  obtain ⟨e1, e2, e3, e4, e5⟩ := section_ends
  simp only [functions, classPart_eq, tracePart, List.nodup_append']
  refine ⟨⟨⟨⟨classFunctions_nodup h _ _, classFunctions_nodup h _ _, ?_⟩, classFunctions_nodup h _ _, ?_⟩,
    classFunctions_nodup h _ _, ?_⟩, classFunctions_nodup h _ _, ?_⟩
  all_goals
    intro n h1 h2
    simp only [List.mem_append, mem_classFunctions] at h1 h2
    obtain ⟨d, _, _, hd⟩ := h2
  · obtain ⟨c, _, _, hc⟩ := h1
    rw [hc, e1, e2] at hd
    exact className_ne _ _ _ _ (by decide) (by decide) hd
  · rcases h1 with ⟨c, _, _, hc⟩ | ⟨c, _, _, hc⟩
    · rw [hc, e1, e3] at hd
      exact className_ne _ _ _ _ (by decide) (by decide) hd
    · rw [hc, e2, e3] at hd
      exact className_ne _ _ _ _ (by decide) (by decide) hd
  · rcases h1 with (⟨c, _, _, hc⟩ | ⟨c, _, _, hc⟩) | ⟨c, _, _, hc⟩
    · rw [hc, e1, e4] at hd
      exact className_ne _ _ _ _ (by decide) (by decide) hd
    · rw [hc, e2, e4] at hd
      exact className_ne _ _ _ _ (by decide) (by decide) hd
    · rw [hc, e3, e4] at hd
      exact className_ne _ _ _ _ (by decide) (by decide) hd
  · rcases h1 with ((⟨c, _, _, hc⟩ | ⟨c, _, _, hc⟩) | ⟨c, _, _, hc⟩) | ⟨c, _, _, hc⟩
    · rw [hc, e1, e5] at hd
      exact className_ne _ _ _ _ (by decide) (by decide) hd
    · rw [hc, e2, e5] at hd
      exact className_ne _ _ _ _ (by decide) (by decide) hd
    · rw [hc, e3, e5] at hd
      exact className_ne _ _ _ _ (by decide) (by decide) hd
    · rw [hc, e4, e5] at hd
      exact className_ne _ _ _ _ (by decide) (by decide) hd

/-! ### Types, variables and functions -/

theorem nodup_map_affix {α : Type} (l : List α) (f : α → String) (pre suf : String) :
    (l.map fun a => pre ++ f a ++ suf).Nodup ↔ (l.map f).Nodup := by
  have : (l.map fun a => pre ++ f a ++ suf) = (l.map f).map fun x => pre ++ x ++ suf := by
    rw [List.map_map]
    rfl
  rw [this]
  exact List.nodup_map_iff fun x y h => affix_inj.1 h

theorem nodup_map_prefix {α : Type} (l : List α) (f : α → String) (pre : String) :
    (l.map fun a => pre ++ f a).Nodup ↔ (l.map f).Nodup := by
  have := nodup_map_affix l f pre ""
  simpa using this

theorem disjoint_map {α β γ : Type} (l : List α) (m : List β) (f : α → γ) (g : β → γ) :
    (l.map f).Disjoint (m.map g) ↔ ∀ a ∈ l, ∀ b ∈ m, f a ≠ g b := by
  rw [List.disjoint_left]
  constructor
  · intro h a ha b hb he
    exact h (List.mem_map.2 ⟨a, ha, rfl⟩) (List.mem_map.2 ⟨b, hb, he.symm⟩)
  · intro h n h1 h2
    obtain ⟨a, ha, rfl⟩ := List.mem_map.1 h1
    obtain ⟨b, hb, he⟩ := List.mem_map.1 h2
    exact h a ha b hb he.symm

theorem names_nodup_iff (s : Source) : (program s).names.Nodup ↔
    (s.types.map (·.name)).Nodup ∧ (s.comps.map (·.name)).Nodup ∧
    (∀ i ∈ s.comps, i.name ≠ "instrument" ∧ i.name ≠ "particle_global_randnbuse" ∧ i.name ≠ "get_particle") ∧
    (∀ c ∈ s.types, c.name ≠ "particle" ∧ c.name ≠ "instrument" ∧ c.name ≠ "instrument_parameters") ∧
    (∀ c ∈ s.types, ∀ d ∈ s.types, c.name ++ "_parameters" ≠ d.name) ∧
    (∀ c ∈ s.types, ∀ i ∈ s.comps, "class_" ++ c.name ≠ i.name ++ "_var") ∧
    (∀ c ∈ s.types, ∀ i ∈ s.comps, "class_" ++ c.name ≠ i.name ++ "_setpos") := by
  rw [(program_names_perm s).nodup_iff]
  simp only [List.nodup_append', List.disjoint_append_left]
  have hm : ∀ {c : Comp} {suf : String}, ("_class_" ++ c.name : String) = "_" ++ ("class_" ++ c.name) := by
    intro c _
    rw [← String.append_assoc]
    rfl
  have d1 : (fixedNames s.defaultMain s.funnel).Disjoint (s.types.map (fun c => "_class_" ++ c.name ++ "_parameters")) ↔
      ∀ c ∈ s.types, c.name ≠ "instrument" := by
    simp only [List.disjoint_right, List.forall_mem_map, affix_mem_iff, fixed_class_parameters, List.mem_singleton]
  have d2 : (fixedNames s.defaultMain s.funnel).Disjoint (s.types.map (fun c => "_class_" ++ c.name)) ↔
      ∀ c ∈ s.types, c.name ≠ "particle" ∧ c.name ≠ "instrument_parameters" := by
    have : ∀ c : Comp, "_class_" ++ c.name = "_class_" ++ c.name ++ "" := by simp
    simp only [List.disjoint_right, List.forall_mem_map]
    refine forall₂_congr fun c _ => ?_
    rw [this, affix_mem_iff, fixed_class]
    simp
  have d3 : (fixedNames s.defaultMain s.funnel).Disjoint (s.comps.map (fun i => varName i.name)) ↔
      ∀ i ∈ s.comps, i.name ≠ "instrument" ∧ i.name ≠ "particle_global_randnbuse" ∧ i.name ≠ "get_particle" := by
    simp only [List.disjoint_right, List.forall_mem_map, varName, affix_mem_iff, fixed_var]
    refine forall₂_congr fun i _ => ?_
    simp only [List.mem_cons, List.not_mem_nil, or_false]
    tauto
  have d4 : (fixedNames s.defaultMain s.funnel).Disjoint (s.comps.map (fun i => setposName i.name)) := by
    simp [List.disjoint_right, setposName, affix_mem_iff, fixed_setpos]
  have d5 : (fixedNames s.defaultMain s.funnel).Disjoint (functions s) := by
    rw [List.disjoint_right]
    intro n hn
    obtain ⟨x, rfl⟩ := mem_functions hn
    rw [show "class_" ++ x = "class_" ++ x ++ "" by simp, affix_mem_iff, fixed_function]
    simp
  have d6 : (s.types.map (fun c => "_class_" ++ c.name ++ "_parameters")).Disjoint (s.types.map (fun c => "_class_" ++ c.name)) ↔
      ∀ c ∈ s.types, ∀ d ∈ s.types, c.name ++ "_parameters" ≠ d.name := by
    simp only [disjoint_map]
    refine forall₂_congr fun c _ => forall₂_congr fun d _ => ?_
    rw [String.append_assoc, Ne, prefix_inj]
  have d7 : (s.types.map (fun c => "_class_" ++ c.name ++ "_parameters")).Disjoint (s.comps.map (fun i => varName i.name)) := by
    simp only [disjoint_map, varName]
    intro c _ i _ h
    rw [show "_parameters" = "_parameter" ++ "s" by decide, show "_var" = "_va" ++ "r" by decide, ← String.append_assoc,
      ← String.append_assoc (s₂ := "_va")] at h
    exact ne_of_endings (by decide) (by decide) h
  have d8 : (s.types.map (fun c => "_class_" ++ c.name ++ "_parameters")).Disjoint
      (s.comps.map (fun i => setposName i.name)) := by
    simp only [disjoint_map, setposName]
    intro c _ i _ h
    rw [show "_parameters" = "_paramete" ++ "rs" by decide, show "_setpos" = "_setp" ++ "os" by decide, ← String.append_assoc,
      ← String.append_assoc (s₂ := "_setp")] at h
    exact ne_of_endings (by decide) (by decide) h
  have fn : ∀ (l : List String), (∀ n ∈ l, ∃ x, n = "_" ++ x) → l.Disjoint (functions s) := by
    intro l hl
    rw [List.disjoint_left]
    intro n hn hf
    obtain ⟨x, rfl⟩ := hl n hn
    obtain ⟨y, hy⟩ := mem_functions hf
    rw [show "class_" = "c" ++ "lass_" by decide, String.append_assoc] at hy
    exact ne_of_beginnings (by decide) (by decide) hy
  have d9 : (s.types.map (fun c => "_class_" ++ c.name)).Disjoint (s.comps.map (fun i => varName i.name)) ↔
      ∀ c ∈ s.types, ∀ i ∈ s.comps, "class_" ++ c.name ≠ i.name ++ "_var" := by
    simp only [disjoint_map, varName]
    refine forall₂_congr fun c _ => forall₂_congr fun i _ => ?_
    rw [hm (suf := ""), String.append_assoc, Ne, prefix_inj]
  have d10 : (s.types.map (fun c => "_class_" ++ c.name)).Disjoint (s.comps.map (fun i => setposName i.name)) ↔
      ∀ c ∈ s.types, ∀ i ∈ s.comps, "class_" ++ c.name ≠ i.name ++ "_setpos" := by
    simp only [disjoint_map, setposName]
    refine forall₂_congr fun c _ => forall₂_congr fun i _ => ?_
    rw [hm (suf := ""), String.append_assoc, Ne, prefix_inj]
  have d11 : (s.comps.map (fun i => varName i.name)).Disjoint (s.comps.map (fun i => setposName i.name)) := by
    simp only [disjoint_map, varName, setposName]
    intro c _ i _ h
    rw [show "_var" = "_va" ++ "r" by decide, show "_setpos" = "_setpo" ++ "s" by decide, ← String.append_assoc,
      ← String.append_assoc (s₂ := "_setpo")] at h
    exact ne_of_endings (by decide) (by decide) h
  have f1 := fn (s.types.map (fun c => "_class_" ++ c.name ++ "_parameters")) (by
    simp only [List.forall_mem_map]
    exact fun c _ => ⟨"class_" ++ c.name ++ "_parameters", by rw [hm (suf := ""), String.append_assoc]⟩)
  have f2 := fn (s.types.map (fun c => "_class_" ++ c.name)) (by
    simp only [List.forall_mem_map]
    exact fun c _ => ⟨_, hm (suf := "")⟩)
  have f3 := fn (s.comps.map (fun i => varName i.name)) (by
    simp only [List.forall_mem_map, varName]
    exact fun c _ => ⟨_, String.append_assoc ..⟩)
  have f4 := fn (s.comps.map (fun i => setposName i.name)) (by
    simp only [List.forall_mem_map, setposName]
    exact fun c _ => ⟨_, String.append_assoc ..⟩)
  have n1 : (s.types.map (fun c => "_class_" ++ c.name ++ "_parameters")).Nodup ↔ (s.types.map (·.name)).Nodup :=
    nodup_map_affix ..
  have n2 : (s.types.map (fun c => "_class_" ++ c.name)).Nodup ↔ (s.types.map (·.name)).Nodup := nodup_map_prefix ..
  have n3 : (s.comps.map (fun i => varName i.name)).Nodup ↔ (s.comps.map (·.name)).Nodup := nodup_map_affix ..
  have n4 : (s.comps.map (fun i => setposName i.name)).Nodup ↔ (s.comps.map (·.name)).Nodup := nodup_map_affix ..
  rw [d1, d2, d3, d6, d9, d10, n1, n2, n3, n4]
  have k := fixedNames_nodup s.defaultMain s.funnel
  simp only [d4, d5, d7, d8, d11, f1, f2, f3, f4, k, true_and, and_true]
  clear d1 d2 d3 d4 d5 d6 d7 d8 d9 d10 d11 f1 f2 f3 f4 n1 n2 n3 n4 k fn hm
  constructor
  · rintro ⟨⟨⟨⟨⟨a, b⟩, _, c, d⟩, e, f, g⟩, _, h⟩, _⟩
    exact ⟨a, e, f, fun t ht => ⟨(c t ht).1, b t ht, (c t ht).2⟩, d, g, h⟩
  · rintro ⟨a, b, c, d, e, f, g⟩
    exact ⟨⟨⟨⟨⟨a, fun t ht => (d t ht).2.1⟩, a, fun t ht => ⟨(d t ht).1, (d t ht).2.2⟩, e⟩, b, c, f⟩, b, g⟩,
      functions_nodup a⟩

end Verif.Names
