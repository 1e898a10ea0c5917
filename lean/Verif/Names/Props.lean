import Verif.Names.Once
import Mathlib.Data.List.Pairwise

/-!
C89: no identifier is declared twice in the generated program. C90: what the generated program uses it declares.
-/

namespace Verif.Names

/-- The tags declared whatever the components are. -/
def fixedTags (logic : Bool) : List String :=
  ["particle_logic_struct", "_struct_particle", "_struct_instrument_parameters"] ++
    (if logic then ["instrument_logic_struct"] else []) ++ ["_instrument_struct"]

theorem fixedTags_nodup (l : Bool) : (fixedTags l).Nodup := by
  revert l
  decide +kernel

theorem fixedTags_parameters (l : Bool) : (fixedTags l).filterMap (strip "_struct_" "_parameters") = ["instrument"] := by
  revert l
  decide +kernel

theorem fixedTags_struct (l : Bool) : (fixedTags l).filterMap (strip "_struct_" "") =
    ["particle", "instrument_parameters"] := by
  revert l
  decide +kernel

/-- SPLIT or GROUP are used. -/
def Source.control (s : Source) : Bool := decide (s.groups.length ≠ 0 ∨ s.comps.any (·.split))

theorem program_structs (s : Source) : (program s).structs =
    [("particle_logic_struct", "dummy" :: s.counted.map jumpName),
     ("_struct_particle", particleMembers s.mcstas ++ s.uservars)] ++
    ([parametersStruct s] ++ logicStruct s ++ [instrumentStruct s] ++ s.types.flatMap fun c => (typePart c).structs) := by
  have h : (program s).structs = (headerPart s).structs ++ (declarePart s).structs ++ [] ++ [] ++ [] ++ [] ++ [] := rfl
  rw [h]
  simp only [List.append_nil]
  rfl

theorem tags_eq (s : Source) : ((program s).structs.map (·.1)) =
    fixedTags s.control ++ s.types.flatMap fun c => ["_struct_" ++ c.name ++ "_parameters", "_struct_" ++ c.name] := by
  rw [program_structs]
  have h1 : (logicStruct s).map (·.1) = if s.control then ["instrument_logic_struct"] else [] := by
    unfold logicStruct Source.control
    by_cases h : s.groups.length ≠ 0 ∨ s.comps.any (·.split)
    · rw [if_pos h, if_pos (decide_eq_true h)]
      rfl
    · rw [if_neg h, if_neg (by simpa using h)]
      rfl
  simp only [List.map_append, h1, List.map_flatMap, typePart, fixedTags, parametersStruct, instrumentStruct, List.map_cons,
    List.map_nil, List.append_assoc, List.cons_append, List.nil_append]

theorem tags_nodup {s : Source} (h : (s.types.map (·.name)).Nodup)
    (hr : ∀ c ∈ s.types, c.name ≠ "particle" ∧ c.name ≠ "instrument" ∧ c.name ≠ "instrument_parameters")
    (hp : ∀ c ∈ s.types, ∀ d ∈ s.types, c.name ++ "_parameters" ≠ d.name) : ((program s).structs.map (·.1)).Nodup := by
  rw [tags_eq]
  rw [((flatMap_pair s.types (fun c => "_struct_" ++ c.name ++ "_parameters")
    (fun c => "_struct_" ++ c.name)).append_left _).nodup_iff]
  simp only [List.nodup_append', List.disjoint_append_right]
  refine ⟨fixedTags_nodup _, ⟨(nodup_map_affix ..).2 h, (nodup_map_prefix ..).2 h, ?_⟩, ?_, ?_⟩
  · rw [disjoint_map]
    intro c hc d hd
    rw [String.append_assoc, Ne, prefix_inj]
    exact hp c hc d hd
  · simp only [List.disjoint_right, List.forall_mem_map, affix_mem_iff, fixedTags_parameters, List.mem_singleton]
    exact fun c hc => (hr c hc).2.1
  · simp only [List.disjoint_right, List.forall_mem_map]
    intro c hc
    rw [show "_struct_" ++ c.name = "_struct_" ++ c.name ++ "" by simp, affix_mem_iff, fixedTags_struct]
    simp [hr c hc]

/-! ### Members -/

theorem logic_members {s : Source} (hn : (s.comps.map (·.name)).Nodup) :
    (∀ t ∈ logicStruct s, t.2.Nodup) ↔ s.groups.Nodup ∧
      ∀ i ∈ s.comps, ∀ j ∈ s.comps, i.split = true → j.split = true → i.name ++ "_particle" ≠ j.name := by
  have hs : ((s.comps.filter (·.split)).map (·.name)).Nodup := hn.sublist (List.Sublist.map _ List.filter_sublist)
  have key : (s.groups.map (fun g => "Group_" ++ g) ++
      (s.comps.filter (·.split)).flatMap fun i => ["Split_" ++ i.name, "Split_" ++ i.name ++ "_particle"]).Nodup ↔
      s.groups.Nodup ∧
      ∀ i ∈ s.comps, ∀ j ∈ s.comps, i.split = true → j.split = true → i.name ++ "_particle" ≠ j.name := by
    rw [((flatMap_pair (s.comps.filter (·.split)) (fun i => "Split_" ++ i.name)
      (fun i => "Split_" ++ i.name ++ "_particle")).append_left _).nodup_iff]
    have d1 : (s.groups.map (fun g => "Group_" ++ g)).Disjoint ((s.comps.filter (·.split)).map fun i => "Split_" ++ i.name) := by
      rw [disjoint_map]
      intro g _ i _
      exact ne_of_beginnings (by decide) (by decide)
    have d2 : (s.groups.map (fun g => "Group_" ++ g)).Disjoint
        ((s.comps.filter (·.split)).map fun i => "Split_" ++ i.name ++ "_particle") := by
      rw [disjoint_map]
      intro g _ i _
      rw [String.append_assoc]
      exact ne_of_beginnings (by decide) (by decide)
    have n1 : (s.groups.map (fun g => "Group_" ++ g)).Nodup ↔ s.groups.Nodup := by
      have := nodup_map_prefix s.groups id "Group_"
      simpa using this
    simp only [List.nodup_append', List.disjoint_append_right, d1, d2, n1, nodup_map_prefix, nodup_map_affix, hs, true_and,
      and_true, disjoint_map, List.mem_filter]
    refine and_congr_right fun _ => ?_
    constructor
    · intro h i hi j hj hi' hj' he
      exact h j ⟨hj, hj'⟩ i ⟨hi, hi'⟩ (by rw [String.append_assoc, he])
    · rintro h i ⟨hi, hi'⟩ j ⟨hj, hj'⟩ he
      rw [String.append_assoc, prefix_inj] at he
      exact h j hj i hi hj' hi' he.symm
  unfold logicStruct
  by_cases h : s.groups.length ≠ 0 ∨ s.comps.any (·.split)
  · rw [if_pos h]
    simp only [List.mem_singleton, forall_eq]
    exact key
  · rw [if_neg h]
    push Not at h
    have hg := List.length_eq_zero_iff.1 h.1
    have hc : ∀ i ∈ s.comps, i.split = false := by simpa using h.2
    simp only [List.not_mem_nil, false_implies, implies_true, hg, List.nodup_nil, true_and, true_iff]
    intro i hi j hj h1
    rw [hc i hi] at h1
    cases h1

theorem particleMembers_nodup (m : Bool) : (particleMembers m).Nodup := by
  revert m
  decide +kernel

/-- What the names in an instrument must be like for the generated program to declare no identifier twice. -/
structure Distinct (s : Source) : Prop where
  /-- Instances have names of their own (C19). -/
  instances : (s.comps.map (·.name)).Nodup
  /-- A name of a component definition stands for one definition. -/
  definitions : ∀ i ∈ s.comps, ∀ j ∈ s.comps, i.type.name = j.type.name → i.type = j.type
  /-- No instance has a name that belongs to the program. -/
  reservedInstance : ∀ i ∈ s.comps, i.name ≠ "instrument" ∧ i.name ≠ "particle_global_randnbuse" ∧ i.name ≠ "get_particle"
  /-- No component definition has a name that belongs to the program. -/
  reservedType : ∀ i ∈ s.comps, i.type.name ≠ "particle" ∧ i.type.name ≠ "instrument" ∧
    i.type.name ≠ "instrument_parameters"
  /-- No component definition is called like another one with `_parameters` behind. -/
  parametersType : ∀ i ∈ s.comps, ∀ j ∈ s.comps, i.type.name ++ "_parameters" ≠ j.type.name
  /-- No instance is called like `class_A` beside a component definition `A_var` or `A_setpos`. -/
  typeVar : ∀ i ∈ s.comps, ∀ j ∈ s.comps, "class_" ++ i.type.name ≠ j.name ++ "_var"
  typeSetpos : ∀ i ∈ s.comps, ∀ j ∈ s.comps, "class_" ++ i.type.name ≠ j.name ++ "_setpos"
  /-- The counters of two jumps with ITERATE differ. -/
  counters : s.counted.Pairwise fun a b => a.1 ++ "_" ++ a.2 ≠ b.1 ++ "_" ++ b.2
  groups : s.groups.Nodup
  /-- No two instances with SPLIT are called `A` and `A_particle`. -/
  splits : ∀ i ∈ s.comps, ∀ j ∈ s.comps, i.split = true → j.split = true → i.name ++ "_particle" ≠ j.name
  /-- Instrument parameters have names of their own (C20). -/
  parameters : s.params.Nodup
  /-- A component's SETTING parameters and the variables of its DECLARE section have names of their own. -/
  componentParameters : ∀ i ∈ s.comps, (i.type.setting ++ i.type.declared).Nodup
  /-- Variables of the particle have names of their own (C34), which built-in members do not have. -/
  uservars : s.uservars.Nodup ∧ ∀ u ∈ s.uservars, u ∉ particleMembers s.mcstas

theorem jumpName_eq_iff {a b : String × String} : jumpName a = jumpName b ↔ a.1 ++ "_" ++ a.2 = b.1 ++ "_" ++ b.2 := by
  unfold jumpName
  simp only [String.append_assoc, prefix_inj]

/-- No identifier is declared twice just if the names in the instrument are as `Distinct` says. -/
theorem declared_once_iff (s : Source) : (program s).once ↔ Distinct s := by
  have ft : ∀ {P : Comp → Prop}, (∀ c ∈ s.types, P c) ↔ ∀ i ∈ s.comps, P i.type := by
    intro P
    constructor
    · exact fun h i hi => h _ (mem_types.2 ⟨i, hi, rfl⟩)
    · intro h c hc
      obtain ⟨i, hi, rfl⟩ := mem_types.1 hc
      exact h i hi
  have m1 : ("dummy" :: s.counted.map jumpName).Nodup ↔
      s.counted.Pairwise fun a b => a.1 ++ "_" ++ a.2 ≠ b.1 ++ "_" ++ b.2 := by
    rw [List.nodup_cons]
    have : "dummy" ∉ s.counted.map jumpName := by
      rw [List.mem_map]
      rintro ⟨p, _, hp⟩
      rw [jumpName, String.append_assoc, String.append_assoc, show "Jump_" = "J" ++ "ump_" by decide,
        String.append_assoc, show "dummy" = "d" ++ "ummy" by decide] at hp
      exact ne_of_beginnings (by decide) (by decide) hp
    rw [and_iff_right this, List.Nodup, List.pairwise_map]
    refine iff_of_eq (congrArg (fun r => List.Pairwise r s.counted) ?_)
    funext a b
    rw [Ne, jumpName_eq_iff]
  have m2 : (particleMembers s.mcstas ++ s.uservars).Nodup ↔
      s.uservars.Nodup ∧ ∀ u ∈ s.uservars, u ∉ particleMembers s.mcstas := by
    rw [List.nodup_append', and_iff_right (particleMembers_nodup _), List.disjoint_right]
  have m3 : (parametersStruct s).2.Nodup ↔ s.params.Nodup := by
    unfold parametersStruct
    by_cases h : s.params.length = 0
    · simp [List.length_eq_zero_iff.1 h]
    · simp only [if_neg h]
  have m4 : (instrumentStruct s).2.Nodup := by
    unfold instrumentStruct
    by_cases h : s.groups.length ≠ 0 ∨ s.comps.any (·.split)
    · rw [if_pos h]
      decide +kernel
    · rw [if_neg h]
      decide +kernel
  have m5 : ∀ c : Comp, (∀ t ∈ (typePart c).structs, t.2.Nodup) ↔ (c.setting ++ c.declared).Nodup := by
    intro c
    simp only [typePart, List.mem_cons, List.not_mem_nil, or_false, forall_eq_or_imp, forall_eq]
    rw [and_iff_left (by decide +kernel)]
    by_cases h : c.setting.length + c.declared.length = 0
    · have h1 : c.setting = [] := List.length_eq_zero_iff.1 (by omega)
      have h2 : c.declared = [] := List.length_eq_zero_iff.1 (by omega)
      simp [h1, h2]
    · rw [if_neg h, List.append_nil]
  have hmem : (∀ t ∈ (program s).structs, t.2.Nodup) ↔
      (s.counted.Pairwise fun a b => a.1 ++ "_" ++ a.2 ≠ b.1 ++ "_" ++ b.2) ∧
      (s.uservars.Nodup ∧ ∀ u ∈ s.uservars, u ∉ particleMembers s.mcstas) ∧ s.params.Nodup ∧
      (∀ t ∈ logicStruct s, t.2.Nodup) ∧ ∀ i ∈ s.comps, (i.type.setting ++ i.type.declared).Nodup := by
    rw [← m1, ← m2, ← m3, ← ft (P := fun c => (c.setting ++ c.declared).Nodup)]
    simp only [← m5]
    rw [program_structs]
    simp only [List.mem_append, List.mem_cons, List.not_mem_nil, or_false, List.mem_flatMap]
    constructor
    · intro h
      exact ⟨h _ (.inl (.inl rfl)), h _ (.inl (.inr rfl)), h _ (.inr (.inl (.inl (.inl rfl)))),
        fun t ht => h t (.inr (.inl (.inl (.inr ht)))), fun c hc t ht => h t (.inr (.inr ⟨c, hc, ht⟩))⟩
    · rintro ⟨a, b, c, d, e⟩ t ((rfl | rfl) | (((rfl | ht) | rfl) | ⟨x, hx, ht⟩))
      · exact a
      · exact b
      · exact c
      · exact d t ht
      · exact m4
      · exact e x hx t ht
  unfold Program.once
  rw [hmem, names_nodup_iff, types_names_nodup]
  constructor
  · rintro ⟨_, ⟨a, b, c, d, e⟩, f, g, h, i, j, k, l⟩
    rw [logic_members g] at d
    exact ⟨g, f, h, ft.1 i, fun x hx y hy => j _ (mem_types.2 ⟨x, hx, rfl⟩) _ (mem_types.2 ⟨y, hy, rfl⟩),
      fun x hx y hy => k _ (mem_types.2 ⟨x, hx, rfl⟩) y hy, fun x hx y hy => l _ (mem_types.2 ⟨x, hx, rfl⟩) y hy,
      a, d.1, d.2, c, e, b⟩
  · intro h
    have hp : ∀ c ∈ s.types, ∀ d ∈ s.types, c.name ++ "_parameters" ≠ d.name := by
      intro c hc d hd
      obtain ⟨i, hi, rfl⟩ := mem_types.1 hc
      obtain ⟨j, hj, rfl⟩ := mem_types.1 hd
      exact h.parametersType i hi j hj
    have hr : ∀ c ∈ s.types, c.name ≠ "particle" ∧ c.name ≠ "instrument" ∧ c.name ≠ "instrument_parameters" := by
      intro c hc
      obtain ⟨i, hi, rfl⟩ := mem_types.1 hc
      exact h.reservedType i hi
    refine ⟨tags_nodup (types_names_nodup.2 h.definitions) hr hp,
      ⟨h.counters, h.uservars, h.parameters, (logic_members h.instances).2 ⟨h.groups, h.splits⟩, h.componentParameters⟩,
      h.definitions, h.instances, h.reservedInstance, hr, hp, ?_, ?_⟩
    · intro c hc
      obtain ⟨i, hi, rfl⟩ := mem_types.1 hc
      exact h.typeVar i hi
    · intro c hc
      obtain ⟨i, hi, rfl⟩ := mem_types.1 hc
      exact h.typeSetpos i hi

/-- A component definition with all sorts of names. -/
def exampleSlit : Comp :=
  ⟨"Slit", [], ["xwidth"], ["hits"], ["hits"], ["hits = 0;"], ["PROP_Z0;"], [], ["free(data);"], [], ""⟩

/-- An instrument with two definitions, a group, SPLIT, jumps and variables. -/
def exampleSource : Source where
  name := "demo"
  params := ["E0", "dE"]
  groups := ["samples"]
  uservars := ["flag", "count2"]
  comps :=
    [{ name := "origin", type := { name := "Arm", display := ["circle();"] } },
     { name := "sample", type := exampleSlit, split := true, extend := ["flag = 1;"], refs := ["origin"],
       jumps := [⟨"origin", true⟩, ⟨"PREVIOUS_2", true⟩] },
     { name := "target", type := exampleSlit, split := true, refs := ["origin", "sample"],
       jumps := [⟨"MYSELF", true⟩, ⟨"MYSELF", false⟩] }]

example : (program exampleSource).once := by
  unfold Program.once
  decide +kernel

/-- Names without underscores: the counters of jumps are distinct if no instance has two jumps with ITERATE to one target. -/
theorem counters_distinct_partial (s : Source) (h : s.counted.Nodup) (hu : ∀ p ∈ s.counted, '_' ∉ p.1.toList) :
    s.counted.Pairwise fun a b => a.1 ++ "_" ++ a.2 ≠ b.1 ++ "_" ++ b.2 := by
  refine List.Pairwise.imp_of_mem ?_ h
  intro a b ha hb hab he
  have h1 : a.1.toList ++ '_' :: a.2.toList = b.1.toList ++ '_' :: b.2.toList := by
    have : (a.1 ++ "_" ++ a.2).toList = (b.1 ++ "_" ++ b.2).toList := by rw [he]
    simpa using this
  have h2 : a.1.toList = b.1.toList := by
    have e : ∀ (x y : List Char), '_' ∉ x → (x ++ '_' :: y).takeWhile (· ≠ '_') = x := by
      intro x y hx
      rw [List.takeWhile_append_of_pos (fun c hc => by
        simp only [ne_eq, decide_not, Bool.not_eq_eq_eq_not, Bool.not_true, decide_eq_false_iff_not]
        rintro rfl
        exact hx hc)]
      simp
    rw [← e a.1.toList a.2.toList (hu a ha), h1, e _ _ (hu b hb)]
  rw [h2, List.append_cancel_left_eq, List.cons.injEq] at h1
  exact hab (Prod.ext (String.toList_inj.1 h2) (String.toList_inj.1 h1.2))

example : exampleSource.counted = [("sample", "origin"), ("sample", "PREVIOUS_2"), ("target", "MYSELF")] ∧
    exampleSource.counted.Nodup ∧ ∀ p ∈ exampleSource.counted, '_' ∉ p.1.toList := by decide +kernel

/-- An instance `a` that jumps to `b_c` and an instance `a_b` that jumps to `c`, both with ITERATE, share their counter. -/
theorem counters_clash (s : Source) (a b c : String) (i j : Inst) (hi : i ∈ s.comps) (hj : j ∈ s.comps)
    (hin : i.name = a) (hjn : j.name = a ++ "_" ++ b) (hij : ⟨b ++ "_" ++ c, true⟩ ∈ i.jumps) (hjj : ⟨c, true⟩ ∈ j.jumps) :
    ¬ (program s).once := by
  rw [declared_once_iff]
  intro h
  have hp : ∀ k ∈ s.comps, ∀ t, (⟨t, true⟩ : Jump) ∈ k.jumps → (k.name, t) ∈ s.counted := by
    intro k hk t ht
    exact List.mem_flatMap.2 ⟨k, hk, List.mem_map.2 ⟨⟨t, true⟩, List.mem_filter.2 ⟨ht, rfl⟩, rfl⟩⟩
  have h1 := hp i hi _ hij
  have h2 := hp j hj _ hjj
  rw [hin] at h1
  rw [hjn] at h2
  have hne : (a, b ++ "_" ++ c) ≠ (a ++ "_" ++ b, c) := by
    intro he
    have : a.length = (a ++ "_" ++ b).length := congrArg String.length (congrArg Prod.fst he)
    simp only [String.length_append] at this
    have e : "_".length = 1 := by decide
    omega
  have : Std.Symm fun a b : String × String => a.1 ++ "_" ++ a.2 ≠ b.1 ++ "_" ++ b.2 := ⟨fun _ _ hx => hx.symm⟩
  refine h.counters.forall h1 h2 hne ?_
  simp only [String.append_assoc]

example : ∃ s : Source, s.comps.map (·.name) = ["arm", "arm_b"] ∧ ¬ (program s).once :=
  ⟨{ comps := [{ name := "arm", type := exampleSlit, jumps := [⟨"b" ++ "_" ++ "c", true⟩] },
      { name := "arm" ++ "_" ++ "b", type := exampleSlit, jumps := [⟨"c", true⟩] }] }, by decide +kernel,
    counters_clash _ "arm" "b" "c" { name := "arm", type := exampleSlit, jumps := [⟨"b" ++ "_" ++ "c", true⟩] }
      { name := "arm" ++ "_" ++ "b", type := exampleSlit, jumps := [⟨"c", true⟩] } (by decide) (by decide) rfl rfl
      (by decide) (by decide)⟩

/-- Two jumps with ITERATE of one instance to one target share their counter. -/
theorem same_target_clash (s : Source) (i : Inst) (hi : i ∈ s.comps) (j k : Jump) (h : [j, k].Sublist i.jumps)
    (hj : j.iterate = true) (hk : k.iterate = true) (ht : j.target = k.target) : ¬ (program s).once := by
  rw [declared_once_iff]
  intro hd
  have h1 : [(i.name, j.target), (i.name, k.target)].Sublist s.counted := by
    refine List.Sublist.trans ?_ (List.sublist_flatten_of_mem (List.mem_map.2 ⟨i, hi, rfl⟩))
    have := (h.filter (·.iterate)).map fun j : Jump => (i.name, j.target)
    simpa [List.filter, hj, hk] using this
  have := hd.counters.sublist h1
  simp [ht] at this

example : ∃ s : Source, ¬ (program s).once ∧ s.comps.length = 1 :=
  ⟨{ comps := [{ name := "arm", type := exampleSlit, jumps := [⟨"MYSELF", true⟩, ⟨"x", false⟩, ⟨"MYSELF", true⟩] }] },
    same_target_clash _ { name := "arm", type := exampleSlit, jumps := [⟨"MYSELF", true⟩, ⟨"x", false⟩, ⟨"MYSELF", true⟩] }
      (by simp) ⟨"MYSELF", true⟩ ⟨"MYSELF", true⟩ (by decide) rfl rfl rfl, rfl⟩

/-- Names an instrument may use that make the program declare an identifier twice, whatever else it holds. -/
theorem reserved_names_clash (s : Source)
    (h : (∃ i ∈ s.comps, i.name = "instrument" ∨ i.name = "get_particle") ∨
      (∃ i ∈ s.comps, i.type.name = "particle" ∨ i.type.name = "instrument") ∨
      (∃ i ∈ s.comps, ∃ j ∈ s.comps, j.type.name = i.type.name ++ "_parameters") ∨
      (∃ i ∈ s.comps, ∃ j ∈ s.comps, i.split = true ∧ j.split = true ∧ j.name = i.name ++ "_particle") ∨
      (∃ i ∈ s.comps, ∃ j ∈ s.comps, ∃ x, j.name = "class_" ++ x ∧ i.type.name = x ++ "_var") ∨
      (∃ i ∈ s.comps, ∃ p ∈ i.type.setting, p ∈ i.type.declared) ∨
      (∃ u ∈ s.uservars, u = "t" ∨ u = "p" ∨ u = "x")) : ¬ (program s).once := by
  rw [declared_once_iff]
  intro hd
  rcases h with ⟨i, hi, h | h⟩ | ⟨i, hi, h | h⟩ | ⟨i, hi, j, hj, h⟩ | ⟨i, hi, j, hj, h1, h2, h⟩ | ⟨i, hi, j, hj, x, h1, h2⟩ |
    ⟨i, hi, p, h1, h2⟩ | ⟨u, hu, h⟩
  · exact (hd.reservedInstance i hi).1 h
  · exact (hd.reservedInstance i hi).2.2 h
  · exact (hd.reservedType i hi).1 h
  · exact (hd.reservedType i hi).2.1 h
  · exact hd.parametersType i hi j hj h.symm
  · exact hd.splits i hi j hj h1 h2 h.symm
  · refine hd.typeVar i hi j hj ?_
    rw [h1, h2, String.append_assoc]
  · have := hd.componentParameters i hi
    rw [List.nodup_append'] at this
    exact this.2.2 h1 h2
  · have := hd.uservars.2 u hu
    rcases h with rfl | rfl | rfl <;> cases s.mcstas <;> simp [particleMembers] at this

example : ∃ s : Source, (∃ i ∈ s.comps, i.name = "instrument" ∨ i.name = "get_particle") ∧ s.comps.length = 2 :=
  ⟨{ comps := [{ name := "arm", type := exampleSlit }, { name := "instrument", type := exampleSlit }] }, by simp⟩

/-! ### C90: names used -/

theorem isEmpty_eq_false {b : String} : isEmpty b = false ↔ ∃ ch ∈ b.toList, ch ≠ ' ' ∧ ch ≠ '\t' ∧ ch ≠ '\n' := by
  simp only [isEmpty, List.all_eq_false, Bool.not_eq_true, Bool.or_eq_false_iff, beq_eq_false_iff_ne, and_assoc]

/-- What the program itself writes uses only what it declares, for definitions whose TRACE section was filled by `TRACE`
(which leaves out empty blocks), placements that refer to components of the instrument, and lists given for SETTING parameters. -/
theorem uses_declared_partial (s : Source) (ht : ∀ i ∈ s.comps, ∀ b ∈ i.type.trace, ∃ ch ∈ b.toList, ch ≠ ' ' ∧ ch ≠ '\t' ∧ ch ≠ '\n')
    (hr : ∀ i ∈ s.comps, ∀ r ∈ i.refs, ∃ j ∈ s.comps, j.name = r)
    (hv : ∀ i ∈ s.comps, ∀ v ∈ i.vectors, v ∈ i.type.setting) : ∀ u ∈ uses s, (program s).declares u := by
  have hn : ∀ n, (program s).declares (.name n) ↔ n ∈ fixedNames s.defaultMain s.funnel ∨
      (∃ i ∈ s.comps, n = "_class_" ++ i.type.name ++ "_parameters") ∨ (∃ i ∈ s.comps, n = "_class_" ++ i.type.name) ∨
      (∃ i ∈ s.comps, n = varName i.name) ∨ (∃ i ∈ s.comps, n = setposName i.name) ∨ n ∈ functions s := by
    intro n
    show n ∈ (program s).names ↔ _
    rw [(program_names_perm s).mem_iff]
    simp only [List.mem_append, List.mem_map, mem_types, or_assoc]
    constructor
    · rintro (h | ⟨_, ⟨i, hi, rfl⟩, rfl⟩ | ⟨_, ⟨i, hi, rfl⟩, rfl⟩ | ⟨i, hi, rfl⟩ | ⟨i, hi, rfl⟩ | h)
      · exact .inl h
      · exact .inr (.inl ⟨i, hi, rfl⟩)
      · exact .inr (.inr (.inl ⟨i, hi, rfl⟩))
      · exact .inr (.inr (.inr (.inl ⟨i, hi, rfl⟩)))
      · exact .inr (.inr (.inr (.inr (.inl ⟨i, hi, rfl⟩))))
      · exact .inr (.inr (.inr (.inr (.inr h))))
    · rintro (h | ⟨i, hi, rfl⟩ | ⟨i, hi, rfl⟩ | ⟨i, hi, rfl⟩ | ⟨i, hi, rfl⟩ | h)
      · exact .inl h
      · exact .inr (.inl ⟨_, ⟨i, hi, rfl⟩, rfl⟩)
      · exact .inr (.inr (.inl ⟨_, ⟨i, hi, rfl⟩, rfl⟩))
      · exact .inr (.inr (.inr (.inl ⟨i, hi, rfl⟩)))
      · exact .inr (.inr (.inr (.inr (.inl ⟨i, hi, rfl⟩))))
      · exact .inr (.inr (.inr (.inr (.inr h))))
  have hfix : ∀ n, n ∈ fixedNames s.defaultMain s.funnel → (program s).declares (.name n) := fun n h => (hn n).2 (.inl h)
  have hvar : ∀ i ∈ s.comps, (program s).declares (.name (varName i.name)) := fun i hi =>
    (hn _).2 (.inr (.inr (.inr (.inl ⟨i, hi, rfl⟩))))
  have hfun : ∀ n, n ∈ functions s → (program s).declares (.name n) := fun n h =>
    (hn n).2 (.inr (.inr (.inr (.inr (.inr h)))))
  have hpar : ∀ i ∈ s.comps, ∀ p, p ∈ i.type.setting ∨ p ∈ i.type.declared →
      (program s).declares (parameterUse i.type p) := by
    intro i hi p hp
    refine ⟨i.type.setting ++ i.type.declared ++ (if i.type.setting.length + i.type.declared.length = 0 then
      [i.type.name ++ "_has_no_parameters"] else []), ?_, List.mem_append_left _ (List.mem_append.2 hp)⟩
    rw [program_structs]
    refine List.mem_append_right _ (List.mem_append_right _ (List.mem_flatMap.2 ⟨i.type, mem_types.2 ⟨i, hi, rfl⟩, ?_⟩))
    exact List.mem_cons_self ..
  have hcls : ∀ (blocks : Comp → List String) (t : String), (∀ n, n ∈ classPart s blocks t → n ∈ functions s) →
      ∀ i ∈ s.comps, ∀ u, u ∈ (if (blocks i.type).length = 0 then [] else [Use.name (className i.type t)]) →
        (program s).declares u := by
    intro blocks t hb i hi u hu
    split at hu
    · simp at hu
    · rename_i hne
      rw [List.mem_singleton] at hu
      subst hu
      refine hfun _ (hb _ ?_)
      rw [classPart_eq, mem_classFunctions]
      exact ⟨i.type, mem_types.2 ⟨i, hi, rfl⟩, fun h => hne (by rw [h]; rfl), rfl⟩
  intro u hu
  simp only [uses, List.mem_append, List.mem_flatMap] at hu
  rcases hu with hu | ⟨i, hi, (hu | hu) | hu⟩
  · simp only [typeUses, List.mem_map] at hu
    obtain ⟨c, hc, rfl⟩ := hu
    obtain ⟨i, hi, rfl⟩ := mem_types.1 hc
    exact (hn _).2 (.inr (.inl ⟨i, hi, rfl⟩))
  · simp only [setposUses, List.mem_append, List.mem_map, List.mem_cons, List.not_mem_nil, or_false] at hu
    rcases hu with (((((rfl | rfl | rfl | rfl) | ⟨r, hrm, rfl⟩) | ⟨p, hp, rfl⟩) | ⟨p, hp, rfl⟩) | rfl) | hu
    · exact (hn _).2 (.inr (.inr (.inl ⟨i, hi, rfl⟩)))
    · exact hvar i hi
    · exact hfix _ (by simp [fixedNames])
    · exact hfix _ (by simp [fixedNames])
    · obtain ⟨j, hj, rfl⟩ := hr i hi r hrm
      exact hvar j hj
    · exact hpar i hi p (.inl hp)
    · exact hpar i hi p (.inr hp)
    · exact (hn _).2 (.inr (.inr (.inr (.inr (.inl ⟨i, hi, rfl⟩)))))
    · exact hcls Comp.init "initialize" (fun n h => by simp [functions, h]) i hi u hu
  · simp only [traceUses, List.mem_append, List.mem_cons, List.not_mem_nil, or_false] at hu
    rcases hu with ((rfl | rfl) | hu) | hu
    · exact hfix _ (by simp [fixedNames])
    · exact hvar i hi
    · split at hu
      · rename_i hne
        rw [List.mem_singleton] at hu
        subst hu
        refine hfun _ ?_
        have : className i.type "trace" ∈ (tracePart s).names := by
          rw [tracePart]
          simp only
          rw [mem_classFunctions (p := fun c => hasTrace s c = true)]
          refine ⟨i.type, mem_types.2 ⟨i, hi, rfl⟩, ?_, rfl⟩
          rw [hasTrace, Bool.or_eq_true]
          rcases hne with hne | hne
          · right
            obtain ⟨b, hb⟩ := List.exists_mem_of_ne_nil _ (fun h => hne (by rw [h]; rfl) : i.type.trace ≠ [])
            exact List.any_eq_true.2 ⟨b, hb, by simp [isEmpty_eq_false.2 (ht i hi b hb)]⟩
          · left
            exact List.any_eq_true.2 ⟨i, hi, by simpa using hne⟩
        simp [functions, this]
      · simp at hu
    · split at hu
      · simp at hu
      · obtain ⟨j, hj, rfl⟩ := List.mem_map.1 hu
        refine ⟨"dummy" :: s.counted.map jumpName, by rw [program_structs]; simp, ?_⟩
        refine List.mem_cons_of_mem _ (List.mem_map.2 ⟨(i.name, j.target), ?_, rfl⟩)
        exact List.mem_flatMap.2 ⟨i, hi, List.mem_map.2 ⟨j, hj, rfl⟩⟩
  · simp only [finishUses, List.mem_append, List.mem_cons, List.not_mem_nil, or_false, List.mem_map] at hu
    rcases hu with (((rfl | hu) | hu) | ⟨v, hvm, rfl⟩) | hu
    · exact hvar i hi
    · exact hcls Comp.save "save" (fun n h => by simp [functions, h]) i hi u hu
    · exact hcls Comp.final "finally" (fun n h => by simp [functions, h]) i hi u hu
    · exact hpar i hi v (.inl (hv i hi v hvm))
    · exact hcls Comp.display "display" (fun n h => by simp [functions, h]) i hi u hu

example : (∀ i ∈ exampleSource.comps, ∀ b ∈ i.type.trace, ∃ ch ∈ b.toList, ch ≠ ' ' ∧ ch ≠ '\t' ∧ ch ≠ '\n') ∧
    (∀ i ∈ exampleSource.comps, ∀ r ∈ i.refs, ∃ j ∈ exampleSource.comps, j.name = r) ∧
    (∀ i ∈ exampleSource.comps, ∀ v ∈ i.vectors, v ∈ i.type.setting) ∧ 20 < (uses exampleSource).length := by
  decide +kernel

/-- `Comp.TRACE` adds just the blocks with something else than blanks, tabs and ends of lines. -/
theorem trace_blocks_not_empty (c : Comp) (blocks : List String) (b : String) :
    b ∈ (c.addTrace blocks).trace ↔ b ∈ c.trace ∨ b ∈ blocks ∧ ∃ ch ∈ b.toList, ch ≠ ' ' ∧ ch ≠ '\t' ∧ ch ≠ '\n' := by
  show b ∈ c.trace ++ blocksToRawC blocks ↔ _
  rw [List.mem_append, blocksToRawC, List.mem_filter, ← isEmpty_eq_false]
  simp

example : (exampleSlit.addTrace [" \n", "SCATTER;"]).trace = ["PROP_Z0;", "SCATTER;"] := by decide +kernel

/-- A definition made without `TRACE` whose blocks are all empty: its function is called but not there. -/
theorem empty_trace_block_not_declared (s : Source) (i : Inst) (hi : i ∈ s.comps) (ht : i.type.trace ≠ [])
    (he : ∀ b ∈ i.type.trace, isEmpty b = true) (hd : ∀ j ∈ s.comps, j.type.name = i.type.name → j.type = i.type)
    (hx : ∀ j ∈ s.comps, j.type = i.type → j.extend = []) :
    .name (className i.type "trace") ∈ uses s ∧ ¬ (program s).declares (.name (className i.type "trace")) := by
  constructor
  · simp only [uses, List.mem_append, List.mem_flatMap]
    refine .inr ⟨i, hi, .inl (.inr ?_)⟩
    simp only [traceUses, List.mem_append]
    refine .inl (.inr ?_)
    rw [if_pos (.inl (fun h => ht (List.length_eq_zero_iff.1 h)))]
    exact List.mem_singleton.2 rfl
  · show ¬ _ ∈ (program s).names
    rw [(program_names_perm s).mem_iff]
    simp only [List.mem_append, not_or]
    have hc : className i.type "trace" = "c" ++ ("lass_" ++ i.type.name ++ "_trace") := by
      rw [show "_trace" = "_" ++ "trace" by decide]
      simp only [← String.append_assoc]
      rfl
    have hus : ∀ x, className i.type "trace" ≠ "_" ++ x := by
      intro x
      rw [hc]
      exact ne_of_beginnings (by decide) (by decide)
    refine ⟨⟨⟨⟨⟨?_, ?_⟩, ?_⟩, ?_⟩, ?_⟩, ?_⟩
    · rw [show className i.type "trace" = "class_" ++ (i.type.name ++ "_trace") ++ "" by
        rw [show "_trace" = "_" ++ "trace" by decide]; simp [className, String.append_assoc], affix_mem_iff, fixed_function]
      simp
    · rw [List.mem_map]
      rintro ⟨c, _, h⟩
      exact hus ("class_" ++ c.name ++ "_parameters") (by rw [← h]; simp only [← String.append_assoc]; rfl)
    · rw [List.mem_map]
      rintro ⟨c, _, h⟩
      exact hus ("class_" ++ c.name) (by rw [← h]; simp only [← String.append_assoc]; rfl)
    · rw [List.mem_map]
      rintro ⟨c, _, h⟩
      exact hus (c.name ++ "_var") (by rw [← h, varName, String.append_assoc])
    · rw [List.mem_map]
      rintro ⟨c, _, h⟩
      exact hus (c.name ++ "_setpos") (by rw [← h, setposName, String.append_assoc])
    · obtain ⟨e1, e2, e3, e4, e5⟩ := section_ends
      simp only [functions, classPart_eq, tracePart, List.mem_append, mem_classFunctions, not_or, not_exists, not_and]
      refine ⟨⟨⟨⟨?_, ?_⟩, ?_⟩, ?_⟩, ?_⟩
      · intro c _ _ h
        rw [e1, e2] at h
        exact className_ne _ _ _ _ (by decide) (by decide) h
      · intro c hct hh h
        obtain ⟨j, hj, rfl⟩ := mem_types.1 hct
        have hj' := hd j hj (className_inj.1 h).symm
        rw [hj', hasTrace, Bool.or_eq_true] at hh
        rcases hh with hh | hh
        · obtain ⟨k, hk, hk'⟩ := List.any_eq_true.1 hh
          simp only [ne_eq, decide_eq_true_eq] at hk'
          exact hk'.2 (by rw [hx k hk (hd k hk hk'.1)]; rfl)
        · obtain ⟨b, hb, hb'⟩ := List.any_eq_true.1 hh
          rw [he b hb] at hb'
          cases hb'
      · intro c _ _ h
        rw [e3, e2] at h
        exact className_ne _ _ _ _ (by decide) (by decide) h
      · intro c _ _ h
        rw [e4, e2] at h
        exact className_ne _ _ _ _ (by decide) (by decide) h
      · intro c _ _ h
        rw [e5, e2] at h
        exact className_ne _ _ _ _ (by decide) (by decide) h

example : ∃ s : Source, ∃ i ∈ s.comps, i.type.trace ≠ [] ∧ (∀ b ∈ i.type.trace, isEmpty b = true) ∧
    (∀ j ∈ s.comps, j.type.name = i.type.name → j.type = i.type) ∧ ∀ j ∈ s.comps, j.type = i.type → j.extend = [] :=
  ⟨{ comps := [{ name := "arm", type := { name := "Arm", trace := [" "] } }, { name := "slit", type := exampleSlit }] },
    { name := "arm", type := { name := "Arm", trace := [" "] } }, by decide +kernel⟩

/-- What the macro of a parameter stands for is a member just of SETTING parameters and DECLARE variables: code that uses a
DEFINITION parameter, or an OUTPUT parameter that is neither, does not compile. -/
theorem parameter_macro_iff (s : Source) (h : (program s).once) (i : Inst) (hi : i ∈ s.comps) (p : String)
    (hp : p ≠ i.type.name ++ "_has_no_parameters") :
    (program s).declares (parameterUse i.type p) ↔ p ∈ i.type.setting ∨ p ∈ i.type.declared := by
  have hm : ("_struct_" ++ i.type.name ++ "_parameters", i.type.setting ++ i.type.declared ++
      (if i.type.setting.length + i.type.declared.length = 0 then [i.type.name ++ "_has_no_parameters"] else [])) ∈
      (program s).structs := by
    rw [program_structs]
    refine List.mem_append_right _ (List.mem_append_right _ (List.mem_flatMap.2 ⟨i.type, mem_types.2 ⟨i, hi, rfl⟩, ?_⟩))
    exact List.mem_cons_self ..
  constructor
  · rintro ⟨ms, h1, h2⟩
    have := List.inj_on_of_nodup_map h.1 h1 hm rfl
    rw [Prod.mk.injEq] at this
    rw [this.2] at h2
    simp only [List.mem_append] at h2
    rcases h2 with h2 | h2
    · exact h2
    · split at h2
      · exact absurd (List.mem_singleton.1 h2) hp
      · simp at h2
  · intro h
    exact ⟨_, hm, List.mem_append_left _ (List.mem_append.2 h)⟩

/-- A component with a DEFINITION parameter (comp.py 61-63 keeps those apart from SETTING parameters): its macro stands for no
member. -/
theorem definition_parameter_not_declared (s : Source) (h : (program s).once) (i : Inst) (hi : i ∈ s.comps) (p : String)
    (hd : p ∈ i.type.define) (hs : p ∉ i.type.setting) (hv : p ∉ i.type.declared)
    (hp : p ≠ i.type.name ++ "_has_no_parameters") :
    parameterUse i.type p ∈ macroUses i.type ∧ ¬ (program s).declares (parameterUse i.type p) := by
  constructor
  · exact List.mem_map.2 ⟨p, by simp [hd], rfl⟩
  · rw [parameter_macro_iff s h i hi p hp]
    tauto

example : ∃ s : Source, (program s).once ∧ ∃ i ∈ s.comps, "file" ∈ i.type.define ∧ "file" ∉ i.type.setting ∧
    "file" ∉ i.type.declared := by
  refine ⟨{ comps := [{ name := "arm", type := { name := "Arm", define := ["file"], setting := ["a"] } }] }, ?_, ?_⟩
  · unfold Program.once
    decide +kernel
  · decide +kernel

end Verif.Names
