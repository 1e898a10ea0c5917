import Verif.Instr.Model
import Mathlib.Data.List.Nodup
import Mathlib.Data.List.Induction
import Mathlib.Tactic.Linarith

/-! Properties C19 to C23: components, parameters and metadata of an instrument and its instances. -/

namespace Verif.Instr
variable {C P M V W : Type}

theorem present_iff {α : Type} (l : List (Named α)) (n : String) : present l n = true ↔ n ∈ l.map (·.1) := by
  simp [present, List.any_eq_true]

theorem present_false_iff {α : Type} (l : List (Named α)) (n : String) : present l n = false ↔ n ∉ l.map (·.1) := by
  rw [← present_iff]; simp

theorem nodup_snoc {α : Type} (l : List (Named α)) (a : Named α) (h : (l.map (·.1)).Nodup) (ha : a.1 ∉ l.map (·.1)) :
    ((l ++ [a]).map (·.1)).Nodup := by
  rw [List.map_append, List.nodup_append]
  refine ⟨h, by simp, ?_⟩
  intro x hx y hy
  simp only [List.map_cons, List.map_nil, List.mem_singleton] at hy
  subst hy
  rintro rfl
  exact ha hx

theorem first?_of_mem {α : Type} (l : List (Named α)) (a : Named α) (h : (l.map (·.1)).Nodup) (ha : a ∈ l) :
    first? l a.1 = some a := by
  induction l with
  | nil => cases ha
  | cons x l ih =>
    simp only [List.map_cons, List.nodup_cons] at h
    simp only [first?]
    rcases List.mem_cons.mp ha with rfl | ha
    · simp
    · have : x.1 ≠ a.1 := fun hc => h.1 (hc ▸ List.mem_map_of_mem ha)
      simp only [this, if_false]
      exact ih h.2 ha

theorem first?_some {α : Type} (l : List (Named α)) (n : String) (a : Named α) (h : first? l n = some a) :
    a ∈ l ∧ a.1 = n := by
  induction l with
  | nil => cases h
  | cons x l ih =>
    simp only [first?] at h
    split at h
    · cases h; exact ⟨List.mem_cons_self, by assumption⟩
    · exact ⟨List.mem_cons_of_mem _ (ih h).1, (ih h).2⟩

theorem first?_none {α : Type} (l : List (Named α)) (n : String) : first? l n = none ↔ n ∉ l.map (·.1) := by
  induction l with
  | nil => simp [first?]
  | cons x l ih =>
    simp only [first?, List.map_cons, List.mem_cons, not_or]
    split
    · simp_all
    · rw [ih]; constructor
      · intro h; exact ⟨fun hc => by simp_all, h⟩
      · exact fun h => h.2

theorem first?_append {α : Type} (l k : List (Named α)) (n : String) :
    first? (l ++ k) n = (first? l n).or (first? k n) := by
  induction l with
  | nil => simp [first?]
  | cons x l ih =>
    simp only [List.cons_append, first?]
    split
    · simp
    · exact ih

/-! ### C19 -/

theorem components_prefix_call (i : Instr C P M) (o : Op C P M) : i.components <+: (i.call o).1.components := by
  cases o <;> simp only [Instr.call, Instr.addComponent, Instr.makeInstance, Instr.addParameter]
  · split <;> simp
  · split
    · simp
    · split <;> simp
  · split
    · simp
    · split <;> simp
  · simp

theorem components_prefix (i : Instr C P M) (ops : List (Op C P M)) : i.components <+: (i.calls ops).components := by
  induction ops generalizing i with
  | nil => simp [Instr.calls]
  | cons o ops ih =>
    exact (components_prefix_call i o).trans (ih (i.call o).1)

theorem nodup_call (i : Instr C P M) (o : Op C P M) (h : (i.components.map (·.1)).Nodup) :
    ((i.call o).1.components.map (·.1)).Nodup := by
  cases o <;> simp only [Instr.call, Instr.addComponent, Instr.makeInstance, Instr.addParameter]
  · split
    · exact h
    · rename_i hn
      exact nodup_snoc _ _ h (fun hc => hn ((present_iff _ _).2 hc))
  · split
    · exact h
    · rename_i hn
      split
      · exact h
      · exact nodup_snoc _ _ h (fun hc => hn ((present_iff _ _).2 hc))
  · split
    · exact h
    · split <;> exact h
  · exact h

theorem nodup_calls (i : Instr C P M) (ops : List (Op C P M)) (h : (i.components.map (·.1)).Nodup) :
    ((i.calls ops).components.map (·.1)).Nodup := by
  induction ops generalizing i with
  | nil => exact h
  | cons o ops ih => exact ih _ (nodup_call i o h)

/-- **C19**: after any sequence of calls on a new instrument the names of the component instances are distinct. -/
theorem component_names_unique (ops : List (Op C P M)) :
    ((({} : Instr C P M).calls ops).components.map (·.1)).Nodup :=
  nodup_calls _ _ (by simp)

/-- **C19**: adding a component under a name in use raises and changes nothing; otherwise the component is appended,
and nothing else changes. -/
theorem add_component_spec (i : Instr C P M) (a : Named C) :
    (a.1 ∈ i.components.map (·.1) → i.call (.component a) = (i, some .runtimeError)) ∧
    (a.1 ∉ i.components.map (·.1) →
      i.call (.component a) = (⟨i.components ++ [a], i.parameters, i.metadata⟩, none)) := by
  constructor <;> intro h
  · simp only [Instr.call, Instr.addComponent, (present_iff _ _).2 h, if_true]
  · simp [Instr.call, Instr.addComponent, (present_false_iff _ _).2 h]

/-- **C19**: the same for `make_instance`, which also changes nothing if reading the component type fails. -/
theorem make_instance_spec (i : Instr C P M) (n : String) (c : Except Err C) :
    (∀ e, (i.call (.instance n c)).2 = some e → (i.call (.instance n c)).1 = i) ∧
    (n ∈ i.components.map (·.1) → (i.call (.instance n c)).2 = some .runtimeError) ∧
    (∀ c', n ∉ i.components.map (·.1) → c = .ok c' →
      i.call (.instance n c) = (⟨i.components ++ [(n, c')], i.parameters, i.metadata⟩, none)) := by
  refine ⟨fun e h => ?_, fun h => ?_, fun c' h hc => ?_⟩
  · simp only [Instr.call, Instr.makeInstance] at h ⊢
    split at h
    · simp_all
    · cases c <;> simp_all
  · simp only [Instr.call, Instr.makeInstance, (present_iff _ _).2 h, if_true]
  · subst hc
    simp [Instr.call, Instr.makeInstance, (present_false_iff _ _).2 h]

/-- **C19** (partial): a component that was added is what its name looks up, after any further calls. Missing: the name
`PREVIOUS`, see `component_called_previous`. -/
theorem lookup_returns_added_partial (before after : List (Op C P M)) (a : Named C) (hp : a.1 ≠ "PREVIOUS")
    (h : ((({} : Instr C P M).calls before).call (.component a)).2 = none) :
    (((({} : Instr C P M).calls before).call (.component a)).1.calls after).getComponent a.1 = .ok a := by
  set i := ({} : Instr C P M).calls before
  have hn : (i.components.map (·.1)).Nodup := component_names_unique before
  have ha : a ∈ (i.call (.component a)).1.components := by
    simp only [Instr.call, Instr.addComponent] at h ⊢
    split at h
    · simp at h
    · rename_i hx; simp [hx]
  have h1 := nodup_calls (i.call (.component a)).1 after (nodup_call i _ hn)
  have h2 := (components_prefix (i.call (.component a)).1 after).subset ha
  simp only [Instr.getComponent, hp, if_false, first?_of_mem _ _ h1 h2]

/-- **C19** (partial): a name under which no component was added is refused by the look-up. -/
theorem lookup_unknown_raises_partial (i : Instr C P M) (n : String) (hp : n ≠ "PREVIOUS")
    (h : n ∉ i.components.map (·.1)) : i.getComponent n = .error .runtimeError := by
  simp only [Instr.getComponent, hp, if_false, (first?_none _ _).2 h]

example : ∃ ops : List (Op Nat Nat Nat), (({} : Instr Nat Nat Nat).calls ops).components =
      [("a", 1), ("b", 2), ("c", 4)] ∧
    ((({} : Instr Nat Nat Nat).calls ops).call (.component ("d", 5))).2 = none ∧ ("d" : String) ≠ "PREVIOUS" :=
  ⟨[.component ("a", 1), .instance "b" (.ok 2), .component ("b", 3), .instance "x" (.error .other),
    .component ("c", 4)], by decide +kernel, by decide +kernel, by decide⟩

/-- The negation of the look-up part of C19 for a component called `PREVIOUS`, which can be added but not looked up. -/
theorem component_called_previous : ∃ ops : List (Op Nat Nat Nat),
    (({} : Instr Nat Nat Nat).calls ops).components = [("PREVIOUS", 1), ("b", 2)] ∧
    (({} : Instr Nat Nat Nat).calls ops).getComponent "PREVIOUS" = .ok ("b", 2) :=
  ⟨[.component ("PREVIOUS", 1), .component ("b", 2)], by decide +kernel, by decide +kernel⟩

/-! ### C20 -/

/-- The first of each name, in order: what is left if repeated definitions are not used. -/
def firstOfEach {α : Type} : List (Named α) → List (Named α)
  | [] => []
  | a :: l => a :: (firstOfEach l).filter fun b => !decide (b.1 = a.1)

theorem firstOfEach_nodup {α : Type} (l : List (Named α)) : ((firstOfEach l).map (·.1)).Nodup := by
  induction l with
  | nil => simp [firstOfEach]
  | cons a l ih =>
    simp only [firstOfEach, List.map_cons, List.nodup_cons]
    constructor
    · simp
    · exact (List.filter_sublist.map _).nodup ih

theorem firstOfEach_names {α : Type} (l : List (Named α)) (n : String) :
    n ∈ (firstOfEach l).map (·.1) ↔ n ∈ l.map (·.1) := by
  induction l with
  | nil => simp [firstOfEach]
  | cons a l ih =>
    simp only [firstOfEach, List.map_cons, List.mem_cons]
    by_cases h : n = a.1
    · simp [h]
    · simp only [h, false_or, ← ih, List.mem_map, List.mem_filter]
      constructor
      · rintro ⟨b, ⟨hb, _⟩, rfl⟩; exact ⟨b, hb, rfl⟩
      · rintro ⟨b, hb, rfl⟩; exact ⟨b, ⟨hb, by simpa using h⟩, rfl⟩

theorem firstOfEach_snoc {α : Type} (l : List (Named α)) (a : Named α) :
    firstOfEach (l ++ [a]) = if a.1 ∈ l.map (·.1) then firstOfEach l else firstOfEach l ++ [a] := by
  induction l with
  | nil => simp [firstOfEach]
  | cons b l ih =>
    simp only [List.cons_append, firstOfEach, ih, List.map_cons, List.mem_cons]
    by_cases h : a.1 ∈ l.map (·.1)
    · simp [h]
    · by_cases h2 : a.1 = b.1
      · rw [if_neg h, if_pos (.inl h2)]
        simp [h2]
      · simp [h, h2]

/-- The parameters given in a sequence of calls. -/
def givenParameters : List (Op C P M) → List (Named P)
  | [] => []
  | .parameter a _ :: ops => a :: givenParameters ops
  | _ :: ops => givenParameters ops

theorem givenParameters_snoc (ops : List (Op C P M)) (o : Op C P M) :
    givenParameters (ops ++ [o]) = givenParameters ops ++ givenParameters [o] := by
  induction ops with
  | nil => simp [givenParameters]
  | cons p ops ih => cases p <;> simp [givenParameters, ih]

theorem parameters_other (i : Instr C P M) (o : Op C P M) (h : ∀ a g, o ≠ .parameter a g) :
    (i.call o).1.parameters = i.parameters := by
  cases o with
  | component a => simp only [Instr.call, Instr.addComponent]; split <;> rfl
  | «instance» n c => simp only [Instr.call, Instr.makeInstance]; split; rfl; cases c <;> rfl
  | parameter a g => exact absurd rfl (h a g)
  | metadata m => rfl

theorem calls_snoc (i : Instr C P M) (ops : List (Op C P M)) (o : Op C P M) :
    i.calls (ops ++ [o]) = ((i.calls ops).call o).1 := by simp [Instr.calls]

/-- **C20**: after any sequence of calls on a new instrument its parameters are the first definition of each name, in
order of definition. -/
theorem parameters_are_first_definitions (ops : List (Op C P M)) :
    (({} : Instr C P M).calls ops).parameters = firstOfEach (givenParameters ops) := by
  induction ops using List.reverseRecOn with
  | nil => rfl
  | append_singleton ops o ih =>
    rw [calls_snoc, givenParameters_snoc]
    set i := ({} : Instr C P M).calls ops
    by_cases h : ∃ a g, o = .parameter a g
    · obtain ⟨a, g, rfl⟩ := h
      have hp : (present i.parameters a.1 = true) ↔ a.1 ∈ (givenParameters ops).map (·.1) := by
        rw [present_iff, ih, firstOfEach_names]
      simp only [givenParameters, firstOfEach_snoc, Instr.call, Instr.addParameter]
      by_cases hm : a.1 ∈ (givenParameters ops).map (·.1)
      · simp only [hp.2 hm, Bool.not_true, Bool.false_eq_true, if_false, hm, if_true]
        split <;> exact ih
      · have : present i.parameters a.1 = false := by
          cases hq : present i.parameters a.1
          · rfl
          · exact absurd (hp.1 hq) hm
        rw [if_neg hm, this, ← ih]
        rfl
    · push Not at h
      have : givenParameters [o] = [] := by
        cases o <;> first | rfl | exact absurd rfl (h _ _)
      rw [parameters_other _ _ h, this, List.append_nil, ih]

/-- **C20**: parameter names are unique. -/
theorem parameter_names_unique (ops : List (Op C P M)) :
    ((({} : Instr C P M).calls ops).parameters.map (·.1)).Nodup := by
  rw [parameters_are_first_definitions]
  exact firstOfEach_nodup _

theorem first?_firstOfEach {α : Type} (l : List (Named α)) (n : String) : first? (firstOfEach l) n = first? l n := by
  induction l with
  | nil => rfl
  | cons a l ih =>
    simp only [firstOfEach, first?]
    split
    · rfl
    · rename_i h
      rw [← ih]
      generalize firstOfEach l = k
      induction k with
      | nil => rfl
      | cons b k ihk =>
        by_cases hb : b.1 = a.1
        · have : ¬ b.1 = n := fun hc => h (hb ▸ hc)
          simp only [List.filter_cons, hb, decide_true, Bool.not_true, Bool.false_eq_true, if_false, ihk, first?]
          simp [h]
        · simp only [List.filter_cons, hb, decide_false, Bool.not_false, if_true, first?]
          split
          · rfl
          · exact ihk

/-- **C20**: `get_parameter` returns the first definition given under the name, or the default if there is none. -/
theorem get_parameter_first (ops : List (Op C P M)) (n : String) (d : Option (Named P)) :
    (({} : Instr C P M).calls ops).getParameter n d =
      ((givenParameters ops).find? fun p => p.1 = n).or d := by
  have hf : ∀ l : List (Named P), first? l n = l.find? (fun p => p.1 = n) := by
    intro l
    induction l with
    | nil => rfl
    | cons a l ih =>
      simp only [first?, List.find?_cons]
      by_cases h : a.1 = n <;> simp [h, ih]
  rw [Instr.getParameter, parameters_are_first_definitions, first?_firstOfEach, ← hf]
  cases h : present (firstOfEach (givenParameters ops)) n
  · have := (first?_none (givenParameters ops) n).2
      (fun hc => by rw [present_false_iff, firstOfEach_names] at h; exact h hc)
    simp [this]
  · rw [present_iff, firstOfEach_names] at h
    cases hq : first? (givenParameters ops) n
    · rw [first?_none] at hq; exact absurd h hq
    · simp

/-- **C20**: a repeated name raises, or is ignored, as requested; either way the instrument is unchanged. -/
theorem repeated_parameter (i : Instr C P M) (a : Named P) (h : a.1 ∈ i.parameters.map (·.1)) :
    i.call (.parameter a false) = (i, some .runtimeError) ∧ i.call (.parameter a true) = (i, none) := by
  simp [Instr.call, Instr.addParameter, (present_iff _ _).2 h]

/-- **C20**: a new name is accepted. -/
theorem new_parameter (i : Instr C P M) (a : Named P) (g : Bool) (h : a.1 ∉ i.parameters.map (·.1)) :
    i.call (.parameter a g) = (⟨i.components, i.parameters ++ [a], i.metadata⟩, none) := by
  simp [Instr.call, Instr.addParameter, (present_false_iff _ _).2 h]

example : ∃ ops : List (Op Nat Nat Nat), givenParameters ops = [("x", 1), ("y", 2), ("x", 3), ("z", 4)] ∧
    (({} : Instr Nat Nat Nat).calls ops).parameters = [("x", 1), ("y", 2), ("z", 4)] :=
  ⟨[.parameter ("x", 1) false, .parameter ("y", 2) true, .component ("c", 1), .parameter ("x", 3) true,
    .parameter ("z", 4) false], rfl, by decide +kernel⟩

/-! ### C21 -/

/-- The last of each name, in order of the last definitions. -/
def lastOfEach {α : Type} : List (Named α) → List (Named α)
  | [] => []
  | a :: l => if l.any (fun b => b.1 = a.1) then lastOfEach l else a :: lastOfEach l

theorem lastOfEach_snoc {α : Type} (l : List (Named α)) (a : Named α) :
    lastOfEach (l ++ [a]) = (lastOfEach l).filter (fun b => !decide (b.1 = a.1)) ++ [a] := by
  induction l with
  | nil => simp [lastOfEach]
  | cons b l ih =>
    simp only [List.cons_append, lastOfEach, List.any_append, ih, List.any_cons, List.any_nil, Bool.or_false]
    by_cases h : l.any (fun c => c.1 = b.1) = true
    · simp [h]
    · have h' : l.any (fun c => c.1 = b.1) = false := Bool.eq_false_iff.2 h
      by_cases h2 : b.1 = a.1
      · rw [h']
        simp [h2]
      · have h3 : ¬ a.1 = b.1 := fun hc => h2 hc.symm
        simp [h', h2, h3]

theorem addMetadata_filter (l : List (Named M)) (m : Named M) :
    addMetadata l m = l.filter (fun b => !decide (b.1 = m.1)) ++ [m] := by
  unfold addMetadata
  split
  · congr 1
  · rename_i h
    congr 1
    rw [List.filter_eq_self.2]
    intro x hx
    simp only [List.any_eq_true, not_exists, not_and] at h
    have := h x hx
    simpa using this

/-- **C21**: after any sequence of `add_metadata` calls the metadata is the last definition of each name, in the order
of these last definitions. -/
theorem metadata_is_last_definitions (ms : List (Named M)) : ms.foldl addMetadata [] = lastOfEach ms := by
  induction ms using List.reverseRecOn with
  | nil => rfl
  | append_singleton ms m ih =>
    rw [List.foldl_append, ih, lastOfEach_snoc, ← addMetadata_filter]
    rfl

theorem lastOfEach_sublist {α : Type} (l : List (Named α)) : (lastOfEach l).Sublist l := by
  induction l with
  | nil => simp [lastOfEach]
  | cons a l ih =>
    simp only [lastOfEach]
    split
    · exact ih.cons a
    · exact ih.cons_cons a

theorem lastOfEach_names {α : Type} (l : List (Named α)) (n : String) :
    n ∈ (lastOfEach l).map (·.1) ↔ n ∈ l.map (·.1) := by
  induction l with
  | nil => simp [lastOfEach]
  | cons a l ih =>
    simp only [lastOfEach, List.map_cons, List.mem_cons]
    split
    · rename_i h
      rw [ih]
      constructor
      · exact .inr
      · rintro (rfl | h')
        · simp only [List.any_eq_true, decide_eq_true_eq] at h
          obtain ⟨b, hb, he⟩ := h
          exact he ▸ List.mem_map_of_mem hb
        · exact h'
    · simp [ih]

/-- **C21**: each name occurs once; the entry of a name is the last one added under it; entries appear in the order
in which they were added (so names that are never added again keep their relative order). -/
theorem metadata_last_wins (ms : List (Named M)) :
    ((ms.foldl addMetadata []).map (·.1)).Nodup ∧
    (∀ n, first? (ms.foldl addMetadata []) n = ms.reverse.find? (fun m => m.1 = n)) ∧
    (ms.foldl addMetadata []).Sublist ms := by
  rw [metadata_is_last_definitions]
  have hn : ((lastOfEach ms).map (·.1)).Nodup := by
    induction ms with
    | nil => simp [lastOfEach]
    | cons a l ih =>
      simp only [lastOfEach]
      split
      · exact ih
      · rename_i h
        rw [List.map_cons, List.nodup_cons, lastOfEach_names]
        refine ⟨fun hc => ?_, ih⟩
        obtain ⟨b, hb, he⟩ := List.mem_map.1 hc
        exact h (List.any_eq_true.2 ⟨b, hb, by simp [he]⟩)
  refine ⟨hn, fun n => ?_, lastOfEach_sublist ms⟩
  clear hn
  induction ms with
  | nil => rfl
  | cons a l ih =>
    rw [List.reverse_cons, List.find?_append, ← ih]
    simp only [lastOfEach]
    split
    · rename_i h
      by_cases he : a.1 = n
      · have : first? (lastOfEach l) n ≠ none := by
          rw [Ne, first?_none, lastOfEach_names]
          simp only [List.any_eq_true, decide_eq_true_eq] at h
          obtain ⟨b, hb, hh⟩ := h
          exact fun hc => hc (he ▸ hh ▸ List.mem_map_of_mem hb)
        cases hq : first? (lastOfEach l) n
        · exact absurd hq this
        · rfl
      · simp [he]
    · rename_i h
      simp only [first?]
      by_cases he : a.1 = n
      · have : first? (lastOfEach l) n = none := by
          rw [first?_none, lastOfEach_names]
          intro hc
          obtain ⟨b, hb, hh⟩ := List.mem_map.1 hc
          exact h (List.any_eq_true.2 ⟨b, hb, by simp [he, hh]⟩)
        simp [he, this]
      · simp [he]

example : [("a", 1), ("b", 2), ("a", 3), ("c", 4)].foldl addMetadata [] = [("b", 2), ("a", 3), ("c", 4)] := by
  decide +kernel

/-! ### C23 -/

theorem intoDict_get (l : List (Named M)) (d : List (String × Named M)) (n : String) :
    dictGet (intoDict d l) n = (l.reverse.find? (fun m => m.1 = n)).or (dictGet d n) := by
  induction l generalizing d with
  | nil => simp [intoDict]
  | cons a l ih =>
    have : intoDict d (a :: l) = intoDict (dictSet d a.1 a) l := rfl
    rw [this, ih, dictGet_dictSet, List.reverse_cons, List.find?_append]
    cases l.reverse.find? (fun m => m.1 = n) with
    | some x => rfl
    | none => by_cases h : a.1 = n <;> simp [h]

theorem intoDict_nodup (l : List (Named M)) (d : List (String × Named M)) (h : (d.map (·.1)).Nodup) :
    ((intoDict d l).map (·.1)).Nodup := by
  induction l generalizing d with
  | nil => exact h
  | cons a l ih => exact ih _ (dictSet_keys_nodup _ _ _ h)

theorem update_get (e d : List (String × Named M)) (n : String) (he : (e.map (·.1)).Nodup) :
    dictGet (e.foldl (fun d p => dictSet d p.1 p.2) d) n = (dictGet e n).or (dictGet d n) := by
  induction e generalizing d with
  | nil => simp [dictGet]
  | cons p e ih =>
    simp only [List.map_cons, List.nodup_cons] at he
    rw [List.foldl_cons, ih _ he.2, dictGet_dictSet, dictGet]
    by_cases h : p.1 = n
    · have : dictGet e n = none := (dictGet_none _ _).2 (h ▸ he.1)
      simp [h, this]
    · simp [h]

theorem update_nodup (e d : List (String × Named M)) (h : (d.map (·.1)).Nodup) :
    ((e.foldl (fun d p => dictSet d p.1 p.2) d).map (·.1)).Nodup := by
  induction e generalizing d with
  | nil => exact h
  | cons a l ih => exact ih _ (dictSet_keys_nodup _ _ _ h)

/-- Every dictionary entry is stored under its own name. -/
def OwnKeys (d : List (String × Named M)) : Prop := ∀ p ∈ d, p.2.1 = p.1

theorem dictSet_mem {K V : Type} [DecidableEq K] (d : List (K × V)) (k : K) (v : V) (p : K × V)
    (h : p ∈ dictSet d k v) : p = (k, v) ∨ p ∈ d := by
  induction d with
  | nil => simpa [dictSet] using h
  | cons q d ih =>
    simp only [dictSet] at h
    split at h
    · rcases List.mem_cons.1 h with h | h
      · exact .inl h
      · exact .inr (List.mem_cons_of_mem _ h)
    · rcases List.mem_cons.1 h with h | h
      · exact .inr (h ▸ List.mem_cons_self)
      · rcases ih h with h | h
        · exact .inl h
        · exact .inr (List.mem_cons_of_mem _ h)

theorem ownKeys_set (d : List (String × Named M)) (m : Named M) (h : OwnKeys d) : OwnKeys (dictSet d m.1 m) := by
  intro p hp
  rcases dictSet_mem _ _ _ _ hp with rfl | hp
  · rfl
  · exact h p hp

theorem ownKeys_into (l : List (Named M)) (d : List (String × Named M)) (h : OwnKeys d) : OwnKeys (intoDict d l) := by
  induction l generalizing d with
  | nil => exact h
  | cons a l ih => exact ih _ (ownKeys_set _ _ h)

theorem ownKeys_update (e d : List (String × Named M)) (he : OwnKeys e) (h : OwnKeys d) :
    OwnKeys (e.foldl (fun d p => dictSet d p.1 p.2) d) := by
  induction e generalizing d with
  | nil => exact h
  | cons p e ih =>
    refine ih _ (fun q hq => he q (List.mem_cons_of_mem _ hq)) ?_
    have : p = (p.2.1, p.2) := by rw [he p List.mem_cons_self]
    rw [this]
    exact ownKeys_set _ _ h

theorem ownKeys_names (d : List (String × Named M)) (h : OwnKeys d) : (d.map (·.2)).map (·.1) = d.map (·.1) := by
  rw [List.map_map]
  exact List.map_congr_left fun p hp => h p hp

theorem ownKeys_first (d : List (String × Named M)) (h : OwnKeys d) (n : String) :
    first? (d.map (·.2)) n = dictGet d n := by
  induction d with
  | nil => rfl
  | cons p d ih =>
    simp only [List.map_cons, first?, dictGet, h p List.mem_cons_self,
      ih fun q hq => h q (List.mem_cons_of_mem _ hq)]

/-- **C23**: the collected metadata of an instance has each name once; the entry of a name is the instance's (the last
one it holds) if it has one, else the type's (the last one it holds), and there is nothing else. -/
theorem collected_metadata_of_instance (type own : List (Named M)) :
    ((collectInstance type own).map (·.1)).Nodup ∧
    (∀ n, first? (collectInstance type own) n =
      (own.reverse.find? fun m => m.1 = n).or (type.reverse.find? fun m => m.1 = n)) ∧
    (∀ m ∈ collectInstance type own, m ∈ own ∨ (m ∈ type ∧ m.1 ∉ own.map (·.1))) := by
  have o1 : OwnKeys (intoDict ([] : List (String × Named M)) own) := ownKeys_into _ _ (by simp [OwnKeys])
  have o2 : OwnKeys (intoDict ([] : List (String × Named M)) type) := ownKeys_into _ _ (by simp [OwnKeys])
  have o3 := ownKeys_update _ _ o1 o2
  have n1 := intoDict_nodup own [] (by simp)
  have n3 := update_nodup (intoDict [] own) _ (intoDict_nodup type [] (by simp))
  have hget : ∀ n, first? (collectInstance type own) n =
      (own.reverse.find? fun m => m.1 = n).or (type.reverse.find? fun m => m.1 = n) := by
    intro n
    unfold collectInstance
    rw [ownKeys_first _ o3, update_get _ _ _ n1, intoDict_get, intoDict_get]
    simp [dictGet]
  have hnd : ((collectInstance type own).map (·.1)).Nodup := by
    unfold collectInstance
    rw [ownKeys_names _ o3]
    exact n3
  refine ⟨hnd, hget, fun m hm => ?_⟩
  have := hget m.1
  rw [first?_of_mem _ _ hnd hm] at this
  cases hf : own.reverse.find? (fun x => x.1 = m.1) with
  | some x =>
    rw [hf] at this
    simp only [Option.some_or, Option.some.injEq] at this
    subst this
    exact .inl (List.mem_reverse.1 (List.mem_of_find?_eq_some hf))
  | none =>
    rw [hf, Option.none_or] at this
    refine .inr ⟨List.mem_reverse.1 (List.mem_of_find?_eq_some this.symm), fun hc => ?_⟩
    obtain ⟨b, hb, he⟩ := List.mem_map.1 hc
    rw [List.find?_eq_none] at hf
    exact hf b (List.mem_reverse.2 hb) (by simp [he])

/-- **C23**: the instrument's collection is that of its instances, in order, followed by its own. -/
theorem collected_metadata_of_instrument (a b : List (List (Named M) × List (Named M))) (x : List (Named M) × List (Named M))
    (own : List (Named M)) :
    collectInstr [] own = own ∧
    collectInstr (a ++ x :: b) own = collectInstr a [] ++ collectInstance x.1 x.2 ++ collectInstr b own := by
  constructor
  · rfl
  · simp [collectInstr]

example : collectInstance [("a", 1), ("b", 2)] [("c", 3), ("a", 4)] = [("a", 4), ("b", 2), ("c", 3)] := by
  decide +kernel

/-! ### C22 -/

theorem first?_filter_ne {α : Type} (l : List (Named α)) (n m : String) :
    first? (l.filter fun x => n != x.1) m = if n = m then none else first? l m := by
  induction l with
  | nil => simp [first?]
  | cons a l ih =>
    simp only [List.filter_cons]
    by_cases h : n = a.1
    · subst h
      simp only [bne_self_eq_false, Bool.false_eq_true, if_false, ih, first?]
      split
      · rfl
      · rfl
    · have h1 : (n != a.1) = true := by simpa using h
      simp only [h1, if_true, first?, ih]
      by_cases h2 : a.1 = m
      · have : ¬ n = m := fun hc => h (hc.trans h2.symm)
        simp [h2, this]
      · simp [h2]

theorem getParameter_name (t : CompType V W) (n : String) (p : Named W) (h : t.getParameter n = some p) : p.1 = n := by
  unfold CompType.getParameter at h
  split at h
  · exact (first?_some _ _ _ h).2
  · split at h
    · exact (first?_some _ _ _ h).2
    · cases h

/-- What `appendParameter` does. -/
theorem appendParameter_cases (t : CompType V W) (ps : List (Named W)) (n : String) (v : V) :
    (∃ e, appendParameter t ps n v = (ps, some e)) ∨
    (∃ p w, t.getParameter n = some p ∧ t.compatible p.2 v = true ∧ t.convert p.2 v = .ok w ∧
      appendParameter t ps n v = (ps ++ [(n, w)], none)) := by
  unfold appendParameter
  split
  · exact .inl ⟨_, rfl⟩
  · rename_i p hp
    split
    · exact .inl ⟨_, rfl⟩
    · split
      · exact .inl ⟨_, rfl⟩
      · rename_i hc _ w hw
        refine .inr ⟨p, w, hp, by simpa using hc, hw, ?_⟩
        rw [getParameter_name t n p hp]

/-- **C22** (partial): without `overwrite`, a call that raises leaves the parameters as they were, and a call with a
name not set before sets it. A name set before keeps its first value. Other parameters are not affected, and no name is
held twice unless a repeated setting was allowed. Missing: see the two theorems below. -/
theorem set_parameter_partial (t : CompType V W) (ps : List (Named W)) (n : String) (v : V) (allow : Bool) :
    (∀ e, (setParameter t ps n v false allow).2 = some e → (setParameter t ps n v false allow).1 = ps) ∧
    ((setParameter t ps n v false allow).2 = none →
      (∃ p w, t.getParameter n = some p ∧ t.compatible p.2 v = true ∧ t.convert p.2 v = .ok w ∧
        getInstanceParameter t (setParameter t ps n v false allow).1 n =
          some ((first? ps n).getD (n, w))) ∧
      (n ∈ ps.map (·.1) → allow = true) ∧
      (∀ m, m ≠ n → getInstanceParameter t (setParameter t ps n v false allow).1 m = getInstanceParameter t ps m) ∧
      (n ∉ ps.map (·.1) → (ps.map (·.1)).Nodup → ((setParameter t ps n v false allow).1.map (·.1)).Nodup)) := by
  have key : setParameter t ps n v false allow = appendParameter t ps n v ∨
      ∃ e, setParameter t ps n v false allow = (ps, some e) := by
    simp only [setParameter]
    split
    · exact .inr ⟨_, rfl⟩
    · split
      · split
        · simp_all
        · split
          · exact .inl rfl
          · exact .inr ⟨_, rfl⟩
      · exact .inl rfl
  have hallow : n ∈ ps.map (·.1) → (setParameter t ps n v false allow).2 = none → allow = true := by
    intro hm h
    simp only [setParameter, (present_iff _ _).2 hm, if_true] at h
    split at h
    · cases h
    · cases allow
      · simp at h
      · rfl
  rcases key with key | ⟨e, key⟩
  · rcases appendParameter_cases t ps n v with ⟨e, h⟩ | ⟨p, w, hp, hc, hw, h⟩
    · rw [key, h]
      exact ⟨fun _ _ => rfl, fun h => by simp at h⟩
    · refine ⟨fun e he => ?_, fun hnone => ⟨⟨p, w, hp, hc, hw, ?_⟩, fun hm => hallow hm hnone, ?_, ?_⟩⟩
      · rw [key, h] at he; simp at he
      · rw [key, h]
        simp only [getInstanceParameter, first?_append, first?, if_true]
        cases first? ps n <;> rfl
      · intro m hm
        rw [key, h]
        have : ¬ n = m := fun hc => hm hc.symm
        simp only [getInstanceParameter, first?_append, first?, this, if_false, Option.or_none]
      · intro hm hn
        rw [key, h]
        exact nodup_snoc ps (n, w) hn hm
  · rw [key]
    exact ⟨fun _ _ => rfl, fun h => by simp at h⟩

/-- **C22** (partial): with `overwrite`, a call that returns makes the new value the only one of its name and does not
affect the others. -/
theorem overwrite_parameter_partial (t : CompType V W) (ps : List (Named W)) (n : String) (v : V) (allow : Bool)
    (h : (setParameter t ps n v true allow).2 = none) :
    (∃ p w, t.getParameter n = some p ∧ t.compatible p.2 v = true ∧ t.convert p.2 v = .ok w ∧
      getInstanceParameter t (setParameter t ps n v true allow).1 n = some (n, w)) ∧
    (∀ m, m ≠ n → getInstanceParameter t (setParameter t ps n v true allow).1 m = getInstanceParameter t ps m) ∧
    ((ps.map (·.1)).Nodup → ((setParameter t ps n v true allow).1.map (·.1)).Nodup) := by
  have key : setParameter t ps n v true allow = appendParameter t (ps.filter fun x => n != x.1) n v := by
    simp only [setParameter] at h ⊢
    split at h
    · simp at h
    · rename_i h0
      simp only [h0, Bool.false_eq_true, if_false]
      split
      · rfl
      · rename_i hp
        congr 1
        rw [eq_comm, List.filter_eq_self]
        intro x hx
        simp only [bne_iff_ne, ne_eq]
        rintro rfl
        exact hp ((present_iff _ _).2 (List.mem_map_of_mem hx))
  rw [key] at h ⊢
  rcases appendParameter_cases t (ps.filter fun x => n != x.1) n v with ⟨e, he⟩ | ⟨p, w, hp, hc, hw, he⟩
  · rw [he] at h; cases h
  · rw [he]
    refine ⟨⟨p, w, hp, hc, hw, ?_⟩, fun m hm => ?_, fun hn => ?_⟩
    · simp [getInstanceParameter, first?_append, first?_filter_ne, first?]
    · have : ¬ n = m := fun hc => hm hc.symm
      simp only [getInstanceParameter, first?_append, first?_filter_ne, first?, this, if_false, Option.or_none]
    · apply nodup_snoc
      · exact (List.filter_sublist.map _).nodup hn
      · simp

/-- A component type with two parameters, `a` and `b`, whose values must be even. -/
def evens : CompType Nat Nat := ⟨[], [("a", 0), ("b", 0)], fun _ v => v % 2 == 0, fun _ v => .ok v⟩

/-- The negation of the full claim C22: overwriting with an incompatible value raises, but the old value is gone. -/
theorem overwrite_not_atomic :
    setParameter evens [("a", 2)] "a" 3 true = ([], some .runtimeError) ∧
    getInstanceParameter evens [("a", 2)] "a" = some ("a", 2) ∧
    getInstanceParameter evens [] "a" = some ("a", 0) := by decide +kernel

/-- The negation of the full claim C22: setting a parameter again, with the default arguments, holds it twice. -/
theorem repeated_setting_held_twice :
    setParameter evens [("a", 2)] "a" 4 = ([("a", 2), ("a", 4)], none) := by decide +kernel

example : (setParameter evens [("a", 2)] "b" 4 true).2 = none ∧
    (setParameter evens [("a", 2)] "b" 4 false).2 = none ∧
    (setParameter evens [("a", 2)] "b" 4 false).1 = [("a", 2), ("b", 4)] := by decide +kernel

end Verif.Instr
