import Verif.Instr.Model
import Mathlib.Data.List.Infix
import Mathlib.Tactic.Linarith

/-! Property C25: removing unused instrument parameters. -/

namespace Verif.Instr
variable {P : Type}

theorem isSubstring_iff (a b : List Char) : isSubstring a b = true ↔ a <:+: b := by
  induction b with
  | nil => simp [isSubstring, List.isEmpty_iff]
  | cons c b ih =>
    rw [isSubstring, Bool.or_eq_true, ih, List.isPrefixOf_iff_prefix, List.infix_cons_iff]

/-- A name occurs in an instance: in a parameter value, the position, the angles, the orientation, the SPLIT count, the
WHEN or a JUMP condition, or in the text of an EXTEND block. -/
inductive OccursIn (x : Places) (name : String) : Prop
  | parameter (v : String → Bool) : v ∈ x.parameters → v name = true → OccursIn x name
  | atVector : x.atVector name = true → OccursIn x name
  | rotateAngles : x.rotateAngles name = true → OccursIn x name
  | orientation : x.orientation name = true → OccursIn x name
  | split (v : String → Bool) : x.split = some v → v name = true → OccursIn x name
  | when (v : String → Bool) : x.when = some v → v name = true → OccursIn x name
  | extend (b : List Char) : b ∈ x.extend → name.toList <:+: b → OccursIn x name
  | jump (v : String → Bool) : v ∈ x.jumps → v name = true → OccursIn x name

/-- A name occurs in an instrument outside the USERVARS section. -/
def OccursOutsideUser (instances : List Places) (s : Sections) (name : String) : Prop :=
  (∃ x ∈ instances, OccursIn x name) ∨
  (∃ b, (b ∈ s.declare ∨ b ∈ s.init ∨ b ∈ s.save ∨ b ∈ s.final) ∧ name.toList <:+: b)

/-- A name occurs in an instrument: in an instance or in a code section. -/
def Occurs (instances : List Places) (s : Sections) (name : String) : Prop :=
  OccursOutsideUser instances s name ∨ ∃ b ∈ s.user, name.toList <:+: b

theorem places_used_iff (x : Places) (name : String) : x.used name = true ↔ OccursIn x name := by
  unfold Places.used
  constructor
  · intro h
    split at h
    · rename_i h1
      obtain ⟨v, hv, h1⟩ := List.any_eq_true.1 h1
      exact .parameter v hv h1
    split at h
    · rename_i h2
      simp only [Bool.or_eq_true] at h2
      rcases h2 with (h2 | h2) | h2
      · exact .atVector h2
      · exact .rotateAngles h2
      · exact .orientation h2
    split at h
    · rename_i h3
      simp only [Bool.or_eq_true] at h3
      rcases h3 with h3 | h3
      · cases hs : x.split with
        | none => rw [hs] at h3; simp at h3
        | some v => rw [hs] at h3; exact .split v hs h3
      · cases hs : x.when with
        | none => rw [hs] at h3; simp at h3
        | some v => rw [hs] at h3; exact .when v hs h3
    split at h
    · rename_i h4
      obtain ⟨b, hb, h4⟩ := List.any_eq_true.1 h4
      exact .extend b hb ((isSubstring_iff _ _).1 h4)
    · obtain ⟨v, hv, h⟩ := List.any_eq_true.1 h
      exact .jump v hv h
  · intro h
    split
    · rfl
    rename_i h1
    split
    · rfl
    rename_i h2
    split
    · rfl
    rename_i h3
    split
    · rfl
    rename_i h4
    simp only [Bool.or_eq_true, not_or] at h2 h3
    cases h with
    | parameter v hv h => exact absurd (List.any_eq_true.2 ⟨v, hv, h⟩) h1
    | atVector h => exact absurd h h2.1.1
    | rotateAngles h => exact absurd h h2.1.2
    | orientation h => exact absurd h h2.2
    | split v hv h => rw [hv] at h3; exact absurd h h3.1
    | when v hv h => rw [hv] at h3; exact absurd h h3.2
    | extend b hb h => exact absurd (List.any_eq_true.2 ⟨b, hb, (isSubstring_iff _ _).2 h⟩) h4
    | jump v hv h => exact List.any_eq_true.2 ⟨v, hv, h⟩

theorem parameterUsed_iff (instances : List Places) (s : Sections) (name : String) :
    parameterUsed instances s name = true ↔ OccursOutsideUser instances s name := by
  unfold parameterUsed OccursOutsideUser
  have hite : ∀ a b : Bool, ((if a = true then true else b) = true) ↔ (a = true ∨ b = true) := by decide
  rw [hite]
  apply or_congr
  · simp only [List.any_eq_true, places_used_iff]
  · simp only [List.any_cons, List.any_nil, Bool.or_false, Bool.or_eq_true, List.any_eq_true, isSubstring_iff]
    constructor
    · rintro (⟨b, hb, h⟩ | ⟨b, hb, h⟩ | ⟨b, hb, h⟩ | ⟨b, hb, h⟩)
      · exact ⟨b, .inl hb, h⟩
      · exact ⟨b, .inr (.inl hb), h⟩
      · exact ⟨b, .inr (.inr (.inl hb)), h⟩
      · exact ⟨b, .inr (.inr (.inr hb)), h⟩
    · rintro ⟨b, hb | hb | hb | hb, h⟩
      · exact .inl ⟨b, hb, h⟩
      · exact .inr (.inl ⟨b, hb, h⟩)
      · exact .inr (.inr (.inl ⟨b, hb, h⟩))
      · exact .inr (.inr (.inr ⟨b, hb, h⟩))

theorem zip_filter_map {α : Type} (l : List α) (f : α → Bool) :
    ((l.zip (l.map f)).filter (·.2)).map (·.1) = l.filter f := by
  induction l with
  | nil => rfl
  | cons a l ih =>
    simp only [List.map_cons, List.zip_cons_cons, List.filter_cons]
    cases f a <;> simp [ih]

theorem count_map_true {α : Type} (l : List α) (f : α → Bool) : (l.map f).count true = (l.filter f).length := by
  induction l with
  | nil => rfl
  | cons a l ih =>
    simp only [List.map_cons, List.count_cons, List.filter_cons, ih]
    cases f a <;> simp

theorem filter_not_length {α : Type} (l : List α) (f : α → Bool) :
    ((l.filter fun a => !f a).length : Int) = l.length - (l.filter f).length := by
  induction l with
  | nil => rfl
  | cons a l ih =>
    simp only [List.filter_cons, List.length_cons]
    cases f a <;> simp [ih] <;> omega

open Classical in
/-- **C25** (partial): the parameters which occur in the instrument are kept, in order, exactly; the number returned is
that of the others; without `remove` all are kept. Missing: parameters which occur in the USERVARS section only, see
`user_section_ignored`. -/
theorem unused_parameters_removed_partial (instances : List Places) (s : Sections) (ps : List (Named P))
    (hu : ∀ p ∈ ps, (∃ b ∈ s.user, p.1.toList <:+: b) → OccursOutsideUser instances s p.1) :
    checkParameters instances s ps true =
      (ps.filter fun p => decide (Occurs instances s p.1),
        ((ps.filter fun p => !decide (Occurs instances s p.1)).length : Int)) ∧
    checkParameters instances s ps false =
      (ps, ((ps.filter fun p => !decide (Occurs instances s p.1)).length : Int)) := by
  have h0 : ∀ p ∈ ps, parameterUsed instances s p.1 = decide (Occurs instances s p.1) := by
    intro p hp
    rw [Bool.eq_iff_iff, parameterUsed_iff, decide_eq_true_iff, Occurs]
    exact ⟨.inl, fun h => h.elim id (hu p hp)⟩
  have h1 : ps.filter (fun p => parameterUsed instances s p.1) = ps.filter fun p => decide (Occurs instances s p.1) :=
    List.filter_congr h0
  have h2 : ((ps.map fun p => parameterUsed instances s p.1).length : Int) -
      (ps.map fun p => parameterUsed instances s p.1).count true =
      ((ps.filter fun p => !decide (Occurs instances s p.1)).length : Int) := by
    rw [filter_not_length, ← h1, count_map_true, List.length_map]
  unfold checkParameters
  simp only
  rw [h2, zip_filter_map, h1]
  refine ⟨?_, by split <;> rfl⟩
  split
  · rfl
  · rename_i h
    have : ps.filter (fun p => decide (Occurs instances s p.1)) = ps := by
      rw [List.filter_eq_self]
      intro p hp
      rw [← h0 p hp]
      simp only [Bool.not_eq_true', Bool.not_eq_false, List.all_eq_true, List.mem_map, id] at h
      exact h _ ⟨p, hp, rfl⟩
    rw [this]

/-- The safe half of C25 needs no condition on the parameters: one that occurs in an instance or in a section other
than USERVARS is never removed. -/
theorem used_parameters_kept (instances : List Places) (s : Sections) (ps : List (Named P)) (remove : Bool)
    (p : Named P) (hp : p ∈ ps) (h : OccursOutsideUser instances s p.1) :
    p ∈ (checkParameters instances s ps remove).1 := by
  have hused := (parameterUsed_iff instances s p.1).2 h
  unfold checkParameters
  simp only [zip_filter_map]
  split
  · split
    · exact List.mem_filter.2 ⟨hp, hused⟩
    · exact hp
  · exact hp

example : ∃ (instances : List Places) (s : Sections) (ps : List (Named Nat)),
    (∀ p ∈ ps, (∃ b ∈ s.user, p.1.toList <:+: b) → OccursOutsideUser instances s p.1) ∧
    checkParameters instances s ps true = ([("a", 1), ("c", 3)], 2) ∧ ps.length = 4 :=
  ⟨[{ parameters := [fun n => n == "a"] }], { declare := ["int c;".toList] },
    [("a", 1), ("b", 2), ("c", 3), ("x", 4)], by simp, by decide +kernel, rfl⟩

/-- The negation of the full claim C25: a parameter that occurs in the USERVARS section is removed. -/
theorem user_section_ignored : ∃ s : Sections, Occurs [] s "flag" ∧
    checkParameters [] s [("flag", 0)] true = ([], 1) := by
  refine ⟨{ user := ["int flag;".toList] }, .inr ⟨_, List.mem_singleton.2 rfl, ?_⟩, by decide +kernel⟩
  exact ⟨"int ".toList, ";".toList, rfl⟩

/-- An occurrence is textual: the parameter `L` is kept because of the word `Length` in a code section. -/
theorem part_of_a_word_counts : checkParameters [] { declare := ["double Length;".toList] } [("L", 0)] true =
    ([("L", 0)], 0) := by decide +kernel

end Verif.Instr
