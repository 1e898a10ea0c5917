import Verif.InstrText.Refs

/-! C51: printed placements are read as the same placement. -/

namespace Verif.InstrText

open Verif.Loader (Text t)

/-- A name that is not a keyword. -/
def Plain (n : Text) : Prop := ∀ p ∈ keywords, p.1 ≠ n

theorem lookup_none_of {n : Text} (l : List (Text × Kw)) (h : ∀ p ∈ l, p.1 ≠ n) : l.lookup n = none := by
  rw [List.lookup_eq_none_iff]
  intro p hp
  rw [bne_iff_ne]
  exact (h p hp).symm

theorem lookup_none {n : Text} (h : Plain n) : keywords.lookup n = none := lookup_none_of keywords h

theorem lexWord_plain {E V P : Type} {n : Text} (h : Plain n) : (lexWord n : Tok E V P) = .word n := by
  rw [lexWord, lookup_none h]

theorem Plain.ne_previous {n : Text} (h : Plain n) : n ≠ t "PREVIOUS" := by
  rintro rfl
  exact h (t "PREVIOUS", .previous) (by decide +kernel) rfl

theorem lexWord_spec {E V P : Type} (n : Text) :
    (Plain n ∧ (lexWord n : Tok E V P) = .word n) ∨ ∃ k, (n, k) ∈ keywords ∧ (lexWord n : Tok E V P) = .kw k := by
  rw [lexWord]
  cases h : keywords.lookup n with
  | none =>
    left
    refine ⟨?_, rfl⟩
    rw [List.lookup_eq_none_iff] at h
    intro p hp he
    have := h p hp
    simp [he] at this
  | some k =>
    right
    refine ⟨k, ?_, rfl⟩
    rw [List.lookup_eq_some_iff] at h
    obtain ⟨a, b, h, -⟩ := h
    rw [h]
    simp

theorem reference_again {E V P : Type} {names : List Text} (hn : names.Nodup) (hp : ∀ n ∈ names, Plain n) (r : Option Nat)
    (hr : ∀ i, r = some i → i < names.length) (l : List (Tok E V P)) :
    readReference ⟨names, none⟩ (printRef names r ++ l) = .ok (r.map .own, l) := by
  cases r with
  | none => rfl
  | some i =>
    have hi := hr i rfl
    have hg : names.getD i [] = names[i] := by rw [List.getD_eq_getElem?_getD, List.getElem?_eq_getElem hi]; rfl
    have hpl := hp names[i] (List.getElem_mem hi)
    have hs : names = names.take i ++ names[i] :: names.drop (i + 1) := by
      rw [← List.drop_eq_getElem_cons hi, List.take_append_drop]
    have hni : names[i] ∉ names.take i := by
      intro hm
      rw [hs, List.nodup_append] at hn
      exact hn.2.2 _ hm _ List.mem_cons_self rfl
    have h1 := (named_refers ⟨names, none⟩ names[i] hpl.ne_previous).1 _ _ hs hni
    rw [printRef, hg, lexWord_plain hpl]
    simp only [List.cons_append, List.nil_append, readReference, parseComponentRef, h1]
    simp [List.length_take, Nat.min_eq_left (Nat.le_of_lt hi)]

/-- C51: a placement is read as it was printed, its references as the same components, unless a rotation by nothing is
ABSOLUTE: that is not printed. -/
theorem placement_again_partial {E V P : Type} [Triple V] (names : List Text) (hn : names.Nodup)
    (hp : ∀ n ∈ names, ∀ k ∈ keywords, k.1 ≠ n) (p : Placement V) (ha : ∀ i, p.atRef = some i → i < names.length)
    (hr : ∀ i, p.rotRef = some i → i < names.length) (hrot : Triple.null p.rot = false ∨ p.rotRef ≠ none)
    (l : List (Tok E V P)) :
    readPlacement ⟨names, none⟩ (printPlacement names p ++ l) =
      .ok (⟨p.at_, p.atRef.map .own, p.rot, p.rotRef.map .own⟩, l) := by
  have hc : (Triple.null p.rot && p.rotRef.isNone) = false := by
    rcases hrot with h | h
    · simp [h]
    · cases hq : p.rotRef
      · exact absurd hq h
      · simp
  rw [printPlacement, hc]
  simp only [Bool.false_eq_true, if_false, List.append_assoc, List.cons_append, List.nil_append, readPlacement]
  rw [reference_again hn hp _ ha]
  simp only
  rw [reference_again hn hp _ hr]

/-- C51: a rotation by nothing that is ABSOLUTE is read as a rotation by nothing with the reference of the position. -/
theorem omitted_rotation {E V P : Type} [Triple V] (names : List Text) (hn : names.Nodup)
    (hp : ∀ n ∈ names, ∀ k ∈ keywords, k.1 ≠ n) (p : Placement V) (ha : ∀ i, p.atRef = some i → i < names.length)
    (h0 : Triple.null p.rot = true) (hrot : p.rotRef = none) (l : List (Tok E V P)) (hl : l.head? ≠ some (.kw .rotated)) :
    readPlacement ⟨names, none⟩ (printPlacement names p ++ l) =
      .ok (⟨p.at_, p.atRef.map .own, Triple.zero, p.atRef.map .own⟩, l) := by
  rw [printPlacement, h0, hrot]
  simp only [Option.isNone_none, Bool.and_self, if_true, List.append_nil, List.cons_append, List.nil_append,
    readPlacement]
  rw [reference_again hn hp _ ha]
  simp only
  split
  · rename_i h
    exact absurd rfl hl
  · rfl

/-- C51, exactly: the references are read as they were printed if and only if there is a rotation, or it has a reference, or
the position has none. -/
theorem references_again_iff {E V P : Type} [Triple V] (names : List Text) (hn : names.Nodup)
    (hp : ∀ n ∈ names, ∀ k ∈ keywords, k.1 ≠ n) (p : Placement V) (ha : ∀ i, p.atRef = some i → i < names.length)
    (hr : ∀ i, p.rotRef = some i → i < names.length) (l : List (Tok E V P)) (hl : l.head? ≠ some (.kw .rotated)) :
    (∃ q : Placed V, readPlacement ⟨names, none⟩ (printPlacement names p ++ l) = .ok (q, l) ∧ q.at_ = p.at_ ∧
      q.atRef = p.atRef.map .own ∧ q.rotRef = p.rotRef.map .own) ↔
    (Triple.null p.rot = false ∨ p.rotRef ≠ none ∨ p.atRef = none) := by
  by_cases hrot : Triple.null p.rot = false ∨ p.rotRef ≠ none
  · rw [placement_again_partial names hn hp p ha hr hrot l]
    refine iff_of_true ⟨_, rfl, rfl, rfl, rfl⟩ ?_
    rcases hrot with h | h
    · exact .inl h
    · exact .inr (.inl h)
  · push Not at hrot
    obtain ⟨h1, h2⟩ := hrot
    have h0 : Triple.null p.rot = true := by simpa using h1
    rw [omitted_rotation names hn hp p ha h0 h2 l hl]
    rw [h2]
    constructor
    · rintro ⟨q, h, -, h4, h5⟩
      simp only [Except.ok.injEq, Prod.mk.injEq, and_true] at h
      subst h
      right
      right
      cases hq : p.atRef
      · rfl
      · rw [hq] at h5
        cases h5
    · rintro (h | h | h)
      · rw [h0] at h
        cases h
      · exact absurd rfl h
      · exact ⟨_, rfl, rfl, rfl, by rw [h]⟩

instance : Triple Nat := ⟨fun n => n == 0, 0⟩

example : readPlacement (E := Nat) (P := Nat) ⟨[t "a", t "b"], none⟩
    (printPlacement [t "a", t "b"] ⟨5, some 1, 0, some 0⟩) = .ok (⟨5, some (.own 1), 0, some (.own 0)⟩, []) := by
  have := placement_again_partial (E := Nat) (P := Nat) [t "a", t "b"] (by decide) (by decide +kernel) ⟨5, some 1, 0, some 0⟩
    (by simp) (by simp) (.inr (by simp)) []
  simpa using this

/-- C51, negation: the reference of a rotation is lost. -/
theorem rotation_reference_lost : readPlacement (E := Nat) (P := Nat) ⟨[t "a"], none⟩
    (printPlacement [t "a"] ⟨5, some 0, 0, none⟩) = .ok (⟨5, some (.own 0), 0, some (.own 0)⟩, []) := by
  decide +kernel

/-- C51, negation: a reference to a component whose name is a keyword is read as the keyword: here the third component is
placed relative to the second instead of the first, and the second in the other example is not relative to anything. -/
theorem keyword_names_confused :
    readPlacement (E := Nat) (P := Nat) ⟨[t "Previous", t "b"], none⟩ (printPlacement [t "Previous", t "b"] ⟨5, some 0, 7, some 0⟩)
      = .ok (⟨5, some (.own 1), 7, some (.own 1)⟩, []) ∧
    readPlacement (E := Nat) (P := Nat) ⟨[t "absolute"], none⟩ (printPlacement [t "absolute"] ⟨5, some 0, 7, some 0⟩)
      = .ok (⟨5, none, 7, none⟩, []) := by
  decide +kernel

end Verif.InstrText
