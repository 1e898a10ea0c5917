import Mathlib.Data.Prod.Lex
import Mathlib.Data.List.Lex
import Mathlib.Data.List.Induction
import Mathlib.Data.List.GetD
import Mathlib.Order.Lattice
import Mathlib.Tactic.NormNum
import Mathlib.Tactic.Linarith

/-!
C50: model of the number written for the version, src/mccode_antlr/config/__init__.py 53-59. Versions are those of the package
`packaging` (PEP 440) without their text: an epoch, the numbers of the release, and the rest (pre, post, development and local
parts), of which only the order matters. `none` stands for a text that is no version.
-/

namespace Verif.Compile

/-- `packaging.version.Version`. -/
structure Version (ρ : Type) where
  epoch : Nat
  release : List Nat
  rest : ρ

/-- `v.major`, `v.minor`, `v.micro`: absent numbers are zero. -/
def Version.part {ρ : Type} (v : Version ρ) (i : Nat) : Nat := v.release.getD i 0

/-- `version_macro` (53-59). -/
def versionMacro {ρ : Type} : Option (Version ρ) → Nat
  | some v => (v.part 0 * 100 + v.part 1) * 1000 + v.part 2
  | none => 399999

/-- The numbers of a release without the zeros at its end, as they are compared. -/
def trimmed (l : List Nat) : List Nat := (l.reverse.dropWhile (· == 0)).reverse

/-- The order of versions (PEP 440): epoch, then release, then the rest. -/
def Version.lt {ρ : Type} [LT ρ] (v w : Version ρ) : Prop :=
  v.epoch < w.epoch ∨ (v.epoch = w.epoch ∧ (trimmed v.release < trimmed w.release ∨
    (trimmed v.release = trimmed w.release ∧ v.rest < w.rest)))

/-- The documented ranges: at most 99 minor and 999 micro versions. -/
def Version.InRange {ρ : Type} (v : Version ρ) : Prop := v.part 1 < 100 ∧ v.part 2 < 1000

theorem trimmed_append_zero (l : List Nat) : trimmed (l ++ [0]) = trimmed l := by simp [trimmed]

theorem trimmed_append_ne (l : List Nat) {n : Nat} (h : n ≠ 0) : trimmed (l ++ [n]) = l ++ [n] := by simp [trimmed, h]

theorem trimmed_getD (l : List Nat) (i : Nat) : (trimmed l).getD i 0 = l.getD i 0 := by
  induction l using List.reverseRecOn with
  | nil => rfl
  | append_singleton l n ih =>
    by_cases h : n = 0
    · rw [h, trimmed_append_zero, ih]
      simp only [List.getD_eq_getElem?_getD]
      rcases lt_trichotomy i l.length with hi | hi | hi
      · rw [List.getElem?_append_left hi]
      · subst hi
        simp
      · rw [List.getElem?_eq_none (by omega), List.getElem?_eq_none (by simp; omega)]
    · rw [trimmed_append_ne l h]

/-- Lists of numbers are ordered as the first place where they differ, absent numbers being zero. -/
theorem lt_getD {a b : List Nat} (h : a < b) : (∃ i, a.getD i 0 < b.getD i 0 ∧ ∀ j < i, a.getD j 0 = b.getD j 0) ∨
    ∀ j, a.getD j 0 = b.getD j 0 := by
  induction a generalizing b with
  | nil =>
    by_cases hz : ∀ j, b.getD j 0 = 0
    · right
      intro j
      rw [hz j]
      simp
    · left
      push Not at hz
      have hx : ∃ j, b.getD j 0 ≠ 0 := hz
      refine ⟨Nat.find hx, ?_, fun j hj => ?_⟩
      · have := Nat.find_spec hx
        simp only [List.getD_nil]
        omega
      · have := Nat.find_min hx hj
        rw [not_not] at this
        rw [this]
        simp
  | cons x a ih =>
    cases b with
    | nil => exact absurd h (List.not_lt_nil _)
    | cons y b =>
      rcases List.cons_lt_cons_iff.mp h with hxy | ⟨rfl, hab⟩
      · exact Or.inl ⟨0, by simpa using hxy, fun j hj => absurd hj (Nat.not_lt_zero j)⟩
      · rcases ih hab with ⟨i, hi, hj⟩ | hj
        · refine Or.inl ⟨i + 1, by simpa using hi, fun j hlt => ?_⟩
          cases j with
          | zero => rfl
          | succ j => simpa using hj j (by omega)
        · right
          intro j
          cases j with
          | zero => rfl
          | succ j => simpa using hj j

theorem macro_lt {a b c a' b' c' : Nat} (h1 : b < 100) (h2 : c < 1000) (h1' : b' < 100) (h2' : c' < 1000) :
    (a * 100 + b) * 1000 + c < (a' * 100 + b') * 1000 + c' ↔
      a < a' ∨ (a = a' ∧ (b < b' ∨ (b = b' ∧ c < c'))) := by omega

/-- C50: of versions within the ranges and of one epoch, the later has the number that is at least as large. -/
theorem macro_monotone {ρ : Type} [LT ρ] (v w : Version ρ) (h : v.lt w) (he : v.epoch = w.epoch) (hv : v.InRange)
    (hw : w.InRange) : versionMacro (some v) ≤ versionMacro (some w) := by
  have hcmp : (∃ i, v.part i < w.part i ∧ ∀ j < i, v.part j = w.part j) ∨ ∀ j, v.part j = w.part j := by
    rcases h with h | ⟨_, h | h⟩
    · omega
    · have := lt_getD h
      simp only [trimmed_getD] at this
      exact this
    · right
      intro j
      rw [Version.part, Version.part, ← trimmed_getD, h.1, trimmed_getD]
  obtain ⟨h1, h2⟩ := hv
  obtain ⟨h3, h4⟩ := hw
  rw [versionMacro, versionMacro]
  rcases hcmp with ⟨i, hi, hj⟩ | hj
  · rcases i with _ | _ | _ | i
    · omega
    · have := hj 0 (by omega)
      simp only [Nat.zero_add] at hi
      omega
    · have := hj 0 (by omega)
      have := hj 1 (by omega)
      simp only [Nat.zero_add, Nat.reduceAdd] at hi
      omega
    · have := hj 0 (by omega)
      have := hj 1 (by omega)
      have := hj 2 (by omega)
      omega
  · rw [hj 0, hj 1, hj 2]

theorem trimmed_last (l : List Nat) : ∀ x, (trimmed l).getLast? = some x → x ≠ 0 := by
  induction l using List.reverseRecOn with
  | nil => intro x h; cases h
  | append_singleton l n ih =>
    by_cases h : n = 0
    · rw [h, trimmed_append_zero]
      exact ih
    · rw [trimmed_append_ne l h]
      intro x hx
      simp only [List.getLast?_append, List.getLast?_singleton, Option.some_or, Option.some.injEq] at hx
      omega

theorem eq_of_getD {a b : List Nat} (ha : ∀ x, a.getLast? = some x → x ≠ 0) (hb : ∀ x, b.getLast? = some x → x ≠ 0)
    (h : ∀ j, a.getD j 0 = b.getD j 0) : a = b := by
  have hlen : ∀ {a b : List Nat}, (∀ x, b.getLast? = some x → x ≠ 0) → (∀ j, a.getD j 0 = b.getD j 0) → b.length ≤ a.length := by
    intro a b hb h
    by_contra hlt
    push Not at hlt
    have h1 : b.getLast? = some (b[b.length - 1]'(by omega)) := by
      rw [List.getLast?_eq_getElem?, List.getElem?_eq_getElem (by omega)]
    have h2 := h (b.length - 1)
    rw [List.getD_eq_default _ _ (by omega), List.getD_eq_getElem _ _ (by omega)] at h2
    exact hb _ h1 h2.symm
  have h1 := hlen hb h
  have h2 := hlen ha fun j => (h j).symm
  refine List.ext_getElem (by omega) fun i hi hi' => ?_
  have := h i
  rwa [List.getD_eq_getElem _ _ hi, List.getD_eq_getElem _ _ hi'] at this

/-- C50: releases of at most three numbers within the ranges are ordered exactly as their numbers. -/
theorem macro_order {ρ : Type} [LinearOrder ρ] (v w : Version ρ) (he : v.epoch = w.epoch) (hr : v.rest = w.rest)
    (hv : v.InRange) (hw : w.InRange) (lv : v.release.length ≤ 3) (lw : w.release.length ≤ 3) :
    v.lt w ↔ versionMacro (some v) < versionMacro (some w) := by
  have hle : ∀ {v w : Version ρ}, v.epoch = w.epoch → v.InRange → w.InRange → v.lt w →
      versionMacro (some v) ≤ versionMacro (some w) := fun he hv hw h => macro_monotone _ _ h he hv hw
  have heq : ∀ {v w : Version ρ}, v.InRange → w.InRange → v.release.length ≤ 3 → w.release.length ≤ 3 →
      versionMacro (some v) = versionMacro (some w) → trimmed v.release = trimmed w.release := by
    intro v w hv hw lv lw h
    obtain ⟨h1, h2⟩ := hv
    obtain ⟨h3, h4⟩ := hw
    rw [versionMacro, versionMacro] at h
    have e0 : v.part 0 = w.part 0 := by omega
    have e1 : v.part 1 = w.part 1 := by omega
    have e2 : v.part 2 = w.part 2 := by omega
    have hall : ∀ j, (trimmed v.release).getD j 0 = (trimmed w.release).getD j 0 := by
      intro j
      rw [trimmed_getD, trimmed_getD]
      rcases j with _ | _ | _ | j
      · exact e0
      · exact e1
      · exact e2
      · rw [List.getD_eq_default _ _ (by omega), List.getD_eq_default _ _ (by omega)]
    exact eq_of_getD (trimmed_last _) (trimmed_last _) hall
  constructor
  · intro h
    refine lt_of_le_of_ne (hle he hv hw h) fun hm => ?_
    have ht := heq hv hw lv lw hm
    rcases h with h | ⟨_, h | h⟩
    · omega
    · rw [ht] at h
      exact lt_irrefl _ h
    · rw [hr] at h
      exact lt_irrefl _ h.2
  · intro h
    by_contra hn
    rcases lt_trichotomy (trimmed v.release) (trimmed w.release) with h1 | h1 | h1
    · exact hn (Or.inr ⟨he, Or.inl h1⟩)
    · have hall : ∀ j, v.part j = w.part j := by
        intro j
        rw [Version.part, Version.part, ← trimmed_getD, h1, trimmed_getD]
      rw [versionMacro, versionMacro, hall 0, hall 1, hall 2] at h
      exact lt_irrefl _ h
    · have := hle he.symm hw hv (Or.inr ⟨he.symm, Or.inl h1⟩)
      omega

/-- Later minor versions than 99 are numbered above later major versions. -/
theorem minor_out_of_range : ∃ v w : Version Nat, v.release = [3, 101, 0] ∧ w.release = [4, 0, 0] ∧ v.lt w ∧
    versionMacro (some w) < versionMacro (some v) :=
  ⟨⟨0, [3, 101, 0], 0⟩, ⟨0, [4, 0, 0], 0⟩, rfl, rfl, Or.inr ⟨rfl, Or.inl (by decide)⟩, by decide⟩

/-- A release candidate has the number of its release, whatever the order of the rest; so has a fourth number. -/
theorem rest_ignored {ρ : Type} (e : Nat) (r extra : List Nat) (a b : ρ) (hr : r.length = 3) :
    versionMacro (some ⟨e, r, a⟩) = versionMacro (some (⟨e, r ++ extra, b⟩ : Version ρ)) := by
  have h : ∀ i < 3, (r ++ extra).getD i 0 = r.getD i 0 := by
    intro i hi
    rw [List.getD_append _ _ _ _ (by omega)]
  rw [versionMacro, versionMacro]
  simp only [Version.part, h 0 (by omega), h 1 (by omega), h 2 (by omega)]

/-- The epoch is ignored, although it comes first in the order. -/
theorem epoch_ignored : ∃ v w : Version Nat, v.lt w ∧ v.InRange ∧ w.InRange ∧ versionMacro (some w) < versionMacro (some v) :=
  ⟨⟨0, [3, 5, 0], 0⟩, ⟨1, [1, 0, 0], 0⟩, Or.inl (by decide), ⟨by decide, by decide⟩, ⟨by decide, by decide⟩, by decide⟩

/-- What is no version is numbered as 3.99.999: at least as any version in range below 4, and below all from 4 on. -/
theorem no_version {ρ : Type} (v : Version ρ) (hv : v.InRange) :
    (v.part 0 < 4 ↔ versionMacro (some v) ≤ versionMacro (none : Option (Version ρ))) := by
  obtain ⟨h1, h2⟩ := hv
  rw [versionMacro, versionMacro]
  omega

example : ∃ v w : Version Nat, v.InRange ∧ w.InRange ∧ v.lt w ∧ v.release = [3, 5] ∧ w.release = [3, 5, 1] ∧
    versionMacro (some v) = 305000 ∧ versionMacro (some w) = 305001 :=
  ⟨⟨0, [3, 5], 0⟩, ⟨0, [3, 5, 1], 0⟩, ⟨by decide, by decide⟩, ⟨by decide, by decide⟩, Or.inr ⟨rfl, Or.inl (by decide)⟩, rfl, rfl,
    by decide, by decide⟩

end Verif.Compile
