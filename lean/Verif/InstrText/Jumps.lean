import Verif.InstrText.Place
import Mathlib.Data.List.TakeWhile

/-! C52: printed jumps are read as the same jump. -/

namespace Verif.InstrText

open Verif.Loader (Text t)

theorem jumpName_eq_iff (target : Text) : jumpName target = target ↔
    ¬ ('_' ∈ target ∧ (t "PREVIOUS" <+: target ∨ t "NEXT" <+: target)) := by
  rw [jumpName]
  simp only [List.isPrefixOf_iff_prefix]
  split_ifs with h
  · refine iff_of_false (fun he => ?_) (not_not.mpr h)
    have : '_' ∈ target.takeWhile (· ≠ '_') := by rw [he]; exact h.1
    have := List.mem_takeWhile_imp this
    simp at this
  · exact iff_of_true rfl h

theorem readJump_word {E V P : Type} (n : Text) (l : List (Tok E V P)) (j : Jump E) (r : List (Tok E V P)) (k : Kw) (e : E)
    (hk : k = .when ∨ k = .iterate) :
    readJump (.kw .jump :: .word n :: .kw k :: .expr e :: l) = .ok (j, r) ↔
      j = ⟨n, 0, k = .iterate, e, -1⟩ ∧ r = l := by
  rcases hk with rfl | rfl <;> simp [readJump, readJumpName, eq_comm]

/-- C52, exactly: a jump is read as it was printed if and only if it is to the component before, after or itself, or to a
component by a name that is no keyword and does not begin like one followed somewhere by an underscore, and it has not been
translated. -/
theorem jump_again_iff {E V P : Type} (j : Jump E) (l : List (Tok E V P)) :
    readJump (printJump j ++ l) = .ok (j, l) ↔ j.absolute = -1 ∧
      ((j.target = t "PREVIOUS" ∧ j.relative = -1) ∨ (j.target = t "MYSELF" ∧ j.relative = 0) ∨
       (j.target = t "NEXT" ∧ j.relative = 1) ∨
       ((∀ k ∈ keywords, k.1 ≠ j.target) ∧ j.relative = 0 ∧
         ¬ ('_' ∈ j.target ∧ (t "PREVIOUS" <+: j.target ∨ t "NEXT" <+: j.target)))) := by
  obtain ⟨target, rel, it, cond, ab⟩ := j
  simp only
  constructor
  · intro h
    rcases lexWord_spec (E := E) (V := V) (P := P) (jumpName target) with ⟨hp, hw⟩ | ⟨k, hk, hw⟩
    · rw [printJump, hw] at h
      simp only at h
      split_ifs at h with h1 h2 h2
      · simp [readJump, readJumpName] at h
      · simp [readJump, readJumpName] at h
      · simp [readJump, readJumpName] at h
        obtain ⟨e1, e2, -, e4⟩ := h
        rw [e1] at hp
        exact ⟨e4.symm, .inr (.inr (.inr ⟨hp, e2.symm, (jumpName_eq_iff _).mp e1⟩))⟩
      · simp [readJump, readJumpName] at h
        obtain ⟨e1, e2, -, e4⟩ := h
        rw [e1] at hp
        exact ⟨e4.symm, .inr (.inr (.inr ⟨hp, e2.symm, (jumpName_eq_iff _).mp e1⟩))⟩
    · rw [printJump, hw] at h
      simp only at h
      split_ifs at h with h1 h2 h2 <;> cases k <;> simp [readJump, readJumpName, parseCount] at h <;>
        (obtain ⟨e1, e2, -, e4⟩ := h; subst e1; subst e2; subst e4; simp)
  · rintro ⟨rfl, h⟩
    rcases h with ⟨rfl, rfl⟩ | ⟨rfl, rfl⟩ | ⟨rfl, rfl⟩ | ⟨hp, rfl, hu⟩
    · have h1 : jumpName (t "PREVIOUS") = t "PREVIOUS" := by decide
      have h2 : keywords.lookup (t "PREVIOUS") = some .previous := by decide +kernel
      cases it <;> simp [printJump, h1, lexWord, h2, readJump, readJumpName, parseCount]
    · have h1 : jumpName (t "MYSELF") = t "MYSELF" := by decide
      have h2 : keywords.lookup (t "MYSELF") = some .myself := by decide +kernel
      cases it <;> simp [printJump, h1, lexWord, h2, readJump, readJumpName]
    · have h1 : jumpName (t "NEXT") = t "NEXT" := by decide
      have h2 : keywords.lookup (t "NEXT") = some .next := by decide +kernel
      cases it <;> simp [printJump, h1, lexWord, h2, readJump, readJumpName, parseCount]
    · have h1 : jumpName target = target := (jumpName_eq_iff _).mpr hu
      cases it <;> simp [printJump, h1, lexWord_plain hp, readJump, readJumpName]

example : readJump (V := Nat) (P := Nat) (printJump ⟨t "guide_2", 0, true, 7, -1⟩) = .ok (⟨t "guide_2", 0, true, 7, -1⟩, []) := by
  have := (jump_again_iff (V := Nat) (P := Nat) (⟨t "guide_2", 0, true, 7, -1⟩ : Jump Nat) []).mpr
    ⟨rfl, .inr (.inr (.inr ⟨by decide +kernel, rfl, by decide⟩))⟩
  simpa using this

/-- C52, negation: jumps over several components cannot be read, whether they have been printed or written by hand. -/
theorem counted_jump_refused {E V P : Type} (n : Nat) (hn : 1 < n) (it : Bool) (e : E) (l : List (Tok E V P)) :
    readJump (printJump ⟨t "PREVIOUS_" ++ digits n, -(n : Int), it, e, -1⟩ ++ l) = .error .typeError ∧
    readJump (printJump ⟨t "NEXT_" ++ digits n, n, it, e, -1⟩ ++ l) = .error .typeError ∧
    readJump (.kw .jump :: .kw .previous :: .lpar :: .int (digits n) :: .rpar :: l) = .error .typeError := by
  have h1 : jumpName (t "PREVIOUS_" ++ digits n) = t "PREVIOUS" := by
    rw [jumpName, if_pos ⟨by simp [t], .inl (by simp [t])⟩]
    simp [t]
  have h2 : jumpName (t "NEXT_" ++ digits n) = t "NEXT" := by
    rw [jumpName, if_pos ⟨by simp [t], .inr (by simp [t])⟩]
    simp [t]
  have h3 : keywords.lookup (t "PREVIOUS") = some .previous := by decide +kernel
  have h4 : keywords.lookup (t "NEXT") = some .next := by decide +kernel
  refine ⟨?_, ?_, ?_⟩
  · simp [printJump, h1, lexWord, h3, hn, readJump, readJumpName, parseCount]
  · simp [printJump, h2, lexWord, h4, hn, readJump, readJumpName, parseCount]
  · simp [readJump, readJumpName, parseCount]

/-- C52, negation: a jump to a component whose name begins with PREVIOUS or NEXT and has an underscore right after is read as
one to the component before or after. -/
theorem jump_target_renamed {E V P : Type} (s : Text) (it : Bool) (e : E) (l : List (Tok E V P)) :
    readJump (printJump ⟨t "PREVIOUS_" ++ s, 0, it, e, -1⟩ ++ l) = .ok (⟨t "PREVIOUS", -1, it, e, -1⟩, l) ∧
    readJump (printJump ⟨t "NEXT_" ++ s, 0, it, e, -1⟩ ++ l) = .ok (⟨t "NEXT", 1, it, e, -1⟩, l) := by
  have h1 : jumpName (t "PREVIOUS_" ++ s) = t "PREVIOUS" := by
    rw [jumpName, if_pos ⟨by simp [t], .inl (by simp [t])⟩]
    simp [t]
  have h2 : jumpName (t "NEXT_" ++ s) = t "NEXT" := by
    rw [jumpName, if_pos ⟨by simp [t], .inr (by simp [t])⟩]
    simp [t]
  have h3 : keywords.lookup (t "PREVIOUS") = some .previous := by decide +kernel
  have h4 : keywords.lookup (t "NEXT") = some .next := by decide +kernel
  refine ⟨?_, ?_⟩
  · cases it <;> simp [printJump, h1, lexWord, h3, readJump, readJumpName, parseCount]
  · cases it <;> simp [printJump, h2, lexWord, h4, readJump, readJumpName, parseCount]

/-- C52, negation: a jump by name that was translated, which sets its distance, is printed with a number that cannot be read,
unless it is at most one component away. -/
theorem translated_jump_refused {E V P : Type} (n : Text) (hn : ∀ k ∈ keywords, k.1 ≠ n) (hu : '_' ∉ n) (d : Int)
    (hd : 1 < d.natAbs) (it : Bool) (e : E) (a : Int) (l : List (Tok E V P)) :
    readJump (printJump ⟨n, d, it, e, a⟩ ++ l) = .error .syntaxError := by
  have h1 : jumpName n = n := (jumpName_eq_iff _).mpr fun h => hu h.1
  simp [printJump, h1, lexWord_plain hn, hd, readJump, readJumpName]

example : readJump (V := Nat) (P := Nat) (printJump ⟨t "a", -3, false, 7, 1⟩ ++ []) = .error .syntaxError :=
  translated_jump_refused (t "a") (by decide +kernel) (by decide) (-3) (by decide) false 7 1 []

end Verif.InstrText
