import Verif.InstrText.Model

/-! C53: references to components. -/

namespace Verif.InstrText

open Verif.Loader (Text t)

/-- The number written by decimal digits is read as that number. -/
theorem pyInt_digits (n : Nat) : pyInt (digits n) = some n := by
  have h1 : (digits n) = Nat.toDigits 10 n := by
    rw [digits]
    exact Nat.toList_repr
  rw [pyInt, h1, if_pos, ← Nat.ofDigitChars_eq_foldl, Nat.ofDigitChars_toDigits (by decide) (by decide)]
  refine ⟨Nat.toDigits_ne_nil, ?_⟩
  rw [List.all_eq_true]
  intro c hc
  exact Nat.isDigit_of_mem_toDigits (by decide) (by decide) hc

theorem idxOf_split {a b : List Text} {x : Text} (h : x ∉ a) : (a ++ x :: b).idxOf x = a.length := by
  rw [List.idxOf_append_of_notMem h]
  simp

/-- C53: `PREVIOUS(n)` is the n-th component before, counted back into the including instrument when there are fewer. -/
theorem previous_refers (s : Scope) (n : Nat) :
    (∀ a x b, s.names = a ++ x :: b → b.length + 1 = n →
      findRef s (.previous (some (digits n))) = .ok (some (.own a.length))) ∧
    (∀ d a x b, s.dest = some d → d = a ++ x :: b → s.names.length + b.length + 1 = n →
      findRef s (.previous (some (digits n))) = .ok (some (.dest a.length))) ∧
    (∀ d, s.dest = some d → s.names.length + d.length < n →
      findRef s (.previous (some (digits n))) = .error .runtimeError) := by
  refine ⟨?_, ?_, ?_⟩
  · intro a x b h1 h2
    have hl : s.names.length = a.length + b.length + 1 := by
      rw [h1]
      simp
      omega
    simp only [findRef, pyInt_digits, findPrevious]
    rw [if_pos (by omega), lastComponent, if_neg (by omega), if_neg (by omega), Except.mapC]
    congr 3
    omega
  · rintro d a x b hd rfl h2
    simp only [findRef, pyInt_digits, findPrevious]
    rw [if_neg (by omega), hd]
    simp only
    rw [lastComponent, if_neg (by simp; omega), if_neg (by omega), Except.mapC]
    congr 3
    simp
    omega
  · intro d hd h2
    simp only [findRef, pyInt_digits, findPrevious]
    rw [if_neg (by omega), hd]
    simp only
    rw [lastComponent, if_pos (by omega), Except.mapC]

example : findRef ⟨[t "a", t "b", t "c"], none⟩ (.previous (some (digits 2))) = .ok (some (.own 1)) :=
  (previous_refers ⟨[t "a", t "b", t "c"], none⟩ 2).1 [t "a"] (t "b") [t "c"] rfl rfl

/-- C53: without a number it is the last component. -/
theorem previous_is_last (s : Scope) (a : List Text) (x : Text) (h : s.names = a ++ [x]) :
    findRef s (.previous none) = .ok (some (.own a.length)) := by
  simp only [findRef, findPrevious, h]
  rw [if_pos (by simp), lastComponent, if_neg (by simp), if_neg (by simp), Except.mapC]
  simp

/-- C53: a name refers to the component with that name, first of this instrument, then of the one that includes it; there a
name that is not found raises. (PREVIOUS itself is a keyword, not a name.) -/
theorem named_refers (s : Scope) (x : Text) (hx : x ≠ t "PREVIOUS") :
    (∀ a b, s.names = a ++ x :: b → x ∉ a → findRef s (.named x) = .ok (some (.own a.length))) ∧
    (∀ d a b, x ∉ s.names → s.dest = some d → d = a ++ x :: b → x ∉ a →
      findRef s (.named x) = .ok (some (.dest a.length))) ∧
    (∀ d, x ∉ s.names → s.dest = some d → x ∉ d → findRef s (.named x) = .error .runtimeError) := by
  refine ⟨?_, ?_, ?_⟩
  · intro a b h1 h2
    simp only [findRef, findNamed, h1]
    rw [if_pos (by simp), getComponent, if_neg hx, if_pos (by simp), idxOf_split h2, Except.mapC]
  · rintro d a b h1 hd rfl h2
    simp only [findRef, findNamed]
    rw [if_neg h1, hd]
    simp only
    rw [getComponent, if_neg hx, if_pos (by simp), idxOf_split h2, Except.mapC]
  · intro d h1 hd h2
    simp only [findRef, findNamed]
    rw [if_neg h1, hd]
    simp only
    rw [getComponent, if_neg hx, if_neg h2, Except.mapC]

example : findRef ⟨[t "a", t "b"], some [t "o"]⟩ (.named (t "o")) = .ok (some (.dest 0)) :=
  (named_refers ⟨[t "a", t "b"], some [t "o"]⟩ (t "o") (by decide)).2.1 [t "o"] [] [] (by decide) rfl rfl (by decide)

/-- C53, negation: in an instrument that is not included, a reference to a name that no component has is read as ABSOLUTE. -/
theorem unknown_name_is_absolute {E V P : Type} (names : List Text) (x : Text) (hx : x ∉ names) (l : List (Tok E V P)) :
    readReference ⟨names, none⟩ (.kw .relative :: .word x :: l) = .ok (none, l) ∧
    readReference ⟨names, none⟩ (.kw .absolute :: l) = .ok (none, l) := by
  refine ⟨?_, rfl⟩
  simp only [readReference, parseComponentRef, findRef, findNamed, if_neg hx]

example : readReference (E := Nat) (V := Nat) (P := Nat) ⟨[t "a"], none⟩ [.kw .relative, .word (t "b")] = .ok (none, []) :=
  (unknown_name_is_absolute [t "a"] (t "b") (by decide) []).1

/-- C53, negation: so is PREVIOUS with a number larger than that of the components, for every such number. -/
theorem previous_too_far_is_absolute {E V P : Type} (names : List Text) (hn : t "None" ∉ names) (n : Nat)
    (h : names.length < n) (l : List (Tok E V P)) :
    readReference ⟨names, none⟩ (.kw .relative :: .kw .previous :: .lpar :: .int (digits n) :: .rpar :: l) = .ok (none, l) := by
  simp only [readReference, parseComponentRef, parseCount, findRef, pyInt_digits, findPrevious]
  rw [if_neg (by omega)]
  simp only [findNamed, if_neg hn]

example : readReference (E := Nat) (V := Nat) (P := Nat) ⟨[t "a"], none⟩
    [.kw .relative, .kw .previous, .lpar, .int (digits 3), .rpar] = .ok (none, []) :=
  previous_too_far_is_absolute [t "a"] (by decide) 3 (by decide) []

/-- C53, negation: with a component called None, PREVIOUS with a number too large is that component. -/
theorem component_called_none : findRef ⟨[t "None", t "b"], none⟩ (.previous (some (t "7"))) = .ok (some (.own 0)) := by
  decide +kernel

/-- C53, negation: a number written as zero with two digits is taken for the first component, and literals that are not plain
decimal raise. -/
theorem other_literals : findRef ⟨[t "a", t "b"], none⟩ (.previous (some (t "00"))) = .ok (some (.own 0)) ∧
    findRef ⟨[t "a", t "b"], none⟩ (.previous (some (t "0x1"))) = .error .valueError ∧
    findRef ⟨[t "a", t "b"], none⟩ (.previous (some (t "1u"))) = .error .valueError := by
  decide +kernel

end Verif.InstrText
