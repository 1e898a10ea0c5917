import Verif.Literal.Model
import Mathlib.Tactic.Ring
import Mathlib.Tactic.SplitIfs
import Mathlib.Data.List.DropRight
import Mathlib.Data.List.TakeWhile

/-! Property C88: integer literals keep their value. -/

namespace Verif.Lit

/-- The value of digits in base `b`. -/
def value (b : Nat) (cs : List Char) : Nat := cs.foldl (fun a c => b * a + digitVal c) 0

theorem value_append (b : Nat) (cs : List Char) (c : Char) : value b (cs ++ [c]) = b * value b cs + digitVal c := by
  simp [value]

theorem value_le (cs : List Char) : value 8 cs ≤ value 10 cs := by
  induction cs using List.reverseRecOn with
  | nil => simp [value]
  | append_singleton cs c ih => rw [value_append, value_append]; omega

theorem value_zero (b : Nat) (hb : 0 < b) (cs : List Char) (hd : cs.all digit = true) : value b cs = 0 ↔ ∀ c ∈ cs, c = '0' := by
  induction cs using List.reverseRecOn with
  | nil => simp [value]
  | append_singleton cs c ih =>
    simp only [List.all_append, List.all_cons, List.all_nil, Bool.and_true, Bool.and_eq_true] at hd
    have hc : digitVal c = 0 ↔ c = '0' := by
      have h := hd.2
      simp only [digitVal, h, if_true]
      simp only [digit, Bool.and_eq_true, decide_eq_true_eq] at h
      constructor
      · intro e
        have h48 : c.toNat = '0'.toNat := by
          show c.toNat = 48
          omega
        exact Char.ext (UInt32.toNat_inj.mp h48)
      · rintro rfl; rfl
    rw [value_append, Nat.add_eq_zero_iff, Nat.mul_eq_zero, ih hd.1, hc]
    constructor
    · rintro ⟨h | h, rfl⟩ c' hc'
      · omega
      · rcases List.mem_append.mp hc' with h' | h'
        · exact h c' h'
        · simpa using h'
    · intro h
      exact ⟨.inr fun c' h' => h c' (by simp [h']), h c (by simp)⟩

/-- Octal and decimal values agree exactly if all digits but the last are zero. -/
theorem value_eq (cs : List Char) (hd : cs.all digit = true) : value 8 cs = value 10 cs ↔ ∀ c ∈ cs.dropLast, c = '0' := by
  rcases List.eq_nil_or_concat cs with rfl | ⟨ds, c, rfl⟩
  · simp [value]
  · rw [List.concat_eq_append] at hd ⊢
    simp only [List.all_append, List.all_cons, List.all_nil, Bool.and_true, Bool.and_eq_true] at hd
    rw [value_append, value_append, List.dropLast_concat, ← value_zero 8 (by decide) ds hd.1]
    have h1 := value_le ds
    have h2 := (value_zero 8 (by decide) ds hd.1).trans (value_zero 10 (by decide) ds hd.1).symm
    constructor
    · intro h; omega
    · intro h; have := h2.mp h; omega

theorem digitChar_digit (d : Nat) (h : d < 10) : digit (digitChar d) = true := by
  simp [digit, digitChar_toNat d h]; omega

theorem decimal_all (n : Nat) : (decimal n).all digit = true := by
  rw [List.all_eq_true]
  intro c hc
  obtain ⟨d, hd, rfl⟩ := decimal_digits n c hc
  exact digitChar_digit d hd

theorem value_undecimal (cs : List Char) (hd : cs.all digit = true) : value 10 cs = undecimal cs := by
  induction cs using List.reverseRecOn with
  | nil => rfl
  | append_singleton cs c ih =>
    simp only [List.all_append, List.all_cons, List.all_nil, Bool.and_true, Bool.and_eq_true] at hd
    rw [value_append, ih hd.1]
    simp [undecimal, digitVal, hd.2]

theorem value_decimal (n : Nat) : value 10 (decimal n) = n := by
  rw [value_undecimal _ (decimal_all n), undecimal_decimal]

theorem decimal_head (n : Nat) (hn : n ≠ 0) : ∀ cs, decimal n ≠ '0' :: cs := by
  induction n using Nat.strongRecOn with
  | ind n ih =>
    intro cs h
    unfold decimal at h
    split at h
    · rename_i hlt
      simp only [List.cons.injEq] at h
      have := congrArg Char.toNat h.1
      rw [digitChar_toNat n hlt] at this
      have h0 : '0'.toNat = 48 := rfl
      omega
    · rename_i hge
      cases he : decimal (n / 10) with
      | nil => exact decimal_ne_nil _ he
      | cons c ds =>
        rw [he, List.cons_append, List.cons.injEq] at h
        exact ih (n / 10) (by omega) (by omega) ds (by rw [he, h.1])

theorem all_takeWhile {p : Char → Bool} {cs : List Char} (h : cs.all p = true) : cs.takeWhile p = cs := by
  rw [List.takeWhile_eq_self_iff]; simpa using h

theorem all_dropWhile {p : Char → Bool} {cs : List Char} (h : cs.all p = true) : cs.dropWhile p = [] := by
  rw [List.dropWhile_eq_nil_iff]; simpa using h

/-- C's value of decimal digits not beginning with zero. -/
theorem cInt_decimal (cs : List Char) (hne : cs ≠ []) (hd : cs.all digit = true) (h0 : ∀ ds, cs ≠ '0' :: ds) :
    cInt cs = some (value 10 cs) := by
  unfold cInt
  split
  · rename_i c ds; exact absurd rfl (h0 _)
  · exact absurd rfl (h0 _)
  · have : body digit cs = true := by simp [body, all_takeWhile hd, all_dropWhile hd, hne]
    rw [if_pos this, all_takeWhile hd]; rfl

theorem cInt_number (n : Nat) : cInt (decimal n) = some n := by
  by_cases hn : n = 0
  · subst hn
    have : decimal 0 = ['0'] := by rw [decimal]; rfl
    rw [this]; rfl
  · rw [cInt_decimal _ (decimal_ne_nil n) (decimal_all n) (decimal_head n hn), value_decimal]

theorem decimal_of_value (cs : List Char) (hne : cs ≠ []) (hd : cs.all digit = true) (h0 : ∀ ds, cs ≠ '0' :: ds) :
    decimal (value 10 cs) = cs := by
  induction cs using List.reverseRecOn with
  | nil => exact absurd rfl hne
  | append_singleton cs c ih =>
    simp only [List.all_append, List.all_cons, List.all_nil, Bool.and_true, Bool.and_eq_true] at hd
    have hc := hd.2
    simp only [digit, Bool.and_eq_true, decide_eq_true_eq] at hc
    have hv : digitVal c = c.toNat - 48 := by simp [digitVal, hd.2]
    have hch : digitChar (c.toNat - 48) = c := by
      apply Char.ext
      apply UInt32.toNat_inj.mp
      show (digitChar (c.toNat - 48)).toNat = c.toNat
      rw [digitChar_toNat _ (by omega)]
      omega
    rw [value_append, hv]
    by_cases hcs : cs = []
    · subst hcs
      rw [show value 10 [] = 0 from rfl, decimal, dif_pos (by omega)]
      simp [hch]
    · have hz : value 10 cs ≠ 0 := by
        intro h
        cases cs with
        | nil => exact hcs rfl
        | cons d ds =>
          have := (value_zero 10 (by decide) _ hd.1).mp h d (by simp)
          subst this
          exact h0 _ rfl
      rw [decimal, dif_neg (by omega)]
      rw [show (10 * value 10 cs + (c.toNat - 48)) / 10 = value 10 cs by omega,
        show (10 * value 10 cs + (c.toNat - 48)) % 10 = c.toNat - 48 by omega, hch,
        ih hcs hd.1 (fun ds e => h0 (ds ++ [c]) (by rw [e]; rfl))]

/-- A decimal literal is written to C unchanged, so that it also has the same type in C. -/
theorem decimal_literal_unchanged (cs : List Char) (hne : cs ≠ []) (hd : ∀ c ∈ cs, '0'.toNat ≤ c.toNat ∧ c.toNat ≤ '9'.toNat)
    (h0 : cs.head? ≠ some '0') : (literal cs).print = cs := by
  have hd' : cs.all digit = true := by
    rw [List.all_eq_true]
    intro c hc
    have := hd c hc
    simp only [digit, Bool.and_eq_true, decide_eq_true_eq]
    exact this
  rw [literal, if_pos ⟨hne, hd'⟩, Pay.print, if_neg (by omega)]
  exact decimal_of_value cs hne hd' fun ds e => h0 (by rw [e]; rfl)

/-- So is every literal with a letter in it: hexadecimal, or with a suffix. -/
theorem literal_with_letter_unchanged (cs : List Char) (c : Char) (hc : c ∈ cs) (h : c.toNat < '0'.toNat ∨ '9'.toNat < c.toNat) :
    (literal cs).print = cs := by
  have : ¬cs.all digit = true := by
    rw [List.all_eq_true]
    intro ha
    have := ha c hc
    simp only [digit, Bool.and_eq_true, decide_eq_true_eq] at this
    have e0 : '0'.toNat = 48 := rfl
    have e9 : '9'.toNat = 57 := rfl
    omega
  rw [literal, if_neg (fun h => this h.2)]
  rfl

/-- C88: an integer constant of C keeps its value in the generated C if and only if it is not an octal one of several digits other
than zero: it has a letter, does not begin with zero, or all its digits before the last are zero. -/
theorem literal_keeps_value_iff (cs : List Char) (v : Nat) (h : cInt cs = some v) :
    cInt (literal cs).print = some v ↔
      (∃ c ∈ cs, c.toNat < '0'.toNat ∨ '9'.toNat < c.toNat) ∨ cs.head? ≠ some '0' ∨ ∀ c ∈ cs.dropLast, c = '0' := by
  have e0 : '0'.toNat = 48 := rfl
  have e9 : '9'.toNat = 57 := rfl
  by_cases hl : ∃ c ∈ cs, c.toNat < '0'.toNat ∨ '9'.toNat < c.toNat
  · obtain ⟨c, hc, hl'⟩ := hl
    rw [literal_with_letter_unchanged cs c hc hl']
    exact ⟨fun _ => .inl ⟨c, hc, hl'⟩, fun _ => h⟩
  have hne : cs ≠ [] := by rintro rfl; simp [cInt, body] at h
  have hd : cs.all digit = true := by
    rw [List.all_eq_true]
    intro c hc
    simp only [digit, Bool.and_eq_true, decide_eq_true_eq]
    by_contra hn
    exact hl ⟨c, hc, by omega⟩
  have hp : (literal cs).print = decimal (value 10 cs) := by
    rw [literal, if_pos ⟨hne, hd⟩, Pay.print, if_neg (by omega)]; rfl
  rw [hp, cInt_number, Option.some.injEq]
  by_cases hz : cs.head? = some '0'
  · cases cs with
    | nil => simp at hz
    | cons z ds =>
      simp only [List.head?_cons, Option.some.injEq] at hz
      subst hz
      have hv : v = value 8 ('0' :: ds) := by
        cases ds with
        | nil => simp [cInt] at h; simp [value, digitVal, digit, ← h]
        | cons c ds =>
          have hc : digit c = true := by
            rw [List.all_eq_true] at hd
            exact hd c (by simp)
          have hx : ¬(c = 'x' ∨ c = 'X') := by
            rintro (rfl | rfl) <;> simp [digit] at hc
          simp only [cInt, if_neg hx] at h
          split_ifs at h with hb
          simp only [Option.some.injEq] at h
          have ho : ('0' :: c :: ds).dropWhile octal = [] := by
            simp only [body, Bool.and_eq_true, Bool.or_eq_true, decide_eq_true_eq] at hb
            rcases hb.2 with h' | h'
            · exact h'
            · exfalso
              cases hdr : ('0' :: c :: ds).dropWhile octal with
              | nil => rw [hdr] at h'; exact absurd h' (by decide)
              | cons y ys =>
                have hy : y ∈ '0' :: c :: ds := List.dropWhile_sublist octal |>.subset (by rw [hdr]; simp)
                rw [List.all_eq_true] at hd
                have hy' := hd y hy
                have : ∀ s ∈ suffixes, ∀ z ∈ s, digit z = false := by decide
                rw [hdr] at h'
                rw [this _ h' y (by simp)] at hy'
                simp at hy'
          have : ('0' :: c :: ds).takeWhile octal = '0' :: c :: ds := by
            have := List.takeWhile_append_dropWhile (p := octal) (l := '0' :: c :: ds)
            rw [ho, List.append_nil] at this
            exact this
          rw [← h, this]; rfl
      subst hv
      have := value_eq _ hd
      constructor
      · intro e; exact .inr (.inr (this.mp e.symm))
      · rintro (h' | h' | h')
        · exact absurd h' hl
        · exact absurd rfl h'
        · exact (this.mpr h').symm
  · constructor
    · intro _; exact .inr (.inl hz)
    · intro _
      have := cInt_decimal cs hne hd (fun ds e => hz (by rw [e]; rfl))
      rw [this, Option.some.injEq] at h
      exact h

/-- For example 010 is 8 in C, and 10 is generated for it; 0x1F, 31, 007 and 12UL are kept. -/
example : cInt "010".toList = some 8 ∧ cInt "0x1F".toList = some 31 ∧ cInt "31".toList = some 31 ∧ cInt "007".toList = some 7 ∧
    cInt "12UL".toList = some 12 ∧ cInt "08".toList = none ∧ cInt "0".toList = some 0 := by decide +kernel

/-- The specification reads hexadecimal constants in base 16, with either case of the letters (all sixteen digits). -/
theorem hexadecimal_constants (cs : List Char) (d : Fin 16) (l : Char)
    (hl : "0123456789ABCDEF".toList[d.val]? = some l ∨ "0123456789abcdef".toList[d.val]? = some l) (v : Nat)
    (h : cInt ('0' :: 'x' :: cs) = some v) (hcs : ∀ c ∈ cs, c ∈ "0123456789ABCDEFabcdef".toList) :
    cInt ('0' :: 'x' :: (cs ++ [l])) = some (16 * v + d) := by
  have hl' : hex l = true ∧ digitVal l = d := by
    have key : ∀ d : Fin 16, ∀ l, ("0123456789ABCDEF".toList[d.val]? = some l ∨ "0123456789abcdef".toList[d.val]? = some l) →
        hex l = true ∧ digitVal l = d := by
      have k1 : ∀ d : Fin 16, "0123456789ABCDEF".toList[d.val]?.any (fun l => hex l && digitVal l = d) = true := by
        decide +kernel
      have k2 : ∀ d : Fin 16, "0123456789abcdef".toList[d.val]?.any (fun l => hex l && digitVal l = d) = true := by
        decide +kernel
      rintro d l (h | h)
      · have h' := k1 d
        rw [h] at h'
        simpa using h'
      · have h' := k2 d
        rw [h] at h'
        simpa using h'
    exact key d l hl
  have hh : ∀ c ∈ cs, hex c = true := by
    have key : ∀ c ∈ "0123456789ABCDEFabcdef".toList, hex c = true := by decide
    exact fun c hc => key c (hcs c hc)
  have ha : cs.all hex = true := by rw [List.all_eq_true]; exact hh
  have hb : (cs ++ [l]).all hex = true := by rw [List.all_append, ha]; simp [hl'.1]
  simp only [cInt, true_or, if_true] at h ⊢
  split_ifs at h with h1
  simp only [Option.some.injEq] at h
  have : body hex (cs ++ [l]) = true := by simp [body, all_takeWhile hb, all_dropWhile hb]
  rw [if_pos this, all_takeWhile hb, List.foldl_append]
  rw [all_takeWhile ha] at h
  simp [h, hl'.2]

theorem octal_literal_changes_value : ∃ cs v w, cInt cs = some v ∧ cInt (literal cs).print = some w ∧ v = 8 ∧ w = 10 :=
  ⟨"010".toList, 8, 10, by decide +kernel, by decide +kernel, rfl, rfl⟩

/-- C88 fails for sums of literals with letters, whose texts are put together: `0x1 + 1u` is 2 in C, the generated `0x11u` is 17. -/
theorem sum_of_texts_changes_value : ∃ cs ds p, cInt cs = some 1 ∧ cInt ds = some 1 ∧ (literal cs).add (literal ds) = .ok p ∧
    p.print = "0x11u".toList ∧ cInt p.print = some 17 :=
  ⟨"0x1".toList, "1u".toList, .txt "0x11u".toList, by decide +kernel, by decide +kernel, by decide +kernel, rfl, by decide +kernel⟩

/-- Multiples of them are no numbers in C at all. -/
theorem multiple_of_text_not_a_number : ∃ cs p, cInt cs = some 16 ∧ (Pay.num 2).mul (literal cs) = .ok p ∧ cInt p.print = none :=
  ⟨"0x10".toList, .txt "0x100x10".toList, by decide +kernel, by decide +kernel, by decide +kernel⟩

/-- A hexadecimal literal, or one with a suffix, and a number other than zero cannot be added. -/
theorem text_plus_number_refused (cs : List Char) (c : Char) (hc : c ∈ cs) (h : c.toNat < '0'.toNat ∨ '9'.toNat < c.toNat) (n : Int)
    (hn : n ≠ 0) : (literal cs).add (.num n) = .error .typeError ∧ (Pay.num n).add (literal cs) = .error .typeError := by
  have hl : literal cs = .txt cs := by
    have := literal_with_letter_unchanged cs c hc h
    unfold literal at this ⊢
    split_ifs with hd
    · rw [List.all_eq_true] at hd
      have := hd.2 c hc
      simp only [digit, Bool.and_eq_true, decide_eq_true_eq] at this
      have e0 : '0'.toNat = 48 := rfl
      have e9 : '9'.toNat = 57 := rfl
      omega
    · rfl
  rw [hl]
  simp [Pay.add, hn]

end Verif.Lit
