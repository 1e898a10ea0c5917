/-!
Decimal printing of natural numbers (Python `str(n)`), with its inverse; shared by the models.
-/

namespace Verif

/-- The character of a digit below ten. -/
def digitChar (d : Nat) : Char := Char.ofNat (48 + d)

/-- Python `str(n)` for a natural number, as a list of characters. -/
def decimal (n : Nat) : List Char :=
  if h : n < 10 then [digitChar n] else decimal (n / 10) ++ [digitChar (n % 10)]
termination_by n
decreasing_by omega

/-- The value of a string of digits. -/
def undecimal (s : List Char) : Nat := s.foldl (fun a c => 10 * a + (c.toNat - 48)) 0

theorem digitChar_toNat (d : Nat) (h : d < 10) : (digitChar d).toNat = 48 + d := by
  unfold digitChar
  have : (48 + d).isValidChar := by
    left; omega
  simp [Char.ofNat, this, Char.toNat, Char.ofNatAux]
  omega

theorem digitChar_ne (d : Nat) (h : d < 10) (c : Char) (hc : c.toNat < 48 ∨ 57 < c.toNat) :
    digitChar d ≠ c := by
  rintro rfl
  rw [digitChar_toNat d h] at hc
  omega

theorem undecimal_decimal (n : Nat) : undecimal (decimal n) = n := by
  induction n using Nat.strongRecOn with
  | ind n ih =>
    unfold decimal
    split
    · rename_i h
      simp [undecimal, digitChar_toNat n h]
    · rename_i h
      have := ih (n / 10) (by omega)
      unfold undecimal at this ⊢
      rw [List.foldl_append, this]
      simp only [List.foldl_cons, List.foldl_nil, digitChar_toNat _ (Nat.mod_lt n (by omega : 10 > 0))]
      omega

theorem decimal_injective (a b : Nat) (h : decimal a = decimal b) : a = b := by
  rw [← undecimal_decimal a, h, undecimal_decimal]

theorem decimal_digits (n : Nat) : ∀ c ∈ decimal n, ∃ d < 10, c = digitChar d := by
  induction n using Nat.strongRecOn with
  | ind n ih =>
    intro c hc
    unfold decimal at hc
    split at hc
    · rename_i h
      simp only [List.mem_singleton] at hc
      exact ⟨n, h, hc⟩
    · rw [List.mem_append] at hc
      rcases hc with hc | hc
      · exact ih (n / 10) (by omega) c hc
      · simp only [List.mem_singleton] at hc
        exact ⟨n % 10, Nat.mod_lt n (by omega), hc⟩

theorem decimal_ne_nil (n : Nat) : decimal n ≠ [] := by
  unfold decimal
  split <;> simp

theorem not_mem_decimal (n : Nat) (c : Char) (hc : c.toNat < 48 ∨ 57 < c.toNat) : c ∉ decimal n := by
  intro h
  obtain ⟨d, hd, rfl⟩ := decimal_digits n c h
  exact digitChar_ne d hd _ hc rfl

end Verif
