import Verif.Expr.CTyped
import Verif.Expr.Power
import Mathlib.Data.Int.Bitwise
import Mathlib.Data.Nat.Bitwise

/-!
Property C94: powers in the generated program. The grammar reads `^` as a power (McCommon.g4 50, common/visitor.py 50-52), and a
power is printed as `^` in C style (expression.py 422-423), which is the exclusive or of whole numbers in C.
-/

namespace Verif.Ex
open Verif.DT

/-- `E1 ^ E2` in C (C99 6.5.11): the exclusive or of the bits of two whole numbers; the operands shall not be floating point
numbers. -/
def cCaret : CVal → CVal → Option CVal
  | .int a, .int b => some (.int (Int.xor a b))
  | _, _ => Option.none

/-- The value in C of a literal or a name. -/
def atomVal (ρ : CEnv) : Tok → Option CVal
  | .lit (.int n) => some (.int n)
  | .lit (.flt q) => some (.dbl q)
  | .id s => ρ.var s
  | _ => Option.none

/-- The value in C of a text that is a literal or a name, or two of them with `^` (the operator of a power, see `Node.toks`)
between them. -/
def caretVal (ρ : CEnv) : List Tok → Option CVal
  | [a] => atomVal ρ a
  | [a, .op o, b] =>
    if o = "__pow__" then (atomVal ρ a).bind fun x => (atomVal ρ b).bind fun y => cCaret x y else Option.none
  | _ => Option.none

theorem numToks_nonneg (x : Num) (h : 0 ≤ x.toRat) : numToks x = [.lit x] := by
  unfold numToks
  rw [if_neg (not_lt.2 h)]

theorem xor_le_add : ∀ a b : ℕ, a ^^^ b ≤ a + b := by
  intro a
  induction a using Nat.strong_induction_on with
  | _ a ih =>
    intro b
    by_cases ha : a = 0
    · simp [ha]
    · have h1 := ih (a / 2) (by omega) (b / 2)
      have h2 : (a ^^^ b) / 2 = a / 2 ^^^ b / 2 := Nat.xor_div_two
      have h3 : (a ^^^ b) % 2 = (a + b) % 2 := Nat.xor_mod_two_eq
      omega

theorem xor_ne_pow (a b : ℕ) (ha : 2 ≤ a) (hb : 1 ≤ b) : a ^^^ b ≠ a ^ b := by
  intro h
  have hle := xor_le_add a b
  rw [h] at hle
  obtain ⟨c, rfl⟩ : ∃ c, b = c + 1 := ⟨b - 1, by omega⟩
  cases c with
  | zero =>
    have h3 : (a ^^^ 1) % 2 = (a + 1) % 2 := Nat.xor_mod_two_eq
    simp at h
    omega
  | succ c =>
    have key : ∀ d : ℕ, a + (d + 2) ≤ a ^ (d + 2) ∧ (d ≠ 0 ∨ a ≠ 2 → a + (d + 2) < a ^ (d + 2)) := by
      intro d
      induction d with
      | zero =>
        rw [Nat.pow_two]
        constructor
        · nlinarith
        · intro h
          have : 3 ≤ a := by omega
          nlinarith
      | succ d ih =>
        have : a ^ (d + 1 + 2) = a ^ (d + 2) * a := Nat.pow_succ ..
        constructor
        · rw [this]; nlinarith [ih.1]
        · intro; rw [this]; nlinarith [ih.1]
    by_cases h2 : c ≠ 0 ∨ a ≠ 2
    · have : a + (c + 1 + 1) < a ^ (c + 1 + 1) := (key c).2 h2
      omega
    · push Not at h2
      obtain ⟨rfl, rfl⟩ := h2
      revert h
      decide

/-- C94, exactly, for whole numbers: the text generated for the power `a ^ b` of two literals has in C the value of the power if and
only if the power is known without computing it: `a` is one, or one of them is zero (`0 ^ 0` becomes 0). -/
theorem power_of_literals_iff (par : String → Option DataType) (ρ : CEnv) (a b : ℕ) : ∃ t n v,
    ReadAs [.lit (.int a), .op "__pow__", .lit (.int b)] t ∧ t.visit par = .ok n ∧ caretVal ρ n.toks = some (.int v) ∧
    (v = (a : ℤ) ^ b ↔ a = 1 ∨ (a = 0 ↔ b ≠ 0)) := by
  refine ⟨.bin "__pow__" (.lit (.int a)) (.lit (.int b)), .expr [if a = 0 then .num (.int 0) .int else if a = 1 then .num (.int 1) .int else
    if b = 0 then .num (.int 1) .int else .bin "__pow__" .int [.num (.int a) .int] [.num (.int b) .int]], if a = 0 then 0 else if a = 1 then 1 else if b = 0 then 1 else
      ((a ^^^ b : ℕ) : ℤ), .lit (.bin (by decide) (by decide) (.lit (.stop rfl)) (.stop rfl)), ?_, ?_, ?_⟩
  · rcases Nat.lt_trichotomy a 1 with h | h | h
    · have : a = 0 := by omega
      subst this
      rfl
    · subst h
      rfl
    · have h0 : a ≠ 0 := by omega
      have h1 : a ≠ 1 := by omega
      by_cases hb : b = 0
      · subst hb
        simp [Tree.visit, accessOp, arithOp, pyPow, pyPow.pyPowValue, single, prep, coerce, Node.isZero, Node.isValue, Num.toRat, h0, h1,
          Node.dataType, bind, Except.bind]
      · simp [Tree.visit, accessOp, arithOp, pyPow, pyPow.pyPowValue, single, prep, coerce, Node.isZero, Node.isValue, Num.toRat, h0, h1,
          hb, Node.dataType, bind, Except.bind]
        rfl
  · have h : ∀ c : ℕ, numToks (.int c) = [.lit (.int c)] := fun c => numToks_nonneg _ (by simp [Num.toRat])
    have h0' := h 0
    have h1' := h 1
    simp only [Nat.cast_zero, Nat.cast_one] at h0' h1'
    split_ifs with h0 h1 hb
    · simp [Node.toks, toksL, h0', caretVal, atomVal]
    · simp [Node.toks, toksL, h1', caretVal, atomVal]
    · simp [Node.toks, toksL, h1', caretVal, atomVal]
    · simp [Node.toks, toksL, parenOp, h, caretVal, atomVal, cCaret]
      rfl
  · split_ifs with h0 h1 hb
    · subst h0
      by_cases hb : b = 0
      · simp [hb]
      · simp [hb]
    · simp [h1]
    · simp [hb, h0]
    · have := xor_ne_pow a b (by omega) (by omega)
      simp only [h0, h1, hb, false_or, false_iff, not_not, ne_eq, not_false_eq_true, iff_true, iff_false]
      exact_mod_cast this

/-- `2 ^ 3` is 8; the generated program has 1. -/
example (ρ : CEnv) : caretVal ρ [.lit (.int 2), .op "__pow__", .lit (.int 3)] = some (.int 1) ∧ (2 : ℤ) ^ 3 = 8 := by
  refine ⟨?_, by norm_num⟩
  simp only [caretVal, atomVal, cCaret, if_true, Option.bind_some]
  decide +kernel

theorem pyPow_variable (s : String) (dt : DataType) (k : Obj) (hk : k ≠ .value) (x : Num) (dx : DataType)
    (hd : dx ≠ .str) (hx : x.toRat ≠ 0) :
    pyPow (.expr [.text s dt k]) (.expr [.num x dx]) = .ok (.expr [.bin "__pow__" (dt.add dx) [.text s dt k] [.num x dx]]) := by
  have hz : (Node.num x dx).isZero = .ok false := by simp [Node.isZero, hx, hd]
  have ht : (Node.text s dt k).isZero = .ok false := by cases k <;> first | rfl | exact absurd rfl hk
  have hone : (Node.text s dt k).isValue 1 = false := rfl
  simp only [pyPow, single, prep, pyPow.pyPowValue, coerce, hz, ht, hone, bind, Except.bind]
  rfl

/-- C94, powers of variables: the text generated for `s ^ x`, where `x` is a literal other than zero, is the same text, which is not
a valid expression in C if the variable or the literal is a floating point number; for whole numbers it is their exclusive or. -/
theorem power_of_variable_refused (par : String → Option DataType) (s : String) (x : Num) (hx : 0 < x.toRat) : ∃ t n,
    ReadAs [.id s, .op "__pow__", .lit x] t ∧ t.visit par = .ok n ∧ n.toks = [.id s, .op "__pow__", .lit x] ∧
    ∀ ρ : CEnv, (((∃ q, ρ.var s = some (.dbl q)) ∨ ∃ q, x = .flt q) → caretVal ρ n.toks = none) ∧
      ∀ a b, ρ.var s = some (.int a) → x = .int b → caretVal ρ n.toks = some (.int (Int.xor a b)) := by
  have hx0 : x.toRat ≠ 0 := ne_of_gt hx
  have hv : ∃ n, (Tree.bin "__pow__" (.id s) (.lit x)).visit par = .ok n ∧ n.toks = [.id s, .op "__pow__", .lit x] := by
    have hn := numToks_nonneg x hx.le
    have hvx : ∃ dx, dx ≠ DataType.str ∧ (Tree.lit x).visit par = .ok (.expr [.num x dx]) := by
      cases x with
      | int n => exact ⟨.int, by decide, by simp [Tree.visit]⟩
      | flt q => exact ⟨.float, by decide, by simp [Tree.visit]⟩
    have hvs : ∃ dt k, k ≠ Obj.value ∧ (Tree.id s).visit par = .ok (.expr [.text s dt k]) := by
      cases hp : par s with
      | none => exact ⟨.undefined, .ident, by decide, by simp [Tree.visit, hp]⟩
      | some dt => exact ⟨dt, .param, by decide, by simp [Tree.visit, hp]⟩
    obtain ⟨dx, hd, hvx⟩ := hvx
    obtain ⟨dt, k, hk, hvs⟩ := hvs
    refine ⟨.expr [.bin "__pow__" (dt.add dx) [.text s dt k] [.num x dx]], ?_, ?_⟩
    · rw [Tree.visit]
      · simp only [hvx, hvs, accessOp, arithOp, bind, Except.bind, String.reduceEq, if_false, if_true, or_self, Bool.false_eq_true]
        exact pyPow_variable _ _ _ hk _ _ hd hx0
    · simp [Node.toks, toksL, parenOp, hn]
  obtain ⟨n, hn, ht⟩ := hv
  refine ⟨_, n, .id rfl (.bin (by decide) (by decide) (.lit (.stop rfl)) (.stop rfl)), hn, ht, ?_⟩
  intro ρ
  rw [ht]
  simp only [caretVal, if_true]
  rw [show atomVal ρ (.id s) = ρ.var s from rfl]
  refine ⟨?_, ?_⟩
  · rintro (⟨q, hq⟩ | ⟨q, rfl⟩)
    · rw [hq]
      cases x <;> rfl
    · cases ρ.var s with
      | none => rfl
      | some v => cases v <;> rfl
  · rintro a b hq rfl
    rw [hq]
    rfl

/-- `E ^ 2` -/
example : (0 : ℚ) < (Num.int 2).toRat := by decide +kernel

end Verif.Ex
