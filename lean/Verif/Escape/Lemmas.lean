import Verif.Escape.Model
import Mathlib.Tactic.IntervalCases
import Mathlib.Tactic.Push

/-! Lemmas on the model of escaped texts. -/

namespace Verif.Escape

/-- The characters written as `\xNN`. -/
def HexEsc (c : Nat) : Prop := c < 256 ∧ ¬(32 ≤ c ∧ c < 127) ∧ c ≠ 9 ∧ c ≠ 10 ∧ c ≠ 13

instance (c : Nat) : Decidable (HexEsc c) := by unfold HexEsc; infer_instance

def Surrogate (c : Nat) : Prop := 55296 ≤ c ∧ c ≤ 57343

instance (c : Nat) : Decidable (Surrogate c) := by unfold Surrogate; infer_instance

/-- What is written for one character. -/
def esc1 (c : Nat) : Text := if c = 34 then [92, 34] else uniEsc c

theorem hexDigit_ne_quote (d : Nat) : hexDigit d ≠ 34 := by unfold hexDigit; split <;> omega

theorem hexW_ne_quote : ∀ (k n : Nat), ∀ x ∈ hexW k n, x ≠ 34
  | 0, _, x, h => by simp [hexW] at h
  | k + 1, n, x, h => by
    simp only [hexW, List.mem_append, List.mem_singleton] at h
    rcases h with h | rfl
    · exact hexW_ne_quote k _ x h
    · exact hexDigit_ne_quote _

theorem uniEsc_ne_quote (c : Nat) (hc : c ≠ 34) : ∀ x ∈ uniEsc c, x ≠ 34 := by
  intro x hx
  unfold uniEsc at hx
  split_ifs at hx <;> simp only [List.mem_cons, List.not_mem_nil, or_false] at hx
  all_goals try (rcases hx with h | h <;> subst h <;> decide)
  · subst hx; exact hc
  all_goals
    rcases hx with h | h | h
    · subst h; decide
    · subst h; decide
    · exact hexW_ne_quote _ _ _ h

theorem escQuotes_eq (t : Text) (h : ∀ x ∈ t, x ≠ 34) : escQuotes t = t := by
  induction t with
  | nil => rfl
  | cons a t ih =>
    have ha : a ≠ 34 := h a (by simp)
    have ih := ih fun x hx => h x (by simp [hx])
    simp only [escQuotes, List.flatMap_cons] at ih ⊢
    rw [ih, if_neg (show a ≠ ch '"' from ha)]
    rfl

theorem escape_cons (c : Nat) (s : Text) : escape (c :: s) = esc1 c ++ escape s := by
  simp only [escape, List.flatMap_cons, escQuotes, List.flatMap_append]
  congr 1
  by_cases hc : c = 34
  · subst hc; rfl
  · have := escQuotes_eq (uniEsc c) (uniEsc_ne_quote c hc)
    simp only [escQuotes] at this
    rw [this, esc1, if_neg hc]

theorem escape_nil : escape [] = [] := rfl

theorem hexDigit_isHex (d : Nat) (h : d < 16) : isHex (hexDigit d) = true := by
  interval_cases d <;> rfl

theorem hexVal_hexDigit (d : Nat) (h : d < 16) : hexVal (hexDigit d) = d := by
  interval_cases d <;> rfl

theorem hexW_length : ∀ (k n : Nat), (hexW k n).length = k
  | 0, _ => rfl
  | k + 1, n => by simp [hexW, hexW_length k]

theorem hexW_isHex : ∀ (k n : Nat), (hexW k n).all isHex = true
  | 0, _ => rfl
  | k + 1, n => by
    rw [hexW, List.all_append, hexW_isHex k]
    simp [hexDigit_isHex _ (Nat.mod_lt n (by norm_num : 0 < 16))]

theorem hexNum_hexW : ∀ (k n : Nat), n < 16 ^ k → hexNum (hexW k n) = n
  | 0, n, h => by simp at h; subst h; rfl
  | k + 1, n, h => by
    have ih := hexNum_hexW k (n / 16) (by rw [pow_succ] at h; omega)
    simp only [hexNum] at ih
    simp only [hexNum, hexW, List.foldl_append, List.foldl_cons, List.foldl_nil, ih]
    rw [hexVal_hexDigit _ (Nat.mod_lt n (by norm_num : 0 < 16))]
    omega

theorem takeWhile_all_append (p : Nat → Bool) (a t : Text) (h : a.all p = true) :
    (a ++ t).takeWhile p = a ++ t.takeWhile p ∧ (a ++ t).dropWhile p = t.dropWhile p := by
  induction a with
  | nil => simp
  | cons x a ih =>
    simp only [List.all_cons, Bool.and_eq_true] at h
    obtain ⟨h1, h2⟩ := ih h.2
    constructor
    · rw [List.cons_append, List.takeWhile_cons_of_pos h.1, h1, List.cons_append]
    · rw [List.cons_append, List.dropWhile_cons_of_pos h.1, h2]

/-- The bytes one character gives. -/
def img (c : Nat) : List Nat := if c < 256 then [c] else utf8 c

theorem readUcn_hexW (k n : Nat) (t : Text) (h : n < 16 ^ k) :
    readUcn k (hexW k n ++ t) = if ucnOk n then some (utf8 n, t) else none := by
  have hl := hexW_length k n
  have e1 : (hexW k n ++ t).take k = hexW k n := by
    rw [List.take_append_of_le_length (by omega), List.take_of_length_le (by omega)]
  have e2 : (hexW k n ++ t).drop k = t := by
    rw [List.drop_append_of_le_length (by omega), List.drop_of_length_le (by omega)]
    rfl
  simp only [readUcn, e1, e2, hl, hexW_isHex, hexNum_hexW k n h, true_and]

/-- Reading back one escaped character. -/
theorem readChar_esc1 (c : Nat) (t : Text) (hc : c ≤ 1114111) :
    readChar (esc1 c ++ t) =
      if HexEsc c then
        if 255 < hexNum (hexW 2 c ++ t.takeWhile isHex) then none
        else some ([hexNum (hexW 2 c ++ t.takeWhile isHex)], t.dropWhile isHex)
      else if Surrogate c then none
      else some (img c, t) := by
  unfold esc1
  by_cases h1 : c = 34
  · subst h1; rfl
  rw [if_neg h1]
  split_ifs with h2 h3 h4
  · -- \x, too large
    obtain ⟨a, b, d, e, f⟩ := h2
    have hu : uniEsc c = ch '\\' :: ch 'x' :: hexW 2 c := by
      unfold uniEsc
      rw [if_neg (by intro h; apply b; subst h; decide), if_neg d, if_neg e, if_neg f, if_neg b, if_pos a]
    rw [hu]
    obtain ⟨t1, t2⟩ := takeWhile_all_append isHex (hexW 2 c) t (hexW_isHex 2 c)
    simp only [List.cons_append, readChar]
    rw [if_neg (by decide), if_pos trivial]
    simp only [readEsc, show simpleEsc.lookup (ch 'x') = none from rfl, if_pos, t1, t2]
    rw [if_pos (Or.inr h3)]
  · obtain ⟨a, b, d, e, f⟩ := h2
    have hu : uniEsc c = ch '\\' :: ch 'x' :: hexW 2 c := by
      unfold uniEsc
      rw [if_neg (by intro h; apply b; subst h; decide), if_neg d, if_neg e, if_neg f, if_neg b, if_pos a]
    rw [hu]
    obtain ⟨t1, t2⟩ := takeWhile_all_append isHex (hexW 2 c) t (hexW_isHex 2 c)
    simp only [List.cons_append, readChar]
    rw [if_neg (by decide), if_pos trivial]
    simp only [readEsc, show simpleEsc.lookup (ch 'x') = none from rfl, if_pos, t1, t2]
    rw [if_neg]
    push Not
    refine ⟨?_, by omega⟩
    have := hexW_length 2 c
    intro h
    simp only [List.isEmpty_iff, List.append_eq_nil_iff] at h
    rw [h.1] at this
    simp at this
  · -- surrogates
    have h4 := h4
    simp only [Surrogate] at h4
    have hu : uniEsc c = ch '\\' :: ch 'u' :: hexW 4 c := by
      unfold uniEsc
      rw [if_neg (by intro h; subst h; revert h4; decide), if_neg (by omega), if_neg (by omega), if_neg (by omega),
        if_neg (by omega), if_neg (by omega), if_pos (by omega)]
    rw [hu]
    simp only [List.cons_append, readChar]
    rw [if_neg (by decide), if_pos trivial]
    simp only [readEsc, show simpleEsc.lookup (ch 'u') = none from rfl]
    rw [if_neg (by decide), if_pos trivial, readUcn_hexW 4 c t (by omega), if_neg]
    simp [ucnOk]; omega
  · unfold uniEsc
    simp only [HexEsc] at h2
    simp only [Surrogate] at h4
    split_ifs with g1 g2 g3 g4 g5 g6 g7
    · subst g1; rfl
    · subst g2; rfl
    · subst g3; rfl
    · subst g4; rfl
    · simp only [List.cons_append, List.nil_append, readChar]
      rw [if_neg g3, if_neg g1, utf8, if_pos (by omega), img, if_pos (by omega)]
    · omega
    · simp only [List.cons_append, readChar]
      rw [if_neg (by decide), if_pos trivial]
      simp only [readEsc, show simpleEsc.lookup (ch 'u') = none from rfl]
      rw [if_neg (by decide), if_pos trivial, readUcn_hexW 4 c t (by omega), if_pos, img, if_neg g6]
      simp [ucnOk]; omega
    · simp only [List.cons_append, readChar]
      rw [if_neg (by decide), if_pos trivial]
      simp only [readEsc, show simpleEsc.lookup (ch 'U') = none from rfl]
      rw [if_neg (by decide), if_neg (by decide), if_pos trivial, readUcn_hexW 8 c t (by omega), if_pos, img, if_neg g6]
      simp [ucnOk]; omega

theorem esc1_head (c : Nat) : (c = 34 ∨ ¬(32 ≤ c ∧ c < 127) ∨ c = 92) ∧ (esc1 c).head? = some 92 ∨
    (32 ≤ c ∧ c < 127 ∧ c ≠ 34 ∧ c ≠ 92) ∧ esc1 c = [c] := by
  unfold esc1 uniEsc
  split_ifs with h1 h2 h3 h4 h5 h6 h7 h8
  all_goals first
    | (left; refine ⟨?_, rfl⟩; first | (left; assumption) | (right; left; omega) | (right; right; assumption))
    | (right; exact ⟨⟨h6.1, h6.2, h1, h2⟩, rfl⟩)

theorem esc1_ne_nil (c : Nat) : esc1 c ≠ [] := by
  rcases esc1_head c with ⟨_, h⟩ | ⟨_, h⟩
  · intro h'; rw [h'] at h; simp at h
  · rw [h]; simp

theorem esc1_length (c : Nat) : 1 ≤ (esc1 c).length := by
  have := esc1_ne_nil c
  rcases h : esc1 c with _ | ⟨a, l⟩
  · exact absurd h this
  · simp

theorem esc1_head_ne_quote (c : Nat) (t : Text) : (esc1 c ++ t).head? ≠ some (ch '"') := by
  rcases esc1_head c with ⟨_, h⟩ | ⟨h', h⟩
  · rw [List.head?_append, h]; exact (by decide : some 92 ≠ some 34)
  · rw [h]; simp only [List.cons_append, List.head?_cons, ne_eq, Option.some.injEq]; exact h'.2.2.1

/-- The hexadecimal digits at the start of an escaped text are those of the text. -/
theorem takeWhile_escape (s rest : Text) :
    (escape s ++ 34 :: rest).takeWhile isHex = s.takeWhile isHex ∧
      (escape s ++ 34 :: rest).dropWhile isHex = escape (s.dropWhile isHex) ++ 34 :: rest := by
  induction s with
  | nil => exact ⟨by simp [escape_nil, isHex], by simp [escape_nil, isHex]⟩
  | cons c s ih =>
    rw [escape_cons]
    rcases esc1_head c with ⟨h', h⟩ | ⟨h', h⟩
    · have hc : isHex c = false := by
        simp only [isHex, Bool.or_eq_false_iff, Bool.and_eq_false_iff, decide_eq_false_iff_not]
        omega
      obtain ⟨l, hl⟩ : ∃ l, esc1 c = 92 :: l := by
        rcases he : esc1 c with _ | ⟨a, l⟩
        · rw [he] at h; simp at h
        · rw [he] at h; simp at h; exact ⟨l, by rw [h]⟩
      rw [List.takeWhile_cons_of_neg (by simp [hc]), List.dropWhile_cons_of_neg (by simp [hc]), escape_cons, hl]
      exact ⟨by simp [isHex], by simp [isHex]⟩
    · rw [h]
      simp only [List.cons_append, List.nil_append]
      by_cases hc : isHex c = true
      · rw [List.takeWhile_cons_of_pos hc, List.takeWhile_cons_of_pos hc, List.dropWhile_cons_of_pos hc,
          List.dropWhile_cons_of_pos hc, ih.1, ih.2]
        exact ⟨rfl, rfl⟩
      · rw [List.takeWhile_cons_of_neg hc, List.takeWhile_cons_of_neg hc, List.dropWhile_cons_of_neg hc,
          List.dropWhile_cons_of_neg hc, escape_cons, h]
        exact ⟨rfl, rfl⟩

theorem readFuel_mono : ∀ (n m : Nat) (t : Text) (r : List Nat × Text), n ≤ m → readFuel n t = some r →
    readFuel m t = some r
  | 0, _, _, _, _, h => by simp [readFuel] at h
  | n + 1, 0, _, _, hm, _ => by omega
  | n + 1, m + 1, t, r, hm, h => by
    rw [readFuel] at h ⊢
    split_ifs at h ⊢ with h1
    · exact h
    · revert h
      cases readChar t with
      | none => exact id
      | some bt =>
        rcases hf : readFuel n bt.2 with _ | ⟨bs, rest⟩
        · simp [hf]
        · simp only [hf]
          rw [readFuel_mono n m bt.2 _ (by omega) hf]
          exact id

theorem readFuel_step (fuel c : Nat) (t : Text) :
    readFuel (fuel + 1) (esc1 c ++ t) =
      match readChar (esc1 c ++ t) with
      | none => none
      | some (b, t) =>
        match readFuel fuel t with
        | none => none
        | some (bs, rest) => some (b ++ bs, rest) := by
  rw [readFuel, if_neg (esc1_head_ne_quote c t)]
  rfl

end Verif.Escape
