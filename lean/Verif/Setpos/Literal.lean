import Verif.Escape.Lemmas
import Mathlib.Tactic.Push
import Mathlib.Data.List.Basic
import Mathlib.Data.List.TakeWhile

/-!
C76: adjacent string literals of an expression are one text. `visitExpressionString`
(src/mccode_antlr/common/visitor.py 158-160) writes one literal for them, made of their texts without the quotes around
them. C reads the escape sequences of each literal before the literals are put together (C99 5.1.1.2, phases 5 and 6), so
the text meant is the texts of the literals one after the other.
-/

namespace Verif.Setpos

open Verif.Escape

/-- `t.strip('"')`. -/
def stripQuotes (t : Text) : Text :=
  ((t.dropWhile (· == ch '"')).reverse.dropWhile (· == ch '"')).reverse

/-- visitor.py 159-160: the text of the value made of the literals. -/
def joinLiterals (ls : List Text) : Text := ch '"' :: (ls.flatMap stripQuotes ++ [ch '"'])

/-- The bytes a C compiler reads in a text that is one string literal, quotes included; `none` if the text is not a
literal. -/
def litBytes : Text → Option (List Nat)
  | [] => none
  | c :: t =>
    if c = ch '"' then
      match readLit t with
      | some (bs, []) => some bs
      | _ => none
    else none

/-! ### What is read of a text does not depend on what follows -/

/-- The text does not end in digits of an escape sequence that would take up digits written after them. -/
def Closed (b : Text) : Prop :=
  (b.reverse.takeWhile isHex = []) ∨
    ((b.reverse.dropWhile isHex).head? ≠ some (ch 'x') ∧ (b.reverse.dropWhile isHex).head? ≠ some (ch '\\'))

theorem litBytes_eq {t : Text} {bs : List Nat} (h : litBytes t = some bs) :
    ∃ u, t = ch '"' :: u ∧ readLit u = some (bs, []) := by
  cases t with
  | nil => simp [litBytes] at h
  | cons c u =>
    rw [litBytes] at h
    split_ifs at h with hc
    refine ⟨u, by rw [hc], ?_⟩
    split at h
    · rename_i bs' he
      injection h with h
      rw [he, h]
    · cases h

theorem simpleEsc_hex (e : Nat) (v : Nat) (h : simpleEsc.lookup e = some v) : isOct e = false ∧ e ≠ ch 'x' := by
  have : e = 39 ∨ e = 34 ∨ e = 63 ∨ e = 92 ∨ e = 97 ∨ e = 98 ∨ e = 102 ∨ e = 110 ∨ e = 114 ∨ e = 116 ∨ e = 118 := by
    by_contra hn
    push Not at hn
    obtain ⟨h1, h2, h3, h4, h5, h6, h7, h8, h9, h10, h11⟩ := hn
    simp [simpleEsc, List.lookup, h1, h2, h3, h4, h5, h6, h7, h8, h9, h10, h11, ch, beq_eq_false_iff_ne.2] at h
  rcases this with h | h | h | h | h | h | h | h | h | h | h <;> subst h <;> decide +kernel

theorem takeWhile_stop {p : Nat → Bool} (w rest : Text) (h : (∃ x ∈ w, p x = false) ∨ ∀ c, rest.head? = some c → p c = false) :
    (w ++ rest).takeWhile p = w.takeWhile p ∧ (w ++ rest).dropWhile p = w.dropWhile p ++ rest := by
  induction w with
  | nil =>
    cases rest with
    | nil => simp
    | cons c r =>
      rcases h with ⟨x, hx, _⟩ | h
      · cases hx
      · have := h c rfl
        simp [this]
  | cons a w ih =>
    by_cases ha : p a = true
    · have : (∃ x ∈ w, p x = false) ∨ ∀ c, rest.head? = some c → p c = false := by
        rcases h with ⟨x, hx, hf⟩ | h
        · rcases List.mem_cons.1 hx with rfl | hx
          · rw [ha] at hf; cases hf
          · exact Or.inl ⟨x, hx, hf⟩
        · exact Or.inr h
      obtain ⟨h1, h2⟩ := ih this
      simp [ha, h1, h2]
    · simp [ha]

/-- What may follow a text without changing how the text is read. -/
def Fits (b rest : Text) : Prop := Closed b ∨ ∀ c, rest.head? = some c → isHex c = false

theorem closed_all_hex (pre w : Text) (e : Nat) (hw : w ≠ []) (hall : ∀ x ∈ w, isHex x = true) (he : isHex e = false)
    (hbad : e = ch 'x' ∨ e = ch '\\') : ¬ Closed (pre ++ e :: w) := by
  have hr : (pre ++ e :: w).reverse = w.reverse ++ e :: pre.reverse := by simp
  have hall' : ∀ x ∈ w.reverse, isHex x = true := fun x hx => hall x (List.mem_reverse.1 hx)
  rintro (h | ⟨h1, h2⟩)
  · rw [hr, List.takeWhile_append_of_pos hall'] at h
    have := List.append_eq_nil_iff.1 h
    exact hw (List.reverse_eq_nil_iff.1 this.1)
  · rw [hr, List.dropWhile_append_of_pos hall', List.dropWhile_cons_of_neg (by simp [he])] at h1 h2
    rcases hbad with rfl | rfl
    · exact h1 rfl
    · exact h2 rfl

theorem closed_suffix (pre b : Text) (h : Closed (pre ++ b)) : Closed b := by
  by_cases hall : ∀ x ∈ b, isHex x = true
  · right
    have : b.reverse.dropWhile isHex = [] := List.dropWhile_eq_nil_iff.2 fun x hx => hall x (List.mem_reverse.1 hx)
    simp [this]
  · push Not at hall
    obtain ⟨x, hx, hf⟩ := hall
    have hs := takeWhile_stop (p := isHex) b.reverse pre.reverse (Or.inl ⟨x, by simpa using hx, by simpa using hf⟩)
    have hr : (pre ++ b).reverse = b.reverse ++ pre.reverse := by simp
    unfold Closed at h ⊢
    rw [hr, hs.1, hs.2] at h
    rcases h with h | ⟨h1, h2⟩
    · exact Or.inl h
    · right
      cases hd : b.reverse.dropWhile isHex with
      | nil => simp
      | cons c t => rw [hd] at h1 h2; exact ⟨by simpa using h1, by simpa using h2⟩

theorem fits_suffix (pre b rest : Text) (h : Fits (pre ++ b) rest) : Fits b rest :=
  h.imp (closed_suffix pre b) id

theorem oct_hex (c : Nat) (h : isOct c = true) : isHex c = true := by
  simp only [isOct, isHex, Bool.and_eq_true, Bool.or_eq_true, decide_eq_true_eq] at *
  omega

theorem readUcn_ext (k : Nat) (w rest : Text) (x : List Nat) (t : Text) (h : readUcn k (w ++ [34]) = some (x, t)) :
    ∃ b', t = b' ++ [34] ∧ (∃ pre, w = pre ++ b') ∧ readUcn k (w ++ rest) = some (x, b' ++ rest) := by
  unfold readUcn at h ⊢
  split_ifs at h with hc
  obtain ⟨hl, hall, hok⟩ := hc
  have hkw : k ≤ w.length := by
    by_contra hlt
    have hk : k = w.length + 1 := by
      have : ((w ++ [34]).take k).length ≤ w.length + 1 := by simp
      omega
    rw [List.take_of_length_le (by simp; omega)] at hall
    rw [List.all_append] at hall
    simp [isHex] at hall
  have ht : ∀ r : Text, (w ++ r).take k = w.take k := fun r => by rw [List.take_append_of_le_length hkw]
  have hd : ∀ r : Text, (w ++ r).drop k = w.drop k ++ r := fun r => by rw [List.drop_append_of_le_length hkw]
  rw [ht] at hl hall hok h
  rw [hd] at h
  injection h with h
  injection h with h1 h2
  refine ⟨w.drop k, h2.symm, ⟨w.take k, (List.take_append_drop k w).symm⟩, ?_⟩
  rw [ht, if_pos ⟨hl, hall, hok⟩, hd, h1]

theorem readEsc_ext (w rest : Text) (x : List Nat) (t : Text) (h : readEsc (w ++ [34]) = some (x, t)) (ht : t ≠ [])
    (hf : Fits (ch '\\' :: w) rest) :
    ∃ b', t = b' ++ [34] ∧ (∃ pre, w = pre ++ b') ∧ readEsc (w ++ rest) = some (x, b' ++ rest) := by
  cases w with
  | nil =>
    have : readEsc ([] ++ [34]) = some ([34], []) := by decide +kernel
    rw [this] at h
    injection h with h; injection h with _ h
    exact absurd h.symm ht
  | cons e w =>
    rw [List.cons_append] at h ⊢
    rw [readEsc] at h ⊢
    cases hl : simpleEsc.lookup e with
    | some v =>
      rw [hl] at h
      simp only [Option.some.injEq, Prod.mk.injEq] at h
      exact ⟨w, h.2.symm, ⟨[e], rfl⟩, by simp [h.1]⟩
    | none =>
      rw [hl] at h
      simp only at h ⊢
      by_cases hx : e = ch 'x'
      · rw [if_pos hx] at h ⊢
        have h1 := takeWhile_stop (p := isHex) w [34] (Or.inr (by simp [isHex]))
        rw [h1.1, h1.2] at h
        split_ifs at h with hb
        have h2 := takeWhile_stop (p := isHex) w rest (by
          by_cases hall : ∀ y ∈ w, isHex y = true
          · right
            rcases hf with hf | hf
            · refine absurd hf (closed_all_hex [ch '\\'] w e ?_ hall (by rw [hx]; decide) (Or.inl hx))
              rintro rfl
              simp at hb
            · exact hf
          · left
            push Not at hall
            obtain ⟨y, hy, hyf⟩ := hall
            exact ⟨y, hy, by simpa using hyf⟩)
        rw [h2.1, h2.2, if_neg hb]
        injection h with h; injection h with h3 h4
        exact ⟨w.dropWhile isHex, h4.symm, ⟨e :: w.takeWhile isHex, by simp⟩, by rw [h3]⟩
      · rw [if_neg hx] at h ⊢
        by_cases hu : e = ch 'u'
        · rw [if_pos hu] at h ⊢
          obtain ⟨b', h1, ⟨pre, h2⟩, h3⟩ := readUcn_ext 4 w rest x t h
          exact ⟨b', h1, ⟨e :: pre, by rw [h2]; rfl⟩, h3⟩
        · rw [if_neg hu] at h ⊢
          by_cases hU : e = ch 'U'
          · rw [if_pos hU] at h ⊢
            obtain ⟨b', h1, ⟨pre, h2⟩, h3⟩ := readUcn_ext 8 w rest x t h
            exact ⟨b', h1, ⟨e :: pre, by rw [h2]; rfl⟩, h3⟩
          · rw [if_neg hU] at h ⊢
            by_cases ho : isOct e = true
            · rw [if_pos ho] at h ⊢
              have hval : ∀ r : Text, ((∃ y ∈ (e :: w), isOct y = false) ∨ ∀ c, r.head? = some c → isOct c = false) ∨
                  3 ≤ (e :: w).length → ((e :: (w ++ r)).take 3).takeWhile isOct = ((e :: w).take 3).takeWhile isOct := by
                intro r hr
                rw [← List.cons_append]
                by_cases h3 : 3 ≤ (e :: w).length
                · rw [List.take_append_of_le_length h3]
                · rw [List.take_append, List.take_of_length_le (by omega : (e :: w).length ≤ 3)]
                  refine (takeWhile_stop _ _ ?_).1
                  rcases hr with (hr | hr) | hr
                  · exact Or.inl hr
                  · right
                    intro c hc
                    apply hr
                    cases r with
                    | nil => simp at hc
                    | cons a r =>
                      cases hk : 3 - (e :: w).length with
                      | zero => omega
                      | succ k => rw [hk] at hc; simpa using hc
                  · omega
              have h1 := hval [34] (Or.inl (Or.inr (by simp [isOct])))
              have h2 := hval rest (by
                by_cases h3 : 3 ≤ (e :: w).length
                · exact Or.inr h3
                left
                by_cases hall : ∀ y ∈ (e :: w), isOct y = true
                · right
                  rcases hf with hf | hf
                  · exact absurd hf (closed_all_hex [] (e :: w) (ch '\\') (by simp)
                      (fun y hy => oct_hex y (hall y hy)) (by decide) (Or.inr rfl))
                  · intro c hc
                    have := hf c hc
                    by_contra ho
                    rw [oct_hex c (by simpa using ho)] at this
                    cases this
                · left
                  push Not at hall
                  obtain ⟨y, hy, hyf⟩ := hall
                  exact ⟨y, hy, by simpa using hyf⟩)
              simp only [h1] at h
              simp only [h2]
              split_ifs at h with hb
              rw [if_neg hb]
              have hle : (((e :: w).take 3).takeWhile isOct).length ≤ (e :: w).length :=
                le_trans (List.takeWhile_prefix _).length_le (by simp)
              rw [← List.cons_append, List.drop_append_of_le_length hle] at h
              rw [← List.cons_append, List.drop_append_of_le_length hle]
              injection h with h; injection h with h3 h4
              exact ⟨_, h4.symm, ⟨_, (List.take_append_drop _ (e :: w)).symm⟩, by rw [h3]⟩
            · rw [if_neg ho] at h; cases h

theorem readChar_ext (b rest : Text) (x : List Nat) (t : Text) (h : readChar (b ++ [34]) = some (x, t)) (hb : b ≠ [])
    (ht : t ≠ []) (hf : Fits b rest) :
    ∃ b', t = b' ++ [34] ∧ (∃ pre, b = pre ++ b') ∧ readChar (b ++ rest) = some (x, b' ++ rest) := by
  cases b with
  | nil => exact absurd rfl hb
  | cons c w =>
    rw [List.cons_append, readChar] at h ⊢
    split_ifs at h ⊢ with h10 hc
    · obtain ⟨b', h1, ⟨pre, h2⟩, h3⟩ := readEsc_ext w rest x t h ht (by rw [← hc]; exact hf)
      exact ⟨b', h1, ⟨c :: pre, by rw [h2]; rfl⟩, h3⟩
    · injection h with h; injection h with h1 h2
      exact ⟨w, h2.symm, ⟨[c], rfl⟩, by rw [h1]⟩

/-- A body that is read to its closing quote is read in the same way when more is written before the quote. -/
theorem read_ext : ∀ (fuel : Nat) (b rest : Text) (bs : List Nat), readFuel fuel (b ++ [34]) = some (bs, []) → Fits b rest →
    ∀ (fuel' : Nat) (bs' : List Nat) (r : Text), readFuel fuel' rest = some (bs', r) →
      readFuel (fuel + fuel') (b ++ rest) = some (bs ++ bs', r) := by
  intro fuel
  induction fuel with
  | zero => intro b rest bs h; simp [readFuel] at h
  | succ fuel ih =>
    intro b rest bs h hf fuel' bs' r hr
    by_cases hb : b = []
    · subst hb
      rw [readFuel, if_pos (by rfl)] at h
      injection h with h; injection h with h _
      subst h
      exact readFuel_mono fuel' _ _ _ (by omega) hr
    rw [readFuel] at h
    split_ifs at h with hq
    · exfalso
      injection h with h; injection h with _ h
      cases b with
      | nil => exact hb rfl
      | cons c b => simp at h
    have hq' : (b ++ rest).head? ≠ some (ch '"') := by
      cases b with
      | nil => exact absurd rfl hb
      | cons c b => simpa using hq
    cases hc : readChar (b ++ [34]) with
    | none => rw [hc] at h; cases h
    | some p =>
      obtain ⟨x, t⟩ := p
      rw [hc] at h
      simp only at h
      cases hrec : readFuel fuel t with
      | none => rw [hrec] at h; cases h
      | some q =>
        obtain ⟨ys, r'⟩ := q
        rw [hrec] at h
        injection h with h; injection h with h1 h2
        subst h2
        have ht : t ≠ [] := by
          rintro rfl
          cases fuel with
          | zero => simp [readFuel] at hrec
          | succ n => simp [readFuel, readChar] at hrec
        obtain ⟨b', h3, ⟨pre, h4⟩, h5⟩ := readChar_ext b rest x t hc hb ht hf
        subst h3
        have := ih b' rest ys hrec (fits_suffix pre b' rest (by rw [← h4]; exact hf)) fuel' bs' r hr
        rw [show fuel + 1 + fuel' = (fuel + fuel') + 1 by omega, readFuel, if_neg hq', h5]
        simp only [this]
        rw [← h1, List.append_assoc]

theorem readUcn_shorter (k : Nat) (t : Text) (x : List Nat) (t' : Text) (h : readUcn k t = some (x, t')) :
    t'.length ≤ t.length := by
  unfold readUcn at h
  split_ifs at h
  injection h with h; injection h with _ h
  rw [← h]
  simp

theorem readChar_shorter (t : Text) (x : List Nat) (t' : Text) (h : readChar t = some (x, t')) : t'.length < t.length := by
  cases t with
  | nil => simp [readChar] at h
  | cons c t =>
    rw [readChar] at h
    split_ifs at h with h1 h2
    · cases t with
      | nil => simp [readEsc] at h
      | cons e t =>
        rw [readEsc] at h
        cases hl : simpleEsc.lookup e with
        | some v =>
          rw [hl] at h
          injection h with h; injection h with _ h
          rw [← h]; simp; omega
        | none =>
          rw [hl] at h
          simp only at h
          split_ifs at h with a1 a2 a3 a4 a5 a6
          · injection h with h; injection h with _ h
            have := (List.dropWhile_suffix isHex (l := t)).length_le
            rw [← h]; simp; omega
          · have := readUcn_shorter _ _ _ _ h
            simp; omega
          · have := readUcn_shorter _ _ _ _ h
            simp; omega
          · injection h with h; injection h with _ h
            rw [← h]; simp; omega
    · injection h with h; injection h with _ h
      rw [← h]; simp

theorem readFuel_enough : ∀ (n : Nat) (t : Text) (r : List Nat × Text), readFuel n t = some r →
    ∀ m, t.length < m → readFuel m t = some r := by
  intro n
  induction n with
  | zero => intro t r h; simp [readFuel] at h
  | succ n ih =>
    intro t r h m hm
    cases m with
    | zero => omega
    | succ m =>
      rw [readFuel] at h ⊢
      split_ifs at h ⊢ with hq
      · exact h
      · cases hc : readChar t with
        | none => rw [hc] at h; cases h
        | some p =>
          obtain ⟨x, t'⟩ := p
          have hs := readChar_shorter t x t' hc
          rw [hc] at h
          simp only at h ⊢
          cases hrec : readFuel n t' with
          | none => rw [hrec] at h; cases h
          | some q =>
            rw [ih t' q hrec m (by omega)]
            rw [hrec] at h
            exact h

theorem readLit_of_fuel {n : Nat} {t : Text} {r : List Nat × Text} (h : readFuel n t = some r) : readLit t = some r :=
  readFuel_enough n t r h _ (by omega)

/-! ### The property -/

/-- The literal with the given text between its quotes. -/
def quote (b : Text) : Text := ch '"' :: (b ++ [ch '"'])

theorem litBytes_quote (b : Text) (bs : List Nat) : litBytes (quote b) = some bs ↔ readLit (b ++ [34]) = some (bs, []) := by
  constructor
  · intro h
    obtain ⟨u, h1, h2⟩ := litBytes_eq h
    unfold quote at h1
    injection h1 with _ h1
    rw [← h1] at h2
    exact h2
  · intro h
    have h' : readLit (b ++ [ch '"']) = some (bs, []) := h
    simp [quote, litBytes, h']

theorem body_head {b : Text} {bs : List Nat} (h : litBytes (quote b) = some bs) : b.head? ≠ some 34 := by
  intro hb
  cases b with
  | nil => simp at hb
  | cons c b =>
    simp only [List.head?_cons, Option.some.injEq] at hb
    subst hb
    rw [litBytes_quote, readLit, readFuel, if_pos (by rfl)] at h
    simp at h

theorem strip_quote {b : Text} (h : b.head? ≠ some 34) (h' : b.getLast? ≠ some 34) : stripQuotes (quote b) = b := by
  unfold stripQuotes quote
  rw [List.dropWhile_cons_of_pos (by rfl)]
  cases b with
  | nil => rfl
  | cons c b =>
    rw [List.cons_append, List.dropWhile_cons_of_neg (by simpa [ch] using h), ← List.cons_append, List.reverse_append]
    rw [List.reverse_singleton, List.singleton_append, List.dropWhile_cons_of_pos (by rfl)]
    cases hr : (c :: b).reverse with
    | nil => simp at hr
    | cons d r =>
      rw [List.dropWhile_cons_of_neg, ← hr, List.reverse_reverse]
      rw [List.getLast?_eq_head?_reverse, hr] at h'
      simpa [ch] using h'

/-- No text ends in digits of an escape sequence with a digit after it in the next one. -/
def Apart : List Text → Prop
  | [] => True
  | b :: bs => Fits b bs.flatten ∧ Apart bs

theorem joined_read : ∀ (ls : List (Text × List Nat)), (∀ p ∈ ls, litBytes (quote p.1) = some p.2) → Apart (ls.map Prod.fst) →
    ∃ n, readFuel n ((ls.map Prod.fst).flatten ++ [34]) = some (ls.flatMap Prod.snd, []) := by
  intro ls
  induction ls with
  | nil => intro _ _; exact ⟨1, rfl⟩
  | cons p ls ih =>
    intro h ha
    obtain ⟨n, hn⟩ := ih (fun q hq => h q (List.mem_cons_of_mem _ hq)) ha.2
    have hp := (litBytes_quote p.1 p.2).1 (h p List.mem_cons_self)
    have hf : Fits p.1 ((ls.map Prod.fst).flatten ++ [34]) := by
      refine ha.1.imp id fun hh c hc => ?_
      cases hfl : (ls.map Prod.fst).flatten with
      | nil =>
        rw [hfl] at hc
        simp only [List.nil_append, List.head?_cons, Option.some.injEq] at hc
        subst hc
        rfl
      | cons a r =>
        rw [hfl] at hc
        exact hh c (by rw [hfl]; simpa using hc)
    refine ⟨(p.1 ++ [34]).length + 1 + n, ?_⟩
    rw [List.map_cons, List.flatten_cons, List.append_assoc, List.flatMap_cons]
    exact read_ext _ p.1 _ p.2 hp hf n _ _ hn

/-- C76. The literal written for adjacent literals is one literal with the texts of the literals one after the other, if no
literal ends in an escaped quote and no literal ends in an escape sequence with digits that the next one continues.
Missing: literals that end in an escaped quote, where the property fails (`escaped_quote_at_end`), escape sequences
continued by the next literal (`escape_continued`), and literals with an encoding prefix (`prefixed_literal`). -/
theorem literals_joined_partial (ls : List (Text × List Nat)) (h : ∀ p ∈ ls, litBytes (quote p.1) = some p.2)
    (hq : ∀ p ∈ ls, p.1.getLast? ≠ some (ch '"')) (ha : Apart (ls.map Prod.fst)) :
    litBytes (joinLiterals (ls.map fun p => quote p.1)) = some (ls.flatMap Prod.snd) := by
  have hj : (ls.map fun p => quote p.1).flatMap stripQuotes = (ls.map Prod.fst).flatten := by
    rw [List.flatMap_map]
    unfold List.flatMap
    congr 1
    exact List.map_congr_left fun p hp => strip_quote (body_head (h p hp)) (hq p hp)
  obtain ⟨n, hn⟩ := joined_read ls h ha
  have := (litBytes_quote ((ls.map Prod.fst).flatten) (ls.flatMap Prod.snd)).2 (readLit_of_fuel hn)
  rw [joinLiterals, hj]
  exact this

/-- `"a\n" "b"` -/
example : litBytes (joinLiterals [quote (txt "a\\n"), quote (txt "b")]) = some [97, 10, 98] :=
  literals_joined_partial [(txt "a\\n", [97, 10]), (txt "b", [98])] (by decide +kernel) (by decide +kernel)
    ⟨Or.inl (Or.inl (by decide +kernel)), Or.inl (Or.inr (by decide +kernel)), trivial⟩

/-- C76, where it fails: of a literal that ends in an escaped quote that quote is stripped as well, and the backslash before
it then escapes the closing quote. What is written is not a literal. -/
theorem escaped_quote_at_end (b : Text) (bs : List Nat) (h : litBytes (quote (b ++ [ch '\\', ch '"'])) = some bs)
:
    litBytes (joinLiterals [quote (b ++ [ch '\\', ch '"'])]) = none := by
  have hs : stripQuotes (quote (b ++ [ch '\\', ch '"'])) = b ++ [ch '\\'] := by
    have hh := body_head h
    unfold stripQuotes quote
    rw [List.dropWhile_cons_of_pos (by rfl)]
    have hd : (b ++ [ch '\\', ch '"'] ++ [ch '"']).dropWhile (· == ch '"') = b ++ [ch '\\', ch '"'] ++ [ch '"'] := by
      cases b with
      | nil => rfl
      | cons c b =>
        rw [List.cons_append, List.cons_append, List.dropWhile_cons_of_neg]
        simpa [ch] using hh
    rw [hd]
    simp [List.dropWhile, ch]
  cases hl : litBytes (joinLiterals [quote (b ++ [ch '\\', ch '"'])]) with
  | none => rfl
  | some x =>
    exfalso
    have hj : joinLiterals [quote (b ++ [ch '\\', ch '"'])] = quote (b ++ [ch '\\']) := by
      rw [joinLiterals, List.flatMap_cons, List.flatMap_nil, hs]
      simp [quote]
    rw [hj, litBytes_quote] at hl
    have h1 := read_ext _ _ [34, 34] x hl (Or.inr (by simp [isHex])) 1 [] [34] (by decide)
    have h2 := (litBytes_quote _ _).1 h
    rw [readLit_of_fuel (t := b ++ [ch '\\', ch '"'] ++ [34]) (r := (x ++ [], [34]))
      (by rw [← h1]; congr 1; simp [ch])] at h2
    simp at h2

/-- `"say \"hi\""` is a literal with ten characters. -/
example : litBytes (quote (txt "say \\\"hi" ++ [ch '\\', ch '"'])) = some (txt "say \"hi\"") := by decide +kernel

/-- C76, where it fails: the escape sequence at the end of a literal takes up a digit at the start of the next one.
`"\x41" "B"` are the two characters `AB`, the literal written is not valid; `"\1" "2"` are two characters, one is left. -/
theorem escape_continued :
    litBytes (quote (txt "\\x41")) = some (txt "A") ∧ litBytes (quote (txt "B")) = some (txt "B") ∧
      litBytes (joinLiterals [quote (txt "\\x41"), quote (txt "B")]) = none ∧
      litBytes (quote (txt "\\1")) = some [1] ∧ litBytes (quote (txt "2")) = some [50] ∧
      litBytes (joinLiterals [quote (txt "\\1"), quote (txt "2")]) = some [10] := by decide +kernel

/-- C76, where it fails: a literal with an encoding prefix (a `StringLiteral`, src/grammar/c99.g4 15) keeps its first quote.
For `u8"ab"` the text `"u8"ab"` is written, which is not a literal. -/
theorem prefixed_literal :
    joinLiterals [txt "u8" ++ quote (txt "ab")] = txt "\"u8\"ab\"" ∧
      litBytes (joinLiterals [txt "u8" ++ quote (txt "ab")]) = none := by decide +kernel

end Verif.Setpos
