import Verif.InstrText.Trace

/-!
C83: instrument parameters, how they are printed (src/mccode_antlr/common/parameters.py 8-27, common/textwrap.py 158-172) and
read (src/grammar/McInstr.g4 38-45, src/mccode_antlr/instr/visitor.py 54-75).

A number's default is an expression, which is one token; those which are constants are told by `Reader.constant`. Not modelled:
the type `char *` (read as `string`), the empty expression after `=`, literals with a prefix such as `L"..."` and raw ones.
-/

namespace Verif.InstrText

open Verif.Loader (Text t)

/-- The value of an instrument parameter: a number (an integer or not), an array of numbers or a text. Nothing is given if
there is no default. The text is what Python holds: with its quotes. -/
inductive Default (E : Type)
  | number (int : Bool) (e : Option E)
  | vector (e : Option E)
  | text (s : Option Text)
  deriving DecidableEq, Repr

/-- `InstrumentParameter` (parameters.py 8-11). -/
structure Par (E : Type) where
  name : Text
  unit : Option Text
  value : Default E
  deriving DecidableEq, Repr

/-- Characters at which Python's `splitlines` ends a line. -/
def lineEnd (c : Char) : Bool :=
  c = '\n' || c = '\r' || c = '\x0b' || c = '\x0c' || c = '\x1c' || c = '\x1d' || c = '\x1e' || c = '\u0085' ||
    c = '\u2028' || c = '\u2029'

def isHex (c : Char) : Bool := c.isDigit || ('a' ≤ c && c ≤ 'f') || ('A' ≤ c && c ≤ 'F')

/-- `Schar*` (c99.g4 217-220, 184-208, 127-130): what is between the quotes of a literal. -/
def schars : Text → Bool
  | [] => true
  | c :: l =>
    if c = '\\' then
      match l with
      | [] => false
      | d :: l =>
        if d = 'x' then (l.head?.map isHex).getD false && schars l
        else if d = 'u' then decide (4 ≤ l.length) && (l.take 4).all isHex && schars l
        else if d = 'U' then decide (8 ≤ l.length) && (l.take 8).all isHex && schars l
        else if d = '\r' then
          match l with
          | [] => true
          | e :: l' => if e = '\n' then schars l' else schars (e :: l')
        else "'\"?\\abfnrtv01234567\n".toList.contains d && schars l
    else decide (c ≠ '"' ∧ c ≠ '\n' ∧ c ≠ '\r') && schars l

def quote (s : Text) : Text := '"' :: s ++ ['"']

/-- A word: letters, digits and `_`, not beginning with a digit. -/
def wordLike (s : Text) : Bool :=
  s ≠ [] && (s.all fun c => c.isAlpha || c = '_' || c.isDigit) && (s.head?.map Char.isDigit) = some false

/-- The token made of a text in a line printed by `TextWrapper.line` (textwrap.py 112-115, 137-139), where a line end is added
at each one there is: a literal, a word, a zero, or none of them. Simplified: literals with a prefix (`u8`, `u`, `U`, `L`, `R`)
count as none of them. -/
def lexText {E V P : Type} (s : Text) : Tok E V P :=
  if s.any lineEnd then .junk
  else if s.head? = some '"' ∧ s.getLast? = some '"' ∧ 2 ≤ s.length then
    (if schars s.tail.dropLast then .str s.tail.dropLast else .junk)
  else if wordLike s then lexWord s
  else if s = t "0" then .int s
  else .junk

/-- The word printed for the type (parameters.py 16-22). -/
def printType {E V P : Type} : Default E → List (Tok E V P)
  | .text _ => [.kw .string]
  | .vector _ => [lexWord (t "vector")]
  | .number true _ => [.kw .int]
  | .number false _ => []

/-- The default printed (parameters.py 25-26, expression.py 1131-1137). -/
def printDefault {E V P : Type} (constant : E → Bool) : Default E → List (Tok E V P)
  | .number _ (some e) => if constant e then [.assign, .expr e] else []
  | .vector (some e) => if constant e then [.assign, .expr e] else []
  | .text (some s) => [.assign, lexText s]
  | _ => []

/-- `TextWrapper.unit` (textwrap.py 166-167). -/
def printUnit {E V P : Type} : Option Text → List (Tok E V P)
  | some u => [.div, lexText u]
  | none => []

/-- `InstrumentParameter.to_file` (parameters.py 13-27). -/
def printPar {E V P : Type} (constant : E → Bool) (p : Par E) : List (Tok E V P) :=
  printType p.value ++ [lexWord p.name] ++
    printUnit p.unit ++ printDefault constant p.value

/-- `instrument_parameter_unit?` and `visitInstrument_parameter_unit` (visitor.py 74-75). -/
def readUnit {E V P : Type} : List (Tok E V P) → Except Err (Option Text × List (Tok E V P))
  | .div :: .str u :: l => .ok (some (quote u), l)
  | .div :: _ => .error .syntaxError
  | l => .ok (none, l)

/-- `(Assign expr)?` (visitor.py 57, 63). -/
def readNumber {E V P : Type} : List (Tok E V P) → Except Err (Option E × List (Tok E V P))
  | .assign :: .expr e :: l => .ok (some e, l)
  | .assign :: _ => .error .syntaxError
  | l => .ok (none, l)

/-- `(Assign (StringLiteral | Null | '0'))?` (visitor.py 69-71). -/
def readText {E V P : Type} : List (Tok E V P) → Except Err (Option Text × List (Tok E V P))
  | .assign :: .str s :: l => .ok (some (quote s), l)
  | .assign :: .kw .null :: l => .ok (some (t "NULL"), l)
  | .assign :: .int s :: l => if s = t "0" then .ok (some (t "NULL"), l) else .error .syntaxError
  | .assign :: _ => .error .syntaxError
  | l => .ok (none, l)

/-- The rest of a parameter which is a number. -/
def readNumberPar {E V P : Type} (int : Bool) (n : Text) (l : List (Tok E V P)) : Except Err (Par E × List (Tok E V P)) :=
  match readUnit l with
  | .error e => .error e
  | .ok (u, l) =>
    match readNumber l with
    | .error e => .error e
    | .ok (v, l) => .ok (⟨n, u, .number int v⟩, l)

/-- The rest of a parameter which is a text. -/
def readTextPar {E V P : Type} (n : Text) (l : List (Tok E V P)) : Except Err (Par E × List (Tok E V P)) :=
  match readUnit l with
  | .error e => .error e
  | .ok (u, l) =>
    match readText l with
    | .error e => .error e
    | .ok (v, l) => .ok (⟨n, u, .text v⟩, l)

/-- `instrument_parameter` (McInstr.g4 39-43) and its visitors (visitor.py 54-72). -/
def readPar {E V P : Type} : List (Tok E V P) → Except Err (Par E × List (Tok E V P))
  | .kw .string :: .word n :: l => readTextPar n l
  | .kw .int :: .word n :: l => readNumberPar true n l
  | .kw .double :: .word n :: l => readNumberPar false n l
  | .word n :: l => readNumberPar false n l
  | _ => .error .syntaxError

/-! ### Reading a printed parameter -/

/-- What the C grammar allows between the quotes of a literal: characters other than quotes, backslashes and ends of lines,
escapes, and characters given by their number. -/
inductive Chars : Text → Prop
  | nil : Chars []
  | char {c : Char} {l : Text} : c ∉ ['"', '\\', '\n', '\r'] → Chars l → Chars (c :: l)
  | escape {c : Char} {l : Text} : c ∈ ['\'', '"', '?', '\\', 'a', 'b', 'f', 'n', 'r', 't', 'v', '\n', '\r'] → Chars l →
      Chars ('\\' :: c :: l)
  | lineEnd {l : Text} : Chars l → Chars ('\\' :: '\r' :: '\n' :: l)
  | octal {c : Char} {l : Text} : c ∈ ['0', '1', '2', '3', '4', '5', '6', '7'] → Chars l → Chars ('\\' :: c :: l)
  | hex {c : Char} {l : Text} : isHex c = true → Chars l → Chars ('\\' :: 'x' :: c :: l)
  | small {h l : Text} : h.length = 4 → (∀ c ∈ h, isHex c = true) → Chars l → Chars ('\\' :: 'u' :: (h ++ l))
  | large {h l : Text} : h.length = 8 → (∀ c ∈ h, isHex c = true) → Chars l → Chars ('\\' :: 'U' :: (h ++ l))

theorem hex_plain {c : Char} (h : isHex c = true) : c ∉ ['"', '\\', '\n', '\r'] := by
  intro hc
  simp only [List.mem_cons, List.not_mem_nil, or_false] at hc
  rcases hc with rfl | rfl | rfl | rfl <;> simp [isHex] at h <;> revert h <;> decide

theorem schars_cons (c : Char) (l : Text) : schars (c :: l) =
    if c = '\\' then
      match l with
      | [] => false
      | d :: l =>
        if d = 'x' then (l.head?.map isHex).getD false && schars l
        else if d = 'u' then decide (4 ≤ l.length) && (l.take 4).all isHex && schars l
        else if d = 'U' then decide (8 ≤ l.length) && (l.take 8).all isHex && schars l
        else if d = '\r' then
          match l with
          | [] => true
          | e :: l' => if e = '\n' then schars l' else schars (e :: l')
        else "'\"?\\abfnrtv01234567\n".toList.contains d && schars l
    else decide (c ≠ '"' ∧ c ≠ '\n' ∧ c ≠ '\r') && schars l := by
  rcases l with _ | ⟨d, _ | ⟨e, l⟩⟩ <;> rw [schars] <;> rfl

theorem schars_plain {c : Char} {l : Text} (h : c ∉ ['"', '\\', '\n', '\r']) : schars (c :: l) = schars l := by
  simp only [List.mem_cons, List.not_mem_nil, or_false, not_or] at h
  obtain ⟨h1, h2, h3, h4⟩ := h
  rw [schars_cons, if_neg h2]
  simp [h1, h3, h4]

theorem schars_hex : ∀ (h l : Text), (∀ c ∈ h, isHex c = true) → schars (h ++ l) = schars l
  | [], l, _ => rfl
  | c :: h, l, hh => by
    rw [List.cons_append, schars_plain (hex_plain (hh c (by simp))), schars_hex h l (fun x hx => hh x (by simp [hx]))]

theorem schars_of_chars {l : Text} (h : Chars l) : schars l = true := by
  induction h with
  | nil => rfl
  | char hc _ ih => rw [schars_plain hc, ih]
  | @escape c l hc hl ih =>
    simp only [List.mem_cons, List.not_mem_nil, or_false] at hc
    rcases hc with rfl | rfl | rfl | rfl | rfl | rfl | rfl | rfl | rfl | rfl | rfl | rfl | rfl
    all_goals rw [schars_cons, if_pos rfl]
    all_goals simp [ih]
    cases l with
    | nil => rfl
    | cons e l =>
      simp only
      split_ifs with he
      · subst he
        cases hl with
        | char h _ => simp at h
      · exact ih
  | lineEnd _ ih => simp [schars_cons, ih]
  | octal hc _ ih =>
    simp only [List.mem_cons, List.not_mem_nil, or_false] at hc
    rcases hc with rfl | rfl | rfl | rfl | rfl | rfl | rfl | rfl
    all_goals simp [schars_cons, ih]
  | @hex c l hc _ ih =>
    rw [schars_cons, if_pos rfl]
    simp only [if_true, List.head?_cons, Option.map_some, Option.getD_some, hc, Bool.true_and]
    rw [schars_plain (hex_plain hc), ih]
  | @small h l h4 hh _ ih =>
    rw [schars_cons, if_pos rfl]
    simp only [show ('u' = 'x') = False by decide, if_false, if_true]
    rw [schars_hex h l hh, ih, List.take_append_of_le_length (by omega), List.take_of_length_le (by omega)]
    simp only [List.length_append, h4, Bool.and_true, Bool.and_eq_true, decide_eq_true_eq, List.all_eq_true]
    exact ⟨by omega, hh⟩
  | @large h l h4 hh _ ih =>
    rw [schars_cons, if_pos rfl]
    simp only [show ('U' = 'x') = False by decide, show ('U' = 'u') = False by decide, if_false, if_true]
    rw [schars_hex h l hh, ih, List.take_append_of_le_length (by omega), List.take_of_length_le (by omega)]
    simp only [List.length_append, h4, Bool.and_true, Bool.and_eq_true, decide_eq_true_eq, List.all_eq_true]
    exact ⟨by omega, hh⟩

theorem chars_of_schars : ∀ (n : Nat) (l : Text), l.length ≤ n → schars l = true → Chars l
  | _, [], _, _ => .nil
  | 0, c :: l, hn, _ => by simp at hn
  | n + 1, c :: l, hn, h => by
    simp only [List.length_cons, Nat.add_le_add_iff_right] at hn
    have ih := chars_of_schars n
    rw [schars_cons] at h
    split_ifs at h with hc
    · subst hc
      cases l with
      | nil => simp at h
      | cons d l =>
        simp only [List.length_cons] at hn
        simp only at h
        split_ifs at h with h1 h2 h3 h4
        · subst h1
          rw [Bool.and_eq_true] at h
          cases l with
          | nil => simp at h
          | cons c l =>
            have hc : isHex c = true := by simpa using h.1
            rw [schars_plain (hex_plain hc)] at h
            simp only [List.length_cons] at hn
            exact .hex hc (ih l (by omega) h.2)
        · subst h2
          simp only [Bool.and_eq_true, decide_eq_true_eq, List.all_eq_true] at h
          obtain ⟨⟨a1, a2⟩, a3⟩ := h
          rw [← List.take_append_drop 4 l, schars_hex _ _ a2] at a3
          rw [← List.take_append_drop 4 l]
          exact .small (by rw [List.length_take]; omega) a2 (ih _ (by rw [List.length_drop]; omega) a3)
        · subst h3
          simp only [Bool.and_eq_true, decide_eq_true_eq, List.all_eq_true] at h
          obtain ⟨⟨a1, a2⟩, a3⟩ := h
          rw [← List.take_append_drop 8 l, schars_hex _ _ a2] at a3
          rw [← List.take_append_drop 8 l]
          exact .large (by rw [List.length_take]; omega) a2 (ih _ (by rw [List.length_drop]; omega) a3)
        · subst h4
          cases l with
          | nil => exact .escape (by simp) .nil
          | cons e l =>
            simp only [List.length_cons] at hn
            simp only at h
            split_ifs at h with he
            · subst he
              exact .lineEnd (ih l (by omega) h)
            · exact .escape (by simp) (ih _ (by simp only [List.length_cons]; omega) h)
        · rw [Bool.and_eq_true] at h
          have hl := ih l (by omega) h.2
          have hd : d ∈ ['\'', '"', '?', '\\', 'a', 'b', 'f', 'n', 'r', 't', 'v', '0', '1', '2', '3', '4', '5', '6', '7', '\n'] := by
            simpa using h.1
          have hd' : d ∈ ['\'', '"', '?', '\\', 'a', 'b', 'f', 'n', 'r', 't', 'v', '\n', '\r'] ∨
              d ∈ ['0', '1', '2', '3', '4', '5', '6', '7'] := by
            simp only [List.mem_cons, List.not_mem_nil, or_false] at hd ⊢
            tauto
          rcases hd' with hd' | hd'
          · exact .escape hd' hl
          · exact .octal hd' hl
    · rw [Bool.and_eq_true, decide_eq_true_eq] at h
      exact .char (by simp [hc, h.1]) (ih l hn h.2)

theorem schars_iff (l : Text) : schars l = true ↔ Chars l := ⟨chars_of_schars l.length l (Nat.le_refl _), schars_of_chars⟩

theorem lineEnd_iff (c : Char) : lineEnd c = false ↔ c.toNat ∉ [10, 11, 12, 13, 28, 29, 30, 0x85, 0x2028, 0x2029] := by
  have h : ∀ (d : Char), c = d ↔ c.toNat = d.toNat := fun d => ⟨fun h => h ▸ rfl, fun h => Char.toNat_inj.mp h⟩
  simp only [lineEnd, h, Bool.or_eq_false_iff, decide_eq_false_iff_not, List.mem_cons, List.not_mem_nil, or_false, not_or]
  simp only [show '\n'.toNat = 10 from rfl, show '\r'.toNat = 13 from rfl, show '\x0b'.toNat = 11 from rfl,
    show '\x0c'.toNat = 12 from rfl, show '\x1c'.toNat = 28 from rfl, show '\x1d'.toNat = 29 from rfl,
    show '\x1e'.toNat = 30 from rfl, show '\u0085'.toNat = 0x85 from rfl, show '\u2028'.toNat = 0x2028 from rfl,
    show '\u2029'.toNat = 0x2029 from rfl]
  tauto

/-- A text which is a literal in a line: in quotes, without other quotes, bad escapes and line ends. -/
def IsLiteral (s : Text) : Prop := ∃ i, s = '"' :: i ++ ['"'] ∧ Chars i ∧ ∀ c ∈ i, c.toNat ∉ [10, 11, 12, 13, 28, 29, 30, 0x85, 0x2028, 0x2029]

theorem isLiteral_iff (s : Text) : IsLiteral s ↔ ∃ i, s = '"' :: i ++ ['"'] ∧ schars i = true ∧ ∀ c ∈ i, lineEnd c = false := by
  simp only [IsLiteral, schars_iff, lineEnd_iff]

theorem any_quote (i : Text) : (quote i).any lineEnd = i.any lineEnd := by
  have : lineEnd '"' = false := by decide
  simp [quote, List.any_append, this]

theorem tail_quote (i : Text) : (quote i).tail.dropLast = i := by simp [quote]

theorem lexText_literal {E V P : Type} (i : Text) (h1 : schars i = true) (h2 : ∀ c ∈ i, lineEnd c = false) :
    (lexText (quote i) : Tok E V P) = .str i := by
  have ha : (quote i).any lineEnd = false := by
    rw [any_quote, List.any_eq_false]
    intro c hc
    simp [h2 c hc]
  rw [lexText, if_neg (by simp [ha]), if_pos ⟨rfl, by rw [quote, List.getLast?_append]; rfl, by simp [quote]⟩, tail_quote, if_pos h1]

theorem lexText_str {E V P : Type} (s i : Text) : (lexText s : Tok E V P) = .str i ↔
    s = quote i ∧ schars i = true ∧ ∀ c ∈ i, lineEnd c = false := by
  constructor
  · intro h
    rw [lexText] at h
    split_ifs at h with h1 h2 h3 h4 h5
    · obtain ⟨a1, a2, a3⟩ := h2
      injection h with h
      have hs : s = quote i := by
        obtain ⟨c, l, rfl⟩ : ∃ c l, s = c :: l := by
          cases s with
          | nil => simp at a1
          | cons c l => exact ⟨c, l, rfl⟩
        simp only [List.head?_cons, Option.some.injEq] at a1
        subst a1
        have hne : l ≠ [] := by rintro rfl; simp at a3
        rw [List.getLast?_cons] at a2
        simp only [Option.some.injEq] at a2
        have hl : l.getLast hne = '"' := by
          rw [List.getLast?_eq_some_getLast hne] at a2
          simpa using a2
        simp only [List.tail_cons] at h
        rw [quote, ← h, ← hl, List.cons_append, List.dropLast_append_getLast hne]
      refine ⟨hs, by rw [← h]; exact h3, ?_⟩
      rw [hs, any_quote, List.any_eq_true] at h1
      intro c hc
      cases hle : lineEnd c with
      | false => rfl
      | true => exact absurd ⟨c, hc, hle⟩ h1
    · rw [lexWord] at h
      split at h <;> cases h
  · rintro ⟨rfl, h1, h2⟩
    exact lexText_literal i h1 h2

theorem mem_of_lookup {β : Type} : ∀ (l : List (Text × β)) (s : Text) (k : β), l.lookup s = some k → (s, k) ∈ l
  | [], _, _, h => by cases h
  | (a, b) :: l, s, k, h => by
    rw [List.lookup_cons] at h
    split at h
    · rename_i he
      injection h with h
      have := eq_of_beq he
      subst this h
      exact List.mem_cons_self
    · exact List.mem_cons_of_mem _ (mem_of_lookup l s k h)

theorem lexText_null {E V P : Type} (s : Text) (h : (lexText s : Tok E V P) = .kw .null) : s = t "NULL" := by
  rw [lexText] at h
  split_ifs at h with h1 h2 h3 h4 h5
  rw [lexWord] at h
  cases hl : keywords.lookup s with
  | none => rw [hl] at h; cases h
  | some k =>
    rw [hl] at h
    simp only [Tok.kw.injEq] at h
    subst h
    have hmem : (s, Kw.null) ∈ keywords := mem_of_lookup _ _ _ hl
    have : ∀ p ∈ keywords, p.2 = Kw.null → p.1 = t "NULL" := by decide +kernel
    exact this _ hmem rfl

theorem lexText_NULL {E V P : Type} : (lexText (t "NULL") : Tok E V P) = .kw .null := by
  have h1 : (t "NULL").any lineEnd = false := by decide
  have h2 : wordLike (t "NULL") = true := by decide
  have h3 : keywords.lookup (t "NULL") = some .null := by decide +kernel
  rw [lexText, if_neg (by simp [h1]), if_neg (by decide), if_pos h2, lexWord, h3]

theorem readUnit_none {E V P : Type} (l : List (Tok E V P)) (h : l.head? ≠ some .div) : readUnit l = .ok (none, l) := by
  unfold readUnit
  split <;> first | rfl | exact absurd rfl h

theorem readNumber_none {E V P : Type} (l : List (Tok E V P)) (h : l.head? ≠ some .assign) :
    readNumber l = .ok (none, l) := by
  unfold readNumber
  split <;> first | rfl | exact absurd rfl h

theorem readText_none {E V P : Type} (l : List (Tok E V P)) (h : l.head? ≠ some .assign) : readText l = .ok (none, l) := by
  unfold readText
  split <;> first | rfl | exact absurd rfl h

theorem readUnit_print {E V P : Type} (u : Option Text) (l : List (Tok E V P)) (h : l.head? ≠ some .div)
    (v : Option Text) (l' : List (Tok E V P)) :
    readUnit (printUnit u ++ l) = .ok (v, l') ↔
      (v = u ∧ l' = l ∧ ∀ s, u = some s → IsLiteral s) := by
  cases u with
  | none =>
    simp only [printUnit, List.nil_append, readUnit_none l h, Except.ok.injEq, Prod.mk.injEq, reduceCtorEq, false_implies, implies_true,
      and_true]
    constructor
    · rintro ⟨rfl, rfl⟩; exact ⟨rfl, rfl⟩
    · rintro ⟨rfl, rfl⟩; exact ⟨rfl, rfl⟩
  | some s =>
    simp only [printUnit, List.cons_append, List.nil_append, Option.some.injEq, forall_eq']
    constructor
    · intro hr
      cases hx : (lexText s : Tok E V P) with
      | str i =>
        rw [hx] at hr
        obtain ⟨h1, h2, h3⟩ := (lexText_str s i).mp hx
        simp only [readUnit, Except.ok.injEq, Prod.mk.injEq] at hr
        exact ⟨by rw [← hr.1, h1], hr.2.symm, (isLiteral_iff s).mpr ⟨i, h1, h2, h3⟩⟩
      | _ => rw [hx] at hr; simp [readUnit] at hr
    · rintro ⟨rfl, rfl, hlit⟩
      obtain ⟨i, hs, h2, h3⟩ := (isLiteral_iff s).mp hlit
      rw [show s = quote i from hs, lexText_literal i h2 h3]
      rfl

/-- C83: an instrument parameter whose name is no keyword is read as it was printed exactly if its unit is a literal (with its
quotes), its default is constant (or there is none), a text is a literal or `NULL`, and it is no array. Literals with a
prefix (`L"m"`), which are read too, are outside the model. -/
theorem parameter_again_iff {E V P : Type} (constant : E → Bool) (p : Par E) (hn : ∀ k ∈ keywords, k.1 ≠ p.name)
    (l : List (Tok E V P)) (hl : l.head? = some .comma ∨ l.head? = some .rpar) :
    readPar (printPar constant p ++ l) = .ok (p, l) ↔
      (∀ u, p.unit = some u → IsLiteral u) ∧
      (match p.value with
       | .number _ e => ∀ x, e = some x → constant x = true
       | .text s => ∀ x, s = some x → IsLiteral x ∨ x = t "NULL"
       | .vector _ => False) := by
  obtain ⟨name, unit, value⟩ := p
  simp only at hn ⊢
  have hw : (lexWord name : Tok E V P) = .word name := lexWord_plain hn
  have hla : l.head? ≠ some .assign := by rcases hl with h | h <;> rw [h] <;> simp
  have hld : l.head? ≠ some .div := by rcases hl with h | h <;> rw [h] <;> simp
  have hdd : ∀ v : Default E, (printDefault constant v ++ l : List (Tok E V P)).head? ≠ some .div := by
    intro v
    cases v with
    | number i e =>
      cases e with
      | none => simpa [printDefault] using hld
      | some e =>
        simp only [printDefault]
        split_ifs
        · simp
        · simpa using hld
    | vector e =>
      cases e with
      | none => simpa [printDefault] using hld
      | some e =>
        simp only [printDefault]
        split_ifs
        · simp
        · simpa using hld
    | text s =>
      cases s with
      | none => simpa [printDefault] using hld
      | some s => simp [printDefault]
  have hprint : (printPar constant ⟨name, unit, value⟩ ++ l : List (Tok E V P)) =
      printType value ++ (.word name :: (printUnit unit ++
        (printDefault constant value ++ l))) := by
    simp only [printPar, hw]
    simp
  rw [hprint]
  cases value with
  | vector e =>
    have hv : (lexWord (t "vector") : Tok E V P) = .kw .other := by
      have : keywords.lookup (t "vector") = some .other := by decide +kernel
      rw [lexWord, this]
    simp [printType, hv, readPar]
  | number int e =>
    have hread : readPar (printType (.number int e) ++ (.word name :: (printUnit unit ++
        (printDefault constant (.number int e) ++ l)))) =
        readNumberPar int name (printUnit unit ++
          (printDefault constant (.number int e) ++ l) : List (Tok E V P)) := by
      cases int <;> rfl
    rw [hread]
    have hnum : ∀ v l', readNumber (printDefault constant (.number int e) ++ l : List (Tok E V P)) = .ok (v, l') ↔
        l' = l ∧ v = (match e with | some x => if constant x then some x else none | none => none) := by
      intro v l'
      cases e with
      | none =>
        simp only [printDefault, List.nil_append, readNumber_none l hla, Except.ok.injEq, Prod.mk.injEq]
        constructor
        · rintro ⟨rfl, rfl⟩; exact ⟨rfl, rfl⟩
        · rintro ⟨rfl, rfl⟩; exact ⟨rfl, rfl⟩
      | some x =>
        simp only [printDefault]
        split_ifs with hc
        · simp only [List.cons_append, List.nil_append, readNumber, Except.ok.injEq, Prod.mk.injEq]
          constructor
          · rintro ⟨rfl, rfl⟩; exact ⟨rfl, rfl⟩
          · rintro ⟨rfl, rfl⟩; exact ⟨rfl, rfl⟩
        · simp only [List.nil_append, readNumber_none l hla, Except.ok.injEq, Prod.mk.injEq]
          constructor
          · rintro ⟨rfl, rfl⟩; exact ⟨rfl, rfl⟩
          · rintro ⟨rfl, rfl⟩; exact ⟨rfl, rfl⟩
    have hval := (hnum _ l).mpr ⟨rfl, rfl⟩
    constructor
    · intro h
      rw [readNumberPar] at h
      cases hu : readUnit (printUnit unit ++
          (printDefault constant (.number int e) ++ l) : List (Tok E V P)) with
      | error x => rw [hu] at h; cases h
      | ok q =>
        obtain ⟨u, l'⟩ := q
        rw [hu] at h
        obtain ⟨rfl, rfl, hlit⟩ := (readUnit_print unit _ (hdd _) u l').mp hu
        simp only [hval, Except.ok.injEq, Prod.mk.injEq, Par.mk.injEq, Default.number.injEq, and_true, true_and] at h
        refine ⟨hlit, ?_⟩
        rintro x rfl
        simp only at h
        by_contra hc
        rw [if_neg hc] at h
        cases h
    · rintro ⟨hlit, hc⟩
      have hu := (readUnit_print unit (printDefault constant (.number int e) ++ l : List (Tok E V P)) (hdd _) unit _).mpr
        ⟨rfl, rfl, hlit⟩
      rw [readNumberPar, hu]
      simp only [hval, Except.ok.injEq, Prod.mk.injEq, Par.mk.injEq, Default.number.injEq, and_true, true_and]
      cases e with
      | none => rfl
      | some x => simp [hc x rfl]
  | text s =>
    have hread : readPar (printType (.text s) ++ (.word name :: (printUnit unit ++
        (printDefault constant (.text s) ++ l)))) =
        readTextPar name (printUnit unit ++
          (printDefault constant (.text s) ++ l) : List (Tok E V P)) := rfl
    rw [hread]
    have htext : readText (printDefault constant (.text s) ++ l : List (Tok E V P)) = .ok (s, l) ↔
        ∀ x, s = some x → IsLiteral x ∨ x = t "NULL" := by
      cases s with
      | none => simp [printDefault, readText_none l hla]
      | some x =>
        simp only [printDefault, List.cons_append, List.nil_append, Option.some.injEq, forall_eq']
        constructor
        · intro h
          cases hx : (lexText x : Tok E V P) with
          | str i =>
            obtain ⟨h1, h2, h3⟩ := (lexText_str x i).mp hx
            exact Or.inl ((isLiteral_iff x).mpr ⟨i, h1, h2, h3⟩)
          | kw k =>
            rw [hx] at h
            cases k <;> first | (simp [readText] at h; done) | exact Or.inr (lexText_null x hx)
          | int s =>
            rw [hx] at h
            simp only [readText] at h
            split_ifs at h
            simp only [Except.ok.injEq, Prod.mk.injEq, Option.some.injEq, and_true] at h
            exact Or.inr h.symm
          | _ => rw [hx] at h; simp [readText] at h
        · rintro (hlit | rfl)
          · obtain ⟨i, hs, h2, h3⟩ := (isLiteral_iff x).mp hlit
            rw [show x = quote i from hs, lexText_literal i h2 h3]
            rfl
          · rw [lexText_NULL]
            rfl
    constructor
    · intro h
      rw [readTextPar] at h
      cases hu : readUnit (printUnit unit ++
          (printDefault constant (.text s) ++ l) : List (Tok E V P)) with
      | error x => rw [hu] at h; cases h
      | ok q =>
        obtain ⟨u, l'⟩ := q
        rw [hu] at h
        obtain ⟨rfl, rfl, hlit⟩ := (readUnit_print unit _ (hdd _) u l').mp hu
        refine ⟨hlit, htext.mp ?_⟩
        cases hv : readText (printDefault constant (.text s) ++ l : List (Tok E V P)) with
        | error x => simp [hv] at h
        | ok q =>
          obtain ⟨v, l'⟩ := q
          simp only [hv, Except.ok.injEq, Prod.mk.injEq, Par.mk.injEq, Default.text.injEq, true_and] at h
          rw [h.1, h.2]
    · rintro ⟨hlit, hc⟩
      have hu := (readUnit_print unit (printDefault constant (.text s) ++ l : List (Tok E V P)) (hdd _) unit _).mpr
        ⟨rfl, rfl, hlit⟩
      rw [readTextPar, hu]
      simp only [htext.mpr hc]

example : (∀ k ∈ keywords, k.1 ≠ t "length") ∧
    readPar (printPar (fun e => e < 5) ⟨t "length", some (t "\"m\""), .number false (some 3)⟩ ++ [.rpar] : List (Tok Nat Nat Nat)) =
      .ok (⟨t "length", some (t "\"m\""), .number false (some 3)⟩, [.rpar]) := by decide +kernel

/-- A text of `0` is read as `NULL`, one without quotes is refused. -/
example : readPar (printPar (fun _ => true) ⟨t "file", none, .text (some (t "0"))⟩ ++ [.rpar] : List (Tok Nat Nat Nat)) =
      .ok (⟨t "file", none, .text (some (t "NULL"))⟩, [.rpar]) ∧
    readPar (printPar (fun _ => true) ⟨t "file", none, .text (some (t "a.dat"))⟩ ++ [.rpar] : List (Tok Nat Nat Nat)) =
      .error .syntaxError := by decide +kernel

example : IsLiteral (t "\"m\"") ∧ ¬ IsLiteral (t "m") := by
  refine ⟨⟨['m'], rfl, .char (by decide) .nil, by decide⟩, ?_⟩
  rintro ⟨i, hi, -⟩
  have := congrArg List.head? hi
  simp only [List.cons_append, List.head?_cons] at this
  exact absurd this (by decide)

/-- C83, where it fails: a default which is an expression of names is not printed, the parameter read has none. -/
theorem expression_default_lost {E V P : Type} (constant : E → Bool) (n : Text) (hn : ∀ k ∈ keywords, k.1 ≠ n) (int : Bool) (e : E)
    (he : constant e = false) (l : List (Tok E V P)) (hl : l.head? = some .comma ∨ l.head? = some .rpar) :
    readPar (printPar constant ⟨n, none, .number int (some e)⟩ ++ l) = .ok (⟨n, none, .number int none⟩, l) := by
  have h1 : (printPar constant ⟨n, none, .number int (some e)⟩ : List (Tok E V P)) =
      printPar constant ⟨n, none, .number int none⟩ := by
    simp [printPar, printDefault, he, printType]
    cases int <;> rfl
  rw [h1]
  exact (parameter_again_iff constant ⟨n, none, .number int none⟩ hn l hl).mpr ⟨by simp, by simp⟩

/-- C83, where it fails: a unit which is a word without quotes, as it can be given from Python, is refused. -/
theorem plain_unit_refused {E V P : Type} (constant : E → Bool) (n u : Text) (hn : ∀ k ∈ keywords, k.1 ≠ n)
    (hu : wordLike u = true) (v : Default E) (l : List (Tok E V P)) :
    readPar (printPar constant ⟨n, some u, v⟩ ++ l) = .error .syntaxError := by
  have hw : (lexWord n : Tok E V P) = .word n := lexWord_plain hn
  have hx : ∀ i, (lexText u : Tok E V P) ≠ .str i := by
    intro i hi
    have := ((lexText_str u i).mp hi).1
    rw [this] at hu
    simp [wordLike, quote] at hu
  have hbad : ∀ l' : List (Tok E V P), readUnit (.div :: lexText u :: l') = .error .syntaxError := by
    intro l'
    cases hx' : (lexText u : Tok E V P) with
    | str i => exact absurd hx' (hx i)
    | _ => rfl
  simp only [printPar, hw]
  cases v with
  | vector e =>
    have hv : (lexWord (t "vector") : Tok E V P) = .kw .other := by
      have : keywords.lookup (t "vector") = some .other := by decide +kernel
      rw [lexWord, this]
    simp [printType, hv, readPar]
  | number int e =>
    cases int <;> simp [printType, printUnit, readPar, readNumberPar, hbad]
  | text s => simp [printType, printUnit, readPar, readTextPar, hbad]

example : wordLike (t "cm") = true := by decide

/-- C83, where it fails: a parameter which is an array is refused, whatever it is. -/
theorem vector_refused {E V P : Type} (constant : E → Bool) (n : Text) (u : Option Text) (e : Option E) (l : List (Tok E V P)) :
    readPar (printPar constant ⟨n, u, .vector e⟩ ++ l) = .error .syntaxError := by
  have hv : (lexWord (t "vector") : Tok E V P) = .kw .other := by
    have : keywords.lookup (t "vector") = some .other := by decide +kernel
    rw [lexWord, this]
  simp [printPar, printType, hv, readPar]

/-- C83: `double` is the type of a parameter without type. -/
theorem double_is_the_type {E V P : Type} (n : Text) (l : List (Tok E V P)) :
    readPar (.kw .double :: .word n :: l) = readPar (.word n :: l) := rfl

end Verif.InstrText
