import Mathlib.Data.List.Basic

/-!
C112: what is logged for a syntax error (`syntaxError`, src/mccode_antlr/reader/reader.py 19-34; the same for C code,
translators/c_listener.py 28-43).

Text is a list of characters. Lines are counted from one and columns from zero, as ANTLR does. The parser, and so which errors there are, is
not modelled.
-/

namespace Verif.Reader

abbrev Text := List Char

/-- The place in a list of length `n` that an index of a slice stands for: negative ones count from the end. -/
def place (n : Nat) (i : Int) : Nat := if i < 0 then (n + i).toNat else min i.toNat n

/-- `l[a:b]` -/
def slice {α : Type} (l : List α) (a b : Int) : List α := (l.take (place l.length b)).drop (place l.length a)

/-- One message: the level and the text. -/
inductive Msg
  | error (text : Text)
  | info (text : Text)
  deriving DecidableEq, Repr

/-- `'~'*column + '^ ' + msg` (32). -/
def caret (column : Nat) (msg : Text) : Text := List.replicate column '~' ++ '^' :: ' ' :: msg

/-- The messages for an error (26-34): `head` is the first one, which names the file and the place. -/
def report (pre post : Nat) (head : Text) (source : Text) (line column : Nat) (msg : Text) : List Msg :=
  let lines := source.splitOn '\n'
  let preLines := slice lines ((line : Int) - pre) line
  let postLines := slice lines line ((line : Int) + post)
  .error head :: preLines.map .info ++ .error (caret column msg) :: postLines.map .info

/-! ### Lemmas -/

theorem place_nat (n k : Nat) : place n (k : Int) = min k n := by
  rw [place, if_neg (by omega), Int.toNat_natCast]

theorem slice_nat {α : Type} (l : List α) (a b : Nat) : slice l a b = (l.drop a).take (b - a) := by
  rw [slice, place_nat, place_nat, List.drop_take]
  rcases Nat.le_total a l.length with h | h
  · rw [Nat.min_eq_left h]
    rcases Nat.le_total b l.length with h' | h'
    · rw [Nat.min_eq_left h']
    · rw [Nat.min_eq_right h', List.take_of_length_le (by simp), List.take_of_length_le (by simp; omega)]
  · rw [Nat.min_eq_right h, List.drop_of_length_le h]
    simp

/-! ### C112 -/

/-- C112: for an error in line `line`, not one of the first `pre - 1`, the `pre` lines up to it are logged, then a mark below the column,
and the `post` lines that follow. -/
theorem report_partial (pre post : Nat) (head source : Text) (line column : Nat) (msg : Text) (h : pre ≤ line) :
    report pre post head source line column msg =
      .error head :: (((source.splitOn '\n').drop (line - pre)).take pre).map .info ++
        .error (List.replicate column '~' ++ "^ ".toList ++ msg) :: (((source.splitOn '\n').drop line).take post).map .info := by
  have e1 : (line : Int) - pre = ((line - pre : Nat) : Int) := by omega
  have e2 : (line : Int) + post = ((line + post : Nat) : Int) := by omega
  have e3 : line - (line - pre) = pre := by omega
  have e4 : line + post - line = post := by omega
  rw [report]
  simp only [e1, e2, slice_nat, e3, e4, caret]
  simp

/-- C112: the line with the error is logged just before the mark exactly if it is not one of the first `pre - 1` lines, or the source has
fewer than `pre` lines. -/
theorem shown_iff (pre post : Nat) (head source : Text) (line column : Nat) (msg l : Text) (hpre : 1 ≤ pre) (h1 : 1 ≤ line)
    (hl : (source.splitOn '\n')[line - 1]? = some l) :
    (∃ before after : List Msg, after.length ≤ post ∧
      report pre post head source line column msg = before ++ .info l :: .error (caret column msg) :: after) ↔
      pre ≤ line ∨ (source.splitOn '\n').length < pre := by
  have hn : line - 1 < (source.splitOn '\n').length := (List.getElem?_eq_some_iff.1 hl).1
  have e2 : (line : Int) + post = ((line + post : Nat) : Int) := by omega
  have hpost : (slice (source.splitOn '\n') line ((line : Int) + post)).length ≤ post := by
    rw [e2, slice_nat, List.length_take]
    omega
  have last : ∀ a : Nat, a ≤ line - 1 → ∃ before, slice (source.splitOn '\n') a line = before ++ [l] := by
    intro a ha
    refine ⟨((source.splitOn '\n').drop a).take (line - 1 - a), ?_⟩
    rw [slice_nat]
    have e : line - a = (line - 1 - a) + 1 := by omega
    rw [e, List.take_add_one, List.getElem?_drop]
    have e' : a + (line - 1 - a) = line - 1 := by omega
    rw [e', hl]
    rfl
  have shown : (∃ a : Nat, a ≤ line - 1 ∧
      slice (source.splitOn '\n') ((line : Int) - pre) line = slice (source.splitOn '\n') a line) →
      ∃ before after : List Msg, after.length ≤ post ∧
        report pre post head source line column msg = before ++ .info l :: .error (caret column msg) :: after := by
    rintro ⟨a, ha, he⟩
    obtain ⟨b, hb⟩ := last a ha
    refine ⟨.error head :: b.map .info, (slice (source.splitOn '\n') line ((line : Int) + post)).map .info, by simpa using hpost, ?_⟩
    rw [report]
    simp only [he, hb]
    simp
  constructor
  · rintro ⟨before, after, hlen, hb⟩
    by_contra hc
    push Not at hc
    have hempty : slice (source.splitOn '\n') ((line : Int) - pre) line = [] := by
      rw [slice, place_nat, place, if_pos (by omega), List.drop_eq_nil_iff, List.length_take]
      omega
    rw [report] at hb
    simp only [hempty, List.map_nil] at hb
    -- the mark is the second message, and what precedes it an error
    rcases before with _ | ⟨m, before⟩
    · cases (List.cons.inj hb).1
    · have hb' := (List.cons.inj hb).2
      rcases before with _ | ⟨m', before⟩
      · cases (List.cons.inj hb').1
      · have hb2 := (List.cons.inj hb').2
        -- no mark among the lines that follow
        have hmem : Msg.error (caret column msg) ∈ (slice (source.splitOn '\n') line ((line : Int) + post)).map Msg.info := by
          rw [hb2]
          simp
        obtain ⟨x, -, hx⟩ := List.mem_map.1 hmem
        cases hx
  · rintro (h | h)
    · exact shown ⟨line - pre, by omega, by rw [show (line : Int) - pre = ((line - pre : Nat) : Int) by omega]⟩
    · by_cases hle : pre ≤ line
      · exact shown ⟨line - pre, by omega, by rw [show (line : Int) - pre = ((line - pre : Nat) : Int) by omega]⟩
      · refine shown ⟨(source.splitOn '\n').length + line - pre, by omega, ?_⟩
        rw [slice, slice, place_nat, place_nat]
        congr 1
        rw [place, if_pos (by omega)]
        omega

/-- C112 fails for an error in the first lines of a source of some length: the mark is logged with no line above it. -/
theorem early_not_shown (pre post : Nat) (head source : Text) (line column : Nat) (msg : Text) (h : line < pre)
    (hn : pre ≤ (source.splitOn '\n').length) :
    report pre post head source line column msg =
      .error head :: .error (caret column msg) :: (((source.splitOn '\n').drop line).take post).map .info := by
  have hempty : slice (source.splitOn '\n') ((line : Int) - pre) line = [] := by
    rw [slice, place_nat, place, if_pos (by omega), List.drop_eq_nil_iff, List.length_take]
    omega
  have e2 : (line : Int) + post = ((line + post : Nat) : Int) := by omega
  have e4 : line + post - line = post := by omega
  rw [report]
  simp only [hempty, e2, slice_nat, e4]
  simp

/-- An error in the last of six lines is shown with four lines before it; one in the second is not. -/
example : report 5 2 "h".toList "a\nb\nc\nd\ne\nf".toList 6 1 "bad".toList =
    [.error "h".toList, .info "b".toList, .info "c".toList, .info "d".toList, .info "e".toList, .info "f".toList,
      .error "~^ bad".toList] := by decide +kernel

example : report 5 2 "h".toList "a\nb\nc\nd\ne\nf".toList 2 0 "bad".toList =
    [.error "h".toList, .error "^ bad".toList, .info "c".toList, .info "d".toList] := by decide +kernel

/-- In a source of four lines it is shown, without the line before it. -/
example : report 5 2 "h".toList "a\nb\nc\nd".toList 2 0 "bad".toList =
    [.error "h".toList, .info "b".toList, .error "^ bad".toList, .info "c".toList, .info "d".toList] := by decide +kernel

end Verif.Reader
