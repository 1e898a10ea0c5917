import Mathlib.Data.List.Infix
import Mathlib.Data.List.SplitOn
import Mathlib.Tactic.Push

/-!
What the loaders of result files use of the texts and numbers of Python: `strip`, `partition`, `split`, `str` and `int`.
White space is that of ASCII; `int` takes an optional minus sign and digits (Python also takes `+`, `_`, surrounding
white space and digits of other scripts).
-/

namespace Verif.Loader

inductive Err
  | runtimeError
  | valueError
  | keyError
  | indexError
  | typeError
  | zeroDivision
  deriving DecidableEq, Repr

abbrev Text := List Char

def isSpace (c : Char) : Bool := c = ' ' || c = '\n' || c = '\t' || c = '\r' || c = '\x0b' || c = '\x0c'

def lstrip (s : Text) : Text := s.dropWhile isSpace

def rstrip (s : Text) : Text := (s.reverse.dropWhile isSpace).reverse

/-- `s.strip()`. -/
def strip (s : Text) : Text := rstrip (lstrip s)

/-- `s.partition(m)`: what is before and after the first `m`; all of the text and nothing if there is none. -/
def partition (m : Text) : Text → Text × Text
  | [] => ([], [])
  | c :: s => if m.isPrefixOf (c :: s) then ([], (c :: s).drop m.length) else (c :: (partition m s).1, (partition m s).2)

/-- `s.split('\n')`. -/
def lines (s : Text) : List Text := s.splitOn '\n'

/-- What `print` writes for each of some lines. -/
def unlines : List Text → Text
  | [] => []
  | l :: ls => l ++ '\n' :: unlines ls

/-! ### Lemmas on `partition` -/

theorem partition_eq {m a b : Text} (hm : m ≠ []) (h : ¬ m <:+: a ++ m.dropLast) : partition m (a ++ (m ++ b)) = (a, b) := by
  induction a with
  | nil =>
    cases m with
    | nil => exact absurd rfl hm
    | cons c m =>
      rw [List.nil_append, List.cons_append, partition, if_pos]
      · simp
      · rw [List.isPrefixOf_iff_prefix]
        exact ⟨b, by simp⟩
  | cons c a ih =>
    rw [List.cons_append, partition, if_neg]
    · rw [ih fun hi => h (by rw [List.cons_append]; exact List.infix_cons hi)]
    · rw [List.isPrefixOf_iff_prefix]
      intro hp
      apply h
      have hlen : m.length ≤ (c :: a ++ m.dropLast).length := by
        simp only [List.length_append, List.length_cons, List.length_dropLast]
        omega
      have h1 : c :: a ++ m.dropLast <+: c :: (a ++ (m ++ b)) := by
        rw [List.cons_append, List.cons_prefix_cons]
        refine ⟨rfl, ?_⟩
        rw [List.prefix_append_right_inj]
        exact (List.dropLast_prefix m).trans (List.prefix_append m b)
      exact (List.prefix_of_prefix_length_le hp h1 hlen).isInfix

theorem partition_none {m a : Text} (h : ¬ m <:+: a) : partition m a = (a, []) := by
  induction a with
  | nil => rfl
  | cons c a ih =>
    rw [partition, if_neg, ih fun hi => h (List.infix_cons hi)]
    rw [List.isPrefixOf_iff_prefix]
    exact fun hp => h hp.isInfix

/-- A text without `x` occurs on one side of an `x`. -/
theorem infix_sep {x : Char} {m a b : Text} (hm : x ∉ m) (h : m <:+: a ++ x :: b) : m <:+: a ∨ m <:+: b := by
  induction a with
  | nil =>
    rw [List.nil_append] at h
    rcases List.infix_cons_iff.mp h with hp | hi
    · cases m with
      | nil => exact .inl (List.nil_infix)
      | cons c m =>
        have := (List.cons_prefix_cons.mp hp).1
        subst this
        exact absurd List.mem_cons_self hm
    · exact .inr hi
  | cons c a ih =>
    rw [List.cons_append] at h
    rcases List.infix_cons_iff.mp h with hp | hi
    · left
      have h1 : c :: a <+: c :: (a ++ x :: b) := by rw [← List.cons_append]; exact List.prefix_append _ _
      rcases List.prefix_or_prefix_of_prefix hp h1 with h2 | h2
      · exact h2.isInfix
      · obtain ⟨t, ht⟩ := h2
        cases t with
        | nil => rw [List.append_nil] at ht; rw [← ht]
        | cons y t =>
          exfalso
          obtain ⟨u, hu⟩ := hp
          rw [← ht] at hu
          have : y = x := by
            have := congrArg (fun l => l[(c :: a).length]?) hu
            simpa using this
          subst this
          rw [← ht] at hm
          simp at hm
    · rcases ih hi with h | h
      · exact .inl (List.infix_cons h)
      · exact .inr h

theorem infix_unlines {m : Text} (hm : '\n' ∉ m) (hne : m ≠ []) : ∀ {ls : List Text} {b : Text}, m <:+: unlines ls ++ b →
    (∃ l ∈ ls, m <:+: l) ∨ m <:+: b
  | [], b, h => .inr (by simpa [unlines] using h)
  | l :: ls, b, h => by
    rw [unlines, List.append_assoc, List.cons_append] at h
    rcases infix_sep hm h with h | h
    · exact .inl ⟨l, List.mem_cons_self, h⟩
    · rcases infix_unlines hm hne h with ⟨k, hk, h⟩ | h
      · exact .inl ⟨k, List.mem_cons_of_mem _ hk, h⟩
      · exact .inr h

/-- A marker is found at the start of a line if no line before has it. -/
theorem partition_lines {m : Text} (hm : '\n' ∉ m) (hne : m ≠ []) {ls : List Text} (h : ∀ l ∈ ls, ¬ m <:+: l) (b : Text) :
    partition m (unlines ls ++ (m ++ b)) = (unlines ls, b) := by
  refine partition_eq hne fun hi => ?_
  rcases infix_unlines hm hne hi with ⟨l, hl, hi⟩ | hi
  · exact h l hl hi
  · have := hi.length_le
    rw [List.length_dropLast] at this
    have := List.length_pos_iff.mpr hne
    omega

theorem unlines_append (a b : List Text) : unlines (a ++ b) = unlines a ++ unlines b := by
  induction a with
  | nil => rfl
  | cons l a ih => simp [unlines, ih]

/-- The first occurrence of a single character. -/
theorem partition_char {x : Char} {a b : Text} (h : x ∉ a) : partition [x] (a ++ x :: b) = (a, b) := by
  have := partition_eq (m := [x]) (a := a) (b := b) (by simp) (by
    simp only [List.dropLast_singleton, List.append_nil]
    exact fun hi => h ((List.singleton_infix_iff _ _).mp hi))
  simpa using this

/-! ### Lemmas on `strip` -/

theorem lstrip_cons {c : Char} {s : Text} (h : isSpace c = false) : lstrip (c :: s) = c :: s := by
  rw [lstrip, List.dropWhile_cons, if_neg (by simp [h])]

theorem rstrip_snoc {c : Char} {s : Text} (h : isSpace c = false) : rstrip (s ++ [c]) = s ++ [c] := by
  rw [rstrip, List.reverse_append, List.reverse_singleton, List.singleton_append, List.dropWhile_cons, if_neg (by simp [h])]
  simp

theorem rstrip_space {c : Char} {s : Text} (h : isSpace c = true) : rstrip (s ++ [c]) = rstrip s := by
  rw [rstrip, List.reverse_append, List.reverse_singleton, List.singleton_append, List.dropWhile_cons, if_pos h, rstrip]

theorem lstrip_space {c : Char} {s : Text} (h : isSpace c = true) : lstrip (c :: s) = lstrip s := by
  rw [lstrip, List.dropWhile_cons, if_pos h, lstrip]

/-- A text without white space at its ends. -/
def Stripped (s : Text) : Prop := (∀ c, s.head? = some c → isSpace c = false) ∧ ∀ c, s.getLast? = some c → isSpace c = false

theorem lstrip_stripped {s : Text} (h : Stripped s) : lstrip s = s := by
  cases s with
  | nil => rfl
  | cons c s => exact lstrip_cons (h.1 c rfl)

theorem rstrip_stripped {s : Text} (h : ∀ c, s.getLast? = some c → isSpace c = false) : rstrip s = s := by
  rcases List.eq_nil_or_concat s with rfl | ⟨t, c, rfl⟩
  · rfl
  · rw [List.concat_eq_append]
    exact rstrip_snoc (h c (by simp))

theorem strip_stripped {s : Text} (h : Stripped s) : strip s = s := by
  rw [strip, lstrip_stripped h, rstrip_stripped h.2]

theorem strip_space {c : Char} {s : Text} (hc : isSpace c = true) (h : Stripped s) : strip (c :: s) = s := by
  rw [strip, lstrip_space hc, lstrip_stripped h, rstrip_stripped h.2]

/-! ### Lemmas on lines -/

theorem splitOn_unlines : ∀ (ls : List Text) (l : Text), (∀ x ∈ ls, '\n' ∉ x) → '\n' ∉ l →
    lines (unlines ls ++ l) = ls ++ [l]
  | [], l, _, hl => by
    rw [unlines, List.nil_append, List.nil_append, lines]
    exact List.splitOn_eq_singleton hl
  | x :: ls, l, h, hl => by
    have hx : '\n' ∉ x := h x List.mem_cons_self
    rw [unlines, List.append_assoc, List.cons_append, lines, List.splitOn_append_cons_self_of_not_mem hx]
    have := splitOn_unlines ls l (fun y hy => h y (List.mem_cons_of_mem _ hy)) hl
    rw [lines] at this
    rw [this, List.cons_append]

/-! ### Numbers -/

def digit (n : Nat) : Char := Char.ofNat (48 + n % 10)

/-- `str(n)`. -/
def dec (n : Nat) : Text := if n < 10 then [digit n] else dec (n / 10) ++ [digit n]

def strInt : Int → Text
  | .ofNat n => dec n
  | .negSucc n => '-' :: dec (n + 1)

def digitVal (c : Char) : Option Nat := if '0' ≤ c ∧ c ≤ '9' then some (c.toNat - 48) else none

def parseDigits : Nat → Text → Option Nat
  | n, [] => some n
  | n, c :: s =>
    match digitVal c with
    | none => none
    | some d => parseDigits (10 * n + d) s

/-- `int(s)`. -/
def parseInt : Text → Except Err Int
  | '-' :: c :: s =>
    match parseDigits 0 (c :: s) with
    | some n => .ok (-n)
    | none => .error .valueError
  | c :: s =>
    match parseDigits 0 (c :: s) with
    | some n => .ok n
    | none => .error .valueError
  | [] => .error .valueError

theorem digit_cases (n : Nat) : ∀ k < 10, n % 10 = k → digit n = Char.ofNat (48 + k) := by
  intro k _ h
  rw [digit, h]

theorem digitVal_all : ∀ k < 10, digitVal (Char.ofNat (48 + k)) = some k ∧ isSpace (Char.ofNat (48 + k)) = false ∧
    Char.ofNat (48 + k) ≠ '-' ∧ Char.ofNat (48 + k) ≠ '\n' := by decide

theorem digitVal_digit (n : Nat) : digitVal (digit n) = some (n % 10) ∧ isSpace (digit n) = false ∧ digit n ≠ '-' ∧
    digit n ≠ '\n' :=
  digitVal_all (n % 10) (Nat.mod_lt _ (by omega))

theorem parseDigits_append (s t : Text) : ∀ n, parseDigits n (s ++ t) = (parseDigits n s).bind fun k => parseDigits k t := by
  induction s with
  | nil => intro n; rfl
  | cons c s ih =>
    intro n
    rw [List.cons_append, parseDigits, parseDigits]
    cases digitVal c with
    | none => rfl
    | some d => exact ih _

theorem parseDigits_dec (n : Nat) : parseDigits 0 (dec n) = some n := by
  induction n using dec.induct with
  | case1 n h =>
    rw [dec, if_pos h]
    simp [parseDigits, (digitVal_digit n).1, Nat.mod_eq_of_lt h]
  | case2 n h ih =>
    rw [dec, if_neg h, parseDigits_append, ih, Option.bind_some]
    simp only [parseDigits, (digitVal_digit n).1, Option.some.injEq]
    omega

theorem dec_mem (n : Nat) : ∀ c ∈ dec n, isSpace c = false ∧ c ≠ '-' ∧ c ≠ '\n' := by
  induction n using dec.induct with
  | case1 n h =>
    intro c hc
    rw [dec, if_pos h, List.mem_singleton] at hc
    subst hc
    exact (digitVal_digit n).2
  | case2 n h ih =>
    intro c hc
    rw [dec, if_neg h, List.mem_append, List.mem_singleton] at hc
    rcases hc with hc | rfl
    · exact ih c hc
    · exact (digitVal_digit n).2

theorem dec_ne_nil (n : Nat) : dec n ≠ [] := by
  rw [dec]
  split_ifs <;> simp

/-- `int(str(z))` is `z`. -/
theorem parseInt_strInt (z : Int) : parseInt (strInt z) = .ok z := by
  cases z with
  | ofNat n =>
    rw [strInt]
    obtain ⟨c, s, hcs⟩ := List.exists_cons_of_ne_nil (dec_ne_nil n)
    have hp := parseDigits_dec n
    have hm := (dec_mem n c (by rw [hcs]; exact List.mem_cons_self)).2.1
    rw [hcs] at hp ⊢
    rw [parseInt, hp]
    · rfl
    · intro c' s' h1 h2
      exact hm h1
  | negSucc n =>
    rw [strInt]
    obtain ⟨c, s, hcs⟩ := List.exists_cons_of_ne_nil (dec_ne_nil (n + 1))
    have hp := parseDigits_dec (n + 1)
    rw [hcs] at hp ⊢
    rw [parseInt, hp]
    simp only [Except.ok.injEq]
    omega

theorem strInt_mem (z : Int) : ∀ c ∈ strInt z, isSpace c = false := by
  cases z with
  | ofNat n => exact fun c hc => (dec_mem n c hc).1
  | negSucc n =>
    intro c hc
    rw [strInt] at hc
    rcases List.mem_cons.mp hc with rfl | hc
    · rfl
    · exact (dec_mem (n + 1) c hc).1

theorem stripped_of_forall {s : Text} (h : ∀ c ∈ s, isSpace c = false) : Stripped s :=
  ⟨fun c hc => h c (List.mem_of_mem_head? hc), fun c hc => h c (List.mem_of_mem_getLast? hc)⟩

end Verif.Loader
