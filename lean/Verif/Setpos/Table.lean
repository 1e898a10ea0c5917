import Verif.Setpos.Model

/-!
C79: the table of the instrument parameters in the generated program has the default and the unit of every parameter. Model
of `instrument_parameters_table` (src/mccode_antlr/translators/c_decls.py 62-78) and of a C compiler reading a row.
-/

namespace Verif.Setpos

open Verif.Escape Verif.DT

/-- `str` of an expression with one element, expression.py 1027-1028, 713-714. The text of an operation is that without the
prefix of instrument parameters. -/
def Ex.print : Ex → Text
  | .val v _ _ _ => v.print
  | .op t _ => t

/-- c_decls.py 63-69: `'\"'` in 68 is the text of one quote. -/
def nps (x : Option Text) : Text :=
  let z := x.getD []
  if z.head? = some (ch '"') ∧ z.getLast? = some (ch '"') then z else ch '"' :: (z ++ [ch '"'])

/-- c_decls.py 71-72, from the fourth member of a row on. The value is an expression, never `None`. -/
def rowTail (value : Ex) (unit : Option Text) : Text :=
  nps (some value.print) ++ (txt ", " ++ (nps unit ++ txt "},"))

/-- Two string literals that are read as the given texts, up to the end of the row. -/
def TwoTexts (t : Text) (a b : List Nat) : Prop :=
  ∃ t1 t2, t = ch '"' :: t1 ∧ readLit t1 = some (a, txt ", " ++ ch '"' :: t2) ∧ readLit t2 = some (b, txt "},")

/-- A text that can be written between quotes as it is. -/
def Bare (z : Text) : Prop := ∀ c ∈ z, c ≠ ch '"' ∧ c ≠ ch '\\' ∧ c ≠ 10

/-- What a default or a unit, kept as the given text, says: a literal says its text, other texts say themselves. -/
inductive SaysText : Text → List Nat → Prop
  | literal (b : Text) (bs : List Nat) : litBytes (quote b) = some bs → SaysText (quote b) bs
  | bare (z : Text) : Bare z → SaysText z (z.flatMap utf8)

theorem read_then (b : Text) (bs : List Nat) (rest : Text) (h : litBytes (quote b) = some bs) :
    readLit (b ++ ch '"' :: rest) = some (bs, rest) := by
  have h1 := read_ext _ b (ch '"' :: rest) bs ((litBytes_quote b bs).1 h)
    (Or.inr (by intro c hc; simp only [List.head?_cons, Option.some.injEq] at hc; subst hc; decide)) 1 [] rest
    (by simp [readFuel])
  rw [List.append_nil] at h1
  exact readLit_of_fuel h1

theorem bare_read (z : Text) (h : Bare z) : litBytes (quote z) = some (z.flatMap utf8) := by
  have hread : ∃ n, readFuel n (z ++ [34]) = some (z.flatMap utf8, []) := by
    induction z with
    | nil => exact ⟨1, rfl⟩
    | cons c z ih =>
      obtain ⟨n, hn⟩ := ih fun x hx => h x (List.mem_cons_of_mem _ hx)
      obtain ⟨h1, h2, h3⟩ := h c List.mem_cons_self
      refine ⟨n + 1, ?_⟩
      rw [List.cons_append, readFuel, if_neg (by simpa using h1), readChar, if_neg h3, if_neg h2]
      simp only [hn, List.flatMap_cons]
  obtain ⟨n, hn⟩ := hread
  exact (litBytes_quote z _).2 (readLit_of_fuel hn)

/-- What is written for a text is a literal of what the text says. -/
theorem nps_says (x : Text) (bs : List Nat) (h : SaysText x bs) :
    ∃ b, nps (some x) = ch '"' :: (b ++ [ch '"']) ∧ litBytes (quote b) = some bs := by
  cases h with
  | literal b bs hb =>
    refine ⟨b, ?_, hb⟩
    unfold nps
    simp only [Option.getD_some]
    rw [if_pos ⟨rfl, by simp [quote, List.getLast?_cons, List.getLast?_append]⟩]
    rfl
  | bare z hz =>
    refine ⟨x, ?_, bare_read x hz⟩
    unfold nps
    simp only [Option.getD_some]
    rw [if_neg]
    rintro ⟨hh, -⟩
    exact (hz _ (List.mem_of_mem_head? hh)).1 rfl

theorem nps_none : nps none = ch '"' :: ([] ++ [ch '"']) := by
  unfold nps
  simp

theorem two_texts (b1 b2 : Text) (a b : List Nat) (h1 : litBytes (quote b1) = some a) (h2 : litBytes (quote b2) = some b) :
    TwoTexts (ch '"' :: (b1 ++ [ch '"']) ++ (txt ", " ++ (ch '"' :: (b2 ++ [ch '"']) ++ txt "},"))) a b := by
  refine ⟨b1 ++ ch '"' :: (txt ", " ++ (ch '"' :: (b2 ++ [ch '"']) ++ txt "},")), b2 ++ ch '"' :: txt "},", by simp, ?_, ?_⟩
  · rw [read_then b1 a _ h1]
    simp
  · exact read_then b2 b _ h2

/-- C79: a C compiler reads in the row of a parameter what the default and the unit say; no unit is the empty text. Missing:
a parameter without a default (`no_default`), and texts with quotes, backslashes or line ends other than literals, where the
row is another one or is not valid (`inch_mark`, `quote_in_unit`, `backslash_in_unit`). -/
theorem row_read_partial (value : Ex) (unit : Option Text) (a b : List Nat) (hv : SaysText value.print a)
    (hu : (unit = none ∧ b = []) ∨ ∃ u, unit = some u ∧ SaysText u b) : TwoTexts (rowTail value unit) a b := by
  obtain ⟨b1, h1, h1'⟩ := nps_says _ _ hv
  unfold rowTail
  rw [h1]
  rcases hu with ⟨rfl, rfl⟩ | ⟨u, rfl, hu⟩
  · rw [nps_none]
    exact two_texts b1 [] a [] h1' (by decide +kernel)
  · obtain ⟨b2, h2, h2'⟩ := nps_says _ _ hu
    rw [h2]
    exact two_texts b1 b2 a b h1' h2'

/-- `string file/"name" = "a.dat"` and `wavelength/"Ang" = 2.5`. -/
example : TwoTexts (rowTail (.val (.text (quote (txt "a.dat"))) .str .value false) (some (quote (txt "name")))) (txt "a.dat") (txt "name") :=
  row_read_partial _ _ _ _ (.literal _ _ (by decide +kernel)) (Or.inr ⟨_, rfl, .literal _ _ (by decide +kernel)⟩)

example : TwoTexts (rowTail (.val (.number (txt "2.5")) .float .value false) (some (txt "Ang"))) (txt "2.5") (txt "Ang") :=
  row_read_partial _ _ _ _ (.bare (txt "2.5") (by unfold Bare; decide +kernel))
    (Or.inr ⟨_, rfl, .bare (txt "Ang") (by unfold Bare; decide +kernel)⟩)

theorem twoTexts_unique {t : Text} {a b a' b' : List Nat} (h : TwoTexts t a b) (h' : TwoTexts t a' b') : a = a' ∧ b = b' := by
  obtain ⟨t1, t2, h1, h2, h3⟩ := h
  obtain ⟨u1, u2, g1, g2, g3⟩ := h'
  rw [h1] at g1
  injection g1 with _ g1
  subst g1
  rw [h2] at g2
  injection g2 with g2
  injection g2 with e1 e2
  refine ⟨e1, ?_⟩
  have := List.append_cancel_left e2
  injection this with _ this
  subst this
  rw [h3] at g3
  injection g3 with g3
  injection g3 with g3 _

/-- C79, where it fails: a parameter without a default has the default `None` in the table, and not the empty text. -/
theorem no_default (dt : DataType) (unit : Option Text) (b : List Nat)
    (hu : (unit = none ∧ b = []) ∨ ∃ u, unit = some u ∧ SaysText u b) :
    TwoTexts (rowTail (.val .none dt .value false) unit) (txt "None") b ∧
      ¬ TwoTexts (rowTail (.val .none dt .value false) unit) [] b := by
  have h := row_read_partial (.val .none dt .value false) unit (txt "None") b
    (.bare (txt "None") (by unfold Bare; decide +kernel)) hu
  refine ⟨h, fun h' => ?_⟩
  have := (twoTexts_unique h h').1
  exact absurd this (by decide +kernel)

/-- C79, where it fails: a unit that is one quote is written as it is, and the row has no end. -/
theorem inch_mark (value : Ex) (a : List Nat) (hv : SaysText value.print a) :
    nps (some [ch '"']) = [ch '"'] ∧ ¬ ∃ a' b, TwoTexts (rowTail value (some [ch '"'])) a' b := by
  have hn : nps (some [ch '"']) = [ch '"'] := rfl
  refine ⟨hn, ?_⟩
  rintro ⟨a', b, t1, t2, h1, h2, h3⟩
  obtain ⟨b1, g1, g2⟩ := nps_says _ _ hv
  unfold rowTail at h1
  rw [g1, hn, List.cons_append] at h1
  injection h1 with _ h1
  have hr := read_then b1 a (txt ", " ++ ([ch '"'] ++ txt "},")) g2
  rw [← h1, List.append_assoc, List.singleton_append, hr] at h2
  injection h2 with h2
  injection h2 with _ h2
  have := List.append_cancel_left h2
  rw [List.singleton_append] at this
  injection this with _ this
  rw [← this] at h3
  exact absurd h3 (by
    have : readLit (txt "},") = none := by decide +kernel
    rw [this]
    simp)

/-- C79, where it fails: a unit with a quote at its end closes the literal too early. -/
theorem quote_in_unit (value : Ex) (a : List Nat) (hv : SaysText value.print a) (z : Text) (hz : Bare z) (hne : z ≠ []) :
    ¬ ∃ a' b, TwoTexts (rowTail value (some (z ++ [ch '"']))) a' b := by
  have hn : nps (some (z ++ [ch '"'])) = ch '"' :: (z ++ [ch '"', ch '"']) := by
    unfold nps
    simp only [Option.getD_some]
    rw [if_neg]
    · simp
    · rintro ⟨hh, -⟩
      cases z with
      | nil => exact hne rfl
      | cons c z => exact (hz c List.mem_cons_self).1 (by simpa using hh)
  rintro ⟨a', b, t1, t2, h1, h2, h3⟩
  obtain ⟨b1, g1, g2⟩ := nps_says _ _ hv
  unfold rowTail at h1
  rw [g1, hn, List.cons_append] at h1
  injection h1 with _ h1
  have hr := read_then b1 a (txt ", " ++ (ch '"' :: (z ++ [ch '"', ch '"']) ++ txt "},")) g2
  rw [← h1, List.append_assoc, List.singleton_append, hr] at h2
  injection h2 with h2
  injection h2 with _ h2
  have := List.append_cancel_left h2
  rw [List.cons_append] at this
  injection this with _ this
  have hr2 := read_then z (z.flatMap utf8) (ch '"' :: txt "},") (bare_read z hz)
  rw [← this] at h3
  have he : z ++ [ch '"', ch '"'] ++ txt "}," = z ++ ch '"' :: (ch '"' :: txt "},") := by simp
  rw [he, hr2] at h3
  injection h3 with h3
  injection h3 with _ h3
  exact absurd h3 (by decide +kernel)

example : Bare (txt "19") ∧ txt "19" ≠ [] := by unfold Bare; decide +kernel

/-- C79, where it fails: a backslash is not escaped. The unit `\n` with a backslash is read as a line end. -/
theorem backslash_in_unit :
    TwoTexts (rowTail (.val (.number (txt "1")) .int .value false) (some (txt "\\n"))) (txt "1") [10] := by
  exact ⟨txt "1\", \"\\n\"},", txt "\\n\"},", by decide +kernel, by decide +kernel, by decide +kernel⟩

end Verif.Setpos
