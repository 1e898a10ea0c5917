import Verif.Common.Decimal
import Mathlib.Data.List.Nodup

/-!
C100: names of component instances that are written without one: `COMPONENT COPY = ...`, `COMPONENT MYSELF = ...` and
`COMPONENT COPY(name) = ...` (src/grammar/McInstr.g4 69-73, src/mccode_antlr/instr/visitor.py 159-166), with the check of
`Instr.add_component` (src/mccode_antlr/instr/instr.py 119-122) and the instances of included instruments (visitor.py 103-106, 151-155).
-/

namespace Verif.AutoNames
open Verif

abbrev Text := List Char

/-- The name as written. -/
inductive Written
  | named (s : Text)
  | copyOf (s : Text)
  | unnamed
  deriving DecidableEq, Repr

/-- visitor.py 159-166: the name, when the instrument has `count` instances. -/
def nameOf (w : Written) (count : Nat) : Text :=
  match w with
  | .named s => s
  | .copyOf s => s ++ '_' :: decimal (count + 1)
  | .unnamed => "Comp_".toList ++ decimal (count + 1)

/-- The instances of an instrument as written, with whether they are REMOVABLE, are added to those of names `names`
(visitor.py 109-157, instr.py 119-122); those that are REMOVABLE are not added to an instrument that is included. -/
def readNames (included : Bool) : List (Written × Bool) → List Text → Option (List Text)
  | [], names => some names
  | (w, removable) :: rest, names =>
    if included && removable then readNames included rest names
    else if nameOf w names.length ∈ names then none
    else readNames included rest (names ++ [nameOf w names.length])

/-- visitor.py 103-106: the instances of an included instrument are added to those read before. -/
def addIncluded : List Text → List Text → Option (List Text)
  | names, [] => some names
  | names, n :: ns => if n ∈ names then none else addIncluded (names ++ [n]) ns

/-- Whether an instance is written with its name. -/
def Written.isNamed : Written → Bool
  | .named _ => true
  | _ => false

/-! ### Names made by counting -/

/-- A name made by counting: something, an underscore and the number. -/
theorem counted (w : Written) (h : w.isNamed = false) (count : Nat) : ∃ s, nameOf w count = s ++ '_' :: decimal (count + 1) := by
  cases w with
  | named s => cases h
  | copyOf s => exact ⟨s, rfl⟩
  | unnamed => exact ⟨"Comp".toList, by simp [nameOf]⟩

theorem split_last (a b x y : Text) (hx : '_' ∉ x) (hy : '_' ∉ y) (h : a ++ '_' :: x = b ++ '_' :: y) : x = y := by
  have h' : x.reverse ++ '_' :: a.reverse = y.reverse ++ '_' :: b.reverse := by
    have := congrArg List.reverse h
    simpa using this
  have ht : ∀ (l m : Text), '_' ∉ l → (l ++ '_' :: m).takeWhile (· ≠ '_') = l := by
    intro l m hl
    induction l with
    | nil => simp
    | cons c l ih =>
      simp only [List.mem_cons, not_or] at hl
      have hc : c ≠ '_' := fun hc => hl.1 hc.symm
      simp [hc]
      simpa using ih hl.2
  have := congrArg (List.takeWhile (· ≠ '_')) h'
  rw [ht _ _ (by simpa using hx), ht _ _ (by simpa using hy)] at this
  exact List.reverse_injective this

theorem counted_ne (w w' : Written) (h : w.isNamed = false) (h' : w'.isNamed = false) (a b : Nat) (hab : a ≠ b) :
    nameOf w a ≠ nameOf w' b := by
  obtain ⟨s, hs⟩ := counted w h a
  obtain ⟨s', hs'⟩ := counted w' h' b
  rw [hs, hs']
  intro he
  have := decimal_injective _ _ (split_last s s' _ _ (not_mem_decimal _ _ (by decide)) (not_mem_decimal _ _ (by decide)) he)
  omega

/-- The names of instances that follow `k` others. -/
def namesFrom : Nat → List Written → List Text
  | _, [] => []
  | k, w :: ws => nameOf w k :: namesFrom (k + 1) ws

theorem namesFrom_length (ws : List Written) : ∀ k, (namesFrom k ws).length = ws.length := by
  induction ws with
  | nil => intro k; rfl
  | cons w ws ih => intro k; simp [namesFrom, ih]

theorem namesFrom_get (ws : List Written) : ∀ (k i : Nat) (h : i < ws.length),
    (namesFrom k ws)[i]'(by rw [namesFrom_length]; exact h) = nameOf ws[i] (k + i) := by
  induction ws with
  | nil => intro k i h; cases h
  | cons w ws ih =>
    intro k i h
    cases i with
    | zero => rfl
    | succ i =>
      simp only [namesFrom, List.getElem_cons_succ]
      rw [ih (k + 1) i (by simpa using h)]
      congr 1
      omega

theorem readNames_eq (ws : List (Written × Bool)) : ∀ names : List Text, names.Nodup →
    readNames false ws names = if (names ++ namesFrom names.length (ws.map (·.1))).Nodup
      then some (names ++ namesFrom names.length (ws.map (·.1))) else none := by
  induction ws with
  | nil =>
    intro names hn
    simp [readNames, namesFrom, hn]
  | cons x ws ih =>
    obtain ⟨w, r⟩ := x
    intro names hn
    simp only [readNames, Bool.false_and, Bool.false_eq_true, if_false, List.map_cons, namesFrom]
    by_cases hm : nameOf w names.length ∈ names
    · rw [if_pos hm, if_neg]
      intro hc
      rw [List.nodup_append] at hc
      exact hc.2.2 _ hm _ (by simp) rfl
    · rw [if_neg hm, ih (names ++ [nameOf w names.length]) (by
        rw [List.nodup_append]
        refine ⟨hn, by simp, fun a ha b hb hab => ?_⟩
        rw [List.mem_singleton] at hb
        subst hab hb
        exact hm ha)]
      simp

/-- C100: an instrument (not included by another) is refused iff two of its instances have the same name and at least one of them was
written with it; otherwise the names are as stated, one for each instance. -/
theorem refused_iff (ws : List (Written × Bool)) :
    (readNames false ws [] = none ↔ ∃ (i j : Nat) (hi : i < ws.length) (hj : j < ws.length), i < j ∧
      (ws[i].1.isNamed = true ∨ ws[j].1.isNamed = true) ∧ nameOf ws[i].1 i = nameOf ws[j].1 j) ∧
    ∀ ns, readNames false ws [] = some ns → ns.Nodup ∧ ns.length = ws.length ∧
      ∀ (i : Nat) (hi : i < ws.length) (hi' : i < ns.length), ns[i] = nameOf ws[i].1 i := by
  have hlen : (namesFrom 0 (ws.map (·.1))).length = ws.length := by rw [namesFrom_length, List.length_map]
  have hget : ∀ (i : Nat) (hi : i < ws.length), (namesFrom 0 (ws.map (·.1)))[i]'(by omega) = nameOf ws[i].1 i := by
    intro i hi
    rw [namesFrom_get _ _ _ (by simpa using hi)]
    simp
  rw [readNames_eq ws [] List.nodup_nil]
  simp only [List.nil_append, List.length_nil]
  constructor
  · by_cases hn : (namesFrom 0 (ws.map (·.1))).Nodup
    · rw [if_pos hn]
      simp only [reduceCtorEq, false_iff, not_exists, not_and]
      intro i j hi hj hij _ he
      rw [← hget i hi, ← hget j hj] at he
      have := (List.Nodup.getElem_inj_iff hn).1 he
      omega
    · rw [if_neg hn]
      simp only [true_iff]
      rw [List.Nodup, List.pairwise_iff_getElem] at hn
      push Not at hn
      obtain ⟨i, j, hi, hj, hij, he⟩ := hn
      rw [hlen] at hi hj
      rw [hget i hi, hget j hj] at he
      refine ⟨i, j, hi, hj, hij, ?_, he⟩
      by_contra hc
      push Not at hc
      exact counted_ne _ _ (by simpa using hc.1) (by simpa using hc.2) i j (by omega) he
  · intro ns h
    split_ifs at h with hn
    cases h
    exact ⟨hn, hlen, fun i hi hi' => hget i hi⟩

/-- C100: instances written without a name never clash with each other. -/
theorem unnamed_never_refused (ws : List (Written × Bool)) (h : ∀ w ∈ ws, w.1.isNamed = false) :
    ∃ ns, readNames false ws [] = some ns := by
  cases hr : readNames false ws [] with
  | some ns => exact ⟨ns, rfl⟩
  | none =>
    obtain ⟨i, j, hi, hj, _, hn, _⟩ := (refused_iff ws).1.1 hr
    rw [h _ (List.getElem_mem hi), h _ (List.getElem_mem hj)] at hn
    simp at hn

theorem addIncluded_none (ns : List Text) : ∀ names, (∃ n ∈ ns, n ∈ names) → addIncluded names ns = none := by
  induction ns with
  | nil => rintro names ⟨n, hn, _⟩; cases hn
  | cons a ns ih =>
    rintro names ⟨n, hn, hm⟩
    simp only [addIncluded]
    split_ifs with ha
    · rfl
    · rcases List.mem_cons.1 hn with rfl | hn
      · exact absurd hm ha
      · exact ih _ ⟨n, hn, by simp [hm]⟩

theorem readNames_keeps (included : Bool) (ws : List (Written × Bool)) : ∀ names ns, readNames included ws names = some ns →
    ∀ n ∈ names, n ∈ ns := by
  induction ws with
  | nil => intro names ns h n hn; cases h; exact hn
  | cons x ws ih =>
    obtain ⟨w, r⟩ := x
    intro names ns h n hn
    simp only [readNames] at h
    split_ifs at h
    · exact ih _ _ h n hn
    · exact ih _ _ h n (by simp [hn])

/-- C100 does not hold with inclusion: each instrument counts its own instances, so an instrument with an instance without a name in
first place can not include another one of this kind. -/
theorem included_refused (mine theirs : List (Written × Bool)) (r : Bool) (names ns : List Text)
    (h : readNames false ((.unnamed, r) :: mine) [] = some names)
    (h' : readNames true ((.unnamed, false) :: theirs) [] = some ns) : addIncluded names ns = none := by
  refine addIncluded_none ns names ⟨nameOf .unnamed 0, ?_, ?_⟩
  · simp only [readNames, Bool.and_false, Bool.false_eq_true, if_false, List.length_nil, List.not_mem_nil, List.nil_append] at h'
    exact readNames_keeps _ _ _ _ h' _ (by simp)
  · simp only [readNames, Bool.false_and, Bool.false_eq_true, if_false, List.length_nil, List.not_mem_nil, List.nil_append] at h
    exact readNames_keeps _ _ _ _ h _ (by simp)

/-- C100 does not hold for names written before: `a_2` and a copy of `a` in second place. -/
theorem written_name_clashes (s : Text) (ws : List (Written × Bool)) (r r' : Bool) :
    readNames false ((.named (s ++ "_2".toList), r) :: (.copyOf s, r') :: ws) [] = none := by
  have : nameOf (.copyOf s) 1 = s ++ "_2".toList := by
    simp only [nameOf]
    congr 1
    decide +kernel
  simp [readNames, this]
  simp [nameOf]

example : readNames false [(.unnamed, false), (.named "a".toList, true), (.copyOf "a".toList, false)] [] =
    some ["Comp_1".toList, "a".toList, "a_3".toList] := by decide +kernel

/-- The hypotheses of `included_refused` are met, and one that is REMOVABLE does not clash. -/
example : readNames false [(.unnamed, false)] [] = some ["Comp_1".toList] ∧
    readNames true [(.unnamed, false), (.unnamed, true), (.unnamed, false)] [] = some ["Comp_1".toList, "Comp_2".toList] ∧
    readNames true [(.unnamed, true)] [] = some [] := by decide +kernel

end Verif.AutoNames
