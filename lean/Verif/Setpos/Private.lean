import Verif.Setpos.Model
import Verif.Loader.Text

/-!
C78: after `setpos` the variables of the `DECLARE` section of a component definition hold their initial values. Model of
src/mccode_antlr/translators/c_initialise.py 198-210 and of the C program running the assignments written; the
declaration of the members (c_decls.py 184-186) drops the initial values.

The initial value is the text of the declaration (c_listener.py), from the brace that opens a list to the one closing it.
-/

namespace Verif.Setpos

open Verif.Loader (isSpace strip)

abbrev Chars := List Char

/-- `t.strip('{}')`. -/
def stripBraces (t : Chars) : Chars :=
  ((t.dropWhile fun c => c = '{' || c = '}').reverse.dropWhile fun c => c = '{' || c = '}').reverse

/-- The assignments written; the variable on the left is left out. -/
inductive PLine
  /-- `var[i] = src;` -/
  | elem (i : Nat) (src : Chars)
  /-- `var = src;` -/
  | assign (src : Chars)
  deriving DecidableEq, Repr

/-- c_initialise.py 198-210, for a declared variable. -/
def privateLines (isPointer isArray : Bool) (init : Option Chars) : List PLine :=
  match if isPointer ∧ init = none then some "NULL".toList else init with
  | none => []
  | some t => if isArray then ((stripBraces t).splitOn ',').mapIdx fun i s => .elem i (strip s) else [.assign t]

/-- The value of a variable: a number, a pointer (to some numbers, or null), or an array of numbers of the given sizes, whose
elements are in the order of the memory. -/
inductive PMem (R : Type)
  | number (r : R)
  | pointer (p : Option (List R))
  | array (sizes : List Nat) (rs : List R)
  deriving DecidableEq

variable {R : Type}

/-- The value of an expression. An empty text and a list in braces are not expressions. -/
def lookP (ev : Chars → Option (CVal R)) (t : Chars) : Option (CVal R) :=
  if t = [] ∨ t.head? = some '{' then none else if t = "NULL".toList then some .null else ev t

/-- One assignment. `none`: it does not compile, or is undefined. An element of an array with more than one size is an
array, which can not be assigned to. -/
def execP (ev : Chars → Option (CVal R)) : PLine → PMem R → Option (PMem R)
  | .elem i src, .array [n] rs =>
    match lookP ev src with
    | some (.num r) => if i < n then some (.array [n] (rs.set i r)) else none
    | _ => none
  | .assign src, .number _ =>
    match lookP ev src with
    | some (.num r) => some (.number r)
    | _ => none
  | .assign src, .pointer _ =>
    match lookP ev src with
    | some .null => some (.pointer none)
    | some (.array rs) => some (.pointer (some rs))
    | _ => none
  | _, _ => none

def runP (ev : Chars → Option (CVal R)) : List PLine → PMem R → Option (PMem R)
  | [], m => some m
  | l :: ls, m => (execP ev l m).bind (runP ev ls)

/-! ### Lemmas -/

theorem stripBraces_list (t : Chars) (h : ∀ c ∈ t.head?, c ≠ '{' ∧ c ≠ '}') (h' : ∀ c ∈ t.getLast?, c ≠ '{' ∧ c ≠ '}') :
    stripBraces ('{' :: (t ++ ['}'])) = t := by
  unfold stripBraces
  rw [List.dropWhile_cons_of_pos (by rfl)]
  cases t with
  | nil => rfl
  | cons c t =>
    have hc := h c rfl
    rw [List.cons_append, List.dropWhile_cons_of_neg (by simp [hc.1, hc.2]), ← List.cons_append, List.reverse_append,
      List.reverse_singleton, List.singleton_append, List.dropWhile_cons_of_pos (by rfl)]
    cases hr : (c :: t).reverse with
    | nil => simp at hr
    | cons d r =>
      have hd := h' d (by rw [List.getLast?_eq_head?_reverse, hr]; rfl)
      rw [List.dropWhile_cons_of_neg (by simp [hd.1, hd.2]), ← hr, List.reverse_reverse]

/-- Blanks around a text that neither starts nor ends with one. -/
theorem strip_blanks (a t b : Chars) (ha : ∀ c ∈ a, isSpace c = true) (hb : ∀ c ∈ b, isSpace c = true)
    (h : ∀ c ∈ t.head?, isSpace c = false) (h' : ∀ c ∈ t.getLast?, isSpace c = false) : strip (a ++ t ++ b) = t := by
  unfold strip Loader.lstrip Loader.rstrip
  rw [List.append_assoc, List.dropWhile_append_of_pos ha]
  cases t with
  | nil =>
    have : ([] ++ b : Chars).dropWhile isSpace = [] := List.dropWhile_eq_nil_iff.2 (by simpa using hb)
    rw [this]
    rfl
  | cons c t =>
    rw [List.cons_append, List.dropWhile_cons_of_neg (by simp [h c rfl]), ← List.cons_append, List.reverse_append,
      List.dropWhile_append_of_pos (fun x hx => hb x (List.mem_reverse.1 hx))]
    cases hr : (c :: t).reverse with
    | nil => simp at hr
    | cons d r =>
      have hd := h' d (by rw [List.getLast?_eq_head?_reverse, hr]; rfl)
      rw [List.dropWhile_cons_of_neg (by simp [hd]), ← hr, List.reverse_reverse]

theorem runP_elems [Zero R] (ev : Chars → Option (CVal R)) (n : Nat) : ∀ (ts : List Chars) (rs pre rest : List R),
    ts.map (lookP ev) = rs.map (fun r => some (.num r)) → pre.length + ts.length + rest.length = n →
    runP ev (ts.mapIdx fun i t => .elem (pre.length + i) t) (.array [n] (pre ++ List.replicate ts.length 0 ++ rest)) =
      some (.array [n] (pre ++ rs ++ rest)) := by
  intro ts
  induction ts with
  | nil =>
    intro rs pre rest h _
    cases rs with
    | nil => simp [runP]
    | cons r rs => cases h
  | cons t ts ih =>
    intro rs pre rest h hl
    cases rs with
    | nil => cases h
    | cons r rs =>
      rw [List.map_cons, List.map_cons] at h
      injection h with h1 h2
      rw [List.length_cons] at hl
      rw [List.mapIdx_cons, runP, execP, h1]
      simp only [Nat.add_zero]
      rw [if_pos (by omega)]
      have hset : (pre ++ List.replicate (t :: ts).length 0 ++ rest).set pre.length r =
          (pre ++ [r]) ++ List.replicate ts.length 0 ++ rest := by
        rw [List.append_assoc, List.set_append_right _ _ (le_refl _)]
        simp [List.replicate_succ]
      rw [Option.bind_some, hset]
      have := ih rs (pre ++ [r]) rest h2 (by simp; omega)
      rw [List.length_append, List.length_singleton] at this
      have hf : (fun (i : Nat) (t : Chars) => PLine.elem (pre.length + (i + 1)) t) = fun i t => PLine.elem (pre.length + 1 + i) t := by
        funext i t
        congr 1
        omega
      rw [hf, this]
      simp

theorem runP_none (ev : Chars → Option (CVal R)) (n : Nat) : ∀ (ts : List Chars) (k : Nat) (rs : List R),
    ((∃ t ∈ ts, ∀ r, lookP ev t ≠ some (.num r)) ∨ (ts ≠ [] ∧ n < k + ts.length)) →
    runP ev (ts.mapIdx fun i t => .elem (k + i) t) (.array [n] rs) = none := by
  intro ts
  induction ts with
  | nil =>
    rintro k rs (⟨t, ht, -⟩ | ⟨h, -⟩)
    · cases ht
    · exact absurd rfl h
  | cons t ts ih =>
    intro k rs h
    rw [List.mapIdx_cons, runP, execP]
    cases hl : lookP ev t with
    | none => rfl
    | some c =>
      cases c with
      | num r =>
        simp only [Nat.add_zero]
        split_ifs with hi
        · have hf : (fun (i : Nat) (t : Chars) => PLine.elem (k + (i + 1)) t) = fun i t => PLine.elem (k + 1 + i) t := by
            funext i t
            congr 1
            omega
          rw [Option.bind_some, hf]
          apply ih
          rcases h with ⟨u, hu, hr⟩ | ⟨-, h⟩
          · left
            rcases List.mem_cons.1 hu with rfl | hu
            · exact absurd hl (hr r)
            · exact ⟨u, hu, hr⟩
          · right
            rw [List.length_cons] at h
            refine ⟨?_, by omega⟩
            rintro rfl
            simp at h
            omega
        · rfl
      | _ => rfl

/-! ### The property -/

/-- An element of a list, as written: an expression with blanks around it. -/
structure Item where
  before : Chars
  core : Chars
  after : Chars

/-- The blanks are blanks, the expression has none at its ends, and no commas and braces. -/
def Item.Ok (i : Item) : Prop :=
  (∀ c ∈ i.before, isSpace c = true) ∧ (∀ c ∈ i.after, isSpace c = true) ∧ (∀ c ∈ i.core.head?, isSpace c = false) ∧
    (∀ c ∈ i.core.getLast?, isSpace c = false) ∧ ∀ c ∈ i.core, c ≠ ',' ∧ c ≠ '{' ∧ c ≠ '}'

def Item.text (i : Item) : Chars := i.before ++ i.core ++ i.after

/-- `{ item, item, ... }` -/
def listOf (items : List Item) : Chars := '{' :: ([','].intercalate (items.map Item.text) ++ ['}'])

theorem space_plain (c : Char) (h : isSpace c = true) : c ≠ ',' ∧ c ≠ '{' ∧ c ≠ '}' := by
  refine ⟨?_, ?_, ?_⟩ <;> rintro rfl <;> revert h <;> decide

theorem text_plain {i : Item} (h : i.Ok) : ∀ c ∈ i.text, c ≠ ',' ∧ c ≠ '{' ∧ c ≠ '}' := by
  intro c hc
  obtain ⟨h1, h2, -, -, h5⟩ := h
  rcases List.mem_append.1 hc with hc | hc
  · rcases List.mem_append.1 hc with hc | hc
    · exact space_plain c (h1 c hc)
    · exact h5 c hc
  · exact space_plain c (h2 c hc)

theorem intercalate_step (t u : Chars) (ts : List Chars) :
    [','].intercalate (t :: u :: ts) = t ++ ',' :: [','].intercalate (u :: ts) := by
  simp [List.intercalate, List.intersperse]

theorem intercalate_plain : ∀ (ts : List Chars), (∀ t ∈ ts, ∀ c ∈ t, c ≠ '{' ∧ c ≠ '}') →
    ∀ c ∈ [','].intercalate ts, c ≠ '{' ∧ c ≠ '}'
  | [], _ => by simp [List.intercalate]
  | [t], h => by
    intro c hc
    exact h t List.mem_cons_self c (by simpa [List.intercalate] using hc)
  | t :: u :: ts, h => by
    intro c hc
    rw [intercalate_step] at hc
    rcases List.mem_append.1 hc with hc | hc
    · exact h t List.mem_cons_self c hc
    · rcases List.mem_cons.1 hc with rfl | hc
      · decide
      · exact intercalate_plain (u :: ts) (fun x hx => h x (List.mem_cons_of_mem _ hx)) c hc

theorem privateLines_list (items : List Item) (h : ∀ i ∈ items, i.Ok) (hne : items ≠ []) (p : Bool) :
    privateLines p true (some (listOf items)) = (items.map Item.core).mapIdx fun i t => .elem i t := by
  have hp : ∀ c ∈ [','].intercalate (items.map Item.text), c ≠ '{' ∧ c ≠ '}' :=
    intercalate_plain _ (by
      intro t ht c hc
      obtain ⟨i, hi, rfl⟩ := List.mem_map.1 ht
      exact (text_plain (h i hi) c hc).2)
  have hs : stripBraces (listOf items) = [','].intercalate (items.map Item.text) :=
    stripBraces_list _ (fun c hc => hp c (List.mem_of_mem_head? hc)) (fun c hc => hp c (List.mem_of_getLast? hc))
  have hsplit : ([','].intercalate (items.map Item.text)).splitOn ',' = items.map Item.text :=
    List.splitOn_intercalate _ (by
      intro t ht hc
      obtain ⟨i, hi, rfl⟩ := List.mem_map.1 ht
      exact (text_plain (h i hi) _ hc).1 rfl) (by simpa using hne)
  have h0 : (if p = true ∧ (some (listOf items)) = none then some "NULL".toList else some (listOf items)) =
      some (listOf items) := by simp
  unfold privateLines
  rw [h0]
  simp only [if_true, hs, hsplit]
  have hmap : (items.map Item.text).map strip = items.map Item.core := by
    rw [List.map_map]
    refine List.map_congr_left fun i hi => ?_
    obtain ⟨h1, h2, h3, h4, -⟩ := h i hi
    exact strip_blanks _ _ _ h1 h2 h3 h4
  rw [← hmap]
  refine List.ext_getElem? fun i => ?_
  rw [List.getElem?_mapIdx, List.getElem?_mapIdx, List.getElem?_map (f := strip)]
  cases (items.map Item.text)[i]? <;> rfl

/-- C78, an array with one size and a list of expressions without commas and braces as its initial value, with any blanks:
the elements hold the values of the expressions, the rest zero. The assignments are not valid if there are more
expressions than elements. Missing: what is left out here, where the property fails (`expression_with_comma`,
`comma_at_end`, `more_sizes`, `list_for_scalar`). -/
theorem array_initialised_partial [Zero R] (ev : Chars → Option (CVal R)) (items : List Item) (h : ∀ i ∈ items, i.Ok) (hne : items ≠ [])
    (p : Bool) (n : Nat) (rs : List R) :
    runP ev (privateLines p true (some (listOf items))) (.array [n] (List.replicate n 0)) = some (.array [n] rs) ↔
      ∃ vs : List R, (items.map fun i => lookP ev i.core) = vs.map (fun r => some (.num r)) ∧ vs.length ≤ n ∧
        rs = vs ++ List.replicate (n - vs.length) 0 := by
  have hok : ∀ vs : List R, (items.map fun i => lookP ev i.core) = vs.map (fun r => some (.num r)) → vs.length ≤ n →
      runP ev (privateLines p true (some (listOf items))) (.array [n] (List.replicate n 0)) =
        some (.array [n] (vs ++ List.replicate (n - vs.length) 0)) := by
    intro vs hvs hl
    have hlen : items.length = vs.length := by simpa using congrArg List.length hvs
    have := runP_elems ev n (items.map Item.core) vs [] (List.replicate (n - vs.length) 0)
      (by rw [List.map_map]; exact hvs) (by simp; omega)
    simp only [List.length_nil, Nat.zero_add, List.nil_append, List.length_map, hlen, List.replicate_append_replicate] at this
    rw [privateLines_list items h hne, ← this]
    congr 3
    omega
  constructor
  · intro hr
    by_cases hall : (∀ i ∈ items, ∃ r, lookP ev i.core = some (.num r)) ∧ items.length ≤ n
    · obtain ⟨hv, hl⟩ := hall
      have : ∃ vs : List R, (items.map fun i => lookP ev i.core) = vs.map (fun r => some (.num r)) := by
        clear hr hok hl hne h
        induction items with
        | nil => exact ⟨[], rfl⟩
        | cons i is ih =>
          obtain ⟨vs, h1⟩ := ih fun u hu => hv u (List.mem_cons_of_mem _ hu)
          obtain ⟨r, h2⟩ := hv i List.mem_cons_self
          exact ⟨r :: vs, by simp [h1, h2]⟩
      obtain ⟨vs, hvs⟩ := this
      have hlen : items.length = vs.length := by simpa using congrArg List.length hvs
      have h1 := hok vs hvs (by omega)
      rw [hr] at h1
      injection h1 with h1
      injection h1 with _ h1
      exact ⟨vs, hvs, by omega, h1⟩
    · exfalso
      have hbad : (∃ t ∈ items.map Item.core, ∀ r, lookP ev t ≠ some (.num r)) ∨
          (items.map Item.core ≠ [] ∧ n < 0 + (items.map Item.core).length) := by
        rw [not_and_or] at hall
        rcases hall with hall | hall
        · left
          push Not at hall
          obtain ⟨i, hi, hr⟩ := hall
          exact ⟨i.core, List.mem_map_of_mem hi, hr⟩
        · right
          exact ⟨by simpa using hne, by simp; omega⟩
      have := runP_none ev n (items.map Item.core) 0 (List.replicate n 0) hbad
      simp only [Nat.zero_add] at this
      rw [privateLines_list items h hne, this] at hr
      cases hr
  · rintro ⟨vs, hvs, hl, rfl⟩
    exact hok vs hvs hl

/-- `double a[3] = { 1, 2};` -/
example : runP (R := Int) (fun t => if t = ['1'] then some (.num 1) else if t = ['2'] then some (.num 2) else none)
    (privateLines false true (some "{ 1, 2}".toList)) (.array [3] [0, 0, 0]) = some (.array [3] [1, 2, 0]) :=
  (array_initialised_partial _ [⟨[' '], ['1'], []⟩, ⟨[' '], ['2'], []⟩]
    (by
      intro i hi
      simp only [List.mem_cons, List.not_mem_nil, or_false] at hi
      rcases hi with rfl | rfl <;> exact ⟨by decide, by decide, by decide, by decide, by decide⟩)
    (by decide) false 3 [1, 2, 0]).2 ⟨[1, 2], by decide +kernel, by decide, by decide⟩

/-- C78, a number or a pointer: it holds the value of the initial expression; a pointer without one is null, a number
without one is left as it is. -/
theorem scalar_initialised [Zero R] (ev : Chars → Option (CVal R)) (p : Bool) (t : Chars) (r : R) (rs : List R) (m : PMem R) :
    (runP ev (privateLines p false (some t)) (.number 0) = some (.number r) ↔ lookP ev t = some (.num r)) ∧
      (runP ev (privateLines p false (some t)) (.pointer none) = some (.pointer (some rs)) ↔ lookP ev t = some (.array rs)) ∧
      (runP ev (privateLines p false (some t)) (.pointer none) = some (.pointer none) ↔ lookP ev t = some .null) ∧
      runP ev (privateLines true false none) (.pointer none) = some (.pointer none) ∧
      runP ev (privateLines false false none) m = some m := by
  have h0 : privateLines p false (some t) = [.assign t] := by simp [privateLines]
  have h1 : privateLines true false none = [.assign "NULL".toList] := by simp [privateLines]
  have h2 : privateLines false false none = [] := by simp [privateLines]
  have h3 : lookP ev "NULL".toList = some .null := by
    unfold lookP
    rw [if_neg (by decide), if_pos rfl]
  rw [h0, h1, h2]
  refine ⟨?_, ?_, ?_, ?_, rfl⟩
  · simp only [runP, execP]
    cases lookP ev t with
    | none => simp
    | some c => cases c <;> simp
  · simp only [runP, execP]
    cases lookP ev t with
    | none => simp
    | some c => cases c <;> simp
  · simp only [runP, execP]
    cases lookP ev t with
    | none => simp
    | some c => cases c <;> simp
  · simp only [runP, execP, h3]
    rfl

/-- C78, where it fails: no array with more than one size can be given an initial value. -/
theorem more_sizes (ev : Chars → Option (CVal R)) (p : Bool) (init : Chars) (a b : Nat) (sizes : List Nat) (rs : List R) :
    runP ev (privateLines p true (some init)) (.array (a :: b :: sizes) rs) = none := by
  have h0 : (if p = true ∧ (some init) = none then some "NULL".toList else some init) = some init := by simp
  unfold privateLines
  rw [h0]
  simp only [if_true]
  cases hs : (stripBraces init).splitOn ',' with
  | nil => exact absurd hs (List.splitOn_ne_nil _ _)
  | cons t ts => rw [List.mapIdx_cons]; rfl

/-- The assignments for `double m[2][2] = {{1,2},{3,4}};`. -/
example : privateLines false true (some "{{1,2},{3,4}}".toList) =
    [.elem 0 "1".toList, .elem 1 "2}".toList, .elem 2 "{3".toList, .elem 3 "4".toList] := by decide +kernel

/-- C78, where it fails: a comma at the end of the list, as C allows, is followed by an assignment without a value; so is an empty list. -/
theorem comma_at_end (ev : Chars → Option (CVal R)) (items : List Item) (h : ∀ i ∈ items, i.Ok) (p : Bool)
    (n : Nat) (rs : List R) :
    runP ev (privateLines p true (some (listOf (items ++ [⟨[], [], []⟩])))) (.array [n] rs) = none := by
  have hOk : ∀ i ∈ items ++ [⟨[], [], []⟩], i.Ok := by
    intro i hi
    rcases List.mem_append.1 hi with hi | hi
    · exact h i hi
    · simp only [List.mem_cons, List.not_mem_nil, or_false] at hi
      subst hi
      exact ⟨by simp, by simp, by simp, by simp, by simp⟩
  rw [privateLines_list _ hOk (by simp)]
  have := runP_none ev n ((items ++ [(⟨[], [], []⟩ : Item)]).map Item.core) 0 rs (Or.inl ⟨[], by simp, fun r => by simp [lookP]⟩)
  simpa only [Nat.zero_add] using this

example : listOf ([⟨[], ['1'], []⟩] ++ [⟨[], [], []⟩]) = "{1,}".toList := by decide

/-- C78, where it fails: an expression with a comma is cut at it. -/
theorem expression_with_comma : privateLines false true (some "{max(1,2), 3}".toList) =
    [.elem 0 "max(1".toList, .elem 1 "2)".toList, .elem 2 "3".toList] := by decide +kernel

/-- C78, where it fails: a list for a variable that is not an array, a structure, is written as an expression. -/
theorem list_for_scalar (ev : Chars → Option (CVal R)) (p : Bool) (t : Chars)
    (m : PMem R) : runP ev (privateLines p false (some ('{' :: t))) m = none := by
  have h0 : privateLines p false (some ('{' :: t)) = [.assign ('{' :: t)] := by simp [privateLines]
  have h1 : lookP ev ('{' :: t) = none := by simp [lookP]
  rw [h0]
  cases m <;> simp [runP, execP, h1]

end Verif.Setpos
