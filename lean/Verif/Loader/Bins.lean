import Verif.Loader.Dat
import Mathlib.Data.List.Nodup
import Mathlib.Data.Rat.Defs
import Mathlib.Algebra.Order.Field.Rat
import Mathlib.Tactic.FieldSimp
import Mathlib.Tactic.Ring
import Mathlib.Tactic.Linarith

/-!
C118: the entries and the bins of a data file. Model of `DatFileCommon.__getitem__` (src/mccode_antlr/loader/datfile.py 58-70),
`dim_metadata` (86-96) and the methods of that name (71-72, 110-111, 151-153, 197-200).
Numbers are rational, `float` reads them; rounding is not modelled.
-/

namespace Verif.Bins

open Verif.Loader (Text Dat Nd words partition t)

inductive Err
  | runtimeError
  | keyError
  | attributeError
  | valueError
  | indexError
  | zeroDivision
  deriving DecidableEq, Repr

/-- What `d[item]` is: a row of the data or a text. -/
inductive Item
  | row (l : List ℚ)
  | text (s : Text)
  deriving DecidableEq, Repr

/-- The positions at which `x` is. -/
def positions (x : Text) (l : List Text) : List Nat := (List.range l.length).filter fun i => l[i]? = some x

/-- `self.data[index, ...]`. -/
def rowOf (a : Nd ℚ) (k : Nat) : List ℚ := (a.data.drop (k * a.shape.tail.prod)).take a.shape.tail.prod

/-- `__getitem__` (58-70). -/
def getItem (d : Dat ℚ) (item : Text) : Except Err Item :=
  if item ∈ d.vars then
    match positions item d.vars with
    | [k] => .ok (.row (rowOf d.data k))
    | _ => .error .runtimeError
  else
    match d.parameters.lookup item with
    | some v => .ok (.text v)
    | none =>
      match d.metadata.lookup item with
      | some v => .ok (.text v)
      | none => .error .keyError

/-- What is known of a dimension (96). -/
structure Dim where
  length : Nat
  label : Text
  unit : Text
  boundaries : List ℚ
  deriving DecidableEq, Repr

/-- `s.strip('[] ')`. -/
def stripUnit (s : Text) : Text :=
  ((s.dropWhile (· ∈ ['[', ']', ' '])).reverse.dropWhile (· ∈ ['[', ']', ' '])).reverse

/-- `linspace(a, b, n + 1)`. -/
def linspace (a b : ℚ) (n : Nat) : List ℚ := (List.range (n + 1)).map fun i : Nat => a + i * ((b - a) / n)

/-- `dim_metadata` (86-96). -/
def dimMetadata (n : Nat) (labelUnit : Text) (lower upper : ℚ) : Except Err Dim :=
  if ' ' ∈ labelUnit then
    let u := stripUnit (partition [' '] labelUnit).2
    if n = 1 then .error .zeroDivision
    else
      let w := (upper - lower) / ((n : ℚ) - 1)
      .ok { length := n, label := (partition [' '] labelUnit).1, unit := if u = t "\\gms" then t "microseconds" else u,
            boundaries := linspace (lower - w / 2) (upper + w / 2) n }
  else .error .indexError

/-- `[float(x) for x in self[key].split()]`. -/
def numbers (float : Text → Option ℚ) (d : Dat ℚ) (key : Text) : Except Err (List ℚ) :=
  match getItem d key with
  | .error e => .error e
  | .ok (.row _) => .error .attributeError
  | .ok (.text s) =>
    match (words s).mapM float with
    | none => .error .valueError
    | some l => .ok l

/-- The dimension `key` with its limits. -/
def dim (d : Dat ℚ) (n : Nat) (key : Text) (lower upper : ℚ) : Except Err Dim :=
  match getItem d key with
  | .error e => .error e
  | .ok (.row _) => .error .attributeError
  | .ok (.text s) => dimMetadata n s lower upper

/-- `DatFile1D.dim_metadata` (151-153). -/
def dims1 (float : Text → Option ℚ) (d : Dat ℚ) : Except Err (List Dim) :=
  match numbers float d (t "xlimits") with
  | .error e => .error e
  | .ok [lower, upper] =>
    match dim d (d.data.shape[1]?.getD 0) (t "xlabel") lower upper with
    | .error e => .error e
    | .ok x => .ok [x]
  | .ok _ => .error .valueError

/-- `DatFile2D.dim_metadata` (197-200). -/
def dims2 (float : Text → Option ℚ) (d : Dat ℚ) : Except Err (List Dim) :=
  match numbers float d (t "xylimits") with
  | .error e => .error e
  | .ok [lowerX, upperX, lowerY, upperY] =>
    match dim d (d.data.shape[2]?.getD 0) (t "xlabel") lowerX upperX with
    | .error e => .error e
    | .ok x =>
      match dim d (d.data.shape[1]?.getD 0) (t "ylabel") lowerY upperY with
      | .error e => .error e
      | .ok y => .ok [x, y]
  | .ok _ => .error .valueError

/-! ### Entries -/

theorem positions_eq {x : Text} {l : List Text} {k : Nat} (hk : l[k]? = some x) (hu : ∀ j, l[j]? = some x → j = k) :
    positions x l = [k] := by
  have hlt : k < l.length := by
    by_contra h
    rw [List.getElem?_eq_none (by omega)] at hk
    cases hk
  have hn : (positions x l).Nodup := List.Nodup.filter _ List.nodup_range
  have hm : ∀ j, j ∈ positions x l ↔ j = k := by
    intro j
    rw [positions, List.mem_filter, List.mem_range, decide_eq_true_eq]
    exact ⟨fun h => hu j h.2, fun h => by rw [h]; exact ⟨hlt, hk⟩⟩
  rcases hp : positions x l with _ | ⟨a, _ | ⟨b, r⟩⟩
  · exact absurd ((hm k).mpr rfl) (by rw [hp]; simp)
  · have := (hm a).mp (by rw [hp]; simp)
    rw [this]
  · have ha := (hm a).mp (by rw [hp]; simp)
    have hb := (hm b).mp (by rw [hp]; simp)
    rw [hp, ha, hb] at hn
    simp at hn

/-- C118: a variable named once is its row of the data. -/
theorem variable_row (d : Dat ℚ) {x : Text} {k : Nat} (hk : d.vars[k]? = some x) (hu : ∀ j, d.vars[j]? = some x → j = k) :
    getItem d x = .ok (.row ((d.data.data.drop (k * d.data.shape.tail.prod)).take d.data.shape.tail.prod)) := by
  rw [getItem, if_pos (List.mem_of_getElem? hk), positions_eq hk hu]
  rfl

/-- C118: the name of two columns stands for neither. -/
theorem repeated_refused (d : Dat ℚ) (x : Text) (i j : Nat) (hi : d.vars[i]? = some x) (hj : d.vars[j]? = some x) (hij : i ≠ j) :
    getItem d x = .error .runtimeError := by
  have hm : ∀ k, d.vars[k]? = some x → k ∈ positions x d.vars := by
    intro k hk
    rw [positions, List.mem_filter, List.mem_range]
    exact ⟨(List.getElem?_eq_some_iff.mp hk).1, by simpa using hk⟩
  rw [getItem, if_pos (List.mem_of_getElem? hi)]
  split
  · rename_i k hk
    have h1 := hm i hi
    have h2 := hm j hj
    rw [hk, List.mem_singleton] at h1 h2
    exact absurd (h1.trans h2.symm) hij
  · rfl

/-- C118: metadata is found under its name exactly if neither a variable nor a parameter of the instrument has that name. -/
theorem metadata_found_iff (d : Dat ℚ) {k v : Text} (hv : d.metadata.lookup k = some v) (hd : d.parameters.lookup k ≠ some v) :
    getItem d k = .ok (.text v) ↔ k ∉ d.vars ∧ d.parameters.lookup k = none := by
  rw [getItem]
  by_cases hm : k ∈ d.vars
  · rw [if_pos hm]
    simp only [hm, not_true_eq_false, false_and, iff_false]
    split <;> simp
  · rw [if_neg hm]
    cases hp : d.parameters.lookup k with
    | some w =>
      have : w ≠ v := fun h => hd (by rw [hp, h])
      simp [this]
    | none => simp [hv, hm]

/-! ### Bins -/

/-- C118: the bins of a dimension are known exactly if it has a unit and not a single bin. -/
theorem bins_iff (n : Nat) (s : Text) (lower upper : ℚ) : (∃ m, dimMetadata n s lower upper = .ok m) ↔ ' ' ∈ s ∧ n ≠ 1 := by
  rw [dimMetadata]
  by_cases hs : ' ' ∈ s <;> by_cases hn : n = 1 <;> simp [hs, hn]

theorem boundary {n : Nat} {s : Text} {lower upper : ℚ} {m : Dim} (h : dimMetadata n s lower upper = .ok m) (hn : 2 ≤ n) {i : Nat} (hi : i ≤ n) :
    m.boundaries[i]? = some (lower + (i - 1 / 2) * ((upper - lower) / ((n : ℚ) - 1))) := by
  rw [dimMetadata] at h
  by_cases hs : ' ' ∈ s
  · rw [if_pos hs, if_neg (by omega)] at h
    simp only [Except.ok.injEq] at h
    subst h
    have h2 : (2 : ℚ) ≤ n := by exact_mod_cast hn
    have h1 : (n : ℚ) - 1 ≠ 0 := by intro h; linarith
    have h0 : (n : ℚ) ≠ 0 := by intro h; linarith
    simp only [linspace, List.getElem?_map, List.getElem?_range (by omega : i < n + 1), Option.map_some, Option.some.injEq]
    field_simp
    ring
  · rw [if_neg hs] at h
    cases h

/-- C118: a dimension of `n` bins has `n + 1` boundaries, evenly spaced; the centre of the first bin is the lower limit and that of the last bin
is the upper limit. -/
theorem bins {n : Nat} {s : Text} {lower upper : ℚ} {m : Dim} (h : dimMetadata n s lower upper = .ok m) (hn : 2 ≤ n) :
    m.boundaries.length = n + 1 ∧ m.length = n ∧
    (∃ w : ℚ, w * ((n : ℚ) - 1) = upper - lower ∧
      ∀ (i : Nat) (a b : ℚ), m.boundaries[i]? = some a → m.boundaries[i + 1]? = some b → b - a = w) ∧
    (∀ a b : ℚ, m.boundaries[0]? = some a → m.boundaries[1]? = some b → (a + b) / 2 = lower) ∧
    ∀ a b : ℚ, m.boundaries[n - 1]? = some a → m.boundaries[n]? = some b → (a + b) / 2 = upper := by
  have h2 : (2 : ℚ) ≤ n := by exact_mod_cast hn
  have h1 : (n : ℚ) - 1 ≠ 0 := by intro h; linarith
  have hlen : m.boundaries.length = n + 1 ∧ m.length = n := by
    rw [dimMetadata] at h
    by_cases hs : ' ' ∈ s
    · rw [if_pos hs, if_neg (by omega)] at h
      simp only [Except.ok.injEq] at h
      subst h
      simp [linspace]
    · rw [if_neg hs] at h
      cases h
  have hb := @boundary n s lower upper m h hn
  refine ⟨hlen.1, hlen.2, ⟨(upper - lower) / ((n : ℚ) - 1), by field_simp, fun i a b ha hb' => ?_⟩, fun a b ha hb' => ?_, fun a b ha hb' => ?_⟩
  · have hi : i + 1 ≤ n := by
      by_contra hc
      rw [List.getElem?_eq_none (by omega)] at hb'
      cases hb'
    rw [hb (by omega : i ≤ n), Option.some.injEq] at ha
    rw [hb hi, Option.some.injEq] at hb'
    rw [← ha, ← hb']
    push_cast
    ring
  · rw [hb (by omega : 0 ≤ n), Option.some.injEq] at ha
    rw [hb (by omega : 1 ≤ n), Option.some.injEq] at hb'
    rw [← ha, ← hb']
    push_cast
    ring
  · rw [hb (by omega : n - 1 ≤ n), Option.some.injEq] at ha
    rw [hb (le_refl n), Option.some.injEq] at hb'
    rw [← ha, ← hb']
    have hc : ((n - 1 : Nat) : ℚ) = (n : ℚ) - 1 := by
      rw [Nat.cast_sub (by omega)]
      simp
    rw [hc]
    field_simp
    ring

/-- C118: the bins do not end at the limits: they go half a bin further at both ends, for all limits and numbers of bins. -/
theorem bins_beyond_limits {n : Nat} {s : Text} {lower upper : ℚ} {m : Dim} (h : dimMetadata n s lower upper = .ok m) (hn : 2 ≤ n) (hl : lower < upper) :
    (∃ a, m.boundaries[0]? = some a ∧ a < lower) ∧ ∃ b, m.boundaries[n]? = some b ∧ upper < b := by
  have h2 : (2 : ℚ) ≤ n := by exact_mod_cast hn
  have hp : 0 < (n : ℚ) - 1 := by linarith
  have hw : 0 < (upper - lower) / ((n : ℚ) - 1) := div_pos (by linarith) hp
  refine ⟨⟨_, boundary h hn (by omega : 0 ≤ n), ?_⟩, _, boundary h hn (le_refl n), ?_⟩
  · push_cast
    linarith
  · have he : ((n : ℚ) - 1) * ((upper - lower) / ((n : ℚ) - 1)) = upper - lower := by
      field_simp
    have : ((n : ℚ) - 1 / 2) * ((upper - lower) / ((n : ℚ) - 1)) =
        ((n : ℚ) - 1) * ((upper - lower) / ((n : ℚ) - 1)) + (upper - lower) / ((n : ℚ) - 1) / 2 := by ring
    rw [this, he]
    linarith

/-- C118: for a monitor with one bin the bins are not given: a division by zero. -/
theorem single_bin (s : Text) (hs : ' ' ∈ s) (lower upper : ℚ) : dimMetadata 1 s lower upper = .error .zeroDivision := by
  rw [dimMetadata, if_pos hs, if_pos rfl]

theorem stripUnit_brackets {u : Text} (h0 : ∀ c ∈ u.head?, c ∉ ['[', ']', ' ']) (h1 : ∀ c ∈ u.getLast?, c ∉ ['[', ']', ' ']) :
    stripUnit ('[' :: (u ++ [']'])) = u := by
  rcases List.eq_nil_or_concat u with rfl | ⟨v, c, rfl⟩
  · decide
  · rw [List.concat_eq_append] at h0 h1 ⊢
    have hc : c ∉ ['[', ']', ' '] := h1 c (by simp)
    have hd : (v ++ [c] ++ [']']).dropWhile (· ∈ ['[', ']', ' ']) = v ++ [c] ++ [']'] := by
      rcases v with _ | ⟨a, v⟩
      · exact List.dropWhile_cons_of_neg (by simpa using hc)
      · exact List.dropWhile_cons_of_neg (by simpa using h0 a (by simp))
    rw [stripUnit, List.dropWhile_cons_of_pos (by decide), hd, List.reverse_append, List.reverse_append, List.reverse_singleton,
      List.singleton_append, List.dropWhile_cons_of_pos (by decide), List.reverse_singleton, List.singleton_append,
      List.dropWhile_cons_of_neg (by simpa using hc), List.reverse_cons, List.reverse_reverse]

/-- C118: the label `name [unit]` of a dimension is taken apart; the unit `\\gms` of McStas is called microseconds. -/
theorem label_unit {n : Nat} {name unit : Text} {lower upper : ℚ} {m : Dim} (hn : ' ' ∉ name)
    (h0 : ∀ c ∈ unit.head?, c ∉ ['[', ']', ' ']) (h1 : ∀ c ∈ unit.getLast?, c ∉ ['[', ']', ' '])
    (h : dimMetadata n (name ++ ' ' :: '[' :: (unit ++ [']'])) lower upper = .ok m) :
    m.label = name ∧ (unit ≠ "\\gms".toList → m.unit = unit) ∧ (unit = "\\gms".toList → m.unit = "microseconds".toList) := by
  rw [dimMetadata, if_pos (by simp), Verif.Loader.partition_char hn, stripUnit_brackets h0 h1] at h
  by_cases h2 : n = 1
  · simp [h2] at h
  · simp only [h2, if_false, Except.ok.injEq] at h
    subst h
    exact ⟨rfl, fun hu => if_neg hu, fun hu => if_pos hu⟩

/-- C118: the bins of a one dimensional data file, whose limits are its metadata. -/
theorem dims_of_file {float : Text → Option ℚ} {d : Dat ℚ} {lims label a b : Text} {x y : ℚ} {nv n : Nat} (hs : d.data.shape = [nv, n])
    (hl : getItem d (t "xlimits") = .ok (.text lims)) (hx : getItem d (t "xlabel") = .ok (.text label))
    (hw : words lims = [a, b]) (ha : float a = some x) (hb : float b = some y) :
    dims1 float d = (match dimMetadata n label x y with | .error e => .error e | .ok m => .ok [m]) := by
  have hn : numbers float d (t "xlimits") = .ok [x, y] := by
    rw [numbers, hl]
    simp [hw, ha, hb]
  rw [dims1, hn]
  simp only [dim, hx, hs]
  rfl

/-- C118: the two dimensions of a two dimensional data file: the last of the data is that of `xlabel` and the first two limits. -/
theorem dims_of_image {float : Text → Option ℚ} {d : Dat ℚ} {lims lx ly a b a' b' : Text} {x y x' y' : ℚ} {nv n n' : Nat} {m m' : Dim}
    (hs : d.data.shape = [nv, n', n])
    (hl : getItem d (t "xylimits") = .ok (.text lims)) (hx : getItem d (t "xlabel") = .ok (.text lx))
    (hy : getItem d (t "ylabel") = .ok (.text ly)) (hw : words lims = [a, b, a', b']) (ha : float a = some x) (hb : float b = some y)
    (ha' : float a' = some x') (hb' : float b' = some y') (hm : dimMetadata n lx x y = .ok m) (hm' : dimMetadata n' ly x' y' = .ok m') :
    dims2 float d = .ok [m, m'] := by
  have hn : numbers float d (t "xylimits") = .ok [x, y, x', y'] := by
    rw [numbers, hl]
    simp [hw, ha, hb, ha', hb']
  rw [dims2, hn]
  simp only [dim, hx, hy, hs]
  simp [hm, hm']

/-- C118: a parameter of the instrument called `xlimits` is taken for the limits. -/
theorem parameter_taken (float : Text → Option ℚ) (d : Dat ℚ) (hv : t "xlimits" ∉ d.vars) {v : Text} (hp : d.parameters.lookup (t "xlimits") = some v)
    {x : ℚ} (hw : words v = [v]) (hx : float v = some x) : dims1 float d = .error .valueError := by
  have hn : numbers float d (t "xlimits") = .ok [x] := by
    rw [numbers, getItem, if_neg hv, hp]
    simp [hw, hx]
  rw [dims1, hn]

/-- A data file of two bins from 1 to 3. -/
def sample (parameters : List (Text × Text)) : Dat ℚ :=
  { metadata := [(t "xlimits", t "1 3"), (t "xlabel", t "Energy [meV]")], parameters := parameters, vars := [t "E", t "I"],
    data := { shape := [2, 2], data := [1, 3, 10, 20] } }

def digit (s : Text) : Option ℚ := if s = t "1" then some 1 else if s = t "3" then some 3 else none

example : dims1 digit (sample []) = .ok [⟨2, t "Energy", t "meV", [0, 2, 4]⟩] := by decide +kernel

example : getItem (sample []) (t "I") = .ok (.row [10, 20]) := by decide +kernel

example : dims1 digit (sample [(t "xlimits", t "3")]) = .error .valueError := by decide +kernel

end Verif.Bins
