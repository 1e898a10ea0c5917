import Verif.Loader.DatShape
import Verif.Loader.SimProps

/-! C70: what is written for a data file is read again. -/

namespace Verif.Loader

/-! ### Dictionaries -/

theorem lookup_setKey (k v x : Text) : ∀ d : List (Text × Text),
    (setKey k v d).lookup x = if x = k then some v else d.lookup x
  | [] => by
    rw [setKey, List.lookup_cons, List.lookup_nil]
    split <;> simp_all
  | p :: d => by
    rw [setKey]
    by_cases hp : p.1 = k
    · rw [if_pos hp, List.lookup_cons, List.lookup_cons]
      by_cases hx : x = k
      · simp [hx]
      · have h1 : (x == k) = false := beq_false_of_ne hx
        have h2 : (x == p.1) = false := by rw [hp]; exact h1
        simp only [h1, h2, if_neg hx, Bool.false_eq_true, if_false]
    · rw [if_neg hp, List.lookup_cons, List.lookup_cons, lookup_setKey k v x d]
      by_cases hx : x = p.1
      · have h : x ≠ k := fun h => hp (hx.symm.trans h)
        simp [hx, hp]
      · have h2 : (x == p.1) = false := beq_false_of_ne hx
        simp only [h2, Bool.false_eq_true, if_false]

theorem lookup_foldl (f : Text → Text) (x : Text) : ∀ (l d : List (Text × Text)), (∀ p ∈ l, p.2 = f p.1) →
    (l.foldl (fun d p => setKey p.1 p.2 d) d).lookup x = if x ∈ l.map (·.1) then some (f x) else d.lookup x
  | [], d, _ => by simp
  | p :: l, d, h => by
    rw [List.foldl_cons, lookup_foldl f x l _ fun q hq => h q (List.mem_cons_of_mem _ hq), lookup_setKey,
      h p List.mem_cons_self, List.map_cons]
    by_cases h1 : x ∈ l.map (·.1)
    · rw [if_pos h1, if_pos (List.mem_cons_of_mem _ h1)]
    · rw [if_neg h1]
      by_cases h2 : x = p.1
      · rw [if_pos h2, if_pos (by rw [h2]; exact List.mem_cons_self), h2]
      · rw [if_neg h2, if_neg]
        intro h3
        rcases List.mem_cons.mp h3 with h3 | h3
        · exact h2 h3
        · exact h1 h3

theorem lookup_dictOf (f : Text → Text) (x : Text) {l : List (Text × Text)} (h : ∀ p ∈ l, p.2 = f p.1) :
    (dictOf l).lookup x = if x ∈ l.map (·.1) then some (f x) else none := lookup_foldl f x l [] h

theorem setKey_new (k v : Text) : ∀ d : List (Text × Text), k ∉ d.map (·.1) → setKey k v d = d ++ [(k, v)]
  | [], _ => rfl
  | p :: d, h => by
    rw [List.map_cons, List.mem_cons, not_or] at h
    rw [setKey, if_neg (Ne.symm h.1), setKey_new k v d h.2, List.cons_append]

theorem foldl_nodup : ∀ (l d : List (Text × Text)), ((d ++ l).map (·.1)).Nodup →
    l.foldl (fun d p => setKey p.1 p.2 d) d = d ++ l
  | [], d, _ => by simp
  | p :: l, d, h => by
    have hp : p.1 ∉ d.map (·.1) := by
      intro hm
      rw [List.map_append, List.map_cons, List.nodup_append] at h
      exact h.2.2 p.1 hm p.1 List.mem_cons_self rfl
    rw [List.foldl_cons, setKey_new _ _ _ hp, foldl_nodup l (d ++ [(p.1, p.2)]) (by simpa using h)]
    simp

theorem dictOf_nodup {l : List (Text × Text)} (h : (l.map (·.1)).Nodup) : dictOf l = l := by
  rw [dictOf, foldl_nodup l [] (by simpa using h), List.nil_append]

/-! ### Lines -/

def hashChar (c : Char) : Bool := c == ' ' || c == '#' || c == '\n'

theorem hashChar_of_space {c : Char} (h : isSpace c = false) (h2 : c ≠ '#') : hashChar c = false := by
  simp only [hashChar, isSpace, Bool.or_eq_false_iff, decide_eq_false_iff_not, beq_eq_false_iff_ne] at h ⊢
  exact ⟨⟨h.1.1.1.1.1, h2⟩, h.1.1.1.1.2⟩

theorem stripHash_eq {a s : Text} (ha : ∀ c ∈ a, hashChar c = true) (h1 : ∀ c, s.head? = some c → hashChar c = false)
    (h2 : ∀ c, s.getLast? = some c → hashChar c = false) (b : Text) (hb : ∀ c ∈ b, hashChar c = true) (hne : s ≠ []) :
    stripHash (a ++ s ++ b) = s := by
  have e1 : (a ++ s ++ b).dropWhile hashChar = s ++ b := by
    rw [List.append_assoc, List.dropWhile_append_of_pos ha]
    obtain ⟨c, l, rfl⟩ := List.exists_cons_of_ne_nil hne
    rw [List.cons_append, List.dropWhile_cons_of_neg]
    rw [h1 c rfl]
    simp
  have e2 : (s ++ b).reverse.dropWhile hashChar = s.reverse := by
    rw [List.reverse_append, List.dropWhile_append_of_pos (by simpa using hb)]
    have hne' : s.reverse ≠ [] := by simpa using hne
    obtain ⟨c, l, hl⟩ := List.exists_cons_of_ne_nil hne'
    rw [hl, List.dropWhile_cons_of_neg]
    rw [h2 c (by rw [← List.head?_reverse, hl]; rfl)]
    simp
  show (((a ++ s ++ b).dropWhile hashChar).reverse.dropWhile hashChar).reverse = s
  rw [e1, e2, List.reverse_reverse]

/-- A value that survives the removal of white space and of the marks of comments at its ends. -/
def Plain (v : Text) : Prop := Stripped v ∧ '\n' ∉ v ∧ v.getLast? ≠ some '#'

/-- A key of the header. -/
def KeyOk (k : Text) : Prop :=
  k ≠ [] ∧ Stripped k ∧ ':' ∉ k ∧ '\n' ∉ k ∧ k.head? ≠ some '#' ∧ k.head? ≠ some 'P'

theorem KeyOk.head {k : Text} (h : KeyOk k) (s : Text) : ∀ c, (k ++ s).head? = some c → hashChar c = false := by
  intro c hc
  obtain ⟨d, l, rfl⟩ := List.exists_cons_of_ne_nil h.1
  cases hc
  exact hashChar_of_space (h.2.1.1 c rfl) fun hd => h.2.2.2.2.1 (by rw [hd]; rfl)

theorem KeyOk.not_param {k : Text} (h : KeyOk k) (s : Text) : startsWith (t "Param") (k ++ s) = false := by
  obtain ⟨d, l, rfl⟩ := List.exists_cons_of_ne_nil h.1
  have hd : d ≠ 'P' := fun hd => h.2.2.2.2.2 (by rw [hd]; rfl)
  rw [startsWith, show t "Param" = 'P' :: t "aram" by rfl, List.cons_append, List.isPrefixOf]
  rw [beq_false_of_ne (Ne.symm hd), Bool.false_and]

/-- The kinds of lines of a data file. -/
inductive Line (α : Type)
  | entry (k v : Text)
  | label (s : Text)
  | param (n v : Text)
  | row (l : List α)

def Line.text {α : Type} (N : Num α) : Line α → Text
  | .entry k v => t "# " ++ k ++ t ": " ++ v
  | .label s => t "# " ++ s ++ t ":"
  | .param n v => t "# Param: " ++ n ++ t "=" ++ v
  | .row l => rowLine N l

def Line.Good {α : Type} : Line α → Prop
  | .entry k v => KeyOk k ∧ Plain v
  | .label s => KeyOk s
  | .param n v => Stripped n ∧ '=' ∉ n ∧ '\n' ∉ n ∧ Plain v
  | .row l => l ≠ []

def Line.pair {α : Type} : Line α → Option (Text × Text)
  | .entry k v => some (k, v)
  | .label s => some (s, [])
  | _ => none

def Line.par {α : Type} : Line α → Option (Text × Text)
  | .param n v => some (n, v)
  | _ => none

def Line.nums {α : Type} : Line α → Option (List α)
  | .row l => some l
  | _ => none

theorem plain_last {v : Text} (h : Plain v) (hne : v ≠ []) (a : Text) : ∀ c, (a ++ v).getLast? = some c → hashChar c = false := by
  intro c hc
  rw [List.getLast?_append] at hc
  cases hg : v.getLast? with
  | none => exact absurd (List.getLast?_eq_none_iff.mp hg) hne
  | some d =>
    rw [hg] at hc
    cases hc
    exact hashChar_of_space (h.1.2 c hg) fun hd => h.2.2 (by rw [hg, hd])

theorem splitPair_eq {c : Char} {a b k v : Text} (h : c ∉ a) (hk : strip a = k) (hv : strip b = v) :
    splitPair c (a ++ c :: b) = .ok (k, v) := by
  rw [splitPair, if_pos (by simp), partition_char h, hk, hv]

theorem stripped_nil : Stripped [] := ⟨by simp, by simp⟩

/-- An entry of the header is read as written. -/
theorem entry_read {k v : Text} (hk : KeyOk k) (hv : Plain v) : ∃ x, stripHash (t "# " ++ k ++ t ": " ++ v) = x ∧
    startsWith (t "Param") x = false ∧ splitPair ':' x = .ok (k, v) := by
  refine ⟨_, rfl, ?_⟩
  have hpre : ∀ c ∈ t "# ", hashChar c = true := by decide
  by_cases hne : v = []
  · subst hne
    have h : stripHash (t "# " ++ k ++ t ": " ++ []) = k ++ [':'] := by
      have : t "# " ++ k ++ t ": " ++ [] = t "# " ++ (k ++ [':']) ++ [' '] := by simp [t]
      rw [this]
      exact stripHash_eq hpre (hk.head _) (by intro c hc; simp at hc; rw [← hc]; rfl) _ (by decide) (by simp)
    rw [h]
    exact ⟨hk.not_param _, splitPair_eq hk.2.2.1 (strip_stripped hk.2.1) rfl⟩
  · have h : stripHash (t "# " ++ k ++ t ": " ++ v) = k ++ ':' :: (' ' :: v) := by
      have : t "# " ++ k ++ t ": " ++ v = t "# " ++ (k ++ ':' :: (' ' :: v)) ++ [] := by simp [t]
      rw [this]
      refine stripHash_eq hpre (hk.head _) ?_ _ (by simp) (by simp)
      have := plain_last hv hne (k ++ [':', ' '])
      simpa using this
    rw [h]
    exact ⟨hk.not_param _, splitPair_eq hk.2.2.1 (strip_stripped hk.2.1) (strip_space rfl hv.1)⟩

theorem label_read {s : Text} (hk : KeyOk s) : ∃ x, stripHash (t "# " ++ s ++ t ":") = x ∧
    startsWith (t "Param") x = false ∧ splitPair ':' x = .ok (s, []) := by
  refine ⟨_, rfl, ?_⟩
  have hpre : ∀ c ∈ t "# ", hashChar c = true := by decide
  have h : stripHash (t "# " ++ s ++ t ":") = s ++ [':'] := by
    have : t "# " ++ s ++ t ":" = t "# " ++ (s ++ [':']) ++ [] := by simp [t]
    rw [this]
    exact stripHash_eq hpre (hk.head _) (by intro c hc; simp at hc; rw [← hc]; rfl) _ (by simp) (by simp)
  rw [h]
  exact ⟨hk.not_param _, splitPair_eq hk.2.2.1 (strip_stripped hk.2.1) rfl⟩

theorem param_read {n v : Text} (hn : Stripped n) (he : '=' ∉ n) (hv : Plain v) :
    ∃ x, stripHash (t "# Param: " ++ n ++ t "=" ++ v) = x ∧ startsWith (t "Param") x = true ∧ readParam x = .ok (n, v) := by
  refine ⟨_, rfl, ?_⟩
  have hpre : ∀ c ∈ t "# ", hashChar c = true := by decide
  have h : stripHash (t "# Param: " ++ n ++ t "=" ++ v) = t "Param" ++ ':' :: (' ' :: n ++ '=' :: v) := by
    have : t "# Param: " ++ n ++ t "=" ++ v = t "# " ++ (t "Param" ++ ':' :: (' ' :: n ++ '=' :: v)) ++ [] := by simp [t]
    rw [this]
    refine stripHash_eq hpre (by intro c hc; cases hc; rfl) ?_ _ (by simp) (by simp)
    by_cases hne : v = []
    · subst hne
      intro c hc
      rw [show t "Param" ++ ':' :: (' ' :: n ++ ['=']) = (t "Param" ++ ':' :: (' ' :: n)) ++ ['='] by simp,
        List.getLast?_concat] at hc
      cases hc
      rfl
    · have := plain_last hv hne (t "Param" ++ ':' :: (' ' :: n ++ ['=']))
      simpa using this
  rw [h]
  constructor
  · rw [startsWith, List.isPrefixOf_iff_prefix]
    exact List.prefix_append _ _
  · have h1 : ':' ∉ t "Param" := by decide
    rw [readParam, afterFirst, if_pos (by simp), partition_char h1]
    simp only
    refine splitPair_eq ?_ (strip_space rfl hn) (strip_stripped hv.1)
    simp only [List.mem_cons, not_or]
    exact ⟨by decide, he⟩

theorem words_cons {a : Text} (hne : a ≠ []) (h : ∀ c ∈ a, isSpace c = false) (b : Text) :
    words (a ++ ' ' :: b) = a :: words b := by
  rw [words, List.splitOnP_append_cons_of_forall_mem h ' ' rfl, List.filter_cons_of_pos (by simpa using hne), words]

theorem words_rowLine {α : Type} (N : Num α) : ∀ l : List α, words (rowLine N l) = l.map N.str
  | [] => by
    rw [rowLine]
    simp [words]
  | [x] => by
    have : rowLine N [x] = N.str x := by simp [rowLine, List.intercalate]
    rw [this, words, List.splitOnP_eq_singleton fun c hc => (N.str_chars x c hc).1]
    simp [N.str_ne x]
  | x :: y :: l => by
    have : rowLine N (x :: y :: l) = N.str x ++ ' ' :: rowLine N (y :: l) := by
      rw [rowLine, List.map_cons, List.map_cons, List.intercalate_cons_cons, rowLine, List.map_cons]
      simp
    rw [this, words_cons (N.str_ne x) (fun c hc => (N.str_chars x c hc).1), words_rowLine N (y :: l)]
    rfl

theorem rowLine_stripped {α : Type} (N : Num α) : ∀ l : List α, l ≠ [] → Stripped (rowLine N l) ∧ rowLine N l ≠ [] ∧
    '\n' ∉ rowLine N l ∧ (rowLine N l).head? ≠ some '#'
  | [], h => absurd rfl h
  | [x], _ => by
    have : rowLine N [x] = N.str x := by simp [rowLine, List.intercalate]
    rw [this]
    have hc := N.str_chars x
    refine ⟨stripped_of_forall fun c h => (hc c h).1, N.str_ne x, fun h => ?_, fun h => ?_⟩
    · have := (hc _ h).1
      cases this
    · exact (hc '#' (List.mem_of_mem_head? h)).2 rfl
  | x :: y :: l, _ => by
    have hr : rowLine N (x :: y :: l) = N.str x ++ ' ' :: rowLine N (y :: l) := by
      rw [rowLine, List.map_cons, List.map_cons, List.intercalate_cons_cons, rowLine, List.map_cons]
      simp
    obtain ⟨h1, h2, h3, _⟩ := rowLine_stripped N (y :: l) (by simp)
    have hc := N.str_chars x
    obtain ⟨c, s, hs⟩ := List.exists_cons_of_ne_nil (N.str_ne x)
    rw [hr]
    refine ⟨⟨?_, ?_⟩, by simp, ?_, ?_⟩
    · intro d hd
      rw [hs] at hd
      cases hd
      exact (hc c (by rw [hs]; exact List.mem_cons_self)).1
    · intro d hd
      rw [List.getLast?_append] at hd
      obtain ⟨e, r, hr'⟩ := List.exists_cons_of_ne_nil h2
      rw [hr', List.getLast?_cons_cons, ← hr'] at hd
      cases hg : (rowLine N (y :: l)).getLast? with
      | none => exact absurd (List.getLast?_eq_none_iff.mp hg) h2
      | some g =>
        rw [hg] at hd
        cases hd
        exact h1.2 d hg
    · simp only [List.mem_append, List.mem_cons, not_or]
      refine ⟨fun h => ?_, by decide, h3⟩
      have := (hc _ h).1
      cases this
    · intro h
      rw [hs] at h
      cases h
      exact (hc '#' (by rw [hs]; exact List.mem_cons_self)).2 rfl

theorem row_read {α : Type} (N : Num α) {l : List α} (h : l ≠ []) : readRow N (rowLine N l) = .ok l := by
  rw [readRow, strip_stripped (rowLine_stripped N l h).1, words_rowLine]
  clear h
  induction l with
  | nil => rfl
  | cons x l ih =>
    rw [List.map_cons, mapE, N.parse_str]
    simp only
    rw [ih]

theorem hash_head {α : Type} (N : Num α) (l : Line α) (h : l.Good) :
    ((l.text N).head? == some '#') = l.nums.isNone := by
  cases l with
  | entry k v => rfl
  | label s => rfl
  | param n v => rfl
  | row l => exact beq_false_of_ne (rowLine_stripped N l h).2.2.2

theorem Line.no_newline {α : Type} (N : Num α) (l : Line α) (h : l.Good) : '\n' ∉ l.text N := by
  have h1 : '\n' ∉ t "# " := by decide
  have h2 : '\n' ∉ t ": " := by decide
  have h3 : '\n' ∉ t ":" := by decide
  have h4 : '\n' ∉ t "# Param: " := by decide
  have h5 : '\n' ∉ t "=" := by decide
  cases l with
  | entry k v =>
    simp only [Line.text, List.mem_append, not_or]
    exact ⟨⟨⟨h1, h.1.2.2.2.1⟩, h2⟩, h.2.2.1⟩
  | label s =>
    simp only [Line.text, List.mem_append, not_or]
    have hs : KeyOk s := h
    exact ⟨⟨h1, hs.2.2.2.1⟩, h3⟩
  | param n v =>
    simp only [Line.text, List.mem_append, not_or]
    exact ⟨⟨⟨h4, h.2.2.1⟩, h5⟩, h.2.2.2.2.1⟩
  | row l => exact (rowLine_stripped N l h).2.2.1

theorem fileLines_unlines {ls : List Text} (h : ∀ l ∈ ls, '\n' ∉ l) : fileLines (unlines ls) = ls := by
  have : lines (unlines ls) = ls ++ [[]] := by
    have := splitOn_unlines ls [] h (by simp)
    rw [List.append_nil] at this
    exact this
  rw [fileLines, this]
  simp

section
variable {α : Type} (N : Num α)

def headerOf (ls : List Text) : List Text := (ls.filter fun l => l.head? == some '#').map stripHash

theorem read_pairs : ∀ ls : List (Line α), (∀ l ∈ ls, l.Good) →
    mapE (splitPair ':') ((headerOf (ls.map (Line.text N))).filter fun x => !startsWith (t "Param") x) =
      .ok (ls.filterMap Line.pair)
  | [], _ => rfl
  | l :: ls, h => by
    have ih := read_pairs ls fun x hx => h x (List.mem_cons_of_mem _ hx)
    have hl := h l List.mem_cons_self
    have hh := hash_head N l hl
    rw [headerOf] at ih
    rw [headerOf, List.map_cons, List.filter_cons, hh]
    cases l with
    | entry k v =>
      obtain ⟨x, h1, h2, h3⟩ := entry_read hl.1 hl.2
      simp only [Line.nums, Option.isNone_none, if_true, List.map_cons, List.filter_cons, Line.text, h1, h2, Bool.not_false,
        mapE, h3, ih, List.filterMap_cons, Line.pair]
    | label s =>
      obtain ⟨x, h1, h2, h3⟩ := label_read hl
      simp only [Line.nums, Option.isNone_none, if_true, List.map_cons, List.filter_cons, Line.text, h1, h2, Bool.not_false,
        mapE, h3, ih, List.filterMap_cons, Line.pair]
    | param n v =>
      obtain ⟨x, h1, h2, _⟩ := param_read hl.1 hl.2.1 hl.2.2.2
      simp only [Line.nums, Option.isNone_none, if_true, List.map_cons, List.filter_cons, Line.text, h1, h2, Bool.not_true,
        Bool.false_eq_true, if_false, ih, List.filterMap_cons, Line.pair]
    | row l =>
      simp only [Line.nums, Option.isNone_some, Bool.false_eq_true, if_false, ih, List.filterMap_cons, Line.pair]

theorem read_params : ∀ ls : List (Line α), (∀ l ∈ ls, l.Good) →
    mapE readParam ((headerOf (ls.map (Line.text N))).filter fun x => startsWith (t "Param") x) =
      .ok (ls.filterMap Line.par)
  | [], _ => rfl
  | l :: ls, h => by
    have ih := read_params ls fun x hx => h x (List.mem_cons_of_mem _ hx)
    have hl := h l List.mem_cons_self
    have hh := hash_head N l hl
    rw [headerOf] at ih
    rw [headerOf, List.map_cons, List.filter_cons, hh]
    cases l with
    | entry k v =>
      obtain ⟨x, h1, h2, _⟩ := entry_read hl.1 hl.2
      simp only [Line.nums, Option.isNone_none, if_true, List.map_cons, List.filter_cons, Line.text, h1, h2,
        Bool.false_eq_true, if_false, ih, List.filterMap_cons, Line.par]
    | label s =>
      obtain ⟨x, h1, h2, _⟩ := label_read hl
      simp only [Line.nums, Option.isNone_none, if_true, List.map_cons, List.filter_cons, Line.text, h1, h2,
        Bool.false_eq_true, if_false, ih, List.filterMap_cons, Line.par]
    | param n v =>
      obtain ⟨x, h1, h2, h3⟩ := param_read hl.1 hl.2.1 hl.2.2.2
      simp only [Line.nums, Option.isNone_none, if_true, List.map_cons, List.filter_cons, Line.text, h1, h2, mapE, h3, ih,
        List.filterMap_cons, Line.par]
    | row l =>
      simp only [Line.nums, Option.isNone_some, Bool.false_eq_true, if_false, ih, List.filterMap_cons, Line.par]

theorem read_rows : ∀ ls : List (Line α), (∀ l ∈ ls, l.Good) →
    mapE (readRow N) ((ls.map (Line.text N)).filter fun l => !(l.head? == some '#')) = .ok (ls.filterMap Line.nums)
  | [], _ => rfl
  | l :: ls, h => by
    have ih := read_rows ls fun x hx => h x (List.mem_cons_of_mem _ hx)
    have hl := h l List.mem_cons_self
    have hh := hash_head N l hl
    rw [List.map_cons, List.filter_cons, hh]
    cases l with
    | row l =>
      have h3 : readRow N (Line.text N (.row l)) = .ok l := row_read N hl
      simp only [Line.nums, Option.isNone_some, Bool.not_false, if_true, mapE, h3, ih, List.filterMap_cons]
    | _ => simp only [Line.nums, Option.isNone_none, Bool.not_true, Bool.false_eq_true, if_false, ih, List.filterMap_cons]

/-- A text of good lines is read as its entries, parameters and numbers. -/
theorem fromText_lines {ls : List (Line α)} (h : ∀ l ∈ ls, l.Good) {a : Nd α} (ha : Nd.ofRows (ls.filterMap Line.nums) = .ok a) :
    fromText N (unlines (ls.map (Line.text N))) = .ok
      { metadata := dictOf (ls.filterMap Line.pair), parameters := dictOf (ls.filterMap Line.par),
        vars := (((dictOf (ls.filterMap Line.pair)).lookup (t "variables")).getD []).splitOn ' ', data := a } := by
  have hf : fileLines (unlines (ls.map (Line.text N))) = ls.map (Line.text N) := by
    refine fileLines_unlines fun l hl => ?_
    obtain ⟨x, hx, rfl⟩ := List.mem_map.mp hl
    exact x.no_newline N (h x hx)
  have h1 := read_pairs N ls h
  have h2 := read_params N ls h
  rw [headerOf] at h1 h2
  rw [fromText, hf]
  simp only [h1, h2, read_rows N ls h, ha]

end

end Verif.Loader
