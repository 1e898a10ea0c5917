import Mathlib.Data.List.Basic
import Mathlib.Data.List.TakeWhile

/-!
C109: the versions known of a remote repository and the one that is used (`_mccode_pooch_registries`,
src/mccode_antlr/reader/registry.py 462-484).

Text is a list of characters. Not modelled: git itself (its answer is any text), and digits that are not ASCII.
-/

namespace Verif.Registry.Tags

/-- `(?:\.\d+ ...)`: a dot and digits, with what follows. -/
def group : List Char → Option (List Char × List Char)
  | '.' :: t =>
    if t.takeWhile Char.isDigit = [] then none else some ('.' :: t.takeWhile Char.isDigit, t.dropWhile Char.isDigit)
  | _ => none

/-- The expression `v\d+(?:\.\d+(?:\.\d+)?)?` (468) at the start of a text: what matches, and what follows. -/
def matchAt : List Char → Option (List Char × List Char)
  | 'v' :: t =>
    if t.takeWhile Char.isDigit = [] then none
    else
      match group (t.dropWhile Char.isDigit) with
      | none => some ('v' :: t.takeWhile Char.isDigit, t.dropWhile Char.isDigit)
      | some (g, r) =>
        match group r with
        | none => some ('v' :: t.takeWhile Char.isDigit ++ g, r)
        | some (g', r') => some ('v' :: t.takeWhile Char.isDigit ++ g ++ g', r')
  | _ => none

/-- `ex.findall(res)` (469): matches that do not overlap, from left to right. `fuel` bounds the number of steps. -/
def findFuel : Nat → List Char → List (List Char)
  | 0, _ => []
  | _ + 1, [] => []
  | n + 1, c :: t =>
    match matchAt (c :: t) with
    | some (m, r) => m :: findFuel n r
    | none => findFuel n t

def findall (s : List Char) : List (List Char) := findFuel s.length s

inductive Err
  | indexError
  | runtimeError
  deriving DecidableEq, Repr

/-- `source_registry_tag` (471-482), given the answer of git and the version asked for. -/
def chosen (answer requested : List Char) : Except Err (List Char) :=
  if requested.map Char.toLower = "latest".toList then
    match findall answer with
    | [] => .error .indexError
    | t :: _ => .ok t
  else if requested ∉ findall answer then .error .runtimeError
  else .ok requested

/-! ### Lemmas -/

theorem digits_takeWhile (t : List Char) : ∀ c ∈ t.takeWhile Char.isDigit, c.isDigit = true := fun _ hc => List.mem_takeWhile_imp hc

theorem group_spec (s g r : List Char) (h : group s = some (g, r)) :
    s = g ++ r ∧ ∃ d : List Char, d ≠ [] ∧ (∀ c ∈ d, c.isDigit = true) ∧ g = '.' :: d := by
  rcases s with _ | ⟨c, t⟩
  · simp [group] at h
  · by_cases hc : c = '.'
    · subst hc
      rw [group] at h
      split_ifs at h with h0
      simp only [Option.some.injEq, Prod.mk.injEq] at h
      rw [← h.2, ← h.1, List.cons_append, List.takeWhile_append_dropWhile]
      exact ⟨rfl, _, h0, digits_takeWhile t, rfl⟩
    · rw [group] at h
      · cases h
      · rintro t ht
        exact hc (List.cons.inj ht).1

/-- A version: the letter v and one to three numbers with dots between. -/
def Version (t : List Char) : Prop :=
  ∃ parts : List (List Char), 1 ≤ parts.length ∧ parts.length ≤ 3 ∧ (∀ p ∈ parts, p ≠ [] ∧ ∀ c ∈ p, c.isDigit = true) ∧
    t = 'v' :: ['.'].intercalate parts

theorem matchAt_not (c : Char) (hc : c ≠ 'v') (t : List Char) : matchAt (c :: t) = none := by
  rw [matchAt]
  rintro t' ht
  exact hc (List.cons.inj ht).1

theorem matchAt_spec (s m r : List Char) (h : matchAt s = some (m, r)) : s = m ++ r ∧ Version m := by
  rcases s with _ | ⟨c, t⟩
  · simp [matchAt] at h
  · by_cases hc : c = 'v'
    · subst hc
      rw [matchAt] at h
      have ht := List.takeWhile_append_dropWhile (p := Char.isDigit) (l := t)
      have hd := digits_takeWhile t
      split_ifs at h with h0
      generalize t.takeWhile Char.isDigit = d at *
      rcases h1 : group (t.dropWhile Char.isDigit) with _ | ⟨g, r1⟩
      · simp only [h1, Option.some.injEq, Prod.mk.injEq] at h
        obtain ⟨rfl, rfl⟩ := h
        refine ⟨by rw [List.cons_append, ht], [d], by simp, by simp, ?_, by simp [List.intercalate]⟩
        simp only [List.mem_singleton, forall_eq]
        exact ⟨h0, hd⟩
      · obtain ⟨hg, d1, hn1, hd1, rfl⟩ := group_spec _ _ _ h1
        rcases h2 : group r1 with _ | ⟨g', r2⟩
        · simp only [h1, h2, Option.some.injEq, Prod.mk.injEq] at h
          obtain ⟨rfl, rfl⟩ := h
          refine ⟨by rw [← ht, hg]; simp, [d, d1], by simp, by simp, ?_, by simp [List.intercalate]⟩
          simp only [List.mem_cons, List.not_mem_nil, or_false, forall_eq_or_imp, forall_eq]
          exact ⟨⟨h0, hd⟩, hn1, hd1⟩
        · obtain ⟨hg', d2, hn2, hd2, rfl⟩ := group_spec _ _ _ h2
          simp only [h1, h2, Option.some.injEq, Prod.mk.injEq] at h
          obtain ⟨rfl, rfl⟩ := h
          refine ⟨by rw [← ht, hg, hg']; simp, [d, d1, d2], by simp, by simp, ?_, by simp [List.intercalate]⟩
          simp only [List.mem_cons, List.not_mem_nil, or_false, forall_eq_or_imp, forall_eq]
          exact ⟨⟨h0, hd⟩, ⟨hn1, hd1⟩, hn2, hd2⟩
    · rw [matchAt_not c hc] at h
      cases h

theorem matchAt_length (s m r : List Char) (h : matchAt s = some (m, r)) : r.length < s.length := by
  obtain ⟨h1, parts, -, -, -, h2⟩ := matchAt_spec s m r h
  rw [h1, h2, List.length_append, List.length_cons]
  omega

theorem findFuel_enough (n : Nat) (s : List Char) (h : s.length ≤ n) : findFuel n s = findall s := by
  suffices ∀ (k n : Nat) (s : List Char), s.length ≤ k → s.length ≤ n → findFuel n s = findFuel k s from this _ _ _ le_rfl h
  intro k
  induction k with
  | zero =>
    intro n s hk _
    rw [List.length_eq_zero_iff.1 (Nat.le_zero.1 hk)]
    cases n <;> rfl
  | succ k ih =>
    intro n s hk hn
    match n, s with
    | 0, [] => rfl
    | n + 1, [] => rfl
    | n + 1, c :: t =>
      simp only [findFuel]
      simp only [List.length_cons, Nat.add_le_add_iff_right] at hk hn
      rcases hm : matchAt (c :: t) with _ | ⟨m, r⟩
      · exact ih n t hk hn
      · have hl := matchAt_length _ _ _ hm
        simp only [List.length_cons] at hl
        have := ih n r (by omega) (by omega)
        simp only [this]

theorem findall_nil : findall [] = [] := rfl

theorem findall_cons (c : Char) (t : List Char) :
    findall (c :: t) = (match matchAt (c :: t) with | some (m, r) => m :: findall r | none => findall t) := by
  rw [findall, List.length_cons]
  simp only [findFuel]
  rcases hm : matchAt (c :: t) with _ | ⟨m, r⟩
  · exact findFuel_enough _ _ le_rfl
  · have hl := matchAt_length _ _ _ hm
    simp only [List.length_cons] at hl
    have := findFuel_enough t.length r (by omega)
    simp only [this]

/-- A character that no match contains. -/
def Outside (x : Char) : Prop := x.isDigit = false ∧ x ≠ '.' ∧ x ≠ 'v'

theorem takeWhile_sep (a b : List Char) (x : Char) (hx : Outside x) :
    (a ++ x :: b).takeWhile Char.isDigit = a.takeWhile Char.isDigit ∧
      (a ++ x :: b).dropWhile Char.isDigit = a.dropWhile Char.isDigit ++ x :: b := by
  induction a with
  | nil => simp [hx.1]
  | cons c a ih =>
    simp only [List.cons_append, List.takeWhile_cons, List.dropWhile_cons]
    split_ifs
    · exact ⟨by rw [ih.1], ih.2⟩
    · exact ⟨rfl, rfl⟩

theorem group_sep (a b : List Char) (x : Char) (hx : Outside x) :
    group (a ++ x :: b) = (group a).map fun p => (p.1, p.2 ++ x :: b) := by
  match a with
  | [] =>
    have : ∀ y : List Char, group (x :: y) = none := by
      intro y
      rw [group]
      rintro t ht
      exact hx.2.1 (List.cons.inj ht).1
    exact this b
  | c :: t =>
    by_cases hc : c = '.'
    · subst hc
      rw [List.cons_append, group, group, (takeWhile_sep t b x hx).1, (takeWhile_sep t b x hx).2]
      split_ifs <;> rfl
    · have : ∀ y : List Char, group (c :: y) = none := by
        intro y
        rw [group]
        rintro t ht
        exact hc (List.cons.inj ht).1
      rw [List.cons_append, this, this]
      rfl

theorem matchAt_sep (c : Char) (a b : List Char) (x : Char) (hx : Outside x) :
    matchAt (c :: a ++ x :: b) = (matchAt (c :: a)).map fun p => (p.1, p.2 ++ x :: b) := by
  by_cases hc : c = 'v'
  · subst hc
    rw [List.cons_append, matchAt, matchAt, (takeWhile_sep a b x hx).1, (takeWhile_sep a b x hx).2]
    split_ifs with h
    · rfl
    · rw [group_sep _ _ _ hx]
      rcases group (a.dropWhile Char.isDigit) with _ | ⟨g, r⟩
      · rfl
      · simp only [Option.map_some]
        rw [group_sep _ _ _ hx]
        rcases group r with _ | ⟨g', r'⟩ <;> rfl
  · rw [List.cons_append, matchAt_not c hc, matchAt_not c hc]
    rfl

/-- What stands on the two sides of a character that no match contains is found separately. -/
theorem findall_sep (a b : List Char) (x : Char) (hx : Outside x) : findall (a ++ x :: b) = findall a ++ findall b := by
  suffices ∀ (n : Nat) (a : List Char), a.length ≤ n → findall (a ++ x :: b) = findall a ++ findall b from this _ a le_rfl
  intro n
  induction n with
  | zero =>
    intro a ha
    rw [List.length_eq_zero_iff.1 (Nat.le_zero.1 ha), List.nil_append, findall_nil, List.nil_append, findall_cons,
      matchAt_not x hx.2.2]
  | succ n ih =>
    intro a ha
    match a with
    | [] => exact ih [] (Nat.zero_le _)
    | c :: a =>
      simp only [List.length_cons, Nat.add_le_add_iff_right] at ha
      have hm := matchAt_sep c a b x hx
      rw [List.cons_append] at hm ⊢
      rw [findall_cons, hm, findall_cons c a]
      rcases h1 : matchAt (c :: a) with _ | ⟨m, r⟩
      · exact ih a ha
      · have hl := matchAt_length _ _ _ h1
        simp only [List.length_cons] at hl
        simp only [Option.map_some, List.cons_append]
        rw [ih r (by omega)]

theorem findall_without (s : List Char) (h : 'v' ∉ s) : findall s = [] := by
  induction s with
  | nil => rfl
  | cons c t ih =>
    simp only [List.mem_cons, not_or] at h
    rw [findall_cons, matchAt_not c (fun h' => h.1 h'.symm)]
    exact ih h.2

/-! ### The property -/

theorem number_then (d r : List Char) (hd : ∀ c ∈ d, c.isDigit = true) (hr : r.takeWhile Char.isDigit = []) :
    (d ++ r).takeWhile Char.isDigit = d ∧ (d ++ r).dropWhile Char.isDigit = r := by
  induction d with
  | nil =>
    refine ⟨hr, ?_⟩
    have := List.takeWhile_append_dropWhile (p := Char.isDigit) (l := r)
    rw [hr] at this
    exact this
  | cons c d ih =>
    have hc := hd c (by simp)
    have ⟨h1, h2⟩ := ih fun c hc => hd c (by simp [hc])
    simp only [List.cons_append, List.takeWhile_cons, List.dropWhile_cons, hc, if_true]
    exact ⟨by rw [h1], h2⟩

theorem group_number (d r : List Char) (h0 : d ≠ []) (hd : ∀ c ∈ d, c.isDigit = true) (hr : r.takeWhile Char.isDigit = []) :
    group ('.' :: (d ++ r)) = some ('.' :: d, r) := by
  rw [group, (number_then d r hd hr).1, (number_then d r hd hr).2, if_neg h0]

/-- A version followed by a character that is neither a digit nor a dot is found as it is. -/
theorem matchAt_version (t : List Char) (ht : Version t) (r : List Char) (hr : r.takeWhile Char.isDigit = []) (hg : group r = none) :
    matchAt (t ++ r) = some (t, r) := by
  obtain ⟨parts, h1, h3, hp, rfl⟩ := ht
  have hdot : ∀ y : List Char, ('.' :: y).takeWhile Char.isDigit = [] := fun y => rfl
  match parts with
  | [] => simp at h1
  | [a] =>
    have ha := hp a (by simp)
    have hi : (['.'] : List Char).intercalate [a] = a := by simp [List.intercalate]
    rw [hi, List.cons_append, matchAt, (number_then a r ha.2 hr).1, (number_then a r ha.2 hr).2, if_neg ha.1]
    simp only [hg]
  | [a, b] =>
    have ha := hp a (by simp)
    have hb := hp b (by simp)
    have hi : (['.'] : List Char).intercalate [a, b] = a ++ '.' :: b := by simp [List.intercalate]
    have hs : 'v' :: (a ++ '.' :: b) ++ r = 'v' :: (a ++ '.' :: (b ++ r)) := by simp
    rw [hi, hs, matchAt, (number_then a _ ha.2 (hdot _)).1, (number_then a _ ha.2 (hdot _)).2, if_neg ha.1,
      group_number b r hb.1 hb.2 hr]
    simp only [hg]
    simp
  | [a, b, c] =>
    have ha := hp a (by simp)
    have hb := hp b (by simp)
    have hc := hp c (by simp)
    have hi : (['.'] : List Char).intercalate [a, b, c] = a ++ '.' :: (b ++ '.' :: c) := by simp [List.intercalate]
    have hs : 'v' :: (a ++ '.' :: (b ++ '.' :: c)) ++ r = 'v' :: (a ++ '.' :: (b ++ '.' :: (c ++ r))) := by simp
    rw [hi, hs, matchAt, (number_then a _ ha.2 (hdot _)).1, (number_then a _ ha.2 (hdot _)).2, if_neg ha.1,
      group_number b _ hb.1 hb.2 (hdot _)]
    simp only [group_number c r hc.1 hc.2 hr]
    simp
  | _ :: _ :: _ :: _ :: _ => simp at h3

theorem findall_version (t : List Char) (ht : Version t) (r : List Char) (hr : r.takeWhile Char.isDigit = []) (hg : group r = none) :
    findall (t ++ r) = t :: findall r := by
  have hm := matchAt_version t ht r hr hg
  obtain ⟨parts, -, -, -, rfl⟩ := ht
  rw [List.cons_append] at hm ⊢
  rw [findall_cons, hm]

/-- A line of the answer of `git ls-remote --tags`: an object, a tab, the reference, and `^{}` for the object of an annotated tag. -/
def line (x : List Char × List Char × Bool) : List Char :=
  x.1 ++ "\trefs/tags/".toList ++ x.2.1 ++ (if x.2.2 then "^{}".toList else [])

theorem outside_newline : Outside '\n' := ⟨by decide, by decide, by decide⟩
theorem outside_tab : Outside '\t' := ⟨by decide, by decide, by decide⟩
theorem outside_caret : Outside '^' := ⟨by decide, by decide, by decide⟩
theorem outside_slash : Outside '/' := ⟨by decide, by decide, by decide⟩

theorem findall_line (x : List Char × List Char × Bool) (hx : 'v' ∉ x.1) : findall (line x) = findall x.2.1 := by
  obtain ⟨h, t, p⟩ := x
  have h1 : findall ("refs/tags/".toList ++ t) = findall t := by
    have : "refs/tags/".toList ++ t = "refs/tags".toList ++ '/' :: t := rfl
    rw [this, findall_sep _ _ _ outside_slash, findall_without _ (by decide), List.nil_append]
  have h2 : findall (h ++ '\t' :: ("refs/tags/".toList ++ t)) = findall t := by
    rw [findall_sep _ _ _ outside_tab, findall_without h hx, List.nil_append, h1]
  cases p
  · have : line (h, t, false) = h ++ '\t' :: ("refs/tags/".toList ++ t) := by simp [line]
    rw [this, h2]
  · have : line (h, t, true) = (h ++ '\t' :: ("refs/tags/".toList ++ t)) ++ '^' :: "{}".toList := by simp [line]
    rw [this, findall_sep _ _ _ outside_caret, findall_without "{}".toList (by decide), List.append_nil, h2]

theorem findall_lines (ls : List (List Char × List Char × Bool)) (h : ∀ x ∈ ls, 'v' ∉ x.1) :
    findall (['\n'].intercalate (ls.map line)) = ls.flatMap fun x => findall x.2.1 := by
  induction ls with
  | nil => rfl
  | cons x ls ih =>
    have hx := findall_line x (h x (by simp))
    have ih := ih fun y hy => h y (by simp [hy])
    match ls, ih with
    | [], _ =>
      have : (['\n'] : List Char).intercalate ([x].map line) = line x := by simp [List.intercalate]
      rw [this, hx]
      simp
    | y :: ls, ih =>
      have : (['\n'] : List Char).intercalate ((x :: y :: ls).map line) = line x ++ '\n' :: ['\n'].intercalate ((y :: ls).map line) := by
        simp [List.intercalate]
      rw [this, findall_sep _ _ _ outside_newline, hx, ih, List.flatMap_cons (x := x)]

/-- C109: each tag adds what is found in it, in the order of the answer (objects are hexadecimal numbers and hold no v). -/
theorem known_versions (ls : List (List Char × List Char × Bool)) (h : ∀ x ∈ ls, 'v' ∉ x.1) :
    findall (['\n'].intercalate (ls.map line)) = ls.flatMap fun x => findall x.2.1 := findall_lines ls h

/-- C109 (partial: for tags that are versions and nothing else): the versions known are the tags, in order. -/
theorem known_tags_partial (ls : List (List Char × List Char × Bool)) (h : ∀ x ∈ ls, 'v' ∉ x.1) (hv : ∀ x ∈ ls, Version x.2.1) :
    findall (['\n'].intercalate (ls.map line)) = ls.map fun x => x.2.1 := by
  rw [findall_lines ls h]
  clear h
  induction ls with
  | nil => rfl
  | cons x ls ih =>
    have := findall_version x.2.1 (hv x (by simp)) [] rfl rfl
    rw [List.append_nil, findall_nil] at this
    rw [List.flatMap_cons, List.map_cons, this, ih fun y hy => hv y (by simp [hy])]
    rfl

/-- C109 (partial, likewise): 'latest' is the first tag; any other is used if it is a tag and refused if not. -/
theorem chosen_partial (ls : List (List Char × List Char × Bool)) (h : ∀ x ∈ ls, 'v' ∉ x.1) (hv : ∀ x ∈ ls, Version x.2.1)
    (requested : List Char) :
    chosen (['\n'].intercalate (ls.map line)) requested =
      if requested.map Char.toLower = "latest".toList then
        (ls.head?.map fun x => x.2.1).elim (.error .indexError) .ok
      else if ∃ x ∈ ls, x.2.1 = requested then .ok requested else .error .runtimeError := by
  rw [chosen, known_tags_partial ls h hv]
  have hm : (∃ x ∈ ls, x.2.1 = requested) ↔ requested ∈ ls.map fun x => x.2.1 := by rw [List.mem_map]
  simp only [hm]
  by_cases h1 : requested.map Char.toLower = "latest".toList
  · rw [if_pos h1, if_pos h1]
    cases ls <;> rfl
  · rw [if_neg h1, if_neg h1]
    by_cases h2 : requested ∈ ls.map fun x => x.2.1
    · rw [if_neg (not_not.2 h2), if_pos h2]
    · rw [if_pos h2, if_neg h2]

/-- C109: what is known is in the answer, and is a version. -/
theorem found_are_versions (s t : List Char) (h : t ∈ findall s) : Version t ∧ t <:+: s := by
  suffices ∀ (n : Nat) (s : List Char), s.length ≤ n → t ∈ findall s → Version t ∧ t <:+: s from this _ s le_rfl h
  intro n
  induction n with
  | zero =>
    intro s hs ht
    rw [List.length_eq_zero_iff.1 (Nat.le_zero.1 hs)] at ht
    cases ht
  | succ n ih =>
    intro s hs ht
    rcases s with _ | ⟨c, s⟩
    · cases ht
    · simp only [List.length_cons, Nat.add_le_add_iff_right] at hs
      rw [findall_cons] at ht
      rcases hm : matchAt (c :: s) with _ | ⟨m, r⟩
      · simp only [hm] at ht
        obtain ⟨h1, h2⟩ := ih s hs ht
        exact ⟨h1, h2.trans (List.suffix_cons c s).isInfix⟩
      · simp only [hm, List.mem_cons] at ht
        obtain ⟨h1, h2⟩ := matchAt_spec _ _ _ hm
        have hl := matchAt_length _ _ _ hm
        simp only [List.length_cons] at hl
        rcases ht with rfl | ht
        · exact ⟨h2, [], r, by rw [h1]; rfl⟩
        · obtain ⟨h3, h4⟩ := ih r (by omega) ht
          exact ⟨h3, h4.trans (by rw [h1]; exact (List.suffix_append m r).isInfix)⟩

/-- C109: but of a tag that goes on after the version only the version is known, which need not be a tag. -/
theorem suffix_dropped (t : List Char) (ht : Version t) (x : Char) (hx : Outside x) (r : List Char) (hr : 'v' ∉ r) (o : List Char)
    (ho : 'v' ∉ o) : chosen (line (o, t ++ x :: r, false)) "latest".toList = .ok t := by
  have h1 : findall (t ++ x :: r) = [t] := by
    rw [findall_sep _ _ _ hx, findall_without r hr]
    have := findall_version t ht [] rfl rfl
    rw [List.append_nil, findall_nil] at this
    rw [this]
    rfl
  have h2 := findall_line (o, t ++ x :: r, false) ho
  rw [chosen, h2, h1, if_pos (by decide)]

/-- C109: and the end of another word may be taken for a version. -/
theorem word_taken : chosen (line ("1a2b".toList, "dev2024".toList, false)) "v2024".toList = .ok "v2024".toList := by decide +kernel

/-! ### The hypotheses are met -/

def sample : List (List Char × List Char × Bool) :=
  [("0fe1".toList, "v3.5.1".toList, true), ("a0".toList, "v3.5.1".toList, false), ("b7".toList, "v3".toList, false)]

example : (∀ x ∈ sample, 'v' ∉ x.1) ∧ ∀ x ∈ sample, Version x.2.1 := by
  refine ⟨by decide, ?_⟩
  simp only [sample, List.mem_cons, List.not_mem_nil, or_false, forall_eq_or_imp, forall_eq]
  have h : Version "v3.5.1".toList := ⟨["3".toList, "5".toList, "1".toList], by decide, by decide, by decide, by decide⟩
  exact ⟨h, h, ["3".toList], by decide, by decide, by decide, by decide⟩
example : findall (['\n'].intercalate (sample.map line)) = ["v3.5.1".toList, "v3.5.1".toList, "v3".toList] := by decide +kernel
example : chosen (['\n'].intercalate (sample.map line)) "Latest".toList = .ok "v3.5.1".toList := by decide +kernel
example : chosen (['\n'].intercalate (sample.map line)) "v3.5".toList = .error .runtimeError := by decide +kernel
example : chosen (line ("c3".toList, "v3.5.0-rc1".toList, false)) "latest".toList = .ok "v3.5.0".toList := by decide +kernel
example : findall "v1.2.3.4 v.5 v7.x".toList = ["v1.2.3".toList, "v7".toList] := by decide +kernel

end Verif.Registry.Tags
