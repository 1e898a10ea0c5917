import Mathlib.Data.List.Basic
import Mathlib.Data.List.Nodup
import Mathlib.Data.List.Infix
import Mathlib.Data.List.TakeWhile
import Verif.Compile.Split

/-!
C105: the list of files of a `GitHubRegistry` kept in a file (src/mccode_antlr/reader/registry.py 219-263): it is read from the network
or given the first time, written to a file, and read from that file every time after.

Simplified: white space is the blank, the tab, carriage return and newline; the directory can be made and the file read; the URL asked
is not modelled, only what the answer is.
-/

namespace Verif.Registry.Cache

abbrev Text := List Char

/-- A dictionary in the order of its keys. -/
abbrev Dict := List (Text × Text)

inductive Err
  | valueError
  | runtimeError
  deriving DecidableEq, Repr

/-- White space. -/
def blank (c : Char) : Bool := c == ' ' || c == '\t' || c == '\n' || c == '\r'

/-- `d[k] = v`. -/
def put (d : Dict) (k v : Text) : Dict :=
  if k ∈ d.map (·.1) then d.map fun x => if x.1 = k then (k, v) else x else d ++ [(k, v)]

/-- `k, v = x.split(maxsplit=1)`. -/
def pair (x : Text) : Except Err (Text × Text) :=
  let x := x.dropWhile blank
  let k := x.takeWhile (!blank ·)
  let v := (x.dropWhile (!blank ·)).dropWhile blank
  if k = [] ∨ v = [] then .error .valueError else .ok (k, v)

/-- `x.strip()`. -/
def strip (x : Text) : Text := ((x.dropWhile blank).reverse.dropWhile blank).reverse

/-- `{k: v for k, v in [...]}`. -/
def dict (pairs : List (Text × Text)) : Dict := pairs.foldl (fun d x => put d x.1 x.2) []

/-- The ends of lines in a file opened as text. -/
def universal : Text → Text
  | '\r' :: '\n' :: t => '\n' :: universal t
  | '\r' :: t => '\n' :: universal t
  | c :: t => c :: universal t
  | [] => []

/-- `file.readlines()`, without the ends of the lines. -/
def readLines (t : Text) : List Text :=
  let ls := (universal t).splitOn '\n'
  if ls.getLast? = some [] then ls.dropLast else ls

/-- 241-242: all lines, since each has at least its end. -/
def readCache (t : Text) : Except Err Dict := do
  let pairs ← (readLines t).mapM fun x => pair (strip x)
  return dict pairs

/-- 251. -/
def readAnswer (t : Text) : Except Err Dict := do
  let pairs ← ((t.splitOn '\n').filter (· ≠ [])).mapM pair
  return dict pairs

/-- 254-255. -/
def writeCache (d : Dict) : Text := ['\n'].intercalate (d.map fun x => x.1 ++ ' ' :: x.2)

/-- The registry given to the constructor: nothing or a text, or a dictionary. -/
inductive Given
  | place
  | files (d : Dict)

/-- 236-255: the files known, and the file kept. -/
def openRegistry (cache : Option Text) (given : Given) (answer : Option Text) : Except Err (Dict × Text) :=
  match cache with
  | some t => (readCache t).map fun d => (d, t)
  | none =>
    match given with
    | .files d => .ok (d, writeCache d)
    | .place =>
      match answer with
      | none => .error .runtimeError
      | some a => (readAnswer a).map fun d => (d, writeCache d)

/-! ### Lemmas -/

/-- A name of a file without blanks, and a value in one line without blanks around it. -/
def Clean (x : Text × Text) : Prop :=
  (x.1 ≠ [] ∧ ∀ c ∈ x.1, blank c = false) ∧
    (x.2 ≠ [] ∧ '\n' ∉ x.2 ∧ '\r' ∉ x.2 ∧ (∀ c ∈ x.2.head?, blank c = false) ∧ ∀ c ∈ x.2.getLast?, blank c = false)

theorem dropWhile_of_head (t : Text) (h : ∀ c ∈ t.head?, blank c = false) : t.dropWhile blank = t := by
  cases t with
  | nil => rfl
  | cons c t => rw [List.dropWhile_cons, if_neg (by simp [h c (by simp)])]

theorem head_dropWhile (t : Text) : ∀ c ∈ (t.dropWhile blank).head?, blank c = false := by
  induction t with
  | nil => simp
  | cons d t ih =>
    rw [List.dropWhile_cons]
    split_ifs with h
    · exact ih
    · intro c hc
      have : d = c := by simpa using hc
      rw [← this]
      simpa using h

theorem strip_eq (t : Text) (h : ∀ c ∈ t.head?, blank c = false) (h' : ∀ c ∈ t.getLast?, blank c = false) : strip t = t := by
  rw [strip, dropWhile_of_head t h, dropWhile_of_head t.reverse (by simpa using h'), List.reverse_reverse]

theorem strip_last (t : Text) : ∀ c ∈ (strip t).getLast?, blank c = false := by
  intro c hc
  rw [strip, List.getLast?_reverse] at hc
  exact head_dropWhile _ c hc

theorem getLast_dropWhile (p : Char → Bool) (t : Text) (c : Char) (h : c ∈ (t.dropWhile p).getLast?) : c ∈ t.getLast? := by
  obtain ⟨a, ha⟩ := List.dropWhile_suffix p (l := t)
  have hc := h
  rw [← ha]
  rw [Option.mem_def] at hc ⊢
  rw [List.getLast?_append, hc]
  rfl

theorem pair_clean (k v : Text) (h : Clean (k, v)) : pair (k ++ ' ' :: v) = .ok (k, v) := by
  obtain ⟨⟨hk, hkb⟩, hv, _, _, hv1, _⟩ := h
  simp only at hk hkb hv hv1
  have h1 : (k ++ ' ' :: v).dropWhile blank = k ++ ' ' :: v := by
    refine dropWhile_of_head _ fun c hc => ?_
    obtain ⟨a, k, rfl⟩ := List.exists_cons_of_ne_nil hk
    have : a = c := by simpa using hc
    exact hkb c (by simp [this])
  have hp : ∀ c ∈ k, (!blank c) = true := fun c hc => by simp [hkb c hc]
  have hs : (!blank ' ') = false := by decide
  have hs' : blank ' ' = true := by decide
  simp only [pair, h1]
  rw [List.takeWhile_append_of_pos hp, List.dropWhile_append_of_pos hp, List.takeWhile_cons, List.dropWhile_cons, hs]
  simp only [Bool.false_eq_true, if_false, List.append_nil]
  rw [List.dropWhile_cons, hs', if_pos rfl, dropWhile_of_head v hv1, if_neg (by simp [hk, hv])]

theorem pair_ok {x : Text} {k v : Text} (h : pair x = .ok (k, v)) :
    (k ≠ [] ∧ ∀ c ∈ k, blank c = false) ∧ v ≠ [] ∧ (∀ c ∈ v, c ∈ x) ∧ (∀ c ∈ v.head?, blank c = false) ∧
      ∀ c ∈ v.getLast?, c ∈ x.getLast? := by
  simp only [pair] at h
  split_ifs at h with hn
  push Not at hn
  simp only [Except.ok.injEq, Prod.mk.injEq] at h
  obtain ⟨rfl, rfl⟩ := h
  refine ⟨⟨hn.1, fun c hc => ?_⟩, hn.2, fun c hc => ?_, head_dropWhile _, fun c hc => ?_⟩
  · simpa using List.mem_takeWhile_imp hc
  · exact (List.dropWhile_suffix _).subset ((List.dropWhile_suffix _).subset ((List.dropWhile_suffix _).subset hc))
  · exact getLast_dropWhile _ _ _ (getLast_dropWhile _ _ _ (getLast_dropWhile _ _ _ hc))

theorem universal_id (t : Text) (h : '\r' ∉ t) : universal t = t := by
  induction t with
  | nil => rfl
  | cons c t ih =>
    have hc : c ≠ '\r' := fun hc => h (by simp [hc])
    rw [universal, ih fun hm => h (by simp [hm])]
    · intro t' ht; simp_all
    · intro hc'; exact absurd hc' hc

theorem universal_no_cr (t : Text) : '\r' ∉ universal t := by
  induction t using universal.induct with
  | case1 t ih => rw [universal]; simp [ih]
  | case2 t h ih => rw [universal]; simp [ih]; exact h
  | case3 c t h1 h2 ih => 
    rw [universal]
    · intro hm
      rcases List.mem_cons.1 hm with hm | hm
      · exact h2 hm.symm
      · exact ih hm
    · exact h1
    · exact h2
  | case4 => simp [universal]

theorem mapM_ok {α β : Type} (f : α → Except Err β) (g : β → α) (xs : List β) (h : ∀ x ∈ xs, f (g x) = .ok x) :
    (xs.map g).mapM f = .ok xs := by
  induction xs with
  | nil => rfl
  | cons x xs ih =>
    rw [List.map_cons, List.mapM_cons, h x (by simp), ih fun y hy => h y (by simp [hy])]
    rfl

theorem mapM_mem {α β : Type} (f : α → Except Err β) : ∀ (ls : List α) (ps : List β), ls.mapM f = .ok ps →
    ∀ p ∈ ps, ∃ l ∈ ls, f l = .ok p := by
  intro ls
  induction ls with
  | nil =>
    intro ps h p hp
    rw [List.mapM_nil] at h
    cases h
    simp at hp
  | cons l ls ih =>
    intro ps h p hp
    rw [List.mapM_cons] at h
    rcases hl : f l with e | q
    · rw [hl] at h; cases h
    · rcases hr : ls.mapM f with e | qs
      · rw [hl, hr] at h; cases h
      · rw [hl, hr] at h
        cases h
        rcases List.mem_cons.1 hp with rfl | hp
        · exact ⟨l, by simp, hl⟩
        · obtain ⟨l', h1, h2⟩ := ih qs hr p hp
          exact ⟨l', by simp [h1], h2⟩

theorem put_mem (d : Dict) (k v : Text) : ∀ x ∈ put d k v, x ∈ d ∨ x = (k, v) := by
  intro x hx
  simp only [put] at hx
  split_ifs at hx
  · obtain ⟨y, hy, rfl⟩ := List.mem_map.1 hx
    split_ifs
    · exact .inr rfl
    · exact .inl hy
  · simpa using hx

theorem put_new (d : Dict) (k v : Text) (h : k ∉ d.map (·.1)) : put d k v = d ++ [(k, v)] := by
  rw [put, if_neg h]

theorem put_keys (d : Dict) (k v : Text) : (put d k v).map (·.1) = if k ∈ d.map (·.1) then d.map (·.1) else d.map (·.1) ++ [k] := by
  simp only [put]
  split_ifs with h
  · rw [List.map_map]
    refine List.map_congr_left fun x _ => ?_
    simp only [Function.comp]
    split_ifs with hk
    · exact hk.symm
    · rfl
  · simp

theorem dict_mem (ps : List (Text × Text)) : ∀ x ∈ dict ps, x ∈ ps := by
  have : ∀ (ps : List (Text × Text)) (d : Dict), ∀ x ∈ ps.foldl (fun d x => put d x.1 x.2) d, x ∈ d ∨ x ∈ ps := by
    intro ps
    induction ps with
    | nil => intro d x hx; exact .inl hx
    | cons p ps ih =>
      intro d x hx
      rcases ih _ x hx with h | h
      · rcases put_mem d p.1 p.2 x h with h | h
        · exact .inl h
        · exact .inr (by simp [h])
      · exact .inr (by simp [h])
  intro x hx
  simpa using this ps [] x hx

theorem dict_nodup (ps : List (Text × Text)) : ((dict ps).map (·.1)).Nodup := by
  have : ∀ (ps : List (Text × Text)) (d : Dict), (d.map (·.1)).Nodup → ((ps.foldl (fun d x => put d x.1 x.2) d).map (·.1)).Nodup := by
    intro ps
    induction ps with
    | nil => intro d h; exact h
    | cons p ps ih =>
      intro d h
      refine ih _ ?_
      rw [put_keys]
      split_ifs with hk
      · exact h
      · exact List.Nodup.append h (by simp) (by simpa using hk)
  exact this ps [] (by simp)

theorem dict_self (d : Dict) (h : (d.map (·.1)).Nodup) : dict d = d := by
  have : ∀ (ps d : Dict), ((d ++ ps).map (·.1)).Nodup → ps.foldl (fun d x => put d x.1 x.2) d = d ++ ps := by
    intro ps
    induction ps with
    | nil => intro d _; simp
    | cons p ps ih =>
      intro d h
      have hn : p.1 ∉ d.map (·.1) := by
        rw [List.map_append, List.nodup_append] at h
        intro hm
        exact h.2.2 _ hm p.1 (by simp) rfl
      rw [List.foldl_cons, put_new d _ _ hn, ih _ (by simpa using h)]
      simp
  have := this d [] (by simpa using h)
  rw [List.nil_append] at this
  exact this

theorem readCache_eq (t : Text) : readCache t = ((readLines t).mapM fun x => pair (strip x)).map dict := by
  simp only [readCache]
  rcases (readLines t).mapM fun x => pair (strip x) with e | ps <;> rfl

theorem readAnswer_eq (t : Text) : readAnswer t = (((t.splitOn '\n').filter (· ≠ [])).mapM pair).map dict := by
  simp only [readAnswer]
  rcases ((t.splitOn '\n').filter (· ≠ [])).mapM pair with e | ps <;> rfl

theorem line_clean (x : Text × Text) (h : Clean x) : '\n' ∉ x.1 ++ ' ' :: x.2 ∧ '\r' ∉ x.1 ++ ' ' :: x.2 ∧ strip (x.1 ++ ' ' :: x.2) = x.1 ++ ' ' :: x.2 := by
  obtain ⟨⟨hk, hkb⟩, hv, hn, hr, hv1, hv2⟩ := h
  refine ⟨?_, ?_, strip_eq _ ?_ ?_⟩
  · intro hm
    rcases List.mem_append.1 hm with hm | hm
    · have := hkb _ hm; revert this; decide
    · simp [hn] at hm
  · intro hm
    rcases List.mem_append.1 hm with hm | hm
    · have := hkb _ hm; revert this; decide
    · simp [hr] at hm
  · intro c hc
    obtain ⟨a, k, hak⟩ := List.exists_cons_of_ne_nil hk
    rw [hak] at hc
    have : a = c := by simpa using hc
    exact hkb c (by rw [hak]; simp [this])
  · intro c hc
    refine hv2 c ?_
    obtain ⟨a, v, hav⟩ := List.exists_cons_of_ne_nil hv
    rw [Option.mem_def, List.getLast?_append, List.getLast?_cons_of_ne_nil hv] at hc
    rcases hl : x.2.getLast? with _ | w
    · rw [List.getLast?_eq_none_iff] at hl; exact absurd hl hv
    · rw [hl] at hc
      exact hc

theorem mem_join (c : Char) (ls : List Text) (h : c ∈ ['\n'].intercalate ls) : c = '\n' ∨ ∃ l ∈ ls, c ∈ l := by
  induction ls with
  | nil => simp [List.intercalate] at h
  | cons l ls ih =>
    cases ls with
    | nil => exact .inr ⟨l, by simp, by simpa [List.intercalate] using h⟩
    | cons m ls =>
      have h : c ∈ l ∨ c = '\n' ∨ c ∈ ['\n'].intercalate (m :: ls) := by simpa [List.intercalate] using h
      rcases h with h | h | h
      · exact .inr ⟨l, by simp, h⟩
      · exact .inl h
      · rcases ih h with h | ⟨k, hk, hc⟩
        · exact .inl h
        · exact .inr ⟨k, by simp [hk], hc⟩

theorem join_mem (c : Char) (ls : List Text) (l : Text) (hl : l ∈ ls) (hc : c ∈ l) : c ∈ ['\n'].intercalate ls := by
  induction ls with
  | nil => simp at hl
  | cons m ls ih =>
    cases ls with
    | nil =>
      have : l = m := by simpa using hl
      subst this
      simpa [List.intercalate] using hc
    | cons n ls =>
      have h : c ∈ m ∨ c = '\n' ∨ c ∈ ['\n'].intercalate (n :: ls) := by
        rcases List.mem_cons.1 hl with rfl | hl
        · exact .inl hc
        · exact .inr (.inr (ih hl))
      simpa [List.intercalate] using h

theorem readLines_write (d : Dict) (h : ∀ x ∈ d, Clean x) : readLines (writeCache d) = d.map fun x => x.1 ++ ' ' :: x.2 := by
  have hcr : '\r' ∉ writeCache d := by
    intro hm
    rcases mem_join _ _ hm with h' | ⟨l, hl, hc⟩
    · revert h'; decide
    · obtain ⟨x, hx, rfl⟩ := List.mem_map.1 hl
      exact (line_clean x (h x hx)).2.1 hc
  simp only [readLines]
  rw [universal_id _ hcr]
  by_cases hd : d = []
  · subst hd
    decide
  · have hs : (writeCache d).splitOn '\n' = d.map fun x => x.1 ++ ' ' :: x.2 := by
      refine List.splitOn_intercalate _ (fun l hl => ?_) (by simpa using hd)
      obtain ⟨x, hx, rfl⟩ := List.mem_map.1 hl
      exact (line_clean x (h x hx)).1
    rw [hs, if_neg]
    intro hl
    have := List.mem_of_getLast? hl
    obtain ⟨x, _, hx⟩ := List.mem_map.1 this
    simp at hx

theorem readLines_plain (t : Text) : ∀ l ∈ readLines t, '\n' ∉ l ∧ '\r' ∉ l := by
  have h1 : ∀ l ∈ (universal t).splitOn '\n', '\n' ∉ l ∧ '\r' ∉ l := by
    intro l hl
    constructor
    · intro hm
      have := Compile.splitOnP_plain (· == '\n') (universal t) l hl '\n' hm
      simp at this
    · intro hm
      have : '\r' ∈ ['\n'].intercalate ((universal t).splitOn '\n') := by
        exact join_mem _ _ l hl hm
      rw [List.intercalate_splitOn] at this
      exact universal_no_cr t this
  intro l hl
  simp only [readLines] at hl
  split_ifs at hl
  · exact h1 l (List.mem_of_mem_dropLast hl)
  · exact h1 l hl

theorem mem_strip (t : Text) (c : Char) (h : c ∈ strip t) : c ∈ t := by
  rw [strip, List.mem_reverse] at h
  have := (List.dropWhile_suffix _).subset h
  rw [List.mem_reverse] at this
  exact (List.dropWhile_suffix _).subset this

theorem line_read {l : Text} {x : Text × Text} (hl : '\n' ∉ l ∧ '\r' ∉ l) (h : pair (strip l) = .ok x) : Clean x := by
  obtain ⟨k, v⟩ := x
  obtain ⟨hk, hv, hsub, hh, hlast⟩ := pair_ok h
  exact ⟨hk, hv, fun hm => hl.1 (mem_strip _ _ (hsub _ hm)), fun hm => hl.2 (mem_strip _ _ (hsub _ hm)), hh,
    fun c hc => strip_last l c (hlast c hc)⟩

/-- What is read from any file is such that it can be written and read again. -/
theorem read_clean {t : Text} {d : Dict} (h : readCache t = .ok d) : (∀ x ∈ d, Clean x) ∧ (d.map (·.1)).Nodup := by
  rw [readCache_eq] at h
  rcases hm : (readLines t).mapM fun x => pair (strip x) with e | ps
  · rw [hm] at h; cases h
  · rw [hm] at h
    simp only [Except.map, Except.ok.injEq] at h
    subst h
    refine ⟨fun x hx => ?_, dict_nodup ps⟩
    obtain ⟨l, hl, hp⟩ := mapM_mem _ _ _ hm x (dict_mem ps x hx)
    exact line_read (readLines_plain t l hl) hp

/-- C105: what is read from the file written is the dictionary exactly if its keys have no blanks and its values are in one line with
no blanks around them. -/
theorem cache_round_trip_iff (d : Dict) (hd : (d.map (·.1)).Nodup) : readCache (writeCache d) = .ok d ↔ ∀ x ∈ d, Clean x := by
  constructor
  · intro h
    exact (read_clean h).1
  · intro h
    have hm : (d.map fun x => x.1 ++ ' ' :: x.2).mapM (fun x => pair (strip x)) = .ok d := by
      refine mapM_ok _ _ d fun x hx => ?_
      rw [(line_clean x (h x hx)).2.2]
      exact pair_clean x.1 x.2 (h x hx)
    rw [readCache_eq, readLines_write d h, hm]
    simp only [Except.map, dict_self d hd]

/-- C105: a registry whose list of files came from the network has the same list the next time, whatever is given or answered then, if
and only if no value ends in white space or has a carriage return in it. -/
theorem answer_kept_iff (answer : Text) (d : Dict) (file : Text) (given : Given) (answer' : Option Text)
    (h : openRegistry none .place (some answer) = .ok (d, file)) :
    openRegistry (some file) given answer' = .ok (d, file) ↔
      ∀ x ∈ d, '\r' ∉ x.2 ∧ ∀ c ∈ x.2.getLast?, c ≠ ' ' ∧ c ≠ '\t' := by
  simp only [openRegistry, readAnswer_eq] at h
  rcases hm : ((answer.splitOn '\n').filter (· ≠ [])).mapM pair with e | ps
  · rw [hm] at h; cases h
  · rw [hm] at h
    simp only [Except.map, Except.ok.injEq, Prod.mk.injEq] at h
    obtain ⟨rfl, rfl⟩ := h
    have h1 : openRegistry (some (writeCache (dict ps))) given answer' = .ok (dict ps, writeCache (dict ps)) ↔
        readCache (writeCache (dict ps)) = .ok (dict ps) := by
      simp only [openRegistry]
      rcases readCache (writeCache (dict ps)) with e | d' <;> simp [Except.map]
    rw [h1, cache_round_trip_iff _ (dict_nodup ps)]
    refine forall₂_congr fun x hx => ?_
    obtain ⟨l, hl, hp⟩ := mapM_mem _ _ _ hm x (dict_mem ps x hx)
    have hnl : '\n' ∉ l := fun hmem => by
      have := Compile.splitOnP_plain (· == '\n') answer l (List.mem_of_mem_filter hl) '\n' hmem
      simp at this
    obtain ⟨hk, hv, hsub, hh, _⟩ := pair_ok (k := x.1) (v := x.2) hp
    constructor
    · intro hc
      refine ⟨hc.2.2.2.1, fun c hcl => ?_⟩
      have := hc.2.2.2.2.2 c hcl
      constructor <;> (rintro rfl; revert this; decide)
    · rintro ⟨hr, hlast⟩
      refine ⟨hk, hv, fun hmem => hnl (hsub _ hmem), hr, hh, fun c hcl => ?_⟩
      have hmem := List.mem_of_getLast? hcl
      have h2 := hlast c hcl
      simp only [blank, Bool.or_eq_false_iff, beq_eq_false_iff_ne]
      refine ⟨⟨⟨h2.1, h2.2⟩, ?_⟩, ?_⟩
      · rintro rfl; exact hnl (hsub _ hmem)
      · rintro rfl; exact hr hmem

/-- C105: a dictionary given is used the first time, and the next time if and only if its keys have no blanks and its values are in one
line with no blanks around them. -/
theorem given_kept_iff (d : Dict) (hd : (d.map (·.1)).Nodup) (answer answer' : Option Text) (given : Given) :
    ∃ file, openRegistry none (.files d) answer = .ok (d, file) ∧
      (openRegistry (some file) given answer' = .ok (d, file) ↔
        ∀ x ∈ d, (x.1 ≠ [] ∧ ∀ c ∈ x.1, blank c = false) ∧
          (x.2 ≠ [] ∧ '\n' ∉ x.2 ∧ '\r' ∉ x.2 ∧ (∀ c ∈ x.2.head?, blank c = false) ∧ ∀ c ∈ x.2.getLast?, blank c = false)) := by
  refine ⟨writeCache d, rfl, ?_⟩
  have := cache_round_trip_iff d hd
  simp only [Clean] at this
  rw [← this]
  simp only [openRegistry]
  rcases readCache (writeCache d) with e | d' <;> simp [Except.map]

/-- C105: once there is a file, nothing else is used, and the file is left. -/
theorem file_used (file : Text) (given given' : Given) (answer answer' : Option Text) :
    openRegistry (some file) given answer = openRegistry (some file) given' answer' ∧
      ∀ d file', openRegistry (some file) given answer = .ok (d, file') → file' = file := by
  refine ⟨rfl, fun d file' h => ?_⟩
  simp only [openRegistry] at h
  rcases hr : readCache file with e | d' <;> rw [hr] at h
  · cases h
  · simp only [Except.map, Except.ok.injEq, Prod.mk.injEq] at h
    exact h.2.symm

/-- A list of two files is kept: `a.comp 1f`, `b.comp 2e url`. -/
example : openRegistry none .place (some "a.comp 1f\nb.comp  2e url\n".toList) =
      .ok ([("a.comp".toList, "1f".toList), ("b.comp".toList, "2e url".toList)], "a.comp 1f\nb.comp 2e url".toList) ∧
    openRegistry (some "a.comp 1f\nb.comp 2e url".toList) (.files []) none =
      .ok ([("a.comp".toList, "1f".toList), ("b.comp".toList, "2e url".toList)], "a.comp 1f\nb.comp 2e url".toList) := by
  decide +kernel

/-- C105 does not hold: a registry given as a dictionary is not used if there is a file of an earlier one. -/
theorem given_ignored :
    ∃ file d, openRegistry none (.files [("a.comp".toList, "1f".toList)]) none = .ok (d, file) ∧
      openRegistry (some file) (.files [("b.comp".toList, "2e".toList)]) none = .ok ([("a.comp".toList, "1f".toList)], file) :=
  ⟨"a.comp 1f".toList, [("a.comp".toList, "1f".toList)], by decide +kernel, by decide +kernel⟩

/-- C105 does not hold for answers with carriage returns: the hash has one the first time and none the next, and an empty line in such
an answer raises an error. -/
theorem carriage_return_kept_once :
    ∃ file d, openRegistry none .place (some "a.comp 1f\r\n".toList) = .ok (d, file) ∧ d = [("a.comp".toList, "1f\r".toList)] ∧
      openRegistry (some file) .place none = .ok ([("a.comp".toList, "1f".toList)], file) ∧
      openRegistry none .place (some "a.comp 1f\r\n\r\n".toList) = .error .valueError :=
  ⟨"a.comp 1f\r".toList, [("a.comp".toList, "1f\r".toList)], by decide +kernel, rfl, by decide +kernel, by decide +kernel⟩

/-- C105 does not hold for the names of files with blanks: the next time there is a file with another name. -/
theorem blank_in_key :
    ∃ file d, openRegistry none (.files [("my file.dat".toList, "1f".toList)]) none = .ok (d, file) ∧
      openRegistry (some file) .place none = .ok ([("my".toList, "file.dat 1f".toList)], file) :=
  ⟨"my file.dat 1f".toList, [("my file.dat".toList, "1f".toList)], by decide +kernel, by decide +kernel⟩

end Verif.Registry.Cache
