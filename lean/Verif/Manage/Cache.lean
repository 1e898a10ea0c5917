import Mathlib.Data.List.Basic
import Mathlib.Data.List.Induction

/-!
C110: removing cached files, `cache_remove` (src/mccode_antlr/cli/management.py 95-112), and where a `GitHubRegistry` keeps its files
(reader/registry.py 233-235, 258-265).

A path is the list of its parts, a text is a list of characters. The files are those in the file system, given by their absolute paths;
empty directories and links are not modelled. `pooch` puts a file in the directory of its version, or if none is given in the cache itself.
-/

namespace Verif.Manage.Cache

abbrev Text := List Char

/-- The parts of a path written as text (`pathlib`): empty ones and `.` are dropped. -/
def parts (s : Text) : List Text := (s.splitOn '/').filter fun x => x ≠ [] ∧ x ≠ ['.']

/-- `path.joinpath(s)`: an absolute path replaces what is before. -/
def join (p : List Text) (s : Text) : List Text := if s.head? = some '/' then parts s else p ++ parts s

/-- The directory a path leads to. -/
def resolve (p : List Text) : List Text := p.foldl (fun acc x => if x = ['.', '.'] then acc.dropLast else acc ++ [x]) []

/-- The path that is removed (101-105), `cache` being `os_cache('mccode_antlr')` (95-97). -/
def target (cache : List Text) (name version : Option Text) : List Text :=
  let p := match name with
    | none => cache
    | some n => join cache n
  match version with
  | none => p
  | some v => join p v

inductive Err
  | fileNotFound
  | notADirectory
  deriving DecidableEq, Repr

/-- `rmtree(path)`: all files below it are gone. -/
def rmtree (p : List Text) (files : List (List Text)) : Except Err (List (List Text)) :=
  if resolve p ∈ files then .error .notADirectory
  else if ∀ f ∈ files, ¬ resolve p <+: f then .error .fileNotFound
  else .ok (files.filter fun f => ¬ resolve p <+: f)

/-- `cache_remove` (100-112); `answer` is what the user answers if asked. -/
def remove (cache : List Text) (name version : Option Text) (force : Bool) (answer : Text) (files : List (List Text)) :
    Except Err (List (List Text)) :=
  if force ∨ answer.map Char.toLower = "yes".toList ∨ answer.map Char.toLower = "y".toList then rmtree (target cache name version) files
  else .ok files

/-- The file with the list of files of a `GitHubRegistry` (registry.py 233-235). -/
def listPath (cache : List Text) (name version filename : Text) : List Text := join (join (join cache name) version) filename

/-- Where it keeps a file (258-265): in the directory of the version if that begins with v. -/
def filePath (cache : List Text) (name version file : Text) : List Text :=
  if version.head? = some 'v' then join (join (join cache name) version) file else join (join cache name) file

/-! ### Lemmas -/

/-- A text that is one part of a path and stays. -/
def Plain (s : Text) : Prop := s ≠ [] ∧ '/' ∉ s ∧ s ≠ ['.'] ∧ s ≠ ['.', '.']

theorem splitOn_without (s : Text) (h : '/' ∉ s) : s.splitOn '/' = [s] := by
  rw [List.splitOn]
  induction s with
  | nil => rfl
  | cons c s ih =>
    simp only [List.mem_cons, not_or] at h
    have hc : (c == '/') = false := by simpa using fun h' => h.1 h'.symm
    rw [List.splitOnP_cons_eq_if_modifyHead, ih h.2, hc]
    rfl

theorem parts_plain (s : Text) (h : Plain s) : parts s = [s] := by
  have := splitOn_without s h.2.1
  rw [parts, this]
  simp [h.1, h.2.2.1]

theorem join_plain (p : List Text) (s : Text) (h : Plain s) : join p s = p ++ [s] := by
  have hh : s.head? ≠ some '/' := by
    intro h'
    exact h.2.1 (List.mem_of_mem_head? h')
  rw [join, if_neg hh, parts_plain s h]

theorem resolve_append (p q : List Text) (hq : ∀ x ∈ q, x ≠ ['.', '.']) : resolve (p ++ q) = resolve p ++ q := by
  induction q using List.reverseRecOn with
  | nil => simp
  | append_singleton q x ih =>
    have := ih fun y hy => hq y (by simp [hy])
    rw [resolve] at this ⊢
    rw [← List.append_assoc, List.foldl_append, this]
    simp only [List.foldl_cons, List.foldl_nil, hq x (by simp), if_false, List.append_assoc]

theorem resolve_plain (p : List Text) (hp : ∀ x ∈ p, x ≠ ['.', '.']) : resolve p = p := by
  have := resolve_append [] p hp
  rwa [List.nil_append] at this

/-! ### The property -/

/-- C110: nothing is removed without consent. -/
theorem asked (cache : List Text) (name version : Option Text) (answer : Text) (files : List (List Text))
    (h1 : answer.map Char.toLower ≠ "yes".toList) (h2 : answer.map Char.toLower ≠ "y".toList) :
    remove cache name version false answer files = .ok files := by
  rw [remove, if_neg (by simp only [Bool.false_eq_true, false_or, not_or]; exact ⟨h1, h2⟩)]

/-- C110 (partial: for plain names): when it ends without an error the files removed are those of the version of the cache, and there were
some. -/
theorem removes_version_partial (cache : List Text) (hc : ∀ x ∈ cache, x ≠ ['.', '.']) (n v : Text) (hn : Plain n) (hv : Plain v)
    (files left : List (List Text)) (answer : Text) (h : remove cache (some n) (some v) true answer files = .ok left) :
    (∀ f, f ∈ left ↔ f ∈ files ∧ ¬ (cache ++ [n, v]) <+: f) ∧ ∃ f ∈ files, (cache ++ [n, v]) <+: f := by
  have ht : resolve (target cache (some n) (some v)) = cache ++ [n, v] := by
    simp only [target]
    rw [join_plain _ n hn, join_plain _ v hv, List.append_assoc, resolve_plain]
    · rfl
    · simp only [List.mem_append, List.mem_cons, List.not_mem_nil, or_false]
      rintro x (hx | rfl | rfl)
      · exact hc x hx
      · exact hn.2.2.2
      · exact hv.2.2.2
  rw [remove, if_pos (.inl rfl), rmtree, ht] at h
  split_ifs at h with h1 h2
  simp only [Except.ok.injEq] at h
  subst h
  push Not at h2
  exact ⟨fun f => by simp, h2⟩

/-- C110: the same for all versions of a cache. -/
theorem removes_cache_partial (cache : List Text) (hc : ∀ x ∈ cache, x ≠ ['.', '.']) (n : Text) (hn : Plain n)
    (files left : List (List Text)) (answer : Text) (h : remove cache (some n) none true answer files = .ok left) :
    (∀ f, f ∈ left ↔ f ∈ files ∧ ¬ (cache ++ [n]) <+: f) ∧ ∃ f ∈ files, (cache ++ [n]) <+: f := by
  have ht : resolve (target cache (some n) none) = cache ++ [n] := by
    simp only [target]
    rw [join_plain _ n hn, resolve_plain]
    simp only [List.mem_append, List.mem_cons, List.not_mem_nil, or_false]
    rintro x (hx | rfl)
    · exact hc x hx
    · exact hn.2.2.2
  rw [remove, if_pos (.inl rfl), rmtree, ht] at h
  split_ifs at h with h1 h2
  simp only [Except.ok.injEq] at h
  subst h
  push Not at h2
  exact ⟨fun f => by simp, h2⟩

theorem join_prefix (p : List Text) (s : Text) (h : s.head? ≠ some '/') : p <+: join p s := by
  rw [join, if_neg h]
  exact List.prefix_append p _

/-- C110: afterwards nothing is left of a version that begins with v: neither the list nor any file. -/
theorem version_gone (cache : List Text) (hc : ∀ x ∈ cache, x ≠ ['.', '.']) (n v : Text) (hn : Plain n) (hv : Plain v)
    (hvv : v.head? = some 'v') (filename file : Text) (hl : filename.head? ≠ some '/') (hf : file.head? ≠ some '/')
    (files left : List (List Text)) (answer : Text) (h : remove cache (some n) (some v) true answer files = .ok left) :
    listPath cache n v filename ∉ left ∧ filePath cache n v file ∉ left := by
  obtain ⟨h1, -⟩ := removes_version_partial cache hc n v hn hv files left answer h
  have hp : join (join cache n) v = cache ++ [n, v] := by
    rw [join_plain _ n hn, join_plain _ v hv, List.append_assoc]
    rfl
  constructor
  · rw [h1, listPath, hp]
    exact fun h' => h'.2 (join_prefix _ _ hl)
  · rw [h1, filePath, if_pos hvv, hp]
    exact fun h' => h'.2 (join_prefix _ _ hf)

/-- C110: but the files of another version, a branch say, stay; they are kept with all other versions (unless a file is in a directory
called like the version). -/
theorem branch_stays (cache : List Text) (hc : ∀ x ∈ cache, x ≠ ['.', '.']) (n v : Text) (hn : Plain n) (hv : Plain v)
    (hvv : v.head? ≠ some 'v') (file : Text) (hf : file.head? ≠ some '/') (hfv : (parts file).head? ≠ some v)
    (files left : List (List Text)) (answer : Text) (h : remove cache (some n) (some v) true answer files = .ok left)
    (hm : filePath cache n v file ∈ files) : filePath cache n v file ∈ left := by
  obtain ⟨h1, -⟩ := removes_version_partial cache hc n v hn hv files left answer h
  rw [h1]
  refine ⟨hm, fun h' => hfv ?_⟩
  rw [filePath, if_neg hvv, join_plain _ n hn, join, if_neg hf] at h'
  obtain ⟨t, ht⟩ := h'
  have : cache ++ [n] ++ (v :: t) = cache ++ [n] ++ parts file := by
    rw [← ht]
    simp
  have := List.append_cancel_left this
  rw [← this]
  rfl

/-- C110: nor are two such versions told apart: the file of one is used for the other. -/
theorem branches_shared (cache : List Text) (n v v' file : Text) (hv : v.head? ≠ some 'v') (hv' : v'.head? ≠ some 'v') :
    filePath cache n v file = filePath cache n v' file := by
  rw [filePath, filePath, if_neg hv, if_neg hv']

/-- C110: a name that leads out of the cache removes what is there: `..` all that is beside the cache, and an absolute path itself. -/
theorem outside_removed (cache : List Text) (hc : ∀ x ∈ cache, x ≠ ['.', '.']) (files left : List (List Text)) (answer : Text) :
    (remove cache (some "..".toList) none true answer files = .ok left → ∀ f, f ∈ left ↔ f ∈ files ∧ ¬ cache.dropLast <+: f) ∧
      ∀ n : Text, Plain n → remove cache (some ('/' :: n)) none true answer files = .ok left → ∀ f, f ∈ left ↔ f ∈ files ∧ ¬ [n] <+: f := by
  constructor
  · intro h
    have ht : resolve (target cache (some "..".toList) none) = cache.dropLast := by
      have h1 : target cache (some "..".toList) none = cache ++ [['.', '.']] := by
        have hp : parts "..".toList = [['.', '.']] := by decide
        simp only [target]
        rw [join, if_neg (by decide), hp]
      have h2 := resolve_plain cache hc
      rw [h1]
      rw [resolve] at h2 ⊢
      rw [List.foldl_append, h2]
      rfl
    rw [remove, if_pos (.inl rfl), rmtree, ht] at h
    split_ifs at h with h1 h2
    simp only [Except.ok.injEq] at h
    subst h
    exact fun f => by simp
  · intro n hn h
    have ht : resolve (target cache (some ('/' :: n)) none) = [n] := by
      have hs : ('/' :: n).splitOn '/' = [[], n] := by
        have h0 := splitOn_without n hn.2.1
        rw [List.splitOn] at h0 ⊢
        rw [List.splitOnP_cons_eq_if_modifyHead, h0]
        rfl
      have hp : parts ('/' :: n) = [n] := by
        rw [parts, hs]
        simp [hn.1, hn.2.2.1]
      simp only [target]
      rw [join, if_pos (by simp), hp, resolve_plain]
      simp only [List.mem_singleton, forall_eq]
      exact hn.2.2.2
    rw [remove, if_pos (.inl rfl), rmtree, ht] at h
    split_ifs at h with h1 h2
    simp only [Except.ok.injEq] at h
    subst h
    exact fun f => by simp

/-! ### The hypotheses are met -/

def sampleCache : List Text := ["home".toList, "me".toList, ".cache".toList, "mccode_antlr".toList]
def sampleFiles : List (List Text) :=
  [listPath sampleCache "mcstas".toList "v3.5.1".toList "mcstas-registry.txt".toList,
   filePath sampleCache "mcstas".toList "v3.5.1".toList "optics/Arm.comp".toList,
   listPath sampleCache "mcstas".toList "main".toList "mcstas-registry.txt".toList,
   filePath sampleCache "mcstas".toList "main".toList "optics/Arm.comp".toList,
   ["home".toList, "me".toList, ".cache".toList, "other".toList]]

example : remove sampleCache (some "mcstas".toList) (some "v3.5.1".toList) true [] sampleFiles = .ok (sampleFiles.drop 2) := by decide +kernel
example : remove sampleCache (some "mcstas".toList) (some "main".toList) true [] sampleFiles =
    .ok [sampleFiles[0], sampleFiles[1], sampleFiles[3], sampleFiles[4]] := by decide +kernel
example : remove sampleCache (some "..".toList) none true [] (["etc".toList] :: sampleFiles) = .ok [["etc".toList]] := by decide +kernel
example : remove sampleCache none none false "n".toList sampleFiles = .ok sampleFiles := by decide +kernel
example : remove sampleCache (some "mcxtrace".toList) none true [] sampleFiles = .error .fileNotFound := by decide +kernel
example : Plain "mcstas".toList ∧ Plain "v3.5.1".toList ∧ ∀ x ∈ sampleCache, x ≠ ['.', '.'] := by unfold Plain; decide

end Verif.Manage.Cache
