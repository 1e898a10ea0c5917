import Mathlib.Data.List.Basic
import Mathlib.Data.List.Induction
import Mathlib.Data.List.Infix
import Mathlib.Data.List.Nodup

/-!
C116: the results of a run (`mccode_run_compiled`, src/mccode_antlr/run/runner.py 150-158, with `run_compiled_instrument`,
src/mccode_antlr/compiler/c.py 308-324). The file system is the list of its data files (`*.dat`) listed by `glob` in an order of its own (`order`). What the
program writes is a list of files; a file written replaces that of the same place. `parse` is `read_mccode_dat`, which may raise.
Not modelled: the command (see C96) and other files.
-/

namespace Verif.Results

structure File (Raw : Type) where
  dir : List String
  stem : String
  raw : Raw
  deriving DecidableEq, Repr

inductive Err
  | runtimeError
  | unreadable
  deriving DecidableEq, Repr

variable {Raw D : Type}

/-- The file system after a file was written. -/
def write (fs : List (File Raw)) (f : File Raw) : List (File Raw) :=
  if fs.any fun g => g.dir = f.dir && g.stem = f.stem then fs.map fun g => if g.dir = f.dir ∧ g.stem = f.stem then f else g else fs ++ [f]

/-- `run_compiled_instrument` (308-324): the program writes `new` and returns `code`. -/
def execute (exist dryRun : Bool) (code : Nat) (new fs : List (File Raw)) : Except Err (List (File Raw)) :=
  if !exist then .error .runtimeError
  else if dryRun then .ok fs
  else if code ≠ 0 then .error .runtimeError
  else .ok (new.foldl write fs)

/-- `Path(directory).glob('**/*.dat')` (156). -/
def found (directory : List String) (fs : List (File Raw)) : List (File Raw) := fs.filter fun f => directory <+: f.dir

/-- `d[k] = v`. -/
def put (k : String) (v : D) : List (String × D) → List (String × D)
  | [] => [(k, v)]
  | p :: d => if p.1 = k then (k, v) :: d else p :: put k v d

/-- The comprehension of 157. -/
def gather (parse : Raw → Option D) : List (String × D) → List (File Raw) → Except Err (List (String × D))
  | d, [] => .ok d
  | d, f :: l =>
    match parse f.raw with
    | none => .error .unreadable
    | some v => gather parse (put f.stem v d) l

/-- `mccode_run_compiled` (150-158): the data files returned. -/
def runCompiled (parse : Raw → Option D) (order : List (File Raw) → List (File Raw)) (exist dryRun : Bool) (code : Nat)
    (directory : List String) (new fs : List (File Raw)) : Except Err (List (String × D)) :=
  match execute exist dryRun code new fs with
  | .error e => .error e
  | .ok fs => gather parse [] (order (found directory fs))

/-! ### Lemmas -/

theorem lookup_put (k : String) (v : D) (x : String) : ∀ d : List (String × D),
    (put k v d).lookup x = if x = k then some v else d.lookup x
  | [] => by
    rw [put, List.lookup_cons, List.lookup_nil]
    split <;> simp_all
  | p :: d => by
    rw [put]
    by_cases hp : p.1 = k
    · rw [if_pos hp, List.lookup_cons, List.lookup_cons]
      by_cases hx : x = k
      · simp [hx]
      · have h1 : (x == k) = false := beq_false_of_ne hx
        have h2 : (x == p.1) = false := by rw [hp]; exact h1
        simp only [h1, h2, if_neg hx]
    · rw [if_neg hp, List.lookup_cons, List.lookup_cons, lookup_put k v x d]
      by_cases hx : x = p.1
      · simp [hx, hp]
      · have h2 : (x == p.1) = false := beq_false_of_ne hx
        simp only [h2]

/-- Files are read one after another; one that can not be read ends it. -/
theorem gather_ok_iff (parse : Raw → Option D) : ∀ (l : List (File Raw)) (d : List (String × D)),
    (∃ r, gather parse d l = .ok r) ↔ ∀ f ∈ l, (parse f.raw).isSome
  | [], d => by simp [gather]
  | f :: l, d => by
    rw [gather]
    cases h : parse f.raw with
    | none => simp [h]
    | some v => simp [gather_ok_iff parse l, h]

theorem gather_error (parse : Raw → Option D) : ∀ (l : List (File Raw)) (d : List (String × D)) (e : Err),
    gather parse d l = .error e → e = .unreadable
  | [], d, e => by simp [gather]
  | f :: l, d, e => by
    rw [gather]
    cases h : parse f.raw with
    | none => simp only [Except.error.injEq]; exact fun h => h.symm
    | some v => exact gather_error parse l _ e

/-- What a key has is from the last file of that stem. -/
theorem gather_lookup (parse : Raw → Option D) (s : String) : ∀ (l : List (File Raw)) (d r : List (String × D)),
    gather parse d l = .ok r →
    ((∃ f ∈ l, f.stem = s) → ∃ f ∈ l, f.stem = s ∧ r.lookup s = parse f.raw) ∧
    ((∀ f ∈ l, f.stem ≠ s) → r.lookup s = d.lookup s)
  | [], d, r, h => by
    simp only [gather, Except.ok.injEq] at h
    simp [h]
  | f :: l, d, r, h => by
    rw [gather] at h
    cases hv : parse f.raw with
    | none => simp [hv] at h
    | some v =>
      rw [hv] at h
      obtain ⟨h1, h2⟩ := gather_lookup parse s l _ r h
      constructor
      · intro hs
        by_cases hl : ∃ f ∈ l, f.stem = s
        · obtain ⟨g, hg, h3⟩ := h1 hl
          exact ⟨g, List.mem_cons_of_mem _ hg, h3⟩
        · have hn : ∀ f ∈ l, f.stem ≠ s := fun g hg hgs => hl ⟨g, hg, hgs⟩
          have hfs : f.stem = s := by
            obtain ⟨g, hg, hgs⟩ := hs
            rcases List.mem_cons.mp hg with hg | hg
            · rw [← hg]; exact hgs
            · exact absurd hgs (hn g hg)
          exact ⟨f, List.mem_cons_self, hfs, by rw [h2 hn, lookup_put, if_pos hfs.symm, hv]⟩
      · intro hn
        rw [h2 fun g hg => hn g (List.mem_cons_of_mem _ hg), lookup_put, if_neg (Ne.symm (hn f List.mem_cons_self))]

theorem run_ok {parse : Raw → Option D} {order : List (File Raw) → List (File Raw)} {exist dryRun : Bool} {code : Nat}
    {directory : List String} {new fs : List (File Raw)} {d : List (String × D)}
    (h : runCompiled parse order exist dryRun code directory new fs = .ok d) :
    gather parse [] (order (found directory (if dryRun then fs else new.foldl write fs))) = .ok d := by
  rw [runCompiled] at h
  cases exist <;> cases dryRun <;> simp only [execute] at h
  · simp at h
  · simp at h
  · by_cases hc : code = 0 <;> simp [hc] at h
    exact h
  · simpa using h

/-! ### C116 -/

/-- C116: a run is refused exactly if there is no program, it fails, or some data file below the directory can not be read. -/
theorem returned_iff (parse : Raw → Option D) {order : List (File Raw) → List (File Raw)} (ho : ∀ l, (order l).Perm l) (exist dryRun : Bool)
    (code : Nat) (directory : List String) (new fs : List (File Raw)) :
    (∃ d, runCompiled parse order exist dryRun code directory new fs = .ok d) ↔
      exist = true ∧ (dryRun = true ∨ code = 0) ∧
        ∀ f ∈ (if dryRun then fs else new.foldl write fs), directory <+: f.dir → (parse f.raw).isSome := by
  have key : ∀ l : List (File Raw), (∃ d, gather parse [] (order (found directory l)) = .ok d) ↔
      ∀ f ∈ l, directory <+: f.dir → (parse f.raw).isSome := by
    intro l
    rw [gather_ok_iff]
    constructor
    · intro h f hf hd
      exact h f ((ho _).mem_iff.mpr (List.mem_filter.mpr ⟨hf, by simpa using hd⟩))
    · intro h f hf
      obtain ⟨h1, h2⟩ := List.mem_filter.mp ((ho _).mem_iff.mp hf)
      exact h f h1 (by simpa using h2)
  rw [runCompiled]
  cases exist <;> cases dryRun <;> simp only [execute]
  · simp
  · simp
  · by_cases hc : code = 0
    · simpa [hc] using key _
    · simp [hc]
  · simpa using key _

/-- C116: what is returned under a name is the contents of a data file of that name below the directory, and each such file has
its name among the results. -/
theorem returned {parse : Raw → Option D} {order : List (File Raw) → List (File Raw)} (ho : ∀ l, (order l).Perm l) {exist dryRun : Bool}
    {code : Nat} {directory : List String} {new fs : List (File Raw)} {d : List (String × D)}
    (h : runCompiled parse order exist dryRun code directory new fs = .ok d) :
    (∀ s v, d.lookup s = some v → ∃ f ∈ (if dryRun then fs else new.foldl write fs), directory <+: f.dir ∧ f.stem = s ∧
      parse f.raw = some v) ∧
    ∀ f ∈ (if dryRun then fs else new.foldl write fs), directory <+: f.dir → (d.lookup f.stem).isSome := by
  have hg := run_ok h
  have hm : ∀ f, f ∈ order (found directory (if dryRun then fs else new.foldl write fs)) ↔
      f ∈ (if dryRun then fs else new.foldl write fs) ∧ directory <+: f.dir := by
    intro f
    rw [(ho _).mem_iff, found, List.mem_filter, decide_eq_true_eq]
  constructor
  · intro s v hs
    obtain ⟨h1, h2⟩ := gather_lookup parse s _ _ _ hg
    by_cases hl : ∃ f ∈ order (found directory (if dryRun then fs else new.foldl write fs)), f.stem = s
    · obtain ⟨f, hf, hfs, hv⟩ := h1 hl
      exact ⟨f, ((hm f).mp hf).1, ((hm f).mp hf).2, hfs, by rw [← hv, hs]⟩
    · rw [h2 fun f hf hfs => hl ⟨f, hf, hfs⟩] at hs
      simp at hs
  · intro f hf hd
    obtain ⟨g, hg', -, hv⟩ := (gather_lookup parse f.stem _ _ _ hg).1 ⟨f, (hm f).mpr ⟨hf, hd⟩, rfl⟩
    rw [hv]
    exact (gather_ok_iff parse _ []).mp ⟨d, hg⟩ g hg'

/-- C116: every data file below the directory is among the results under its name exactly if files of one name agree. -/
theorem all_returned_iff {parse : Raw → Option D} {order : List (File Raw) → List (File Raw)} (ho : ∀ l, (order l).Perm l)
    {exist dryRun : Bool} {code : Nat} {directory : List String} {new fs : List (File Raw)} {d : List (String × D)}
    (h : runCompiled parse order exist dryRun code directory new fs = .ok d) :
    (∀ f ∈ (if dryRun then fs else new.foldl write fs), directory <+: f.dir → d.lookup f.stem = parse f.raw) ↔
      ∀ f ∈ (if dryRun then fs else new.foldl write fs), ∀ g ∈ (if dryRun then fs else new.foldl write fs),
        directory <+: f.dir → directory <+: g.dir → f.stem = g.stem → parse f.raw = parse g.raw := by
  constructor
  · intro hall f hf g hg hfd hgd hs
    rw [← hall f hf hfd, ← hall g hg hgd, hs]
  · intro heq f hf hfd
    obtain ⟨h1, h2⟩ := returned ho h
    obtain ⟨v, hv⟩ := Option.isSome_iff_exists.mp (h2 f hf hfd)
    obtain ⟨g, hg, hgd, hgs, hgv⟩ := h1 _ _ hv
    rw [hv, ← hgv, heq f hf g hg hfd hgd hgs.symm]

theorem write_fresh (f : File Raw) (fs : List (File Raw)) (h : ∀ g ∈ fs, g.stem ≠ f.stem) : write fs f = fs ++ [f] := by
  rw [write, if_neg]
  rw [List.any_eq_true]
  rintro ⟨g, hg, hgf⟩
  simp only [Bool.and_eq_true, decide_eq_true_eq] at hgf
  exact h g hg hgf.2

theorem foldl_write : ∀ (new fs : List (File Raw)), ((fs ++ new).map (·.stem)).Nodup → new.foldl write fs = fs ++ new
  | [], fs, _ => by simp
  | f :: new, fs, h => by
    rw [List.foldl_cons, write_fresh, foldl_write new (fs ++ [f]), List.append_assoc, List.singleton_append]
    · simpa using h
    · intro g hg he
      rw [List.map_append, List.nodup_append] at h
      exact h.2.2 g.stem (List.mem_map_of_mem hg) f.stem (List.mem_map_of_mem List.mem_cons_self) he

/-- C116: a run that starts where there are no data files and writes files of distinct names, all of which can be read, below its directory
returns exactly these. -/
theorem results_partial {parse : Raw → Option D} {order : List (File Raw) → List (File Raw)} (ho : ∀ l, (order l).Perm l)
    {directory : List String} {new : List (File Raw)} (hn : (new.map (·.stem)).Nodup) (hd : ∀ f ∈ new, directory <+: f.dir)
    (hp : ∀ f ∈ new, (parse f.raw).isSome) :
    ∃ d, runCompiled parse order true false 0 directory new [] = .ok d ∧
      ∀ s v, d.lookup s = some v ↔ ∃ f ∈ new, f.stem = s ∧ parse f.raw = some v := by
  have hw : (if (false : Bool) then [] else new.foldl write []) = new := by
    simpa using foldl_write new [] (by simpa using hn)
  obtain ⟨d, h⟩ := (returned_iff parse ho true false 0 directory new []).mpr
    ⟨rfl, .inr rfl, by rw [hw]; exact fun f hf _ => hp f hf⟩
  refine ⟨d, h, fun s v => ⟨fun hs => ?_, ?_⟩⟩
  · obtain ⟨f, hf, -, hfs, hv⟩ := (returned ho h).1 s v hs
    rw [hw] at hf
    exact ⟨f, hf, hfs, hv⟩
  · rintro ⟨f, hf, hfs, hv⟩
    rw [← hfs, ← hv]
    refine (all_returned_iff ho h).mpr ?_ f (by rw [hw]; exact hf) (hd f hf)
    rw [hw]
    intro f hf g hg _ _ hs
    rw [List.inj_on_of_nodup_map hn hf hg hs]

example : ∃ d, runCompiled (fun n : Nat => some (n + 1)) id true false 0 ["out"] [⟨["out"], "m", 1⟩, ⟨["out"], "n", 2⟩] [] = .ok d ∧
    d.lookup "n" = some 3 := ⟨_, rfl, rfl⟩

/-- C116: the program does not return the data files of a run that it has not made: a dry run returns the data files that are there, whoever wrote them. -/
theorem dry_run_old (parse : Raw → Option D) (order : List (File Raw) → List (File Raw)) (code : Nat) (directory : List String)
    (new fs : List (File Raw)) (h : ∀ f ∈ fs, (parse f.raw).isSome) (ho : ∀ l, (order l).Perm l) :
    ∃ d, runCompiled parse order true true code directory new fs = .ok d ∧
      ∀ f ∈ fs, directory <+: f.dir → (d.lookup f.stem).isSome := by
  obtain ⟨d, hd⟩ := (returned_iff parse ho true true code directory new fs).mpr ⟨rfl, .inl rfl, fun f hf _ => h f (by simpa using hf)⟩
  exact ⟨d, hd, fun f hf => (returned ho hd).2 f (by simpa using hf)⟩

theorem mem_write (fs : List (File Raw)) (a f : File Raw) :
    f ∈ write fs a ↔ f = a ∨ (f ∈ fs ∧ ¬ (f.dir = a.dir ∧ f.stem = a.stem)) := by
  rw [write]
  split_ifs with h
  · obtain ⟨g, hg, hgs⟩ := List.any_eq_true.mp h
    simp only [Bool.and_eq_true, decide_eq_true_eq] at hgs
    rw [List.mem_map]
    constructor
    · rintro ⟨x, hx, rfl⟩
      split_ifs with hs
      · exact .inl rfl
      · exact .inr ⟨hx, hs⟩
    · rintro (rfl | ⟨hf, hs⟩)
      · exact ⟨g, hg, if_pos hgs⟩
      · exact ⟨f, hf, if_neg hs⟩
  · rw [List.mem_append, List.mem_singleton]
    constructor
    · rintro (hf | rfl)
      · refine .inr ⟨hf, fun hs => h (List.any_eq_true.mpr ⟨f, hf, by simpa using hs⟩)⟩
      · exact .inl rfl
    · rintro (rfl | ⟨hf, -⟩)
      · exact .inr rfl
      · exact .inl hf

theorem mem_foldl_write (f : File Raw) : ∀ (new fs : List (File Raw)), (new.map (·.stem)).Nodup →
    (f ∈ new.foldl write fs ↔ f ∈ new ∨ (f ∈ fs ∧ ∀ g ∈ new, ¬ (f.dir = g.dir ∧ f.stem = g.stem)))
  | [], fs, _ => by simp
  | a :: new, fs, h => by
    rw [List.map_cons, List.nodup_cons] at h
    rw [List.foldl_cons, mem_foldl_write f new _ h.2, mem_write]
    constructor
    · rintro (hf | ⟨rfl | ⟨hf, hs⟩, hg⟩)
      · exact .inl (List.mem_cons_of_mem _ hf)
      · exact .inl List.mem_cons_self
      · refine .inr ⟨hf, fun g hg' => ?_⟩
        rcases List.mem_cons.mp hg' with rfl | hg'
        · exact hs
        · exact hg g hg'
    · rintro (hf | ⟨hf, hg⟩)
      · rcases List.mem_cons.mp hf with rfl | hf
        · refine .inr ⟨.inl rfl, fun g hg hs => h.1 ?_⟩
          rw [hs.2]
          exact List.mem_map_of_mem hg
        · exact .inl hf
      · exact .inr ⟨.inr ⟨hf, hg a List.mem_cons_self⟩, fun g hg' => hg g (List.mem_cons_of_mem _ hg')⟩

/-- C116: a run again in the same directory: where each old data file below the directory is written anew, those just written are
returned, and not the old ones. -/
theorem rerun_partial {parse : Raw → Option D} {order : List (File Raw) → List (File Raw)} (ho : ∀ l, (order l).Perm l)
    {directory : List String} {new fs : List (File Raw)} (hn : (new.map (·.stem)).Nodup) (hd : ∀ f ∈ new, directory <+: f.dir)
    (hp : ∀ f ∈ new, (parse f.raw).isSome)
    (hf : ∀ f ∈ fs, directory <+: f.dir → ∃ g ∈ new, f.dir = g.dir ∧ f.stem = g.stem) :
    ∃ d, runCompiled parse order true false 0 directory new fs = .ok d ∧
      ∀ s v, d.lookup s = some v ↔ ∃ f ∈ new, f.stem = s ∧ parse f.raw = some v := by
  have hw : ∀ f, f ∈ (if (false : Bool) then fs else new.foldl write fs) ∧ directory <+: f.dir ↔ f ∈ new := by
    intro f
    rw [if_neg (by simp), mem_foldl_write f new fs hn]
    constructor
    · rintro ⟨h | ⟨h, hg⟩, hdir⟩
      · exact h
      · obtain ⟨g, hg', hs⟩ := hf f h hdir
        exact absurd hs (hg g hg')
    · exact fun h => ⟨.inl h, hd f h⟩
  obtain ⟨d, h⟩ := (returned_iff parse ho true false 0 directory new fs).mpr
    ⟨rfl, .inr rfl, fun f hf hdir => hp f ((hw f).mp ⟨hf, hdir⟩)⟩
  refine ⟨d, h, fun s v => ⟨fun hl => ?_, ?_⟩⟩
  · obtain ⟨f, hf, hdir, hs, hv⟩ := (returned ho h).1 s v hl
    exact ⟨f, (hw f).mp ⟨hf, hdir⟩, hs, hv⟩
  · rintro ⟨f, hf', rfl, hv⟩
    rw [← hv]
    refine (all_returned_iff ho h).mpr ?_ f ((hw f).mpr hf').1 (hd f hf')
    intro x hx y hy hxd hyd hs
    have hx' := (hw x).mp ⟨hx, hxd⟩
    have hy' := (hw y).mp ⟨hy, hyd⟩
    rw [List.inj_on_of_nodup_map hn hx' hy' hs]

example : ∀ f ∈ [(⟨["out"], "m", 1⟩ : File Nat)], ["out"] <+: f.dir → ∃ g ∈ [(⟨["out"], "m", 2⟩ : File Nat)],
    f.dir = g.dir ∧ f.stem = g.stem := by decide

/-- C116: of an earlier run in a directory below, a data file of a monitor of the same name can be returned in place of the one just written. -/
theorem old_returned (a b : Raw) (parse : Raw → Option D) (va vb : D) (ha : parse a = some va) (hb : parse b = some vb) :
    runCompiled parse List.reverse true false 0 ["out"] [⟨["out"], "m", a⟩] [⟨["out", "0"], "m", b⟩] = .ok [("m", vb)] := by
  simp [runCompiled, execute, write, found, gather, ha, hb, put]

/-- C116: a data file below the directory that can not be read loses the results of a run that succeeded. -/
theorem unreadable (parse : Raw → Option D) {order : List (File Raw) → List (File Raw)} (ho : ∀ l, (order l).Perm l) (directory : List String)
    (new fs : List (File Raw)) (h : ∃ f ∈ new.foldl write fs, directory <+: f.dir ∧ parse f.raw = none) :
    runCompiled parse order true false 0 directory new fs = .error .unreadable := by
  cases hr : runCompiled parse order true false 0 directory new fs with
  | ok d =>
    obtain ⟨f, hf, hd, hp⟩ := h
    have := ((returned_iff parse ho true false 0 directory new fs).mp ⟨d, hr⟩).2.2 f (by simpa using hf) hd
    simp [hp] at this
  | error e =>
    rw [gather_error parse _ [] e (by simpa [runCompiled, execute] using hr)]

example : runCompiled (fun n : Nat => if n = 0 then none else some n) id true false 0 ["out"] [⟨["out"], "m", 1⟩] [⟨["out"], "old", 0⟩] =
    .error .unreadable := rfl

end Verif.Results
