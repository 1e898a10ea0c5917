import Mathlib.Data.List.Basic
import Mathlib.Data.List.Dedup

/-!
Property C122: the commands of `mccode-antlr config`.

Model of src/mccode_antlr/cli/management.py 10-64, 152-157 and of the sources of the configuration
(src/mccode_antlr/config/__init__.py 8-11, 74-82). The library confuse is not in the sandbox; what is assumed of it: values are
looked up in a list of sources, which are mappings; the first source which has the whole key counts; to go below a value that
is no mapping is an error; `get()` gives what the first source has there (mappings are not merged); `list(config)` are the keys of
all sources; `set` puts a source in front, in memory. The order of the keys in the file is not modelled.
-/

namespace Verif.Settings

/-- What YAML may hold: a value or a mapping. -/
inductive Conf
  | leaf (v : String)
  | node (kvs : List (String × Conf))

/-- A source. -/
abbrev Source := List (String × Conf)

inductive Err
  | configType
  deriving DecidableEq, Repr

/-- The value below a value: none if a part is missing, an error below a value that is no mapping. -/
def Conf.at : List String → Conf → Except Err (Option Conf)
  | [], c => .ok (some c)
  | _ :: _, .leaf _ => .error .configType
  | k :: ks, .node kvs =>
    match kvs.lookup k with
    | some c => c.at ks
    | none => .ok none

/-- `config[k][..]` with the levels `k :: ks`: the first source that has it. -/
def first (k : String) (ks : List String) : List Source → Except Err (Option Conf)
  | [] => .ok none
  | s :: ss =>
    match s.lookup k with
    | none => first k ks ss
    | some c =>
      match c.at ks with
      | .error e => .error e
      | .ok (some d) => .ok (some d)
      | .ok none => first k ks ss

/-- `config[k].get()`. -/
def top (k : String) (ss : List Source) : Option Conf := ss.findSome? (·.lookup k)

/-- What a process starts with: environment variables, the file of the user, and what comes with the package
(config/__init__.py 8-11, 74-82). -/
structure World where
  env : List Source
  user : Option Source
  package : List Source

/-- The sources of a process, in the order in which they count. -/
def World.sources (w : World) : List Source := w.env ++ w.user.toList ++ w.package

/-- `{k: c[k].get() for k in list(c)}` (management.py 14, 59). -/
def snapshot (ss : List Source) : Source :=
  ((ss.flatMap fun s => s.map (·.1)).dedup).filterMap fun k => (top k ss).map (k, ·)

/-- The commands (management.py 67-92); a key has at least one level. -/
inductive Command
  | list (regex : Option String)
  | get (k : String) (ks : List String)
  | set (k : String) (ks : List String) (v : String)
  | unset (k : String) (ks : List String)
  | save

/-- What the process of a command leaves behind (management.py 10-64, 152-157). `set` changes the memory of the process, `unset` ends
a local variable; only `save`, here without a path, writes the file of the user. -/
def World.run (w : World) : Command → World
  | .list _ => w
  | .get _ _ => w
  | .set _ _ _ => w
  | .unset _ _ => w
  | .save => { w with user := some (snapshot w.sources) }

/-- What `list` prints (management.py 10-15). -/
def listing (_regex : Option String) (w : World) : Source := snapshot w.sources

/-- What `get` prints (management.py 18-36): nothing if there is no such key. -/
def World.get (w : World) (k : String) (ks : List String) : Except Err (Option Conf) := first k ks w.sources

/-! ### Lemmas -/

theorem lookup_filterMap (f : String → Option Conf) (k : String) (l : List String) :
    (l.filterMap fun k => (f k).map (k, ·)).lookup k = if k ∈ l then f k else none := by
  induction l with
  | nil => rfl
  | cons a l ih =>
    by_cases ha : k = a
    · subst ha
      cases hf : f k with
      | none => simp [hf, ih]
      | some c => simp [hf]
    · cases hf : f a with
      | none => simp [hf, ih, ha]
      | some c => simp [hf, List.lookup, beq_false_of_ne ha, ih, ha]

theorem lookup_key {s : Source} {k : String} {c : Conf} (h : s.lookup k = some c) : k ∈ s.map (·.1) := by
  induction s with
  | nil => simp at h
  | cons p s ih =>
    by_cases hp : k = p.1
    · simp [hp]
    · simp only [List.lookup, beq_false_of_ne hp] at h
      simp [ih h]

theorem lookup_snapshot (k : String) (ss : List Source) : (snapshot ss).lookup k = top k ss := by
  rw [snapshot, lookup_filterMap]
  split_ifs with h
  · rfl
  · rw [List.mem_dedup] at h
    symm
    rw [top, List.findSome?_eq_none_iff]
    intro s hs
    by_contra hc
    obtain ⟨c, hc⟩ := Option.ne_none_iff_exists'.mp hc
    exact h (List.mem_flatMap.mpr ⟨s, hs, lookup_key hc⟩)

theorem first_skip (k : String) (ks : List String) (l ss : List Source) (h : ∀ s ∈ l, s.lookup k = none) :
    first k ks (l ++ ss) = first k ks ss := by
  induction l with
  | nil => rfl
  | cons s l ih =>
    rw [List.cons_append, first, h s (by simp)]
    exact ih fun t ht => h t (by simp [ht])

theorem top_skip (k : String) (l ss : List Source) (h : ∀ s ∈ l, s.lookup k = none) : top k (l ++ ss) = top k ss := by
  rw [top, List.findSome?_append, List.findSome?_eq_none_iff.mpr h]
  rfl

theorem first_lookup (k : String) (ks : List String) (s t : Source) (ss : List Source) (h : s.lookup k = t.lookup k) :
    first k ks (s :: ss) = first k ks (t :: ss) := by
  rw [first, first, h]

theorem first_none (k : String) (ks : List String) (s : Source) (ss : List Source) (h : s.lookup k = none) :
    first k ks (s :: ss) = first k ks ss := by
  rw [first]
  simp only [h]

theorem first_some (k : String) (ks : List String) (s : Source) (ss : List Source) (c : Conf) (h : s.lookup k = some c) :
    (∀ e, c.at ks = .error e → first k ks (s :: ss) = .error e) ∧
    (∀ d, c.at ks = .ok (some d) → first k ks (s :: ss) = .ok (some d)) ∧
    (c.at ks = .ok none → first k ks (s :: ss) = first k ks ss) := by
  refine ⟨fun e he => ?_, fun d hd => ?_, fun hn => ?_⟩ <;> rw [first] <;> simp only [*]

/-- To put in front what is there anyway changes nothing. -/
theorem first_again (k : String) (ks : List String) (s : Source) (ss : List Source) (h : s.lookup k = top k ss) :
    first k ks (s :: ss) = first k ks ss := by
  induction ss with
  | nil => exact first_none k ks s [] h
  | cons t ss ih =>
    rcases ht : List.lookup k t with _ | c
    · have h' : s.lookup k = top k ss := by rw [h, top, List.findSome?_cons, ht]; rfl
      have e : first k ks (s :: t :: ss) = first k ks (s :: ss) := by
        simp only [first, ht]
      rw [e, first_none k ks t ss ht]
      exact ih h'
    · have h' : s.lookup k = some c := by rw [h, top, List.findSome?_cons, ht]
      obtain ⟨e1, e2, e3⟩ := first_some k ks s (t :: ss) c h'
      obtain ⟨f1, f2, f3⟩ := first_some k ks t ss c ht
      rcases hc : c.at ks with e | _ | d
      · rw [e1 _ hc, f1 _ hc]
      · exact e3 hc
      · rw [e2 _ hc, f2 _ hc]

/-! ### Properties -/

/-- C122: no command but `save` changes anything, in whatever order they are used, so that what is looked up later is what it was
before. Where it fails: this includes `set` and `unset`. -/
theorem only_save_counts (w : World) (cs : List Command) (h : Command.save ∉ cs) (k : String) (ks : List String) :
    (cs.foldl World.run w).get k ks = w.get k ks := by
  have : cs.foldl World.run w = w := by
    induction cs generalizing w with
    | nil => rfl
    | cons c cs ih =>
      simp only [List.mem_cons, not_or] at h
      rw [List.foldl_cons, ih _ h.2]
      cases c <;> first | rfl | exact absurd rfl h.1
  rw [this]

/-- C122, where it fails: a value that is set is not there afterwards, not even if the configuration is saved next. -/
theorem set_lost (w : World) (k : String) (ks : List String) (v : String) (cs : List Command) :
    (cs.foldl World.run (w.run (.set k ks v))).get k ks = (cs.foldl World.run w).get k ks := rfl

/-- C122: what is saved is what is printed by `list`, for all keys, whatever the regular expression. -/
theorem saved_listing (w : World) (r : Option String) (k : String) :
    ∃ u, (w.run .save).user = some u ∧ u.lookup k = (listing r w).lookup k ∧
      u.lookup k = (w.env ++ w.user.toList ++ w.package).findSome? (·.lookup k) :=
  ⟨_, rfl, rfl, lookup_snapshot k w.sources⟩

/-- C122, as far as it goes: after `save` every key has the value it had, or none, or raises, as before, if no environment variable
is about the first level of the key. (Missing: keys of which a part is set by environment variables, see `save_loses`.) -/
theorem save_keeps_partial (w : World) (k : String) (ks : List String) (h : ∀ s ∈ w.env, s.lookup k = none) :
    (w.run .save).get k ks = w.get k ks := by
  unfold World.get World.sources World.run
  dsimp only
  rw [List.append_assoc, List.append_assoc, first_skip k ks _ _ h, first_skip k ks _ _ h]
  have hs : (snapshot w.sources).lookup k = top k (w.user.toList ++ w.package) := by
    rw [lookup_snapshot, World.sources, List.append_assoc, top_skip k _ _ h]
  change first k ks (snapshot w.sources :: w.package) = _
  cases hu : w.user with
  | none =>
    rw [hu] at hs
    exact first_again k ks _ _ hs
  | some u =>
    rw [hu] at hs
    change _ = first k ks (u :: w.package)
    rcases huk : u.lookup k with _ | c
    · rw [first_none k ks u _ huk]
      refine first_again k ks _ _ ?_
      rw [hs]
      change top k (u :: w.package) = _
      rw [top, List.findSome?_cons, huk]
      rfl
    · refine first_lookup k ks _ _ _ ?_
      rw [hs, huk]
      simp [top, huk]

/-- C122, where it fails: a value `k.j` in the file of the user is lost by `save` if an environment variable sets another value below
`k`. -/
theorem save_loses (k j : String) (e m : List (String × Conf)) (c : Conf) (he : e.lookup j = none) (hm : m.lookup j = some c)
    (package : List Source) (hp : ∀ s ∈ package, s.lookup k = none) :
    World.get { env := [[(k, .node e)]], user := some [(k, .node m)], package := package } k [j] = .ok (some c) ∧
    World.get (World.run { env := [[(k, .node e)]], user := some [(k, .node m)], package := package } .save) k [j] = .ok none := by
  have h0 : first k [j] package = .ok none := by
    have := first_skip k [j] package [] hp
    rw [List.append_nil] at this
    rw [this]
    rfl
  constructor
  · simp [World.get, World.sources, first, List.lookup, Conf.at, he, hm]
  · have hs := lookup_snapshot k (World.sources { env := [[(k, .node e)]], user := some [(k, .node m)], package := package })
    have ht : top k (World.sources { env := [[(k, .node e)]], user := some [(k, .node m)], package := package }) =
        some (.node e) := by
      simp [top, World.sources, List.lookup]
    rw [ht] at hs
    simp only [World.get, World.run, World.sources, Option.toList, List.cons_append, List.nil_append] at hs ⊢
    simp [first, hs, List.lookup, Conf.at, he, h0]

/-- `MCCODEANTLR_FLAGS__CC=-O3` in the environment and `flags: {ld: -lm}` in the file: the latter is gone. -/
example : World.get (World.run ⟨[[("flags", .node [("cc", .leaf "-O3")])]], some [("flags", .node [("ld", .leaf "-lm")])], []⟩ .save)
    "flags" ["ld"] = .ok none :=
  (save_loses "flags" "ld" [("cc", .leaf "-O3")] [("ld", .leaf "-lm")] (.leaf "-lm") rfl rfl [] (by simp)).2

/-- Without the environment variable it is kept. -/
example : World.get (World.run ⟨[], some [("flags", .node [("ld", .leaf "-lm")])], [[("flags", .node [("cc", .leaf "-O2")])]]⟩ .save)
    "flags" ["cc"] = .ok (some (.leaf "-O2")) := by
  rw [save_keeps_partial _ _ _ (by simp)]
  rfl

end Verif.Settings
