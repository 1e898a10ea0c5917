import Mathlib.Data.List.Basic
import Mathlib.Data.List.Count
import Mathlib.Data.List.Nodup
import Mathlib.Logic.Relation
import Mathlib.Order.WellFounded

/-!
C107: the libraries collected from `%include` directives (`CTargetVisitor._handle_raw_c_include`, src/mccode_antlr/translators/c.py
89-113, 140) and written to the program (`include_header`, `include_source` and `visit_declare`, 326-344, 352-362).

A file is what it includes: `header n` are the libraries named in `n.h`, in order and once each (98), `source n` those of `n.c`. The
functions call themselves; `fuel` is the depth of calls, and running out of it is the RecursionError of Python.

Not modelled: files included with an extension, whose text is inserted (115-138); files that can not be found; the contents written.
-/

namespace Verif.Includes.Libraries

structure Files where
  header : String → List String
  source : String → List String

/-- A `CInclude` (9-14); the content belongs to the name. -/
structure Inc where
  parent : String
  name : String
  order : Nat
  deriving DecidableEq, Repr

/-- `[CInclude(parent=parent, name=lib, order=index) for index, lib in enumerate(libraries)]` (103-104). -/
def enumerate (parent : String) (libs : List String) : List Inc := libs.zipIdx.map fun x => ⟨parent, x.1, x.2⟩

/-- `list(dict.fromkeys(l))`. -/
def fromKeys (l : List Inc) : List Inc := l.foldl (fun acc x => if x ∈ acc then acc else acc ++ [x]) []

/-- The loop over the headers (105-113), `handle` being the call on the header of a library. -/
def eachHeader (handle : String → Option (List Inc)) : List Inc → List Inc → Option (List Inc)
  | [], new => some new
  | i :: is, new =>
    match handle i.name with
    | none => none
    | some found => eachHeader handle is (if found ≠ [] then fromKeys (new ++ found) else new)

/-- `_handle_raw_c_include` (89-113, 140) for a text that includes `libs`. -/
def collect (files : Files) : Nat → String → List String → Option (List Inc)
  | 0, _, _ => none
  | fuel + 1, parent, libs =>
    match eachHeader (fun n => collect files fuel n (files.header n)) (enumerate parent libs) [] with
    | none => none
    | some new => some (if new.length ≠ 0 then fromKeys (enumerate parent libs ++ new) else enumerate parent libs)

/-- What is written. -/
inductive Event
  | header (name : String)
  | source (name : String)
  deriving DecidableEq, Repr

/-- The loop over the libraries a source needs (336-341), `write` being the call on the source of a library. -/
def eachSource (write : String → Option (List Event)) : List Inc → Option (List Event)
  | [] => some []
  | i :: is =>
    match write i.name with
    | none => none
    | some written =>
      match eachSource write is with
      | none => none
      | some rest => some (.header i.name :: written ++ rest)

/-- `include_source` (331-344), with the names in `self.includes`. -/
def includeSource (files : Files) (libs : List String) : Nat → String → Option (List Event)
  | 0, _ => none
  | fuel + 1, name =>
    match collect files fuel (name ++ ".c") (files.source name) with
    | none => none
    | some found =>
      match eachSource (includeSource files libs fuel) (found.filter fun i => i.name ∉ libs) with
      | none => none
      | some written => some (written ++ [.source name])

/-- The loop over the sources of `visit_declare` (361-362). -/
def sources (files : Files) (libs : List String) (fuel : Nat) : List String → Option (List Event)
  | [] => some []
  | n :: ns =>
    match includeSource files libs fuel n with
    | none => none
    | some written =>
      match sources files libs fuel ns with
      | none => none
      | some rest => some (written ++ rest)

/-- The libraries written by `visit_declare` (352-362), for `self.includes` and `include_runtime`. -/
def program (files : Files) (fuel : Nat) (libs : List String) : Option (List Event) :=
  match sources files libs fuel libs with
  | none => none
  | some written => some (libs.map .header ++ written)

/-! ### Collecting -/

theorem mem_fromKeys (l : List Inc) (x : Inc) : x ∈ fromKeys l ↔ x ∈ l := by
  have : ∀ (l acc : List Inc), x ∈ l.foldl (fun acc x => if x ∈ acc then acc else acc ++ [x]) acc ↔ x ∈ acc ∨ x ∈ l := by
    intro l
    induction l with
    | nil => simp
    | cons y l ih =>
      intro acc
      rw [List.foldl_cons, ih]
      split_ifs with h
      · constructor
        · rintro (h' | h')
          · exact .inl h'
          · exact .inr (by simp [h'])
        · rintro (h' | h')
          · exact .inl h'
          · rcases List.mem_cons.1 h' with rfl | h'
            · exact .inl h
            · exact .inr h'
      · simp only [List.mem_append, List.mem_cons]
        tauto
  rw [fromKeys, this]
  simp

theorem mem_enumerate (parent : String) (libs : List String) (i : Inc) :
    i ∈ enumerate parent libs ↔ i.parent = parent ∧ libs[i.order]? = some i.name := by
  obtain ⟨p, n, k⟩ := i
  simp only [enumerate, List.mem_map, Inc.mk.injEq, Prod.exists]
  constructor
  · rintro ⟨a, b, hab, rfl, rfl, rfl⟩
    exact ⟨rfl, List.mem_zipIdx_iff_getElem?.1 hab⟩
  · rintro ⟨h1, h2⟩
    exact ⟨n, k, List.mem_zipIdx_iff_getElem?.2 h2, h1.symm, rfl, rfl⟩

theorem each_some (files : Files) (fuel : Nat) : ∀ (is : List Inc) (new out : List Inc), eachHeader (fun n => collect files fuel n (files.header n)) is new = some out →
    (∀ i ∈ is, ∃ found, collect files fuel i.name (files.header i.name) = some found) ∧
      ∀ x, x ∈ out ↔ x ∈ new ∨ ∃ i ∈ is, ∃ found, collect files fuel i.name (files.header i.name) = some found ∧ x ∈ found := by
  intro is
  induction is with
  | nil =>
    intro new out h
    rw [eachHeader, Option.some.injEq] at h
    subst h
    simp
  | cons i is ih =>
    intro new out h
    rw [eachHeader] at h
    rcases hc : collect files fuel i.name (files.header i.name) with _ | found
    · rw [hc] at h; cases h
    · rw [hc] at h
      obtain ⟨h1, h2⟩ := ih _ _ h
      refine ⟨?_, fun x => ?_⟩
      · intro j hj
        rcases List.mem_cons.1 hj with rfl | hj
        · exact ⟨found, hc⟩
        · exact h1 j hj
      · rw [h2 x]
        have hn : x ∈ (if found ≠ [] then fromKeys (new ++ found) else new) ↔ x ∈ new ∨ x ∈ found := by
          split_ifs with hf
          · rw [mem_fromKeys, List.mem_append]
          · push Not at hf
            simp [hf]
        rw [hn]
        constructor
        · rintro ((h' | h') | ⟨j, hj, f, hf, hx⟩)
          · exact .inl h'
          · exact .inr ⟨i, by simp, found, hc, h'⟩
          · exact .inr ⟨j, by simp [hj], f, hf, hx⟩
        · rintro (h' | ⟨j, hj, f, hf, hx⟩)
          · exact .inl (.inl h')
          · rcases List.mem_cons.1 hj with rfl | hj
            · rw [hc, Option.some.injEq] at hf
              subst hf
              exact .inl (.inr hx)
            · exact .inr ⟨j, hj, f, hf, hx⟩

theorem each_isSome (files : Files) (fuel : Nat) : ∀ (is new : List Inc),
    (∀ i ∈ is, (collect files fuel i.name (files.header i.name)).isSome) → (eachHeader (fun n => collect files fuel n (files.header n)) is new).isSome := by
  intro is
  induction is with
  | nil => intro new _; rfl
  | cons i is ih =>
    intro new h
    rw [eachHeader]
    rcases hc : collect files fuel i.name (files.header i.name) with _ | found
    · have := h i (by simp); rw [hc] at this; cases this
    · exact ih _ fun j hj => h j (by simp [hj])

theorem collect_some (files : Files) (fuel : Nat) (parent : String) (libs : List String) (out : List Inc)
    (h : collect files (fuel + 1) parent libs = some out) :
    (∀ n ∈ libs, ∃ found, collect files fuel n (files.header n) = some found) ∧
      ∀ x, x ∈ out ↔ x ∈ enumerate parent libs ∨ ∃ n ∈ libs, ∃ found, collect files fuel n (files.header n) = some found ∧ x ∈ found := by
  have hname : ∀ n, n ∈ libs ↔ ∃ i ∈ enumerate parent libs, i.name = n := by
    intro n
    constructor
    · intro hn
      obtain ⟨k, hk⟩ := List.mem_iff_getElem?.1 hn
      exact ⟨⟨parent, n, k⟩, (mem_enumerate ..).2 ⟨rfl, hk⟩, rfl⟩
    · rintro ⟨i, hi, rfl⟩
      exact List.mem_of_getElem? ((mem_enumerate ..).1 hi).2
  rw [collect] at h
  rcases he : eachHeader (fun n => collect files fuel n (files.header n)) (enumerate parent libs) [] with _ | new
  · rw [he] at h; cases h
  · rw [he] at h
    simp only [Option.some.injEq] at h
    obtain ⟨h1, h2⟩ := each_some files fuel _ _ _ he
    refine ⟨fun n hn => ?_, fun x => ?_⟩
    · obtain ⟨i, hi, rfl⟩ := (hname n).1 hn
      exact h1 i hi
    · have hx : x ∈ out ↔ x ∈ enumerate parent libs ∨ x ∈ new := by
        rw [← h]
        split_ifs with hl
        · rw [mem_fromKeys, List.mem_append]
        · have : new = [] := by
            push Not at hl
            exact List.length_eq_zero_iff.1 hl
          simp [this]
      rw [hx, h2 x]
      simp only [List.not_mem_nil, false_or]
      constructor
      · rintro (h' | ⟨i, hi, f, hf, hx⟩)
        · exact .inl h'
        · exact .inr ⟨i.name, (hname _).2 ⟨i, hi, rfl⟩, f, hf, hx⟩
      · rintro (h' | ⟨n, hn, f, hf, hx⟩)
        · exact .inl h'
        · obtain ⟨i, hi, rfl⟩ := (hname n).1 hn
          exact .inr ⟨i, hi, f, hf, hx⟩

/-- `b` is included by the header of `a`. -/
def HeaderOf (files : Files) (a b : String) : Prop := b ∈ files.header a

/-- C107: what is collected are the directives of the text itself and of the headers of all libraries reached from it, each with its
place, and nothing else. -/
theorem collected_iff (files : Files) (fuel : Nat) (parent : String) (libs : List String) (out : List Inc)
    (h : collect files fuel parent libs = some out) (i : Inc) :
    i ∈ out ↔ (i.parent = parent ∧ libs[i.order]? = some i.name) ∨
      ∃ n ∈ libs, Relation.ReflTransGen (HeaderOf files) n i.parent ∧ (files.header i.parent)[i.order]? = some i.name := by
  induction fuel generalizing parent libs out with
  | zero => cases h
  | succ fuel ih =>
    obtain ⟨h1, h2⟩ := collect_some files fuel parent libs out h
    rw [h2 i, mem_enumerate]
    refine or_congr_right ?_
    constructor
    · rintro ⟨n, hn, f, hf, hi⟩
      refine ⟨n, hn, ?_⟩
      rcases (ih n _ f hf).1 hi with ⟨rfl, h'⟩ | ⟨m, hm, hr, h'⟩
      · exact ⟨.refl, h'⟩
      · exact ⟨.head hm hr, h'⟩
    · rintro ⟨n, hn, hr, hi⟩
      obtain ⟨f, hf⟩ := h1 n hn
      refine ⟨n, hn, f, hf, (ih n _ f hf).2 ?_⟩
      rcases Relation.ReflTransGen.cases_head hr with rfl | ⟨m, hm, hr⟩
      · exact .inl ⟨rfl, hi⟩
      · exact .inr ⟨m, hm, hr, hi⟩

/-- C107: the names collected are the libraries reached. -/
theorem collected_names (files : Files) (fuel : Nat) (parent : String) (libs : List String) (out : List Inc)
    (h : collect files fuel parent libs = some out) (m : String) :
    m ∈ out.map (·.name) ↔ ∃ n ∈ libs, Relation.ReflTransGen (HeaderOf files) n m := by
  rw [List.mem_map]
  constructor
  · rintro ⟨i, hi, rfl⟩
    rcases (collected_iff files fuel parent libs out h i).1 hi with ⟨_, h'⟩ | ⟨n, hn, hr, h'⟩
    · exact ⟨i.name, List.mem_of_getElem? h', .refl⟩
    · exact ⟨n, hn, hr.tail (List.mem_of_getElem? h')⟩
  · rintro ⟨n, hn, hr⟩
    rcases Relation.ReflTransGen.cases_tail hr with h0 | ⟨p, hr, hp⟩
    · subst h0
      obtain ⟨k, hk⟩ := List.mem_iff_getElem?.1 hn
      exact ⟨⟨parent, m, k⟩, (collected_iff files fuel parent libs out h _).2 (.inl ⟨rfl, hk⟩), rfl⟩
    · obtain ⟨k, hk⟩ := List.mem_iff_getElem?.1 hp
      exact ⟨⟨p, m, k⟩, (collected_iff files fuel parent libs out h _).2 (.inr ⟨n, hn, hr, hk⟩), rfl⟩

theorem collect_isSome_step (files : Files) (fuel : Nat) (parent : String) (libs : List String) :
    (collect files (fuel + 1) parent libs).isSome ↔ ∀ n ∈ libs, (collect files fuel n (files.header n)).isSome := by
  constructor
  · intro h n hn
    obtain ⟨out, ho⟩ := Option.isSome_iff_exists.1 h
    obtain ⟨f, hf⟩ := (collect_some files fuel parent libs out ho).1 n hn
    rw [hf]
    rfl
  · intro h
    have : (eachHeader (fun n => collect files fuel n (files.header n)) (enumerate parent libs) []).isSome := by
      refine each_isSome files fuel _ _ fun i hi => h i.name ?_
      exact List.mem_of_getElem? ((mem_enumerate ..).1 hi).2
    rw [collect]
    rcases he : eachHeader (fun n => collect files fuel n (files.header n)) (enumerate parent libs) [] with _ | new
    · rw [he] at this; cases this
    · simp only
      rfl

theorem collect_mono (files : Files) (fuel k : Nat) (parent : String) (libs : List String)
    (h : (collect files fuel parent libs).isSome) : (collect files (fuel + k) parent libs).isSome := by
  induction fuel generalizing parent libs with
  | zero => cases h
  | succ fuel ih =>
    rw [Nat.add_right_comm, collect_isSome_step]
    rw [collect_isSome_step] at h
    exact fun n hn => ih n _ (h n hn)

/-- C107: collecting ends (with enough depth) exactly if there is no endless chain of headers from the libraries of the text; so if
headers include each other, or a header itself, it never does. -/
theorem collect_ends_iff (files : Files) (parent : String) (libs : List String) :
    (∃ fuel, (collect files fuel parent libs).isSome) ↔ ∀ n ∈ libs, Acc (fun b a => HeaderOf files a b) n := by
  constructor
  · rintro ⟨fuel, h⟩
    induction fuel generalizing parent libs with
    | zero => cases h
    | succ fuel ih =>
      rw [collect_isSome_step] at h
      exact fun n hn => ⟨n, fun m hm => ih n _ (h n hn) m hm⟩
  · intro h
    have key : ∀ n, Acc (fun b a => HeaderOf files a b) n → ∃ fuel, (collect files fuel n (files.header n)).isSome := by
      intro n hn
      induction hn with
      | intro n _ ih =>
        have : ∀ ls : List String, (∀ m ∈ ls, HeaderOf files n m) → ∃ fuel, ∀ m ∈ ls, (collect files fuel m (files.header m)).isSome := by
          intro ls
          induction ls with
          | nil => intro _; exact ⟨0, by simp⟩
          | cons l ls ihl =>
            intro hl
            obtain ⟨f, hf⟩ := ihl fun m hm => hl m (by simp [hm])
            obtain ⟨g, hg⟩ := ih l (hl l (by simp))
            refine ⟨f + g, fun m hm => ?_⟩
            rcases List.mem_cons.1 hm with rfl | hm
            · rw [Nat.add_comm]
              exact collect_mono files g f _ _ hg
            · exact collect_mono files f g _ _ (hf m hm)
        obtain ⟨f, hf⟩ := this (files.header n) fun m hm => hm
        exact ⟨f + 1, (collect_isSome_step ..).2 hf⟩
    have : ∀ ls : List String, (∀ m ∈ ls, m ∈ libs) → ∃ fuel, ∀ m ∈ ls, (collect files fuel m (files.header m)).isSome := by
      intro ls
      induction ls with
      | nil => intro _; exact ⟨0, by simp⟩
      | cons l ls ihl =>
        intro hl
        obtain ⟨f, hf⟩ := ihl fun m hm => hl m (by simp [hm])
        obtain ⟨g, hg⟩ := key l (h l (hl l (by simp)))
        refine ⟨f + g, fun m hm => ?_⟩
        rcases List.mem_cons.1 hm with rfl | hm
        · rw [Nat.add_comm]
          exact collect_mono files g f _ _ hg
        · exact collect_mono files f g _ _ (hf m hm)
    obtain ⟨f, hf⟩ := this libs fun m hm => hm
    exact ⟨f + 1, (collect_isSome_step ..).2 hf⟩

/-! ### Writing -/

theorem eachSource_some (write : String → Option (List Event)) : ∀ (is : List Inc) (out : List Event), eachSource write is = some out →
    (∀ i ∈ is, ∃ w, write i.name = some w) ∧
      ∀ e, e ∈ out ↔ ∃ i ∈ is, e = .header i.name ∨ ∃ w, write i.name = some w ∧ e ∈ w := by
  intro is
  induction is with
  | nil =>
    intro out h
    rw [eachSource, Option.some.injEq] at h
    subst h
    simp
  | cons i is ih =>
    intro out h
    rw [eachSource] at h
    rcases hw : write i.name with _ | w
    · rw [hw] at h; cases h
    · rcases he : eachSource write is with _ | rest
      · simp only [hw, he] at h; cases h
      · simp only [hw, he, Option.some.injEq] at h
        subst h
        obtain ⟨h1, h2⟩ := ih rest he
        refine ⟨?_, fun e => ?_⟩
        · intro j hj
          rcases List.mem_cons.1 hj with rfl | hj
          · exact ⟨w, hw⟩
          · exact h1 j hj
        · simp only [List.cons_append, List.mem_cons, List.mem_append, h2 e]
          constructor
          · rintro (h' | h' | ⟨j, hj, h'⟩)
            · exact ⟨i, .inl rfl, .inl h'⟩
            · exact ⟨i, .inl rfl, .inr ⟨w, hw, h'⟩⟩
            · exact ⟨j, .inr hj, h'⟩
          · rintro ⟨j, rfl | hj, h'⟩
            · rcases h' with h' | ⟨w', hw', h'⟩
              · exact .inl h'
              · rw [hw, Option.some.injEq] at hw'
                subst hw'
                exact .inr (.inl h')
            · exact .inr (.inr ⟨j, hj, h'⟩)

theorem includeSource_some (files : Files) (libs : List String) (fuel : Nat) (name : String) (out : List Event)
    (h : includeSource files libs (fuel + 1) name = some out) :
    ∃ found w, collect files fuel (name ++ ".c") (files.source name) = some found ∧
      eachSource (includeSource files libs fuel) (found.filter fun i => i.name ∉ libs) = some w ∧ out = w ++ [.source name] := by
  rw [includeSource] at h
  rcases hc : collect files fuel (name ++ ".c") (files.source name) with _ | found
  · rw [hc] at h; cases h
  · rcases he : eachSource (includeSource files libs fuel) (found.filter fun i => i.name ∉ libs) with _ | w
    · simp only [hc, he] at h; cases h
    · simp only [hc, he, Option.some.injEq] at h
      exact ⟨found, w, rfl, he, h.symm⟩

theorem sources_some (files : Files) (libs : List String) (fuel : Nat) : ∀ (ns : List String) (out : List Event),
    sources files libs fuel ns = some out →
    (∀ n ∈ ns, ∃ w, includeSource files libs fuel n = some w) ∧
      out = ns.flatMap fun n => (includeSource files libs fuel n).getD [] := by
  intro ns
  induction ns with
  | nil =>
    intro out h
    rw [sources, Option.some.injEq] at h
    exact ⟨by simp, h.symm⟩
  | cons n ns ih =>
    intro out h
    rw [sources] at h
    rcases hw : includeSource files libs fuel n with _ | w
    · rw [hw] at h; cases h
    · rcases hr : sources files libs fuel ns with _ | rest
      · simp only [hw, hr] at h; cases h
      · simp only [hw, hr, Option.some.injEq] at h
        obtain ⟨h1, h2⟩ := ih rest hr
        refine ⟨?_, ?_⟩
        · intro j hj
          rcases List.mem_cons.1 hj with rfl | hj
          · exact ⟨w, hw⟩
          · exact h1 j hj
        · rw [← h, h2, List.flatMap_cons, hw, Option.getD_some]

theorem program_some (files : Files) (fuel : Nat) (libs : List String) (out : List Event) (h : program files fuel libs = some out) :
    (∀ n ∈ libs, ∃ w, includeSource files libs fuel n = some w) ∧
      out = libs.map .header ++ libs.flatMap fun n => (includeSource files libs fuel n).getD [] := by
  rw [program] at h
  rcases hs : sources files libs fuel libs with _ | w
  · rw [hs] at h; cases h
  · simp only [hs, Option.some.injEq] at h
    obtain ⟨h1, h2⟩ := sources_some files libs fuel libs w hs
    exact ⟨h1, by rw [← h, h2]⟩

/-- The libraries the source of `n` needs: those it includes, and those their headers include. -/
def Needs (files : Files) (n m : String) : Prop := ∃ k ∈ files.source n, Relation.ReflTransGen (HeaderOf files) k m

theorem found_iff (files : Files) (libs : List String) (fuel : Nat) (n : String) (found : List Inc)
    (h : collect files fuel (n ++ ".c") (files.source n) = some found) (m : String) :
    (∃ i ∈ found.filter (fun i => i.name ∉ libs), i.name = m) ↔ Needs files n m ∧ m ∉ libs := by
  have := collected_names files fuel _ _ found h m
  rw [Needs, ← this]
  simp only [List.mem_filter, List.mem_map, decide_not, Bool.not_eq_true', decide_eq_false_iff_not]
  constructor
  · rintro ⟨i, ⟨hi, hm⟩, rfl⟩
    exact ⟨⟨i, hi, rfl⟩, hm⟩
  · rintro ⟨⟨i, hi, rfl⟩, hm⟩
    exact ⟨i, ⟨hi, hm⟩, rfl⟩

/-- A library that is written along with the source of another: needed by it and not among those already included. -/
def Pulls (files : Files) (libs : List String) (n m : String) : Prop := Needs files n m ∧ m ∉ libs

theorem includeSource_mem (files : Files) (libs : List String) (fuel : Nat) (n : String) (out : List Event)
    (h : includeSource files libs fuel n = some out) (m : String) :
    (.source m ∈ out ↔ Relation.ReflTransGen (Pulls files libs) n m) ∧
      (.header m ∈ out ↔ Relation.TransGen (Pulls files libs) n m) := by
  induction fuel generalizing n out with
  | zero => cases h
  | succ fuel ih =>
    obtain ⟨found, w, hc, he, rfl⟩ := includeSource_some files libs fuel n out h
    obtain ⟨h1, h2⟩ := eachSource_some _ _ _ he
    have hf := found_iff files libs fuel n found hc
    constructor
    · rw [List.mem_append, h2]
      constructor
      · rintro (⟨i, hi, h' | ⟨w', hw', h'⟩⟩ | h')
        · cases h'
        · exact .head ((hf _).1 ⟨i, hi, rfl⟩) ((ih _ _ hw').1.1 h')
        · simp only [List.mem_singleton, Event.source.injEq] at h'
          subst h'
          exact .refl
      · intro hr
        rcases Relation.ReflTransGen.cases_head hr with rfl | ⟨k, hk, hr⟩
        · exact .inr (by simp)
        · obtain ⟨i, hi, rfl⟩ := (hf k).2 hk
          obtain ⟨w', hw'⟩ := h1 i hi
          exact .inl ⟨i, hi, .inr ⟨w', hw', (ih _ _ hw').1.2 hr⟩⟩
    · rw [List.mem_append, h2]
      constructor
      · rintro (⟨i, hi, h' | ⟨w', hw', h'⟩⟩ | h')
        · simp only [Event.header.injEq] at h'
          subst h'
          exact .single ((hf _).1 ⟨i, hi, rfl⟩)
        · exact .head ((hf _).1 ⟨i, hi, rfl⟩) ((ih _ _ hw').2.1 h')
        · simp at h'
      · intro hr
        refine .inl ?_
        rcases Relation.TransGen.head'_iff.1 hr with ⟨k, hk, hr⟩
        obtain ⟨i, hi, rfl⟩ := (hf k).2 hk
        obtain ⟨w', hw'⟩ := h1 i hi
        rcases Relation.reflTransGen_iff_eq_or_transGen.1 hr with rfl | hr
        · exact ⟨i, hi, .inl rfl⟩
        · exact ⟨i, hi, .inr ⟨w', hw', (ih _ _ hw').2.2 hr⟩⟩

/-- C107: the libraries whose header or source is written are those included and those their sources need, in any number of steps. -/
theorem written_iff (files : Files) (fuel : Nat) (libs : List String) (out : List Event) (h : program files fuel libs = some out)
    (m : String) :
    (.source m ∈ out ↔ ∃ n ∈ libs, Relation.ReflTransGen (fun a b => Needs files a b ∧ b ∉ libs) n m) ∧
      (.header m ∈ out ↔ ∃ n ∈ libs, Relation.ReflTransGen (fun a b => Needs files a b ∧ b ∉ libs) n m) := by
  obtain ⟨h1, rfl⟩ := program_some files fuel libs out h
  have key : ∀ e, e ∈ (libs.flatMap fun n => (includeSource files libs fuel n).getD []) ↔
      ∃ n ∈ libs, ∃ w, includeSource files libs fuel n = some w ∧ e ∈ w := by
    intro e
    rw [List.mem_flatMap]
    refine exists_congr fun n => and_congr_right fun hn => ?_
    obtain ⟨w, hw⟩ := h1 n hn
    simp [hw]
  constructor
  · rw [List.mem_append, key]
    constructor
    · rintro (h' | ⟨n, hn, w, hw, h'⟩)
      · simp at h'
      · exact ⟨n, hn, (includeSource_mem files libs fuel n w hw m).1.1 h'⟩
    · rintro ⟨n, hn, hr⟩
      obtain ⟨w, hw⟩ := h1 n hn
      exact .inr ⟨n, hn, w, hw, (includeSource_mem files libs fuel n w hw m).1.2 hr⟩
  · rw [List.mem_append, key]
    constructor
    · rintro (h' | ⟨n, hn, w, hw, h'⟩)
      · simp only [List.mem_map, Event.header.injEq, exists_eq_right] at h'
        exact ⟨m, h', .refl⟩
      · exact ⟨n, hn, ((includeSource_mem files libs fuel n w hw m).2.1 h').to_reflTransGen⟩
    · rintro ⟨n, hn, hr⟩
      obtain ⟨w, hw⟩ := h1 n hn
      rcases Relation.reflTransGen_iff_eq_or_transGen.1 hr with rfl | hr
      · exact .inl (List.mem_map_of_mem hn)
      · exact .inr ⟨n, hn, w, hw, (includeSource_mem files libs fuel n w hw m).2.2 hr⟩

/-- C107: the headers come first and then the sources, each library once and in the order of the list, exactly if everything the sources
need is already included. -/
theorem in_order_iff (files : Files) (fuel : Nat) (libs : List String) (out : List Event) (h : program files fuel libs = some out) :
    out = libs.map .header ++ libs.map .source ↔ ∀ n ∈ libs, ∀ m, Needs files n m → m ∈ libs := by
  constructor
  · intro ho n hn m hm
    by_contra hml
    have := (written_iff files fuel libs out h m).1.2 ⟨n, hn, .single ⟨hm, hml⟩⟩
    rw [ho] at this
    simp only [List.mem_append, List.mem_map, reduceCtorEq, and_false, exists_false, Event.source.injEq, exists_eq_right, false_or] at this
    exact hml this
  · intro hn
    obtain ⟨h1, rfl⟩ := program_some files fuel libs out h
    congr 1
    have : ∀ ls : List String, (∀ n ∈ ls, n ∈ libs) → ls.flatMap (fun n => (includeSource files libs fuel n).getD []) = ls.map .source := by
      intro ls
      induction ls with
      | nil => intro _; rfl
      | cons l ls ih =>
        intro hls
        rw [List.flatMap_cons, ih fun n hn => hls n (by simp [hn]), List.map_cons]
        obtain ⟨w, hw⟩ := h1 l (hls l (by simp))
        cases fuel with
        | zero => cases hw
        | succ fuel =>
          obtain ⟨found, v, hc, he, rfl⟩ := includeSource_some files libs fuel l w hw
          have hf : found.filter (fun i => i.name ∉ libs) = [] := by
            rw [List.eq_nil_iff_forall_not_mem]
            intro i hi
            obtain ⟨h1, h2⟩ := (found_iff files libs fuel l found hc i.name).1 ⟨i, hi, rfl⟩
            exact h2 (hn l (hls l (by simp)) _ h1)
          rw [hf, eachSource, Option.some.injEq] at he
          rw [hw, ← he]
          rfl
    exact this libs fun n hn => hn

/-- C107 (partial: for sources that need only libraries already included): then each header and each source is written once. -/
theorem written_once_partial (files : Files) (fuel : Nat) (libs : List String) (out : List Event) (h : program files fuel libs = some out)
    (hl : libs.Nodup) (hn : ∀ n ∈ libs, ∀ m, Needs files n m → m ∈ libs) (m : String) (hm : m ∈ libs) :
    out.count (.header m) = 1 ∧ out.count (.source m) = 1 := by
  rw [(in_order_iff files fuel libs out h).2 hn, List.count_append, List.count_append]
  have h1 : (libs.map Event.header).count (.header m) = 1 := by
    rw [List.count_map_of_injective _ _ (fun a b h => Event.header.inj h)]
    exact List.count_eq_one_of_mem hl hm
  have h2 : (libs.map Event.source).count (.source m) = 1 := by
    rw [List.count_map_of_injective _ _ (fun a b h => Event.source.inj h)]
    exact List.count_eq_one_of_mem hl hm
  have h3 : (libs.map Event.source).count (.header m) = 0 := List.count_eq_zero.2 (by simp)
  have h4 : (libs.map Event.header).count (.source m) = 0 := List.count_eq_zero.2 (by simp)
  rw [h1, h2, h3, h4]
  exact ⟨rfl, rfl⟩

theorem count_two (f : String → List Event) (e : Event) : ∀ (ls : List String) (a b : String), a ≠ b → a ∈ ls → b ∈ ls → e ∈ f a → e ∈ f b →
    2 ≤ (ls.flatMap f).count e := by
  intro ls
  have one : ∀ (ls : List String) (a : String), a ∈ ls → e ∈ f a → 1 ≤ (ls.flatMap f).count e := fun ls a ha hf =>
    List.count_pos_iff.2 (List.mem_flatMap.2 ⟨a, ha, hf⟩)
  induction ls with
  | nil => intro a b _ ha; simp at ha
  | cons l ls ih =>
    intro a b hab ha hb hfa hfb
    rw [List.flatMap_cons, List.count_append]
    rcases List.mem_cons.1 ha with rfl | ha
    · rcases List.mem_cons.1 hb with rfl | hb
      · exact absurd rfl hab
      · have h1 := List.count_pos_iff.2 hfa
        have h2 := one ls b hb hfb
        omega
    · rcases List.mem_cons.1 hb with hbl | hb
      · have h1 := List.count_pos_iff.2 (hbl ▸ hfb)
        have h2 := one ls a ha hfa
        omega
      · have := ih a b hab ha hb hfa hfb
        omega

/-- C107: but a library that two sources need, and that is not included itself, is written (at least) twice. -/
theorem written_twice (files : Files) (fuel : Nat) (libs : List String) (out : List Event) (h : program files fuel libs = some out)
    (a b x : String) (hab : a ≠ b) (ha : a ∈ libs) (hb : b ∈ libs) (hx : x ∉ libs) (hax : Needs files a x) (hbx : Needs files b x) :
    2 ≤ out.count (.header x) ∧ 2 ≤ out.count (.source x) := by
  obtain ⟨h1, rfl⟩ := program_some files fuel libs out h
  obtain ⟨wa, hwa⟩ := h1 a ha
  obtain ⟨wb, hwb⟩ := h1 b hb
  have ha' := includeSource_mem files libs fuel a wa hwa x
  have hb' := includeSource_mem files libs fuel b wb hwb x
  rw [List.count_append, List.count_append]
  have c1 := count_two (fun n => (includeSource files libs fuel n).getD []) (.header x) libs a b hab ha hb
    (by rw [hwa]; exact ha'.2.2 (.single ⟨hax, hx⟩)) (by rw [hwb]; exact hb'.2.2 (.single ⟨hbx, hx⟩))
  have c2 := count_two (fun n => (includeSource files libs fuel n).getD []) (.source x) libs a b hab ha hb
    (by rw [hwa]; exact ha'.1.2 (.single ⟨hax, hx⟩)) (by rw [hwb]; exact hb'.1.2 (.single ⟨hbx, hx⟩))
  omega

/-- C107: and if such a library's source needs itself, in one step or through others that are not included, the program is never written,
whatever the depth allowed. -/
theorem never_written (files : Files) (fuel : Nat) (libs : List String) (a x : String) (ha : a ∈ libs) (hx : x ∉ libs)
    (hax : Needs files a x) (hxx : Relation.TransGen (fun a b => Needs files a b ∧ b ∉ libs) x x) :
    program files fuel libs = none := by
  have key : ∀ fuel, ∀ n, Relation.ReflTransGen (Pulls files libs) n x → includeSource files libs fuel n = none := by
    intro fuel
    induction fuel with
    | zero => intro n _; rfl
    | succ fuel ih =>
      intro n hn
      by_contra hne
      obtain ⟨out, ho⟩ := Option.ne_none_iff_exists'.1 hne
      obtain ⟨found, w, hc, he, rfl⟩ := includeSource_some files libs fuel n out ho
      obtain ⟨h1, -⟩ := eachSource_some _ _ _ he
      have hstep : Relation.TransGen (Pulls files libs) n x := by
        rcases Relation.reflTransGen_iff_eq_or_transGen.1 hn with rfl | hn
        · exact hxx
        · exact hn
      obtain ⟨k, hk, hr⟩ := Relation.TransGen.head'_iff.1 hstep
      obtain ⟨i, hi, rfl⟩ := (found_iff files libs fuel n found hc k).2 hk
      obtain ⟨v, hv⟩ := h1 i hi
      rw [ih i.name hr] at hv
      cases hv
  by_contra hne
  obtain ⟨out, ho⟩ := Option.ne_none_iff_exists'.1 hne
  obtain ⟨h1, -⟩ := program_some files fuel libs out ho
  obtain ⟨w, hw⟩ := h1 a ha
  rw [key fuel a (.single ⟨hax, hx⟩)] at hw
  cases hw

/-- C107: and the header of such a library comes before those it includes itself. -/
theorem header_too_early : ∃ (files : Files) (libs : List String) (out : List Event), program files 9 libs = some out ∧
    "base" ∈ files.header "ref" ∧ out = [.header "Mirror", .header "ref", .source "ref", .header "base", .source "base", .source "Mirror"] :=
  ⟨⟨fun n => if n = "ref" then ["base"] else [], fun n => if n = "Mirror" then ["ref"] else []⟩, ["Mirror"], _, by decide +kernel, by decide, rfl⟩

/-! ### The hypotheses are met -/

/-- Two libraries, both of which need the tables. -/
def sample (tables : Bool) : Files where
  header n := if n = "ref-lib" then (if tables then ["read_table-lib"] else []) else []
  source n := if n = "ref-lib" ∨ n = "pol-lib" then ["read_table-lib"] else []

example : collect (sample true) 5 "Mirror" ["ref-lib", "pol-lib"] =
    some [⟨"Mirror", "ref-lib", 0⟩, ⟨"Mirror", "pol-lib", 1⟩, ⟨"ref-lib", "read_table-lib", 0⟩] := by decide +kernel
example : program (sample true) 5 ["read_table-lib", "ref-lib", "pol-lib"] = some
    [.header "read_table-lib", .header "ref-lib", .header "pol-lib", .source "read_table-lib", .source "ref-lib", .source "pol-lib"] := by
  decide +kernel
example : program (sample false) 5 ["ref-lib", "pol-lib"] = some
    [.header "ref-lib", .header "pol-lib", .header "read_table-lib", .source "read_table-lib", .source "ref-lib", .header "read_table-lib",
      .source "read_table-lib", .source "pol-lib"] := by
  decide +kernel
/-- A source that includes its own header. -/
example : program ⟨fun _ => [], fun n => if n = "a" then ["b"] else ["b"]⟩ 9 ["a"] = none :=
  never_written _ _ _ "a" "b" (by simp) (by decide) ⟨"b", by simp, .refl⟩ (.single ⟨⟨"b", by simp, .refl⟩, by decide⟩)
/-- Headers that include each other. -/
example : collect ⟨fun n => if n = "a" then ["b"] else ["a"], fun _ => []⟩ 9 "i" ["a"] = none := by decide +kernel

end Verif.Includes.Libraries
