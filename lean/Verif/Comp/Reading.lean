import Mathlib.Logic.Relation
import Mathlib.Order.WellFounded
import Mathlib.Data.Fintype.EquivFin

/-!
C98: reading component definitions. Model of `Reader.get_component` and `add_component`
(src/mccode_antlr/reader/reader.py 113-141) with the visitor that calls them again for each COPY
(src/mccode_antlr/comp/visitor.py 16-36, 48-58, 143-225).
-/

namespace Verif.Reading

/-- The exceptions. -/
inductive Err
  /-- reader.py 68-95: no registry has the file. -/
  | notFound
  /-- Syntax errors and what else a part of a definition may raise. -/
  | refused
  /-- Python's limit of nested calls. -/
  | recursion
  deriving DecidableEq, Repr

/-- A part of a definition, as it is visited: it changes the state of the visitor, or it does so with another component, which it gets
from the reader (visitor.py 32, 55, 150, 160, 175, 193, 208, 223). `none` stands for an exception. -/
inductive Step (C : Type)
  | own (f : C → Option C)
  | copy (name : String) (f : C → C → Option C)

/-- The files a reader can find: the parts of the definition in each. -/
abbrev Files (C : Type) := String → Option (List (Step C))

/-- The state of a reader: the components it knows, and (only here) the names of the files it has parsed, the last one first. -/
structure State (C : Type) where
  components : List (String × C)
  parsed : List String

variable {C : Type}

/-- The visits of the parts in order; `get` is `Reader.get_component`. -/
def visit (get : State C → String → State C × Except Err C) : List (Step C) → State C → C → State C × Except Err C
  | [], st, c => (st, .ok c)
  | .own f :: steps, st, c =>
    match f c with
    | none => (st, .error .refused)
    | some c' => visit get steps st c'
  | .copy name f :: steps, st, c =>
    match get st name with
    | (st', .error e) => (st', .error e)
    | (st', .ok d) =>
      match f c d with
      | none => (st', .error .refused)
      | some c' => visit get steps st' c'

/-- `Reader.get_component` (138-141) with `add_component` (113-136) for at most `limit` nested calls. `blank` is `Comp()`. -/
def getComponent (files : Files C) (blank : C) : Nat → State C → String → State C × Except Err C
  | 0, st, _ => (st, .error .recursion)
  | limit + 1, st, name =>
    match st.components.lookup name with
    | some c => (st, .ok c)
    | none =>
      match files name with
      | none => (st, .error .notFound)
      | some steps =>
        match visit (getComponent files blank limit) steps { st with parsed := name :: st.parsed } blank with
        | (st', .error e) => (st', .error e)
        | (st', .ok c) => ({ st' with components := st'.components ++ [(name, c)] }, .ok c)

/-! ### What a component is -/

/-- What the parts of a definition make of a component, without reference to a reader: each COPY stands for what the file of the other
component makes of the blank one. -/
inductive DefinesFrom (files : Files C) (blank : C) : List (Step C) → C → C → Prop
  | nil (c : C) : DefinesFrom files blank [] c c
  | own {f : C → Option C} {steps : List (Step C)} {c c' d : C} (hf : f c = some c')
      (hs : DefinesFrom files blank steps c' d) : DefinesFrom files blank (.own f :: steps) c d
  | copy {name : String} {other : List (Step C)} {f : C → C → Option C} {steps : List (Step C)} {c c' d e : C}
      (hn : files name = some other) (he : DefinesFrom files blank other blank e)
      (hf : f c e = some c') (hs : DefinesFrom files blank steps c' d) : DefinesFrom files blank (.copy name f :: steps) c d

/-- The definition of a component. -/
def Defines (files : Files C) (blank : C) (name : String) (c : C) : Prop :=
  ∃ steps, files name = some steps ∧ DefinesFrom files blank steps blank c

/-- Every component known is what its file defines. -/
def Sound (files : Files C) (blank : C) (st : State C) : Prop :=
  ∀ name c, st.components.lookup name = some c → Defines files blank name c

theorem lookup_append_single (l : List (String × C)) (name m : String) (c : C) :
    (l ++ [(name, c)]).lookup m = match l.lookup m with
      | some d => some d
      | none => if m = name then some c else none := by
  induction l with
  | nil =>
    by_cases h : m = name
    · simp [List.lookup, h]
    · have : (m == name) = false := by simp [h]
      simp [List.lookup, this, h]
  | cons x xs ih =>
    obtain ⟨k, v⟩ := x
    by_cases h : m = k
    · subst h
      simp [List.lookup]
    · have : (m == k) = false := by simp [h]
      simp only [List.cons_append, List.lookup, this, ih]

theorem visit_sound {files : Files C} {blank : C} {get : State C → String → State C × Except Err C}
    (hg : ∀ st name, Sound files blank st → Sound files blank (get st name).1 ∧
      ∀ c, (get st name).2 = .ok c → Defines files blank name c) (steps : List (Step C)) :
    ∀ (st : State C) (c : C), Sound files blank st → Sound files blank (visit get steps st c).1 ∧
      ∀ d, (visit get steps st c).2 = .ok d → DefinesFrom files blank steps c d := by
  induction steps with
  | nil =>
    intro st c hs
    refine ⟨hs, fun d h => ?_⟩
    simp only [visit] at h
    cases h
    exact .nil _
  | cons s steps ih =>
    intro st c hs
    cases s with
    | own f =>
      simp only [visit]
      cases hf : f c with
      | none => exact ⟨hs, fun d h => by cases h⟩
      | some c' => exact ⟨(ih st c' hs).1, fun d h => .own hf ((ih st c' hs).2 d h)⟩
    | copy name f =>
      simp only [visit]
      obtain ⟨h1, h2⟩ := hg st name hs
      rcases hr : get st name with ⟨st', r⟩
      rw [hr] at h1 h2
      cases r with
      | error e => exact ⟨h1, fun d h => by cases h⟩
      | ok e =>
        cases hf : f c e with
        | none => simp only [hf]; exact ⟨h1, fun d h => by cases h⟩
        | some c' =>
          simp only [hf]
          exact ⟨(ih st' c' h1).1, fun d h => by
            obtain ⟨other, hn, he⟩ := h2 e rfl
            exact .copy hn he hf ((ih st' c' h1).2 d h)⟩

/-- C98: what a reader returns is what the files define, whatever it has read before, and this stays so also when it raises. -/
theorem read_is_defined (files : Files C) (blank : C) (limit : Nat) : ∀ (st : State C) (name : String), Sound files blank st →
    Sound files blank (getComponent files blank limit st name).1 ∧
      ∀ c, (getComponent files blank limit st name).2 = .ok c → Defines files blank name c := by
  induction limit with
  | zero => exact fun st name hs => ⟨hs, fun c h => by simp [getComponent] at h⟩
  | succ limit ih =>
    intro st name hs
    simp only [getComponent]
    cases hl : st.components.lookup name with
    | some c => exact ⟨hs, fun d h => by cases h; exact hs _ _ hl⟩
    | none =>
      cases hf : files name with
      | none => exact ⟨hs, fun c h => by cases h⟩
      | some steps =>
        have hs' : Sound files blank { st with parsed := name :: st.parsed } := hs
        obtain ⟨h1, h2⟩ := visit_sound ih steps _ blank hs'
        rcases hr : visit (getComponent files blank limit) steps { st with parsed := name :: st.parsed } blank with ⟨st', r⟩
        rw [hr] at h1 h2
        cases r with
        | error e => simp only [hr]; exact ⟨h1, fun c h => by cases h⟩
        | ok c =>
          simp only [hr]
          have hc : Defines files blank name c := ⟨steps, hf, h2 c rfl⟩
          refine ⟨fun m d hm => ?_, fun d h => by cases h; exact hc⟩
          rw [lookup_append_single] at hm
          cases hq : st'.components.lookup m with
          | some d' => rw [hq] at hm; cases hm; exact h1 _ _ hq
          | none =>
            rw [hq] at hm
            simp only [] at hm
            split_ifs at hm with he
            cases hm
            exact he ▸ hc

/-! ### Reading returns -/

theorem definesFrom_unique {files : Files C} {blank : C} {steps : List (Step C)} {c d : C}
    (h : DefinesFrom files blank steps c d) : ∀ d', DefinesFrom files blank steps c d' → d = d' := by
  induction h with
  | nil =>
    intro d' h'
    cases h'
    rfl
  | own hf hs ih =>
    intro d' h'
    cases h' with
    | own hf' hs' =>
      rw [hf] at hf'
      cases hf'
      exact ih _ hs'
  | copy hn he hf hs ihe ih =>
    intro d' h'
    cases h' with
    | copy hn' he' hf' hs' =>
      rw [hn] at hn'
      cases hn'
      cases ihe _ he'
      rw [hf] at hf'
      cases hf'
      exact ih _ hs'

theorem defines_unique {files : Files C} {blank : C} {name : String} {c c' : C} (h : Defines files blank name c)
    (h' : Defines files blank name c') : c = c' := by
  obtain ⟨steps, hf, hs⟩ := h
  obtain ⟨steps', hf', hs'⟩ := h'
  rw [hf] at hf'
  cases hf'
  exact definesFrom_unique hs _ hs'

/-- A component whose file can be visited is got. -/
theorem returns_of_visits {files : Files C} {blank : C} {name : String} {c : C} {steps : List (Step C)} {n : Nat}
    (hf : files name = some steps) (hs : DefinesFrom files blank steps blank c)
    (hn : ∀ limit, n ≤ limit → ∀ st, Sound files blank st →
      (visit (getComponent files blank limit) steps st blank).2 = .ok c) :
    ∀ limit, n + 1 ≤ limit → ∀ st, Sound files blank st → (getComponent files blank limit st name).2 = .ok c := by
  intro limit hlim st hst
  cases limit with
  | zero => omega
  | succ limit =>
    simp only [getComponent]
    cases hl : st.components.lookup name with
    | some d =>
      simp only [Except.ok.injEq]
      exact (defines_unique ⟨steps, hf, hs⟩ (hst _ _ hl)).symm
    | none =>
      have := hn limit (by omega) { st with parsed := name :: st.parsed } hst
      rcases hr : visit (getComponent files blank limit) steps { st with parsed := name :: st.parsed } blank with ⟨st', r⟩
      rw [hr] at this
      cases this
      simp only [hf, hr]

theorem visits_of_defines {files : Files C} {blank : C} {steps : List (Step C)} {c d : C}
    (h : DefinesFrom files blank steps c d) :
    ∃ n, ∀ limit, n ≤ limit → ∀ st, Sound files blank st → (visit (getComponent files blank limit) steps st c).2 = .ok d := by
  induction h with
  | nil => exact ⟨0, fun limit _ st _ => by simp [visit]⟩
  | own hf hs ih =>
    obtain ⟨n, hn⟩ := ih
    exact ⟨n, fun limit hlim st hst => by simp only [visit, hf]; exact hn limit hlim st hst⟩
  | @copy name other f _ _ _ _ e hn he hf hs ihe ih =>
    obtain ⟨n1, h1⟩ := ihe
    have h1 := returns_of_visits hn he h1
    obtain ⟨n2, h2⟩ := ih
    refine ⟨max (n1 + 1) n2, fun limit hlim st hst => ?_⟩
    have := h1 limit (by omega) st hst
    have hs1 := (read_is_defined files blank limit st name hst).1
    rcases hr : getComponent files blank limit st name with ⟨st', r⟩
    rw [hr] at this hs1
    cases this
    simp only [visit, hr, hf]
    exact h2 limit (by omega) st' hs1

theorem returns_of_defines {files : Files C} {blank : C} {name : String} {c : C} (h : Defines files blank name c) :
    ∃ n, ∀ limit, n ≤ limit → ∀ st, Sound files blank st → (getComponent files blank limit st name).2 = .ok c := by
  obtain ⟨steps, hf, hs⟩ := h
  obtain ⟨n, hn⟩ := visits_of_defines hs
  exact ⟨n + 1, returns_of_visits hf hs hn⟩

/-- C98: a reader that may nest calls deep enough returns a component iff the files define it, whatever it has read before. -/
theorem read_iff_defined (files : Files C) (blank : C) (st : State C) (hst : Sound files blank st) (name : String) (c : C) :
    (∃ limit, (getComponent files blank limit st name).2 = .ok c) ↔ Defines files blank name c := by
  constructor
  · rintro ⟨limit, h⟩
    exact (read_is_defined files blank limit st name hst).2 c h
  · intro h
    obtain ⟨n, hn⟩ := returns_of_defines h
    exact ⟨n, hn n le_rfl st hst⟩

/-! ### Files that COPY each other -/

/-- The names that a definition copies from. -/
def copies : List (Step C) → List String
  | [] => []
  | .own _ :: steps => copies steps
  | .copy name _ :: steps => name :: copies steps

/-- The file of `a` has a COPY of `b`. -/
def Calls (files : Files C) (a b : String) : Prop := ∃ steps, files a = some steps ∧ b ∈ copies steps

theorem acc_of_definesFrom {files : Files C} {blank : C} {steps : List (Step C)} {c d : C}
    (h : DefinesFrom files blank steps c d) : ∀ m ∈ copies steps, Acc (fun a b => Calls files b a) m := by
  induction h with
  | nil => exact fun m hm => by simp [copies] at hm
  | own hf hs ih => exact fun m hm => ih m hm
  | @copy name other f _ _ _ _ e hn he hf hs ihe ih =>
    intro m hm
    rcases List.mem_cons.1 hm with rfl | hm
    · refine ⟨_, fun k hk => ?_⟩
      obtain ⟨steps', hf', hk⟩ := hk
      rw [hn] at hf'
      cases hf'
      exact ihe k hk
    · exact ih m hm

theorem acc_of_defines {files : Files C} {blank : C} {name : String} {c : C} (h : Defines files blank name c) :
    Acc (fun a b => Calls files b a) name := by
  obtain ⟨steps, hf, hs⟩ := h
  refine ⟨_, fun m hm => ?_⟩
  obtain ⟨steps', hf', hm⟩ := hm
  rw [hf] at hf'
  cases hf'
  exact acc_of_definesFrom hs m hm

open Relation

theorem no_cycle_of_acc {files : Files C} {name : String} (h : Acc (fun a b => Calls files b a) name) :
    ¬TransGen (Calls files) name name := by
  intro hc
  rw [← transGen_swap] at hc
  have h' : Acc (TransGen (Function.swap (Calls files))) name := h.transGen
  induction h' with
  | intro x _ ih => exact ih x hc h hc

/-- From a component that is defined no cycle of COPY can be reached. -/
theorem no_cycle_of_defines {files : Files C} {blank : C} {name m : String} {c : C} (h : Defines files blank name c)
    (hm : ReflTransGen (Calls files) name m) : ¬TransGen (Calls files) m m := by
  have : Acc (fun a b => Calls files b a) m := by
    induction hm with
    | refl => exact acc_of_defines h
    | tail _ hk ih => exact ih.inv hk
  exact no_cycle_of_acc this

/-- No part of a definition raises, and the files copied from exist. -/
def Fine (files : Files C) : Prop :=
  ∀ name steps, files name = some steps → ∀ s ∈ steps,
    (∀ f, s = .own f → ∀ c, f c ≠ none) ∧ ∀ m f, s = .copy m f → files m ≠ none ∧ ∀ c d, f c d ≠ none

theorem visit_only_recursion {files : Files C} {get : State C → String → State C × Except Err C}
    (hg : ∀ st m, files m ≠ none → ∀ e, (get st m).2 = .error e → e = .recursion) (steps : List (Step C))
    (hs : ∀ s ∈ steps, (∀ f, s = .own f → ∀ c, f c ≠ none) ∧ ∀ m f, s = .copy m f → files m ≠ none ∧ ∀ c d, f c d ≠ none) :
    ∀ (st : State C) (c : C) (e : Err), (visit get steps st c).2 = .error e → e = .recursion := by
  induction steps with
  | nil => exact fun st c e h => by simp [visit] at h
  | cons s steps ih =>
    have ih := ih fun s hs' => hs s (List.mem_cons_of_mem _ hs')
    have h0 := hs s (by simp)
    intro st c e h
    cases s with
    | own f =>
      simp only [visit] at h
      cases hf : f c with
      | none => exact absurd hf (h0.1 f rfl c)
      | some c' => rw [hf] at h; exact ih _ _ _ h
    | copy m f =>
      obtain ⟨h1, h2⟩ := h0.2 m f rfl
      simp only [visit] at h
      have hgm := hg st m h1
      rcases hr : get st m with ⟨st', r⟩
      rw [hr] at h hgm
      cases r with
      | error e' =>
        cases h
        exact hgm _ rfl
      | ok d =>
        simp only [] at h
        cases hf : f c d with
        | none => exact absurd hf (h2 c d)
        | some c' => rw [hf] at h; exact ih _ _ _ h

theorem only_recursion {files : Files C} (blank : C) (hfine : Fine files) (limit : Nat) : ∀ (st : State C) (name : String),
    files name ≠ none → ∀ e, (getComponent files blank limit st name).2 = .error e → e = .recursion := by
  induction limit with
  | zero =>
    intro st name _ e h
    simp only [getComponent] at h
    cases h
    rfl
  | succ limit ih =>
    intro st name hn e h
    simp only [getComponent] at h
    cases hl : st.components.lookup name with
    | some c => rw [hl] at h; cases h
    | none =>
      cases hf : files name with
      | none => exact absurd hf hn
      | some steps =>
        simp only [hl, hf] at h
        have := visit_only_recursion ih steps (hfine name steps hf) { st with parsed := name :: st.parsed } blank
        rcases hr : visit (getComponent files blank limit) steps { st with parsed := name :: st.parsed } blank with ⟨st', r⟩
        rw [hr] at h this
        cases r with
        | error e' => cases h; exact this _ rfl
        | ok c => cases h

/-- C98 does not hold for components from which a cycle of COPY can be reached, such as one that copies a part of itself: the reader does
not see the cycle and calls itself until Python's limit stops it, whatever the limit. -/
theorem cycle_exhausts_limit (files : Files C) (blank : C) (hfine : Fine files) (st : State C) (hst : Sound files blank st)
    (name m : String) (hn : files name ≠ none) (hm : ReflTransGen (Calls files) name m) (hc : TransGen (Calls files) m m)
    (limit : Nat) : (getComponent files blank limit st name).2 = .error .recursion := by
  cases h : (getComponent files blank limit st name).2 with
  | error e => rw [only_recursion blank hfine limit st name hn e h]
  | ok c => exact absurd hc (no_cycle_of_defines ((read_is_defined files blank limit st name hst).2 c h) hm)

theorem defines_of_copies {files : Files C} {blank : C} (steps : List (Step C))
    (hs : ∀ s ∈ steps, (∀ f, s = .own f → ∀ c, f c ≠ none) ∧ ∀ m f, s = .copy m f → files m ≠ none ∧ ∀ c d, f c d ≠ none)
    (hd : ∀ m ∈ copies steps, ∃ c, Defines files blank m c) : ∀ c, ∃ d, DefinesFrom files blank steps c d := by
  induction steps with
  | nil => exact fun c => ⟨c, .nil c⟩
  | cons s steps ih =>
    have ih := fun h => ih (fun s hs' => hs s (List.mem_cons_of_mem _ hs')) h
    have h0 := hs s (by simp)
    intro c
    cases s with
    | own f =>
      cases hf : f c with
      | none => exact absurd hf (h0.1 f rfl c)
      | some c' =>
        obtain ⟨d, hd⟩ := ih hd c'
        exact ⟨d, .own hf hd⟩
    | copy m f =>
      obtain ⟨e, other, hn, he⟩ := hd m (by simp [copies])
      cases hf : f c e with
      | none => exact absurd hf ((h0.2 m f rfl).2 c e)
      | some c' =>
        obtain ⟨d, hd⟩ := ih (fun k hk => hd k (by simp [copies, hk])) c'
        exact ⟨d, .copy hn he hf hd⟩

theorem mem_copies {steps : List (Step C)} {m : String} (h : m ∈ copies steps) : ∃ f, Step.copy m f ∈ steps := by
  induction steps with
  | nil => simp [copies] at h
  | cons s steps ih =>
    cases s with
    | own f =>
      obtain ⟨g, hg⟩ := ih h
      exact ⟨g, List.mem_cons_of_mem _ hg⟩
    | copy k f =>
      rcases List.mem_cons.1 h with rfl | h
      · exact ⟨f, by simp⟩
      · obtain ⟨g, hg⟩ := ih h
        exact ⟨g, List.mem_cons_of_mem _ hg⟩

/-- C98: with definitions whose parts raise nothing, in finitely many files, a component is returned iff no cycle of COPY can be reached
from it. -/
theorem returned_iff_no_cycle (files : Files C) (blank : C) (hfine : Fine files) (names : List String)
    (hfin : ∀ m, files m ≠ none → m ∈ names) (st : State C) (hst : Sound files blank st) (name : String) (hn : files name ≠ none) :
    (∃ limit c, (getComponent files blank limit st name).2 = .ok c) ↔
      ¬∃ m, ReflTransGen (Calls files) name m ∧ TransGen (Calls files) m m := by
  constructor
  · rintro ⟨limit, c, h⟩ ⟨m, hm, hc⟩
    rw [cycle_exhausts_limit files blank hfine st hst name m hn hm hc limit] at h
    cases h
  · intro hno
    push Not at hno
    have hex : ∀ m, ReflTransGen (Calls files) name m → files m ≠ none := by
      intro m hm
      cases hm with
      | refl => exact hn
      | tail _ hk =>
        obtain ⟨steps, hf, hk⟩ := hk
        obtain ⟨f, hf'⟩ := mem_copies hk
        exact ((hfine _ steps hf _ hf').2 m f rfl).1
    let S := {m : String // ReflTransGen (Calls files) name m}
    have : Finite S := Finite.of_injective (β := {m : String // m ∈ names}) (fun m => ⟨m.1, hfin _ (hex _ m.2)⟩) (by
      intro a b hab
      simp only [Subtype.mk.injEq] at hab
      exact Subtype.ext hab)
    let r : S → S → Prop := fun a b => TransGen (Calls files) b.1 a.1
    have : IsTrans S r := ⟨fun a b c h1 h2 => TransGen.trans h2 h1⟩
    have : Std.Irrefl r := ⟨fun a h => hno a.1 a.2 h⟩
    have wf : WellFounded r := Finite.wellFounded_of_trans_of_irrefl r
    have key : ∀ a : S, ∃ c, Defines files blank a.1 c := by
      intro a
      induction a using wf.induction with
      | _ a ih =>
        cases hf : files a.1 with
        | none => exact absurd hf (hex _ a.2)
        | some steps =>
          obtain ⟨d, hd⟩ := defines_of_copies (blank := blank) steps (hfine _ steps hf) (fun m hm =>
            ih ⟨m, a.2.tail ⟨steps, hf, hm⟩⟩ (.single ⟨steps, hf, hm⟩)) blank
          exact ⟨d, steps, hf, hd⟩
    obtain ⟨c, hc⟩ := key ⟨name, .refl⟩
    obtain ⟨n, h⟩ := returns_of_defines hc
    exact ⟨n, c, h n le_rfl st hst⟩

/-! ### Each file once -/

/-- What became of a reader: files were parsed, each once, which it did not know before and knows now. -/
def ParsedOnce (st st' : State C) (new : List String) : Prop :=
  st'.parsed = new ++ st.parsed ∧ new.Nodup ∧
    (∀ m ∈ new, st.components.lookup m = none ∧ (st'.components.lookup m).isSome = true) ∧
    ∀ m c, st.components.lookup m = some c → st'.components.lookup m = some c

theorem ParsedOnce.trans {st st' st'' : State C} {new new' : List String} (h : ParsedOnce st st' new)
    (h' : ParsedOnce st' st'' new') : ParsedOnce st st'' (new' ++ new) := by
  obtain ⟨p, n, k, l⟩ := h
  obtain ⟨p', n', k', l'⟩ := h'
  refine ⟨by rw [p', p, List.append_assoc], ?_, ?_, fun m c hm => l' _ _ (l _ _ hm)⟩
  · refine List.nodup_append.2 ⟨n', n, fun a ha b hb hab => ?_⟩
    subst hab
    have h1 := (k' a ha).1
    have h2 := (k a hb).2
    rw [h1] at h2
    cases h2
  · intro m hm
    rcases List.mem_append.1 hm with hm | hm
    · refine ⟨?_, (k' m hm).2⟩
      cases hq : st.components.lookup m with
      | none => rfl
      | some c => exact absurd (k' m hm).1 (by rw [l _ _ hq]; simp)
    · refine ⟨(k m hm).1, ?_⟩
      obtain ⟨c, hc⟩ := Option.isSome_iff_exists.1 (k m hm).2
      rw [l' _ _ hc]
      rfl

theorem visit_parsed_once {files : Files C} {blank : C} {get : State C → String → State C × Except Err C}
    (hsound : ∀ st m, Sound files blank st → Sound files blank (get st m).1)
    (hg : ∀ st m, Sound files blank st → ∀ st' c, get st m = (st', .ok c) →
      ∃ new, ParsedOnce st st' new ∧ ∀ k ∈ new, ReflTransGen (Calls files) m k) (steps : List (Step C)) :
    ∀ (st : State C) (c : C) (st' : State C) (d : C), Sound files blank st → visit get steps st c = (st', .ok d) →
      ∃ new, ParsedOnce st st' new ∧ ∀ k ∈ new, ∃ m ∈ copies steps, ReflTransGen (Calls files) m k := by
  induction steps with
  | nil =>
    intro st c st' d _ h
    cases h
    exact ⟨[], ⟨rfl, List.nodup_nil, by simp, fun _ _ h => h⟩, by simp⟩
  | cons s steps ih =>
    intro st c st' d hst h
    cases s with
    | own f =>
      simp only [visit] at h
      cases hf : f c with
      | none => rw [hf] at h; cases h
      | some c' => rw [hf] at h; exact ih _ _ _ _ hst h
    | copy m f =>
      simp only [visit] at h
      have h1 := hsound st m hst
      have h2 := hg st m hst
      rcases hr : get st m with ⟨st1, r⟩
      rw [hr] at h h1 h2
      cases r with
      | error e => cases h
      | ok e =>
        simp only [] at h
        cases hf : f c e with
        | none => rw [hf] at h; cases h
        | some c' =>
          rw [hf] at h
          obtain ⟨new, hp, hk⟩ := h2 st1 e rfl
          obtain ⟨new', hp', hk'⟩ := ih _ _ _ _ h1 h
          refine ⟨new' ++ new, hp.trans hp', fun k hk0 => ?_⟩
          rcases List.mem_append.1 hk0 with hk0 | hk0
          · obtain ⟨m', hm', hr'⟩ := hk' k hk0
            exact ⟨m', List.mem_cons_of_mem _ hm', hr'⟩
          · exact ⟨m, by simp [copies], hk k hk0⟩

theorem parsed_once_reach (files : Files C) (blank : C) (limit : Nat) : ∀ (st : State C) (name : String), Sound files blank st →
    ∀ st' c, getComponent files blank limit st name = (st', .ok c) →
      ∃ new, ParsedOnce st st' new ∧ ∀ k ∈ new, ReflTransGen (Calls files) name k := by
  induction limit with
  | zero => exact fun st name _ st' c h => by simp [getComponent] at h
  | succ limit ih =>
    intro st name hst st' c h
    have hdef : Defines files blank name c := (read_is_defined files blank (limit + 1) st name hst).2 c (by rw [h])
    simp only [getComponent] at h
    cases hl : st.components.lookup name with
    | some d =>
      rw [hl] at h
      cases h
      exact ⟨[], ⟨rfl, List.nodup_nil, by simp, fun _ _ h => h⟩, by simp⟩
    | none =>
      cases hf : files name with
      | none => simp only [hl, hf] at h; cases h
      | some steps =>
        simp only [hl, hf] at h
        rcases hr : visit (getComponent files blank limit) steps { st with parsed := name :: st.parsed } blank with ⟨st1, r⟩
        rw [hr] at h
        cases r with
        | error e => cases h
        | ok d =>
          cases h
          obtain ⟨new, ⟨hp, hnd, hk, hkeep⟩, hreach⟩ := visit_parsed_once
            (fun st m hs => (read_is_defined files blank limit st m hs).1) ih steps { st with parsed := name :: st.parsed } blank st1 c hst hr
          have hcalls : ∀ k ∈ new, TransGen (Calls files) name k := by
            intro k hk0
            obtain ⟨m, hm, hmk⟩ := hreach k hk0
            exact TransGen.head' ⟨steps, hf, hm⟩ hmk
          have hnot : name ∉ new := fun hin => no_cycle_of_defines hdef .refl (hcalls name hin)
          have hlk : ∀ m, (List.lookup m (st1.components ++ [(name, c)])) = match st1.components.lookup m with
              | some d => some d
              | none => if m = name then some c else none := fun m => lookup_append_single _ _ _ _
          refine ⟨new ++ [name], ⟨?_, ?_, ?_, ?_⟩, ?_⟩
          · simp [hp]
          · exact List.nodup_append.2 ⟨hnd, by simp, fun a ha b hb hab => by
              rw [List.mem_singleton] at hb
              subst hab hb
              exact hnot ha⟩
          · intro m hm
            rcases List.mem_append.1 hm with hm | hm
            · refine ⟨(hk m hm).1, ?_⟩
              obtain ⟨e, he⟩ := Option.isSome_iff_exists.1 (hk m hm).2
              simp only [hlk, he]
              rfl
            · rw [List.mem_singleton] at hm
              subst hm
              refine ⟨hl, ?_⟩
              simp only [hlk]
              cases st1.components.lookup m <;> simp
          · intro m e hm
            simp only [hlk, hkeep m e hm]
          · intro k hk0
            rcases List.mem_append.1 hk0 with hk0 | hk0
            · exact (hcalls k hk0).to_reflTransGen
            · rw [List.mem_singleton] at hk0
              subst hk0
              exact .refl

/-- C98: a call that returns parses files that were not known and are known afterwards, each once, and what was known stays as it
was. So no file is parsed again by any later call. -/
theorem each_file_once (files : Files C) (blank : C) (limit : Nat) (st st' : State C) (name : String) (c : C)
    (hst : Sound files blank st) (h : getComponent files blank limit st name = (st', .ok c)) :
    ∃ new : List String, st'.parsed = new ++ st.parsed ∧ new.Nodup ∧
      (∀ m ∈ new, st.components.lookup m = none ∧ (st'.components.lookup m).isSome = true) ∧
      ∀ m c, st.components.lookup m = some c → st'.components.lookup m = some c := by
  obtain ⟨new, h, _⟩ := parsed_once_reach files blank limit st name hst st' c h
  exact ⟨new, h⟩

/-- The example: a component is a list of blocks; `A` has a block of its own and all of `B`, `B` is one block, and `L` copies itself. -/
def someFiles : Files (List Nat)
  | "A" => some [.copy "B" fun _ d => some d, .own fun c => some (c ++ [1])]
  | "B" => some [.own fun c => some (c ++ [2])]
  | "L" => some [.copy "L" fun _ d => some d]
  | _ => none

example : (getComponent someFiles [] 3 ⟨[], []⟩ "A").2 = .ok [2, 1] ∧
    (getComponent someFiles [] 3 ⟨[], []⟩ "A").1.parsed = ["B", "A"] ∧
    (getComponent someFiles [] 3 (getComponent someFiles [] 3 ⟨[], []⟩ "B").1 "A").1.parsed = ["A", "B"] := ⟨rfl, rfl, rfl⟩

/-- The hypotheses of `cycle_exhausts_limit` and `returned_iff_no_cycle` are met. -/
example : Fine someFiles ∧ Sound someFiles [] ⟨[], []⟩ ∧ someFiles "L" ≠ none ∧ ReflTransGen (Calls someFiles) "L" "L" ∧
    TransGen (Calls someFiles) "L" "L" ∧ ∀ m, someFiles m ≠ none → m ∈ ["A", "B", "L"] := by
  refine ⟨?_, fun _ _ h => by simp at h, by simp [someFiles], .refl, .single ⟨_, rfl, by simp [copies]⟩, ?_⟩
  · intro name steps h s hs
    simp only [someFiles] at h
    split at h <;> cases h
    all_goals
      simp only [List.mem_cons, List.not_mem_nil, or_false] at hs
      rcases hs with rfl | rfl <;> refine ⟨fun f h => ?_, fun m f h => ?_⟩ <;> cases h <;>
        first
        | exact fun c => by simp
        | exact ⟨by simp [someFiles], fun _ _ => by simp⟩
  · intro m h
    simp only [someFiles] at h
    split at h <;> simp_all

end Verif.Reading
