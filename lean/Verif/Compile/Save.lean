import Mathlib.Data.List.Basic
import Mathlib.Data.List.Infix

/-!
C117: the program a translator gives is whole. Model of `TargetVisitor.translate`, `save` and `contents`
(src/mccode_antlr/translators/target.py 140-199) and of `instrument_source` (src/mccode_antlr/compiler/c.py 85-91), which calls `contents` of a new
translator.

A part of the translation (`visit_header`, ..., `visit_flags`) is a function of the instrument `W`: what it prints, the instrument it leaves
(`set_jump_absolute_targets` changes it) and the exception it raises, if any. What the parts print is the subject of other properties.
A stream that was closed is never used again by this code, so the stream is its text. Not modelled: the messages; failures of the file system.
-/

namespace Verif.Save

/-- What a part does: the text printed, the instrument afterwards, the exception. -/
structure Done (W E : Type) where
  text : List Char
  world : W
  raised : Option E

abbrev Part (W E : Type) := W → Done W E

/-- The translator: its instrument and `self.output`. -/
structure Visitor (W : Type) where
  source : W
  output : Option (List Char)
  deriving DecidableEq, Repr

variable {W E : Type}

/-- The parts, one after another (146-177), from the text printed so far. -/
def visit : List (Part W E) → W → List Char → Done W E
  | [], w, out => ⟨out, w, none⟩
  | p :: ps, w, out =>
    match (p w).raised with
    | some e => ⟨out ++ (p w).text, (p w).world, some e⟩
    | none => visit ps (p w).world (out ++ (p w).text)

/-- `translate` (140-180): the translator afterwards, and the text of the stream returned. -/
def translate (parts : List (Part W E)) (reprocess : Bool) (v : Visitor W) : Visitor W × Except E (List Char) :=
  match v.output, reprocess with
  | some t, false => (v, .ok t)
  | _, _ =>
    let d := visit parts v.source []
    (⟨d.world, some d.text⟩, match d.raised with | some e => .error e | none => .ok d.text)

/-- `save` (182-189); what is written, if there is a file name. -/
def save (parts : List (Part W E)) (file close reprocess : Bool) (v : Visitor W) : Visitor W × Except E (Option (List Char)) :=
  match translate parts reprocess v with
  | (v, .error e) => (v, .error e)
  | (v, .ok _) =>
    (if close then { v with output := none } else v, .ok (if file then some (v.output.getD []) else none))

/-- `contents` (191-199). -/
def contents (parts : List (Part W E)) (v : Visitor W) : Visitor W × Except E (List Char) :=
  match v.output with
  | some t => (v, .ok t)
  | none =>
    match translate parts false v with
    | (v, .error e) => (v, .error e)
    | (v, .ok t) => ({ v with output := none }, .ok t)

/-- `instrument_source` (compiler/c.py 85-91): the contents of a new translator. -/
def instrumentSource (parts : List (Part W E)) (w : W) : Except E (List Char) := (contents parts ⟨w, none⟩).2

/-! ### The whole program -/

/-- `t` is the whole program of `w`: every part was run, none raised, and `t` is all they printed, in order. -/
inductive Whole : List (Part W E) → W → List Char → Prop
  | nil (w : W) : Whole [] w []
  | cons {p : Part W E} {ps : List (Part W E)} {w : W} {t : List Char} (h : (p w).raised = none) (ht : Whole ps (p w).world t) :
    Whole (p :: ps) w ((p w).text ++ t)

theorem visit_whole : ∀ (ps : List (Part W E)) (w : W) (out t : List Char),
    ((visit ps w out).raised = none ∧ (visit ps w out).text = out ++ t) ↔ Whole ps w t
  | [], w, out, t => by
    constructor
    · rintro ⟨-, h⟩
      simp only [visit] at h
      rw [List.self_eq_append_right] at h
      rw [h]
      exact .nil w
    · intro h
      cases h
      simp [visit]
  | p :: ps, w, out, t => by
    rw [visit]
    cases hr : (p w).raised with
    | some e =>
      simp only [reduceCtorEq, false_and, false_iff]
      intro h
      cases h with
      | cons h _ => rw [hr] at h; cases h
    | none =>
      constructor
      · intro h
        have hp : ∃ u, (visit ps (p w).world (out ++ (p w).text)).text = out ++ (p w).text ++ u := by
          clear h
          generalize out ++ (p w).text = o
          generalize (p w).world = w'
          induction ps generalizing w' o with
          | nil => exact ⟨[], by simp [visit]⟩
          | cons q qs ih =>
            rw [visit]
            cases (q w').raised with
            | some e => exact ⟨_, rfl⟩
            | none =>
              obtain ⟨u, hu⟩ := ih (o ++ (q w').text) (q w').world
              exact ⟨(q w').text ++ u, by simpa [List.append_assoc] using hu⟩
        obtain ⟨u, hu⟩ := hp
        have ht : t = (p w).text ++ u := by
          have h2 := h.2
          rw [hu, List.append_assoc, List.append_cancel_left_eq] at h2
          exact h2.symm
        rw [ht]
        exact .cons hr ((visit_whole ps _ _ u).mp ⟨h.1, hu⟩)
      · intro h
        cases h with
        | cons _ ht =>
          have := (visit_whole ps (p w).world (out ++ (p w).text) _).mpr ht
          simpa [List.append_assoc] using this

theorem whole_unique {ps : List (Part W E)} {w : W} {t u : List Char} (h : Whole ps w t) (h' : Whole ps w u) : t = u := by
  have h1 := ((visit_whole ps w [] t).mpr h).2
  have h2 := ((visit_whole ps w [] u).mpr h').2
  rw [h1] at h2
  simpa using h2

/-! ### C117 -/

/-- C117: the source of an instrument is given exactly if it is the whole program. -/
theorem source_iff (ps : List (Part W E)) (w : W) (t : List Char) : instrumentSource ps w = .ok t ↔ Whole ps w t := by
  rw [← visit_whole ps w [] t]
  simp only [instrumentSource, contents, translate]
  cases h : (visit ps w []).raised <;> simp

/-- C117: what `save` writes is the whole program of the instrument as it is, whatever the translator did before. -/
theorem saved_iff (ps : List (Part W E)) (close : Bool) (v : Visitor W) (t : List Char) :
    (save ps true close true v).2 = .ok (some t) ↔ Whole ps v.source t := by
  rw [← visit_whole ps v.source [] t]
  rcases v with ⟨w, o⟩
  cases o <;> simp only [save, translate] <;> cases h : (visit ps w []).raised <;> simp

/-- C117: if some part raises, `save` writes no file. -/
theorem nothing_saved (ps : List (Part W E)) (file close : Bool) (v : Visitor W) (h : ∀ t, ¬ Whole ps v.source t) :
    ∃ e, (save ps file close true v).2 = .error e := by
  have hn : (visit ps v.source []).raised ≠ none := by
    intro hr
    exact h _ ((visit_whole ps v.source [] (visit ps v.source []).text).mp ⟨hr, by simp⟩)
  obtain ⟨e, he⟩ := Option.ne_none_iff_exists'.mp hn
  rcases v with ⟨w, o⟩
  refine ⟨e, ?_⟩
  cases o <;> simp only [save, translate] <;> rw [he]

/-- What a user may do with a translator, and with its instrument between calls. -/
inductive Op (W : Type)
  | translate (reprocess : Bool)
  | save (file close reprocess : Bool)
  | contents
  | change (w : W)

def step (ps : List (Part W E)) (v : Visitor W) : Op W → Visitor W
  | .translate r => (translate ps r v).1
  | .save f c r => (save ps f c r v).1
  | .contents => (contents ps v).1
  | .change w => { v with source := w }

theorem translate_output (ps : List (Part W E)) (r : Bool) (v : Visitor W) (hne : ∀ w, ∃ t, Whole ps w t)
    (hv : ∀ t, v.output = some t → ∃ w, Whole ps w t) :
    (∀ t, (translate ps r v).1.output = some t → ∃ w, Whole ps w t) ∧
      ∃ t, (translate ps r v).1.output = some t ∧ (translate ps r v).2 = .ok t := by
  have key : ∃ t, (visit ps v.source []).raised = none ∧ (visit ps v.source []).text = t ∧ Whole ps v.source t := by
    obtain ⟨t, ht⟩ := hne v.source
    have := (visit_whole ps v.source [] t).mpr ht
    exact ⟨t, this.1, by simpa using this.2, ht⟩
  obtain ⟨t, h1, h2, h3⟩ := key
  rcases v with ⟨w, o⟩
  cases o with
  | none =>
    simp only [translate] at *
    rw [h1, h2]
    exact ⟨fun u hu => ⟨w, by cases hu; exact h3⟩, t, rfl, rfl⟩
  | some u =>
    cases r with
    | false => exact ⟨hv, u, rfl, rfl⟩
    | true =>
      simp only [translate] at *
      rw [h1, h2]
      exact ⟨fun u hu => ⟨w, by cases hu; exact h3⟩, t, rfl, rfl⟩

/-- C117: whatever was done with a translator before, if no part raises for any instrument then `contents` gives the whole program of the
instrument it has, or had when it was last translated. -/
theorem contents_partial (ps : List (Part W E)) (hne : ∀ w, ∃ t, Whole ps w t) (w : W) (ops : List (Op W)) :
    ∃ t w', (contents ps (ops.foldl (step ps) ⟨w, none⟩)).2 = .ok t ∧ Whole ps w' t := by
  have inv : ∀ (ops : List (Op W)) (v : Visitor W), (∀ t, v.output = some t → ∃ w, Whole ps w t) →
      ∀ t, (ops.foldl (step ps) v).output = some t → ∃ w, Whole ps w t := by
    intro ops
    induction ops with
    | nil => exact fun v hv => hv
    | cons op ops ih =>
      intro v hv
      rw [List.foldl_cons]
      refine ih _ ?_
      cases op with
      | translate r => exact (translate_output ps r v hne hv).1
      | change w => exact hv
      | contents =>
        intro t ht
        simp only [step, contents] at ht
        cases ho : v.output with
        | some u => rw [ho] at ht; exact hv t (by simpa [ho] using ht)
        | none =>
          obtain ⟨u, hu1, hu2⟩ := (translate_output ps false v hne hv).2
          rw [ho] at ht
          rcases hv' : translate ps false v with ⟨v', r'⟩
          rw [hv'] at hu2
          simp only at hu2
          subst hu2
          rw [hv'] at ht
          simp at ht
      | save f c r =>
        intro t ht
        obtain ⟨hall, u, hu1, hu2⟩ := translate_output ps r v hne hv
        simp only [step, save] at ht
        rcases hv' : translate ps r v with ⟨v', r'⟩
        rw [hv'] at hu2 ht hall
        simp only at hu2
        subst hu2
        cases c
        · exact hall t (by simpa using ht)
        · simp at ht
  have hinv := inv ops ⟨w, none⟩ (by simp)
  generalize ops.foldl (step ps) ⟨w, none⟩ = v at hinv
  cases ho : v.output with
  | some t =>
    obtain ⟨w', hw⟩ := hinv t ho
    exact ⟨t, w', by simp [contents, ho], hw⟩
  | none =>
    obtain ⟨t, ht⟩ := hne v.source
    refine ⟨t, v.source, ?_, ht⟩
    rcases v with ⟨w', o⟩
    subst ho
    exact (source_iff ps w' t).mpr ht

/-- C117: after a translation that failed, `contents` does not fail: it gives what had been printed until then. -/
theorem contents_after_failure (ps qs : List (Part W E)) (p : Part W E) (w : W) (t : List Char) (e : E)
    (hw : Whole ps w t) (hp : ∀ w', (p w').raised = some e) (r : Bool) :
    (translate (ps ++ p :: qs) r ⟨w, none⟩).2 = .error e ∧
      ∃ u, (contents (ps ++ p :: qs) (translate (ps ++ p :: qs) r ⟨w, none⟩).1).2 = .ok (t ++ u) ∧ ¬ Whole (ps ++ p :: qs) w (t ++ u) := by
  have key : ∀ (ps : List (Part W E)) (w : W) (out t : List Char), Whole ps w t →
      (visit (ps ++ p :: qs) w out).raised = some e ∧ ∃ u, (visit (ps ++ p :: qs) w out).text = out ++ t ++ u := by
    intro ps
    induction ps with
    | nil =>
      intro w out t ht
      cases ht
      simp only [List.nil_append, visit, hp]
      exact ⟨trivial, (p w).text, by simp⟩
    | cons q ps ih =>
      intro w out t ht
      cases ht with
      | cons h ht =>
        simp only [List.cons_append, visit, h]
        obtain ⟨h1, u, h2⟩ := ih _ (out ++ (q w).text) _ ht
        exact ⟨h1, u, by simpa [List.append_assoc] using h2⟩
  obtain ⟨h1, u, h2⟩ := key ps w [] t hw
  refine ⟨by cases r <;> simp only [translate, h1], u, ?_, fun hn => ?_⟩
  · cases r <;> simpa [translate, contents] using h2
  · have := ((visit_whole _ w [] _).mpr hn).1
    rw [h1] at this
    cases this

/-- C117: `contents` of a translator that keeps its output is not that of an instrument changed since. -/
theorem contents_stale (ps : List (Part W E)) (w w' : W) (t : List Char) (h : Whole ps w t) :
    (contents ps (step ps (step ps ⟨w, none⟩ (.save false false true)) (.change w'))).2 = .ok t := by
  have := (visit_whole ps w [] t).mpr h
  simp only [step, save, translate, this.1]
  simpa [contents] using this.2

theorem visit_world : ∀ (ps : List (Part W E)) (w : W) (out t : List Char), Whole ps w t →
    (visit ps w out).world = ps.foldl (fun w p => (p w).world) w
  | [], w, out, t, _ => rfl
  | p :: ps, w, out, t, h => by
    cases h with
    | cons hr ht =>
      rw [visit, hr, List.foldl_cons]
      exact visit_world ps _ _ _ ht

/-- C117: the instrument a translation leaves has all changes its parts made, one after another. -/
theorem translated_instrument (ps : List (Part W E)) (w : W) (o : Option (List Char)) (t : List Char) (h : Whole ps w t) :
    (translate ps true ⟨w, o⟩).1.source = ps.foldl (fun w p => (p w).world) w := by
  have := visit_world ps w [] t h
  cases o <;> simpa [translate] using this

/-- C117: a translator of which only `contents` and `save` are used (without `close=False`) gives the program of the instrument as it is, if no
part raises. -/
theorem contents_current (ps : List (Part W E)) (hne : ∀ w, ∃ t, Whole ps w t) (w : W) (ops : List (Op W))
    (ho : ∀ o ∈ ops, o = .contents ∨ (∃ f r, o = .save f true r) ∨ ∃ w', o = .change w') :
    ∃ t, (contents ps (ops.foldl (step ps) ⟨w, none⟩)).2 = .ok t ∧ Whole ps (ops.foldl (step ps) ⟨w, none⟩).source t := by
  have inv : ∀ (ops : List (Op W)) (v : Visitor W), v.output = none →
      (∀ o ∈ ops, o = .contents ∨ (∃ f r, o = .save f true r) ∨ ∃ w', o = .change w') → (ops.foldl (step ps) v).output = none := by
    intro ops
    induction ops with
    | nil => exact fun v hv _ => hv
    | cons op ops ih =>
      intro v hv ho
      rw [List.foldl_cons]
      refine ih _ ?_ fun o h => ho o (List.mem_cons_of_mem _ h)
      have hr : (visit ps v.source []).raised = none := by
        obtain ⟨t, ht⟩ := hne v.source
        exact ((visit_whole ps v.source [] t).mpr ht).1
      rcases v with ⟨w, o⟩
      simp only at hv hr
      subst hv
      rcases ho op List.mem_cons_self with rfl | ⟨f, r, rfl⟩ | ⟨w', rfl⟩
      · simp [step, contents, translate, hr]
      · cases r <;> simp [step, save, translate, hr]
      · rfl
  have h := inv ops ⟨w, none⟩ rfl ho
  generalize ops.foldl (step ps) ⟨w, none⟩ = v at h
  rcases v with ⟨w', o⟩
  simp only at h
  subst h
  obtain ⟨t, ht⟩ := hne w'
  exact ⟨t, (source_iff ps w' t).mpr ht, ht⟩

example : instrumentSource (E := Unit) [fun n : Nat => ⟨['a'], n + 1, none⟩, fun n => ⟨(toString n).toList, n, none⟩] 4 = .ok ['a', '5'] ∧
    Whole (E := Unit) [fun n : Nat => ⟨['a'], n + 1, none⟩, fun n => ⟨(toString n).toList, n, none⟩] 4 ['a', '5'] :=
  ⟨rfl, .cons rfl (.cons rfl (.nil _))⟩

end Verif.Save
