import Mathlib.Data.List.Basic
import Mathlib.Data.List.Nodup
import Mathlib.Data.List.Infix

/-!
C114: reading only the parameters of an instrument (`parse_mccode_instr_parameters`, src/mccode_antlr/loader/loader.py 9-14, with
`InstrParametersVisitor`, src/mccode_antlr/instr/visitor.py 384-436) and reading the instrument (`InstrVisitor`, 27-44, 77-105, 126-159 and
371-377). `V` is what a parameter has besides its name; both visitors read it in the same way (54-75, 402-423).

Not modelled: everything about components but whether PREVIOUS is used as an expression and whether they are REMOVABLE, and the errors made
by the rest. So the reader of instruments here succeeds whenever that of the code does.
-/

namespace Verif.Include.Fast

structure Param (V : Type) where
  name : String
  value : V
  deriving DecidableEq, Repr

/-- What is between TRACE and END. -/
inductive Item
  | comp (previous removable : Bool)
  | «include» (file : String)
  deriving DecidableEq, Repr

structure Source (V : Type) where
  params : List (Param V)
  trace : List Item
  deriving DecidableEq, Repr

inductive Err
  | runtimeError
  | attributeError
  deriving DecidableEq, Repr

variable {V : Type}

/-- `add_parameter` (instr.py 124-128). -/
def addParameter (ignore : Bool) (ps : List (Param V)) (a : Param V) : Except Err (List (Param V)) :=
  if a.name ∉ ps.map Param.name then .ok (ps ++ [a]) else if ignore then .ok ps else .error .runtimeError

def addParameters (ignore : Bool) : List (Param V) → List (Param V) → Except Err (List (Param V))
  | ps, [] => .ok ps
  | ps, a :: l =>
    match addParameter ignore ps a with
    | .error e => .error e
    | .ok ps => addParameters ignore ps l

/-- The items of TRACE, for the parameters and the number of components so far; `dest` is the number of components of the instrument that
includes this one. -/
def items (rec : Option Nat → Source V → Except Err (List (Param V) × Nat)) (file : String → Option (Source V)) (dest : Option Nat) :
    List Item → List (Param V) → Nat → Except Err (List (Param V) × Nat)
  | [], ps, k => .ok (ps, k)
  | .comp previous removable :: l, ps, k =>
    if previous && k = 0 && dest.getD 0 = 0 then .error .runtimeError
    else items rec file dest l ps (if dest.isNone || !removable then k + 1 else k)
  | .include n :: l, ps, k =>
    match file n with
    | none => .error .runtimeError
    | some s =>
      match rec (some k) s with
      | .error e => .error e
      | .ok (qs, m) =>
        match addParameters true ps qs with
        | .error e => .error e
        | .ok ps => items rec file dest l ps (k + m)

/-- `InstrVisitor.visitProg` (27-30): the parameters and the number of components. `fuel` bounds the depth of inclusion. -/
def readInstr (file : String → Option (Source V)) : Nat → Option Nat → Source V → Except Err (List (Param V) × Nat)
  | 0, _, _ => .error .runtimeError
  | fuel + 1, dest, s =>
    match addParameters false [] s.params with
    | .error e => .error e
    | .ok ps => items (readInstr file fuel) file dest s.trace ps 0

/-- `InstrParametersVisitor.visitProg` (389-392): the visitor has no components and no `destination` (425-431), and an included file is only
a token to it. -/
def readParameters (s : Source V) : Except Err (List (Param V)) :=
  match addParameters false [] s.params with
  | .error e => .error e
  | .ok ps => if s.trace.any fun i => match i with | .comp previous _ => previous | .include _ => false then .error .attributeError else .ok ps

/-! ### Lemmas -/

theorem addParameters_strict (ps l qs : List (Param V)) (h : addParameters false ps l = .ok qs) : qs = ps ++ l := by
  induction l generalizing ps with
  | nil => simpa [addParameters] using (Except.ok.inj h).symm
  | cons a l ih =>
    rw [addParameters] at h
    rcases ha : addParameter false ps a with e | ps'
    · rw [ha] at h
      cases h
    · rw [ha] at h
      rw [ih ps' h]
      rw [addParameter] at ha
      by_cases h1 : a.name ∉ ps.map Param.name
      · rw [if_pos h1] at ha
        rw [← Except.ok.inj ha]
        simp
      · rw [if_neg h1] at ha
        cases ha

theorem addParameter_spec (ignore : Bool) (ps qs : List (Param V)) (a : Param V) (h : addParameter ignore ps a = .ok qs) :
    ps <+: qs ∧ ((ps.map Param.name).Nodup → (qs.map Param.name).Nodup) ∧
      ∀ x, x ∈ qs.map Param.name ↔ x ∈ ps.map Param.name ∨ x = a.name := by
  rw [addParameter] at h
  by_cases h1 : a.name ∉ ps.map Param.name
  · rw [if_pos h1] at h
    rw [← Except.ok.inj h]
    refine ⟨List.prefix_append _ _, fun hn => ?_, fun x => ?_⟩
    · rw [List.map_append, List.map_singleton]
      refine List.Nodup.append hn (List.nodup_singleton _) ?_
      intro x hx hx'
      rw [List.mem_singleton] at hx'
      exact h1 (hx' ▸ hx)
    · rw [List.map_append, List.map_singleton, List.mem_append, List.mem_singleton]
  · rw [if_neg h1] at h
    cases ignore with
    | false => cases h
    | true =>
      rw [← Except.ok.inj h]
      exact ⟨List.prefix_rfl, id, fun x => ⟨.inl, fun hx => hx.elim id fun e => e ▸ not_not.1 h1⟩⟩

theorem addParameters_spec (ignore : Bool) (ps l qs : List (Param V)) (h : addParameters ignore ps l = .ok qs) :
    ps <+: qs ∧ ((ps.map Param.name).Nodup → (qs.map Param.name).Nodup) ∧
      ∀ x, x ∈ qs.map Param.name ↔ x ∈ ps.map Param.name ∨ x ∈ l.map Param.name := by
  induction l generalizing ps with
  | nil =>
    rw [addParameters] at h
    rw [← Except.ok.inj h]
    exact ⟨List.prefix_rfl, id, fun x => by simp⟩
  | cons a l ih =>
    rw [addParameters] at h
    rcases ha : addParameter ignore ps a with e | ps'
    · rw [ha] at h
      cases h
    · rw [ha] at h
      obtain ⟨h1, h2, h3⟩ := addParameter_spec ignore ps ps' a ha
      obtain ⟨g1, g2, g3⟩ := ih ps' h
      refine ⟨h1.trans g1, fun hn => g2 (h2 hn), fun x => ?_⟩
      rw [g3, h3, List.map_cons, List.mem_cons, or_assoc]

/-- An instrument is included in another, directly or not. -/
inductive Included (file : String → Option (Source V)) : Source V → Source V → Prop
  | direct {s t : Source V} {n : String} (h : .include n ∈ s.trace) (hn : file n = some t) : Included file s t
  | deeper {s t u : Source V} {n : String} (h : .include n ∈ s.trace) (hn : file n = some t) (hu : Included file t u) : Included file s u

/-- The names a reader of the included instruments finds. -/
def Right (file : String → Option (Source V)) (rec : Option Nat → Source V → Except Err (List (Param V) × Nat)) : Prop :=
  ∀ d s qs m, rec d s = .ok (qs, m) → ∀ x, x ∈ qs.map Param.name ↔
    x ∈ s.params.map Param.name ∨ ∃ t, Included file s t ∧ x ∈ t.params.map Param.name

theorem items_spec (file : String → Option (Source V)) (rec : Option Nat → Source V → Except Err (List (Param V) × Nat)) (hr : Right file rec)
    (dest : Option Nat) (l : List Item) (ps : List (Param V)) (k : Nat) (qs : List (Param V)) (m : Nat)
    (h : items rec file dest l ps k = .ok (qs, m)) :
    ps <+: qs ∧ ((ps.map Param.name).Nodup → (qs.map Param.name).Nodup) ∧
      ∀ x, x ∈ qs.map Param.name ↔ x ∈ ps.map Param.name ∨
        ∃ n s, .include n ∈ l ∧ file n = some s ∧ (x ∈ s.params.map Param.name ∨ ∃ t, Included file s t ∧ x ∈ t.params.map Param.name) := by
  induction l generalizing ps k with
  | nil =>
    rw [items] at h
    obtain ⟨h1, -⟩ := Prod.mk.inj (Except.ok.inj h)
    rw [h1]
    exact ⟨List.prefix_rfl, id, fun x => by simp⟩
  | cons i l ih =>
    cases i with
    | comp p r =>
      rw [items] at h
      split_ifs at h
      all_goals
        obtain ⟨g1, g2, g3⟩ := ih _ _ h
        refine ⟨g1, g2, fun x => ?_⟩
        rw [g3]
        simp
    | «include» n =>
      rw [items] at h
      rcases hf : file n with _ | s
      · simp only [hf] at h
        cases h
      · simp only [hf] at h
        rcases hq : rec (some k) s with e | ⟨q, m'⟩
        · simp only [hq] at h
          cases h
        · simp only [hq] at h
          rcases ha : addParameters true ps q with e | ps'
          · simp only [ha] at h
            cases h
          · simp only [ha] at h
            obtain ⟨h1, h2, h3⟩ := addParameters_spec true ps q ps' ha
            obtain ⟨g1, g2, g3⟩ := ih _ _ h
            refine ⟨h1.trans g1, fun hn => g2 (h2 hn), fun x => ?_⟩
            rw [g3, h3, hr _ _ _ _ hq x]
            constructor
            · rintro ((h' | h') | ⟨n', s', hm, hs', h'⟩)
              · exact .inl h'
              · exact .inr ⟨n, s, List.mem_cons_self, hf, h'⟩
              · exact .inr ⟨n', s', List.mem_cons_of_mem _ hm, hs', h'⟩
            · rintro (h' | ⟨n', s', hm, hs', h'⟩)
              · exact .inl (.inl h')
              · rcases List.mem_cons.1 hm with e | hm
                · cases e
                  rw [hf] at hs'
                  cases hs'
                  exact .inl (.inr h')
                · exact .inr ⟨n', s', hm, hs', h'⟩

theorem readInstr_spec (file : String → Option (Source V)) (fuel : Nat) (dest : Option Nat) (s : Source V) (qs : List (Param V)) (m : Nat)
    (h : readInstr file fuel dest s = .ok (qs, m)) :
    s.params <+: qs ∧ (qs.map Param.name).Nodup ∧ ∀ x, x ∈ qs.map Param.name ↔
      x ∈ s.params.map Param.name ∨ ∃ t, Included file s t ∧ x ∈ t.params.map Param.name := by
  induction fuel generalizing dest s qs m with
  | zero => cases h
  | succ fuel ih =>
    rw [readInstr] at h
    rcases ha : addParameters false [] s.params with e | ps
    · simp only [ha] at h
      cases h
    · simp only [ha] at h
      have e : ps = s.params := by simpa using addParameters_strict _ _ _ ha
      obtain ⟨-, h2, -⟩ := addParameters_spec false _ _ _ ha
      obtain ⟨g1, g2, g3⟩ := items_spec file (readInstr file fuel) (fun d s q m' hq => (ih d s q m' hq).2.2) dest s.trace ps 0 qs m h
      rw [e] at g1 g3
      refine ⟨g1, g2 (h2 (by simp)), fun x => ?_⟩
      rw [g3]
      constructor
      · rintro (h' | ⟨n, t, hn, ht, h' | ⟨u, hu, h'⟩⟩)
        · exact .inl h'
        · exact .inr ⟨t, .direct hn ht, h'⟩
        · exact .inr ⟨u, .deeper hn ht hu, h'⟩
      · rintro (h' | ⟨u, hu, h'⟩)
        · exact .inl h'
        · cases hu with
          | direct hn ht => exact .inr ⟨_, _, hn, ht, .inl h'⟩
          | deeper hn ht hu => exact .inr ⟨_, _, hn, ht, .inr ⟨_, hu, h'⟩⟩

/-! ### C114 -/

/-- C114: if the instrument can be read and PREVIOUS is not used as an expression, the parameters read are the first ones of the instrument,
with the same values, in the same order. -/
theorem parameters_partial (file : String → Option (Source V)) (fuel : Nat) (s : Source V) (qs : List (Param V)) (m : Nat)
    (h : readInstr file fuel none s = .ok (qs, m)) (hp : ∀ r, .comp true r ∉ s.trace) :
    ∃ ps, readParameters s = .ok ps ∧ ps <+: qs := by
  obtain ⟨h1, -, -⟩ := readInstr_spec file fuel none s qs m h
  cases fuel with
  | zero => cases h
  | succ fuel =>
    rw [readInstr] at h
    rcases ha : addParameters false [] s.params with e | ps
    · simp only [ha] at h
      cases h
    · have e : ps = s.params := by simpa using addParameters_strict _ _ _ ha
      refine ⟨ps, ?_, e ▸ h1⟩
      rw [readParameters]
      simp only [ha]
      rw [if_neg]
      rw [List.any_eq_true]
      rintro ⟨i, hi, hb⟩
      cases i with
      | comp p r =>
        have : p = true := hb
        exact hp r (this ▸ hi)
      | «include» n => cases hb

/-- C114: they are all of its parameters exactly if no included instrument, at any depth, has a parameter of another name. -/
theorem all_parameters_iff (file : String → Option (Source V)) (fuel : Nat) (s : Source V) (ps qs : List (Param V)) (m : Nat)
    (h : readInstr file fuel none s = .ok (qs, m)) (hf : readParameters s = .ok ps) :
    ps = qs ↔ ∀ t, Included file s t → ∀ p ∈ t.params, ∃ q ∈ s.params, q.name = p.name := by
  obtain ⟨h1, h2, h3⟩ := readInstr_spec file fuel none s qs m h
  have e : ps = s.params := by
    rw [readParameters] at hf
    rcases ha : addParameters false [] s.params with e | ps'
    · simp only [ha] at hf
      cases hf
    · simp only [ha] at hf
      split_ifs at hf
      rw [← Except.ok.inj hf]
      simpa using addParameters_strict _ _ _ ha
  rw [e]
  constructor
  · intro he t ht p hp
    have : p.name ∈ qs.map Param.name := (h3 _).2 (.inr ⟨t, ht, List.mem_map_of_mem hp⟩)
    rw [← he] at this
    simpa using this
  · intro hall
    obtain ⟨r, hr⟩ := h1
    rcases r with _ | ⟨x, r⟩
    · simpa using hr
    · exfalso
      have hx : x.name ∈ qs.map Param.name := by rw [← hr]; simp
      have hin : x.name ∈ s.params.map Param.name := by
        rcases (h3 _).1 hx with h' | ⟨t, ht, h'⟩
        · exact h'
        · obtain ⟨p, hp, hpn⟩ := List.mem_map.1 h'
          obtain ⟨q, hq, hqn⟩ := hall t ht p hp
          exact hpn ▸ hqn ▸ List.mem_map_of_mem hq
      rw [← hr, List.map_append, List.map_cons] at h2
      exact (List.disjoint_of_nodup_append h2) hin List.mem_cons_self

/-- C114 fails: an instrument in which a component uses PREVIOUS as an expression can be read, its parameters can not. -/
theorem previous_refused (s : Source V) (r : Bool) (hp : .comp true r ∈ s.trace) : ∀ ps, readParameters s ≠ .ok ps := by
  intro ps h
  rw [readParameters] at h
  rcases ha : addParameters false [] s.params with e | qs
  · simp only [ha] at h
    cases h
  · simp only [ha] at h
    rw [if_pos] at h
    · cases h
    · exact List.any_eq_true.2 ⟨_, hp, rfl⟩

/-- An instrument with a parameter that includes one with two, of which one is new. -/
def outer : Source Nat := { params := [⟨"a", 1⟩], trace := [.comp false false, .include "inner.instr", .comp true false] }

def inner : Source Nat := { params := [⟨"a", 2⟩, ⟨"b", 3⟩], trace := [.comp true false, .comp false true] }

def files : String → Option (Source Nat) := fun n => if n = "inner.instr" then some inner else none

/-- C114: an instrument whose first component uses PREVIOUS as an expression is refused by both. -/
theorem previous_first_refused (file : String → Option (Source V)) (fuel : Nat) (s : Source V) (r : Bool) (l : List Item)
    (hs : s.trace = .comp true r :: l) :
    (∀ x, readInstr file fuel none s ≠ .ok x) ∧ ∀ ps, readParameters s ≠ .ok ps := by
  refine ⟨fun x h => ?_, previous_refused s r (by rw [hs]; simp)⟩
  cases fuel with
  | zero => cases h
  | succ fuel =>
    rw [readInstr] at h
    rcases ha : addParameters false [] s.params with e | ps
    · rw [ha] at h
      cases h
    · rw [ha] at h
      simp [hs, items] at h

/-- C114 fails: a parameter of an included instrument is missing. -/
theorem included_missing : readInstr files 2 none { outer with trace := [.comp false false, .include "inner.instr"] } =
      .ok ([⟨"a", 1⟩, ⟨"b", 3⟩], 2) ∧
    readParameters { outer with trace := [.comp false false, .include "inner.instr"] } = .ok [⟨"a", 1⟩] := by
  decide +kernel

example : readInstr files 2 none outer = .ok ([⟨"a", 1⟩, ⟨"b", 3⟩], 3) ∧ readParameters outer = .error .attributeError := by decide +kernel

example : readInstr files 2 none { outer with trace := [.comp false true] } = .ok ([⟨"a", 1⟩], 1) ∧
    readParameters { outer with trace := [.comp false true] } = .ok [⟨"a", 1⟩] := by decide +kernel

end Verif.Include.Fast
