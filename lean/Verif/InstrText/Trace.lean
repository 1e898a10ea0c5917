import Verif.InstrText.Instance
import Mathlib.Data.List.GetD

/-! C72: all component instances of a printed instrument. -/

namespace Verif.InstrText

open Verif.Loader (Text t)

variable {E V P : Type} [DecidableEq E] [DecidableEq V] [DecidableEq P] [Triple V]

/-- What an instance is read as. -/
def Instance.read (i : Instance E V P) : ReadInstance E V P :=
  ⟨i.name, i.type, i.params, ⟨i.place.at_, i.place.atRef.map .own, i.place.rot, i.place.rotRef.map .own⟩, i.removable, i.cpu,
    i.split, i.when, i.group, if i.extend = [] then [] else [t "\n\n" ++ ['\n'].intercalate i.extend ++ t "\n"], i.jumps,
    i.metas.map fun m => ⟨m.name, m.mimetype, t "\n" ++ m.value ++ t "\n"⟩⟩

/-- The keywords that begin an instance or can go on with one. -/
def startOrPart : List Kw := [.removable, .cpu, .split, .component, .rotated, .group, .extend, .jump, .metadata]

/-- What is asked of an instance after `n` others. -/
structure Instance.Readable (r : Reader E) (n : Nat) (i : Instance E V P) : Prop where
  name : ∀ k ∈ keywords, k.1 ≠ i.name
  type : ∀ k ∈ keywords, k.1 ≠ i.type
  known : r.known i.type = true
  cpu : r.noacc i.type = true → i.cpu = true
  group : ∀ g, i.group = some g → ∀ k ∈ keywords, k.1 ≠ g
  when : ∀ e, i.when = some e → r.constant e = false
  extend : i.extend ≠ [] → ¬ t "%}" <:+: t "\n\n" ++ joinBlocks i.extend ++ t "\n" ∧ blank (joinBlocks i.extend) = false
  atRef : ∀ a, i.place.atRef = some a → a < n
  rotRef : ∀ a, i.place.rotRef = some a → a < n
  rot : Triple.null i.place.rot = false ∨ i.place.rotRef ≠ none ∨ (i.place.rot = Triple.zero ∧ i.place.atRef = none)
  jumps : ∀ j ∈ i.jumps, j.Readable
  metas : ∀ m ∈ i.metas, m.Readable
  metaNames : (i.metas.map (·.name)).Nodup
  split : i.split = none
  removable : i.removable = false

omit [DecidableEq E] [DecidableEq V] [DecidableEq P] in
theorem printRef_prefix (a b : List Text) (r : Option Nat) (h : ∀ i, r = some i → i < a.length) :
    (printRef (a ++ b) r : List (Tok E V P)) = printRef a r := by
  cases r with
  | none => rfl
  | some i =>
    have := h i rfl
    rw [printRef, printRef, List.getD_append _ _ _ _ this]

omit [DecidableEq E] [DecidableEq V] [DecidableEq P] in
theorem printInstance_prefix (a b : List Text) (i : Instance E V P) (h1 : ∀ x, i.place.atRef = some x → x < a.length)
    (h2 : ∀ x, i.place.rotRef = some x → x < a.length) : printInstance (a ++ b) i = printInstance a i := by
  rw [printInstance, printInstance, printPlacement, printPlacement, printRef_prefix a b _ h1, printRef_prefix a b _ h2]

omit [DecidableEq E] [DecidableEq V] [DecidableEq P] in
theorem printInstance_head (names : List Text) (i : Instance E V P) :
    ∃ k l, (k = Kw.cpu ∨ k = Kw.component) ∧ printInstance names i = .kw k :: l := by
  rw [printInstance]
  cases hc : i.cpu with
  | false =>
    simp only [Bool.false_eq_true, if_false, List.nil_append, List.cons_append]
    exact ⟨.component, _, .inr rfl, rfl⟩
  | true =>
    simp only [if_true, List.cons_append, List.nil_append]
    exact ⟨.cpu, _, .inl rfl, rfl⟩

theorem trace_again_aux (r : Reader E) (ten : E) (rest : List (Tok E V P))
    (hr : ∀ k, rest.head? = some (.kw k) → k ∉ startOrPart) (allNames : List Text) (hd : allNames.Nodup)
    (hp : ∀ n ∈ allNames, Plain n) : ∀ (is acc : List (Instance E V P)) (n : Nat),
    allNames = acc.map (·.name) ++ is.map (·.name) →
    (∀ a i b, is = a ++ i :: b → i.Readable r (acc.length + a.length)) → is.length < n →
    readTrace r ten n (acc.map Instance.read) ((is.map (printInstance allNames)).flatten ++ rest) =
      .ok ((acc ++ is).map Instance.read, rest)
  | [], acc, n, hn, h, hl => by
    obtain ⟨n, rfl⟩ : ∃ m, n = m + 1 := ⟨n - 1, by simp at hl; omega⟩
    simp only [List.map_nil, List.flatten_nil, List.nil_append, List.append_nil, readTrace]
    cases rest with
    | nil => rfl
    | cons x l =>
      cases x <;> try rfl
      rename_i k
      have := hr k rfl
      simp only [startOrPart, List.mem_cons, List.not_mem_nil, or_false, not_or] at this
      have h' : k ∉ [Kw.removable, .cpu, .split, .component] := by
        simp only [List.mem_cons, List.not_mem_nil, or_false, not_or]
        tauto
      simp only [if_neg h']
  | i :: is, acc, n, hn, h, hl => by
    obtain ⟨n, rfl⟩ : ∃ m, n = m + 1 := ⟨n - 1, by simp at hl; omega⟩
    have hi := h [] i is rfl
    simp only [List.length_nil, Nat.add_zero] at hi
    have e1 : printInstance allNames i = printInstance (acc.map (·.name)) i := by
      rw [hn]
      exact printInstance_prefix _ _ i (by simpa using hi.atRef) (by simpa using hi.rotRef)
    have hacc : (acc.map Instance.read).map (·.name) = acc.map (·.name) := by
      rw [List.map_map]
      rfl
    have hd' := hd
    rw [hn, List.nodup_append] at hd'
    have hnew : i.name ∉ acc.map (·.name) := fun hm => hd'.2.2 _ hm i.name (by simp) rfl
    have hfol : ∀ k ∈ [Kw.rotated, .group, .extend, .jump, .metadata],
        ((is.map (printInstance allNames)).flatten ++ rest).head? ≠ some (.kw k) := by
      intro k hk
      cases is with
      | nil =>
        simp only [List.map_nil, List.flatten_nil, List.nil_append]
        intro hh
        have := hr k hh
        simp only [startOrPart, List.mem_cons, List.not_mem_nil, or_false, not_or] at this hk
        tauto
      | cons j js =>
        obtain ⟨k', l', h1, h2⟩ := printInstance_head allNames j
        simp only [List.map_cons, List.flatten_cons, h2, List.cons_append, List.head?_cons]
        intro hh
        cases hh
        rcases h1 with rfl | rfl <;> simp at hk
    have e2 := instance_again_partial r ten (acc.map (·.name)) hd'.1 (fun n' hn' => hp n' (by rw [hn]; simp [hn'])) i hi.name
      hnew hi.type hi.known hi.cpu hi.group hi.when hi.extend (by simpa using hi.atRef) (by simpa using hi.rotRef) hi.rot
      hi.jumps hi.metas hi.metaNames hi.split hi.removable ((is.map (printInstance allNames)).flatten ++ rest) hfol
    obtain ⟨k, l, hk, hl'⟩ := printInstance_head allNames i
    have hk' : k ∈ [Kw.removable, .cpu, .split, .component] := by rcases hk with rfl | rfl <;> simp
    rw [← e1, hl'] at e2
    simp only [List.map_cons, List.flatten_cons, List.append_assoc, hl', List.cons_append, readTrace, if_pos hk']
    rw [hacc]
    simp only [List.cons_append] at e2
    rw [e2]
    simp only
    have e3 := trace_again_aux r ten rest hr allNames hd hp is (acc ++ [i]) n (by rw [hn]; simp)
      (fun a j b hj => by
        have := h (i :: a) j b (by rw [hj]; rfl)
        simp only [List.length_cons, List.length_append, List.length_nil] at this ⊢
        rwa [show acc.length + (0 + 1) + a.length = acc.length + (a.length + 1) by omega])
      (by simp at hl; omega)
    simp only [List.map_append, List.map_cons, List.map_nil, List.append_assoc, List.cons_append, List.nil_append] at e3 ⊢
    exact e3

/-- C72 for all instances of an instrument: the printed components are read as the same components in the same order with the
same references, under the conditions of `instance_again_partial` for each. -/
theorem trace_again_partial (r : Reader E) (ten : E) (is : List (Instance E V P)) (hd : (is.map (·.name)).Nodup)
    (h : ∀ a i b, is = a ++ i :: b → i.Readable r a.length) (rest : List (Tok E V P))
    (hr : ∀ k, rest.head? = some (.kw k) → k ∉ startOrPart) :
    readTrace r ten (is.length + 1) [] (printTrace is ++ rest) =
      .ok (is.map fun i => ⟨i.name, i.type, i.params,
        ⟨i.place.at_, i.place.atRef.map .own, i.place.rot, i.place.rotRef.map .own⟩, false, i.cpu, none, i.when, i.group,
        if i.extend = [] then [] else [t "\n\n" ++ ['\n'].intercalate i.extend ++ t "\n"], i.jumps,
        i.metas.map fun m => ⟨m.name, m.mimetype, t "\n" ++ m.value ++ t "\n"⟩⟩, rest) := by
  have hp : ∀ n ∈ is.map (·.name), Plain n := by
    intro n hn
    obtain ⟨i, hi, rfl⟩ := List.mem_map.mp hn
    obtain ⟨a, b, hab⟩ := List.append_of_mem hi
    exact (h a i b hab).name
  have := trace_again_aux r ten rest hr (is.map (·.name)) hd hp is [] (is.length + 1) (by simp) (by simpa using h) (by omega)
  rw [printTrace]
  simp only [List.map_nil, List.nil_append] at this
  rw [this]
  congr 2
  apply List.map_congr_left
  intro i hi
  obtain ⟨a, b, hab⟩ := List.append_of_mem hi
  have hr := h a i b hab
  rw [Instance.read, hr.split, hr.removable]

example : (readTrace sampleReader 10 3 [] (printTrace
    [(⟨t "a", t "Arm", 3, ⟨1, none, 0, none⟩, false, false, none, none, none, [], [], []⟩ : Instance Nat Nat Nat),
     ⟨t "b", t "Arm", 3, ⟨1, some 0, 4, some 0⟩, false, false, none, none, none, [], [], []⟩])).map (fun p => p.1.map (·.name)) =
      .ok [t "a", t "b"] := by
  have := trace_again_partial sampleReader 10
    [(⟨t "a", t "Arm", 3, ⟨1, none, 0, none⟩, false, false, none, none, none, [], [], []⟩ : Instance Nat Nat Nat),
     ⟨t "b", t "Arm", 3, ⟨1, some 0, 4, some 0⟩, false, false, none, none, none, [], [], []⟩] (by decide) ?_ [] (by simp)
  · rw [List.append_nil] at this
    exact congrArg (Except.map fun p => p.1.map (·.name)) this
  · intro a i b hab
    rcases a with _ | ⟨x, _ | ⟨y, a⟩⟩
    · simp only [List.nil_append, List.cons.injEq] at hab
      obtain ⟨rfl, rfl⟩ := hab
      exact ⟨by decide +kernel, by decide +kernel, by decide, by decide, by simp, by simp, by simp, by simp, by simp,
        .inr (.inr ⟨rfl, rfl⟩), by simp, by simp, by simp, rfl, rfl⟩
    · simp only [List.cons_append, List.nil_append, List.cons.injEq] at hab
      obtain ⟨rfl, rfl, rfl⟩ := hab
      exact ⟨by decide +kernel, by decide +kernel, by decide, by decide, by simp, by simp, by simp, by simp, by simp,
        .inl rfl, by simp, by simp, by simp, rfl, rfl⟩
    · simp at hab

end Verif.InstrText
