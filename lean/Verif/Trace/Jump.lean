import Verif.Trace.JumpModel
import Mathlib.Data.List.Basic
import Mathlib.Tactic.Linarith

/-! Property C27: the targets of jumps; and which coordinate transformations are skipped. -/

namespace Verif.Trace
open Verif.Instr

theorem mem_jumpPairs (cs : List JComp) : ∀ (start i id : Nat), (i, id) ∈ jumpPairs start cs ↔
    ∃ k c, cs[k]? = some c ∧ id ∈ c.jumps ∧ i = start + k := by
  induction cs with
  | nil => intro start i id; simp [jumpPairs]
  | cons c cs ih =>
    intro start i id
    simp only [jumpPairs, List.mem_append, List.mem_map, Prod.mk.injEq, ih]
    constructor
    · rintro (⟨x, hx, rfl, rfl⟩ | ⟨k, d, h1, h2, rfl⟩)
      · exact ⟨0, c, rfl, hx, rfl⟩
      · exact ⟨k + 1, d, h1, h2, by omega⟩
    · rintro ⟨k, d, h1, h2, rfl⟩
      cases k with
      | zero => simp only [List.getElem?_cons_zero, Option.some.injEq] at h1; subst h1; exact .inl ⟨id, h2, rfl, rfl⟩
      | succ k => exact .inr ⟨k, d, h1, h2, by omega⟩

theorem jumpPairs_ids (cs : List JComp) : ∀ start, (jumpPairs start cs).map (·.2) = cs.flatMap (·.jumps) := by
  induction cs with
  | nil => intro start; rfl
  | cons c cs ih => intro start; simp [jumpPairs, ih, Function.comp_def]

theorem findName_some (cs : List JComp) (t : String) (k : Nat) (h : findName cs t = some k) :
    (cs.map (·.name))[k]? = some t ∧ ∀ m < k, (cs.map (·.name))[m]? ≠ some t := by
  unfold findName at h
  rw [List.findIdx?_eq_some_iff_getElem] at h
  obtain ⟨h1, h2, h3⟩ := h
  refine ⟨by simpa [List.getElem?_eq_getElem h1] using h2, ?_⟩
  intro m hm hc
  have := h3 m hm
  rw [List.getElem?_map, List.getElem?_eq_getElem (by omega)] at hc
  simp at hc this
  exact this hc

theorem findName_none (cs : List JComp) (t : String) : findName cs t = none ↔ t ∉ cs.map (·.name) := by
  unfold findName
  rw [List.findIdx?_eq_none_iff]
  simp

/-- The jump `j'` is what `j`, held by the component number `i`, should become: the target of a named jump is the first
component of that name, the target of another jump is as far from the component as it says. -/
def Right (names : List String) (i : Nat) (j j' : Jump) : Prop :=
  j'.target = j.target ∧
  (j.relative = 0 ∧ j.target.toLower ≠ "myself" →
    ∃ k : Nat, names[k]? = some j.target ∧ (∀ m < k, names[m]? ≠ some j.target) ∧ j'.absolute = k ∧ j'.relative = k - i) ∧
  (¬ (j.relative = 0 ∧ j.target.toLower ≠ "myself") → j'.absolute = i + j.relative ∧ j'.relative = j.relative)

theorem isNamed_iff (j : Jump) : j.isNamed = true ↔ j.relative = 0 ∧ j.target.toLower ≠ "myself" := by
  simp [Jump.isNamed]

theorem setTarget_other (cs : List JComp) (h h' : Heap) (i id x : Nat) (hx : x ≠ id) (hs : setTarget cs h i id = .ok h') :
    h' x = h x := by
  unfold setTarget at hs
  simp only at hs
  split at hs
  · cases hs; rfl
  · split at hs
    · split at hs
      · cases hs; simp [Heap.set, hx]
      · cases hs
    · cases hs; simp [Heap.set, hx]

theorem setTarget_right (cs : List JComp) (h h' : Heap) (i id : Nat) (ha : (h id).absolute = -1)
    (hs : setTarget cs h i id = .ok h') : Right (cs.map (·.name)) i (h id) (h' id) := by
  unfold setTarget at hs
  simp only [ha, gt_iff_lt, Int.lt_irrefl, if_false] at hs
  split at hs
  · rename_i hn
    rw [isNamed_iff] at hn
    split at hs
    · rename_i k hk
      cases hs
      obtain ⟨h1, h2⟩ := findName_some _ _ _ hk
      refine ⟨by simp [Heap.set], fun _ => ⟨k, h1, h2, by simp [Heap.set], by simp [Heap.set]⟩, fun hc => absurd hn hc⟩
    · cases hs
  · rename_i hn
    rw [isNamed_iff] at hn
    cases hs
    exact ⟨by simp [Heap.set], fun hc => absurd hc hn, fun _ => by simp [Heap.set]⟩

theorem setTargets_spec (cs : List JComp) : ∀ (ps : List (Nat × Nat)) (h : Heap), (ps.map (·.2)).Nodup →
    (∀ p ∈ ps, (h p.2).absolute = -1) →
    (∀ x, x ∉ ps.map (·.2) → (setTargets cs h ps).1 x = h x) ∧
    ((setTargets cs h ps).2 = none → ∀ p ∈ ps, Right (cs.map (·.name)) p.1 (h p.2) ((setTargets cs h ps).1 p.2)) ∧
    ((setTargets cs h ps).2 = none ↔ ∀ p ∈ ps, (h p.2).relative = 0 → (h p.2).target.toLower ≠ "myself" →
      (h p.2).target ∈ cs.map (·.name)) ∧
    ((setTargets cs h ps).2 = none ∨ (setTargets cs h ps).2 = some .indexError) := by
  intro ps
  induction ps with
  | nil => intro h _ _; simp [setTargets]
  | cons p ps ih =>
    obtain ⟨i, id⟩ := p
    intro h hn ha
    simp only [List.map_cons, List.nodup_cons] at hn
    have ha0 : (h id).absolute = -1 := ha (i, id) List.mem_cons_self
    cases hs : setTarget cs h i id with
    | error e =>
      have hbad : ¬ ((h id).target ∈ cs.map (·.name)) ∧ (h id).relative = 0 ∧ (h id).target.toLower ≠ "myself" ∧
          e = .indexError := by
        unfold setTarget at hs
        simp only [ha0, gt_iff_lt, Int.lt_irrefl, if_false] at hs
        split at hs
        · rename_i hnm
          rw [isNamed_iff] at hnm
          split at hs
          · cases hs
          · rename_i hf
            cases hs
            exact ⟨(findName_none _ _).1 hf, hnm.1, hnm.2, rfl⟩
        · cases hs
      obtain ⟨h1, h2, h3, rfl⟩ := hbad
      have e : setTargets cs h ((i, id) :: ps) = (h, some .indexError) := by simp only [setTargets, hs]
      rw [e]
      refine ⟨fun _ _ => rfl, fun hc => (nomatch hc), ?_, .inr rfl⟩
      constructor
      · intro hc; cases hc
      · intro hc
        exact absurd (hc (i, id) List.mem_cons_self h2 h3) h1
    | ok h' =>
      have ho := fun x hx => setTarget_other cs h h' i id x hx hs
      have hr := setTarget_right cs h h' i id ha0 hs
      have hne : ∀ p ∈ ps, p.2 ≠ id := by
        intro p hp hc
        exact hn.1 (hc ▸ List.mem_map_of_mem hp)
      obtain ⟨i1, i2, i3, i4⟩ := ih h' hn.2 fun p hp => by
        rw [ho _ (hne p hp)]; exact ha p (List.mem_cons_of_mem _ hp)
      simp only [setTargets, hs]
      refine ⟨?_, ?_, ?_, i4⟩
      · intro x hx
        simp only [List.map_cons, List.mem_cons, not_or] at hx
        rw [i1 x hx.2, ho x hx.1]
      · intro hc p hp
        rcases List.mem_cons.1 hp with rfl | hp
        · rw [i1 id hn.1]; exact hr
        · have := i2 hc p hp
          rwa [ho _ (hne p hp)] at this
      · rw [i3]
        constructor
        · intro hc p hp
          rcases List.mem_cons.1 hp with rfl | hp
          · intro h1 h2
            obtain ⟨k, hk, _⟩ := hr.2.1 ⟨h1, h2⟩
            exact List.mem_of_getElem? hk
          · have := hc p hp
            rwa [ho _ (hne p hp)] at this
        · intro hc p hp
          rw [ho _ (hne p hp)]
          exact hc p (List.mem_cons_of_mem _ hp)

/-- **C27** (partial): for jumps which are not shared by components and have not been given a target before, setting the
targets gives every jump of every component the right one, or raises if a named component does not exist. Missing: the
theorems below show that shared jumps, jumps translated before, jumps to a component called `myself` and jumps out of
the instrument are not handled as claimed. -/
theorem jump_targets_partial (cs : List JComp) (h : Heap) (hs : (cs.flatMap (·.jumps)).Nodup)
    (hf : ∀ c ∈ cs, ∀ id ∈ c.jumps, (h id).absolute = -1) :
    ((setJumpAbsoluteTargets cs h).2 = none ↔ ∀ c ∈ cs, ∀ id ∈ c.jumps, (h id).relative = 0 →
      (h id).target.toLower ≠ "myself" → (h id).target ∈ cs.map (·.name)) ∧
    ((setJumpAbsoluteTargets cs h).2 = none ∨ (setJumpAbsoluteTargets cs h).2 = some .indexError) ∧
    ((setJumpAbsoluteTargets cs h).2 = none → ∀ i c id, cs[i]? = some c → id ∈ c.jumps →
      Right (cs.map (·.name)) i (h id) ((setJumpAbsoluteTargets cs h).1 id)) ∧
    (∀ id, (∀ c ∈ cs, id ∉ c.jumps) → (setJumpAbsoluteTargets cs h).1 id = h id) := by
  obtain ⟨i1, i2, i3, i4⟩ := setTargets_spec cs (jumpPairs 0 cs) h (by rw [jumpPairs_ids]; exact hs) (by
    rintro ⟨i, id⟩ hp
    obtain ⟨k, c, h1, h2, _⟩ := (mem_jumpPairs cs 0 i id).1 hp
    exact hf c (List.mem_of_getElem? h1) id h2)
  refine ⟨?_, i4, ?_, ?_⟩
  · unfold setJumpAbsoluteTargets
    rw [i3]
    constructor
    · intro hc c hcm id hid
      obtain ⟨k, hk⟩ := List.getElem?_of_mem hcm
      exact hc (k, id) ((mem_jumpPairs cs 0 k id).2 ⟨k, c, hk, hid, by omega⟩)
    · rintro hc ⟨i, id⟩ hp
      obtain ⟨k, c, h1, h2, _⟩ := (mem_jumpPairs cs 0 i id).1 hp
      exact hc c (List.mem_of_getElem? h1) id h2
  · intro hn i c id hi hid
    exact i2 hn (i, id) ((mem_jumpPairs cs 0 i id).2 ⟨i, c, hi, hid, by omega⟩)
  · intro id hid
    apply i1
    rw [jumpPairs_ids]
    intro hc
    obtain ⟨c, hc, h2⟩ := List.mem_flatMap.1 hc
    exact hid c hc h2

/-- A right jump stays as it is when the targets are set again. -/
theorem setTarget_again (cs : List JComp) (h : Heap) (i id : Nat) (j : Jump) (hj : Right (cs.map (·.name)) i j (h id)) :
    setTarget cs h i id = .ok h := by
  unfold setTarget
  simp only
  split
  · rfl
  · rename_i ha
    by_cases hn : j.relative = 0 ∧ j.target.toLower ≠ "myself"
    · obtain ⟨k, _, _, h3, _⟩ := hj.2.1 hn
      rw [h3] at ha
      omega
    · obtain ⟨h1, h2⟩ := hj.2.2 hn
      have hr : j.relative ≠ 0 := by
        intro hc
        rw [h1, hc] at ha
        omega
      have : ¬ (h id).isNamed = true := by
        rw [isNamed_iff, h2]
        exact fun hc => hr hc.1
      rw [if_neg this]
      congr 1
      funext x
      unfold Heap.set
      split
      · rename_i hx
        subst hx
        cases hh : h x with
        | mk t r a => rw [hh] at h1 h2; simp only at h1 h2; rw [h1, h2]
      · rfl

/-- **C27**: translating the same instrument again changes no target. -/
theorem jump_targets_again (cs : List JComp) (h : Heap) (hs : (cs.flatMap (·.jumps)).Nodup)
    (hf : ∀ c ∈ cs, ∀ id ∈ c.jumps, (h id).absolute = -1) (hok : (setJumpAbsoluteTargets cs h).2 = none) :
    setJumpAbsoluteTargets cs (setJumpAbsoluteTargets cs h).1 = ((setJumpAbsoluteTargets cs h).1, none) := by
  obtain ⟨_, _, hr, _⟩ := jump_targets_partial cs h hs hf
  generalize hg : (setJumpAbsoluteTargets cs h).1 = g at hr ⊢
  have key : ∀ ps : List (Nat × Nat), (∀ p ∈ ps, Right (cs.map (·.name)) p.1 (h p.2) (g p.2)) →
      setTargets cs g ps = (g, none) := by
    intro ps
    induction ps with
    | nil => intro _; rfl
    | cons p ps ih =>
      intro hp
      simp only [setTargets, setTarget_again cs g p.1 p.2 (h p.2) (hp p List.mem_cons_self)]
      exact ih fun q hq => hp q (List.mem_cons_of_mem _ hq)
  apply key
  rintro ⟨i, id⟩ hp
  obtain ⟨k, c, h1, h2, h3⟩ := (mem_jumpPairs cs 0 i id).1 hp
  have : i = k := by omega
  subst this
  exact hr hok i c id h1 h2

/-- Three components; `b` jumps to the one before it. -/
def threeJumps : List JComp := [⟨"a", [], true⟩, ⟨"b", [0], true⟩, ⟨"c", [1], true⟩]

/-- The hypotheses of `jump_targets_partial` are met, with a named and a relative jump. -/
example : (threeJumps.flatMap (·.jumps)).Nodup ∧
    (setJumpAbsoluteTargets threeJumps fun id => if id = 0 then ⟨"PREVIOUS", -1, -1⟩ else ⟨"a", 0, -1⟩).2 = none ∧
    ((setJumpAbsoluteTargets threeJumps fun id => if id = 0 then ⟨"PREVIOUS", -1, -1⟩ else ⟨"a", 0, -1⟩).1 1) = ⟨"a", -2, 0⟩ := by
  decide +kernel

/-- The negation of C27: `COMPONENT c = COPY(b)` shares the jump of `b`. Both get the target of the first: `c`, which
should jump to `b` (number 1), jumps to `a` (number 0). -/
theorem copied_jump_wrong :
    let cs : List JComp := [⟨"a", [], true⟩, ⟨"b", [0], true⟩, ⟨"c", [0], true⟩]
    let h : Heap := fun _ => ⟨"PREVIOUS", -1, -1⟩
    (setJumpAbsoluteTargets cs h).2 = none ∧ ((setJumpAbsoluteTargets cs h).1 0).absolute = 0 ∧
      ¬ Right (cs.map (·.name)) 2 (h 0) ((setJumpAbsoluteTargets cs h).1 0) := by
  refine ⟨by decide +kernel, by decide +kernel, ?_⟩
  intro hc
  have h1 := (hc.2.2 (by decide +kernel)).1
  revert h1
  decide +kernel

/-- The negation of C27: a jump keeps its target when its component is translated as part of another instrument, for
example the second part of a split: `c` is number 2 of the whole and number 1 of the part. -/
theorem translated_jump_stale :
    let whole : List JComp := [⟨"a", [], true⟩, ⟨"b", [0], true⟩, ⟨"c", [], true⟩]
    let part : List JComp := [⟨"b", [0], true⟩, ⟨"c", [], true⟩]
    let h : Heap := fun _ => ⟨"c", 0, -1⟩
    let h1 := (setJumpAbsoluteTargets whole h).1
    (setJumpAbsoluteTargets part h1).2 = none ∧ ((setJumpAbsoluteTargets part h1).1 0).absolute = 2 ∧
      ((setJumpAbsoluteTargets part h).1 0).absolute = 1 := by
  decide +kernel

/-- The negation of C27: `JUMP Myself` to a component of that name stays where it is. -/
theorem jump_to_component_called_myself :
    let cs : List JComp := [⟨"Myself", [], true⟩, ⟨"b", [0], true⟩]
    let h : Heap := fun _ => ⟨"Myself", 0, -1⟩
    (setJumpAbsoluteTargets cs h).2 = none ∧ ((setJumpAbsoluteTargets cs h).1 0).absolute = 1 := by
  decide +kernel

/-- The negation of C27: a jump to before the first component is accepted; its target is not a component. Every later
step of the translation accepts it as well. -/
theorem jump_before_first_accepted :
    let cs : List JComp := [⟨"a", [0], true⟩, ⟨"b", [], true⟩]
    let h : Heap := fun _ => ⟨"PREVIOUS", -1, -1⟩
    let h1 := (setJumpAbsoluteTargets cs h).1
    (setJumpAbsoluteTargets cs h).2 = none ∧ (h1 0).absolute = -1 ∧ (detectSkipable cs h1).isOk = true := by
  decide +kernel

/-! ### Skippable transformations -/

theorem pySetFalse_ok (l : List Bool) (i : Int) (l' : List Bool) (h : pySetFalse l i = .ok l') :
    l'.length = l.length ∧ (-(l.length : Int) ≤ i ∧ i < l.length) ∧
    ∀ k : Nat, k < l.length → (l'[k]? = some true ↔ l[k]? = some true ∧ i ≠ k ∧ i ≠ k - (l.length : Int)) := by
  unfold pySetFalse at h
  split at h
  · rename_i h1
    cases h
    refine ⟨by simp, ⟨by omega, h1.2⟩, ?_⟩
    intro k hk
    rw [List.getElem?_set]
    by_cases h2 : i.toNat = k
    · have h3 : i = k := by omega
      simp [hk, h3]
    · have h3 : i ≠ k := by omega
      have h4 : i ≠ k - (l.length : Int) := by omega
      simp [h2, h3, h4]
  · split at h
    · rename_i h1 h2
      cases h
      refine ⟨by simp, ⟨by omega, by omega⟩, ?_⟩
      intro k hk
      rw [List.getElem?_set]
      by_cases h3 : (i + l.length).toNat = k
      · have h4 : i = k - (l.length : Int) := by omega
        simp [hk, h4]
      · have h4 : i ≠ k := by omega
        have h5 : i ≠ k - (l.length : Int) := by omega
        simp [h3, h4, h5]
    · cases h

theorem pySetFalse_returns (l : List Bool) (i : Int) (h : -(l.length : Int) ≤ i ∧ i < l.length) :
    ∃ l', pySetFalse l i = .ok l' := by
  unfold pySetFalse
  by_cases h1 : 0 ≤ i ∧ i < l.length
  · exact ⟨_, by rw [if_pos h1]⟩
  · rw [if_neg h1, if_pos (by omega)]
    exact ⟨_, rfl⟩

theorem foldl_pySetFalse (is : List Int) : ∀ (l : List Bool),
    ((∃ l', is.foldlM pySetFalse l = .ok l') ↔ ∀ i ∈ is, -(l.length : Int) ≤ i ∧ i < l.length) ∧
    ∀ l', is.foldlM pySetFalse l = .ok l' → l'.length = l.length ∧
      ∀ k : Nat, k < l.length →
        (l'[k]? = some true ↔ l[k]? = some true ∧ ∀ i ∈ is, i ≠ k ∧ i ≠ k - (l.length : Int)) := by
  induction is with
  | nil =>
    intro l
    refine ⟨by simp [pure, Except.pure], ?_⟩
    intro l' h
    simp only [List.foldlM_nil, pure, Except.pure, Except.ok.injEq] at h
    subst h
    simp
  | cons i is ih =>
    intro l
    simp only [List.foldlM_cons, bind, Except.bind]
    cases h : pySetFalse l i with
    | error e =>
      refine ⟨?_, fun l' hc => by cases hc⟩
      constructor
      · rintro ⟨l', hc⟩; cases hc
      · intro hc
        obtain ⟨l', h'⟩ := pySetFalse_returns l i (hc i List.mem_cons_self)
        rw [h] at h'; cases h'
    | ok l1 =>
      obtain ⟨a1, a2, a3⟩ := pySetFalse_ok l i l1 h
      obtain ⟨b1, b2⟩ := ih l1
      rw [a1] at b1 b2
      constructor
      · simp only
        rw [b1]
        constructor
        · intro hc j hj
          rcases List.mem_cons.1 hj with rfl | hj
          · exact a2
          · exact hc j hj
        · exact fun hc j hj => hc j (List.mem_cons_of_mem _ hj)
      · intro l' h'
        obtain ⟨c1, c2⟩ := b2 l' h'
        refine ⟨c1, ?_⟩
        intro k hk
        rw [c2 k hk, a3 k hk]
        constructor
        · rintro ⟨⟨d1, d2⟩, d3⟩
          refine ⟨d1, ?_⟩
          intro j hj
          rcases List.mem_cons.1 hj with rfl | hj
          · exact d2
          · exact d3 j hj
        · rintro ⟨d1, d2⟩
          exact ⟨⟨d1, d2 i List.mem_cons_self⟩, fun j hj => d2 j (List.mem_cons_of_mem _ hj)⟩

/-- **C28**, the choice of transformations to skip: the transformation into a component is skipped exactly if it has no
code, no jump, and is not the target of a jump (targets before the first component count from the end). The choice
raises exactly if a target is further out. -/
theorem skipable_spec (cs : List JComp) (h : Heap) :
    ((∃ l, detectSkipable cs h = .ok l) ↔
      ∀ c ∈ cs, ∀ id ∈ c.jumps, -(cs.length : Int) ≤ (h id).absolute ∧ (h id).absolute < cs.length) ∧
    ∀ l, detectSkipable cs h = .ok l → l.length = cs.length ∧
      ∀ (k : Nat) (c : JComp), cs[k]? = some c → (l[k]? = some true ↔ c.hasCode = false ∧ c.jumps = [] ∧
        ∀ d ∈ cs, ∀ id ∈ d.jumps, (h id).absolute ≠ k ∧ (h id).absolute ≠ k - (cs.length : Int)) := by
  have ids : ∀ P : Int → Prop, (∀ i ∈ (jumpPairs 0 cs).map fun p => (h p.2).absolute, P i) ↔
      ∀ c ∈ cs, ∀ id ∈ c.jumps, P (h id).absolute := by
    intro P
    constructor
    · intro hc c hcm id hid
      obtain ⟨k, hk⟩ := List.getElem?_of_mem hcm
      exact hc _ (List.mem_map.2 ⟨(k, id), (mem_jumpPairs cs 0 k id).2 ⟨k, c, hk, hid, by omega⟩, rfl⟩)
    · intro hc i hi
      obtain ⟨⟨k, id⟩, h1, rfl⟩ := List.mem_map.1 hi
      obtain ⟨m, c, h2, h3, _⟩ := (mem_jumpPairs cs 0 k id).1 h1
      exact hc c (List.mem_of_getElem? h2) id h3
  obtain ⟨b1, b2⟩ := foldl_pySetFalse ((jumpPairs 0 cs).map fun p => (h p.2).absolute)
    (cs.map fun c => !c.hasCode && c.jumps.isEmpty)
  rw [List.length_map, ids] at b1
  refine ⟨b1, ?_⟩
  intro l hl
  obtain ⟨c1, c2⟩ := b2 l hl
  rw [List.length_map] at c1 c2
  refine ⟨c1, ?_⟩
  intro k c hk
  have hlt : k < cs.length := by
    by_contra hc
    rw [List.getElem?_eq_none (by omega)] at hk
    cases hk
  rw [c2 k hlt, ids fun i => i ≠ k ∧ i ≠ k - (cs.length : Int)]
  rw [List.getElem?_map, hk]
  simp [List.isEmpty_iff, and_assoc]

example : detectSkipable [⟨"a", [], true⟩, ⟨"b", [], false⟩, ⟨"c", [0], false⟩, ⟨"d", [], false⟩] (fun _ => ⟨"b", 0, 1⟩) =
    .ok [false, false, false, true] := by decide +kernel

end Verif.Trace
