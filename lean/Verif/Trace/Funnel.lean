import Verif.Trace.Group

/-! Property C30: the FUNNEL layout compared with the regular one. -/

namespace Verif.Trace
variable {S U : Type}

/-- No group, jump or SPLIT; a component whose transformation is skipped has no code. -/
structure Simple (c : RComp S U) : Prop where
  group : c.group = none
  jumps : c.jumps = []
  split : c.split = none
  skip : c.skip = true → c.trace = none

structure FunnelRel (i : Nat) (L F : St S U) : Prop where
  log : L.log = F.log
  absorbed : L.p.absorbed = F.p.absorbed
  flag : L.p.flag = false
  same : L.p.absorbed = false → L.p = F.p ∧ L.p.index = i + 1

theorem funnel_step (i : Nat) (c : RComp S U) (hc : Simple c) (L F : St S U) (h : FunnelRel i L F) :
    FunnelRel (i + 1) (runComp i c L) (funnelComp i c F) := by
  cases ha : L.p.absorbed with
  | true =>
    have h1 : funnelComp i c F = F := by
      unfold funnelComp
      rw [if_neg (by rw [← h.absorbed, ha]; simp)]
    have h2 : runComp i c L = coords c L := by
      unfold runComp
      rw [if_neg (by rw [coords_absorbed, ha]; simp)]
    rw [h1, h2]
    refine ⟨?_, by rw [coords_absorbed, h.absorbed], ?_, ?_⟩
    · rw [← h.log]; unfold coords; split <;> rfl
    · rw [← h.flag]; unfold coords; split <;> rfl
    · intro hc; rw [coords_absorbed, ha] at hc; cases hc
  | false =>
    obtain ⟨hp, hi⟩ := h.same ha
    have h1 : runComp i c L = body i c (coords c L) := by
      unfold runComp
      rw [if_pos ⟨by rw [coords_absorbed, ha], by rw [coords_index, hi]⟩]
    have hb : body i c (coords c L) = advance (runTrace c (report i c (saveState c (coords c L)))) := by
      simp [body, runJumps, runGroup, hc.group, hc.jumps]
    have hfa : F.p.absorbed = false ∧ F.p.index = i + 1 := by rw [← hp]; exact ⟨ha, hi⟩
    have hfl := h.flag
    have hlog := h.log
    rw [h1, hb]
    unfold funnelComp
    rw [if_pos hfa]
    have hgr : ∀ st : St S U, funnelGroup i c st = st := by intro st; simp [funnelGroup, hc.group]
    rw [hgr]
    cases hs : c.skip with
    | true =>
      have ht := hc.skip hs
      simp only [coords, saveState, report, runTrace, advance, funnelEnter, hs, ht, hc.group, Bool.true_or, if_true]
      refine ⟨hlog, by rw [hp], rfl, fun _ => ⟨?_, ?_⟩⟩
      · rw [hp]; rw [hp] at hfl; simp [hfl]
      · rw [hi]; push_cast; rfl
    | false =>
      have e : report i c (saveState c (coords c L)) =
          { p := { L.p with phys := c.change L.p.phys, flag := false }, save := c.change L.p.phys,
            log := L.log ++ [(i, c.change L.p.phys, L.p.user)] } := by
        simp [coords, saveState, report, hs, hc.group, hfl]
      have e2 : ({ L.p with phys := c.change L.p.phys, flag := false } : Particle S U) =
          { F.p with phys := c.change F.p.phys } := by
        rw [hp]; rw [hp] at hfl; simp [hfl]
      rw [e, e2, hlog]
      have e3 : funnelEnter i c F =
          { p := { F.p with phys := c.change F.p.phys }, save := c.change F.p.phys,
            log := F.log ++ [(i, c.change F.p.phys, F.p.user)] } := by simp [funnelEnter, hs]
      rw [e3, hp]
      refine ⟨rfl, rfl, ?_, fun _ => ⟨rfl, ?_⟩⟩
      · have hf2 : F.p.flag = false := by rw [← hp]; exact hfl
        simp only [advance]
        unfold runTrace
        split
        · exact hf2
        · simp only [checkRestore]
          split
          · simp only [Particle.restoreFrom]; split <;> exact hf2
          · split <;> exact hf2
      · simp only [advance]
        rw [runTrace_index]
        simp only
        rw [hfa.2]; push_cast; rfl

/-- **C30** (partial): without groups, jumps and SPLITs, both layouts report the same components with the same states, for
every behaviour of the components and every particle. Missing: groups, for which the theorems below show that the claim
is false. -/
theorem funnel_agrees_partial (env : Env S U) (cs : List (RComp S U)) (hc : ∀ c ∈ cs, Simple c) (s : S) (u : U) (junk : S) :
    ∃ st, traceLoop env cs 1 (start s u junk) = some st ∧ st.log = (funnel 0 cs (start s u junk)).log := by
  have key : ∀ (cs : List (RComp S U)), (∀ c ∈ cs, Simple c) → ∀ (i : Nat) (L F : St S U), FunnelRel i L F →
      FunnelRel (i + cs.length) (pass env i cs L) (funnel i cs F) := by
    intro cs
    induction cs with
    | nil => intro _ i L F h; exact h
    | cons c cs ih =>
      intro hc i L F h
      simp only [pass, funnel, (hc c List.mem_cons_self).split]
      have := ih (fun d hd => hc d (List.mem_cons_of_mem _ hd)) (i + 1) _ _ (funnel_step i c (hc c List.mem_cons_self) L F h)
      rw [List.length_cons, show i + (cs.length + 1) = i + 1 + cs.length by omega]
      exact this
  obtain ⟨st, h1, _, h3⟩ := trace_ends env cs (start s u junk) (by simp [start]) (by
    intro i c hci
    have := hc c (List.mem_of_getElem? hci)
    exact ⟨by rw [this.jumps]; simp, fun b lid hg => by rw [this.group] at hg; cases hg⟩) (by
    intro c hcm f hf
    rw [(hc c hcm).split] at hf; cases hf) 0
  refine ⟨st, h1, ?_⟩
  rw [h3 rfl]
  have ce : ∀ (n : Nat) (st : St S U), (checkEnd n st).log = st.log := by
    intro n st; unfold checkEnd; split <;> rfl
  rw [ce]
  exact (key cs hc 0 _ _ ⟨rfl, rfl, rfl, fun _ => ⟨rfl, rfl⟩⟩).log

example : (∀ c ∈ ([{ trace := some (catch_ 1 2) }, { skip := true }, { change := (· - 3), trace := some (catch_ 1 0) }] :
    List (RComp Int Unit)), Simple c) ∧
    (funnel 0 ([{ trace := some (catch_ 1 2) }, { skip := true }, { change := (· - 3), trace := some (catch_ 1 0) }] :
      List (RComp Int Unit)) (start 1 () 0)).log = [(0, 1, ()), (2, 0, ())] := by
  refine ⟨?_, by decide +kernel⟩
  intro c hc
  simp only [List.mem_cons, List.not_mem_nil, or_false] at hc
  rcases hc with rfl | rfl | rfl <;> exact ⟨rfl, rfl, rfl, by simp⟩

theorem funnelComp_log (i : Nat) (c : RComp S U) (st : St S U) :
    ∀ e ∈ (funnelComp i c st).log, e ∈ st.log ∨ e.1 = i := by
  have hg : ∀ st : St S U, (funnelGroup i c st).log = st.log := by
    intro st
    unfold funnelGroup
    split
    · rfl
    · split
      · rfl
      · split <;> rfl
  have ht : ∀ st : St S U, (runTrace c st).log = st.log := by
    intro st; unfold runTrace; split <;> rfl
  intro e he
  unfold funnelComp at he
  split at he
  · simp only [advance, hg, ht] at he
    unfold funnelEnter at he
    split at he
    · exact .inl he
    · rcases List.mem_append.1 he with h | h
      · exact .inl h
      · rw [List.mem_singleton.1 h]; exact .inr rfl
  · exact .inl he

/-- After a component, a particle not absorbed is due at the next one, or, if it was scattered in a group, at the last
member. -/
theorem funnelComp_index (i : Nat) (c : RComp S U) (st : St S U) :
    (funnelComp i c st).p.absorbed = true ∨ (funnelComp i c st = st ∧ ¬ (st.p.absorbed = false ∧ st.p.index = i + 1)) ∨
    (∃ b lid, c.group = some (b, lid) ∧ (funnelComp i c st).p.index = lid + 1) ∨
    ((funnelComp i c st).p.index = i + 2 ∧ ∀ b, c.group ≠ some (b, i)) := by
  unfold funnelComp
  split
  · rename_i hx
    have hi : (runTrace c (funnelEnter i c st)).p.index = i + 1 := by
      rw [runTrace_index, ← hx.2]
      unfold funnelEnter
      split <;> rfl
    generalize runTrace c (funnelEnter i c st) = st1 at hi ⊢
    simp only [advance, funnelGroup]
    split
    · rename_i hg
      refine .inr (.inr (.inr ⟨by omega, ?_⟩))
      intro b hb; rw [hg] at hb; cases hb
    · rename_i b lid hg
      split
      · exact .inr (.inr (.inl ⟨b, lid, hg, rfl⟩))
      · split
        · exact .inl rfl
        · rename_i hne
          refine .inr (.inr (.inr ⟨by simp only; omega, ?_⟩))
          intro b' hb
          rw [hg] at hb
          cases hb
          exact hne rfl
  · rename_i hx
    exact .inr (.inl ⟨rfl, hx⟩)

/-- The negation of C30: in the FUNNEL layout no particle ever gets past a group. If component `k` is the last member of
its group, and no group of an earlier component ends after it, no component after `k` is ever entered, whatever the
components do. -/
theorem funnel_stops_at_group (cs : List (RComp S U)) (k : Nat) (c : RComp S U) (b : Bool) (hk : cs[k]? = some c)
    (hg : c.group = some (b, k))
    (hl : ∀ i < k, ∀ d b' lid, cs[i]? = some d → d.group = some (b', lid) → lid ≤ k) (s : S) (u : U) (junk : S) :
    ∀ e ∈ (funnel 0 cs (start s u junk)).log, e.1 ≤ k := by
  have key : ∀ (ds : List (RComp S U)) (i : Nat) (st : St S U), (∀ j, ds[j]? = cs[i + j]?) →
      (∀ e ∈ st.log, e.1 ≤ k) → (st.p.absorbed = true ∨ st.p.index ≤ k + 1) →
      ∀ e ∈ (funnel i ds st).log, e.1 ≤ k := by
    intro ds
    induction ds with
    | nil => intro i st _ h _; exact h
    | cons d ds ih =>
      intro i st hds hlog hst
      have hd : cs[i]? = some d := by simpa using (hds 0).symm
      simp only [funnel]
      apply ih (i + 1)
      · intro j
        have := hds (j + 1)
        rw [show i + 1 + j = i + (j + 1) by omega, ← this]; simp
      · intro e he
        rcases Nat.lt_or_ge k i with hki | hki
        · have hsame : funnelComp i d st = st := by
            unfold funnelComp
            rw [if_neg]
            rintro ⟨h1, h2⟩
            rcases hst with h | h
            · rw [h1] at h; cases h
            · omega
          rw [hsame] at he
          exact hlog e he
        · rcases funnelComp_log i d st e he with h | h
          · exact hlog e h
          · omega
      · rcases funnelComp_index i d st with h | ⟨h, _⟩ | ⟨b', lid, h1, h2⟩ | ⟨h1, h2⟩
        · exact .inl h
        · rw [h]; exact hst
        · rcases Nat.lt_trichotomy i k with hik | rfl | hik
          · have := hl i hik d b' lid hd h1
            right; rw [h2]; omega
          · rw [hk] at hd
            cases hd
            rw [hg] at h1
            cases h1
            right; rw [h2]; omega
          · have hsame : funnelComp i d st = st := by
              unfold funnelComp
              rw [if_neg]
              rintro ⟨h1, h2⟩
              rcases hst with h | h
              · rw [h1] at h; cases h
              · omega
            rw [hsame]; exact hst
        · rcases Nat.lt_trichotomy i k with hik | rfl | hik
          · right; rw [h1]; omega
          · rw [hk] at hd
            cases hd
            exact absurd hg (h2 b)
          · have hsame : funnelComp i d st = st := by
              unfold funnelComp
              rw [if_neg]
              rintro ⟨h1, h2⟩
              rcases hst with h | h
              · rw [h1] at h; cases h
              · omega
            rw [hsame]; exact hst
  exact key cs 0 (start s u junk) (by simp) (by simp [start]) (.inr (by simp [start]; omega))

/-- A group of two followed by a detector: the regular layout takes a particle scattered by the first member to the
detector, the FUNNEL layout offers it to the second member and then stops. -/
theorem funnel_and_regular_differ :
    let cs : List (RComp Int Unit) := [{ group := some (true, 1), trace := some (catch_ 5 0) },
      { group := some (false, 1), trace := some (catch_ 5 0) }, { trace := some (catch_ 0 0) }]
    (traceLoop intEnv cs 1 (start 5 () 0)).map (fun st => st.log.map (·.1)) = some [0, 2] ∧
    ((funnel 0 cs (start 5 () 0)).log.map (·.1)) = [0, 1] := by
  decide +kernel

/-- In the FUNNEL layout a member sees what the members before it have done to the particle. -/
theorem funnel_group_not_restored :
    let cs : List (RComp Int Unit) := [{ group := some (true, 1), trace := some (catch_ 0 100) },
      { group := some (false, 1), trace := some (catch_ 0 0) }]
    (traceLoop intEnv cs 1 (start 5 () 0)).map (·.log) = some [(0, 5, ()), (1, 5, ())] ∧
    (funnel 0 cs (start 5 () 0)).log = [(0, 5, ()), (1, 105, ())] := by
  decide +kernel

end Verif.Trace
