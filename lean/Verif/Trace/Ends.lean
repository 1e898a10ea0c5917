import Verif.Trace.RayModel
import Mathlib.Data.List.Basic

/-! Property C31: the trace loop ends. -/

namespace Verif.Trace
variable {S U : Type}

theorem coords_index (c : RComp S U) (st : St S U) : (coords c st).p.index = st.p.index := by
  unfold coords; split <;> rfl

theorem coords_absorbed (c : RComp S U) (st : St S U) : (coords c st).p.absorbed = st.p.absorbed := by
  unfold coords; split <;> rfl

theorem saveState_index (c : RComp S U) (st : St S U) : (saveState c st).p.index = st.p.index := by
  simp only [saveState]
  split
  · rfl
  · split <;> rfl

theorem report_p (i : Nat) (c : RComp S U) (st : St S U) : (report i c st).p = st.p := by
  unfold report; split <;> rfl

theorem runTrace_index (c : RComp S U) (st : St S U) : (runTrace c st).p.index = st.p.index := by
  unfold runTrace
  split
  · rfl
  · simp only [checkRestore]
    split
    · simp only [Particle.restoreFrom]; split <;> rfl
    · split <;> rfl

theorem runJump_index (p : Particle S U) (j : RJump S U) :
    (runJump p j).index = p.index ∨ (runJump p j).index = j.target := by
  unfold runJump
  split
  · split
    · exact .inr rfl
    · exact .inl rfl
  · split
    · exact .inr rfl
    · exact .inl rfl

theorem foldl_runJump_index (js : List (RJump S U)) : ∀ (p : Particle S U),
    (js.foldl runJump p).index = p.index ∨ ∃ j ∈ js, (js.foldl runJump p).index = j.target := by
  induction js with
  | nil => exact fun _ => .inl rfl
  | cons j js ih =>
    intro p
    simp only [List.foldl_cons]
    rcases ih (runJump p j) with h | ⟨k, hk, h⟩
    · rcases runJump_index p j with h' | h'
      · exact .inl (h.trans h')
      · exact .inr ⟨j, List.mem_cons_self, h.trans h'⟩
    · exact .inr ⟨k, List.mem_cons_of_mem _ hk, h⟩

theorem runGroup_index (i : Nat) (c : RComp S U) (st : St S U) :
    (runGroup i c st).p.index = st.p.index ∨ ∃ b lid, c.group = some (b, lid) ∧ (runGroup i c st).p.index = 1 + lid := by
  unfold runGroup
  split
  · exact .inl rfl
  · rename_i b lid hg
    split
    · exact .inr ⟨b, lid, hg, rfl⟩
    · split <;> exact .inl rfl

/-- The component `c`, number `i`, sends particles on to later components only: its jumps go forward, and its group does
not end before it. -/
def Forward (i : Nat) (c : RComp S U) : Prop :=
  (∀ j ∈ c.jumps, (i : Int) < j.target) ∧ ∀ b lid, c.group = some (b, lid) → i ≤ lid

theorem body_index (i : Nat) (c : RComp S U) (st : St S U) (hf : Forward i c) (hi : st.p.index = i + 1) :
    (i : Int) + 2 ≤ (body i c st).p.index := by
  simp only [body, advance]
  have h0 : (runTrace c (report i c (saveState c st))).p.index = i + 1 := by
    rw [runTrace_index, report_p, saveState_index, hi]
  have h1 : (i : Int) + 1 ≤ (runJumps c (runTrace c (report i c (saveState c st)))).p.index := by
    unfold runJumps
    rcases foldl_runJump_index c.jumps (runTrace c (report i c (saveState c st))).p with h | ⟨j, hj, h⟩
    · rw [h, h0]; omega
    · rw [h]
      have := hf.1 j hj
      omega
  rcases runGroup_index i c (runJumps c (runTrace c (report i c (saveState c st)))) with h | ⟨b, lid, hg, h⟩
  · rw [h]; omega
  · rw [h]
    have := hf.2 b lid hg
    omega

/-- Absorbed, or sent to the component number `i` (from 0) or later. -/
def Due (i : Nat) (st : St S U) : Prop := st.p.absorbed = true ∨ (i : Int) + 1 ≤ st.p.index

theorem runComp_due (i : Nat) (c : RComp S U) (st : St S U) (hf : Forward i c) (h : Due i st) : Due (i + 1) (runComp i c st) := by
  unfold runComp
  split
  · rename_i hc
    right
    have := body_index i c (coords c st) hf hc.2
    push_cast
    omega
  · rename_i hc
    rw [coords_absorbed, coords_index] at hc
    unfold Due
    rw [coords_absorbed, coords_index]
    cases ha : st.p.absorbed with
    | true => exact .inl rfl
    | false =>
      right
      rcases h with h | h
      · rw [ha] at h; cases h
      · have : st.p.index ≠ i + 1 := fun e => hc ⟨ha, e⟩
        push_cast
        omega

theorem repeated_last (f : St S U → St S U) (P : St S U → Prop) (hf : ∀ st, P (f st)) : ∀ (n : Nat) (st : St S U),
    0 < n → P (repeated f n st) := by
  intro n
  induction n with
  | zero => intro st h; omega
  | succ n ih =>
    intro st _
    cases n with
    | zero => exact hf st
    | succ n => exact ih (f st) (by omega)

/-- All SPLITs make at least one copy. -/
def PositiveSplits (cs : List (RComp S U)) : Prop := ∀ c ∈ cs, ∀ f, c.split = some f → ∀ s u, 0 < f s u

theorem pass_due (env : Env S U) (cs : List (RComp S U)) : ∀ (i : Nat) (st : St S U),
    (∀ k c, cs[k]? = some c → Forward (i + k) c) → PositiveSplits cs → Due i st →
    Due (i + cs.length) (pass env i cs st) := by
  induction cs with
  | nil => intro i st _ _ h; exact h
  | cons c cs ih =>
    intro i st hf hs h
    have hf0 : Forward i c := by simpa using hf 0 c rfl
    have ih' := fun st' (hd : Due (i + 1) st') => ih (i + 1) st' (by
      intro k d hk
      have := hf (k + 1) d (by simpa using hk)
      rwa [show i + (k + 1) = i + 1 + k by omega] at this) (fun d hd => hs d (List.mem_cons_of_mem _ hd)) hd
    have e : i + (c :: cs).length = i + 1 + cs.length := by simp only [List.length_cons]; omega
    rw [e]
    simp only [pass]
    split
    · exact ih' _ (runComp_due i c st hf0 h)
    · rename_i f hsp
      split
      · rename_i ha
        exact .inl ha
      · rename_i ha
        have hpos := hs c List.mem_cons_self f hsp st.p.phys st.p.user
        apply repeated_last
        · intro st'
          apply ih'
          apply runComp_due i c _ hf0
          rcases h with h | h
          · exact absurd h ha
          · exact .inr h
        · omega

/-- **C31**, the loop ends: if no component sends particles back and all SPLITs make at least one copy, the loop ends
after its first round, for every particle and every behaviour of the components. -/
theorem trace_ends (env : Env S U) (cs : List (RComp S U)) (st : St S U) (hi : 1 ≤ st.p.index)
    (hf : ∀ i c, cs[i]? = some c → Forward i c) (hs : PositiveSplits cs) (fuel : Nat) :
    ∃ st', traceLoop env cs (fuel + 1) st = some st' ∧ st'.p.absorbed = true ∧
      (st.p.absorbed = false → st' = checkEnd cs.length (pass env 0 cs st)) := by
  have hd : Due (0 + cs.length) (pass env 0 cs st) :=
    pass_due env cs 0 st (by simpa using hf) hs (.inr (by push_cast; omega))
  have key : ∀ (st' : St S U) (n : Nat), st'.p.absorbed = true → traceLoop env cs n st' = some st' := by
    intro st' n h
    cases n <;> simp [traceLoop, h]
  simp only [traceLoop]
  by_cases ha : st.p.absorbed = true
  · exact ⟨st, by rw [if_pos ha], ha, fun h => by rw [ha] at h; cases h⟩
  · rw [if_neg ha]
    have hab : (checkEnd cs.length (pass env 0 cs st)).p.absorbed = true := by
      unfold checkEnd
      rcases hd with h | h
      · split
        · rfl
        · exact h
      · rw [if_pos (by omega)]
    exact ⟨_, key _ _ hab, hab, fun _ => rfl⟩

/-- A component which is followed by a forward jump, a group of two, and a split meet the hypotheses. -/
example : ∃ cs : List (RComp Int Unit), (∀ i c, cs[i]? = some c → Forward i c) ∧ PositiveSplits cs ∧ cs.length = 3 ∧
    (∃ c ∈ cs, c.jumps ≠ []) ∧ (∃ c ∈ cs, c.group ≠ none) ∧ ∃ c ∈ cs, c.split.isSome := by
  refine ⟨[{ jumps := [⟨false, 0, fun _ _ => 1, 1⟩], split := some fun _ _ => 3 }, { group := some (true, 2) },
    { group := some (false, 2) }], ?_, ?_, rfl, ⟨_, List.mem_cons_self, by simp⟩,
    ⟨_, List.mem_cons_of_mem _ List.mem_cons_self, by simp⟩, ⟨_, List.mem_cons_self, rfl⟩⟩
  · intro i c h
    match i, h with
    | 0, h => cases h; exact ⟨by simp, by simp⟩
    | 1, h => cases h; exact ⟨by simp, by simp⟩
    | 2, h => cases h; exact ⟨by simp, by simp⟩
  · intro c hc f hf
    simp only [List.mem_cons, List.not_mem_nil, or_false] at hc
    rcases hc with rfl | rfl | rfl
    · cases hf; intros; exact (by decide : (0 : Int) < 3)
    · cases hf
    · cases hf

/-- The negation of C31 for `SPLIT 0`: the particle is never absorbed and never sent on; the loop does not end. -/
theorem split_zero_never_ends (env : Env Int Unit) (fuel : Nat) :
    traceLoop env [({ split := some fun _ _ => 0 } : RComp Int Unit)] fuel (start 5 () 0) = none := by
  induction fuel with
  | zero => rfl
  | succ n ih => exact ih

/-- The negation of C31 for a jump to before the first component, which the translator accepts
(`jump_before_first_accepted`): the index becomes 0, no component takes the particle, the loop does not end. -/
theorem jump_before_first_never_ends (env : Env Int Unit) (fuel : Nat) :
    traceLoop env [({ jumps := [⟨false, 0, fun _ _ => 1, -1⟩] } : RComp Int Unit)] fuel (start 5 () 0) = none := by
  have key : ∀ (n : Nat) (st : St Int Unit), st.p.absorbed = false → st.p.index = 0 →
      traceLoop env [({ jumps := [⟨false, 0, fun _ _ => 1, -1⟩] } : RComp Int Unit)] n st = none := by
    intro n
    induction n with
    | zero => intro st h _; simp [traceLoop, h]
    | succ n ih =>
      intro st h1 h2
      have e : runComp 0 ({ jumps := [⟨false, 0, fun _ _ => 1, -1⟩] } : RComp Int Unit) st =
          coords ({ jumps := [⟨false, 0, fun _ _ => 1, -1⟩] } : RComp Int Unit) st := by
        unfold runComp
        rw [if_neg]
        rw [coords_index, h2]
        simp
      simp only [traceLoop, h1, pass, e, checkEnd, coords_index, h2]
      rw [if_neg (by simp), if_neg (by simp)]
      exact ih _ (by rw [coords_absorbed, h1]) (by rw [coords_index, h2])
  cases fuel with
  | zero => rfl
  | succ n => exact key n _ rfl rfl

end Verif.Trace
