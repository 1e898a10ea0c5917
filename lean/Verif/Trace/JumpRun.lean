import Verif.Trace.Group

/-! Property C69: what the trace loop does with jumps. -/

namespace Verif.Trace
variable {S U : Type}

theorem coords_flag (c : RComp S U) (st : St S U) (h : st.p.flag = true) : coords c st = st := by
  simp [coords, h]

theorem runComp_ignored (i : Nat) (c : RComp S U) (st : St S U) (h : st.p.flag = true) (hi : st.p.index ≠ i + 1) :
    runComp i c st = st := by
  unfold runComp
  rw [coords_flag c st h, if_neg (fun hc => hi hc.2)]

/-- A jumping particle passes components other than its target untouched. -/
theorem pass_ignored (env : Env S U) (cs : List (RComp S U)) : ∀ (i : Nat) (st : St S U), (∀ c ∈ cs, c.split = none) →
    st.p.flag = true → (∀ k, k < cs.length → st.p.index ≠ (i + k : Nat) + 1) → pass env i cs st = st := by
  induction cs with
  | nil => intro i st _ _ _; rfl
  | cons c cs ih =>
    intro i st hs hf hi
    simp only [pass, hs c List.mem_cons_self]
    rw [runComp_ignored i c st hf (by simpa using hi 0 (by simp))]
    apply ih (i + 1) st (fun d hd => hs d (List.mem_cons_of_mem _ hd)) hf
    intro k hk
    have := hi (k + 1) (by simp only [List.length_cons]; omega)
    rwa [show i + (k + 1) = i + 1 + k by omega] at this

/-- **C69**, arrival: a jumping particle due at component `t` is not touched by the components before it, and enters `t`
in the state in which it jumped. -/
theorem jump_arrives (env : Env S U) (pre rest : List (RComp S U)) (c : RComp S U) (st : St S U)
    (hs : ∀ d ∈ pre, d.split = none) (hc : c.split = none) (hf : st.p.flag = true) (ha : st.p.absorbed = false)
    (hi : st.p.index = pre.length + 1) :
    pass env 0 (pre ++ c :: rest) st = pass env (pre.length + 1) rest (body pre.length c st) := by
  rw [pass_append env pre _ 0 st hs, pass_ignored env pre 0 st hs hf (by intro k hk; rw [hi]; push_cast; omega)]
  simp only [Nat.zero_add, pass, hc]
  unfold runComp
  rw [coords_flag c st hf, if_pos ⟨ha, hi⟩]

/-- The jump is taken. -/
def taken (p : Particle S U) (j : RJump S U) : Prop :=
  if j.iterate then p.logic j.key + 1 < j.cond p.phys p.user else j.cond p.phys p.user ≠ 0

theorem runJump_state (p : Particle S U) (j : RJump S U) : (runJump p j).phys = p.phys ∧ (runJump p j).user = p.user ∧
    (runJump p j).absorbed = p.absorbed ∧ (runJump p j).scattered = p.scattered ∧ (runJump p j).restore = p.restore ∧
    (¬ j.iterate = true → (runJump p j).logic = p.logic) ∧ (∀ k, k ≠ j.key → (runJump p j).logic k = p.logic k) := by
  unfold runJump
  split
  · rename_i hj
    split <;> refine ⟨rfl, rfl, rfl, rfl, rfl, fun h => absurd hj h, fun k hk => by simp [hk]⟩
  · split <;> exact ⟨rfl, rfl, rfl, rfl, rfl, fun _ => rfl, fun _ _ => rfl⟩

theorem runJump_taken (p : Particle S U) (j : RJump S U) :
    (taken p j → (runJump p j).index = j.target ∧ (runJump p j).flag = true ∧
      (j.iterate = true → (runJump p j).logic j.key = p.logic j.key + 1)) ∧
    (¬ taken p j → (runJump p j).index = p.index ∧ (runJump p j).flag = p.flag ∧
      (j.iterate = true → (runJump p j).logic j.key = 0)) := by
  unfold runJump taken
  split
  · rename_i hj
    constructor
    · intro h; rw [if_pos h]; exact ⟨rfl, rfl, fun _ => by simp⟩
    · intro h; rw [if_neg h]; exact ⟨rfl, rfl, fun _ => by simp⟩
  · rename_i hj
    constructor
    · intro h; rw [if_pos h]; exact ⟨rfl, rfl, fun h => absurd h hj⟩
    · intro h; rw [if_neg h]; exact ⟨rfl, rfl, fun h => absurd h hj⟩

/-- **C69**, departure: of several jumps the last one whose condition holds decides. The condition of each is that of the
particle as the component leaves it. -/
theorem last_jump_decides (js ks : List (RJump S U)) (j : RJump S U) (p : Particle S U)
    (hn : ∀ k ∈ j :: ks, k.iterate = false) (ht : j.cond p.phys p.user ≠ 0) (hk : ∀ k ∈ ks, k.cond p.phys p.user = 0) :
    ((js ++ j :: ks).foldl runJump p).index = j.target ∧ ((js ++ j :: ks).foldl runJump p).flag = true ∧
    ((js ++ j :: ks).foldl runJump p).phys = p.phys ∧ ((js ++ j :: ks).foldl runJump p).user = p.user := by
  have same : ∀ (js : List (RJump S U)) (p : Particle S U), (js.foldl runJump p).phys = p.phys ∧
      (js.foldl runJump p).user = p.user := by
    intro js
    induction js with
    | nil => exact fun _ => ⟨rfl, rfl⟩
    | cons j js ih =>
      intro p
      have h := runJump_state p j
      exact ⟨(ih _).1.trans h.1, (ih _).2.trans h.2.1⟩
  have none : ∀ (ks : List (RJump S U)) (p : Particle S U), (∀ k ∈ ks, k.iterate = false) →
      (∀ k ∈ ks, k.cond p.phys p.user = 0) → ks.foldl runJump p = p := by
    intro ks
    induction ks with
    | nil => exact fun _ _ _ => rfl
    | cons k ks ih =>
      intro p h1 h2
      have : runJump p k = p := by
        unfold runJump
        rw [if_neg (by rw [h1 k List.mem_cons_self]; simp), if_neg (by rw [h2 k List.mem_cons_self]; simp)]
      simp only [List.foldl_cons, this]
      exact ih p (fun x hx => h1 x (List.mem_cons_of_mem _ hx)) (fun x hx => h2 x (List.mem_cons_of_mem _ hx))
  rw [List.foldl_append, List.foldl_cons]
  obtain ⟨s1, s2⟩ := same js p
  generalize js.foldl runJump p = q at *
  have hj := (runJump_taken q j).1 (by
    unfold taken
    rw [if_neg (by rw [hn j List.mem_cons_self]; simp), s1, s2]
    exact ht)
  have hst := runJump_state q j
  rw [none ks _ (fun k hk' => hn k (List.mem_cons_of_mem _ hk')) (by
    intro k hk'
    rw [hst.1, hst.2.1, s1, s2]
    exact hk k hk')]
  exact ⟨hj.1, hj.2.1, hst.1.trans s1, hst.2.1.trans s2⟩

/-! ### Iterated jumps -/

/-- A component without group and SPLIT, not skipped, which never absorbs or restores. -/
structure Open (c : RComp S U) : Prop where
  group : c.group = none
  split : c.split = none
  skip : c.skip = false
  trace : ∀ f, c.trace = some f → ∀ s u, (f s u).absorbed = false ∧ (f s u).restore = false

/-- The particle is not absorbed and nothing is to be restored. -/
def Alive (st : St S U) : Prop := st.p.absorbed = false ∧ st.p.restore = false

theorem runTrace_open (c : RComp S U) (hc : Open c) (st : St S U) (h : Alive st) :
    Alive (runTrace c st) ∧ (runTrace c st).p.flag = st.p.flag ∧ (runTrace c st).p.logic = st.p.logic ∧
    (runTrace c st).log = st.log := by
  unfold runTrace
  split
  · exact ⟨h, rfl, rfl, rfl⟩
  · rename_i f hf
    obtain ⟨h1, h2⟩ := hc.trace f hf st.p.phys st.p.user
    obtain ⟨h3, h4⟩ := h
    by_cases hw : whenTrue c st.p = true
    · simp [checkRestore, hw, callTrace, h1, h2, Alive]
    · simp [checkRestore, hw, h3, h4, Alive]

/-- The visited components. -/
def visited (st : St S U) : List Nat := st.log.map (·.1)

/-- A body without its jumps. -/
theorem body_open (i : Nat) (c : RComp S U) (hc : Open c) (st : St S U) (h : Alive st) (hi : st.p.index = i + 1) :
    ∃ q : St S U, body i c st = advance { q with p := c.jumps.foldl runJump q.p } ∧ Alive q ∧ q.p.flag = false ∧
      q.p.logic = st.p.logic ∧ q.p.index = i + 1 ∧ visited q = visited st ++ [i] := by
  refine ⟨runTrace c (report i c (saveState c st)), ?_, ?_⟩
  · simp only [body, runGroup, hc.group]; rfl
  · have hp : (report i c (saveState c st)).p = { st.p with flag := false } := by
      rw [report_p]
      simp [saveState, hc.group, hc.skip]
    have hl : visited (report i c (saveState c st)) = visited st ++ [i] := by
      simp [visited, report, hc.skip, saveState, hc.group]
    obtain ⟨a1, a2, a3, a4⟩ := runTrace_open c hc (report i c (saveState c st)) (by unfold Alive; rw [hp]; exact h)
    refine ⟨a1, by rw [a2, hp], by rw [a3, hp], by rw [runTrace_index, hp]; exact hi, ?_⟩
    rw [← hl]; unfold visited; rw [a4]

/-- Components without jumps are visited in order. -/
theorem pass_open (env : Env S U) (cs : List (RComp S U)) : ∀ (i : Nat) (st : St S U),
    (∀ c ∈ cs, Open c ∧ c.jumps = []) → Alive st → st.p.index = i + 1 → st.p.flag = false →
    Alive (pass env i cs st) ∧ (pass env i cs st).p.index = (i + cs.length : Nat) + 1 ∧ (pass env i cs st).p.flag = false ∧
    (pass env i cs st).p.logic = st.p.logic ∧
    visited (pass env i cs st) = visited st ++ List.range' i cs.length := by
  induction cs with
  | nil => intro i st _ ha hi hf; exact ⟨ha, hi, hf, rfl, by simp [pass]⟩
  | cons c cs ih =>
    intro i st hc ha hi hf
    obtain ⟨ho, hj⟩ := hc c List.mem_cons_self
    have hco : Alive (coords c st) ∧ (coords c st).p.index = i + 1 ∧ (coords c st).p.logic = st.p.logic ∧
        visited (coords c st) = visited st := by
      unfold coords
      split
      · exact ⟨ha, hi, rfl, rfl⟩
      · exact ⟨ha, hi, rfl, rfl⟩
    obtain ⟨b1, b2, b3, b4⟩ := hco
    have hr : runComp i c st = body i c (coords c st) := by
      unfold runComp; rw [if_pos ⟨b1.1, b2⟩]
    obtain ⟨q, q1, q2, q3, q4, q5, q6⟩ := body_open i c ho _ b1 b2
    rw [hj] at q1
    simp only [pass, ho.split]
    rw [hr, q1]
    have := ih (i + 1) (advance { q with p := [].foldl runJump q.p }) (fun d hd => hc d (List.mem_cons_of_mem _ hd)) q2
      (by simp only [advance, List.foldl_nil]; rw [q5]; push_cast; rfl) q3
    obtain ⟨c1, c2, c3, c4, c5⟩ := this
    refine ⟨c1, ?_, c3, ?_, ?_⟩
    · rw [c2, List.length_cons]; push_cast; omega
    · rw [c4, ← b3, ← q4]; rfl
    · rw [c5, List.length_cons, List.range'_succ]
      have : visited (advance { q with p := [].foldl runJump q.p }) = visited q := rfl
      rw [this, q6, b4]
      simp

/-- One round, for a particle due at component `a`, at or before the component `c` with an iterated jump to `t`. -/
theorem round_iterate (env : Env S U) (pre post : List (RComp S U)) (c : RComp S U) (key : Nat) (n : Int) (t : Nat)
    (hpre : ∀ d ∈ pre, Open d ∧ d.jumps = []) (hpost : ∀ d ∈ post, Open d ∧ d.jumps = []) (ho : Open c)
    (hj : c.jumps = [⟨true, key, fun _ _ => n, t⟩]) (ht : t ≤ pre.length) (a : Nat) (hale : a ≤ pre.length) (st : St S U)
    (h : Alive st) (hi : st.p.index = a + 1) (hf : st.p.flag = true ∨ a = 0 ∧ st.p.flag = false) :
    let r := pass env 0 (pre ++ c :: post) st
    let here := visited st ++ List.range' a (pre.length + 1 - a)
    (st.p.logic key + 1 < n → Alive r ∧ r.p.index = t + 1 ∧ r.p.flag = true ∧ r.p.logic key = st.p.logic key + 1 ∧
      visited r = here) ∧
    (¬ st.p.logic key + 1 < n → Alive r ∧ r.p.index = (pre ++ c :: post).length + 1 ∧
      r.p.logic key = 0 ∧ visited r = here ++ List.range' (pre.length + 1) post.length) := by
  intro r here
  -- up to the component with the jump
  have hup : ∃ q, r = pass env (pre.length + 1) post (body pre.length c q) ∧ Alive q ∧ q.p.index = pre.length + 1 ∧
      q.p.logic = st.p.logic ∧ visited q = visited st ++ List.range' a (pre.length - a) := by
    have hr : r = pass env pre.length (c :: post) (pass env 0 pre st) := by
      show pass env 0 (pre ++ c :: post) st = _
      rw [pass_append env pre _ 0 st fun d hd => (hpre d hd).1.split, Nat.zero_add]
    -- the state when the component is reached
    have reach : ∀ q : St S U, Alive q → q.p.index = pre.length + 1 →
        pass env pre.length (c :: post) q = pass env (pre.length + 1) post (body pre.length c (coords c q)) := by
      intro q h1 h2
      simp only [pass, ho.split]
      congr 1
      unfold runComp
      rw [if_pos ⟨by rw [coords_absorbed]; exact h1.1, by rw [coords_index]; exact h2⟩]
    have hcq : ∀ q : St S U, Alive q → Alive (coords c q) ∧ (coords c q).p.index = q.p.index ∧
        (coords c q).p.logic = q.p.logic ∧ visited (coords c q) = visited q := by
      intro q hq
      unfold coords
      split <;> exact ⟨hq, rfl, rfl, rfl⟩
    rcases Nat.lt_or_ge a pre.length with hlt | hge
    · -- the particle enters component `a` of `pre`
      rcases hf with hf | ⟨ha0, hf⟩
      · -- by a jump
        have hsplit : pre = pre.take a ++ pre[a] :: pre.drop (a + 1) := by
          rw [List.getElem_cons_drop, List.take_append_drop]
        have hmem : ∀ d ∈ pre.drop (a + 1), Open d ∧ d.jumps = [] := fun d hd => hpre d (List.mem_of_mem_drop hd)
        have hlen : (pre.take a).length = a := by rw [List.length_take]; omega
        have hj := jump_arrives env (pre.take a) (pre.drop (a + 1)) pre[a] st
          (fun d hd => (hpre d (List.mem_of_mem_take hd)).1.split) (hpre _ (List.getElem_mem hlt)).1.split hf h.1
          (by rw [hlen]; exact hi)
        rw [← hsplit, hlen] at hj
        obtain ⟨q, q1, q2, q3, q4, q5, q6⟩ := body_open a pre[a] (hpre _ (List.getElem_mem hlt)).1 st h hi
        rw [(hpre _ (List.getElem_mem hlt)).2] at q1
        obtain ⟨c1, c2, c3, c4, c5⟩ := pass_open env (pre.drop (a + 1)) (a + 1) (body a pre[a] st) hmem
          (by rw [q1]; exact q2) (by rw [q1]; simp only [advance, List.foldl_nil]; rw [q5]; push_cast; rfl)
          (by rw [q1]; exact q3)
        rw [← hj] at c1 c2 c3 c4 c5
        have hidx : (pass env 0 pre st).p.index = pre.length + 1 := by
          rw [c2, List.length_drop]; push_cast; omega
        obtain ⟨d1, d2, d3, d4⟩ := hcq _ c1
        refine ⟨coords c (pass env 0 pre st), by rw [hr, reach _ c1 hidx], d1, by rw [d2, hidx], ?_, ?_⟩
        · rw [d3, c4, q1, ← q4]; rfl
        · rw [d4, c5, q1]
          have : visited (advance { q with p := [].foldl runJump q.p }) = visited q := rfl
          rw [this, q6, List.length_drop, List.append_assoc]
          congr 1
          rw [show pre.length - a = (pre.length - (a + 1)) + 1 by omega, List.range'_succ]
          rfl
      · subst ha0
        obtain ⟨c1, c2, c3, c4, c5⟩ := pass_open env pre 0 st hpre h hi hf
        have hidx : (pass env 0 pre st).p.index = pre.length + 1 := by rw [c2]; push_cast; omega
        obtain ⟨d1, d2, d3, d4⟩ := hcq _ c1
        exact ⟨coords c (pass env 0 pre st), by rw [hr, reach _ c1 hidx], d1, by rw [d2, hidx], by rw [d3, c4],
          by rw [d4, c5]; simp⟩
    · have hae : a = pre.length := by omega
      subst hae
      rcases hf with hf | ⟨ha0, hf⟩
      · have e : pass env 0 pre st = st := pass_ignored env pre 0 st (fun d hd => (hpre d hd).1.split) hf
          (by intro k hk; rw [hi]; push_cast; omega)
        obtain ⟨d1, d2, d3, d4⟩ := hcq _ h
        exact ⟨coords c st, by rw [hr, e, reach _ h hi], d1, by rw [d2, hi], d3, by rw [d4]; simp⟩
      · have hnil : pre = [] := List.length_eq_zero_iff.1 ha0
        have e : pass env 0 pre st = st := by rw [hnil]; rfl
        obtain ⟨d1, d2, d3, d4⟩ := hcq _ h
        exact ⟨coords c st, by rw [hr, e, reach _ h hi], d1, by rw [d2, hi], d3, by rw [d4]; simp⟩
  obtain ⟨q, hr, hq, hqi, hql, hqv⟩ := hup
  obtain ⟨w, w1, w2, w3, w4, w5, w6⟩ := body_open pre.length c ho q hq hqi
  rw [hj] at w1
  simp only [List.foldl_cons, List.foldl_nil] at w1
  have hwl : w.p.logic key = st.p.logic key := by rw [w4, hql]
  have hst := runJump_state w.p ⟨true, key, fun _ _ => n, (t : Int)⟩
  have htk := runJump_taken w.p ⟨true, key, fun _ _ => n, (t : Int)⟩
  have hvis : visited w = here := by
    rw [w6, hqv, List.append_assoc]
    congr 1
    rw [show pre.length + 1 - a = (pre.length - a) + 1 by omega, List.range'_concat]
    congr 2
    omega
  rw [hr, w1]
  constructor
  · intro hlt
    obtain ⟨k1, k2, k3⟩ := htk.1 (by simp only [taken, if_true]; rw [hwl]; exact hlt)
    have hig := pass_ignored env post (pre.length + 1)
      (advance { w with p := runJump w.p ⟨true, key, fun _ _ => n, (t : Int)⟩ })
      (fun d hd => (hpost d hd).1.split) k2 (by
        intro k hk
        simp only [advance, k1]
        push_cast
        omega)
    rw [hig]
    refine ⟨⟨hst.2.2.1.trans w2.1, hst.2.2.2.2.1.trans w2.2⟩, by simp only [advance, k1], k2,
      by simp only [advance]; rw [k3 rfl, hwl], hvis⟩
  · intro hlt
    obtain ⟨k1, k2, k3⟩ := htk.2 (by simp only [taken, if_true]; rw [hwl]; exact hlt)
    obtain ⟨c1, c2, c3, c4, c5⟩ := pass_open env post (pre.length + 1)
      (advance { w with p := runJump w.p ⟨true, key, fun _ _ => n, (t : Int)⟩ }) hpost
      ⟨hst.2.2.1.trans w2.1, hst.2.2.2.2.1.trans w2.2⟩ (by simp only [advance, k1]; rw [w5]; push_cast; rfl) (by
        show (runJump w.p _).flag = false
        rw [k2, w3])
    refine ⟨c1, ?_, ?_, ?_⟩
    · rw [c2, List.length_append, List.length_cons]; push_cast; omega
    · rw [c4]; exact k3 rfl
    · rw [c5]
      congr 1

/-- **C69**, iteration: `JUMP t ITERATE n` in component `i = pre.length`, with `t` at or before `i`, runs the components
`0..i` once, the components `t..i` again until they have been run `n` times in all, and then the components after `i`.
(A number below 1 counts as 1.) The loop ends. -/
theorem iterated_jump (env : Env S U) (pre post : List (RComp S U)) (c : RComp S U) (key : Nat) (n : Nat) (t : Nat)
    (hpre : ∀ d ∈ pre, Open d ∧ d.jumps = []) (hpost : ∀ d ∈ post, Open d ∧ d.jumps = []) (ho : Open c)
    (hj : c.jumps = [⟨true, key, fun _ _ => n, t⟩]) (ht : t ≤ pre.length) (s : S) (u : U) (junk : S) :
    ∃ fuel st, traceLoop env (pre ++ c :: post) fuel (start s u junk) = some st ∧
      visited st = List.range' 0 (pre.length + 1) ++ (List.replicate (n - 1) (List.range' t (pre.length + 1 - t))).flatten ++
        List.range' (pre.length + 1) post.length := by
  -- from the start of a round, with `m` more jumps to do
  have key_ : ∀ (m : Nat) (a : Nat) (st : St S U), a ≤ pre.length → Alive st → st.p.index = a + 1 →
      (st.p.flag = true ∨ a = 0 ∧ st.p.flag = false) → 0 ≤ st.p.logic key →
      st.p.logic key + 1 + m = max n 1 →
      ∃ fuel st', traceLoop env (pre ++ c :: post) fuel st = some st' ∧
        visited st' = visited st ++ List.range' a (pre.length + 1 - a) ++
          (List.replicate m (List.range' t (pre.length + 1 - t))).flatten ++ List.range' (pre.length + 1) post.length := by
    intro m
    induction m with
    | zero =>
      intro a st hale h hi hf hl hm
      obtain ⟨_, hr⟩ := round_iterate env pre post c key n t hpre hpost ho hj ht a hale st h hi hf
      obtain ⟨r1, r2, r3, r4⟩ := hr (by omega)
      refine ⟨1, checkEnd (pre ++ c :: post).length (pass env 0 (pre ++ c :: post) st), ?_, ?_⟩
      · have : (checkEnd (pre ++ c :: post).length (pass env 0 (pre ++ c :: post) st)).p.absorbed = true := by
          unfold checkEnd
          rw [if_pos (by rw [r2]; omega)]
        simp only [traceLoop]
        rw [if_neg (by rw [h.1]; simp), if_pos this]
      · have : visited (checkEnd (pre ++ c :: post).length (pass env 0 (pre ++ c :: post) st)) =
            visited (pass env 0 (pre ++ c :: post) st) := by
          unfold checkEnd; split <;> rfl
        rw [this, r4]
        simp
    | succ m ih =>
      intro a st hale h hi hf hl hm
      obtain ⟨hr, _⟩ := round_iterate env pre post c key n t hpre hpost ho hj ht a hale st h hi hf
      obtain ⟨r1, r2, r3, r4, r5⟩ := hr (by omega)
      have hce : checkEnd (pre ++ c :: post).length (pass env 0 (pre ++ c :: post) st) =
          pass env 0 (pre ++ c :: post) st := by
        unfold checkEnd
        rw [if_neg (by rw [r2, List.length_append, List.length_cons]; push_cast; omega)]
      obtain ⟨fuel, st', f1, f2⟩ := ih t _ ht r1 r2 (.inl r3) (by rw [r4]; omega) (by rw [r4]; push_cast at hm ⊢; omega)
      refine ⟨fuel + 1, st', ?_, ?_⟩
      · simp only [traceLoop]
        rw [if_neg (by rw [h.1]; simp), hce, f1]
      · rw [f2, r5, List.replicate_succ, List.flatten_cons]
        simp
  obtain ⟨fuel, st, h1, h2⟩ := key_ (n - 1) 0 (start s u junk) (by omega) ⟨rfl, rfl⟩ rfl (.inr ⟨rfl, rfl⟩) (by simp [start]) (by
    show (0 : Int) + 1 + ((n - 1 : Nat) : Int) = ((max n 1 : Nat) : Int)
    omega)
  exact ⟨fuel, st, h1, by rw [h2]; simp [visited, start]⟩

/-- The components 1 and 2 of four are run 3 times. -/
example : (traceLoop intEnv ([{ trace := some (catch_ 0 1) }, { change := (· - 1), trace := some (catch_ 0 1) },
    { trace := some (catch_ 0 1), jumps := [⟨true, 0, fun _ _ => 3, 1⟩] }, {}] : List (RComp Int Unit)) 3
    (start 5 () 0)).map visited = some [0, 1, 2, 1, 2, 1, 2, 3] := by decide +kernel

/-- The negation of C69: a member of a group which scatters the particle and jumps does not jump; the particle leaves the
group, but without the coordinate transformations, which a jump switches off. The components are at 0, 10 and 20; the
particle, at 5, should be seen at -15 by the last one. -/
theorem jump_in_group_wrong :
    let cs : List (RComp Int Unit) :=
      [{ group := some (true, 1), trace := some (catch_ 5 0), jumps := [⟨false, 0, fun _ _ => 1, 0⟩] },
       { change := (· - 10), group := some (false, 1), trace := some (catch_ 5 0) },
       { change := (· - 10), trace := some (catch_ 99 0) }]
    (traceLoop intEnv cs 1 (start 5 () 0)).map (·.log) = some [(0, 5, ()), (2, 5, ())] := by
  decide +kernel

end Verif.Trace
