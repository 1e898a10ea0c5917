import Verif.Trace.Ends
import Mathlib.Logic.Equiv.Defs

/-!
The trace loop, whose components see particles in their own coordinates, compared with an ideal loop in which particles
always have absolute coordinates and each component converts to and from its own.
-/

namespace Verif.Trace
variable {S U : Type}

/-- The component as seen from outside: `F` takes absolute coordinates to its own, `B` to those of the particle when it
arrives (in which the number of copies of a SPLIT is computed). No coordinate transformation remains. -/
def ideal (F B : S ≃ S) (c : RComp S U) : RComp S U :=
  { c with
    change := id
    trace := c.trace.map fun f s u => { f (F s) u with phys := F.symm (f (F s) u).phys }
    cond := c.cond.map fun w s u => w (F s) u
    split := c.split.map fun f s u => f (B s) u }

/-- The coordinates of a particle arriving at a component: those of the last component that was not skipped. -/
def arriving (F : Nat → S ≃ S) (skip : Nat → Bool) : Nat → S ≃ S
  | 0 => Equiv.refl S
  | i + 1 => if skip i then arriving F skip i else F i

/-- The ideal loop. -/
def idealFrom (F : Nat → S ≃ S) (skip : Nat → Bool) (i : Nat) : List (RComp S U) → List (RComp S U)
  | [] => []
  | c :: cs => ideal (F i) (arriving F skip i) c :: idealFrom F skip (i + 1) cs

def lift (F : S → S) (p : Particle S U) : Particle S U := { p with phys := F p.phys }

/-- The report of the ideal loop, with each state in the coordinates of the component. -/
def localLog (F : Nat → S ≃ S) (log : List (Nat × S × U)) : List (Nat × S × U) := log.map fun e => (e.1, F e.1 e.2.1, e.2.2)

def RelF (F : Nat → S ≃ S) (i : Nat) (L I : St S U) : Prop :=
  L.p = lift (F i) I.p ∧ L.save = F i I.save ∧ L.log = localLog F I.log

theorem rel_coords (F B : S ≃ S) (c : RComp S U) (hs : c.skip = false) (hch : ∀ s, c.change (B s) = F s) (L I : St S U)
    (h : L.p = lift B I.p) (hf : I.p.flag = false) :
    (coords c L).p = lift F (coords (ideal F B c) I).p ∧ (coords c L).save = L.save ∧ (coords c L).log = L.log ∧
    coords (ideal F B c) I = I := by
  have h2 : L.p.flag = false := by rw [h]; exact hf
  have e : coords (ideal F B c) I = I := by unfold coords; rw [if_neg (by simp [ideal, hs, hf])]; rfl
  rw [e]
  unfold coords
  rw [if_neg (by simp [hs, h2])]
  refine ⟨?_, rfl, rfl, rfl⟩
  rw [h]
  simp [lift, hch]

theorem rel_saveState (F : Nat → S ≃ S) (B : S ≃ S) (i : Nat) (c : RComp S U) (hs : c.skip = false)
    (hch : ∀ s, c.change (B s) = F i s) (L I : St S U)
    (hp : L.p = lift (F i) I.p) (hl : L.log = localLog F I.log)
    (hsv : ∀ lid, c.group = some (false, lid) → L.save = B I.save) :
    RelF F i (saveState c L) (saveState (ideal (F i) B c) I) := by
  simp only [saveState]
  have e : (ideal (F i) B c).group = c.group := rfl
  rw [e]
  split
  · rename_i lid hg
    refine ⟨?_, ?_, hl⟩
    · simp only [hp]; rfl
    · simp only [hsv lid hg, hch]; rfl
  · rw [if_neg (by simp [hs]), if_neg (by simp [ideal, hs])]
    refine ⟨?_, ?_, hl⟩
    · simp only [hp]; rfl
    · simp only [hp]; rfl

theorem rel_report (F : Nat → S ≃ S) (B : S ≃ S) (i : Nat) (c : RComp S U) (L I : St S U) (h : RelF F i L I) :
    RelF F i (report i c L) (report i (ideal (F i) B c) I) := by
  obtain ⟨h1, h2, h3⟩ := h
  unfold report
  have e : (ideal (F i) B c).skip = c.skip := rfl
  rw [e]
  split
  · exact ⟨h1, h2, h3⟩
  · refine ⟨h1, h2, ?_⟩
    simp only [h3, h1, localLog, lift, List.map_append, List.map_cons, List.map_nil]

theorem rel_whenTrue (F B : S ≃ S) (c : RComp S U) (p : Particle S U) :
    whenTrue c (lift F p) = whenTrue (ideal F B c) p := by
  unfold whenTrue ideal
  cases c.cond with
  | none => rfl
  | some w => rfl

theorem rel_runTrace (F : Nat → S ≃ S) (B : S ≃ S) (i : Nat) (c : RComp S U) (L I : St S U) (h : RelF F i L I) :
    RelF F i (runTrace c L) (runTrace (ideal (F i) B c) I) := by
  obtain ⟨h1, h2, h3⟩ := h
  cases ht : c.trace with
  | none =>
    have e : (ideal (F i) B c).trace = none := by simp [ideal, ht]
    simp only [runTrace, ht, e]
    exact ⟨h1, h2, h3⟩
  | some f =>
    have e : (ideal (F i) B c).trace = some fun s u => { f (F i s) u with phys := (F i).symm (f (F i s) u).phys } := by
      simp [ideal, ht]
    simp only [runTrace, ht, e]
    refine ⟨?_, h2, h3⟩
    show checkRestore _ _ = _
    rw [h1, h2, rel_whenTrue (F i) B]
    cases hw : whenTrue (ideal (F i) B c) I.p with
    | true =>
      have ec : callTrace f (lift (F i) I.p) = lift (F i)
          (callTrace (fun s u => { f (F i s) u with phys := (F i).symm (f (F i s) u).phys }) I.p) := by
        simp [callTrace, lift]
      simp only [if_true, ec]
      generalize callTrace (fun s u => { f (F i s) u with phys := (F i).symm (f (F i s) u).phys }) I.p = q
      unfold checkRestore
      have er : (lift (F i) q).restore = q.restore := rfl
      rw [er]
      split <;> rfl
    | false =>
      simp only [Bool.false_eq_true, if_false]
      unfold checkRestore
      have er : (lift (F i) I.p).restore = I.p.restore := rfl
      rw [er]
      split <;> rfl

theorem rel_runGroup (F : Nat → S ≃ S) (B : S ≃ S) (i : Nat) (c : RComp S U) (L I : St S U) (h : RelF F i L I) :
    RelF F i (runGroup i c L) (runGroup i (ideal (F i) B c) I) := by
  obtain ⟨h1, h2, h3⟩ := h
  unfold runGroup
  have e : (ideal (F i) B c).group = c.group := rfl
  rw [e]
  split
  · exact ⟨h1, h2, h3⟩
  · have es : L.p.scattered = I.p.scattered := by rw [h1]; rfl
    rw [es]
    split
    · refine ⟨?_, h2, h3⟩
      simp only [h1]; rfl
    · split
      · refine ⟨?_, h2, h3⟩
        simp only [h1]; rfl
      · refine ⟨?_, h2, h3⟩
        simp only [h1, h2]; rfl

theorem rel_body (F : Nat → S ≃ S) (B : S ≃ S) (i : Nat) (c : RComp S U) (hs : c.skip = false) (hj : c.jumps = [])
    (hch : ∀ s, c.change (B s) = F i s) (L I : St S U)
    (hp : L.p = lift (F i) I.p) (hl : L.log = localLog F I.log)
    (hsv : ∀ lid, c.group = some (false, lid) → L.save = B I.save) :
    RelF F i (body i c L) (body i (ideal (F i) B c) I) := by
  have h1 := rel_saveState F B i c hs hch L I hp hl hsv
  have h2 := rel_report F B i c _ _ h1
  have h3 := rel_runTrace F B i c _ _ h2
  have e1 : ∀ st, runJumps c st = st := by intro st; simp [runJumps, hj]
  have e2 : ∀ st, runJumps (ideal (F i) B c) st = st := by intro st; simp [runJumps, ideal, hj]
  have h4 := rel_runGroup F B i c _ _ h3
  simp only [body, e1, e2]
  obtain ⟨a1, a2, a3⟩ := h4
  refine ⟨?_, a2, a3⟩
  simp only [advance, a1]
  rfl

/-- A member of a group other than its leader. -/
def Follower (c : RComp S U) : Prop := ∃ lid, c.group = some (false, lid)

/-- The instruments for which the loops are compared: no jumps; a skipped component has no code and is in no group; the
members of a group follow each other without gap, the last one is known to all, and no member other than the leader
is split. -/
structure Regular (all : List (RComp S U)) : Prop where
  jumps : ∀ (i : Nat) c, all[i]? = some c → c.jumps = []
  skipped : ∀ (i : Nat) c, all[i]? = some c → c.skip = true → c.trace = none ∧ c.group = none
  first : ∀ c, all[0]? = some c → ¬ Follower c
  follower : ∀ (i : Nat) c d lid, all[i]? = some c → all[i + 1]? = some d → d.group = some (false, lid) →
    ∃ b, c.group = some (b, lid)
  last : ∀ (i : Nat) c b lid, all[i]? = some c → c.group = some (b, lid) → i ≤ lid ∧
    ∀ d, all[lid + 1]? = some d → ¬ Follower d
  split : ∀ (i : Nat) c, all[i]? = some c → c.split ≠ none → ¬ Follower c

/-- Due at the component number `i`, or at a later one which is not in the middle of a group. -/
def Where (all : List (RComp S U)) (i : Nat) (p : Particle S U) : Prop :=
  p.absorbed = true ∨ p.index = i + 1 ∨
    ∃ k : Nat, i < k ∧ p.index = k + 1 ∧ ∀ c, all[k]? = some c → ¬ Follower c

structure Rel (all : List (RComp S U)) (F : Nat → S ≃ S) (skip : Nat → Bool) (i : Nat) (L I : St S U) : Prop where
  p : L.p = lift (arriving F skip i) I.p
  flag : I.p.flag = false
  log : L.log = localLog F I.log
  place : Where all i I.p
  save : ∀ c, all[i]? = some c → Follower c → I.p.absorbed = false → I.p.index = i + 1 →
    L.save = arriving F skip i I.save

theorem body_flag (i : Nat) (c : RComp S U) (st : St S U) (hj : c.jumps = []) : (body i c st).p.flag = false := by
  have h1 : ∀ st : St S U, (runTrace c st).p.flag = st.p.flag := by
    intro st
    unfold runTrace
    split
    · rfl
    · simp only [checkRestore]
      split
      · simp only [Particle.restoreFrom]; split <;> rfl
      · split <;> rfl
  have h2 : ∀ st : St S U, (runGroup i c st).p.flag = st.p.flag := by
    intro st
    unfold runGroup
    split
    · rfl
    · split
      · rfl
      · split <;> rfl
  simp only [body, advance, h2, runJumps, hj, List.foldl_nil, h1, report_p]
  simp only [saveState]
  split
  · rfl
  · split <;> rfl

theorem body_where (all : List (RComp S U)) (hr : Regular all) (i : Nat) (c : RComp S U) (hc : all[i]? = some c) (st : St S U)
    (hi : st.p.index = i + 1) : Where all (i + 1) (body i c st).p := by
  have hj := hr.jumps i c hc
  have h0 : (runJumps c (runTrace c (report i c (saveState c st)))).p.index = i + 1 := by
    simp only [runJumps, hj, List.foldl_nil]
    rw [runTrace_index, report_p, saveState_index, hi]
  right
  simp only [body, advance]
  rcases runGroup_index i c (runJumps c (runTrace c (report i c (saveState c st)))) with h | ⟨b, lid, hg, h⟩
  · left
    rw [h, h0]; push_cast; rfl
  · obtain ⟨h1, h2⟩ := hr.last i c b lid hc hg
    rcases Nat.lt_or_ge i lid with hlt | hge
    · right
      exact ⟨lid + 1, by omega, by rw [h]; push_cast; omega, h2⟩
    · left
      rw [h]; push_cast; omega

theorem rel_runComp (all : List (RComp S U)) (hr : Regular all) (F : Nat → S ≃ S) (skip : Nat → Bool) (i : Nat)
    (c : RComp S U) (hc : all[i]? = some c) (hsk : c.skip = skip i)
    (hch : c.skip = false → ∀ s, c.change (arriving F skip i s) = F i s) (L I : St S U) (h : Rel all F skip i L I) :
    Rel all F skip (i + 1) (runComp i c L) (runComp i (ideal (F i) (arriving F skip i) c) I) := by
  have hj := hr.jumps i c hc
  have habs : L.p.absorbed = I.p.absorbed := by rw [h.p]; rfl
  have hidx : L.p.index = I.p.index := by rw [h.p]; rfl
  have stay : ¬ (I.p.absorbed = false ∧ I.p.index = i + 1) → Where all (i + 1) I.p := by
    intro hn
    rcases h.place with h1 | h1 | ⟨k, h1, h2, h3⟩
    · exact .inl h1
    · cases ha : I.p.absorbed with
      | true => exact .inl ha
      | false => exact absurd ⟨ha, h1⟩ hn
    · right
      rcases Nat.lt_or_ge (i + 1) k with h4 | h4
      · exact .inr ⟨k, h4, h2, h3⟩
      · have : k = i + 1 := by omega
        subst this
        exact .inl h2
  cases hs : c.skip with
  | true =>
    obtain ⟨ht, hg⟩ := hr.skipped i c hc hs
    have ea : arriving F skip (i + 1) = arriving F skip i := by simp [arriving, ← hsk, hs]
    have nofol : ∀ d, all[i + 1]? = some d → ¬ Follower d := by
      rintro d hd ⟨lid, hl⟩
      obtain ⟨b, hb⟩ := hr.follower i c d lid hc hd hl
      rw [hg] at hb; cases hb
    have ec : ∀ (d : RComp S U) (st : St S U), d.skip = true → coords d st = st := by
      intro d st hd; simp [coords, hd]
    have eb : ∀ (d : RComp S U) (st : St S U), d.skip = true → d.trace = none → d.group = none → d.jumps = [] →
        body i d st = { st with p := { st.p with flag := false, index := st.p.index + 1 } } := by
      intro d st h1 h2 h3 h4
      simp [body, saveState, report, runTrace, runJumps, runGroup, advance, h1, h2, h3, h4]
    have hi' : (ideal (F i) (arriving F skip i) c).skip = true := hs
    unfold runComp
    rw [ec c L hs, ec _ I hi', habs, hidx]
    by_cases hx : I.p.absorbed = false ∧ I.p.index = i + 1
    · rw [if_pos hx, if_pos hx, eb c L hs ht hg hj, eb _ I hi' (by simp [ideal, ht]) hg hj]
      refine ⟨?_, rfl, h.log, ?_, ?_⟩
      · rw [ea, h.p]; rfl
      · right; left
        show I.p.index + 1 = _
        rw [hx.2]; push_cast; rfl
      · intro d hd hf
        exact absurd hf (nofol d hd)
    · rw [if_neg hx, if_neg hx]
      refine ⟨by rw [ea]; exact h.p, h.flag, h.log, stay hx, ?_⟩
      intro d hd hf
      exact absurd hf (nofol d hd)
  | false =>
    have ea : arriving F skip (i + 1) = F i := by simp [arriving, ← hsk, hs]
    obtain ⟨r1, r2, r3, r4⟩ := rel_coords (F i) (arriving F skip i) c hs (hch hs) L I h.p h.flag
    rw [r4] at r1
    unfold runComp
    rw [r4, coords_absorbed, coords_index, habs, hidx]
    by_cases hx : I.p.absorbed = false ∧ I.p.index = i + 1
    · rw [if_pos hx, if_pos hx]
      obtain ⟨b1, b2, b3⟩ := rel_body F (arriving F skip i) i c hs hj (hch hs) (coords c L) I r1 (by rw [r3]; exact h.log)
        (by
          intro lid hl
          rw [r2]
          exact h.save c hc ⟨lid, hl⟩ hx.1 hx.2)
      refine ⟨by rw [ea]; exact b1, body_flag i _ I hj, b3, ?_, ?_⟩
      · -- the place does not depend on coordinates
        have := body_where all hr i c hc (coords c L) (by rw [coords_index, hidx]; exact hx.2)
        rw [b1] at this
        exact this
      · intro d hd hf _ _
        rw [ea]; exact b2
    · rw [if_neg hx, if_neg hx]
      refine ⟨by rw [ea]; exact r1, h.flag, by rw [r3]; exact h.log, stay hx, ?_⟩
      intro d hd hf ha hix
      exfalso
      rcases h.place with h1 | h1 | ⟨k, h1, h2, h3⟩
      · rw [h1] at ha; cases ha
      · rw [h1] at hix; push_cast at hix; omega
      · have : k = i + 1 := by push_cast at hix; omega
        subst this
        exact h3 d hd hf

/-- What remains related after all components. -/
def Rel' (F : Nat → S ≃ S) (L I : St S U) : Prop :=
  L.log = localLog F I.log ∧ L.p.user = I.p.user ∧ L.p.absorbed = I.p.absorbed ∧ L.p.index = I.p.index

theorem repeated_rel' (F : Nat → S ≃ S) (f g : St S U → St S U)
    (h : ∀ L I, Rel' F L I → Rel' F (f L) (g I)) : ∀ (n : Nat) (L I : St S U), Rel' F L I →
    Rel' F (repeated f n L) (repeated g n I) := by
  intro n
  induction n with
  | zero => exact fun _ _ h => h
  | succ n ih => exact fun L I hr => ih _ _ (h L I hr)

theorem rel_pass (env : Env S U) (all : List (RComp S U)) (hr : Regular all) (F : Nat → S ≃ S) (skip : Nat → Bool)
    (hsk : ∀ (i : Nat) c, all[i]? = some c → c.skip = skip i)
    (hch : ∀ (i : Nat) c, all[i]? = some c → c.skip = false → ∀ s, c.change (arriving F skip i s) = F i s)
    (hdiv : ∀ n i s, env.divide n (F i s) = F i (env.divide n s)) (cs : List (RComp S U)) :
    ∀ (i : Nat) (L I : St S U), (∀ k, cs[k]? = all[i + k]?) → Rel all F skip i L I →
      Rel' F (pass env i cs L) (pass env i (idealFrom F skip i cs) I) := by
  have hdivA : ∀ n i s, env.divide n (arriving F skip i s) = arriving F skip i (env.divide n s) := by
    intro n i
    induction i with
    | zero => intro s; rfl
    | succ i ih =>
      intro s
      unfold arriving
      split
      · exact ih s
      · exact hdiv n i s
  induction cs with
  | nil =>
    intro i L I _ h
    refine ⟨h.log, ?_, ?_, ?_⟩ <;> simp only [pass, idealFrom] <;> rw [h.p] <;> rfl
  | cons c cs ih =>
    intro i L I hcs h
    have hc : all[i]? = some c := by simpa using (hcs 0).symm
    have hcs' : ∀ k, cs[k]? = all[i + 1 + k]? := by
      intro k
      have := hcs (k + 1)
      rw [show i + 1 + k = i + (k + 1) by omega, ← this]
      simp
    have step := fun L I h => ih (i + 1) _ _ hcs'
      (rel_runComp all hr F skip i c hc (hsk i c hc) (hch i c hc) L I h)
    cases hsp : c.split with
    | none =>
      have e : (ideal (F i) (arriving F skip i) c).split = none := by simp [ideal, hsp]
      simp only [pass, idealFrom, hsp, e]
      exact step L I h
    | some f =>
      have e : (ideal (F i) (arriving F skip i) c).split = some fun s u => f (arriving F skip i s) u := by simp [ideal, hsp]
      simp only [pass, idealFrom, hsp, e]
      have habs : L.p.absorbed = I.p.absorbed := by rw [h.p]; rfl
      have hu : L.p.user = I.p.user := by rw [h.p]; rfl
      have hi : L.p.index = I.p.index := by rw [h.p]; rfl
      have hph : L.p.phys = arriving F skip i I.p.phys := by rw [h.p]; rfl
      rw [habs, hu, hph]
      split
      · exact ⟨h.log, hu, habs, hi⟩
      · apply repeated_rel'
        · intro L' I' h'
          apply step
          refine ⟨?_, h.flag, h'.1, h.place, ?_⟩
          · simp only [splitCopy]
            rw [h.p, h'.2.1]
            simp only [lift, hdivA]
          · intro d hd hf
            rw [hc] at hd
            cases hd
            exact absurd hf (hr.split i c hc (by rw [hsp]; simp))
        · exact ⟨h.log, hu, habs, hi⟩

theorem idealFrom_get (F : Nat → S ≃ S) (skip : Nat → Bool) (cs : List (RComp S U)) : ∀ (i k : Nat),
    (idealFrom F skip i cs)[k]? = cs[k]?.map (ideal (F (i + k)) (arriving F skip (i + k))) := by
  induction cs with
  | nil => intro i k; simp [idealFrom]
  | cons c cs ih =>
    intro i k
    cases k with
    | zero => simp [idealFrom]
    | succ k =>
      simp only [idealFrom, List.getElem?_cons_succ, ih (i + 1) k]
      rw [show i + 1 + k = i + (k + 1) by omega]

theorem idealFrom_length (F : Nat → S ≃ S) (skip : Nat → Bool) (cs : List (RComp S U)) : ∀ (i : Nat),
    (idealFrom F skip i cs).length = cs.length := by
  induction cs with
  | nil => intro i; rfl
  | cons c cs ih => intro i; simp [idealFrom, ih]

/-- The loop refines the ideal one: both end, and what the loop reports is what the ideal loop reports, each state in
the coordinates of the component. -/
theorem loop_refines_ideal (env : Env S U) (cs : List (RComp S U)) (hr : Regular cs) (hp : PositiveSplits cs)
    (F : Nat → S ≃ S) (skip : Nat → Bool)
    (hsk : ∀ (i : Nat) c, cs[i]? = some c → c.skip = skip i)
    (hch : ∀ (i : Nat) c, cs[i]? = some c → c.skip = false → ∀ s, c.change (arriving F skip i s) = F i s)
    (hdiv : ∀ n i s, env.divide n (F i s) = F i (env.divide n s)) (s : S) (u : U) (junk junk' : S) :
    ∃ L I, traceLoop env cs 1 (start s u junk) = some L ∧
      traceLoop env (idealFrom F skip 0 cs) 1 (start s u junk') = some I ∧ L.log = localLog F I.log := by
  have fw : ∀ (i : Nat) c, cs[i]? = some c → Forward i c := by
    intro i c hc
    refine ⟨by rw [hr.jumps i c hc]; simp, ?_⟩
    intro b lid hg
    exact (hr.last i c b lid hc hg).1
  obtain ⟨L, l1, _, l3⟩ := trace_ends env cs (start s u junk) (by simp [start]) fw hp 0
  obtain ⟨I, i1, _, i3⟩ := trace_ends env (idealFrom F skip 0 cs) (start s u junk') (by simp [start]) (by
    intro i c hc
    rw [idealFrom_get] at hc
    obtain ⟨d, hd, rfl⟩ := Option.map_eq_some_iff.1 hc
    exact fw i d hd) (by
    intro c hc f hf s u
    obtain ⟨k, hk⟩ := List.getElem?_of_mem hc
    rw [idealFrom_get] at hk
    obtain ⟨d, hd, rfl⟩ := Option.map_eq_some_iff.1 hk
    obtain ⟨g, hg, rfl⟩ := Option.map_eq_some_iff.1 hf
    exact hp d (List.mem_of_getElem? hd) g hg _ _) 0
  refine ⟨L, I, l1, i1, ?_⟩
  rw [l3 rfl, i3 rfl]
  have := rel_pass env cs hr F skip hsk hch hdiv cs 0 (start s u junk) (start s u junk') (by simp) ⟨rfl, rfl, rfl, .inr (.inl rfl), by
    intro c hc hf
    exact absurd hf (hr.first c hc)⟩
  have ce : ∀ (n : Nat) (st : St S U), (checkEnd n st).log = st.log := by
    intro n st; unfold checkEnd; split <;> rfl
  rw [ce, ce]
  exact this.1

end Verif.Trace
