import Verif.Trace.Ends

/-! Property C29: what the trace loop does with groups. -/

namespace Verif.Trace
variable {S U : Type}

/-- A member of a group: its coordinate transformation, its code and its WHEN condition. -/
structure Member (S U : Type) where
  change : S → S
  code : S → U → Outcome S U
  cond : S → U → Bool := fun _ _ => true

/-- What a member does with a particle which arrives as `s`, `u`: nothing if the condition is false; RESTORE puts the
particle back. -/
def Member.effect (m : Member S U) (s : S) (u : U) : Outcome S U :=
  if m.cond s u then
    if (m.code s u).restore then { m.code s u with phys := s, absorbed := false, restore := false } else m.code s u
  else ⟨s, u, false, false, false⟩

/-- What is claimed about a group whose first member is component number `i`: the members, in order, are offered the
state `s` with which the particle entered the group, in their own coordinates; the first one that scatters it ends the
group, and the particle goes on through the coordinate transformations of the remaining members. The result is the list
of states offered, and the state after the group, or nothing if no member scattered. User variables are not restored. -/
def groupClaim (i : Nat) : List (Member S U) → S → U → List (Nat × S × U) × Option (S × U × Bool)
  | [], _, _ => ([], none)
  | m :: ms, s, u =>
    let here := m.change s
    let o := m.effect here u
    if o.scattered then ([(i, here, u)], some (ms.foldl (fun x n => n.change x) o.phys, o.user, o.absorbed))
    else
      let r := groupClaim (i + 1) ms here o.user
      ((i, here, u) :: r.1, r.2)

/-- The component for a member of a group with last member `lid`. -/
def Member.comp (leader : Bool) (lid : Nat) (m : Member S U) : RComp S U :=
  { change := m.change, group := some (leader, lid), trace := some m.code, cond := some m.cond }

theorem runComp_passed (i : Nat) (c : RComp S U) (st : St S U) (hs : c.skip = false) (hf : st.p.flag = false)
    (h : st.p.absorbed = true ∨ st.p.index ≠ i + 1) :
    runComp i c st = { st with p := { st.p with phys := c.change st.p.phys } } := by
  unfold runComp
  rw [if_neg]
  · unfold coords
    rw [if_neg (by simp [hs, hf])]
  · rw [coords_absorbed, coords_index]
    rintro ⟨h1, h2⟩
    rcases h with h | h
    · rw [h1] at h; cases h
    · exact h h2

theorem pass_passed (env : Env S U) (lid : Nat) (ms : List (Member S U)) : ∀ (i : Nat) (st : St S U), st.p.flag = false →
    (st.p.absorbed = true ∨ (i : Int) + ms.length < st.p.index) →
    pass env i (ms.map (Member.comp false lid)) st =
      { st with p := { st.p with phys := ms.foldl (fun x n => n.change x) st.p.phys } } := by
  induction ms with
  | nil => intro i st _ _; rfl
  | cons m ms ih =>
    intro i st hf h
    simp only [List.map_cons, pass, Member.comp]
    rw [runComp_passed i _ st rfl hf (by
      rcases h with h | h
      · exact .inl h
      · right; simp only [List.length_cons] at h; push_cast at h; omega)]
    have := ih (i + 1) { st with p := { st.p with phys := m.change st.p.phys } } hf (by
      rcases h with h | h
      · exact .inl h
      · right; simp only [List.length_cons] at h; push_cast at h ⊢; omega)
    rw [this]
    rfl

/-- One member, entered by the particle; the leader saves the state, the others have it from before. -/
theorem runComp_member (i : Nat) (leader : Bool) (lid : Nat) (m : Member S U) (st : St S U) (hf : st.p.flag = false)
    (ha : st.p.absorbed = false) (hi : st.p.index = i + 1) (hsv : leader = false → st.save = st.p.phys) (hre : st.p.restore = false)
    (hsc : m.cond (m.change st.p.phys) st.p.user = true ∨ st.p.scattered = false) :
    let r := runComp i (m.comp leader lid) st
    let o := m.effect (m.change st.p.phys) st.p.user
    r.log = st.log ++ [(i, m.change st.p.phys, st.p.user)] ∧ r.p.flag = false ∧ r.p.restore = false ∧ r.p.user = o.user ∧
    (o.scattered = true → r.p.phys = o.phys ∧ r.p.absorbed = o.absorbed ∧ r.p.index = lid + 2) ∧
    (o.scattered = false → i = lid → r.p.absorbed = true) ∧
    (o.scattered = false → i ≠ lid → r.p.phys = m.change st.p.phys ∧ r.save = m.change st.p.phys ∧ r.p.absorbed = false ∧
      r.p.index = i + 2 ∧ r.p.scattered = false) := by
  intro r o
  have hc : coords (m.comp leader lid) st = { st with p := { st.p with phys := m.change st.p.phys } } := by
    simp [coords, hf, Member.comp]
  have hr : r = body i (m.comp leader lid) { st with p := { st.p with phys := m.change st.p.phys } } := by
    show runComp i _ st = _
    unfold runComp
    rw [hc, if_pos ⟨ha, hi⟩]
  have hs : saveState (m.comp leader lid) { st with p := { st.p with phys := m.change st.p.phys } } =
      { st with p := { st.p with phys := m.change st.p.phys, flag := false }, save := m.change st.p.phys } := by
    cases leader with
    | true => simp [saveState, Member.comp]
    | false => simp [saveState, Member.comp, hsv rfl]
  have ho : o = m.effect (m.change st.p.phys) st.p.user := rfl
  unfold Member.effect at ho
  rw [hr]
  unfold body
  rw [hs]
  simp only [report, runTrace, whenTrue, Member.comp, checkRestore, callTrace, runJumps, runGroup, advance, Particle.restoreFrom,
    if_true, List.foldl_nil, Bool.false_eq_true, if_false]
  cases hw : m.cond (m.change st.p.phys) st.p.user
  · have hsc' : st.p.scattered = false := by
      rcases hsc with h | h
      · rw [hw] at h; cases h
      · exact h
    by_cases hl : i = lid <;> simp [ho, hw, hsc', hre, hl, hi] <;> omega
  · cases hres : (m.code (m.change st.p.phys) st.p.user).restore <;>
      cases hsca : (m.code (m.change st.p.phys) st.p.user).scattered <;>
      simp only [hw, hres, hsca, if_true, Bool.false_eq_true, if_false] at ho ⊢ <;> by_cases hl : i = lid <;>
      simp [ho, hres, hsca, hl, hi] <;> omega

theorem group_rest (env : Env S U) (lid : Nat) (ms : List (Member S U)) : ∀ (i : Nat) (leader : Bool) (m : Member S U)
    (st : St S U), st.p.flag = false → st.p.absorbed = false → st.p.index = i + 1 →
    (leader = false → st.save = st.p.phys) → st.p.restore = false →
    (m.cond (m.change st.p.phys) st.p.user = true ∨ st.p.scattered = false) → lid = i + ms.length →
    let r := pass env i (m.comp leader lid :: ms.map (Member.comp false lid)) st
    let claim := groupClaim i (m :: ms) st.p.phys st.p.user
    r.log = st.log ++ claim.1 ∧ r.p.flag = false ∧
    (∀ s u a, claim.2 = some (s, u, a) → r.p.phys = s ∧ r.p.user = u ∧ r.p.absorbed = a ∧ r.p.index = lid + 2) ∧
    (claim.2 = none → r.p.absorbed = true) := by
  induction ms with
  | nil =>
    intro i leader m st hf ha hi hsv hre hscs hlid r claim
    obtain ⟨c1, c2, cr, c3, c4, c5, c6⟩ := runComp_member i leader lid m st hf ha hi hsv hre hscs
    have hr : r = runComp i (m.comp leader lid) st := rfl
    rw [hr]
    by_cases hsc : (m.effect (m.change st.p.phys) st.p.user).scattered = true
    · obtain ⟨d1, d2, d3⟩ := c4 hsc
      have hcl : claim = ([(i, m.change st.p.phys, st.p.user)],
          some ((m.effect (m.change st.p.phys) st.p.user).phys, (m.effect (m.change st.p.phys) st.p.user).user,
            (m.effect (m.change st.p.phys) st.p.user).absorbed)) := by
        show groupClaim i [m] _ _ = _
        simp [groupClaim, hsc]
      rw [hcl]
      refine ⟨c1, c2, ?_, by intro h; cases h⟩
      intro s u a h
      cases h
      exact ⟨d1, c3, d2, d3⟩
    · have hsc' : (m.effect (m.change st.p.phys) st.p.user).scattered = false := by simpa using hsc
      have hcl : claim = ([(i, m.change st.p.phys, st.p.user)], none) := by
        show groupClaim i [m] _ _ = _
        simp [groupClaim, hsc']
      rw [hcl]
      exact ⟨c1, c2, fun s u a h => (nomatch h), fun _ => c5 hsc' (by simpa using hlid.symm)⟩
  | cons n ms ih =>
    intro i leader m st hf ha hi hsv hre hscs hlid r claim
    obtain ⟨c1, c2, cr, c3, c4, c5, c6⟩ := runComp_member i leader lid m st hf ha hi hsv hre hscs
    simp only [List.length_cons] at hlid
    have hr : r = pass env (i + 1) ((n :: ms).map (Member.comp false lid)) (runComp i (m.comp leader lid) st) := rfl
    by_cases hsc : (m.effect (m.change st.p.phys) st.p.user).scattered = true
    · obtain ⟨d1, d2, d3⟩ := c4 hsc
      have hcl : claim = ([(i, m.change st.p.phys, st.p.user)],
          some ((n :: ms).foldl (fun x n => n.change x) (m.effect (m.change st.p.phys) st.p.user).phys,
            (m.effect (m.change st.p.phys) st.p.user).user, (m.effect (m.change st.p.phys) st.p.user).absorbed)) := by
        show groupClaim i (m :: n :: ms) _ _ = _
        simp [groupClaim, hsc]
      rw [pass_passed env lid (n :: ms) (i + 1) _ c2 (.inr (by rw [d3, List.length_cons]; push_cast; omega))] at hr
      rw [hcl, hr]
      refine ⟨c1, c2, ?_, by intro h; cases h⟩
      intro s u a h
      cases h
      exact ⟨by rw [d1], c3, d2, d3⟩
    · have hsc' : (m.effect (m.change st.p.phys) st.p.user).scattered = false := by simpa using hsc
      obtain ⟨d1, d2, d3, d4, d5⟩ := c6 hsc' (by omega)
      have hcl : claim = ((i, m.change st.p.phys, st.p.user) ::
          (groupClaim (i + 1) (n :: ms) (m.change st.p.phys) (m.effect (m.change st.p.phys) st.p.user).user).1,
          (groupClaim (i + 1) (n :: ms) (m.change st.p.phys) (m.effect (m.change st.p.phys) st.p.user).user).2) := by
        show groupClaim i (m :: n :: ms) _ _ = _
        rw [groupClaim]
        simp only [hsc', Bool.false_eq_true, if_false]
      have := ih (i + 1) false n (runComp i (m.comp leader lid) st) c2 d3 (by rw [d4]; push_cast; omega)
        (fun _ => by rw [d1, d2]) cr (.inr d5) (by omega)
      rw [d1, c3] at this
      obtain ⟨e1, e2, e3, e4⟩ := this
      rw [hcl, hr]
      refine ⟨?_, e2, e3, e4⟩
      show (pass env (i + 1) (n.comp false lid :: ms.map (Member.comp false lid)) _).log = _
      rw [e1, c1]
      simp

theorem pass_append (env : Env S U) (cs ds : List (RComp S U)) : ∀ (i : Nat) (st : St S U),
    (∀ c ∈ cs, c.split = none) → pass env i (cs ++ ds) st = pass env (i + cs.length) ds (pass env i cs st) := by
  induction cs with
  | nil => intro i st _; rfl
  | cons c cs ih =>
    intro i st h
    have hc := h c List.mem_cons_self
    simp only [List.cons_append, pass, hc]
    rw [ih (i + 1) _ fun d hd => h d (List.mem_cons_of_mem _ hd)]
    simp only [List.length_cons]
    rw [show i + 1 + cs.length = i + (cs.length + 1) by omega]

/-- **C29** (partial): a particle which enters a group at its leader (component number `i`) is treated as claimed by
`groupClaim`: the report of the members is the claimed one; if a member scatters the particle, it goes on with the
component after the last member, in the claimed state; if none does, it is absorbed. `rest` are the components after the
group. The condition `hsc` says that the leader is run, or that the component before did not scatter. Missing: members without
code, a leader not run after a component which scattered, and groups whose members do not follow each other;
the theorems below show that the claim fails for these. -/
theorem group_semantics_partial (env : Env S U) (i lid : Nat) (m : Member S U) (ms : List (Member S U))
    (rest : List (RComp S U)) (st : St S U) (hf : st.p.flag = false) (ha : st.p.absorbed = false) (hi : st.p.index = i + 1)
    (hre : st.p.restore = false) (hsc : m.cond (m.change st.p.phys) st.p.user = true ∨ st.p.scattered = false)
    (hlid : lid = i + ms.length) :
    ∃ st', pass env i (m.comp true lid :: ms.map (Member.comp false lid) ++ rest) st = pass env (lid + 1) rest st' ∧
      st'.log = st.log ++ (groupClaim i (m :: ms) st.p.phys st.p.user).1 ∧ st'.p.flag = false ∧
      (∀ s u a, (groupClaim i (m :: ms) st.p.phys st.p.user).2 = some (s, u, a) →
        st'.p.phys = s ∧ st'.p.user = u ∧ st'.p.absorbed = a ∧ st'.p.index = (lid + 1) + 1) ∧
      ((groupClaim i (m :: ms) st.p.phys st.p.user).2 = none → st'.p.absorbed = true) := by
  have h := group_rest env lid ms i true m st hf ha hi (by intro h; cases h) hre hsc hlid
  simp only at h
  obtain ⟨h1, h2, h3, h4⟩ := h
  refine ⟨_, ?_, h1, h2, ?_, h4⟩
  · rw [pass_append]
    · simp only [List.length_cons, List.length_map]
      rw [show i + (ms.length + 1) = lid + 1 by omega]
    · intro c hc
      rcases List.mem_cons.1 hc with rfl | hc
      · rfl
      · obtain ⟨x, _, rfl⟩ := List.mem_map.1 hc
        rfl
  · intro s u a h
    obtain ⟨a1, a2, a3, a4⟩ := h3 s u a h
    exact ⟨a1, a2, a3, by rw [a4]; omega⟩

/-- Code which moves the particle by `d`, and scatters it if it finds it at `x`. -/
def catch_ (x d : Int) : Int → Unit → Outcome Int Unit := fun s u => ⟨s + d, u, false, s == x, false⟩

def intEnv : Env Int Unit := ⟨fun _ u => u, fun _ s => s⟩

/-- A group of three in which the second member scatters: it sees the state at entry, not what the first has done. -/
example : (groupClaim 4 [⟨id, catch_ 9 100, fun _ _ => true⟩, ⟨(· - 1), catch_ 6 200, fun s _ => s == 6⟩, ⟨(· - 2), catch_ 0 0, fun _ _ => false⟩] (7 : Int) ()) =
    ([(4, 7, ()), (5, 6, ())], some (204, (), false)) := by decide +kernel

/-- The negation of C29 with WHEN: the component before the group (number 0) has scattered the particle. The first member
is not run because of its condition; it leaves the mark SCATTERED of the component before, and the loop takes the
particle to the exit of the group. The second member, which would catch it, is not asked. -/
theorem group_left_by_stale_mark :
    let cs : List (RComp Int Unit) :=
      [{ trace := some (catch_ 5 0) },
       { group := some (true, 2), trace := some (catch_ 0 0), cond := some fun _ _ => false },
       { group := some (false, 2), trace := some (catch_ 5 100) }, { trace := some (catch_ 0 0) }]
    (traceLoop intEnv cs 1 (start 5 () 0)).map (·.log) = some [(0, 5, ()), (1, 5, ()), (3, 5, ())] := by
  decide +kernel

/-- The negation of C29 with a gap: a component between the members of a group saves its own state, and the next member is
offered that instead of the state at entry of the group. -/
theorem group_with_gap_wrong :
    let cs : List (RComp Int Unit) :=
      [{ group := some (true, 2), trace := some (catch_ 0 0) }, { trace := some (catch_ 0 7) },
       { group := some (false, 2), trace := some (catch_ 0 0) }]
    (traceLoop intEnv cs 1 (start 5 () 0)).map (·.log) = some [(0, 5, ()), (1, 5, ()), (2, 12, ())] := by
  decide +kernel

/-- The negation of C29 with a leader without code, whose transformation is skipped: no state is saved. The second member
does not scatter; the third sees what was in memory (here 77) instead of the state 5 of the particle. -/
theorem group_with_skipped_leader_wrong :
    let cs : List (RComp Int Unit) :=
      [{ skip := true, group := some (true, 2) }, { group := some (false, 2), trace := some (catch_ 0 0) },
       { group := some (false, 2), trace := some (catch_ 0 0) }]
    (traceLoop intEnv cs 1 (start 5 () 77)).map (·.log) = some [(1, 77, ()), (2, 77, ())] := by
  decide +kernel

/-- The negation of C28 for a member without code in the middle of a group. The components are at 0, 10 and 20; the
transformations are relative to the last component not skipped. The saved state is moved to the coordinates of the
skipped member, and the particle restored from it: the last member sees the particle at -30 instead of -20. -/
theorem group_with_skipped_member_wrong_frame :
    let cs : List (RComp Int Unit) :=
      [{ group := some (true, 2), trace := some (catch_ 99 0) },
       { skip := true, change := (· - 10), group := some (false, 2) },
       { change := (· - 20), group := some (false, 2), trace := some (catch_ 99 0) }]
    (traceLoop intEnv cs 1 (start 0 () 0)).map (·.log) = some [(0, 0, ()), (2, -30, ())] := by
  decide +kernel

end Verif.Trace
