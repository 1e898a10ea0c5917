import Verif.Trace.Ends
import Mathlib.Algebra.BigOperators.Group.List.Basic
import Mathlib.Algebra.Order.Field.Rat
import Mathlib.Tactic.Ring
import Mathlib.Tactic.FieldSimp

/-! Property C31: SPLIT conserves the weight, and each copy runs the remaining components once. -/

namespace Verif.Trace
variable {S U : Type}

/-- A component that lets particles pass without changing `g`: no group, no jump, no absorption, no RESTORE. -/
structure Transparent (g : S → ℚ) (c : RComp S U) : Prop where
  group : c.group = none
  jumps : c.jumps = []
  change : ∀ s, g (c.change s) = g s
  trace : ∀ f, c.trace = some f → ∀ s u, g (f s u).phys = g s ∧ (f s u).absorbed = false ∧ (f s u).restore = false

/-- On its way to the component number `i`. -/
structure OnWay (i : Nat) (st : St S U) : Prop where
  index : st.p.index = i + 1
  absorbed : st.p.absorbed = false
  flag : st.p.flag = false
  restore : st.p.restore = false

/-- The sum of `g` over the reports of the component number `m`. -/
def total (g : S → ℚ) (m : Nat) (log : List (Nat × S × U)) : ℚ :=
  ((log.filter fun e => e.1 = m).map fun e => g e.2.1).sum

theorem total_append (g : S → ℚ) (m : Nat) (a b : List (Nat × S × U)) : total g m (a ++ b) = total g m a + total g m b := by
  simp [total]

theorem saveState_p (c : RComp S U) (st : St S U) : (saveState c st).p = { st.p with flag := false } := by
  simp only [saveState]
  split
  · rfl
  · split <;> rfl

theorem saveState_log (c : RComp S U) (st : St S U) : (saveState c st).log = st.log := by
  simp only [saveState]
  split
  · rfl
  · split <;> rfl

theorem report_log (i : Nat) (c : RComp S U) (st : St S U) :
    (report i c st).log = st.log ++ if c.skip then [] else [(i, st.p.phys, st.p.user)] := by
  unfold report; split <;> simp

theorem runTrace_log (c : RComp S U) (st : St S U) : (runTrace c st).log = st.log := by
  unfold runTrace; split <;> rfl

theorem runTrace_transparent (g : S → ℚ) (c : RComp S U) (st : St S U) (hc : Transparent g c)
    (ha : st.p.absorbed = false) (hr : st.p.restore = false) :
    (runTrace c st).p.absorbed = false ∧ (runTrace c st).p.restore = false ∧ (runTrace c st).p.flag = st.p.flag ∧
    g (runTrace c st).p.phys = g st.p.phys := by
  unfold runTrace
  split
  · exact ⟨ha, hr, rfl, rfl⟩
  · rename_i f hf
    obtain ⟨h1, h2, h3⟩ := hc.trace f hf st.p.phys st.p.user
    by_cases hw : whenTrue c st.p = true
    · simp [checkRestore, hw, callTrace, h1, h2, h3]
    · simp [checkRestore, hw, ha, hr]

theorem body_plain (i : Nat) (c : RComp S U) (st : St S U) (hg : c.group = none) (hj : c.jumps = []) :
    body i c st = advance (runTrace c (report i c (saveState c st))) := by
  simp [body, runJumps, runGroup, hg, hj]

theorem runComp_transparent (g : S → ℚ) (i : Nat) (c : RComp S U) (st : St S U) (hc : Transparent g c) (h : OnWay i st) :
    OnWay (i + 1) (runComp i c st) ∧ g (runComp i c st).p.phys = g st.p.phys ∧
    ∃ e : List (Nat × S × U), (runComp i c st).log = st.log ++ e ∧ (c.skip = false → total g i e = g st.p.phys) ∧
      ∀ m, m ≠ i → total g m e = 0 := by
  have hco : (coords c st).p.absorbed = false ∧ (coords c st).p.index = i + 1 ∧
      (coords c st).p.restore = false ∧ g (coords c st).p.phys = g st.p.phys ∧ (coords c st).log = st.log := by
    unfold coords
    split
    · exact ⟨h.absorbed, h.index, h.restore, rfl, rfl⟩
    · exact ⟨h.absorbed, h.index, h.restore, hc.change _, rfl⟩
  obtain ⟨h1, h2, h4, h5, h6⟩ := hco
  unfold runComp
  rw [if_pos ⟨h1, h2⟩, body_plain i c _ hc.group hc.jumps]
  generalize coords c st = s1 at *
  have hp : (report i c (saveState c s1)).p = { s1.p with flag := false } := by rw [report_p, saveState_p]
  obtain ⟨a1, a2, a3, a4⟩ := runTrace_transparent g c (report i c (saveState c s1)) hc (by rw [hp]; exact h1)
    (by rw [hp]; exact h4)
  rw [hp] at a3 a4
  refine ⟨⟨?_, a1, a3, a2⟩, a4.trans h5, ?_⟩
  · show (runTrace c (report i c (saveState c s1))).p.index + 1 = _
    rw [runTrace_index, hp]
    show s1.p.index + 1 = _
    rw [h2]; push_cast; rfl
  · refine ⟨if c.skip then [] else [(i, s1.p.phys, s1.p.user)], ?_, ?_, ?_⟩
    · show (runTrace c (report i c (saveState c s1))).log = _
      rw [runTrace_log, report_log, saveState_log, saveState_p, h6]
    · intro hs
      simp [hs, total, h5]
    · intro m hm
      split
      · rfl
      · simp [total, Ne.symm hm]

theorem repeated_log (f : St S U → St S U) (Q : List (Nat × S × U) → Prop)
    (hf : ∀ st, ∃ e, (f st).log = st.log ++ e ∧ Q e) : ∀ (n : Nat) (st : St S U),
    ∃ es : List (List (Nat × S × U)), es.length = n ∧ (∀ e ∈ es, Q e) ∧ (repeated f n st).log = st.log ++ es.flatten := by
  intro n
  induction n with
  | zero => exact fun st => ⟨[], rfl, by simp, by simp [repeated]⟩
  | succ n ih =>
    intro st
    obtain ⟨e, h1, h2⟩ := hf st
    obtain ⟨es, h3, h4, h5⟩ := ih (f st)
    refine ⟨e :: es, by simp [h3], ?_, ?_⟩
    · intro x hx
      rcases List.mem_cons.1 hx with rfl | hx
      · exact h2
      · exact h4 x hx
    · simp only [repeated, h5, h1, List.flatten_cons, List.append_assoc]

theorem total_flatten (g : S → ℚ) (m : Nat) (t : ℚ) (es : List (List (Nat × S × U))) (h : ∀ e ∈ es, total g m e = t) :
    total g m es.flatten = es.length * t := by
  induction es with
  | nil => simp [total]
  | cons e es ih =>
    rw [List.flatten_cons, total_append, h e List.mem_cons_self, ih fun x hx => h x (List.mem_cons_of_mem _ hx),
      List.length_cons]
    push_cast
    ring

/-- What a component contributes to the totals of those after it: `factor c` is the number of copies times the change of
`g` of each. -/
def Factor (g : S → ℚ) (env : Env S U) (factor : RComp S U → ℚ) (c : RComp S U) : Prop :=
  (c.split = none → factor c = 1) ∧
  ∀ f, c.split = some f → ∀ s u, 0 < f s u ∧ ((f s u).toNat : ℚ) * g (env.divide (f s u).toNat s) = g s * factor c

theorem pass_totals (g : S → ℚ) (env : Env S U) (factor : RComp S U → ℚ) (cs : List (RComp S U)) :
    ∀ (i : Nat) (st : St S U), (∀ c ∈ cs, Transparent g c ∧ Factor g env factor c) → OnWay i st →
    OnWay (i + cs.length) (pass env i cs st) ∧
    ∃ e, (pass env i cs st).log = st.log ++ e ∧ (∀ m < i, total g m e = 0) ∧
      ∀ (k : Nat) (c : RComp S U), cs[k]? = some c → c.skip = false →
        total g (i + k) e = g st.p.phys * ((cs.take (k + 1)).map factor).prod := by
  induction cs with
  | nil =>
    intro i st _ h
    exact ⟨h, [], by simp [pass], fun _ _ => rfl, fun k c hk => by simp at hk⟩
  | cons c cs ih =>
    intro i st hcs h
    obtain ⟨hc, hfa⟩ := hcs c List.mem_cons_self
    have hcs' := fun d hd => hcs d (List.mem_cons_of_mem c hd)
    have elen : i + (c :: cs).length = i + 1 + cs.length := by simp only [List.length_cons]; omega
    rw [elen]
    -- one copy
    have one : ∀ st', OnWay i st' → OnWay (i + 1 + cs.length) (pass env (i + 1) cs (runComp i c st')) ∧
        ∃ e, (pass env (i + 1) cs (runComp i c st')).log = st'.log ++ e ∧ (∀ m < i, total g m e = 0) ∧
        (c.skip = false → total g i e = g st'.p.phys) ∧
        ∀ (k : Nat) (d : RComp S U), cs[k]? = some d → d.skip = false →
          total g (i + 1 + k) e = g st'.p.phys * ((cs.take (k + 1)).map factor).prod := by
      intro st' h'
      obtain ⟨b1, b2, e1, b3, b4, b5⟩ := runComp_transparent g i c st' hc h'
      obtain ⟨c1, e2, c2, c3, c4⟩ := ih (i + 1) _ hcs' b1
      refine ⟨c1, e1 ++ e2, by rw [c2, b3, List.append_assoc], ?_, ?_, ?_⟩
      · intro m hm
        rw [total_append, b5 m (by omega), c3 m (by omega), add_zero]
      · intro hs
        rw [total_append, b4 hs, c3 i (by omega), add_zero]
      · intro k d hk hd
        rw [total_append, b5 _ (by omega), c4 k d hk hd, b2, zero_add]
    simp only [pass]
    split
    · rename_i hs
      obtain ⟨a1, e, a2, a3, a4, a5⟩ := one st h
      refine ⟨a1, e, a2, a3, ?_⟩
      intro k d hk hd
      cases k with
      | zero =>
        simp only [List.getElem?_cons_zero, Option.some.injEq] at hk
        subst hk
        simpa [hfa.1 hs] using a4 hd
      | succ k =>
        have := a5 k d (by simpa using hk) hd
        rw [show i + (k + 1) = i + 1 + k by omega, this, List.take_succ_cons, List.map_cons, List.prod_cons, hfa.1 hs, one_mul]
    · rename_i f hs
      rw [if_neg (by rw [h.absorbed]; simp)]
      obtain ⟨hpos, hfac⟩ := hfa.2 f hs st.p.phys st.p.user
      generalize hn : (f st.p.phys st.p.user).toNat = n at *
      have hn0 : 0 < n := by omega
      have hcopy : ∀ st', OnWay i (splitCopy env n st.p st') := fun st' => ⟨h.index, h.absorbed, h.flag, h.restore⟩
      refine ⟨repeated_last _ _ (fun st' => (one _ (hcopy st')).1) n st hn0, ?_⟩
      obtain ⟨es, l1, l2, l3⟩ := repeated_log
        (fun st' => pass env (i + 1) cs (runComp i c (splitCopy env n st.p st')))
        (fun e => (∀ m < i, total g m e = 0) ∧ (c.skip = false → total g i e = g (env.divide n st.p.phys)) ∧
          ∀ (k : Nat) (d : RComp S U), cs[k]? = some d → d.skip = false →
            total g (i + 1 + k) e = g (env.divide n st.p.phys) * ((cs.take (k + 1)).map factor).prod)
        (fun st' => (one _ (hcopy st')).2) n st
      refine ⟨es.flatten, l3, ?_, ?_⟩
      · intro m hm
        rw [total_flatten g m 0 es fun e he => (l2 e he).1 m hm, mul_zero]
      · intro k d hk hd
        cases k with
        | zero =>
          simp only [List.getElem?_cons_zero, Option.some.injEq] at hk
          subst hk
          rw [Nat.add_zero, total_flatten g i _ es fun e he => (l2 e he).2.1 hd, l1, hfac]
          simp
        | succ k =>
          rw [show i + (k + 1) = i + 1 + k by omega,
            total_flatten g _ _ es fun e he => (l2 e he).2.2 k d (by simpa using hk) hd, l1, List.take_succ_cons,
            List.map_cons, List.prod_cons, ← mul_assoc, hfac, mul_assoc]

/-- **C31**, the weight: for components which do not change the weight, the reports of each component add up to the
weight of the particle, however many SPLITs there are and however the numbers of copies depend on the particle. -/
theorem split_conserves_weight (w : S → ℚ) (env : Env S U) (cs : List (RComp S U)) (s : S) (u : U) (junk : S)
    (hc : ∀ c ∈ cs, Transparent w c) (hp : PositiveSplits cs)
    (hw : ∀ n s, w (env.divide n s) = w s / n) :
    ∃ st', traceLoop env cs 1 (start s u junk) = some st' ∧
      ∀ (m : Nat) (c : RComp S U), cs[m]? = some c → c.skip = false → total w m st'.log = w s := by
  have hpt := pass_totals w env (fun _ => 1) cs 0 (start s u junk) (fun c hcm => ⟨hc c hcm, fun _ => rfl, by
      intro f hf s u
      have := hp c hcm f hf s u
      refine ⟨this, ?_⟩
      have h0 : (((f s u).toNat : Nat) : ℚ) ≠ 0 := by
        have : (f s u).toNat ≠ 0 := by omega
        exact_mod_cast this
      rw [hw]
      field_simp⟩) ⟨rfl, rfl, rfl, rfl⟩
  obtain ⟨a1, e, a2, a3, a4⟩ := hpt
  refine ⟨checkEnd cs.length (pass env 0 cs (start s u junk)), ?_, ?_⟩
  · have : (checkEnd cs.length (pass env 0 cs (start s u junk))).p.absorbed = true := by
      unfold checkEnd
      rw [if_pos (by rw [a1.index]; push_cast; omega)]
    simp only [traceLoop]
    rw [if_neg (by simp [start]), if_pos this]
  · intro m c hm hs
    have hl : (checkEnd cs.length (pass env 0 cs (start s u junk))).log = e := by
      unfold checkEnd
      split
      · simpa [start] using a2
      · simpa [start] using a2
    rw [hl]
    have := a4 m c hm hs
    simpa [start] using this

/-- The number of copies a component makes: `SPLIT n` with a number. -/
def copies (c : RComp S U) (n : Nat) : Prop := (c.split = none ∧ n = 1) ∨ (c.split = some (fun _ _ => (n : Int)) ∧ 0 < n)

/-- **C31**, the copies: each component is entered as often as the product of the numbers of copies up to it says. -/
theorem split_runs_each_copy_once (env : Env S U) (cs : List (RComp S U)) (n : RComp S U → Nat) (s : S) (u : U) (junk : S)
    (hc : ∀ c ∈ cs, Transparent (fun _ => 1) c ∧ copies c (n c)) :
    ∃ st', traceLoop env cs 1 (start s u junk) = some st' ∧
      ∀ (m : Nat) (c : RComp S U), cs[m]? = some c → c.skip = false →
        (st'.log.filter fun e => e.1 = m).length = ((cs.take (m + 1)).map n).prod := by
  have hpt := pass_totals (fun _ => 1) env (fun c => (n c : ℚ)) cs 0 (start s u junk) (fun c hcm => ⟨(hc c hcm).1, by
      rcases (hc c hcm).2 with ⟨h1, h2⟩ | ⟨h1, h2⟩
      · exact ⟨fun _ => by simp [h2], fun f hf => by rw [h1] at hf; cases hf⟩
      · refine ⟨fun hn => by simp [h1] at hn, ?_⟩
        intro f hf s u
        rw [h1] at hf
        cases hf
        simpa using h2⟩) ⟨rfl, rfl, rfl, rfl⟩
  obtain ⟨a1, e, a2, a3, a4⟩ := hpt
  refine ⟨checkEnd cs.length (pass env 0 cs (start s u junk)), ?_, ?_⟩
  · have : (checkEnd cs.length (pass env 0 cs (start s u junk))).p.absorbed = true := by
      unfold checkEnd
      rw [if_pos (by rw [a1.index]; push_cast; omega)]
    simp only [traceLoop]
    rw [if_neg (by simp [start]), if_pos this]
  · intro m c hm hs
    have hl : (checkEnd cs.length (pass env 0 cs (start s u junk))).log = e := by
      unfold checkEnd
      split
      · simpa [start] using a2
      · simpa [start] using a2
    rw [hl]
    have := a4 m c hm hs
    simp only [total, List.map_const', List.sum_replicate, Nat.zero_add, one_mul, nsmul_eq_mul, mul_one] at this
    have hcast : ∀ l : List (RComp S U), (l.map fun c => (n c : ℚ)).prod = ((l.map n).prod : Nat) := by
      intro l
      induction l with
      | nil => simp
      | cons a l ih => simp [ih]
    rw [hcast] at this
    exact_mod_cast this

/-- The division of the weight of a particle which is nothing else. -/
def weightEnv : Env ℚ Unit := ⟨fun _ u => u, fun n w => w / n⟩

/-- Two SPLITs and a component which lets everything pass meet the hypotheses; the second SPLIT makes 3 copies of each of
the 2 copies of the first. -/
example : ∃ cs : List (RComp ℚ Unit), cs.length = 3 ∧ (∀ c ∈ cs, Transparent id c) ∧ PositiveSplits cs ∧
    (∀ n s, id (weightEnv.divide n s) = s / n) ∧
    ((traceLoop weightEnv cs 1 (start 1 () 0)).map fun st => (st.log.map (·.1), total id 2 st.log)) =
      some ([0, 1, 2, 2, 2, 1, 2, 2, 2], 1) := by
  refine ⟨[{ }, { split := some fun _ _ => 2 }, { split := some fun _ _ => 3 }], rfl, ?_, ?_, fun _ _ => rfl, ?_⟩
  · intro c hc
    simp only [List.mem_cons, List.not_mem_nil, or_false] at hc
    rcases hc with rfl | rfl | rfl <;> exact ⟨rfl, rfl, fun _ => rfl, fun f hf => by cases hf⟩
  · intro c hc f hf
    simp only [List.mem_cons, List.not_mem_nil, or_false] at hc
    rcases hc with rfl | rfl | rfl
    · cases hf
    · cases hf; intros; exact (by decide : (0 : Int) < 2)
    · cases hf; intros; exact (by decide : (0 : Int) < 3)
  · decide +kernel

/-- The negation of C31 for a SPLIT followed by a repeated component: the second component is to be run 3 times for each
of two copies, with weight 1/2. The first copy is run once only; the last one is split again each time the loop comes
around, and its weight divided again. The total weight is 7/4 instead of 3. -/
theorem split_and_jump_lose_weight :
    let cs : List (RComp ℚ Unit) := [{ split := some fun _ _ => 2 }, { jumps := [⟨true, 0, fun _ _ => 3, 1⟩] }]
    (traceLoop weightEnv cs 3 (start 1 () 0)).map (fun st => ((st.log.filter fun e => e.1 = 1).map fun e => e.2.1)) =
      some [1 / 2, 1 / 2, 1 / 4, 1 / 4, 1 / 8, 1 / 8] := by
  decide +kernel

end Verif.Trace
