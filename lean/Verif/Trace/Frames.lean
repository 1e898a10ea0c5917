import Verif.Trace.Refine
import Mathlib.LinearAlgebra.Matrix.NonsingularInverse
import Mathlib.LinearAlgebra.Matrix.Notation
import Mathlib.LinearAlgebra.Matrix.Trace
import Mathlib.Data.Real.Basic
import Mathlib.Tactic.Linarith
import Mathlib.Tactic.Abel

/-!
Property C28: the relative positions and rotations computed by `cogen_comp_init_position`
(src/mccode_antlr/translators/c_initialise.py 38-99), and what the trace loop makes of them.

The functions `rot_mul`, `rot_transpose`, `rot_apply`, `coords_add`, `coords_sub`, `coords_neg`, `mccoordschange`,
`rot_test_identity` and `coords_test_zero` belong to the C run-time library, which is not in the repository. They are
taken to be the matrix product, transposition, application of a matrix, addition and so on in exact real numbers;
`mccoordschange` rotates position, velocity and spin and then adds the offset to the position; `rot_test_identity` tests
whether the trace is 3 and `coords_test_zero` whether the vector is zero.
-/

namespace Verif.Trace
open Matrix

abbrev V3 := Fin 3 → ℝ
abbrev M3 := Matrix (Fin 3) (Fin 3) ℝ

/-- The physical state of a particle. -/
@[ext] structure Phys where
  pos : V3
  vel : V3
  spin : V3
  time : ℝ
  weight : ℝ

/-- `_rotation_absolute` and `_position_absolute` of a component. -/
structure Frame where
  rot : M3
  pos : V3

/-- The rotation is orthogonal. -/
def Frame.Proper (f : Frame) : Prop := f.rot * f.rot.transpose = 1

/-- Absolute coordinates expressed in the frame. -/
noncomputable def Frame.enter (f : Frame) (s : Phys) : Phys :=
  { s with pos := f.rot *ᵥ (s.pos - f.pos), vel := f.rot *ᵥ s.vel, spin := f.rot *ᵥ s.spin }

/-- Coordinates of the frame expressed absolutely. -/
noncomputable def Frame.leave (f : Frame) (s : Phys) : Phys :=
  { s with pos := f.rot.transpose *ᵥ s.pos + f.pos, vel := f.rot.transpose *ᵥ s.vel, spin := f.rot.transpose *ᵥ s.spin }

theorem Frame.Proper.comm {f : Frame} (h : f.Proper) : f.rot.transpose * f.rot = 1 := mul_eq_one_comm.1 h

/-- The frame as a change of coordinates. -/
noncomputable def Frame.equiv (f : Frame) (h : f.Proper) : Phys ≃ Phys where
  toFun := f.enter
  invFun := f.leave
  left_inv s := by
    ext i <;> simp [Frame.enter, Frame.leave, mulVec_mulVec, h.comm]
  right_inv s := by
    have h' : f.rot * f.rot.transpose = 1 := h
    ext i <;> simp [Frame.enter, Frame.leave, mulVec_mulVec, h']

/-- `_rotation_relative` (66-71). `ref` is the frame of the component `last`; there is none for the first component. -/
def rotRelative (f : Frame) : Option Frame → M3
  | none => f.rot
  | some ref => f.rot * ref.rot.transpose

/-- `_position_relative` (86-91). -/
noncomputable def posRelative (f : Frame) : Option Frame → V3
  | none => f.rot *ᵥ (-f.pos)
  | some ref => f.rot *ᵥ (ref.pos - f.pos)

/-- `mccoordschange`. -/
noncomputable def coordsChange (p : V3) (r : M3) (s : Phys) : Phys :=
  { s with pos := r *ᵥ s.pos + p, vel := r *ᵥ s.vel, spin := r *ᵥ s.spin }

open Classical in
/-- The transformation written into the trace loop (c_raytrace.py 61-69). -/
noncomputable def changeCode (f : Frame) (ref : Option Frame) (s : Phys) : Phys :=
  if (rotRelative f ref).trace = 3 then
    if posRelative f ref = 0 then s else { s with pos := s.pos + posRelative f ref }
  else coordsChange (posRelative f ref) (rotRelative f ref) s

/-- An orthogonal matrix of trace 3 is the identity. -/
theorem eq_one_of_trace (m : M3) (h : m * m.transpose = 1) (ht : m.trace = 3) : m = 1 := by
  have row : ∀ i, m i 0 ^ 2 + m i 1 ^ 2 + m i 2 ^ 2 = 1 := by
    intro i
    have := congrFun (congrFun h i) i
    simp only [Matrix.mul_apply, Matrix.transpose_apply, Fin.sum_univ_three, Matrix.one_apply_eq] at this
    linarith
  simp only [Matrix.trace, Matrix.diag, Fin.sum_univ_three] at ht
  have r0 := row 0
  have r1 := row 1
  have r2 := row 2
  have b : ∀ a b c : ℝ, a ^ 2 + b ^ 2 + c ^ 2 = 1 → a ≤ 1 := by
    intro a b c h
    have h1 := sq_nonneg (a - 1)
    have h2 := sq_nonneg b
    have h3 := sq_nonneg c
    have h4 : (a - 1) ^ 2 = a ^ 2 - 2 * a + 1 := by ring
    linarith
  have z : ∀ a b c : ℝ, a ^ 2 + b ^ 2 + c ^ 2 = 1 → a = 1 → b = 0 ∧ c = 0 := by
    intro a b c h ha
    subst ha
    have h2 := sq_nonneg b
    have h3 := sq_nonneg c
    have hb : b ^ 2 = 0 := by linarith
    have hc : c ^ 2 = 0 := by linarith
    exact ⟨by simpa using hb, by simpa using hc⟩
  have b0 := b _ _ _ r0
  have b1 := b (m 1 1) (m 1 0) (m 1 2) (by linarith)
  have b2 := b (m 2 2) (m 2 0) (m 2 1) (by linarith)
  have e0 : m 0 0 = 1 := by linarith
  have e1 : m 1 1 = 1 := by linarith
  have e2 : m 2 2 = 1 := by linarith
  obtain ⟨z1, z2⟩ := z _ _ _ r0 e0
  obtain ⟨z3, z4⟩ := z (m 1 1) (m 1 0) (m 1 2) (by linarith) e1
  obtain ⟨z5, z6⟩ := z (m 2 2) (m 2 0) (m 2 1) (by linarith) e2
  ext i j
  fin_cases i <;> fin_cases j
  · simpa using e0
  · simpa using z1
  · simpa using z2
  · simpa using z3
  · simpa using e1
  · simpa using z4
  · simpa using z5
  · simpa using z6
  · simpa using e2

theorem rotRelative_proper (f : Frame) (hf : f.Proper) (ref : Option Frame) (hr : ∀ r, ref = some r → r.Proper) :
    rotRelative f ref * (rotRelative f ref).transpose = 1 := by
  cases ref with
  | none => exact hf
  | some r =>
    have h := (hr r rfl).comm
    have hf' : f.rot * f.rot.transpose = 1 := hf
    simp only [rotRelative, Matrix.transpose_mul, Matrix.transpose_transpose]
    rw [Matrix.mul_assoc, ← Matrix.mul_assoc r.rot.transpose, h, Matrix.one_mul, hf']

/-- The transformation written into the loop takes coordinates of the reference frame to those of the component. -/
theorem changeCode_spec (f : Frame) (hf : f.Proper) (ref : Option Frame) (hr : ∀ r, ref = some r → r.Proper) (s : Phys) :
    changeCode f ref s = f.enter (match ref with | none => s | some r => r.leave s) := by
  have gen : coordsChange (posRelative f ref) (rotRelative f ref) s =
      f.enter (match ref with | none => s | some r => r.leave s) := by
    cases ref with
    | none =>
      ext i <;> simp [coordsChange, posRelative, rotRelative, Frame.enter, mulVec_sub, mulVec_neg, ← sub_eq_add_neg]
    | some r =>
      ext i <;> simp [coordsChange, posRelative, rotRelative, Frame.enter, Frame.leave, mulVec_sub, mulVec_add, mulVec_mulVec]
      ring
  rw [← gen]
  unfold changeCode
  split
  · rename_i ht
    have h1 := eq_one_of_trace _ (rotRelative_proper f hf ref hr) ht
    split
    · rename_i hz
      ext i <;> simp [coordsChange, h1, hz]
    · ext i <;> simp [coordsChange, h1]
  · rfl

/-- The loop of `cogen_initialize` (233-237): the component each is relative to. -/
def references (last idx : Nat) : List Bool → List Nat
  | [] => []
  | sk :: sks => last :: references (if sk then last else idx) (idx + 1) sks

/-- The last component before `i` that is not skipped; the first component if there is none. -/
def lastBefore (skip : Nat → Bool) : Nat → Nat
  | 0 => 0
  | i + 1 => if skip i then lastBefore skip i else i

theorem references_get (skip : Nat → Bool) (sks : List Bool) : ∀ (idx i : Nat),
    (∀ k sk, sks[k]? = some sk → sk = skip (idx + k)) → i < sks.length →
    (references (lastBefore skip idx) idx sks)[i]? = some (lastBefore skip (idx + i)) := by
  induction sks with
  | nil => intro idx i _ h; simp at h
  | cons sk sks ih =>
    intro idx i hs hi
    have h0 : sk = skip idx := by simpa using hs 0 sk rfl
    cases i with
    | zero => simp [references]
    | succ i =>
      simp only [references, List.getElem?_cons_succ]
      have e : (if sk then lastBefore skip idx else idx) = lastBefore skip (idx + 1) := by
        simp [lastBefore, h0]
      rw [e, ih (idx + 1) i _ (by simpa using hi)]
      · rw [show idx + 1 + i = idx + (i + 1) by omega]
      · intro k s hk
        rw [show idx + 1 + k = idx + (k + 1) by omega]
        exact hs (k + 1) s (by simpa using hk)

/-- The transformation of component `i` as the generated program computes it. -/
noncomputable def generatedChange (frames : Nat → Frame) (skips : List Bool) (i : Nat) : Phys → Phys :=
  changeCode (frames i) (if i = 0 then none else ((references 0 0 skips)[i]?).map frames)

/-- A frame without rotation and offset. -/
def Frame.IsOrigin (f : Frame) : Prop := f.rot = 1 ∧ f.pos = 0

theorem origin_enter (f : Frame) (h : f.IsOrigin) (s : Phys) : f.enter s = s := by
  ext i <;> simp [Frame.enter, h.1, h.2]

theorem arriving_frames (frames : Nat → Frame) (hp : ∀ i, (frames i).Proper) (skip : Nat → Bool)
    (h0 : skip 0 = true → (frames 0).IsOrigin) : ∀ i s,
    arriving (fun i => (frames i).equiv (hp i)) skip (i + 1) s = (frames (lastBefore skip (i + 1))).enter s := by
  intro i
  induction i with
  | zero =>
    intro s
    simp only [arriving, lastBefore]
    split
    · rename_i h
      exact (origin_enter _ (h0 h) s).symm
    · rfl
  | succ i ih =>
    intro s
    rw [arriving, lastBefore]
    split
    · exact ih s
    · rfl

/-- The division of the weight by the number of copies. -/
noncomputable def physEnv {U : Type} (keep : U → U → U) : Env Phys U := ⟨keep, fun n s => { s with weight := s.weight / n }⟩

/-- **C28** (partial): the generated loop reports every component's particles in the coordinates of that component: the
reports are those of a loop without coordinate transformations, in which particles always have absolute coordinates and
each component converts to and from its own, with each state expressed in the frame of the component. This holds for
every choice of frames, skipped transformations, groups and SPLITs, and every behaviour of the components. Missing: jumps,
which pass coordinates on unchanged by design, and the instruments excluded by `Regular` and by the condition on a
skipped first component; the theorems below show that the claim fails for these. -/
theorem trace_in_own_frame_partial {U : Type} (keep : U → U → U) (frames : Nat → Frame) (hp : ∀ i, (frames i).Proper)
    (cs : List (RComp Phys U)) (hr : Regular cs) (hs : PositiveSplits cs)
    (h0 : ∀ c, cs[0]? = some c → c.skip = true → (frames 0).IsOrigin)
    (hch : ∀ (i : Nat) c, cs[i]? = some c → c.change = generatedChange frames (cs.map (·.skip)) i)
    (s : Phys) (u : U) (junk : Phys) :
    ∃ L I, traceLoop (physEnv keep) cs 1 (start s u junk) = some L ∧
      traceLoop (physEnv keep) (idealFrom (fun i => (frames i).equiv (hp i)) (fun i => ((cs.map (·.skip))[i]?).getD false) 0 cs) 1
        (start s u junk) = some I ∧
      L.log = I.log.map fun e => (e.1, (frames e.1).enter e.2.1, e.2.2) := by
  apply loop_refines_ideal (physEnv keep) cs hr hs (fun i => (frames i).equiv (hp i))
    (fun i => ((cs.map (·.skip))[i]?).getD false)
  · intro i c hc
    simp [hc]
  · intro i c hc hsk x
    have hlt : i < cs.length := by
      by_contra h
      rw [List.getElem?_eq_none (by omega)] at hc
      cases hc
    rw [hch i c hc]
    unfold generatedChange
    cases i with
    | zero =>
      rw [if_pos rfl, changeCode_spec _ (hp 0) none (by simp)]
      rfl
    | succ i =>
      have hg := references_get (fun i => ((cs.map (·.skip))[i]?).getD false) (cs.map (·.skip)) 0 (i + 1)
        (by intro k sk hk; simp [hk]) (by simpa using hlt)
      rw [show lastBefore (fun i => ((cs.map (·.skip))[i]?).getD false) 0 = 0 from rfl, Nat.zero_add] at hg
      rw [if_neg (by omega), hg]
      simp only [Option.map_some]
      rw [changeCode_spec _ (hp _) _ (by intro r hr; cases hr; exact hp _)]
      rw [arriving_frames frames hp _ (by
        intro h
        cases hc0 : cs[0]? with
        | none =>
          rw [List.getElem?_eq_none_iff] at hc0
          omega
        | some c0 =>
          apply h0 c0 hc0
          simpa [hc0] using h)]
      simp only
      show (frames (i + 1)).enter (((frames _).equiv (hp _)).symm (((frames _).equiv (hp _)) x)) = _
      rw [Equiv.symm_apply_apply]
      rfl
  · intro n i s
    rfl

/-- A frame moved along x. -/
def shifted (x : ℝ) : Frame := ⟨1, ![x, 0, 0]⟩

theorem shifted_proper (x : ℝ) : (shifted x).Proper := by simp [shifted, Frame.Proper]

/-- Components, one of them skipped, a group of two and a SPLIT, which meet the hypotheses of
`trace_in_own_frame_partial`. -/
example : ∃ cs : List (RComp Phys Unit), Regular cs ∧ PositiveSplits cs ∧ cs.length = 4 ∧
    (∀ c, cs[0]? = some c → c.skip = true → (shifted 0).IsOrigin) ∧
    (∀ (i : Nat) c, cs[i]? = some c → c.change = generatedChange (fun i => shifted i) (cs.map (·.skip)) i) := by
  refine ⟨[{ change := generatedChange (fun i => shifted i) [false, true, false, false] 0 },
    { skip := true, change := generatedChange (fun i => shifted i) [false, true, false, false] 1 },
    { change := generatedChange (fun i => shifted i) [false, true, false, false] 2, group := some (true, 3),
      split := some fun _ _ => 2 },
    { change := generatedChange (fun i => shifted i) [false, true, false, false] 3, group := some (false, 3) }],
    ⟨?_, ?_, ?_, ?_, ?_, ?_⟩, ?_, rfl, ?_, ?_⟩
  · rintro (_ | _ | _ | _ | i) c h <;> simp at h <;> subst h <;> rfl
  · rintro (_ | _ | _ | _ | i) c h <;> simp at h <;> subst h <;> simp
  · intro c h
    simp at h; subst h; simp [Follower]
  · rintro (_ | _ | _ | _ | i) c d lid h1 h2 h3 <;> simp at h1 h2 <;> subst h1 <;> subst h2 <;> simp at h3 ⊢
    exact h3
  · rintro (_ | _ | _ | _ | i) c b lid h1 h2 <;> simp at h1 <;> subst h1 <;> simp at h2
    · obtain ⟨_, rfl⟩ := h2; simp
    · obtain ⟨_, rfl⟩ := h2; simp
  · rintro (_ | _ | _ | _ | i) c h1 h2 <;> simp at h1 <;> subst h1 <;> simp [Follower] at h2 ⊢
  · intro c hc f hf s u
    simp only [List.mem_cons, List.not_mem_nil, or_false] at hc
    rcases hc with rfl | rfl | rfl | rfl <;> simp at hf
    subst hf; simp
  · intro c h
    simp at h; subst h; simp
  · rintro (_ | _ | _ | _ | i) c h <;> simp at h <;> subst h <;> rfl

/-- The negation of C28 for a first component which is skipped and not at the origin: the transformation of the second
component is relative to the first, whose own transformation is not done. A particle at absolute coordinates `s` is seen
by a second component in the same place as the first as `s`, whatever that place is; it should be seen as `enter s`. -/
theorem skipped_first_component_wrong (f : Frame) (hf : f.Proper) (s junk : Phys) :
    let cs : List (RComp Phys Unit) := [{ skip := true, change := generatedChange (fun _ => f) [true, false] 0 },
      { change := generatedChange (fun _ => f) [true, false] 1 }]
    (traceLoop (physEnv fun _ u => u) cs 1 (start s () junk)).map (·.log) = some [(1, s, ())] ∧
    (f = shifted 1 → f.enter s ≠ s) := by
  have hch : ∀ x, generatedChange (fun _ => f) [true, false] 1 x = x := by
    intro x
    unfold generatedChange
    rw [if_neg (by omega)]
    simp only [references, List.getElem?_cons_succ, List.getElem?_cons_zero, Option.map_some]
    rw [changeCode_spec f hf (some f) (by intro r h; cases h; exact hf)]
    exact (f.equiv hf).right_inv x
  refine ⟨?_, ?_⟩
  · simp [traceLoop, start, pass, runComp, coords, body, saveState, report, runTrace, runJumps, runGroup, advance, checkEnd, hch]
  · rintro rfl h
    have := congrFun (congrArg Phys.pos h) 0
    simp [Frame.enter, shifted, Matrix.vecHead] at this

end Verif.Trace
