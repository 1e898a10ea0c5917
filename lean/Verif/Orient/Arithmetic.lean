import Verif.Orient.Placement

/-!
C111: combining, inverting, adding and subtracting orientations (`Parts.__add__`, `__sub__`, `Orient.inverse`, `combine`, `__add__`,
`__sub__`; src/mccode_antlr/instr/orientation.py 745-763, 929-958).
-/

namespace Verif.Orient
variable {E : Type}

/-- `Parts.__add__` for parts (745-753). -/
def partsAdd (ps qs : List (Part E)) : List (Part E) := ps ++ qs

/-- `Parts.__sub__` for parts (755-763). -/
def partsSub (ps qs : List (Part E)) : List (Part E) := ps ++ (qs.map Part.inverse).reverse

/-- `Orient.inverse` (929-930). -/
def Orient.inverse (o : Orient E) : Orient E := ⟨chainInverse o.position, chainInverse o.rotation⟩

/-- `Orient.combine` (935-941). -/
def Orient.combine (o : Orient E) : List (Part E) := o.rotation ++ o.position

/-- `Orient.__add__` for an orientation (943-945). -/
def Orient.add (a b : Orient E) : Orient E := ⟨partsAdd a.position b.position, partsAdd a.rotation b.rotation⟩

/-- `Orient.__sub__` for an orientation (951-954). -/
def Orient.sub (a b : Orient E) : Orient E :=
  ⟨partsAdd b.rotation (partsSub a.position b.position), partsSub a.rotation b.rotation⟩

/-- `Orient.position()`: where it is. -/
noncomputable def Orient.pos (e : E) (o : Orient E) : Vec ℝ := (resolve o.position).position.val e

/-- `Orient.rotation()`: the matrix that takes a vector to the axes of the orientation. -/
noncomputable def Orient.rot (e : E) (o : Orient E) : Rot ℝ := (resolve o.rotation).rotationAxes.val e

/-- The orientations made by placing one component after the other. -/
inductive Built : Orient E → Prop
  | none : Built Orient.none
  | place (rel rot : Option (Orient E)) (at_ angles : Vec (Sc E)) (degrees : Bool) :
      (∀ o, rel = some o → Built o) → (∀ o, rot = some o → Built o) →
      Built (fromDependentOrientations rel at_ rot angles degrees)

/-! ### Lemmas -/

theorem position_val (e : E) (p : Part E) : p.position.val e = (p.axes.val e).t := by
  cases p <;> rfl

theorem Orient.pos_val (e : E) (o : Orient E) : o.pos e = (compose e o.position).t := by
  rw [Orient.pos, position_val, resolve_val]

theorem Orient.rot_val (e : E) (o : Orient E) : o.rot e = (compose e o.rotation).r := by
  rw [Orient.rot, ← resolve_val]; rfl

/-- The zero vector. -/
def Vec.zero : Vec ℝ := ⟨0, 0, 0⟩

@[simp] theorem Rot.apply_zero (a : Rot ℝ) : a.apply Vec.zero = Vec.zero := by
  ext <;> simp [Rot.apply, Vec.zero]

@[simp] theorem Vec.zero_add (v : Vec ℝ) : Vec.zero.add v = v := by
  ext <;> simp [Vec.add, Vec.zero]

@[simp] theorem Vec.add_zero (v : Vec ℝ) : v.add Vec.zero = v := by
  ext <;> simp [Vec.add, Vec.zero]

theorem compose_still (e : E) (ps : List (Part E)) (h : ∀ p ∈ ps, (p.axes.val e).t = Vec.zero) : (compose e ps).t = Vec.zero := by
  induction ps with
  | nil => rfl
  | cons p ps ih =>
    rw [compose, Seitz.mul, h p List.mem_cons_self, ih fun q hq => h q (List.mem_cons_of_mem _ hq)]
    simp

theorem compose_straight (e : E) (ps : List (Part E)) (h : ∀ p ∈ ps, (p.axes.val e).r = Rot.one) : (compose e ps).r = Rot.one := by
  induction ps with
  | nil => rfl
  | cons p ps ih =>
    rw [compose, Seitz.mul, h p List.mem_cons_self, ih fun q hq => h q (List.mem_cons_of_mem _ hq)]
    simp

theorem reduceStep_still (e : E) (st : List (Part E) × Part E) (top : Part E) (h : ∀ p ∈ st.2 :: st.1, (p.axes.val e).t = Vec.zero)
    (ht : (top.axes.val e).t = Vec.zero) : ∀ p ∈ (reduceStep st top).2 :: (reduceStep st top).1, (p.axes.val e).t = Vec.zero := by
  obtain ⟨done, last⟩ := st
  have hl := h last List.mem_cons_self
  have hd : ∀ p ∈ done, (p.axes.val e).t = Vec.zero := fun p hp => h p (List.mem_cons_of_mem _ hp)
  simp only [reduceStep]
  split_ifs <;> intro p hp <;> rcases List.mem_cons.1 hp with rfl | hp
  · exact ht
  · exact hd p hp
  · rw [Part.mul_axes, Seitz.mul, hl, ht]; simp
  · exact hd p hp
  · exact ht
  · exact h p hp

theorem reduce_still (e : E) (ps : List (Part E)) (h : ∀ p ∈ ps, (p.axes.val e).t = Vec.zero) :
    ∀ p ∈ reduce ps, (p.axes.val e).t = Vec.zero := by
  have fold : ∀ (ps : List (Part E)) (st : List (Part E) × Part E), (∀ p ∈ ps, (p.axes.val e).t = Vec.zero) →
      (∀ p ∈ st.2 :: st.1, (p.axes.val e).t = Vec.zero) →
      ∀ p ∈ (ps.foldl reduceStep st).2 :: (ps.foldl reduceStep st).1, (p.axes.val e).t = Vec.zero := by
    intro ps
    induction ps with
    | nil => exact fun st _ hst => hst
    | cons q ps ih =>
      intro st hps hst
      exact ih _ (fun p hp => hps p (List.mem_cons_of_mem _ hp)) (reduceStep_still e st q hst (hps q List.mem_cons_self))
  cases ps with
  | nil => simp [reduce]
  | cons q ps =>
    have := fold ps ([], q) (fun p hp => h p (List.mem_cons_of_mem _ hp)) (by simpa using h q List.mem_cons_self)
    intro p hp
    simp only [reduce, reduceEnd] at hp
    split_ifs at hp
    · exact this p (List.mem_cons_of_mem _ (List.mem_reverse.1 hp))
    · exact this p (List.mem_reverse.1 hp)

/-- The position of a component is made of translations, the rotation of rotations about the origin. -/
theorem built_pure (e : E) (o : Orient E) (h : Built o) :
    (∀ p ∈ o.position, (p.axes.val e).r = Rot.one) ∧ ∀ p ∈ o.rotation, (p.axes.val e).t = Vec.zero := by
  induction h with
  | none => simp [Orient.none]
  | place rel rot at_ angles degrees _ _ _ ihrot =>
    refine ⟨?_, ?_⟩
    · intro p hp
      simp only [fromDependentOrientations, List.mem_singleton] at hp
      subst hp
      simp only [Part.axes, Seitz.val, Rot.val_one]
    · have h0 : (0 : Sc E).isZero = true := by
        show (Sc.lit 0).isZero = true
        simp [Sc.isZero]
      simp only [fromDependentOrientations, fromDependentChain]
      apply reduce_still
      intro p hp
      rw [List.mem_append] at hp
      rcases hp with hp | hp
      · cases rot with
        | none => simp at hp
        | some r => exact reduce_still e r.rotation (ihrot r rfl).2 p (by simpa using hp)
      · have : ∃ a v, p = .rotation a v degrees := by
          simp only [fromAtRotated, h0, Bool.and_self, if_true, List.append_nil, List.mem_append] at hp
          rcases hp with (hp | hp) | hp <;> split_ifs at hp <;> simp at hp <;> exact ⟨_, _, hp⟩
        obtain ⟨a, v, rfl⟩ := this
        simp [Part.axes, Seitz.val, Vec.val, Vec.zero]

theorem compose_translations (e : E) (ps qs : List (Part E))
    (hq : ∀ p ∈ qs, (p.axes.val e).r = Rot.one) : (compose e (ps ++ qs)).t = (compose e ps).t.add (compose e qs).t := by
  rw [compose_append, Seitz.mul, compose_straight e qs hq]
  simp

theorem inverse_translation (e : E) (p : Part E) (h : (p.axes.val e).r = Rot.one) : (p.inverse.axes.val e).r = Rot.one ∧
    (p.inverse.axes.val e).t = ⟨-(p.axes.val e).t.x, -(p.axes.val e).t.y, -(p.axes.val e).t.z⟩ := by
  cases p with
  | general s =>
    have hs : s.r.val e = Rot.one := h
    simp [Part.inverse, Part.axes, Seitz.val, Seitz.inverse, hs, Vec.val, Rot.val_transpose]
    have := Rot.val_apply e s.r.transpose s.t
    rw [Rot.val_transpose, hs, Rot.transpose_one, Rot.one_apply] at this
    simp only [Vec.val, Vec.mk.injEq] at this
    exact this
  | translation v => simp [Part.inverse, Part.axes, Seitz.val, Vec.val]
  | rotation a v d =>
    have h0 : (rotationAxes a v d).val e = Rot.one := h
    rw [rotationAxes_val] at h0
    have hc : (cosValue (usedAngle v d)).val e = 1 ∧ (sinValue (usedAngle v d)).val e = 0 := by
      cases a <;> simp only [turn, Rot.one, Rot.mk.injEq] at h0 <;> simp [h0]
    have key : (rotationAxes a (-v) d).val e = Rot.one := by
      rw [rotationAxes_val, usedAngle_neg, cosValue_neg, hc.1]
      have h180 : ∀ r, usedAngle v d = .lit r → r ≠ 180 := by
        rintro r hr rfl
        have := hc.1
        rw [hr, cosValue_lit] at this
        norm_num at this
      have hm180 : ∀ r, usedAngle v d = .lit r → -r ≠ 180 := by
        intro r hr h'
        have := hc.1
        rw [hr, cosValue_lit, ← cosDeg_neg, h'] at this
        norm_num at this
      rw [sinValue_neg e _ h180 hm180, hc.2, neg_zero, turn_one]
    refine ⟨key, ?_⟩
    simp [Part.inverse, Part.axes, Seitz.val, Vec.val]

theorem chainInverse_translations (e : E) (ps : List (Part E)) (h : ∀ p ∈ ps, (p.axes.val e).r = Rot.one) :
    (∀ p ∈ chainInverse ps, (p.axes.val e).r = Rot.one) ∧
    (compose e (chainInverse ps)).t = ⟨-(compose e ps).t.x, -(compose e ps).t.y, -(compose e ps).t.z⟩ := by
  have h1 : ∀ (ps : List (Part E)), (∀ p ∈ ps, (p.axes.val e).r = Rot.one) → ∀ p ∈ chainInverse ps, (p.axes.val e).r = Rot.one := by
    intro ps h p hp
    simp only [chainInverse, List.mem_map, List.mem_reverse] at hp
    obtain ⟨q, hq, rfl⟩ := hp
    exact (inverse_translation e q (h q hq)).1
  refine ⟨h1 ps h, ?_⟩
  induction ps with
  | nil => simp [chainInverse, compose, Seitz.one]
  | cons p ps ih =>
    have hp := h p List.mem_cons_self
    have hps : ∀ q ∈ ps, (q.axes.val e).r = Rot.one := fun q hq => h q (List.mem_cons_of_mem _ hq)
    have i := inverse_translation e p hp
    have e1 : chainInverse (p :: ps) = chainInverse ps ++ [p.inverse] := by simp [chainInverse]
    rw [e1, compose_translations e _ _ (by simpa using i.1), ih hps]
    simp only [compose, i.2, Seitz.mul, compose_straight e ps hps, Rot.one_apply]
    ext <;> simp [Vec.add, Seitz.one]

theorem rot_inverse (e : E) (ps : List (Part E)) (h : ∀ p ∈ ps, Sound p) (h' : ∀ p ∈ ps, SoundInverse p) :
    (compose e (chainInverse ps)).r = (compose e ps).r.transpose := by
  have ho := compose_orthogonal e ps fun p hp => sound_orthogonal e p (h p hp)
  have hi : (compose e (chainInverse ps)).r.mul (compose e ps).r = Rot.one := congrArg Seitz.r (compose_inverse e ps h h').1
  calc (compose e (chainInverse ps)).r = (compose e (chainInverse ps)).r.mul ((compose e ps).r.mul (compose e ps).r.transpose) := by
        rw [ho.right, Rot.mul_one]
    _ = (compose e ps).r.transpose := by rw [← Rot.mul_assoc, hi, Rot.one_mul]

theorem orient_orthogonal (e : E) (o : Orient E) (h : ∀ p ∈ o.rotation, Sound p) : (o.rot e).Orthogonal := by
  rw [Orient.rot_val]
  exact compose_orthogonal e _ fun p hp => sound_orthogonal e p (h p hp)

theorem partsSub_eq (ps qs : List (Part E)) : partsSub ps qs = ps ++ chainInverse qs := by
  rw [partsSub, chainInverse, List.map_reverse]

theorem sub_pos (e : E) (a b : Orient E) (hb : Built b) :
    (a.sub b).pos e = (a.pos e).add ⟨-(b.pos e).x, -(b.pos e).y, -(b.pos e).z⟩ := by
  obtain ⟨pb, rb⟩ := built_pure e b hb
  obtain ⟨i1, i2⟩ := chainInverse_translations e b.position pb
  have hz := compose_still e b.rotation rb
  rw [Orient.pos_val, Orient.pos_val, Orient.pos_val, Orient.sub]
  simp only [partsAdd, partsSub_eq]
  rw [compose_append, Seitz.mul, hz, Rot.apply_zero, Vec.zero_add, compose_translations e _ _ i1, i2]

theorem sub_rot (e : E) (a b : Orient E) (h : ∀ p ∈ b.rotation, Sound p) (h' : ∀ p ∈ b.rotation, SoundInverse p) :
    (a.sub b).rot e = (b.rot e).transpose.mul (a.rot e) := by
  rw [Orient.rot_val, Orient.rot_val, Orient.rot_val, Orient.sub]
  simp only [partsSub_eq]
  rw [compose_append, Seitz.mul, rot_inverse e _ h h']

/-! ### C111 -/

/-- C111: the combined operations have the position and the rotation of the orientation. -/
theorem combine_same (e : E) (o : Orient E) (h : Built o) :
    (resolve o.combine).position.val e = o.pos e ∧ (resolve o.combine).rotationAxes.val e = o.rot e := by
  obtain ⟨hp, hr⟩ := built_pure e o h
  have hc : compose e o.combine = ⟨(compose e o.rotation).r, (compose e o.position).t⟩ := by
    rw [Orient.combine, compose_append, Seitz.mul, compose_still e _ hr, compose_straight e _ hp]
    simp
  refine ⟨?_, ?_⟩
  · rw [position_val, resolve_val, hc, Orient.pos_val]
  · have : (resolve o.combine).rotationAxes.val e = ((resolve o.combine).axes.val e).r := rfl
    rw [this, resolve_val, hc, Orient.rot_val]

/-- C111: so they have after reducing. Missing: rotations that are not proper to begin with (literal half turns). -/
theorem combine_reduce_partial (e : E) (o : Orient E) (h : Built o) (hs : ∀ p ∈ o.rotation, Sound p) :
    (resolve (reduce o.combine)).position.val e = o.pos e ∧ (resolve (reduce o.combine)).rotationAxes.val e = o.rot e := by
  obtain ⟨hp, -⟩ := built_pure e o h
  have ho : ∀ p ∈ o.combine, (p.axes.val e).r.Orthogonal := by
    intro p hpm
    rw [Orient.combine, List.mem_append] at hpm
    rcases hpm with hm | hm
    · exact sound_orthogonal e p (hs p hm)
    · rw [hp p hm]
      exact Rot.Orthogonal.one
  have hc := (compose_reduce e _ ho).1
  have hsame := combine_same e o h
  have hr : ∀ l : List (Part E), (resolve l).rotationAxes.val e = ((resolve l).axes.val e).r := fun _ => rfl
  rw [position_val, hr, resolve_val] at hsame ⊢
  rw [hc]
  exact hsame

/-- C111: what is subtracted from itself is at the origin and not rotated. Missing: literal half turns, see C15. -/
theorem sub_self_partial (e : E) (a : Orient E) (ha : Built a) (h : ∀ p ∈ a.rotation, Sound p) (h' : ∀ p ∈ a.rotation, SoundInverse p) :
    (a.sub a).pos e = ⟨0, 0, 0⟩ ∧ (a.sub a).rot e = Rot.one := by
  refine ⟨?_, ?_⟩
  · rw [sub_pos e a a ha, Vec.add_neg]
  · rw [sub_rot e a a h h', (orient_orthogonal e a h).left]

/-- C111: the position of `a - b`, taken in the axes of `b` and from its position, is where `a` is only if the axes of `b` have the
difference unchanged; else `a - b` is not relative to `b`. -/
theorem sub_position_iff (e : E) (a b : Orient E) (hb : Built b) :
    (b.pos e).add ((b.rot e).transpose.apply ((a.sub b).pos e)) = a.pos e ↔
      (b.rot e).transpose.apply ((a.pos e).add ⟨-(b.pos e).x, -(b.pos e).y, -(b.pos e).z⟩) =
        (a.pos e).add ⟨-(b.pos e).x, -(b.pos e).y, -(b.pos e).z⟩ := by
  rw [sub_pos e a b hb]
  generalize (b.rot e).transpose.apply _ = d
  generalize a.pos e = p
  generalize b.pos e = q
  constructor
  · rintro rfl
    ext <;> simp [Vec.add]
  · rintro rfl
    ext <;> simp [Vec.add]

/-- C111: the rotation of `a - b`, following that of `b`, is that of `a` only if the two rotations commute. -/
theorem sub_rotation_iff (e : E) (a b : Orient E) (h : ∀ p ∈ b.rotation, Sound p) (h' : ∀ p ∈ b.rotation, SoundInverse p) :
    ((a.sub b).rot e).mul (b.rot e) = a.rot e ↔ (a.rot e).mul (b.rot e) = (b.rot e).mul (a.rot e) := by
  have ho := orient_orthogonal e b h
  rw [sub_rot e a b h h', Rot.mul_assoc]
  constructor
  · intro hh
    have := congrArg (Rot.mul (b.rot e)) hh
    rwa [← Rot.mul_assoc, ho.right, Rot.one_mul] at this
  · intro hh
    rw [hh, ← Rot.mul_assoc, ho.left, Rot.one_mul]

/-- C111: the rotation of `a + b` is that of `b` following that of `a`; its position is that of `b` in the axes of `a` only if those have
it unchanged. -/
theorem add_right_iff (e : E) (a b : Orient E) (hb : Built b) :
    (a.add b).rot e = (b.rot e).mul (a.rot e) ∧
    ((a.add b).pos e = (a.pos e).add ((a.rot e).transpose.apply (b.pos e)) ↔ (a.rot e).transpose.apply (b.pos e) = b.pos e) := by
  obtain ⟨pb, -⟩ := built_pure e b hb
  have hpos : (a.add b).pos e = (a.pos e).add (b.pos e) := by
    rw [Orient.pos_val, Orient.pos_val, Orient.pos_val, Orient.add]
    simp only [partsAdd]
    rw [compose_translations e _ _ pb]
  refine ⟨?_, ?_⟩
  · rw [Orient.rot_val, Orient.rot_val, Orient.rot_val, Orient.add]
    simp only [partsAdd]
    rw [compose_append, Seitz.mul]
  · rw [hpos]
    generalize (a.rot e).transpose.apply _ = d
    generalize a.pos e = p
    generalize b.pos e = q
    constructor
    · intro hh
      simp only [Vec.add, Vec.mk.injEq, add_right_inj] at hh
      ext <;> simp [hh]
    · rintro rfl
      rfl

/-- C111: the inverse has the inverse rotation; it is the origin as seen from the orientation only if the axes have the position
unchanged. Missing: literal half turns. -/
theorem inverse_right_partial (e : E) (o : Orient E) (hb : Built o) (h : ∀ p ∈ o.rotation, Sound p)
    (h' : ∀ p ∈ o.rotation, SoundInverse p) :
    (o.inverse.rot e).mul (o.rot e) = Rot.one ∧
    ((o.pos e).add ((o.rot e).transpose.apply (o.inverse.pos e)) = ⟨0, 0, 0⟩ ↔ (o.rot e).transpose.apply (o.pos e) = o.pos e) := by
  obtain ⟨hp, -⟩ := built_pure e o hb
  obtain ⟨-, i2⟩ := chainInverse_translations e o.position hp
  have hpos : o.inverse.pos e = ⟨-(o.pos e).x, -(o.pos e).y, -(o.pos e).z⟩ := by
    rw [Orient.pos_val, Orient.pos_val, Orient.inverse, i2]
  have hrot : o.inverse.rot e = (o.rot e).transpose := by
    rw [Orient.rot_val, Orient.rot_val, Orient.inverse, rot_inverse e _ h h']
  refine ⟨?_, ?_⟩
  · rw [hrot, (orient_orthogonal e o h).left]
  · have hn : ∀ (m : Rot ℝ) (v : Vec ℝ), m.apply ⟨-v.x, -v.y, -v.z⟩ = ⟨-(m.apply v).x, -(m.apply v).y, -(m.apply v).z⟩ := by
      intro m v
      ext <;> simp only [Rot.apply] <;> ring
    rw [hpos, hn]
    generalize (o.rot e).transpose.apply _ = d
    generalize o.pos e = p
    constructor
    · intro hh
      simp only [Vec.add, Vec.mk.injEq] at hh
      obtain ⟨h1, h2, h3⟩ := hh
      ext <;> linarith
    · rintro rfl
      exact Vec.add_neg _

/-! ### Where it fails -/

/-- A component placed at a point with one rotation about an axis. -/
noncomputable def turned (at_ : Vec (Sc Unit)) (angles : Vec (Sc Unit)) : Orient Unit :=
  fromDependentOrientations none at_ none angles

theorem turned_built (at_ angles : Vec (Sc Unit)) : Built (turned at_ angles) :=
  .place none none at_ angles true (by simp) (by simp)

theorem turned_pos (at_ angles : Vec (Sc Unit)) : (turned at_ angles).pos () = at_.val () := by
  have h0 := Rot.val_apply () (Seitz.one : Seitz (Sc Unit)).inverse.r at_
  simp only [turned, fromDependentOrientations, Orient.pos, resolve, Option.getD, Orient.none, List.foldl_nil, Part.position,
    Part.rotationCoordinates, Part.axes, Vec.val_add]
  rw [h0]
  ext <;> simp [Seitz.one, Seitz.inverse, Rot.one, Rot.transpose, Rot.val, Rot.apply, Vec.val, Vec.add]

theorem turned_rotation_y (at_ : Vec (Sc Unit)) : (turned at_ ⟨.lit 0, .lit 90, .lit 0⟩).rotation = [.rotation .y (.lit 90) true] := by
  have h0 : (0 : Sc Unit).isZero = true := by
    show (Sc.lit 0).isZero = true
    simp [Sc.isZero]
  have h0' : (Sc.lit 0 : Sc Unit).isZero = true := h0
  have h90 : (Sc.lit 90 : Sc Unit).isZero = false := by simp [Sc.isZero]
  simp [turned, fromDependentOrientations, fromDependentChain, fromAtRotated, h0, h0', h90, reduce, reduceEnd]

theorem turned_rotation_x (at_ : Vec (Sc Unit)) : (turned at_ ⟨.lit 90, .lit 0, .lit 0⟩).rotation = [.rotation .x (.lit 90) true] := by
  have h0 : (0 : Sc Unit).isZero = true := by
    show (Sc.lit 0).isZero = true
    simp [Sc.isZero]
  have h0' : (Sc.lit 0 : Sc Unit).isZero = true := h0
  have h90 : (Sc.lit 90 : Sc Unit).isZero = false := by simp [Sc.isZero]
  simp [turned, fromDependentOrientations, fromDependentChain, fromAtRotated, h0, h0', h90, reduce, reduceEnd]

theorem quarter_val (a : Axis) : ((Part.rotation a (.lit 90) true : Part Unit).axes.val ()).r = turn a 0 1 := by
  have : (Part.rotation a (.lit 90) true : Part Unit).axes.val () = ⟨_, _⟩ := rfl
  simp only [Part.axes, Seitz.val, rotationAxes_val, usedAngle, if_true, cosValue_lit, cosDeg_90]
  rw [sinValue_lit () 90 (by norm_num), sinDeg_90]

theorem quarter_sound (a : Axis) : Sound (Part.rotation a (.lit 90) true : Part Unit) ∧
    SoundInverse (Part.rotation a (.lit 90) true : Part Unit) := by
  refine ⟨fun r hr => ?_, fun r hr => ?_⟩ <;> simp only [usedAngle, if_true, Sc.lit.injEq] at hr <;> subst hr <;> norm_num

theorem turned_rot_y (at_ : Vec (Sc Unit)) : (turned at_ ⟨.lit 0, .lit 90, .lit 0⟩).rot () = turn .y 0 1 := by
  rw [Orient.rot_val, turned_rotation_y]
  simp [compose, quarter_val]

theorem turned_rot_x (at_ : Vec (Sc Unit)) : (turned at_ ⟨.lit 90, .lit 0, .lit 0⟩).rot () = turn .x 0 1 := by
  rw [Orient.rot_val, turned_rotation_x]
  simp [compose, quarter_val]

/-- A component placed away from the origin and turned meets the hypotheses. -/
example : ∃ o : Orient Unit, Built o ∧ o.position.length = 1 ∧ o.rotation = [.rotation .y (.lit 90) true] ∧
    (∀ p ∈ o.rotation, Sound p) ∧ ∀ p ∈ o.rotation, SoundInverse p := by
  refine ⟨turned ⟨.lit 1, .lit 2, .lit 3⟩ ⟨.lit 0, .lit 90, .lit 0⟩, turned_built _ _, rfl, turned_rotation_y _, ?_, ?_⟩ <;>
    rw [turned_rotation_y]
  · simpa using (quarter_sound .y).1
  · simpa using (quarter_sound .y).2

/-- C111 fails: with `a` one metre along z from `b`, and `b` turned a quarter about y, `a - b` placed relative to `b` is not
where `a` is. -/
theorem sub_position_wrong : ∃ a b : Orient Unit, Built a ∧ Built b ∧ (∀ p ∈ b.rotation, Sound p) ∧ (∀ p ∈ b.rotation, SoundInverse p) ∧
    (b.pos ()).add ((b.rot ()).transpose.apply ((a.sub b).pos ())) ≠ a.pos () := by
  refine ⟨turned ⟨.lit 0, .lit 0, .lit 1⟩ ⟨.lit 0, .lit 90, .lit 0⟩, turned ⟨.lit 0, .lit 0, .lit 0⟩ ⟨.lit 0, .lit 90, .lit 0⟩,
    turned_built _ _, turned_built _ _, ?_, ?_, ?_⟩
  · rw [turned_rotation_y]
    simpa using (quarter_sound .y).1
  · rw [turned_rotation_y]
    simpa using (quarter_sound .y).2
  · rw [Ne, sub_position_iff _ _ _ (turned_built _ _), turned_pos, turned_pos, turned_rot_y]
    intro h
    have := congrArg Vec.z h
    simp [Rot.apply, Rot.transpose, turn, Vec.add, Vec.val] at this

/-- C111 fails: with `a` turned a quarter about x and `b` a quarter about y, the rotation of `a - b` following that of `b` is not that of
`a`. -/
theorem sub_rotation_wrong : ∃ a b : Orient Unit, Built a ∧ Built b ∧ (∀ p ∈ b.rotation, Sound p) ∧ (∀ p ∈ b.rotation, SoundInverse p) ∧
    ((a.sub b).rot ()).mul (b.rot ()) ≠ a.rot () := by
  have s := quarter_sound .y
  have h1 : ∀ p ∈ (turned ⟨.lit 0, .lit 0, .lit 0⟩ ⟨.lit 0, .lit 90, .lit 0⟩).rotation, Sound p := by
    rw [turned_rotation_y]
    simpa using s.1
  have h2 : ∀ p ∈ (turned ⟨.lit 0, .lit 0, .lit 0⟩ ⟨.lit 0, .lit 90, .lit 0⟩).rotation, SoundInverse p := by
    rw [turned_rotation_y]
    simpa using s.2
  refine ⟨turned ⟨.lit 0, .lit 0, .lit 1⟩ ⟨.lit 90, .lit 0, .lit 0⟩, turned ⟨.lit 0, .lit 0, .lit 0⟩ ⟨.lit 0, .lit 90, .lit 0⟩,
    turned_built _ _, turned_built _ _, h1, h2, ?_⟩
  rw [Ne, sub_rotation_iff _ _ _ h1 h2, turned_rot_x, turned_rot_y]
  intro h
  have := congrArg Rot.xy h
  simp [Rot.mul, turn] at this

end Verif.Orient
