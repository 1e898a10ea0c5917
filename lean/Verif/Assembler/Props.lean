import Verif.Assembler.Model
import Verif.Instr.Mcpl
import Verif.Instr.Param

/-! Property C75: components added with `Assembler.component`. -/

namespace Verif.Assembler
open Verif.Orient Verif.Instr
variable {E V X : Type}

/-! ### What the arguments say -/

/-- What a reference says, in an instrument with the components `l`: nothing or `ABSOLUTE` in any case is no reference, an
instance is itself, `PREVIOUS` is the last component, any other text the component of this name. -/
inductive SaysRef (l : List (FInst E X)) : RefArg E → Option (Ref × Orient E) → Prop
  | none_ : SaysRef l .none_ none
  | inst (r o) : SaysRef l (.inst r o) (some (r, o))
  | absolute (s : String) : s.toLower = "absolute" → SaysRef l (.text s) none
  | previous (front : List (FInst E X)) (c : FInst E X) : l = front ++ [c] →
      SaysRef l (.text "PREVIOUS") (some (⟨c.name, true⟩, c.place.orientation))
  | named (s : String) (c : FInst E X) : s.toLower ≠ "absolute" → s ≠ "PREVIOUS" → c ∈ l → c.name = s →
      SaysRef l (.text s) (some (⟨s, true⟩, c.place.orientation))

/-- What `at` or `rotate` says: three values, which are expressions, and a reference. -/
inductive Says (expr : V → Except Err (Sc E)) (l : List (FInst E X)) :
    PlaceArg E V → Vec (Sc E) → Option (Ref × Orient E) → Prop
  | absent : Says expr l .absent ⟨.lit 0, .lit 0, .lit 0⟩ none
  | triple (a b c : V) (x y z : Sc E) : expr a = .ok x → expr b = .ok y → expr c = .ok z →
      Says expr l (.triple a b c) ⟨x, y, z⟩ none
  | pair (a b c : V) (x y z : Sc E) (arg : RefArg E) (r : Option (Ref × Orient E)) : expr a = .ok x → expr b = .ok y →
      expr c = .ok z → SaysRef l arg r → Says expr l (.pair [a, b, c] arg) ⟨x, y, z⟩ r

theorem find_named {l : List (FInst E X)} (hn : (l.map FInst.name).Nodup) {c : FInst E X} (hc : c ∈ l) :
    l.find? (fun x => x.name == c.name) = some c := by
  induction l with
  | nil => simp at hc
  | cons x l ih =>
    rw [List.map_cons, List.nodup_cons] at hn
    rcases List.mem_cons.1 hc with rfl | hc
    · simp
    · have : x.name ≠ c.name := fun h => hn.1 (h ▸ List.mem_map_of_mem hc)
      rw [List.find?_cons_of_neg (by simpa using this)]
      exact ih hn.2 hc

theorem handleRef_iff {l : List (FInst E X)} (hn : (l.map FInst.name).Nodup) (arg : RefArg E) (r : Option (Ref × Orient E)) :
    handleRef l arg = .ok r ↔ SaysRef l arg r := by
  constructor
  · intro h
    cases arg with
    | none_ => cases h; exact .none_
    | inst r o => cases h; exact .inst r o
    | other => cases h
    | text s =>
      rw [handleRef] at h
      split at h
      · rename_i hs
        cases h
        exact .absolute s hs
      · rename_i hs
        rw [getComponent] at h
        by_cases hp : s = "PREVIOUS"
        · rw [if_pos hp] at h
          subst hp
          cases hl : l.getLast? with
          | none => rw [hl] at h; cases h
          | some c =>
            rw [hl] at h
            simp only [Except.ok.injEq] at h
            subst h
            obtain ⟨front, hf⟩ := List.getLast?_eq_some_iff.1 hl
            exact .previous front c hf
        · rw [if_neg hp] at h
          cases hl : l.find? (fun c => c.name == s) with
          | none => rw [hl] at h; cases h
          | some c =>
            rw [hl] at h
            simp only [Except.ok.injEq] at h
            subst h
            have h1 : c.name = s := by simpa using List.find?_some hl
            rw [h1]
            exact .named s c hs hp (List.mem_of_find?_eq_some hl) h1
  · intro h
    cases h with
    | none_ => rfl
    | inst r o => rfl
    | absolute s hs => rw [handleRef, if_pos hs]
    | previous front c hl =>
      rw [handleRef, if_neg (by simp [String.toLower]; decide +kernel), getComponent, if_pos rfl, hl, List.getLast?_append]
      rfl
    | named s c hs hp hc hcn =>
      subst hcn
      rw [handleRef, if_neg hs, getComponent, if_neg hp, find_named hn hc]

theorem handleVec_iff (expr : V → Except Err (Sc E)) (v : List V) (u : Vec (Sc E)) :
    handleVec expr v = .ok u ↔ ∃ a b c x y z, v = [a, b, c] ∧ expr a = .ok x ∧ expr b = .ok y ∧ expr c = .ok z ∧ u = ⟨x, y, z⟩ := by
  constructor
  · intro h
    match v, h with
    | [a, b, c], h =>
      simp only [handleVec, bind, Except.bind] at h
      cases ha : expr a with
      | error e => rw [ha] at h; cases h
      | ok x =>
        cases hb : expr b with
        | error e => rw [ha, hb] at h; cases h
        | ok y =>
          cases hc : expr c with
          | error e => rw [ha, hb, hc] at h; cases h
          | ok z =>
            rw [ha, hb, hc] at h
            cases h
            exact ⟨a, b, c, x, y, z, rfl, ha, hb, hc, rfl⟩
    | [], h => cases h
    | [_], h => cases h
    | [_, _], h => cases h
    | _ :: _ :: _ :: _ :: _, h => cases h
  · rintro ⟨a, b, c, x, y, z, rfl, ha, hb, hc, rfl⟩
    simp only [handleVec, bind, Except.bind, ha, hb, hc]

/-- The arguments are understood exactly as they say. -/
theorem handle_iff (expr : V → Except Err (Sc E)) {l : List (FInst E X)} (hn : (l.map FInst.name).Nodup) (arg : PlaceArg E V)
    (v : Vec (Sc E)) (r : Option (Ref × Orient E)) : handle expr l arg = .ok (v, r) ↔ Says expr l arg v r := by
  constructor
  · intro h
    cases arg with
    | absent => cases h; exact .absent
    | other => cases h
    | triple a b c =>
      simp only [handle, bind, Except.bind] at h
      cases hv : handleVec expr [a, b, c] with
      | error e => rw [hv] at h; cases h
      | ok u =>
        rw [hv] at h
        cases h
        obtain ⟨a', b', c', x, y, z, he, ha, hb, hc, rfl⟩ := (handleVec_iff _ _ _).1 hv
        simp only [List.cons.injEq, and_true] at he
        obtain ⟨rfl, rfl, rfl⟩ := he
        exact .triple _ _ _ x y z ha hb hc
    | pair v' arg =>
      simp only [handle, bind, Except.bind] at h
      cases hr : handleRef l arg with
      | error e => rw [hr] at h; cases h
      | ok r' =>
        rw [hr] at h
        simp only at h
        cases hv : handleVec expr v' with
        | error e => rw [hv] at h; cases h
        | ok u =>
          rw [hv] at h
          cases h
          obtain ⟨a', b', c', x, y, z, rfl, ha, hb, hc, rfl⟩ := (handleVec_iff _ _ _).1 hv
          exact .pair _ _ _ x y z arg _ ha hb hc ((handleRef_iff hn _ _).1 hr)
  · intro h
    cases h with
    | absent => rfl
    | triple a b c x y z ha hb hc =>
      simp only [handle, bind, Except.bind, (handleVec_iff expr [a, b, c] ⟨x, y, z⟩).2 ⟨_, _, _, _, _, _, rfl, ha, hb, hc, rfl⟩]
    | pair a b c x y z arg r ha hb hc hr =>
      simp only [handle, bind, Except.bind, (handleRef_iff hn _ _).2 hr,
        (handleVec_iff expr [a, b, c] ⟨x, y, z⟩).2 ⟨_, _, _, _, _, _, rfl, ha, hb, hc, rfl⟩]

/-! ### What is added -/

/-- The place of a new instance. -/
theorem place_iff (w : World E V X) {l : List (FInst E X)} (hn : (l.map FInst.name).Nodup) (name : String)
    (at_ rotate : PlaceArg E V) (p : SInst E) :
    place w l name at_ rotate = .ok p ↔ ∃ v ref a ref', Says w.expr l at_ v ref ∧ Says w.expr l rotate a ref' ∧
      p = ⟨name, v, ref.map (·.1), a, (ref'.or ref).map (·.1),
        fromDependentOrientations (ref.map (·.2)) v (((ref'.or ref).map (·.2)).or (ref.map (·.2))) a⟩ := by
  simp only [place, bind, Except.bind]
  constructor
  · intro h
    cases h1 : handle w.expr l at_ with
    | error e => rw [h1] at h; cases h
    | ok q =>
      obtain ⟨v, ref⟩ := q
      rw [h1] at h
      simp only at h
      cases h2 : handle w.expr l rotate with
      | error e => rw [h2] at h; cases h
      | ok q =>
        obtain ⟨a, ref'⟩ := q
        rw [h2] at h
        simp only [Except.ok.injEq] at h
        exact ⟨v, ref, a, ref', (handle_iff _ hn _ _ _).1 h1, (handle_iff _ hn _ _ _).1 h2, h.symm⟩
  · rintro ⟨v, ref, a, ref', h1, h2, rfl⟩
    rw [(handle_iff _ hn _ _ _).2 h1]
    simp only
    rw [(handle_iff _ hn _ _ _).2 h2]

/-- What a call does: nothing, the flags are taken over, or the component is added. -/
theorem component_cases (w : World E V X) (i : FInstr E X) (name typeName : String) (at_ rotate : PlaceArg E V)
    (parameters : List (String × V)) (kwargs : Body X) :
    (∃ e fl, component w i name typeName at_ rotate parameters kwargs = ({ i with flags := fl }, some e)) ∨
    ∃ t flags ct p, w.read typeName = .ok (t, flags, ct) ∧ typeName = t.name ∧
      place w i.components name at_ rotate = .ok p ∧ name ∉ i.components.map FInst.name ∧
      component w i name typeName at_ rotate parameters kwargs =
        ({ i with flags := mergeFlags i.flags flags, components := i.components ++
            [⟨p, { kwargs with type := t, cpu := kwargs.cpu || !t.acc, parameters := (setAll ct kwargs.parameters parameters).1 }⟩] },
          (setAll ct kwargs.parameters parameters).2) := by
  rw [component]
  cases hr : w.read typeName with
  | error e => exact .inl ⟨e, i.flags, rfl⟩
  | ok q =>
    obtain ⟨t, flags, ct⟩ := q
    simp only
    by_cases hname : typeName ≠ t.name
    · rw [if_pos hname]
      exact .inl ⟨_, i.flags, rfl⟩
    · rw [if_neg hname]
      cases hp : place w i.components name at_ rotate with
      | error e => exact .inl ⟨_, _, rfl⟩
      | ok p =>
        simp only
        by_cases hm : name ∈ i.components.map FInst.name
        · rw [if_pos (any_name.2 hm)]
          exact .inl ⟨_, _, rfl⟩
        · rw [if_neg (fun h => hm (any_name.1 h))]
          exact .inr ⟨t, flags, ct, p, rfl, by simpa using hname, rfl, hm, rfl⟩

theorem unique_fold (l : List (List Char)) : ∀ acc : List (List Char),
    let r := l.foldl (fun acc x => if x ∈ acc then acc else acc ++ [x]) acc
    (∀ x, x ∈ r ↔ x ∈ acc ∨ x ∈ l) ∧ (acc.Nodup → r.Nodup) ∧ acc <+: r := by
  induction l with
  | nil => intro acc; exact ⟨by simp, id, List.prefix_refl _⟩
  | cons y l ih =>
    intro acc
    simp only [List.foldl_cons]
    obtain ⟨h1, h2, h3⟩ := ih (if y ∈ acc then acc else acc ++ [y])
    by_cases hy : y ∈ acc
    · simp only [if_pos hy] at h1 h2 h3 ⊢
      refine ⟨?_, h2, h3⟩
      intro x
      rw [h1 x, List.mem_cons]
      constructor
      · rintro (h | h)
        · exact .inl h
        · exact .inr (.inr h)
      · rintro (h | rfl | h)
        · exact .inl h
        · exact .inl hy
        · exact .inr h
    · simp only [if_neg hy] at h1 h2 h3 ⊢
      refine ⟨?_, ?_, (List.prefix_append _ _).trans h3⟩
      · intro x
        rw [h1 x, List.mem_cons, List.mem_append, List.mem_singleton, or_assoc]
      · intro hn
        refine h2 (List.nodup_append.2 ⟨hn, by simp, ?_⟩)
        intro a ha b hb
        rw [List.mem_singleton] at hb
        rintro rfl
        exact hy (hb ▸ ha)

theorem unique_prefix (l : List (List Char)) (hl : l.Nodup) : ∀ acc : List (List Char), (∀ x ∈ l, x ∉ acc) →
    l.foldl (fun acc x => if x ∈ acc then acc else acc ++ [x]) acc = acc ++ l := by
  induction l with
  | nil => intro acc _; simp
  | cons y l ih =>
    intro acc h
    rw [List.nodup_cons] at hl
    rw [List.foldl_cons, if_neg (h y (by simp)), ih hl.2]
    · simp
    · intro x hx
      rw [List.mem_append, List.mem_singleton, not_or]
      exact ⟨h x (by simp [hx]), fun hc => hl.1 (hc ▸ hx)⟩

/-- The flags are those there were and those of the reader; if no flag was repeated, none is, and the new ones come after. -/
theorem mergeFlags_spec (flags new : List (List Char)) :
    (∀ x, x ∈ mergeFlags flags new ↔ x ∈ flags ∨ x ∈ new) ∧
    (flags.Nodup → (mergeFlags flags new).Nodup ∧ flags <+: mergeFlags flags new) := by
  unfold mergeFlags
  split
  · rename_i h
    subst h
    exact ⟨by simp, fun h => ⟨h, List.prefix_refl _⟩⟩
  · obtain ⟨h1, h2, _⟩ := unique_fold (flags ++ new) []
    refine ⟨fun x => by rw [h1 x]; simp, fun hn => ⟨h2 List.nodup_nil, ?_⟩⟩
    rw [List.foldl_append, unique_prefix flags hn [] (by simp), List.nil_append]
    exact (unique_fold new flags).2.2

/-- The values of parameters as they are held. -/
inductive Held (ct : CompType V X) : List (String × V) → List (Named X) → Prop
  | nil : Held ct [] []
  | cons (n : String) (v : V) (l : List (String × V)) (d x : X) (ps : List (Named X)) :
      (n, d) ∈ ct.define ++ ct.setting → ct.compatible d v = true → ct.convert d v = .ok x → Held ct l ps →
      Held ct ((n, v) :: l) ((n, x) :: ps)

theorem getParameter_mem (ct : CompType V X) (n : String) (p : Named X) (h : ct.getParameter n = some p) :
    p ∈ ct.define ++ ct.setting := by
  unfold CompType.getParameter at h
  rw [List.mem_append]
  split at h
  · exact .inl (first?_some _ _ _ h).1
  · split at h
    · exact .inr (first?_some _ _ _ h).1
    · cases h

theorem first?_mem {l : List (Named X)} (hn : (l.map Prod.fst).Nodup) {n : String} {d : X} (h : (n, d) ∈ l) :
    first? l n = some (n, d) := by
  induction l with
  | nil => simp at h
  | cons x l ih =>
    rw [List.map_cons, List.nodup_cons] at hn
    rcases List.mem_cons.1 h with rfl | h
    · simp [first?]
    · have : x.1 ≠ n := fun hc => hn.1 (hc ▸ List.mem_map_of_mem (f := Prod.fst) h)
      rw [first?, if_neg this]
      exact ih hn.2 h

theorem setAll_held (ct : CompType V X) : ∀ (l : List (String × V)) (ps0 ps : List (Named X)),
    setAll ct ps0 l = (ps, none) → ∃ new, ps = ps0 ++ new ∧ Held ct l new
  | [], ps0, ps, h => by
    simp only [setAll, Prod.mk.injEq, and_true] at h
    exact ⟨[], by simp [h], .nil⟩
  | (n, v) :: l, ps0, ps, h => by
    rw [setAll] at h
    have key : (∃ q e, setParameter ct ps0 n v = (q, some e)) ∨ setParameter ct ps0 n v = appendParameter ct ps0 n v := by
      simp only [setParameter, Bool.false_eq_true, if_false, if_true]
      split
      · exact .inl ⟨_, _, rfl⟩
      · split <;> exact .inr rfl
    rcases key with ⟨q, e, key⟩ | key
    · rw [key] at h; cases h
    · rcases appendParameter_cases ct ps0 n v with ⟨e, he⟩ | ⟨p, x, hp, hc, hx, he⟩
      · rw [key, he] at h; cases h
      · rw [key, he] at h
        simp only at h
        obtain ⟨new, rfl, hnew⟩ := setAll_held ct l _ _ h
        refine ⟨(n, x) :: new, by simp, .cons n v l p.2 x new ?_ hc hx hnew⟩
        have h1 := getParameter_mem ct n p hp
        rw [← getParameter_name ct n p hp]
        exact h1

/-- In a type whose parameters have different names, everything is set exactly if every parameter is one of the type, of a
compatible value. -/
theorem setAll_iff (ct : CompType V X) (hd : ((ct.define ++ ct.setting).map Prod.fst).Nodup) :
    ∀ (l : List (String × V)) (ps0 : List (Named X)), (setAll ct ps0 l).2 = none ↔ ∃ new, Held ct l new
  | [], ps0 => ⟨fun _ => ⟨[], .nil⟩, fun _ => rfl⟩
  | (n, v) :: l, ps0 => by
    constructor
    · intro h
      obtain ⟨new, _, hh⟩ := setAll_held ct ((n, v) :: l) ps0 _ (Prod.ext rfl h)
      exact ⟨new, hh⟩
    · rintro ⟨new, hh⟩
      cases hh with
      | cons _ _ _ d x ps hm hc hx hps =>
        have hg : ct.getParameter n = some (n, d) := by
          rw [getParameter_first]
          exact first?_mem hd hm
        have hset : setParameter ct ps0 n v = (ps0 ++ [(n, x)], none) := by
          have hpres : present ct.define n = true ∨ present ct.setting n = true := by
            rw [present_iff, present_iff, ← List.mem_append, ← List.map_append]
            exact List.mem_map_of_mem (f := Prod.fst) hm
          have happ : appendParameter ct ps0 n v = (ps0 ++ [(n, x)], none) := by
            simp [appendParameter, hg, hc, hx]
          simp only [setParameter, happ, Bool.false_eq_true, if_false, if_true, ite_self]
          rw [if_neg]
          rcases hpres with h | h <;> simp [h]
        rw [setAll, hset]
        exact (setAll_iff ct hd l _).2 ⟨ps, hps⟩

/-- C75 (partial): a call that returns adds one component at the end: of the name and type asked for, with the position and angles
given, the position relative to what was said, with the parameters given and the other fields as asked; the flags are
those before and those of the type. What is missing: the
rotation is relative to what was said only if that is a component, or nothing is said, when it is that of the position. -/
theorem component_added_partial (w : World E V X) (i r : FInstr E X) (hn : (i.components.map FInst.name).Nodup)
    (name typeName : String) (at_ rotate : PlaceArg E V) (parameters : List (String × V)) (kwargs : Body X)
    (h : component w i name typeName at_ rotate parameters kwargs = (r, none)) :
    name ∉ i.components.map FInst.name ∧
    ∃ (c : FInst E X) (t : TypeOf) (ct : CompType V X) (flags : List (List Char)) (new : List (Named X))
      (ref ref' : Option (Ref × Orient E)),
      w.read typeName = .ok (t, flags, ct) ∧ t.name = typeName ∧
      r.components = i.components ++ [c] ∧ r.parameters = i.parameters ∧
      (∀ x, x ∈ r.flags ↔ x ∈ i.flags ∨ x ∈ flags) ∧ (i.flags.Nodup → r.flags.Nodup ∧ i.flags <+: r.flags) ∧ c.name = name ∧ c.body.type = t ∧
      Says w.expr i.components at_ c.place.at_ ref ∧ c.place.atRef = ref.map (·.1) ∧
      Says w.expr i.components rotate c.place.rot ref' ∧
      (ref'.isSome → c.place.rotRef = ref'.map (·.1)) ∧ (ref' = none → c.place.rotRef = ref.map (·.1)) ∧
      Held ct parameters new ∧ c.body.parameters = kwargs.parameters ++ new ∧
      c.body.when_ = kwargs.when_ ∧ c.body.group = kwargs.group ∧ c.body.split = kwargs.split ∧ c.body.extend = kwargs.extend ∧
      c.body.jump = kwargs.jump ∧ c.body.metadata = kwargs.metadata ∧ c.body.removable = kwargs.removable ∧
      (c.body.cpu = true ↔ kwargs.cpu = true ∨ t.acc = false) := by
  rcases component_cases w i name typeName at_ rotate parameters kwargs with ⟨e, fl, hc⟩ | ⟨t, flags, ct, p, hr, ht, hp, hm, hc⟩
  · rw [hc] at h; cases h
  · rw [hc] at h
    simp only [Prod.mk.injEq] at h
    obtain ⟨rfl, hs⟩ := h
    obtain ⟨v, ref, a, ref', s1, s2, rfl⟩ := (place_iff w hn name at_ rotate p).1 hp
    obtain ⟨new, hnew, hheld⟩ := setAll_held ct parameters kwargs.parameters _ (Prod.ext rfl hs)
    refine ⟨hm, _, t, ct, flags, new, ref, ref', hr, ht.symm, rfl, rfl, (mergeFlags_spec _ _).1, (mergeFlags_spec _ _).2, rfl, rfl, s1, rfl, s2, ?_, ?_, hheld, hnew, rfl, rfl, rfl,
      rfl, rfl, rfl, rfl, ?_⟩
    · intro h
      obtain ⟨q, rfl⟩ := Option.isSome_iff_exists.1 h
      rfl
    · rintro rfl
      simp
    · cases kwargs.cpu <;> cases t.acc <;> simp

/-- C75: a call returns exactly if the type can be read and is of its name, the arguments say something, the name is new and every
parameter is one of the type with a compatible value. -/
theorem component_returns (w : World E V X)
    (hw : ∀ s t flags ct, w.read s = .ok (t, flags, ct) → ((ct.define ++ ct.setting).map Prod.fst).Nodup)
    (i : FInstr E X) (hn : (i.components.map FInst.name).Nodup)
    (name typeName : String) (at_ rotate : PlaceArg E V) (parameters : List (String × V)) (kwargs : Body X) :
    (component w i name typeName at_ rotate parameters kwargs).2 = none ↔
      ∃ t flags ct, w.read typeName = .ok (t, flags, ct) ∧ t.name = typeName ∧
        (∃ v ref, Says w.expr i.components at_ v ref) ∧ (∃ a ref, Says w.expr i.components rotate a ref) ∧
        name ∉ i.components.map FInst.name ∧ ∃ new, Held ct parameters new := by
  constructor
  · intro h
    rcases component_cases w i name typeName at_ rotate parameters kwargs with ⟨e, fl, hc⟩ | ⟨t, flags, ct, p, hr, ht, hp, hm, hc⟩
    · rw [hc] at h; cases h
    · rw [hc] at h
      obtain ⟨v, ref, a, ref', s1, s2, _⟩ := (place_iff w hn name at_ rotate p).1 hp
      exact ⟨t, flags, ct, hr, ht.symm, ⟨v, ref, s1⟩, ⟨a, ref', s2⟩, hm, (setAll_iff ct (hw _ _ _ _ hr) _ _).1 h⟩
  · rintro ⟨t, flags, ct, hr, ht, ⟨v, ref, s1⟩, ⟨a, ref', s2⟩, hm, hs⟩
    have hp := (place_iff w hn name at_ rotate _).2 ⟨v, ref, a, ref', s1, s2, rfl⟩
    simp only [component, hr, hp]
    rw [if_neg (by simp [ht]), if_neg (fun h => hm (any_name.1 h))]
    exact (setAll_iff ct (hw _ _ _ _ hr) _ _).2 hs

/-! ### Where it fails -/

/-- C75 fails for a component placed relative to another one whose rotation is said to be absolute: it is relative to the same
component. No call makes an absolute rotation with a relative position. -/
theorem absolute_rotation_lost (w : World E V X) (i r : FInstr E X) (hn : (i.components.map FInst.name).Nodup)
    (name typeName : String) (at_ rotate : PlaceArg E V) (parameters : List (String × V)) (kwargs : Body X)
    (v a : Vec (Sc E)) (target : Ref × Orient E) (hat : Says w.expr i.components at_ v (some target))
    (hrot : Says w.expr i.components rotate a none)
    (h : component w i name typeName at_ rotate parameters kwargs = (r, none)) :
    ∃ c, r.components = i.components ++ [c] ∧ c.place.rot = a ∧ c.place.rotRef = some target.1 := by
  rcases component_cases w i name typeName at_ rotate parameters kwargs with ⟨e, fl, hc⟩ | ⟨t, flags, ct, p, hr, ht, hp, hm, hc⟩
  · rw [hc] at h; cases h
  · rw [hc] at h
    simp only [Prod.mk.injEq] at h
    obtain ⟨rfl, hs⟩ := h
    obtain ⟨v', ref, a', ref', s1, s2, rfl⟩ := (place_iff w hn name at_ rotate p).1 hp
    have e1 := (handle_iff _ hn _ _ _).2 hat
    rw [(handle_iff _ hn _ _ _).2 s1] at e1
    have e2 := (handle_iff _ hn _ _ _).2 hrot
    rw [(handle_iff _ hn _ _ _).2 s2] at e2
    simp only [Except.ok.injEq, Prod.mk.injEq] at e1 e2
    obtain ⟨rfl, rfl⟩ := e1
    obtain ⟨rfl, rfl⟩ := e2
    exact ⟨_, rfl, rfl, rfl⟩

/-- C75 fails for a parameter that cannot be set: the call raises, but the component is in the instrument, and calling again with
the right parameters raises. -/
theorem failed_parameter_adds (w : World E V X) (i : FInstr E X) (hn : (i.components.map FInst.name).Nodup)
    (name typeName : String) (at_ rotate : PlaceArg E V) (parameters : List (String × V)) (kwargs : Body X)
    (t : TypeOf) (flags : List (List Char)) (ct : CompType V X) (hr : w.read typeName = .ok (t, flags, ct)) (ht : t.name = typeName)
    (hd : ((ct.define ++ ct.setting).map Prod.fst).Nodup)
    (v a : Vec (Sc E)) (ref ref' : Option (Ref × Orient E)) (hat : Says w.expr i.components at_ v ref)
    (hrot : Says w.expr i.components rotate a ref') (hm : name ∉ i.components.map FInst.name)
    (hs : ¬∃ new, Held ct parameters new) :
    let r := component w i name typeName at_ rotate parameters kwargs
    r.2 ≠ none ∧ r.1.components.map FInst.name = i.components.map FInst.name ++ [name] ∧
    ∀ at' rot' ps' kw', (component w r.1 name typeName at' rot' ps' kw').2 ≠ none := by
  obtain ⟨e, hs⟩ : ∃ e, (setAll ct kwargs.parameters parameters).2 = some e :=
    Option.ne_none_iff_exists'.1 fun h => hs ((setAll_iff ct hd _ _).1 h)
  obtain ⟨p, hp, hpn⟩ : ∃ p, place w i.components name at_ rotate = .ok p ∧ p.name = name :=
    ⟨_, (place_iff w hn name at_ rotate _).2 ⟨v, ref, a, ref', hat, hrot, rfl⟩, rfl⟩
  have hc : component w i name typeName at_ rotate parameters kwargs =
      ({ i with flags := mergeFlags i.flags flags, components := i.components ++
          [⟨p, { kwargs with type := t, cpu := kwargs.cpu || !t.acc, parameters := (setAll ct kwargs.parameters parameters).1 }⟩] }, some e) := by
    simp only [component, hr, hp]
    rw [if_neg (by simp [ht]), if_neg (fun h => hm (any_name.1 h)), hs]
  have hnames : (component w i name typeName at_ rotate parameters kwargs).1.components.map FInst.name =
      i.components.map FInst.name ++ [name] := by
    rw [hc, List.map_append]
    simp [FInst.name, hpn]
  refine ⟨by rw [hc]; simp, hnames, ?_⟩
  intro at' rot' ps' kw' hcon
  rcases component_cases w (component w i name typeName at_ rotate parameters kwargs).1 name typeName at' rot' ps' kw' with
    ⟨e, fl, hc'⟩ | ⟨_, _, _, _, _, _, _, hnew, _⟩
  · rw [hc'] at hcon; cases hcon
  · rw [hnames] at hnew
    simp at hnew

/-- C75 fails for a placement that cannot be understood: the call raises and adds no component, but the flags of its type are in
the instrument. -/
theorem failed_placement_keeps_flags (w : World E V X) (i : FInstr E X) (name typeName : String) (at_ rotate : PlaceArg E V)
    (parameters : List (String × V)) (kwargs : Body X) (t : TypeOf) (flags : List (List Char)) (ct : CompType V X)
    (hr : w.read typeName = .ok (t, flags, ct)) (ht : t.name = typeName) (e : Err)
    (hp : place w i.components name at_ rotate = .error e) :
    ∃ r, component w i name typeName at_ rotate parameters kwargs = (r, some e) ∧ r.components = i.components ∧
      r.parameters = i.parameters ∧ ∀ x, x ∈ r.flags ↔ x ∈ i.flags ∨ x ∈ flags := by
  refine ⟨{ i with flags := mergeFlags i.flags flags }, ?_, rfl, rfl, (mergeFlags_spec _ _).1⟩
  simp only [component, hr, hp]
  rw [if_neg (by simp [ht])]

/-- A component called `Absolute` cannot be referred to by its name. -/
theorem component_called_absolute (l : List (FInst E X)) (hn : (l.map FInst.name).Nodup) (s : String) (hs : s.toLower = "absolute")
    (r : Option (Ref × Orient E)) : SaysRef l (.text s) r → r = none := by
  intro h
  have h1 := (handleRef_iff hn _ _).2 h
  rw [handleRef, if_pos hs] at h1
  cases h1
  rfl

/-! ### Sequences of calls -/

/-- An instance given as a reference is one of the instrument. -/
def Proper (l : List (FInst E X)) : PlaceArg E V → Prop
  | .pair _ (.inst r o) => r.here = true ∧ ∃ c ∈ l, c.name = r.name ∧ c.place.orientation = o
  | _ => True

/-- Instruments made by calls of `component`, whether they return or raise, with references by name or to instances of the
instrument. -/
inductive Built (w : World E V X) : FInstr E X → Prop
  | empty (i : FInstr E X) : i.components = [] → Built w i
  | call (i : FInstr E X) (name typeName : String) (at_ rotate : PlaceArg E V) (parameters : List (String × V)) (kwargs : Body X) :
      Built w i → Proper i.components at_ → Proper i.components rotate →
      Built w (component w i name typeName at_ rotate parameters kwargs).1

theorem says_present {w : World E V X} {l : List (FInst E X)} {arg : PlaceArg E V} (hp : Proper l arg) {v : Vec (Sc E)}
    {r : Ref} {o : Orient E} (h : Says w.expr l arg v (some (r, o))) :
    r.here = true ∧ ∃ c ∈ l, c.name = r.name ∧ c.place.orientation = o := by
  cases h with
  | pair a b c x y z arg r' ha hb hc hr =>
    cases hr with
    | inst r o => exact hp
    | previous front c hl => exact ⟨rfl, c, by rw [hl]; simp, rfl, rfl⟩
    | named s c hs hprev hc hcn => exact ⟨rfl, c, hc, hcn, rfl⟩

/-- The invariant: as `WellFormed`, whatever components are called. -/
structure Sound (is : List (SInst E)) : Prop where
  nodup : (is.map SInst.name).Nodup
  refs : ∀ (j : Nat) (i : SInst E), is[j]? = some i → ∀ r, (i.atRef = some r ∨ i.rotRef = some r) →
    r.here = true ∧ ∃ k < j, (is[k]?).map SInst.name = some r.name
  orientation : is.map SInst.orientation = pyPlaceAll (toInsts is)

theorem idxOf?_append {l : List String} {x y : String} (h : x ∈ l) : (l ++ [y]).idxOf? x = l.idxOf? x := by
  obtain ⟨k, hk⟩ : ∃ k, l.idxOf? x = some k := by
    cases hl : l.idxOf? x with
    | some k => exact ⟨k, rfl⟩
    | none => exact absurd h (List.idxOf?_eq_none_iff.1 hl)
  rw [hk]
  rw [List.idxOf?_eq_some_iff] at hk ⊢
  obtain ⟨h1, h2, h3⟩ := hk
  refine ⟨by simp; omega, ?_, ?_⟩
  · rw [List.getElem_append_left h1]; exact h2
  · intro j hj
    rw [List.getElem_append_left (by omega)]
    exact h3 j hj

theorem pyPlaceAll_snoc (l : List (Inst E)) (i : Inst E) :
    pyPlaceAll (l ++ [i]) = pyPlaceAll l ++ [pyPlace (pyPlaceAll l) i] := by
  simp [pyPlaceAll, List.foldl_append]

theorem lookup_orientation {is : List (SInst E)} (hn : (is.map SInst.name).Nodup) {c : SInst E} (hc : c ∈ is) :
    ((is.map SInst.name).idxOf? c.name).bind ((is.map SInst.orientation)[·]?) = some c.orientation := by
  obtain ⟨k, hk⟩ := List.mem_iff_getElem?.1 hc
  rw [idxOf?_getElem hn k c.name (by rw [List.getElem?_map, hk]; rfl)]
  simp [hk]

/-- Adding an instance placed relative to earlier ones. -/
theorem Sound.snoc {is : List (SInst E)} (hs : Sound is) (name : String) (hname : name ∉ is.map SInst.name)
    (v a : Vec (Sc E)) (ref rref : Option (Ref × Orient E))
    (h1 : ∀ r o, ref = some (r, o) → r.here = true ∧ ∃ c ∈ is, c.name = r.name ∧ c.orientation = o)
    (h2 : ∀ r o, rref = some (r, o) → r.here = true ∧ ∃ c ∈ is, c.name = r.name ∧ c.orientation = o) :
    Sound (is ++ [⟨name, v, ref.map (·.1), a, rref.map (·.1),
      fromDependentOrientations (ref.map (·.2)) v ((rref.map (·.2)).or (ref.map (·.2))) a⟩]) := by
  have hnew : ∀ q : Option (Ref × Orient E), (∀ r o, q = some (r, o) → r.here = true ∧ ∃ c ∈ is, c.name = r.name ∧ c.orientation = o) →
      ((q.map (·.1)).bind fun r => (is.map SInst.name ++ [name]).idxOf? r.name).bind ((is.map SInst.orientation)[·]?) = q.map (·.2) := by
    intro q hq
    match q, hq with
    | none, _ => rfl
    | some (r, o), hq =>
      obtain ⟨_, c, hc, hcn, hco⟩ := hq r o rfl
      simp only [Option.map_some, Option.bind_some, ← hcn]
      rw [idxOf?_append (List.mem_map_of_mem hc), lookup_orientation hs.nodup hc, hco]
  refine ⟨?_, ?_, ?_⟩
  · rw [List.map_append, List.nodup_append]
    refine ⟨hs.nodup, by simp, ?_⟩
    intro x hx y hy
    simp only [List.map_cons, List.map_nil, List.mem_singleton] at hy
    rintro rfl
    exact hname (hy ▸ hx)
  · intro j i hj r hr
    rcases Nat.lt_or_ge j is.length with hlt | hge
    · rw [List.getElem?_append_left hlt] at hj
      obtain ⟨h, k, hk, hkn⟩ := hs.refs j i hj r hr
      exact ⟨h, k, hk, by rw [List.getElem?_append_left (by omega)]; exact hkn⟩
    · have hj1 : j < (is ++ [_]).length := (List.getElem?_eq_some_iff.1 hj).1
      have hj2 : j = is.length := by
        simp only [List.length_append, List.length_cons, List.length_nil] at hj1
        omega
      subst hj2
      rw [List.getElem?_append_right (Nat.le_refl _)] at hj
      simp only [Nat.sub_self, List.getElem?_cons_zero, Option.some.injEq] at hj
      subst hj
      have : r.here = true ∧ ∃ c ∈ is, c.name = r.name := by
        rcases hr with hr | hr
        · obtain ⟨⟨r', o⟩, hq, rfl⟩ := Option.map_eq_some_iff.1 hr
          obtain ⟨h, c, hc, hcn, _⟩ := h1 r' o hq
          exact ⟨h, c, hc, hcn⟩
        · obtain ⟨⟨r', o⟩, hq, rfl⟩ := Option.map_eq_some_iff.1 hr
          obtain ⟨h, c, hc, hcn, _⟩ := h2 r' o hq
          exact ⟨h, c, hc, hcn⟩
      obtain ⟨h, c, hc, hcn⟩ := this
      obtain ⟨k, hk⟩ := List.mem_iff_getElem?.1 hc
      have hkl : k < is.length := (List.getElem?_eq_some_iff.1 hk).1
      exact ⟨h, k, hkl, by rw [List.getElem?_append_left hkl, hk, ← hcn]; rfl⟩
  · -- earlier instances say the same in the longer list
    have hold : is.map (toInst (is.map SInst.name ++ [name])) = toInsts is := by
      rw [toInsts]
      apply List.map_congr_left
      intro i hi
      obtain ⟨j, hj⟩ := List.mem_iff_getElem?.1 hi
      have hmem : ∀ r, (i.atRef = some r ∨ i.rotRef = some r) → r.name ∈ is.map SInst.name := by
        intro r hr
        obtain ⟨_, k, _, hk⟩ := hs.refs j i hj r hr
        rw [← List.getElem?_map] at hk
        exact List.mem_of_getElem? hk
      have hb : ∀ q : Option Ref, (∀ r, q = some r → r.name ∈ is.map SInst.name) →
          (q.bind fun r => (is.map SInst.name ++ [name]).idxOf? r.name) = q.bind fun r => (is.map SInst.name).idxOf? r.name := by
        intro q hq
        cases q with
        | none => rfl
        | some r => exact idxOf?_append (hq r rfl)
      simp only [toInst]
      rw [hb _ fun r h => hmem r (.inl h), hb _ fun r h => hmem r (.inr h)]
    rw [toInsts, List.map_append, List.map_append, List.map_append]
    simp only [List.map_cons, List.map_nil]
    rw [hold, pyPlaceAll_snoc, ← hs.orientation]
    congr 1
    simp only [List.cons.injEq, and_true]
    simp only [pyPlace, toInst]
    rw [hnew ref h1]
    congr 1
    -- the reference of the rotation
    simp only [rotReference]
    cases hq : rref with
    | none =>
      simp only [Option.map_none, Option.bind_none, Option.none_or]
      exact (hnew ref h1).symm
    | some p =>
      obtain ⟨r, o⟩ := p
      have e := hnew rref h2
      obtain ⟨_, c, hc, hcn, hco⟩ := h2 r o hq
      obtain ⟨k, hk⟩ := List.mem_iff_getElem?.1 hc
      have hidx : (is.map SInst.name ++ [name]).idxOf? r.name = some k := by
        rw [← hcn, idxOf?_append (List.mem_map_of_mem hc)]
        exact idxOf?_getElem hs.nodup k c.name (by rw [List.getElem?_map, hk]; rfl)
      simp [hidx, hk, hco]

theorem built_sound {w : World E V X} {i : FInstr E X} (h : Built w i) : Sound (i.components.map FInst.place) := by
  induction h with
  | empty i h =>
    rw [h]
    exact ⟨by simp, by simp, by simp [toInsts, pyPlaceAll]⟩
  | call i name typeName at_ rotate parameters kwargs _ hp1 hp2 ih =>
    have hn : (i.components.map FInst.name).Nodup := by
      have := ih.nodup
      rw [List.map_map] at this
      exact this
    rcases component_cases w i name typeName at_ rotate parameters kwargs with ⟨e, fl, hc⟩ | ⟨t, flags, ct, p, hr, ht, hp, hm, hc⟩
    · rw [hc]; exact ih
    · rw [hc]
      obtain ⟨v, ref, a, ref', s1, s2, rfl⟩ := (place_iff w hn name at_ rotate p).1 hp
      simp only [List.map_append, List.map_cons, List.map_nil]
      have lift : ∀ r : Ref, ∀ o : Orient E, (r.here = true ∧ ∃ c ∈ i.components, c.name = r.name ∧ c.place.orientation = o) →
          r.here = true ∧ ∃ c ∈ i.components.map FInst.place, c.name = r.name ∧ c.orientation = o := by
        rintro r o ⟨h, c, hc, hcn, hco⟩
        exact ⟨h, c.place, List.mem_map_of_mem hc, hcn, hco⟩
      refine ih.snoc name ?_ v a ref (ref'.or ref) ?_ ?_
      · rw [List.map_map]; exact hm
      · intro r o h
        subst h
        exact lift r o (says_present hp1 s1)
      · intro r o h
        cases hq : ref' with
        | none =>
          rw [hq, Option.none_or] at h
          subst h
          exact lift r o (says_present hp1 s1)
        | some q =>
          subst hq
          simp only [Option.some_or, Option.some.injEq] at h
          subst h
          exact lift r o (says_present hp2 s2)

/-- C75 (sequences): whatever calls were made before, and whichever of them raised, the names of the components differ, every
reference is to an earlier component of the instrument, and the orientations are those the placements say, so that C17 and C24
are about every instrument made in this way in which no component is called `PREVIOUS`. -/
theorem assembled_well_formed (w : World E V X) (i : FInstr E X) (h : Built w i)
    (hp : "PREVIOUS" ∉ i.components.map FInst.name) : WellFormed (i.components.map FInst.place) := by
  have hs := built_sound h
  exact ⟨hs.nodup, by rw [List.map_map]; exact hp, fun j x hj r hr => hs.refs j x hj r (.inl hr),
    fun j x hj r hr => hs.refs j x hj r (.inr hr), hs.orientation⟩

/-! ### Examples -/

/-- A world with the one type `Arm`, which has the one parameter `xwidth`; numbers are expressions. -/
noncomputable def exWorld : World Unit ℕ ℕ where
  read s := if s = "Arm" then .ok (⟨"Arm", true⟩, [], ⟨[], [("xwidth", 0)], fun _ _ => true, fun _ v => .ok v⟩) else .error .runtimeError
  expr n := .ok (.lit n)

def exEmpty : FInstr Unit ℕ := ⟨"i", [], [], []⟩

/-- A first component, with a parameter. -/
noncomputable def exOne : FInstr Unit ℕ :=
  (component exWorld exEmpty "a" "Arm" (.triple 0 0 1) .absent [("xwidth", 3)] ⟨⟨"", true⟩, [], false, false, none, none, none, [], [], []⟩).1

theorem exOne_names : exOne.components.map FInst.name = ["a"] := by
  simp [exOne, component, exWorld, exEmpty, place, handle, handleVec, FInst.name, bind, Except.bind]

/-- A second one, placed relative to the first, with an absolute rotation. -/
noncomputable def exTwo : FInstr Unit ℕ × Option Err :=
  component exWorld exOne "b" "Arm" (.pair [0, 0, 2] (.text "a")) (.pair [0, 90, 0] (.text "ABSOLUTE")) [("xwidth", 4)]
    ⟨⟨"", true⟩, [], false, false, none, none, none, [], [], []⟩

theorem exAbsolute : "ABSOLUTE".toLower = "absolute" ∧ "a".toLower ≠ "absolute" := by
  constructor <;> simp [String.toLower] <;> decide +kernel

/-- What the arguments of the second say. -/
theorem exTwo_says : ∃ c, c ∈ exOne.components ∧ c.name = "a" ∧
    Says exWorld.expr exOne.components (.pair [0, 0, 2] (.text "a")) ⟨.lit (0 : ℕ), .lit (0 : ℕ), .lit (2 : ℕ)⟩
      (some (⟨"a", true⟩, c.place.orientation)) ∧
    Says exWorld.expr exOne.components (.pair [0, 90, 0] (.text "ABSOLUTE")) ⟨.lit (0 : ℕ), .lit (90 : ℕ), .lit (0 : ℕ)⟩ none := by
  have h : "a" ∈ exOne.components.map FInst.name := by rw [exOne_names]; simp
  obtain ⟨c, hc, hcn⟩ := List.mem_map.1 h
  exact ⟨c, hc, hcn, .pair _ _ _ _ _ _ _ _ rfl rfl rfl (.named "a" c exAbsolute.2 (by decide) hc hcn),
    .pair _ _ _ _ _ _ _ _ rfl rfl rfl (.absolute _ exAbsolute.1)⟩

theorem exTypes (s : String) (t : TypeOf) (flags : List (List Char)) (ct : CompType ℕ ℕ) (h : exWorld.read s = .ok (t, flags, ct)) :
    ((ct.define ++ ct.setting).map Prod.fst).Nodup := by
  simp only [exWorld] at h
  split at h
  · cases h; simp
  · cases h

/-- The second call returns. -/
theorem exTwo_returns : exTwo.2 = none := by
  obtain ⟨c, _, _, h1, h2⟩ := exTwo_says
  exact (component_returns exWorld exTypes exOne (by rw [exOne_names]; simp) _ _ _ _ _ _).2
    ⟨_, _, _, rfl, rfl, ⟨_, _, h1⟩, ⟨_, _, h2⟩, by rw [exOne_names]; simp,
      ⟨[("xwidth", 4)], .cons _ _ _ 0 4 _ (by simp) rfl rfl .nil⟩⟩

/-- `component_added_partial` and `absolute_rotation_lost` apply to it: the rotation said to be absolute is relative to `a`. -/
example : ∃ c, exTwo.1.components = exOne.components ++ [c] ∧ c.place.rotRef = some ⟨"a", true⟩ := by
  obtain ⟨c, _, _, h1, h2⟩ := exTwo_says
  obtain ⟨d, hd, _, hr⟩ := absolute_rotation_lost exWorld exOne exTwo.1 (by rw [exOne_names]; simp) _ _ _ _ _ _ _ _ _ h1 h2
    (Prod.ext rfl exTwo_returns)
  exact ⟨d, hd, hr⟩

/-- The instrument is made by calls: `assembled_well_formed` applies to it. -/
example : WellFormed (exTwo.1.components.map FInst.place) := by
  obtain ⟨c, _, _, h1, h2⟩ := exTwo_says
  have hb : Built exWorld exOne := .call exEmpty _ _ _ _ _ _ (.empty _ rfl) trivial trivial
  refine assembled_well_formed exWorld _ (.call exOne _ _ _ _ _ _ hb trivial trivial) ?_
  obtain ⟨_, d, _, _, _, _, _, _, _, _, hc, _, _, _, hdn, _⟩ :=
    component_added_partial exWorld exOne exTwo.1 (by rw [exOne_names]; simp) _ _ _ _ _ _ (Prod.ext rfl exTwo_returns)
  show "PREVIOUS" ∉ exTwo.1.components.map FInst.name
  rw [hc, List.map_append, exOne_names]
  simp [hdn]

/-- A parameter which `Arm` does not have: the component is added all the same, and cannot be added again. -/
example : let r := component exWorld exEmpty "a" "Arm" .absent .absent [("yheight", 3)] { type := ⟨"", true⟩ }
    r.2 ≠ none ∧ r.1.components.map FInst.name = ["a"] ∧
    ∀ at' rot' ps' kw', (component exWorld r.1 "a" "Arm" at' rot' ps' kw').2 ≠ none :=
  failed_parameter_adds exWorld exEmpty (by simp [exEmpty]) "a" "Arm" _ _ _ _ ⟨"Arm", true⟩ [] _ rfl rfl (by simp) _ _ _ _ .absent .absent
    (by simp [exEmpty]) (by
      rintro ⟨new, h⟩
      cases h with
      | cons _ _ _ _ _ _ hm => simp at hm)

end Verif.Assembler
