import Verif.CDecl.Props
import Mathlib.Data.List.Nodup
import Mathlib.Data.List.Pairwise
import Mathlib.Data.List.Forall2

/-!
C34: the user variables of the instrument and of the instances of the components. What is proved: the members made for
instances have different names; a variable of the instrument has the name of such a member only if the declarations are
the same, else an exception is raised; so no name is used twice in the particle. What does not hold: a variable of the
instrument may silently be the same member as one of an instance; conflicting declarations are not all refused; the names
of the members every particle has are not refused; arrays lose their size.
-/

namespace Verif.CDecl

theorem repeatedNames_iff (ds : List Decl) : repeatedNames ds = false ↔ (ds.map (·.name)).Nodup := by
  simp only [repeatedNames, Bool.not_eq_false', decide_eq_true_eq]
  constructor
  · intro h
    have : (ds.map (·.name)).dedup = ds.map (·.name) :=
      (List.dedup_sublist _).eq_of_length (by rw [h, List.length_map])
    rw [← this]
    exact List.nodup_dedup _
  · intro h
    rw [h.dedup, List.length_map]

theorem same_refl (d : Decl) : d.same d = true := by simp [Decl.same, decl_eq_refl]

theorem same_name {d e : Decl} (h : d.same e = true) : d.name = e.name := by
  by_contra hne
  simp only [Decl.same, Bool.and_eq_true] at h
  rw [different_types_differ d e (.inl hne)] at h
  exact absurd h.2 (by simp)

/-- The loop of `fromKeys`. -/
def addKeys (acc : List Decl) (ds : List Decl) : List Decl :=
  ds.foldl (fun acc d => if acc.any (·.same d) then acc else acc ++ [d]) acc

theorem fromKeys_eq (ds : List Decl) : fromKeys ds = addKeys [] ds := rfl

theorem addKeys_spec (ds acc : List Decl) (hacc : acc.Pairwise fun d e => d.same e = false) :
    (addKeys acc ds).Pairwise (fun d e => d.same e = false) ∧ addKeys acc ds ⊆ acc ++ ds ∧ acc <+: addKeys acc ds ∧
      ∀ d ∈ ds, ∃ e ∈ addKeys acc ds, e.same d = true := by
  induction ds generalizing acc with
  | nil => exact ⟨hacc, by simp [addKeys], by simp [addKeys], by simp⟩
  | cons x ds ih =>
    have hstep : addKeys acc (x :: ds) = addKeys (if acc.any (·.same x) then acc else acc ++ [x]) ds := rfl
    rw [hstep]
    split_ifs with h
    · obtain ⟨h1, h2, h3, h4⟩ := ih acc hacc
      refine ⟨h1, fun y hy => ?_, h3, ?_⟩
      · have := h2 hy
        simp only [List.mem_append, List.mem_cons] at this ⊢
        tauto
      · intro d hd
        rcases List.mem_cons.mp hd with rfl | hd
        · obtain ⟨e, he, hs⟩ := List.any_eq_true.mp h
          exact ⟨e, h3.subset he, hs⟩
        · exact h4 d hd
    · have h' : ∀ e ∈ acc, e.same x = false := by
        intro e he
        by_contra hc
        exact h (List.any_eq_true.mpr ⟨e, he, by simpa using hc⟩)
      obtain ⟨h1, h2, h3, h4⟩ := ih (acc ++ [x]) (by
        rw [List.pairwise_append]
        exact ⟨hacc, by simp, fun a ha b hb => by rw [List.mem_singleton.mp hb]; exact h' a ha⟩)
      refine ⟨h1, fun y hy => ?_, (List.prefix_append _ _).trans h3, ?_⟩
      · have := h2 hy
        simp only [List.mem_append, List.mem_cons, List.not_mem_nil, or_false] at this ⊢
        tauto
      · intro d hd
        rcases List.mem_cons.mp hd with rfl | hd
        · exact ⟨d, h3.subset (by simp), same_refl d⟩
        · exact h4 d hd

theorem fromKeys_spec (ds : List Decl) :
    (fromKeys ds).Pairwise (fun d e => d.same e = false) ∧ fromKeys ds ⊆ ds ∧
      ∀ d ∈ ds, ∃ e ∈ fromKeys ds, e.same d = true := by
  obtain ⟨h1, h2, _, h4⟩ := addKeys_spec ds [] List.Pairwise.nil
  exact ⟨h1, h2, h4⟩

/-- The declarations collected are declared in some block, and every declared name is there. -/
theorem collect_spec (blocks : List (List Decl)) :
    (∀ d ∈ collect blocks, ∃ b ∈ blocks, d ∈ b) ∧
      ∀ b ∈ blocks, ∀ d ∈ b, ∃ e ∈ collect blocks, e.name = d.name := by
  have key : ∀ (blocks : List (List Decl)) (acc : List Decl),
      (∀ d ∈ blocks.foldl (fun acc b => fromKeys (acc ++ b)) acc, d ∈ acc ∨ ∃ b ∈ blocks, d ∈ b) ∧
      (∀ d ∈ acc, ∃ e ∈ blocks.foldl (fun acc b => fromKeys (acc ++ b)) acc, e.name = d.name) ∧
      ∀ b ∈ blocks, ∀ d ∈ b, ∃ e ∈ blocks.foldl (fun acc b => fromKeys (acc ++ b)) acc, e.name = d.name := by
    intro blocks
    induction blocks with
    | nil => intro acc; exact ⟨fun d hd => .inl hd, fun d hd => ⟨d, hd, rfl⟩, by simp⟩
    | cons b bs ih =>
      intro acc
      obtain ⟨i1, i2, i3⟩ := ih (fromKeys (acc ++ b))
      obtain ⟨_, f2, f3⟩ := fromKeys_spec (acc ++ b)
      have hall : ∀ d ∈ acc ++ b, ∃ e ∈ (b :: bs).foldl (fun acc b => fromKeys (acc ++ b)) acc, e.name = d.name := by
        intro d hd
        obtain ⟨e, he, hs⟩ := f3 d hd
        obtain ⟨e', he', hn⟩ := i2 e he
        exact ⟨e', he', hn.trans (same_name hs)⟩
      refine ⟨?_, fun d hd => hall d (by simp [hd]), ?_⟩
      · intro d hd
        rcases i1 d hd with h | ⟨b', hb', h⟩
        · rcases List.mem_append.mp (f2 h) with h | h
          · exact .inl h
          · exact .inr ⟨b, by simp, h⟩
        · exact .inr ⟨b', by simp [hb'], h⟩
      · intro b' hb' d hd
        rcases List.mem_cons.mp hb' with rfl | hb'
        · exact hall d (by simp [hd])
        · exact i3 b' hb' d hd
  obtain ⟨h1, _, h3⟩ := key blocks []
  exact ⟨fun d hd => (h1 d hd).resolve_left (by simp), h3⟩

/-- The members of the instances of a type. -/
theorem mem_instanceDeclares (instances : List String) (type : String) (ds : List Decl) (e : Decl) :
    e ∈ instanceDeclares instances type ds ↔
      ∃ i, instances[i]? = some type ∧ ∃ d ∈ ds, e = d.copy (toString (i + 1)) := by
  simp only [instanceDeclares, List.mem_flatMap, Prod.exists, List.mk_mem_zipIdx_iff_getElem?]
  constructor
  · rintro ⟨t, i, hi, he⟩
    split_ifs at he with ht
    · subst ht
      obtain ⟨d, hd, rfl⟩ := List.mem_map.mp he
      exact ⟨i, hi, d, hd, rfl⟩
    · simp at he
  · rintro ⟨i, hi, d, hd, rfl⟩
    exact ⟨type, i, hi, by rw [if_pos rfl]; exact List.mem_map_of_mem hd⟩

/-- The names of the members made for all instances are different. -/
theorem instance_names_nodup (instances : List String) (types : List (String × List Decl))
    (ht : (types.map (·.1)).Nodup) (hd : ∀ t ∈ types, (t.2.map (·.name)).Nodup) :
    ((types.flatMap fun t => instanceDeclares instances t.1 t.2).map (·.name)).Nodup := by
  have hname : ∀ (d : Decl) (i : Nat), (d.copy (toString (i + 1))).name = d.name ++ "_" ++ toString (i + 1) :=
    fun d i => copy_name d _
  have hone : ∀ (t : String × List Decl) (k : Nat) (l : List String), (t.2.map (·.name)).Nodup →
      (((l.zipIdx k).flatMap fun p => if p.1 = t.1 then t.2.map (·.copy (toString (p.2 + 1))) else []).map (·.name)).Nodup := by
    intro t k l hnd
    induction l generalizing k with
    | nil => simp
    | cons x l ih =>
      rw [List.zipIdx_cons, List.flatMap_cons, List.map_append, List.nodup_append]
      refine ⟨?_, ih (k + 1), ?_⟩
      · split_ifs
        · rw [List.map_map]
          have : (t.2.map ((fun x => x.name) ∘ fun x => x.copy (toString (k + 1)))) =
              (t.2.map (·.name)).map fun n => n ++ "_" ++ toString (k + 1) := by
            rw [List.map_map]
            exact List.map_congr_left fun d _ => hname d k
          rw [this]
          exact hnd.map fun a b hab => (member_name_injective a b k k hab).1
        · simp
      · intro a ha b hb hab
        subst hab
        split_ifs at ha
        · rw [List.map_map, List.mem_map] at ha
          obtain ⟨d, _, rfl⟩ := ha
          rw [List.mem_map] at hb
          obtain ⟨e, he, hen⟩ := hb
          rw [List.mem_flatMap] at he
          obtain ⟨p, hp, he⟩ := he
          split_ifs at he
          · obtain ⟨d', _, rfl⟩ := List.mem_map.mp he
            have hk := (List.mk_mem_zipIdx_iff_le_and_getElem?_sub.mp (show (p.1, p.2) ∈ l.zipIdx (k + 1) from hp)).1
            simp only [Function.comp] at hen
            rw [hname, hname] at hen
            have := (member_name_injective _ _ _ _ hen).2
            omega
          · simp at he
        · simp at ha
  induction types with
  | nil => simp
  | cons t ts ih =>
    rw [List.map_cons, List.nodup_cons] at ht
    rw [List.flatMap_cons, List.map_append, List.nodup_append]
    refine ⟨hone t 0 instances (hd t (by simp)), ih ht.2 fun u hu => hd u (by simp [hu]), ?_⟩
    intro a ha b hb hab
    subst hab
    obtain ⟨e, he, rfl⟩ := List.mem_map.mp ha
    obtain ⟨f, hf, hfe⟩ := List.mem_map.mp hb
    obtain ⟨u, hu, hf⟩ := List.mem_flatMap.mp hf
    obtain ⟨i, hi, d, _, rfl⟩ := (mem_instanceDeclares _ _ _ _).mp he
    obtain ⟨j, hj, d', _, rfl⟩ := (mem_instanceDeclares _ _ _ _).mp hf
    simp only [hname] at hfe
    have hij := (member_name_injective _ _ _ _ hfe).2
    subst hij
    rw [hi] at hj
    exact ht.1 (by rw [Option.some.inj hj]; exact List.mem_map_of_mem hu)

/-- What has been checked when the user variables are accepted. -/
theorem determine_ok {user : List (List Decl)} {types : List (String × List (List Decl))} {instances : List String}
    {r : List Decl × List (String × List Decl)} (h : determineUservars user types instances = .ok r) :
    r.1 = collect user ∧ r.2 = types.map (fun t => (t.1, instanceDeclares instances t.1 (collect t.2))) ∧
      (r.1.map (·.name)).Nodup ∧ (∀ t ∈ types, ((collect t.2).map (·.name)).Nodup) ∧
      ((fromKeys (r.2.flatMap (·.2) ++ r.1)).map (·.name)).Nodup := by
  simp only [determineUservars] at h
  split_ifs at h with h1 h2 h3
  injection h with h
  subst h
  refine ⟨rfl, rfl, (repeatedNames_iff _).mp (by simpa using h1), ?_, (repeatedNames_iff _).mp (by simpa using h3)⟩
  intro t ht
  rw [← repeatedNames_iff]
  by_contra hc
  exact h2 (List.any_eq_true.mpr ⟨t, ht, by simpa using hc⟩)

/-- C34, partial: if the user variables are accepted, then
* the instrument has no two of the same name, and every variable declared in its sections is there, by name;
* every instance has, for every variable declared by its type, a member named after the variable and the instance;
* the members of all instances have different names;
* a variable of the instrument with the name of such a member is declared in the same way.
Missing: that these are then not the same member, and that differing declarations in one section are refused. -/
theorem uservars_partial (user : List (List Decl)) (types : List (String × List (List Decl))) (instances : List String)
    (r : List Decl × List (String × List Decl)) (ht : (types.map (·.1)).Nodup)
    (h : determineUservars user types instances = .ok r) :
    (r.1.map (·.name)).Nodup ∧ (∀ b ∈ user, ∀ d ∈ b, d.name ∈ r.1.map (·.name)) ∧
    (∀ (i : Nat) (t : String × List (List Decl)), t ∈ types → instances[i]? = some t.1 → ∀ b ∈ t.2, ∀ d ∈ b,
      d.name ++ "_" ++ toString (i + 1) ∈ (r.2.flatMap (·.2)).map (·.name)) ∧
    ((r.2.flatMap (·.2)).map (·.name)).Nodup ∧
    ∀ d ∈ r.1, ∀ e ∈ r.2.flatMap (·.2), d.name = e.name → e.str = d.str ∧ e.eq d = true := by
  obtain ⟨h1, h2, h3, h4, h5⟩ := determine_ok h
  have hnd : ((r.2.flatMap (·.2)).map (·.name)).Nodup := by
    have := instance_names_nodup instances (types.map fun t => (t.1, collect t.2)) (by simpa [Function.comp_def] using ht)
      (by intro t htt; obtain ⟨u, hu, rfl⟩ := List.mem_map.mp htt; exact h4 u hu)
    rw [h2, List.flatMap_map]
    rw [List.flatMap_map] at this
    exact this
  refine ⟨h3, ?_, ?_, hnd, ?_⟩
  · intro b hb d hd
    rw [h1]
    obtain ⟨e, he, hn⟩ := (collect_spec user).2 b hb d hd
    exact List.mem_map.mpr ⟨e, he, hn⟩
  · intro i t htt hi b hb d hd
    obtain ⟨e, he, hn⟩ := (collect_spec t.2).2 b hb d hd
    rw [List.mem_map]
    refine ⟨e.copy (toString (i + 1)), ?_, by rw [copy_name, hn]⟩
    rw [h2, List.mem_flatMap]
    exact ⟨_, List.mem_map_of_mem htt, (mem_instanceDeclares _ _ _ _).mpr ⟨i, hi, e, he, rfl⟩⟩
  · intro d hd e he hn
    obtain ⟨_, f2, f3⟩ := fromKeys_spec (r.2.flatMap (·.2) ++ r.1)
    obtain ⟨u, hu, hus⟩ := f3 d (by simp [hd])
    obtain ⟨v, hv, hvs⟩ := f3 e (by simp only [List.mem_append]; exact .inl he)
    have huv : u = v := List.inj_on_of_nodup_map h5 hu hv ((same_name hus).trans (hn.trans (same_name hvs).symm))
    subst huv
    -- the representative of `e` is `e`: a member of an instance, or a variable of the instrument
    have hpre : r.2.flatMap (·.2) <+: addKeys [] (r.2.flatMap (·.2) ++ r.1) := by
      have hP : (r.2.flatMap (·.2)).Pairwise fun d e => d.same e = false := by
        have : (r.2.flatMap (·.2)).Pairwise fun d e => d.name ≠ e.name := List.pairwise_map.mp hnd
        refine this.imp fun {a b} hab => ?_
        by_contra hc
        exact hab (same_name (by simpa using hc))
      have hself : ∀ (l acc : List Decl), (acc ++ l).Pairwise (fun d e => d.same e = false) → addKeys acc l = acc ++ l := by
        intro l
        induction l with
        | nil => intro acc _; simp [addKeys]
        | cons x l ih =>
          intro acc hp
          have hstep : addKeys acc (x :: l) = addKeys (if acc.any (·.same x) then acc else acc ++ [x]) l := rfl
          rw [hstep, if_neg]
          · rw [ih (acc ++ [x]) (by simpa using hp)]; simp
          · intro hc
            obtain ⟨a, ha, hs⟩ := List.any_eq_true.mp hc
            have := (List.pairwise_append.mp hp).2.2 a ha x (by simp)
            rw [hs] at this
            exact absurd this (by simp)
      have happ : addKeys [] (r.2.flatMap (·.2) ++ r.1) = addKeys (addKeys [] (r.2.flatMap (·.2))) r.1 := by
        simp [addKeys, List.foldl_append]
      rw [happ, hself _ [] (by simpa using hP)]
      exact (addKeys_spec r.1 _ (by simpa using hP)).2.2.1
    have heu : u = e := List.inj_on_of_nodup_map h5 hu (hpre.subset he) (same_name hvs)
    subst heu
    simp only [Decl.same, Bool.and_eq_true, decide_eq_true_eq] at hus
    exact hus

example : ((determineUservars [[scalar], [.plain { dtype := some "int" } "n"]]
    [("A", [[.plain { dtype := some "int" } "n", ptr]]), ("B", [])] ["A", "B", "A"]).toOption.map fun r =>
      (members r).map (·.str)) =
    some ["double x", "int n", "int n_1", "double * x_1", "int n_3", "double * x_3"] := by decide +kernel

theorem members_sub (r : List Decl × List (String × List Decl)) : members r ⊆ r.1 ++ r.2.flatMap (·.2) := by
  obtain ⟨a, l⟩ := r
  simp only [members]
  induction l generalizing a with
  | nil => simp
  | cons t l ih =>
    intro x hx
    rw [List.foldl_cons] at hx
    have := ih _ hx
    simp only [List.mem_append, List.flatMap_cons] at this ⊢
    rcases this with h | h
    · have := (fromKeys_spec _).2.1 h
      rw [List.mem_append] at this
      tauto
    · tauto

/-- C34: no name is used for two members of the particle. -/
theorem particle_members_distinct (user : List (List Decl)) (types : List (String × List (List Decl)))
    (instances : List String) (r : List Decl × List (String × List Decl)) (ht : (types.map (·.1)).Nodup)
    (h : determineUservars user types instances = .ok r) : ((members r).map (·.name)).Nodup := by
  obtain ⟨h1, _, _, h4, h5⟩ := uservars_partial user types instances r ht h
  by_cases hnil : r.2 = []
  · simpa [members, hnil] using h1
  have hP : (members r).Pairwise fun d e => d.same e = false := by
    obtain ⟨l, t, hlt⟩ := List.eq_nil_or_concat r.2 |>.resolve_left hnil
    simp only [members, hlt, List.concat_eq_append, List.foldl_append, List.foldl_cons, List.foldl_nil]
    exact (fromKeys_spec _).1
  rw [List.Nodup, List.pairwise_map]
  refine hP.imp_of_mem fun {d e} hd he hs hn => ?_
  have hne : ∀ x : Decl, d = x → e = x → False := by
    rintro x rfl rfl
    rw [same_refl] at hs
    exact absurd hs (by simp)
  have hne' : d.same e = true → False := fun h => by rw [hs] at h; exact absurd h (by simp)
  rcases List.mem_append.mp (members_sub r hd) with hd | hd <;> rcases List.mem_append.mp (members_sub r he) with he | he
  · exact hne d rfl (List.inj_on_of_nodup_map h1 he hd hn.symm)
  · obtain ⟨a, b⟩ := h5 d hd e he hn
    apply hne'
    simp only [Decl.same, Bool.and_eq_true, decide_eq_true_eq]
    exact ⟨a.symm, by rw [decl_eq_symm]; exact b⟩
  · obtain ⟨a, b⟩ := h5 e he d hd hn.symm
    apply hne'
    simp only [Decl.same, Bool.and_eq_true, decide_eq_true_eq]
    exact ⟨a, b⟩
  · exact hne d rfl (List.inj_on_of_nodup_map h4 he hd hn.symm)

/-- C34 does not hold between instrument and components: the variable `x_1` of the instrument and the variable `x` of the
first component are one member of the particle. -/
theorem instrument_variable_shared :
    ((determineUservars [[.plain { dtype := some "double" } "x_1"]] [("A", [[scalar]])] ["A"]).toOption.map fun r =>
      (r.1.map (·.name), r.2.map fun t => t.2.map (·.name), (members r).map (·.name))) =
    some (["x_1"], [["x_1"]], ["x_1"]) := by decide +kernel

/-- C34 does not hold for differing declarations: whether an array and a variable of the same name are refused depends on
their order; if they are not, only the first is kept. -/
theorem differing_declarations_accepted :
    (determineUservars [[scalar, arr 3, arr 4]] [] []).toOption.map (·.1) = some [scalar] ∧
    determineUservars [[arr 3, scalar, arr 4]] [] [] = .error .runtimeError := by
  refine ⟨by decide +kernel, rfl⟩

/-- C34 does not hold for the members every particle has: a variable with the name of one of them is accepted. -/
theorem builtin_member_names_accepted (n : String) :
    (determineUservars [[.plain { dtype := some "int" } n]] [] []).toOption.map (·.1.map (·.name)) = some [n] := by
  rfl

example : "p" ∈ structMembers ∧ "_index" ∈ structMembers := by decide

/-- C34 does not hold for arrays: an array is written into the particle as a single variable, of its type and name. -/
theorem array_member_without_size (a : Attr) (n : String) :
    (Decl.plain a n).particleMember = (Decl.plain { a with elements := none } n).particleMember ∧
    ∀ t : String, t ≠ "" → ∀ e, (Decl.plain { dtype := some t, elements := e } n).particleMember = "  " ++ t ++ " " ++ n ++ ";" := by
  refine ⟨rfl, fun t ht e => ?_⟩
  simp [Decl.particleMember, Decl.str, attrString, given, ht, String.append_assoc]

example : (arr 3).particleMember = "  double x;" ∧ (arr 3).declareMember.toOption = some "double x[3]" := by
  decide +kernel

end Verif.CDecl
