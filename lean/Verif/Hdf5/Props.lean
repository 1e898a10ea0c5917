import Verif.Hdf5.Lemmas

/-!
C42: what is saved is loaded again, for supported values of any depth.
C43: the names of the entries of a sequence are in the order of the entries.
-/

namespace Verif.Hdf5

/-! ### C43 -/

/-- C43: the names of the entries of a sequence are distinct and in the order of the entries, for every length. -/
theorem entry_names_ordered (count i j : Nat) (hij : i < j) (hj : j < count) :
    entryName (padOf count) i < entryName (padOf count) j := by
  rw [entryName_eq (by omega), entryName_eq hj, String.lt_iff_toList_lt, String.toList_ofList, String.toList_ofList]
  refine List.cons_lt_cons_iff.mpr (.inr ⟨rfl, fixed_lt ?_ hij⟩)
  exact Nat.lt_trans hj (lt_pow_dec count)

example : entryName (padOf 100) 7 = "t007" ∧ entryName (padOf 100) 99 = "t099" ∧ entryName (padOf 99) 9 = "t09" := by
  decide +kernel

theorem entryName_inj {count i j : Nat} (hi : i < count) (hj : j < count)
    (h : entryName (padOf count) i = entryName (padOf count) j) : i = j := by
  rcases Nat.lt_trichotomy i j with hl | hl | hl
  · have := entry_names_ordered count i j hl hj
    rw [h] at this
    exact absurd this (String.lt_irrefl _)
  · exact hl
  · have := entry_names_ordered count j i hl hi
    rw [h] at this
    exact absurd this (String.lt_irrefl _)

theorem entries_nodup (count : Nat) : ((List.range count).map (entryName (padOf count))).Nodup := by
  rw [List.nodup_map_iff_inj_on List.nodup_range]
  intro i hi j hj h
  exact entryName_inj (List.mem_range.mp hi) (List.mem_range.mp hj) h

theorem readEntries_eq {found : List (String × Except Err Val)} {pad : Nat} :
    ∀ (l : List Nat) (vs : List Val), List.Forall₂ (fun i v => found.lookup (entryName pad i) = some (.ok v)) l vs →
      readEntries found pad l = .ok vs
  | [], _, .nil => rfl
  | i :: l, _, .cons h hs => by rw [readEntries, h]; simp only; rw [readEntries_eq l _ hs]

theorem forall₂_zip {α β : Type} {R : α → β → Prop} : ∀ {l : List α} {m : List β}, m.length = l.length →
    (∀ p ∈ l.zip m, R p.1 p.2) → List.Forall₂ R l m
  | [], [], _, _ => .nil
  | [], _ :: _, h, _ => by simp at h
  | _ :: _, [], h, _ => by simp at h
  | a :: l, b :: m, h, hp =>
    .cons (hp (a, b) (by simp)) (forall₂_zip (by simpa using h) fun p hp' => hp p (by simp [hp']))

/-- C43: a saved sequence is loaded in full and in order, if its elements are loaded. -/
theorem sequence_again (ver : String) (dt : String → List Val → Option Atom) (tuple : Bool) (nodes : List Node)
    (vs : List Val) (h : nodes.map (load ver dt) = vs.map .ok) :
    ∃ n, saveSeq ver tuple (nodes.map .ok) = .ok n ∧ load ver dt n = .ok (.seq tuple vs) := by
  have hlen : vs.length = nodes.length := by
    have := congrArg List.length h
    simpa using this.symm
  refine ⟨_, by rw [saveSeq, allOk_map], ?_⟩
  have hread : readEntries (((List.range nodes.length).map (entryName (padOf nodes.length))).zip
      (loadEach ver dt nodes)) (padOf nodes.length) (List.range nodes.length) = .ok vs := by
    refine readEntries_eq _ _ (forall₂_zip (by simp [hlen]) ?_)
    rintro ⟨i, v⟩ hp
    have hp' : (entryName (padOf nodes.length) i, (Except.ok v : Except Err Val)) ∈
        ((List.range nodes.length).map (entryName (padOf nodes.length))).zip (loadEach ver dt nodes) := by
      rw [loadEach_eq, h, List.zip_map]
      exact List.mem_map.mpr ⟨(i, v), hp, rfl⟩
    exact lookup_zip (entries_nodup _) hp'
  have hl : loadSeq tuple [("length", .int nodes.length)]
      (((List.range nodes.length).map (entryName (padOf nodes.length))).zip (loadEach ver dt nodes)) =
      .ok (.seq tuple vs) := by
    simp only [loadSeq, List.lookup, beq_self_eq_true, Int.toNat_natCast, hread]
  cases tuple
  · rw [load, loadNode, seqType]
    simp [hl]
  · rw [load, loadNode, seqType]
    simp [hl]

/-! ### C42 -/

/-- The atom of a field. -/
def asAtom : Option Val → Option Atom
  | some (.atom a) => some a
  | _ => none

def isOp (cls : String) : Prop := cls = "TrinaryOp" ∨ cls = "BinaryOp" ∨ cls = "UnaryOp"

instance (cls : String) : Decidable (isOp cls) := inferInstanceAs (Decidable (_ ∨ _))

def isNone : Val → Bool
  | .none => true
  | _ => false

theorem isNone_iff (v : Val) : isNone v = true ↔ v = .none := by cases v <;> simp [isNone]

mutual
/-- A dictionary has no order: the value with all dictionaries in the order of their keys. -/
def norm : Val → Val
  | .none => .none
  | .atom a => .atom a
  | .seq t l => .seq t (normEach l)
  | .dict keys values =>
    let sorted := (keys.zip (normEach values)).insertionSort fun a b => a.1 ≤ b.1
    .dict (sorted.map (·.1)) (sorted.map (·.2))
  | .obj cls names values => .obj cls names (normEach values)

def normEach : List Val → List Val
  | [] => []
  | v :: l => norm v :: normEach l
end

theorem normEach_eq (l : List Val) : normEach l = l.map norm := by
  induction l with
  | nil => rfl
  | cons v l ih => rw [normEach, ih, List.map_cons]

theorem norm_none_iff (v : Val) : norm v = .none ↔ v = .none := by cases v <;> simp [norm]

/-- What the value of a field of a class must be like: an attribute is `None` or an atom, a required value is there, an
optional value that is `None` is so by default, and a field that is not stored has its default. -/
def FieldOk (s : Schema) (p : String × Option Val) (v : Val) : Prop :=
  if p.1 ∈ s.attrs then v = .none ∨ ∃ a, v = .atom a
  else if p.1 ∈ s.required then v ≠ .none
  else if p.1 ∈ s.optional then v = .none → p.2 = some .none
  else p.2 = some v ∧ ∃ a, v = .atom a

mutual
/-- The values that C42 is about. The data type of an operation is the one computed from the rest. -/
def Supported (dt : String → List Val → Option Atom) : Val → Prop
  | .none => False
  | .atom a => a.storable = true
  | .seq _ l => EachSupported dt l
  | .dict keys values => keys.Nodup ∧ values.length = keys.length ∧ EachSupported dt values
  | .obj cls names values =>
    (∃ s, schema cls = some s ∧ names = s.fields.map (·.1) ∧ List.Forall₂ (FieldOk s) s.fields values) ∧
      (isOp cls → dt cls (normEach values) = asAtom ((names.zip values).lookup "data_type")) ∧
      EachFieldSupported dt values

def EachSupported (dt : String → List Val → Option Atom) : List Val → Prop
  | [] => True
  | v :: l => Supported dt v ∧ EachSupported dt l

def EachFieldSupported (dt : String → List Val → Option Atom) : List Val → Prop
  | [] => True
  | v :: l => (v = .none ∨ Supported dt v) ∧ EachFieldSupported dt l
end

/-- What is stored of a class is different fields of it. -/
def Schema.Ok (s : Schema) : Prop :=
  (s.fields.map (·.1)).Nodup ∧ (s.attrs ++ (s.optional ++ s.required)).Nodup ∧
    ∀ n ∈ s.attrs ++ (s.optional ++ s.required), n ∈ s.fields.map (·.1)

instance (s : Schema) : Decidable s.Ok := inferInstanceAs (Decidable (_ ∧ _ ∧ _))

/-- C42: every field of every class is stored but for the unit of an angle and the priority of a local registry, so these
are the only fields that the values of C42 must have a given value of. -/
theorem unsaved_fields (cls : String) (s : Schema) (h : schema cls = some s) (n : String) (hn : n ∈ s.fields.map (·.1)) :
    n ∈ s.attrs ++ (s.optional ++ s.required) ∨ (cls ∈ ["RotationX", "RotationY", "RotationZ"] ∧ n = "degrees") ∨
      (cls = "LocalRegistry" ∧ n = "priority") := by
  revert n
  unfold schema at h
  split at h <;> first | cases h; done | (cases h; decide +kernel)

theorem schema_ok (cls : String) (s : Schema) (h : schema cls = some s) : s.Ok := by
  unfold schema at h
  split at h <;> first | cases h; done | (cases h; decide +kernel)

/-- No class is called as a built-in type. -/
theorem schema_names (cls : String) (s : Schema) (h : schema cls = some s) :
    cls ≠ "tuple" ∧ cls ≠ "list" ∧ cls ≠ "dict" ∧ cls ≠ "str" ∧ cls ≠ "int" ∧ cls ≠ "float" ∧ cls ≠ "bool" := by
  refine ⟨?_, ?_, ?_, ?_, ?_, ?_, ?_⟩ <;> (rintro rfl; cases h)

theorem saveAttrs_eq (data : List (String × Val)) : ∀ l : List String,
    (∀ n ∈ l, ∃ v, data.lookup n = some v ∧ (v = .none ∨ ∃ a, v = .atom a ∧ a.storable = true)) →
      saveAttrs data l = .ok (l.filterMap fun m => (asAtom (data.lookup m)).map (Prod.mk m))
  | [], _ => rfl
  | n :: l, h => by
    have ih := saveAttrs_eq data l fun m hm => h m (List.mem_cons_of_mem _ hm)
    obtain ⟨v, hv, hs⟩ := h n List.mem_cons_self
    rcases hs with rfl | ⟨a, rfl, ha⟩
    · rw [saveAttrs, hv]
      simp only
      rw [ih, List.filterMap_cons_none (by simp [hv, asAtom])]
    · rw [saveAttrs, hv]
      simp only [ha, if_true]
      rw [ih, List.filterMap_cons_some (b := (n, a)) (by simp [hv, asAtom])]

/-- The group made for a field. -/
def nodeOf : Option (Val × Except Err Node) → Option Node
  | some (v, .ok node) => if isNone v then none else some node
  | _ => none

theorem saveFields_eq (data : List (String × Val × Except Err Node)) : ∀ l : List String,
    (∀ n ∈ l, ∃ v r, data.lookup n = some (v, r) ∧ (v = .none ∨ ∃ node, r = .ok node)) →
      saveFields data l = .ok (l.filterMap fun m => (nodeOf (data.lookup m)).map (Prod.mk m))
  | [], _ => rfl
  | n :: l, h => by
    have ih := saveFields_eq data l fun m hm => h m (List.mem_cons_of_mem _ hm)
    obtain ⟨v, r, hv, hs⟩ := h n List.mem_cons_self
    by_cases hvn : v = .none
    · subst hvn
      rw [saveFields, hv]
      simp only
      rw [ih, List.filterMap_cons_none]
      rw [hv]
      cases r <;> simp [nodeOf, isNone]
    · obtain ⟨node, rfl⟩ := hs.resolve_left hvn
      have hi : isNone v = false := by
        cases hb : isNone v with
        | false => rfl
        | true => exact absurd ((isNone_iff v).mp hb) hvn
      rw [saveFields, hv]
      cases v with
      | none => exact absurd rfl hvn
      | _ =>
        simp only
        rw [ih, List.filterMap_cons_some (b := (n, node)) (by simp [hv, nodeOf, isNone])]

theorem readFields_eq (found : List (String × Except Err Val)) (req : Bool) (g : String → Option Val) : ∀ l : List String,
    (∀ n ∈ l, found.lookup n = (g n).map .ok ∧ (req = true → (g n).isSome = true)) →
      readFields found req l = .ok (l.filterMap fun m => (g m).map (Prod.mk m))
  | [], _ => rfl
  | n :: l, h => by
    have ih := readFields_eq found req g l fun m hm => h m (List.mem_cons_of_mem _ hm)
    obtain ⟨h1, h2⟩ := h n List.mem_cons_self
    cases hg : g n with
    | none =>
      have : req = false := by
        cases req with
        | false => rfl
        | true => rw [hg] at h2; cases h2 rfl
      subst this
      rw [readFields, h1, hg]
      simp only [Option.map_none, Bool.false_eq_true, if_false]
      rw [ih, List.filterMap_cons_none (by simp [hg])]
    | some v =>
      rw [readFields, h1, hg]
      simp only [Option.map_some]
      rw [ih, List.filterMap_cons_some (b := (n, v)) (by simp [hg])]

theorem construct_eq (given : List (String × Val)) : ∀ (fields : List (String × Option Val)) (vs : List Val),
    List.Forall₂ (fun p v => (given.lookup p.1).or p.2 = some v) fields vs → construct given fields = .ok vs
  | [], _, .nil => rfl
  | (n, d) :: l, _, .cons h hs => by
    simp only at h
    rw [construct, h]
    simp only
    rw [construct_eq given l _ hs]

theorem eachSupported_iff (dt : String → List Val → Option Atom) (l : List Val) :
    EachSupported dt l ↔ ∀ v ∈ l, Supported dt v := by
  induction l with
  | nil => simp [EachSupported]
  | cons v l ih => simp [EachSupported, ih]

theorem eachFieldSupported_iff (dt : String → List Val → Option Atom) (l : List Val) :
    EachFieldSupported dt l ↔ ∀ v ∈ l, v = .none ∨ Supported dt v := by
  induction l with
  | nil => simp [EachFieldSupported]
  | cons v l ih => simp [EachFieldSupported, ih]

/-- What is to be shown of a value. -/
def Again (ver : String) (dt : String → List Val → Option Atom) (v : Val) : Prop :=
  ∃ n, save ver v = .ok n ∧ load ver dt n = .ok (norm v)

theorem again_each {ver : String} {dt : String → List Val → Option Atom} : ∀ l : List Val, (∀ v ∈ l, Again ver dt v) →
    ∃ nodes : List Node, saveEach ver l = nodes.map .ok ∧ nodes.map (load ver dt) = (l.map norm).map .ok
  | [], _ => ⟨[], rfl, rfl⟩
  | v :: l, h => by
    obtain ⟨n, h1, h2⟩ := h v List.mem_cons_self
    obtain ⟨ns, h3, h4⟩ := again_each l fun w hw => h w (List.mem_cons_of_mem _ hw)
    exact ⟨n :: ns, by rw [saveEach, h1, h3]; rfl, by simp [h2, h4]⟩

theorem insertionSort_map {α β : Type} (f : α → β) (l : List (String × α)) :
    (l.map fun p => (p.1, f p.2)).insertionSort (fun a b => a.1 ≤ b.1) =
      (l.insertionSort fun a b => a.1 ≤ b.1).map fun p => (p.1, f p.2) := by
  induction l with
  | nil => rfl
  | cons p l ih =>
    rw [List.map_cons, List.insertionSort_cons, ih, List.insertionSort_cons]
    generalize l.insertionSort (fun a b => a.1 ≤ b.1) = m
    induction m with
    | nil => rfl
    | cons q m ih2 =>
      simp only [List.map_cons, List.orderedInsert]
      split_ifs
      · rfl
      · rw [List.map_cons, ih2]

theorem again_dict {ver : String} {dt : String → List Val → Option Atom} (keys : List String) (values : List Val)
    (h : ∀ v ∈ values, Again ver dt v) : Again ver dt (.dict keys values) := by
  obtain ⟨nodes, h1, h2⟩ := again_each values h
  refine ⟨_, by rw [save, h1, saveDict, allOk_map], ?_⟩
  rw [load, loadEach_eq, h2, loadNode, if_neg (by simp), if_neg (by decide), if_neg (by decide), if_pos rfl]
  rw [loadDict]
  have hz : keys.zip ((values.map norm).map Except.ok) =
      (keys.zip (values.map norm)).map fun p => (p.1, (Except.ok p.2 : Except Err Val)) := by
    rw [List.zip_map_right]
    rfl
  rw [hz, insertionSort_map, List.map_map, List.map_map]
  have : ((fun p : String × Except Err Val => p.2) ∘ fun p : String × Val => (p.1, Except.ok p.2)) =
      Except.ok ∘ fun p : String × Val => p.2 := rfl
  rw [this, ← List.map_map, allOk_map]
  simp only [norm, normEach_eq]
  rfl

theorem zip_map_self {α β : Type} (f : α → β) : ∀ l : List α, l.zip (l.map f) = l.map fun a => (a, f a)
  | [] => rfl
  | a :: l => by rw [List.map_cons, List.zip_cons_cons, zip_map_self f l, List.map_cons]

theorem again_obj {ver : String} {dt : String → List Val → Option Atom} (cls : String) (names : List String)
    (values : List Val) (h : ∀ v ∈ values, v ≠ .none → Again ver dt v) (hs : Supported dt (.obj cls names values)) :
    Again ver dt (.obj cls names values) := by
  rw [Supported] at hs
  obtain ⟨⟨s, hsc, hnames, hfields⟩, hop, hsup⟩ := hs
  rw [eachFieldSupported_iff] at hsup
  obtain ⟨hnd, hstored, hin⟩ := schema_ok cls s hsc
  have hlen : values.length = names.length := by
    rw [hnames, List.length_map]
    exact hfields.length_eq.symm
  subst hnames
  -- the value of a field
  have hval : ∀ n ∈ s.fields.map (·.1), ∃ v d, v ∈ values ∧ ((s.fields.map (·.1)).zip values).lookup n = some v ∧
      ((s.fields.map (·.1)).zip (values.zip (saveEach ver values))).lookup n = some (v, save ver v) ∧
      FieldOk s (n, d) v := by
    intro n hn
    obtain ⟨v, hv⟩ := zip_mem_of_mem hlen hn
    have hv2 : (n, v, save ver v) ∈ (s.fields.map (·.1)).zip (values.zip (saveEach ver values)) := by
      rw [saveEach_eq, show values.zip (values.map (save ver)) = values.map fun w => (w, save ver w) by
        exact zip_map_self _ _, List.zip_map_right]
      exact List.mem_map.mpr ⟨(n, v), hv, rfl⟩
    have hf : ∃ d, ((n, d), v) ∈ s.fields.zip values := by
      rw [List.zip_map_left] at hv
      obtain ⟨⟨⟨n', d⟩, v'⟩, hm, he⟩ := List.mem_map.mp hv
      simp only [Prod.map, Prod.mk.injEq, id_eq] at he
      obtain ⟨rfl, rfl⟩ := he
      exact ⟨d, hm⟩
    obtain ⟨d, hd⟩ := hf
    refine ⟨v, d, (List.of_mem_zip hv).2, lookup_zip hnd hv, lookup_zip hnd hv2, ?_⟩
    exact (List.forall₂_zip hfields) hd
  have hattrs := saveAttrs_eq ((s.fields.map (·.1)).zip values) s.attrs (by
    intro n hn
    obtain ⟨v, d, hvm, hv1, _, hok⟩ := hval n (hin n (List.mem_append_left _ hn))
    rw [FieldOk, if_pos hn] at hok
    refine ⟨v, hv1, hok.imp_right fun ⟨a, ha⟩ => ⟨a, ha, ?_⟩⟩
    subst ha
    have := (hsup _ hvm).resolve_left (by simp)
    rwa [Supported] at this)
  have hsaved := saveFields_eq ((s.fields.map (·.1)).zip (values.zip (saveEach ver values))) (s.optional ++ s.required) (by
    intro n hn
    obtain ⟨v, d, hvm, _, hv2, _⟩ := hval n (hin n (List.mem_append_right _ hn))
    refine ⟨v, _, hv2, ?_⟩
    by_cases hvn : v = .none
    · exact .inl hvn
    · obtain ⟨node, hnode, _⟩ := h v hvm hvn
      exact .inr ⟨node, hnode⟩)
  refine ⟨_, by rw [save, saveObj, hsc]; simp only; rw [hattrs]; simp only; rw [hsaved], ?_⟩
  -- what is found
  generalize hF : (s.optional ++ s.required).filterMap (fun m =>
    (nodeOf (((s.fields.map (·.1)).zip (values.zip (saveEach ver values))).lookup m)).map (Prod.mk m)) = F
  generalize hA : s.attrs.filterMap (fun m =>
    (asAtom (((s.fields.map (·.1)).zip values).lookup m)).map (Prod.mk m)) = A
  have hA' : ∀ n, A.lookup n = if n ∈ s.attrs then asAtom (((s.fields.map (·.1)).zip values).lookup n) else none := by
    intro n
    rw [← hA]
    exact lookup_filterMap _ _ _
  let g : String → Option Val := fun n =>
    match ((s.fields.map (·.1)).zip values).lookup n with
    | some v => if isNone v then none else some (norm v)
    | none => none
  have hfound : ∀ n ∈ s.optional ++ s.required,
      ((F.map (·.1)).zip (loadEach ver dt (F.map (·.2)))).lookup n = (g n).map .ok := by
    intro n hn
    have hz : (F.map (·.1)).zip (loadEach ver dt (F.map (·.2))) = F.map fun p => (p.1, load ver dt p.2) := by
      rw [loadEach_eq, List.map_map, List.zip_map', ]
      rfl
    rw [hz, lookup_map_snd, ← hF, lookup_filterMap, if_pos hn]
    obtain ⟨v, d, hvm, hv1, hv2, _⟩ := hval n (hin n (List.mem_append_right _ hn))
    rw [hv2]
    simp only [g, hv1]
    by_cases hvn : v = .none
    · subst hvn
      rw [save]
      simp [nodeOf, isNone]
    · obtain ⟨node, hnode, hload⟩ := h v hvm hvn
      have hi : isNone v = false := by
        cases hb : isNone v with
        | false => rfl
        | true => exact absurd ((isNone_iff v).mp hb) hvn
      simp [hnode, nodeOf, hi, hload]
  have hopt := readFields_eq ((F.map (·.1)).zip (loadEach ver dt (F.map (·.2)))) false g s.optional
    fun n hn => ⟨hfound n (List.mem_append_left _ hn), fun h => by cases h⟩
  have hdis : ∀ n ∈ s.optional ++ s.required, n ∉ s.attrs := fun n hn ha =>
    (List.nodup_append.mp hstored).2.2 n ha n hn rfl
  have hg : ∀ n ∈ s.required, (g n).isSome = true ∧ ∀ v, g n = some v → v ≠ .none := by
    intro n hn
    obtain ⟨v, d, hvm, hv1, _, hok⟩ := hval n (hin n (List.mem_append_right _ (List.mem_append_right _ hn)))
    rw [FieldOk, if_neg (hdis n (List.mem_append_right _ hn)), if_pos hn] at hok
    have hi : isNone v = false := by
      cases hb : isNone v with
      | false => rfl
      | true => exact absurd ((isNone_iff v).mp hb) hok
    simp only [g, hv1, hi]
    refine ⟨rfl, fun w hw => ?_⟩
    simp only [Bool.false_eq_true, if_false, Option.some.injEq] at hw
    subst hw
    rw [ne_eq, norm_none_iff]
    exact hok
  have hreq := readFields_eq ((F.map (·.1)).zip (loadEach ver dt (F.map (·.2)))) true g s.required
    fun n hn => ⟨hfound n (List.mem_append_right _ hn), fun _ => (hg n hn).1⟩
  have hread : readObj s A ((F.map (·.1)).zip (loadEach ver dt (F.map (·.2)))) = .ok (normEach values) := by
    rw [readObj, hopt]
    simp only
    rw [hreq]
    simp only
    rw [if_neg]
    · refine construct_eq _ _ _ (forall₂_zip (by rw [normEach_eq, List.length_map, hlen, List.length_map]) ?_)
      rintro ⟨⟨n, d⟩, w⟩ hp
      rw [normEach_eq, List.zip_map_right] at hp
      obtain ⟨⟨⟨n', d'⟩, v⟩, hm, he⟩ := List.mem_map.mp hp
      simp only [Prod.map, id_eq, Prod.mk.injEq] at he
      obtain ⟨⟨rfl, rfl⟩, rfl⟩ := he
      have hok : FieldOk s (n', d') v := (List.forall₂_zip hfields) hm
      have hv1 : ((s.fields.map (·.1)).zip values).lookup n' = some v := by
        refine lookup_zip (p := (n', v)) hnd ?_
        rw [List.zip_map_left]
        exact List.mem_map.mpr ⟨_, hm, rfl⟩
      simp only
      rw [lookup_append', lookup_append', lookup_map, lookup_filterMap, lookup_filterMap]
      rw [FieldOk] at hok
      by_cases ha : n' ∈ s.attrs
      · rw [if_pos ha] at hok ⊢
        rw [attrVal, hA', if_pos ha, hv1]
        rcases hok with rfl | ⟨a, rfl⟩
        · rfl
        · rfl
      · simp only [if_neg ha] at hok ⊢
        by_cases hr : n' ∈ s.required
        · have hno : n' ∉ s.optional := fun ho =>
            (List.nodup_append.mp (List.nodup_append.mp hstored).2.1).2.2 n' ho n' hr rfl
          rw [if_pos hr] at hok ⊢
          have hi : isNone v = false := by
            cases hb : isNone v with
            | false => rfl
            | true => exact absurd ((isNone_iff v).mp hb) hok
          simp [hno, g, hv1, hi]
        · rw [if_neg hr] at hok ⊢
          by_cases ho : n' ∈ s.optional
          · rw [if_pos ho] at hok ⊢
            cases hb : isNone v with
            | true =>
              have hvn := (isNone_iff v).mp hb
              have hd' := hok hvn
              subst hvn
              simp [g, hv1, hb, hd', norm]
            | false => simp [g, hv1, hb]
          · rw [if_neg ho] at hok ⊢
            obtain ⟨hd', a, rfl⟩ := hok
            simp [hd', norm]
    · intro hany
      rw [List.any_eq_true] at hany
      obtain ⟨⟨n, v⟩, hm, hv⟩ := hany
      obtain ⟨m, hmr, hgm⟩ := List.mem_filterMap.mp hm
      cases hgv : g m with
      | none => rw [hgv] at hgm; cases hgm
      | some w =>
        rw [hgv] at hgm
        simp only [Option.map_some, Option.some.injEq, Prod.mk.injEq] at hgm
        obtain ⟨rfl, rfl⟩ := hgm
        have := (hg m hmr).2 w hgv
        cases w <;> simp_all
  obtain ⟨n1, n2, n3, n4, n5, n6, n7⟩ := schema_names cls s hsc
  have hobj : loadObj dt cls A ((F.map (·.1)).zip (loadEach ver dt (F.map (·.2)))) =
      .ok (.obj cls (s.fields.map (·.1)) (normEach values)) := by
    rw [loadObj, hsc]
    simp only
    rw [hread]
    simp only
    split_ifs with h1 h2
    · rfl
    · refine absurd ?_ h2
      rw [hop h1, hA', if_pos]
      rcases h1 with rfl | rfl | rfl <;> (cases hsc; decide)
    · rfl
  rw [load, loadNode]
  simp only [ne_eq, not_true_eq_false, if_false, n1, n2, n3, n4, n5, n6, n7, or_self]
  rw [hobj, norm]

mutual
/-- C42: every supported value that is saved is loaded again as it was, up to the order of dictionaries. -/
theorem saved_is_loaded (ver : String) (dt : String → List Val → Option Atom) : ∀ v : Val, Supported dt v →
    ∃ n, save ver v = .ok n ∧ load ver dt n = .ok (norm v)
  | .none, h => by rw [Supported] at h; exact h.elim
  | .atom a, h => by
    rw [Supported] at h
    refine ⟨_, by rw [save, if_pos h], ?_⟩
    cases a <;> simp [load, loadNode, Atom.type, norm]
  | .seq t l, h => by
    rw [Supported] at h
    obtain ⟨nodes, h1, h2⟩ := again_each l (each_loaded ver dt l h)
    obtain ⟨n, h3, h4⟩ := sequence_again ver dt t nodes _ h2
    exact ⟨n, by rw [save, h1, h3], by rw [h4, norm, normEach_eq]⟩
  | .dict keys values, h => by
    rw [Supported] at h
    exact again_dict keys values (each_loaded ver dt values h.2.2)
  | .obj cls names values, h => by
    have hs := h
    rw [Supported] at hs
    exact again_obj cls names values (fields_loaded ver dt values hs.2.2) h

theorem each_loaded (ver : String) (dt : String → List Val → Option Atom) : ∀ l : List Val, EachSupported dt l →
    ∀ v ∈ l, Again ver dt v
  | [], _, _, hv => by cases hv
  | w :: l, h, v, hv => by
    rw [EachSupported] at h
    have h1 := saved_is_loaded ver dt w h.1
    rcases List.mem_cons.mp hv with rfl | hv
    · exact h1
    · exact each_loaded ver dt l h.2 v hv

theorem fields_loaded (ver : String) (dt : String → List Val → Option Atom) : ∀ l : List Val, EachFieldSupported dt l →
    ∀ v ∈ l, v ≠ .none → Again ver dt v
  | [], _, _, hv, _ => by cases hv
  | w :: l, h, v, hv, hne => by
    rw [EachFieldSupported] at h
    have h1 := fun hn : w ≠ .none => saved_is_loaded ver dt w (h.1.resolve_left hn)
    rcases List.mem_cons.mp hv with rfl | hv
    · exact h1 hne
    · exact fields_loaded ver dt l h.2 v hv hne
end

/-- Two values are equal in Python: with all dictionaries in order they are the same. -/
def PyEq (v w : Val) : Prop := norm v = norm w

theorem orderedInsert_lengths {α : Type} (l : List (String × α)) :
    ((l.insertionSort fun a b => a.1 ≤ b.1).map (·.1)).zip ((l.insertionSort fun a b => a.1 ≤ b.1).map (·.2)) =
      l.insertionSort fun a b => a.1 ≤ b.1 := by
  rw [List.zip_map']
  simp

theorem sorted_again {α : Type} (l : List (String × α)) :
    (l.insertionSort fun a b => a.1 ≤ b.1).insertionSort (fun a b => a.1 ≤ b.1) =
      l.insertionSort fun a b => a.1 ≤ b.1 := by
  haveI : Std.Total (fun a b : String × α => a.1 ≤ b.1) := ⟨fun a b => String.le_total a.1 b.1⟩
  haveI : IsTrans (String × α) (fun a b => a.1 ≤ b.1) := ⟨fun a b c h1 h2 => String.le_trans h1 h2⟩
  exact List.Pairwise.insertionSort_eq (List.pairwise_insertionSort _ l)

mutual
theorem norm_norm : ∀ v : Val, norm (norm v) = norm v
  | .none => rfl
  | .atom _ => rfl
  | .seq t l => by rw [norm, norm, normEach_norm l]
  | .dict keys values => by
    have h := normEach_norm values
    simp only [norm]
    generalize hs : (keys.zip (normEach values)).insertionSort (fun a b => a.1 ≤ b.1) = sorted
    have hn : normEach (sorted.map (·.2)) = sorted.map (·.2) := by
      rw [normEach_eq]
      refine List.map_congr_left (g := id) ?_ |>.trans (by simp)
      intro w hw
      obtain ⟨p, hp, rfl⟩ := List.mem_map.mp hw
      rw [← hs] at hp
      have hp' := (List.perm_insertionSort _ _).mem_iff.mp hp
      have hm : p.2 ∈ normEach values := (List.of_mem_zip (a := p.1) (b := p.2) hp').2
      rw [normEach_eq, normEach_eq, List.map_map] at h
      rw [normEach_eq] at hm
      obtain ⟨x, hx, hxp⟩ := List.mem_map.mp hm
      rw [← hxp]
      exact List.map_inj_left.mp h x hx
    rw [hn, List.zip_map', ← hs]
    simp only [Prod.mk.eta, List.map_id']
    rw [sorted_again]
  | .obj cls names values => by rw [norm, norm, normEach_norm values]

theorem normEach_norm : ∀ l : List Val, normEach (normEach l) = normEach l
  | [] => rfl
  | v :: l => by rw [normEach, normEach, norm_norm v, normEach_norm l]
end

/-- C42: every supported value is saved, and what is loaded is equal to it. -/
theorem save_then_load_partial (ver : String) (dt : String → List Val → Option Atom) (v : Val) (h : Supported dt v) :
    ∃ n w, save ver v = .ok n ∧ load ver dt n = .ok w ∧ PyEq w v := by
  obtain ⟨n, h1, h2⟩ := saved_is_loaded ver dt v h
  exact ⟨n, _, h1, h2, norm_norm v⟩

/-- A metadata item: a text with its origin. -/
def exampleMeta : Val := .obj "MetaData" ["source", "name", "mimetype", "value"]
  [.obj "DataSource" ["name", "type_name"] [.atom (.str "det"), .atom (.str "Component")], .atom (.str "note"),
    .atom (.str "text/plain"), .atom (.str "hello")]

def exampleDict : Val := .dict ["b", "a"] [.seq true [exampleMeta, .atom (.int 3)], .atom (.float "0.5")]

/-- The hypothesis of `save_then_load_partial` holds for a dictionary with a tuple with an object with an object. -/
example (dt : String → List Val → Option Atom) : Supported dt exampleDict := by
  rw [exampleDict, exampleMeta]
  simp only [Supported, EachSupported, EachFieldSupported]
  refine ⟨by decide, rfl, ⟨⟨⟨⟨_, rfl, rfl, ?_⟩, ?_, ?_⟩, by decide, trivial⟩, rfl, trivial⟩⟩
  · refine .cons ?_ (.cons ?_ (.cons ?_ (.cons ?_ .nil))) <;> simp [FieldOk]
  · rintro (h | h | h) <;> simp at h
  · refine ⟨.inr ⟨⟨_, rfl, rfl, ?_⟩, ?_, ?_⟩, ?_⟩
    · refine .cons ?_ (.cons ?_ .nil) <;> simp [FieldOk]
    · rintro (h | h | h) <;> simp at h
    · simp [Atom.storable]
    · simp [Atom.storable]

/-- Negation of C42 for `None` as an element and for an object of any class that is not known to `HDF5IO`: nothing is
written for it, without an error, and loading raises. -/
theorem unknown_class_lost (ver : String) (dt : String → List Val → Option Atom) (v : Val)
    (hv : v = .none ∨ ∃ cls names values, v = .obj cls names values ∧ schema cls = none) (tuple : Bool) :
    (∃ n, save ver v = .ok n ∧ load ver dt n = .error .keyError) ∧
      ∃ n, save ver (.seq tuple [v]) = .ok n ∧ load ver dt n = .error .keyError := by
  have h : save ver v = .ok emptyNode := by
    rcases hv with rfl | ⟨cls, names, values, rfl, hs⟩
    · rw [save]
    · rw [save, saveObj, hs]
  have h2 : load ver dt emptyNode = .error .keyError := by rw [emptyNode, load, loadNode]
  refine ⟨⟨_, h, h2⟩, ⟨_, by rw [save, saveEach, saveEach, h, saveSeq, allOk, allOk], ?_⟩⟩
  rw [load, loadEach, loadEach, h2]
  have hr : readEntries ([(entryName (padOf 1) 0, (Except.error .keyError : Except Err Val))]) (padOf 1) [0] =
      .error .keyError := by
    rw [readEntries, List.lookup]
    simp
  cases tuple
  · simp [loadNode, seqType, loadSeq, List.range_succ, List.lookup, hr]
  · simp [loadNode, seqType, loadSeq, List.range_succ, List.lookup, hr]

example : schema "InMemoryRegistry" = none := rfl

/-- Negation of C42 for the order of dictionaries: what is loaded has its keys in alphabetical order. -/
theorem dict_order_lost (ver : String) (dt : String → List Val → Option Atom) (x y : Atom) (hx : x.storable = true)
    (hy : y.storable = true) :
    ∃ n, save ver (.dict ["b", "a"] [.atom x, .atom y]) = .ok n ∧
      load ver dt n = .ok (.dict ["a", "b"] [.atom y, .atom x]) := by
  obtain ⟨n, h1, h2⟩ := saved_is_loaded ver dt (.dict ["b", "a"] [.atom x, .atom y])
    (by simp [Supported, EachSupported, hx, hy])
  refine ⟨n, h1, h2.trans ?_⟩
  have h : ¬ "b" ≤ "a" := by decide +kernel
  simp [norm, normEach, List.insertionSort, h]

/-- Negation of C42 for rotations in radians: they come back as rotations in degrees. -/
theorem radians_lost (ver : String) (dt : String → List Val → Option Atom) (angle : Atom) (h : angle.storable = true) :
    ∃ n, save ver (.obj "RotationX" ["v", "degrees"] [.atom angle, .atom (.bool false)]) = .ok n ∧
      load ver dt n = .ok (.obj "RotationX" ["v", "degrees"] [.atom angle, .atom (.bool true)]) := by
  refine ⟨.mk (some (ver, "RotationX")) [] .none ["v"] [.mk (some (ver, angle.type)) [] (some angle) [] []], ?_, ?_⟩
  · simp [save, saveEach, saveObj, schema, rotationPart, saveAttrs, saveFields, List.lookup, h]
  · have ha : load ver dt (.mk (some (ver, angle.type)) [] (some angle) [] []) = .ok (.atom angle) := by
      cases angle <;> simp [load, loadNode, Atom.type]
    rw [load, loadEach, loadEach, ha]
    simp [loadNode, loadObj, schema, rotationPart, readObj, readFields, List.lookup, construct]

/-- Negation of C42 for the priority of a local registry: it comes back as the default priority. -/
theorem registry_priority_lost (ver : String) (dt : String → List Val → Option Atom) (name root : String) (priority : Int) :
    ∃ n, save ver (.obj "LocalRegistry" ["name", "root", "priority"]
        [.atom (.str name), .atom (.str root), .atom (.int priority)]) = .ok n ∧
      load ver dt n = .ok (.obj "LocalRegistry" ["name", "root", "priority"]
        [.atom (.str name), .atom (.str root), .atom (.int 10)]) := by
  refine ⟨.mk (some (ver, "LocalRegistry")) [("name", .str name), ("root", .str root)] .none [] [], ?_, ?_⟩
  · simp only [save, saveEach]
    simp [saveObj, schema, needed, saveAttrs, saveFields, List.lookup, Atom.storable]
  · simp [load, loadEach, loadNode, loadObj, schema, needed, readObj, readFields, List.lookup, construct, attrVal]

/-- A file written by another version is not loaded, whatever is in it. -/
theorem other_version_refused (ver other : String) (h : other ≠ ver) (dt : String → List Val → Option Atom)
    (type : String) (attrs : List (String × Atom)) (entry : Option Atom) (names : List String) (kids : List Node) :
    load ver dt (.mk (some (other, type)) attrs entry names kids) = .error .runtimeError := by
  rw [load]
  simp [loadNode, h]

/-- An integer that does not fit into 64 bits is not saved. -/
theorem big_integer_refused (ver : String) (z : Int) (h : z < -2 ^ 63 ∨ 2 ^ 64 ≤ z) :
    save ver (.atom (.int z)) = .error .typeError := by
  rw [save, if_neg]
  simp only [Atom.storable, decide_eq_true_eq]
  omega

end Verif.Hdf5
