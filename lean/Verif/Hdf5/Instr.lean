import Verif.Hdf5.Props

/-!
Model of `InstrIO`, `InstanceIO` and `GroupIO` (io/hdf5.py 84-179): component types and referenced instances are stored by
name.

Simplified: the fields of an instrument and of an instance that hold no instances or component types are one value `own`
here, which is stored like a dictionary of those fields that are not `None`; the names of the entries of the sequence of
instances are those of C43 and are left out.
-/

namespace Verif.Hdf5

structure Comp where
  name : String
  body : Val

/-- instr/instance.py 14-35. `normal` tells whether `mode` is `Mode.normal`. -/
inductive Inst
  | mk (name : String) (type : Comp) (atRef rotRef : Option Inst) (own : Val) (normal : Bool)

def Inst.name : Inst → String
  | .mk n _ _ _ _ _ => n

def Inst.type : Inst → Comp
  | .mk _ t _ _ _ _ => t

def Inst.atRef : Inst → Option Inst
  | .mk _ _ a _ _ _ => a

def Inst.rotRef : Inst → Option Inst
  | .mk _ _ _ r _ _ => r

def Inst.own : Inst → Val
  | .mk _ _ _ _ o _ => o

def Inst.normal : Inst → Bool
  | .mk _ _ _ _ _ n => n

/-- instr/group.py 4-9. -/
structure Group where
  name : String
  index : Int
  ids : List Int
  members : List Inst

structure Instrument where
  own : Val
  components : List Inst
  groups : List (String × Group)

structure StoredInst where
  name : String
  type : String
  atRef : Option String
  rotRef : Option String
  own : Node

structure StoredGroup where
  name : String
  index : Int
  ids : List Int
  members : List String

structure File where
  own : Node
  types : List (String × Node)
  instances : List StoredInst
  groups : List (String × StoredGroup)

/-- `InstanceIO.save` (112-127): `mode` is not saved. -/
def saveInst (ver : String) (i : Inst) : Except Err StoredInst :=
  match save ver i.own with
  | .error e => .error e
  | .ok own => .ok { name := i.name, type := i.type.name, atRef := i.atRef.map Inst.name, rotRef := i.rotRef.map Inst.name, own }

/-- The component types with their names (`HDF5IO.save` of `data.component_types()`, 163). That equal types are stored once
(instr/instr.py 211) makes no difference to what is loaded. -/
def saveType (ver : String) (c : Comp) : Except Err (String × Node) :=
  match save ver c.body with
  | .error e => .error e
  | .ok n => .ok (c.name, n)

/-- `GroupIO.save` (176-179). -/
def saveGroup (g : Group) : StoredGroup :=
  { name := g.name, index := g.index, ids := g.ids, members := g.members.map Inst.name }

/-- `InstrIO.save` (155-163). -/
def saveInstr (ver : String) (i : Instrument) : Except Err File :=
  match save ver i.own with
  | .error e => .error e
  | .ok own =>
    match allOk (i.components.map (saveInst ver)) with
    | .error e => .error e
    | .ok instances =>
      match allOk (i.components.map fun c => saveType ver c.type) with
      | .error e => .error e
      | .ok types => .ok { own, types, instances, groups := i.groups.map fun p => (p.1, saveGroup p.2) }

/-- A reference by name (99-108). -/
def resolve (known : List (String × Inst)) : Option String → Except Err (Option Inst)
  | .none => .ok .none
  | some n =>
    match known.lookup n with
    | .none => .error .valueError
    | some i => .ok (some i)

/-- `InstanceIO.load` (90-110). -/
def loadInst (ver : String) (dt : String → List Val → Option Atom) (types : List (String × Comp))
    (known : List (String × Inst)) (s : StoredInst) : Except Err Inst :=
  match load ver dt s.own with
  | .error e => .error e
  | .ok own =>
    match types.lookup s.type with
    | .none => .error .valueError
    | some type =>
      match resolve known s.atRef with
      | .error e => .error e
      | .ok atRef =>
        match resolve known s.rotRef with
        | .error e => .error e
        | .ok rotRef => .ok (.mk s.name type atRef rotRef own true)

/-- The loop over the instances (147-150); what is added last to `known` is found first. -/
def loadInsts (ver : String) (dt : String → List Val → Option Atom) (types : List (String × Comp)) :
    List (String × Inst) → List StoredInst → Except Err (List Inst)
  | _, [] => .ok []
  | known, s :: l =>
    match loadInst ver dt types known s with
    | .error e => .error e
    | .ok i =>
      match loadInsts ver dt types ((i.name, i) :: known) l with
      | .error e => .error e
      | .ok r => .ok (i :: r)

/-- The dictionary of component types (139), of which the last of a name counts. -/
def loadTypes (ver : String) (dt : String → List Val → Option Atom) (types : List (String × Node)) :
    Except Err (List (String × Comp)) :=
  match allOk (types.map fun p => load ver dt p.2) with
  | .error e => .error e
  | .ok bodies => .ok ((types.map (·.1)).zipWith (fun n b => (n, { name := n, body := b })) bodies).reverse

/-- `instances[name]` (172). -/
def member (known : List (String × Inst)) (n : String) : Except Err Inst :=
  match known.lookup n with
  | .none => .error .keyError
  | some i => .ok i

/-- `GroupIO.load` (169-174). -/
def loadGroup (known : List (String × Inst)) (p : String × StoredGroup) : Except Err (String × Group) :=
  match allOk (p.2.members.map (member known)) with
  | .error e => .error e
  | .ok members => .ok (p.1, { name := p.2.name, index := p.2.index, ids := p.2.ids, members })

/-- `InstrIO.load` (135-152). The groups are a dictionary, so they come in the order of their names. -/
def loadInstr (ver : String) (dt : String → List Val → Option Atom) (f : File) : Except Err Instrument :=
  match load ver dt f.own with
  | .error e => .error e
  | .ok own =>
    match loadTypes ver dt f.types with
    | .error e => .error e
    | .ok types =>
      match loadInsts ver dt types [] f.instances with
      | .error e => .error e
      | .ok components =>
        match allOk ((f.groups.insertionSort fun a b => a.1 ≤ b.1).map
            (loadGroup (components.reverse.map fun i => (i.name, i)))) with
        | .error e => .error e
        | .ok groups => .ok { own, components, groups }

/-! ### What is loaded -/

/-- A value that is stored and has its dictionaries, if any, in order. -/
def Plain (dt : String → List Val → Option Atom) (v : Val) : Prop := Supported dt v ∧ norm v = v

/-- `i` may come after `before`: its references are among them. -/
def Fits (dt : String → List Val → Option Atom) (before : List Inst) (i : Inst) : Prop :=
  i.name ∉ before.map Inst.name ∧ Plain dt i.own ∧ Plain dt i.type.body ∧ i.normal = true ∧
    (∀ r, i.atRef = some r → r ∈ before) ∧ ∀ r, i.rotRef = some r → r ∈ before

theorem lookup_known {l : List Inst} (hn : (l.map Inst.name).Nodup) {i : Inst} (hi : i ∈ l) :
    (l.map fun i => (i.name, i)).lookup i.name = some i := by
  have : (l.map fun i => (i.name, i)) = (l.map Inst.name).zip l := by
    rw [List.zip_map_left]
    induction l with
    | nil => rfl
    | cons a l ih =>
      rw [List.map_cons, List.zip_cons_cons, List.map_cons]
      by_cases h : i ∈ l
      · rw [ih (List.nodup_cons.mp hn).2 h]
        rfl
      · congr 1
        clear ih hn hi h
        induction l with
        | nil => rfl
        | cons b l ih => rw [List.map_cons, List.zip_cons_cons, List.map_cons, ih]; rfl
  rw [this]
  refine lookup_zip (p := (i.name, i)) hn ?_
  rw [← this]
  exact List.mem_map.mpr ⟨i, hi, rfl⟩

theorem resolve_known {l : List Inst} (hn : (l.map Inst.name).Nodup) (r : Option Inst) (h : ∀ i, r = some i → i ∈ l) :
    resolve (l.map fun i => (i.name, i)) (r.map Inst.name) = .ok r := by
  cases r with
  | none => rfl
  | some i => rw [Option.map_some, resolve, lookup_known hn (h i rfl)]

/-- The components of an instrument each of which refers to earlier ones. -/
def AllFit (dt : String → List Val → Option Atom) : List Inst → List Inst → Prop
  | _, [] => True
  | before, i :: l => Fits dt before i ∧ AllFit dt (i :: before) l

theorem loadInsts_eq {ver : String} {dt : String → List Val → Option Atom} {types : List (String × Comp)} :
    ∀ (l before : List Inst), (before.map Inst.name).Nodup → AllFit dt before l →
      (∀ i ∈ l, types.lookup i.type.name = some i.type) →
      ∃ stored, l.map (saveInst ver) = stored.map .ok ∧
        loadInsts ver dt types (before.map fun i => (i.name, i)) stored = .ok l ∧
        ((l.reverse ++ before).map Inst.name).Nodup
  | [], before, hn, _, _ => ⟨[], rfl, rfl, hn⟩
  | i :: l, before, hn, hfit, ht => by
    obtain ⟨⟨hname, hown, _, hmode, hat, hrot⟩, hl⟩ := hfit
    obtain ⟨node, hs, hlo⟩ := saved_is_loaded ver dt i.own hown.1
    rw [hown.2] at hlo
    obtain ⟨stored, h1, h2, h3⟩ := loadInsts_eq (ver := ver) (types := types) l (i :: before)
      (by rw [List.map_cons, List.nodup_cons]; exact ⟨hname, hn⟩) hl fun j hj => ht j (List.mem_cons_of_mem _ hj)
    refine ⟨{ name := i.name, type := i.type.name, atRef := i.atRef.map Inst.name, rotRef := i.rotRef.map Inst.name,
              own := node } :: stored, ?_, ?_, ?_⟩
    · rw [List.map_cons, List.map_cons, h1, saveInst, hs]
    · rw [loadInsts, loadInst]
      simp only
      rw [hlo]
      simp only
      rw [ht i List.mem_cons_self]
      simp only
      rw [resolve_known hn _ hat]
      simp only
      rw [resolve_known hn _ hrot]
      simp only
      have hi : Inst.mk i.name i.type i.atRef i.rotRef i.own true = i := by
        cases i
        simp only [Inst.normal] at hmode
        simp [Inst.name, Inst.type, Inst.atRef, Inst.rotRef, Inst.own, hmode]
      rw [hi]
      rw [List.map_cons] at h2
      rw [h2]
    · simpa using h3

theorem loadTypes_eq {ver : String} {dt : String → List Val → Option Atom} : ∀ l : List Comp,
    (∀ c ∈ l, Plain dt c.body) →
      ∃ stored, l.map (saveType ver) = stored.map .ok ∧
        loadTypes ver dt stored = .ok ((l.map fun c => (c.name, c)).reverse)
  | [], _ => ⟨[], rfl, rfl⟩
  | c :: l, h => by
    obtain ⟨stored, h1, h2⟩ := loadTypes_eq (ver := ver) l fun d hd => h d (List.mem_cons_of_mem _ hd)
    obtain ⟨hc, hcn⟩ := h c List.mem_cons_self
    obtain ⟨node, hs, hlo⟩ := saved_is_loaded ver dt c.body hc
    rw [hcn] at hlo
    refine ⟨(c.name, node) :: stored, ?_, ?_⟩
    · rw [List.map_cons, List.map_cons, h1, saveType, hs]
    · rw [loadTypes] at h2 ⊢
      rw [List.map_cons, hlo, allOk]
      cases hb : allOk (stored.map fun p => load ver dt p.2) with
      | error e => rw [hb] at h2; cases h2
      | ok bodies =>
        rw [hb] at h2
        simp only [Except.ok.injEq] at h2
        simp only [List.map_cons, List.zipWith_cons_cons, List.reverse_cons, h2]

theorem type_found {l : List Comp} (h : ∀ c ∈ l, ∀ d ∈ l, c.name = d.name → c = d) {c : Comp} (hc : c ∈ l) :
    (l.map fun c => (c.name, c)).reverse.lookup c.name = some c := by
  rw [← List.map_reverse]
  have h' : ∀ d ∈ l.reverse, c.name = d.name → c = d := fun d hd => h c hc d (List.mem_reverse.mp hd)
  have hc' : c ∈ l.reverse := List.mem_reverse.mpr hc
  generalize l.reverse = m at h' hc'
  induction m with
  | nil => cases hc'
  | cons d m ih =>
    rw [List.map_cons, List.lookup]
    by_cases hd : c.name = d.name
    · rw [← h' d List.mem_cons_self hd]
      simp
    · rw [beq_false_of_ne hd]
      refine ih (fun x hx => h' x (List.mem_cons_of_mem _ hx)) ?_
      rcases List.mem_cons.mp hc' with rfl | hm
      · exact absurd rfl hd
      · exact hm

/-- C42 for instruments: an instrument whose components have different names and refer to earlier components, whose component
types have different names, and whose groups are of its components, is saved and loaded again; the groups are in the
order of their names. -/
theorem instrument_again_partial (ver : String) (dt : String → List Val → Option Atom) (i : Instrument)
    (hown : Plain dt i.own) (hfit : AllFit dt [] i.components)
    (htypes : ∀ c ∈ i.components, ∀ d ∈ i.components, c.type.name = d.type.name → c.type = d.type)
    (hgroups : ∀ p ∈ i.groups, ∀ m ∈ p.2.members, m ∈ i.components) :
    ∃ f, saveInstr ver i = .ok f ∧
      loadInstr ver dt f = .ok { i with groups := i.groups.insertionSort fun a b => a.1 ≤ b.1 } := by
  obtain ⟨node, hs, hlo⟩ := saved_is_loaded ver dt i.own hown.1
  rw [hown.2] at hlo
  have hplain : ∀ (before l : List Inst), AllFit dt before l → ∀ c ∈ l, Plain dt c.type.body := by
    intro before l
    induction l generalizing before with
    | nil => intro _ c hc; cases hc
    | cons a l ih =>
      intro h c hc
      rcases List.mem_cons.mp hc with rfl | hc
      · exact h.1.2.2.1
      · exact ih _ h.2 c hc
  obtain ⟨types, ht1, ht2⟩ := loadTypes_eq (ver := ver) (dt := dt) (i.components.map Inst.type) (by
    intro c hc
    obtain ⟨x, hx, rfl⟩ := List.mem_map.mp hc
    exact hplain _ _ hfit x hx)
  rw [List.map_map] at ht1
  have htl : ∀ c ∈ i.components, (((i.components.map Inst.type).map fun c => (c.name, c)).reverse).lookup c.type.name =
      some c.type := by
    intro c hc
    refine type_found ?_ (List.mem_map.mpr ⟨c, hc, rfl⟩)
    intro a ha b hb hab
    obtain ⟨x, hx, rfl⟩ := List.mem_map.mp ha
    obtain ⟨y, hy, rfl⟩ := List.mem_map.mp hb
    exact htypes x hx y hy hab
  obtain ⟨stored, h1, h2, h3⟩ := loadInsts_eq (ver := ver) i.components [] (by simp) hfit htl
  refine ⟨{ own := node, types, instances := stored, groups := i.groups.map fun p => (p.1, saveGroup p.2) }, ?_, ?_⟩
  · rw [saveInstr, hs]
    simp only
    rw [h1, allOk_map]
    simp only
    rw [show (i.components.map fun c => saveType ver c.type) = types.map .ok from ht1, allOk_map]
  · rw [loadInstr]
    simp only
    rw [hlo]
    simp only
    rw [ht2]
    simp only
    rw [List.map_nil] at h2
    rw [h2]
    simp only
    have hg : ((i.groups.map fun p => (p.1, saveGroup p.2)).insertionSort fun a b => a.1 ≤ b.1).map
        (loadGroup (i.components.reverse.map fun i => (i.name, i))) =
        (i.groups.insertionSort fun a b => a.1 ≤ b.1).map .ok := by
      rw [insertionSort_map, List.map_map]
      refine List.map_congr_left ?_
      rintro ⟨n, g⟩ hp
      have hp' := (List.perm_insertionSort _ _).mem_iff.mp hp
      have hm : (g.members.map Inst.name).map (member (i.components.reverse.map fun i => (i.name, i))) =
          g.members.map .ok := by
        rw [List.map_map]
        refine List.map_congr_left ?_
        intro m hm
        have := hgroups _ hp' m hm
        simp only [Function.comp, member]
        rw [lookup_known (by simpa using h3) (List.mem_reverse.mpr this)]
      simp only [Function.comp, loadGroup, saveGroup]
      rw [hm, allOk_map]
    rw [hg, allOk_map]

/-! ### Negations -/

def slit : Comp := { name := "Slit", body := .atom (.int 1) }

def first : Inst := .mk "first" slit none none (.atom (.int 0)) true

def second : Inst := .mk "second" slit (some first) (some first) (.atom (.int 0)) true

def exampleInstr : Instrument where
  own := .atom (.str "x")
  components := [first, second]
  groups := [("g", { name := "g", index := 0, ids := [0, 1], members := [first, second] })]

/-- The hypotheses of `instrument_again_partial` hold for two slits in a group, the second placed relative to the first. -/
example (dt : String → List Val → Option Atom) : Plain dt exampleInstr.own ∧ AllFit dt [] exampleInstr.components ∧
    (∀ c ∈ exampleInstr.components, ∀ d ∈ exampleInstr.components, c.type.name = d.type.name → c.type = d.type) ∧
    ∀ p ∈ exampleInstr.groups, ∀ m ∈ p.2.members, m ∈ exampleInstr.components := by
  have h0 : Plain dt (.atom (.int 0)) := ⟨by rw [Supported]; decide, rfl⟩
  have h1 : Plain dt (.atom (.int 1)) := ⟨by rw [Supported]; decide, rfl⟩
  refine ⟨⟨by rw [exampleInstr, Supported]; rfl, rfl⟩, ⟨⟨by simp, h0, h1, rfl, ?_, ?_⟩, ⟨?_, h0, h1, rfl, ?_, ?_⟩, trivial⟩,
    ?_, ?_⟩
  · intro r hr; cases hr
  · intro r hr; cases hr
  · simp [first, second, Inst.name]
  · intro r hr; simp [second, Inst.atRef] at hr; simp [hr]
  · intro r hr; simp [second, Inst.rotRef] at hr; simp [hr]
  · intro c hc d hd _
    simp [exampleInstr] at hc hd
    rcases hc with rfl | rfl <;> rcases hd with rfl | rfl <;> rfl
  · intro p hp m hm
    simp [exampleInstr] at hp
    subst hp
    simpa [exampleInstr] using hm

/-- Negation of C42: an instrument whose first component refers to any instance at all, such as the second part of a split
instrument (C24), is saved but loading it raises. -/
theorem outside_reference_raises (ver : String) (dt : String → List Val → Option Atom) (own : Val) (i o : Inst)
    (l : List Inst) (hr : i.atRef = some o) (f : File) (h : saveInstr ver { own, components := i :: l, groups := [] } = .ok f) :
    ∃ e, loadInstr ver dt f = .error e := by
  rw [saveInstr] at h
  split at h
  · cases h
  · split at h
    · cases h
    · rename_i node hs stored hst
      split at h
      · cases h
      · rename_i types hty
        simp only [Except.ok.injEq] at h
        subst h
        rw [loadInstr]
        simp only
        split
        · exact ⟨_, rfl⟩
        · split
          · exact ⟨_, rfl⟩
          · split
            · exact ⟨_, rfl⟩
            · rename_i comps hc
              exfalso
              cases hi : save ver i.own with
              | error e =>
                rw [List.map_cons, saveInst, hi, allOk] at hst
                cases hst
              | ok node =>
                rw [List.map_cons, saveInst, hi] at hst
                simp only [allOk] at hst
                split at hst
                · cases hst
                · simp only [Except.ok.injEq] at hst
                  subst hst
                  rw [loadInsts, loadInst] at hc
                  simp only [hr, Option.map_some, resolve, List.lookup] at hc
                  cases hl : load ver dt node with
                  | error e => simp [hl] at hc
                  | ok v =>
                    simp only [hl] at hc
                    split at hc
                    · cases hc
                    · rename_i hc'
                      split at hc' <;> cases hc'

/-- Negation of C42: of two component types with the same name in one instrument only the last is kept. -/
theorem types_of_one_name_confused (ver : String) (dt : String → List Val → Option Atom) (x y z : Atom)
    (hx : x.storable = true) (hy : y.storable = true) (hz : z.storable = true) :
    ∃ f, saveInstr ver { own := .atom z, groups := [], components :=
          [.mk "a" { name := "Slit", body := .atom x } none none (.atom z) true,
            .mk "b" { name := "Slit", body := .atom y } none none (.atom z) true] } = .ok f ∧
      loadInstr ver dt f = .ok { own := .atom z, groups := [], components :=
          [.mk "a" { name := "Slit", body := .atom y } none none (.atom z) true,
            .mk "b" { name := "Slit", body := .atom y } none none (.atom z) true] } := by
  have h : ∀ a : Atom, load ver dt (.mk (some (ver, a.type)) [] (some a) [] []) = .ok (.atom a) := by
    intro a
    cases a <;> simp [load, loadNode, Atom.type]
  refine ⟨{ own := .mk (some (ver, z.type)) [] (some z) [] [], groups := [],
            types := [("Slit", .mk (some (ver, x.type)) [] (some x) [] []), ("Slit", .mk (some (ver, y.type)) [] (some y) [] [])],
            instances := [
              { name := "a", type := "Slit", atRef := none, rotRef := none, own := .mk (some (ver, z.type)) [] (some z) [] [] },
              { name := "b", type := "Slit", atRef := none, rotRef := none,
                own := .mk (some (ver, z.type)) [] (some z) [] [] }] }, ?_, ?_⟩
  · simp [saveInstr, saveInst, saveType, save, hx, hy, hz, allOk, Inst.own, Inst.type, Inst.name, Inst.atRef, Inst.rotRef]
  simp [loadInstr, loadInsts, loadInst, loadTypes, allOk, h, resolve, Inst.name, Inst.atRef, Inst.rotRef, List.lookup]

/-- Negation of C42: the `mode` of a component is not saved. -/
theorem mode_lost (ver : String) (dt : String → List Val → Option Atom) (x : Atom) (hx : x.storable = true) (normal : Bool) :
    ∃ f, saveInstr ver { own := .atom x, groups := [], components :=
          [.mk "a" { name := "Slit", body := .atom x } none none (.atom x) normal] } = .ok f ∧
      loadInstr ver dt f = .ok { own := .atom x, groups := [], components :=
          [.mk "a" { name := "Slit", body := .atom x } none none (.atom x) true] } := by
  have h : ∀ a : Atom, load ver dt (.mk (some (ver, a.type)) [] (some a) [] []) = .ok (.atom a) := by
    intro a
    cases a <;> simp [load, loadNode, Atom.type]
  refine ⟨{ own := .mk (some (ver, x.type)) [] (some x) [] [], groups := [],
            types := [("Slit", .mk (some (ver, x.type)) [] (some x) [] [])],
            instances := [
              { name := "a", type := "Slit", atRef := none, rotRef := none,
                own := .mk (some (ver, x.type)) [] (some x) [] [] }] }, ?_, ?_⟩
  · simp [saveInstr, saveInst, saveType, save, hx, allOk, Inst.own, Inst.type, Inst.name, Inst.atRef, Inst.rotRef]
  simp [loadInstr, loadInsts, loadInst, loadTypes, allOk, h, resolve, Inst.name, Inst.atRef, Inst.rotRef, List.lookup]

end Verif.Hdf5
