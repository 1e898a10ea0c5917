import Verif.Particle.Model
import Verif.CDecl.UserVars

/-! Properties C80-C82: particle members and components found by name. -/

namespace Verif.Particle

open Verif.CDecl

variable {R : Type}

theorem put_same (p : Part R) (n : String) (c : Cell R) : put p n c n = c := by simp [put]

theorem put_ne (p : Part R) {n m : String} (c : Cell R) (h : m ≠ n) : put p n c m = p m := by simp [put, h]

/-- The built-in members which can be read and written by name, spelled out. -/
def Named (mcstas : Bool) : List String :=
  match mcstas with
  | true => ["x", "y", "z", "vx", "vy", "vz", "sx", "sy", "sz", "t", "p", "_mctmp_a", "_mctmp_b", "_mctmp_c"]
  | false => ["x", "y", "z", "kx", "ky", "kz", "phi", "Ex", "Ey", "Ez", "t", "p", "_mctmp_a", "_mctmp_b", "_mctmp_c"]

theorem accessible_eq (mcstas : Bool) : accessible mcstas = Named mcstas := by
  cases mcstas <;> decide

/-- The members of which the state of a particle consists, spelled out. -/
def Physical (mcstas : Bool) : List String :=
  match mcstas with
  | true => ["x", "y", "z", "vx", "vy", "vz", "sx", "sy", "sz", "t", "p"]
  | false => ["x", "y", "z", "kx", "ky", "kz", "phi", "Ex", "Ey", "Ez", "t", "p"]

theorem restorable_eq (mcstas : Bool) : restorable mcstas = Physical mcstas := by
  cases mcstas <;> decide

/-- A declaration of an array, or of a function pointer in an array. -/
inductive ArrayDecl : Decl → Prop
  | plain (a : Attr) (n : String) (h : a.elements ≠ none) : ArrayDecl (.plain a n)
  | outer (a : Attr) (d : Decl) (m s : Option String) (h : a.elements ≠ none) : ArrayDecl (.func a d m s)
  | inner (a : Attr) (d : Decl) (m s : Option String) (h : ArrayDecl d) : ArrayDecl (.func a d m s)

/-- A declaration of a pointer: something other than blanks is written there. -/
def PointerDecl (d : Decl) : Prop := ∃ s c, d.attr.pointer = some s ∧ c ∈ s.toList ∧ c ≠ ' '

theorem isArray_iff (d : Decl) : isArray d = true ↔ ArrayDecl d := by
  induction d with
  | plain a n =>
    simp only [isArray, Option.isSome_iff_ne_none]
    exact ⟨fun h => .plain a n h, fun h => by cases h; assumption⟩
  | func a d m s ih =>
    simp only [isArray, Bool.or_eq_true, ih, Option.isSome_iff_ne_none]
    constructor
    · rintro (h | h)
      · exact .outer a d m s h
      · exact .inner a d m s h
    · intro h
      cases h with
      | outer _ _ _ _ h => exact Or.inl h
      | inner _ _ _ _ h => exact Or.inr h

theorem isPointer_iff (d : Decl) : isPointer d = true ↔ PointerDecl d := by
  have ha : attrOf d = d.attr := by cases d <;> rfl
  cases hp : d.attr.pointer with
  | none => simp [isPointer, ha, PointerDecl, hp]
  | some s => simp [isPointer, ha, PointerDecl, hp]

theorem isArray_false (d : Decl) : isArray d = false ↔ ¬ ArrayDecl d := by
  rw [← isArray_iff]; simp

theorem isPointer_false (d : Decl) : isPointer d = false ↔ ¬ PointerDecl d := by
  rw [← isPointer_iff]; simp

/-! ### C80: reading and writing by name -/

theorem get_loop [Zero R] (p : Part R) (name : String) (l : List String) (a : Option (Int × R)) :
    l.foldl (fun acc x => acc.bind fun a => if x = name then (p x).asDouble.map fun r => ((0 : Int), r) else some a) a =
      if name ∈ l then a.bind fun _ => (p name).asDouble.map fun r => (0, r) else a := by
  induction l generalizing a with
  | nil => simp
  | cons x l ih =>
    rw [List.foldl_cons, ih]
    by_cases hx : x = name
    · subst hx
      cases a with
      | none => simp
      | some a => cases hc : (p x).asDouble <;> simp
    · have hx' : ¬ name = x := fun h => hx h.symm
      cases a <;> simp [hx, hx']

theorem asDouble_iff (c : Cell R) (r : R) : c.asDouble = some r ↔ c = .double r := by
  cases c <;> simp [Cell.asDouble]

/-- C80, part 1: `particle_getvar` tells the number held by a member, and that it has, exactly for the built-in members and
the user variables of type `double`; it gives 0 and tells that it has not exactly if there is no such member. -/
theorem read_by_name_iff [Zero R] (mcstas : Bool) (uv : List Decl) (p : Part R) (name : String) (s : Int) (r : R) :
    getvar mcstas uv p name = some (s, r) ↔
      ((name ∈ Named mcstas ∨ ∃ d ∈ uv, d.name = name) ∧ p name = .double r ∧ s = 0) ∨
      (¬ (name ∈ Named mcstas ∨ ∃ d ∈ uv, d.name = name) ∧ r = 0 ∧ s = 1) := by
  have hm : name ∈ getLines mcstas uv ↔ (name ∈ Named mcstas ∨ ∃ d ∈ uv, d.name = name) := by
    simp [getLines, accessible_eq]
  rw [getvar, get_loop]
  simp only [hm]
  split_ifs with h
  · rw [Option.bind_some, Option.map_eq_some_iff]
    constructor
    · rintro ⟨q, hq, he⟩
      cases he
      exact Or.inl ⟨h, (asDouble_iff _ _).mp hq, rfl⟩
    · rintro (⟨-, hp, rfl⟩ | ⟨h', -⟩)
      · exact ⟨r, (asDouble_iff _ _).mpr hp, rfl⟩
      · exact absurd h h'
  · constructor
    · intro he
      cases he
      exact Or.inr ⟨h, rfl, rfl⟩
    · rintro (⟨h', -⟩ | ⟨-, rfl, rfl⟩)
      · exact absurd h' h
      · rfl

example : getvar (R := Int) true [scalar] (fun n => if n = "x" then .double 7 else .double 2) "x" = some (0, 7) ∧
    getvar (R := Int) true [scalar] (fun _ => .double 2) "_index" = some (1, 0) := by decide +kernel

/-- C80, part 2: a pointer given for a name points to the member of this name, and there is one for the same names. -/
theorem pointer_by_name (mcstas : Bool) (uv : List Decl) (name : String) :
    (name ∈ Named mcstas ∨ (∃ d ∈ uv, d.name = name) → getvarVoid mcstas uv name = (0, some name)) ∧
    (¬ (name ∈ Named mcstas ∨ ∃ d ∈ uv, d.name = name) → getvarVoid mcstas uv name = (1, none)) ∧
    ((∃ d ∈ uv, d.name = name) → getParticleVar uv name = some name) ∧
    ((¬ ∃ d ∈ uv, d.name = name) → getParticleVar uv name = none) := by
  have hm : name ∈ getLines mcstas uv ↔ (name ∈ Named mcstas ∨ ∃ d ∈ uv, d.name = name) := by
    simp [getLines, accessible_eq]
  have key : ∀ (l : List String) (a : Int × Option String),
      l.foldl (fun acc x => if x = name then ((0 : Int), some x) else acc) a =
        if name ∈ l then (0, some name) else a := by
    intro l
    induction l with
    | nil => simp
    | cons x l ih =>
      intro a
      rw [List.foldl_cons, ih]
      by_cases hx : x = name
      · subst hx; simp
      · have hx' : ¬ name = x := fun h => hx h.symm
        simp [hx, hx']
  refine ⟨fun h => ?_, fun h => ?_, fun h => ?_, fun h => ?_⟩
  · rw [getvarVoid, key, if_pos (hm.mpr h)]
  · rw [getvarVoid, key, if_neg (fun h' => h (hm.mp h'))]
  · obtain ⟨d, hd, hn⟩ := h
    have : (uv.find? fun d => d.name = name).isSome := by
      rw [List.find?_isSome]
      exact ⟨d, hd, by simpa using hn⟩
    obtain ⟨e, he⟩ := Option.isSome_iff_exists.mp this
    have hne := List.find?_some he
    simp only [decide_eq_true_eq] at hne
    simp [getParticleVar, he, hne]
  · have : (uv.find? fun d => d.name = name) = none := by
      rw [List.find?_eq_none]
      intro d hd
      simp only [decide_eq_true_eq]
      exact fun hn => h ⟨d, hd, hn⟩
    simp [getParticleVar, this]

example : getvarVoid false [scalar] "phi" = (0, some "phi") ∧ getParticleVar [scalar] "phi" = none := by decide

theorem set_loop (name : String) (value : Cell R) (l : List (String × String)) (s : Int) (p : Part R) :
    l.foldl (fun acc (l : String × String) => acc.bind fun a =>
        if l.1 = name then (if value.hasType l.2 then some ((0 : Int), put a.2 l.1 value) else none) else some a)
      (some (s, p)) =
      if ∃ y ∈ l, y.1 = name then
        (if ∀ y ∈ l, y.1 = name → value.hasType y.2 = true then some (0, put p name value) else none)
      else some (s, p) := by
  have hnone : ∀ (l : List (String × String)), l.foldl (fun acc (l : String × String) => acc.bind fun a =>
        if l.1 = name then (if value.hasType l.2 then some ((0 : Int), put a.2 l.1 value) else none) else some a)
      (none : Option (Int × Part R)) = none := by
    intro l
    induction l with
    | nil => rfl
    | cons x l ih => rw [List.foldl_cons]; exact ih
  induction l generalizing s p with
  | nil => simp
  | cons x l ih =>
    rw [List.foldl_cons, Option.bind_some]
    by_cases hx : x.1 = name
    · rw [if_pos hx]
      by_cases ht : value.hasType x.2 = true
      · rw [if_pos ht, ih]
        have hput : put (put p x.1 value) name value = put p name value := by
          funext n; simp only [put, hx]; split_ifs <;> rfl
        rw [hput]
        have hc : (∀ y ∈ x :: l, y.1 = name → value.hasType y.2 = true) ↔
            ∀ y ∈ l, y.1 = name → value.hasType y.2 = true := by simp [ht]
        rw [if_pos (⟨x, List.mem_cons_self, hx⟩ : ∃ y ∈ x :: l, y.1 = name)]
        simp only [hc]
        split_ifs with h1 h2 h2
        · rfl
        · rfl
        · rw [hx]
        · exact absurd (fun y hy hn => absurd ⟨y, hy, hn⟩ h1) h2
      · rw [if_neg ht, hnone]
        simp [hx, ht]
    · rw [if_neg hx, ih]
      simp only [List.exists_mem_cons_iff, List.forall_mem_cons, hx, false_or, false_implies, true_and]

/-- The types of the members which can be written by name. -/
def Writable (mcstas : Bool) (uv : List Decl) (name type : String) : Prop :=
  (name ∈ Named mcstas ∧ type = "double") ∨ ∃ d ∈ uv, ¬ ArrayDecl d ∧ ¬ PointerDecl d ∧ d.name = name ∧ dtype d = type

theorem mem_setLines (mcstas : Bool) (uv : List Decl) (y : String × String) :
    y ∈ setLines mcstas uv ↔ Writable mcstas uv y.1 y.2 := by
  obtain ⟨n, t⟩ := y
  simp only [setLines, accessible_eq, Writable, List.mem_append, List.mem_map, List.mem_filter, Bool.and_eq_true,
    Bool.not_eq_true', Prod.mk.injEq]
  constructor
  · rintro (⟨a, ha, rfl, rfl⟩ | ⟨d, ⟨hd, h1, h2⟩, rfl, rfl⟩)
    · exact Or.inl ⟨ha, rfl⟩
    · exact Or.inr ⟨d, hd, (isArray_false d).mp h1, (isPointer_false d).mp h2, rfl, rfl⟩
  · rintro (⟨ha, rfl⟩ | ⟨d, hd, h1, h2, rfl, rfl⟩)
    · exact Or.inl ⟨n, ha, rfl, rfl⟩
    · exact Or.inr ⟨d, ⟨hd, (isArray_false d).mpr h1, (isPointer_false d).mpr h2⟩, rfl, rfl⟩

/-- C80, part 3: a value of the type of a member, a built-in one or a user variable which is neither array nor pointer, is
stored under its name, nothing else changes, and reading it by name gives it back.  If there is no such member nothing
changes and the program tells so. -/
theorem written_by_name [Zero R] (mcstas : Bool) (uv : List Decl) (p : Part R) (name : String) (value : Cell R) :
    (∀ type, Writable mcstas uv name type → (∀ t, Writable mcstas uv name t → t = type) → value.hasType type = true →
      ∃ q, setvar mcstas uv p name value = some (0, q) ∧ q name = value ∧ (∀ n, n ≠ name → q n = p n) ∧
        ∀ r, value = .double r → getvar mcstas uv q name = some (0, r)) ∧
    ((∀ t, ¬ Writable mcstas uv name t) → setvar mcstas uv p name value = some (1, p)) := by
  refine ⟨fun type hw hu ht => ⟨put p name value, ?_, put_same _ _ _, fun n hn => put_ne _ _ hn, ?_⟩, fun h => ?_⟩
  · rw [setvar, set_loop, if_pos ⟨(name, type), (mem_setLines _ _ _).mpr hw, rfl⟩, if_pos]
    rintro ⟨n, t⟩ hy rfl
    rw [hu t ((mem_setLines _ _ _).mp hy)]
    exact ht
  · rintro r rfl
    rw [read_by_name_iff]
    refine Or.inl ⟨?_, put_same _ _ _, rfl⟩
    rcases hw with ⟨h, -⟩ | ⟨d, hd, -, -, hn, -⟩
    · exact Or.inl h
    · exact Or.inr ⟨d, hd, hn⟩
  · rw [setvar, set_loop, if_neg]
    rintro ⟨y, hy, rfl⟩
    exact h _ ((mem_setLines _ _ _).mp hy)

example : ∀ t, Writable true [.plain { dtype := some "int" } "flag"] "flag" t ↔ t = "int" := by
  intro t
  have : "flag" ∉ Named true := by decide
  simp only [Writable, this, false_and, false_or, List.mem_singleton, exists_eq_left]
  exact ⟨fun h => h.2.2.2.symm, fun h => ⟨(isArray_false _).mp rfl, (isPointer_false _).mp rfl, rfl, h.symm⟩⟩

/-- C80, part 4: a user variable of type `double` is read by its number, in the order of the members. -/
theorem read_by_id_iff [Zero R] (uv : List Decl) (p : Part R) (id : Int) (s : Int) (r : R) :
    getById uv p id = some (s, r) ↔
      (∃ i d, (i : Nat) = id ∧ uv[i]? = some d ∧ p d.name = .double r ∧ s = 0) ∨
      ((∀ i : Nat, (i : Int) = id → uv[i]? = none) ∧ r = 0 ∧ s = 1) := by
  cases hf : (uv.zipIdx.find? fun c => decide ((c.2 : Int) = id)) with
  | none =>
    have hval : getById uv p id = some (1, 0) := by simp only [getById, hf]
    rw [List.find?_eq_none] at hf
    have hno : ∀ i : Nat, (i : Int) = id → uv[i]? = none := by
      intro i hi
      cases hd : uv[i]? with
      | none => rfl
      | some d => exact absurd (by simpa using hi) (hf (d, i) (List.mk_mem_zipIdx_iff_getElem?.mpr hd))
    rw [hval]
    constructor
    · intro h; cases h
      exact Or.inr ⟨hno, rfl, rfl⟩
    · rintro (⟨i, d, hi, hd, -⟩ | ⟨-, rfl, rfl⟩)
      · rw [hno i hi] at hd; cases hd
      · rfl
  | some c =>
    have hc := List.find?_some hf
    simp only [decide_eq_true_eq] at hc
    have hmem : uv[c.2]? = some c.1 := List.mk_mem_zipIdx_iff_getElem?.mp (List.mem_of_find?_eq_some hf)
    simp only [getById, hf, Option.map_eq_some_iff, asDouble_iff]
    constructor
    · rintro ⟨q, hq, he⟩
      cases he
      exact Or.inl ⟨c.2, c.1, hc, hmem, hq, rfl⟩
    · rintro (⟨i, d, hi, hd, hp, rfl⟩ | ⟨hno, -⟩)
      · have : i = c.2 := by omega
        subst this
        rw [hmem] at hd
        cases hd
        exact ⟨r, hp, rfl⟩
      · rw [hno c.2 hc] at hmem; cases hmem

example : getById (R := Int) [.plain { dtype := some "int" } "flag", scalar] (fun n => if n = "x" then .double 7 else .int 3) 1
    = some (0, 7) := by decide

/-- C80, where it fails: a user variable of another type, which is read as a `double` all the same. -/
theorem int_variable_not_read [Zero R] (mcstas : Bool) (uv : List Decl) (p : Part R) (d : Decl) (hd : d ∈ uv) (n : Int)
    (h : p d.name = .int n) (s : Int) (r : R) :
    getvar mcstas uv p d.name ≠ some (s, r) ∧ ∀ i : Nat, uv[i]? = some d → getById uv p i ≠ some (s, r) := by
  constructor
  · rw [Ne, read_by_name_iff]
    rintro (⟨-, hp, -⟩ | ⟨h', -⟩)
    · rw [h] at hp; cases hp
    · exact h' (Or.inr ⟨d, hd, rfl⟩)
  · intro i hi
    rw [Ne, read_by_id_iff]
    rintro (⟨j, e, hj, he, hp, -⟩ | ⟨hno, -⟩)
    · have : j = i := by omega
      subst this
      rw [hi] at he
      cases he
      rw [h] at hp; cases hp
    · rw [hno i rfl] at hi; cases hi

example : (Decl.plain { dtype := some "int" } "flag") ∈ [Decl.plain { dtype := some "int" } "flag"] ∧
    (fun _ => Cell.int 3 : Part Int) "flag" = .int 3 := by decide

/-- C80, where it fails: two or more values for an array, whose member has room for one; any value for a pointer. -/
theorem array_not_written (p : Part R) (d : Decl) (ha : ArrayDecl d ∨ PointerDecl d) (v w : Cell R)
    (vs : List (Cell R)) :
    setvarArray [d] p d.name (v :: w :: vs) = none ∧ (PointerDecl d → setvarArray [d] p d.name [v] = none) := by
  rw [← isArray_iff, ← isPointer_iff] at ha
  rw [← isPointer_iff]
  have hf : ([d].filter fun d => isArray d || isPointer d) = [d] := by
    rcases ha with h | h <;> simp [h]
  constructor
  · simp [setvarArray, hf]
  · intro hp
    simp [setvarArray, hf, hp]

example : ArrayDecl (arr 3) ∧ PointerDecl ptr := ⟨.plain _ _ (by simp), "*", '*', rfl, by decide, by decide⟩

/-- C80, where it fails: a user variable with the name of a built-in member which is not of type `double`; no value is of
both types. -/
theorem builtin_name_not_written (mcstas : Bool) (uv : List Decl) (p : Part R) (d : Decl) (hd : d ∈ uv)
    (hn : d.name ∈ Named mcstas) (h1 : ¬ ArrayDecl d) (h2 : ¬ PointerDecl d)
    (ht : dtype d ≠ "double" ∧ dtype d ≠ "MCNUM") (value : Cell R) :
    setvar mcstas uv p d.name value = none := by
  rw [setvar, set_loop, if_pos ⟨(d.name, "double"), (mem_setLines _ _ _).mpr (Or.inl ⟨hn, rfl⟩), rfl⟩, if_neg]
  intro h
  have ha := h (d.name, "double") ((mem_setLines _ _ _).mpr (Or.inl ⟨hn, rfl⟩)) rfl
  have hb := h (d.name, dtype d) ((mem_setLines _ _ _).mpr (Or.inr ⟨d, hd, h1, h2, rfl, rfl⟩)) rfl
  cases value with
  | double r => simp [Cell.hasType, ht.1, ht.2] at hb
  | int n => simp [Cell.hasType] at ha
  | pointer k => simp [Cell.hasType] at ha
  | other t k => simp [Cell.hasType] at ha

example : (Decl.plain { dtype := some "int" } "t").name ∈ Named true := by decide

/-! ### C81: restoring and starting a particle -/

theorem restore_loop (p0 : Part R) (l : List String) (p : Part R) (n : String) :
    l.foldl (fun q x => put q x (p0 x)) p n = if n ∈ l then p0 n else p n := by
  induction l generalizing p with
  | nil => simp
  | cons x l ih =>
    rw [List.foldl_cons, ih]
    by_cases h : n ∈ l
    · simp [h]
    · by_cases hx : n = x
      · subst hx; simp [put]
      · simp [h, hx, put]

/-- C81, part 1: restoring a particle gives it the state it had, clears its marks, and changes nothing else: user variables,
the random number state and the index are kept. -/
theorem restored (mcstas : Bool) (p p0 : Part R) (n : String) :
    restore mcstas p p0 n =
      if n ∈ Physical mcstas then p0 n else if n = "_absorbed" ∨ n = "_restore" then .int 0 else p n := by
  have hnot : "_absorbed" ∉ Physical mcstas ∧ "_restore" ∉ Physical mcstas := by cases mcstas <;> decide
  simp only [restore, put, restore_loop, restorable_eq]
  by_cases h1 : n = "_restore"
  · subst h1; simp [hnot]
  · by_cases h2 : n = "_absorbed"
    · subst h2; simp [hnot]
    · simp [h1, h2]

example : "randstate" ∉ Physical true ∧ "_mctmp_a" ∉ Physical true ∧ "vz" ∈ Physical true := by decide

/-- C81, part 2: a new particle starts at the origin, along z, at time 0 and with weight 1: each argument of the call is that
of the parameter at its place. -/
theorem started (mcstas : Bool) (i : Nat) (n : String) (h : (setstateMembers mcstas)[i]? = some n) :
    (n ∈ ["x", "y", "z", "vx", "vy", "sx", "sy", "sz", "kx", "ky", "phi", "Ex", "Ey", "Ez", "t"] →
      (setstateCall mcstas)[i]? = some "0") ∧
    (n ∈ ["vz", "kz", "p"] → (setstateCall mcstas)[i]? = some "1") ∧
    (n = "mcgravitation" → (setstateCall mcstas)[i]? = some "mcgravitation") ∧
    (n = "mcMagnet" → (setstateCall mcstas)[i]? = some "NULL") ∧
    (n = "allow_backprop" → (setstateCall mcstas)[i]? = some "mcallowbackprop") ∧
    (setstateCall mcstas).length = (setstateMembers mcstas).length ∧
    setstateMembers mcstas =
      (if mcstas then ["x", "y", "z", "vx", "vy", "vz", "t", "sx", "sy", "sz"]
        else ["x", "y", "z", "kx", "ky", "kz", "phi", "t", "Ex", "Ey", "Ez"]) ++
      ["p", "mcgravitation", "mcMagnet", "allow_backprop"] := by
  have hi : i < (setstateMembers mcstas).length := (List.getElem?_eq_some_iff.mp h).1
  have hlen : (setstateMembers mcstas).length ≤ 16 := by cases mcstas <;> decide
  have key : ∀ b : Bool, ∀ j < 16, ∀ n ∈ (setstateMembers b)[j]?,
    (n ∈ ["x", "y", "z", "vx", "vy", "sx", "sy", "sz", "kx", "ky", "phi", "Ex", "Ey", "Ez", "t"] →
      (setstateCall b)[j]? = some "0") ∧
    (n ∈ ["vz", "kz", "p"] → (setstateCall b)[j]? = some "1") ∧
    (n = "mcgravitation" → (setstateCall b)[j]? = some "mcgravitation") ∧
    (n = "mcMagnet" → (setstateCall b)[j]? = some "NULL") ∧
    (n = "allow_backprop" → (setstateCall b)[j]? = some "mcallowbackprop") := by decide +kernel
  obtain ⟨h1, h2, h3, h4, h5⟩ := key mcstas i (by omega) n h
  refine ⟨h1, h2, h3, h4, h5, by cases mcstas <;> decide, by cases mcstas <;> decide⟩

example : (setstateMembers true)[5]? = some "vz" := by decide

/-- C81, part 3: when a particle starts, the user variables of the types `double`, `MCNUM` and `int`, and those with an
initializer, have their initial value, which is 0 without initializer; nothing else is changed. -/
theorem variables_started_partial [Zero R] (conv : String → String → Cell R) (uv : List Decl)
    (hu : (uv.map (·.name)).Nodup) (p : Part R) :
    (∀ d ∈ uv, ¬ PointerDecl d → ¬ ArrayDecl d →
      (∀ e, (attrOf d).init = some e → uservarInit conv uv p d.name = conv (dtype d) e) ∧
      ((attrOf d).init = none → dtype d = "int" → uservarInit conv uv p d.name = .int 0) ∧
      ((attrOf d).init = none → dtype d = "double" ∨ dtype d = "MCNUM" → uservarInit conv uv p d.name = .double 0)) ∧
    ∀ n, (∀ d ∈ uv, d.name ≠ n) → uservarInit conv uv p n = p n := by
  have hkeep : ∀ (uv : List Decl) (p : Part R) (n : String), (∀ d ∈ uv, d.name ≠ n) → uservarInit conv uv p n = p n := by
    intro uv
    induction uv with
    | nil => intro p n _; rfl
    | cons x uv ih =>
      intro p n hn
      simp only [uservarInit, List.foldl_cons] at ih ⊢
      rw [ih _ _ fun d hd => hn d (List.mem_cons_of_mem _ hd)]
      split_ifs <;> first | rfl | exact put_ne _ _ (hn x List.mem_cons_self).symm
  refine ⟨fun d hd hp ha => ?_, hkeep uv p⟩
  rw [← isPointer_false] at hp
  rw [← isArray_false] at ha
  have hat : uservarInit conv uv p d.name = uservarInit conv [d] p d.name ∨
      ∃ q, uservarInit conv uv p d.name = uservarInit conv [d] q d.name := by
    refine Or.inr ?_
    clear hp ha
    induction uv generalizing p with
    | nil => cases hd
    | cons x uv ih =>
      rw [List.map_cons, List.nodup_cons] at hu
      have hstep : uservarInit conv (x :: uv) p = uservarInit conv uv (uservarInit conv [x] p) := rfl
      rw [hstep]
      rcases List.mem_cons.mp hd with rfl | hd
      · refine ⟨p, hkeep _ _ _ fun e he hn => hu.1 ?_⟩
        rw [← hn]
        exact List.mem_map_of_mem he
      · exact ih hu.2 _ hd
  have hone : ∃ q, uservarInit conv uv p d.name = uservarInit conv [d] q d.name := by
    rcases hat with h | h
    · exact ⟨p, h⟩
    · exact h
  obtain ⟨q, hq⟩ := hone
  refine ⟨fun e he => ?_, fun he ht => ?_, fun he ht => ?_⟩
  · rw [hq]; simp [uservarInit, he, hp, ha, put]
  · rw [hq]; simp [uservarInit, he, hp, ha, put, ht]
  · rw [hq]
    rcases ht with ht | ht <;> simp [uservarInit, he, hp, ha, put, ht]

example : ([scalar, .plain { dtype := some "int" } "flag"].map (·.name)).Nodup := by decide

/-- C81, where it fails: user variables of other types, pointers and arrays are not given any value. -/
theorem variable_not_started [Zero R] (conv : String → String → Cell R) (uv : List Decl)
    (hu : (uv.map (·.name)).Nodup) (p : Part R) (d : Decl) (hd : d ∈ uv)
    (h : PointerDecl d ∨ ArrayDecl d ∨
      ((attrOf d).init = none ∧ dtype d ≠ "double" ∧ dtype d ≠ "MCNUM" ∧ dtype d ≠ "int")) :
    uservarInit conv uv p d.name = p d.name := by
  rw [← isPointer_iff, ← isArray_iff] at h
  induction uv generalizing p with
  | nil => cases hd
  | cons x uv ih =>
    rw [List.map_cons, List.nodup_cons] at hu
    have hstep : uservarInit conv (x :: uv) p = uservarInit conv uv (uservarInit conv [x] p) := rfl
    rw [hstep]
    rcases List.mem_cons.mp hd with rfl | hd'
    · rw [(variables_started_partial conv uv hu.2 _).2 d.name fun e he hn => hu.1 (by rw [← hn]; exact List.mem_map_of_mem he)]
      have hskip : ((dtype d ≠ "double" && dtype d ≠ "MCNUM" && dtype d ≠ "int" && (attrOf d).init.isNone) ||
          isPointer d || isArray d) = true := by
        rcases h with h | h | ⟨h1, h2, h3, h4⟩
        · simp [h]
        · simp [h]
        · simp [h1, h2, h3, h4]
      simp only [uservarInit, List.foldl_cons, List.foldl_nil]
      rw [if_pos hskip]
    · rw [ih hu.2 _ hd']
      exact (variables_started_partial conv [x] (by simp) p).2 d.name fun e he hn => hu.1 (by
        rw [List.mem_singleton] at he
        subst he
        rw [hn]
        exact List.mem_map_of_mem hd')

example : dtype (.plain { dtype := some "long" } "count") ≠ "int" := by decide

/-! ### C82: components by name -/

theorem find_name (names : List String) (n : String) (k : Nat) :
    (names.zipIdx k).find? (fun c => decide (c.1 = n)) =
      if n ∈ names then some (n, k + names.idxOf n) else none := by
  induction names generalizing k with
  | nil => simp
  | cons x l ih =>
    rw [List.zipIdx_cons, List.find?_cons]
    by_cases hx : x = n
    · subst hx; simp
    · have hx' : ¬ n = x := fun h => hx h.symm
      simp only [hx, decide_false, ih, List.mem_cons, hx', false_or, List.idxOf_cons_ne _ hx]
      split_ifs
      · congr 2; omega
      · rfl

/-- C82, part 1: the index found for a name is that of the component with this name, counted from 1, as the components are
numbered when they are initialised; there is none exactly for other names. -/
theorem index_by_name_iff (names : List String) (hn : names.Nodup) (name : String) (i : Nat) :
    (compIndex names name = i + 1 ↔ names[i]? = some name) ∧ (compIndex names name = -1 ↔ name ∉ names) := by
  have hval : compIndex names name = if name ∈ names then 1 + (names.idxOf name : Int) else -1 := by
    rw [compIndex, find_name]
    split_ifs <;> simp
  rw [hval]
  split_ifs with h
  · refine ⟨⟨fun he => ?_, fun he => ?_⟩, ⟨fun he => by omega, fun he => absurd h he⟩⟩
    · have : names.idxOf name = i := by omega
      rw [← this, List.getElem?_eq_some_iff]
      exact ⟨List.idxOf_lt_length_iff.mpr h, List.getElem_idxOf _⟩
    · obtain ⟨hlt, he⟩ := List.getElem?_eq_some_iff.mp he
      have : names.idxOf name = i := by rw [← he]; exact hn.idxOf_getElem i hlt
      omega
  · refine ⟨⟨fun he => by omega, fun he => absurd (List.mem_of_getElem? he) h⟩, ⟨fun _ => h, fun _ => rfl⟩⟩

example : compIndex ["arm", "slit"] "slit" = 2 ∧ compIndex ["arm", "slit"] "Slit" = -1 := by decide

/-- C82, part 2: the parameters found for a name are those of the component with this name. -/
theorem parameters_by_name (names : List String) (name : String) :
    varParameters names name = if name ∈ names then some ("_" ++ name ++ "_var._parameters") else none := by
  by_cases h : name ∈ names
  · have : (names.find? fun n => decide (n = name)).isSome := by
      rw [List.find?_isSome]; exact ⟨name, h, by simp⟩
    obtain ⟨m, hm⟩ := Option.isSome_iff_exists.mp this
    have hmn := List.find?_some hm
    simp only [decide_eq_true_eq] at hmn
    simp [varParameters, hm, hmn, h]
  · have : (names.find? fun n => decide (n = name)) = none := by
      rw [List.find?_eq_none]; intro x hx; simp only [decide_eq_true_eq]; rintro rfl; exact h hx
    simp [varParameters, this, h]

example : varParameters ["arm", "slit"] "slit" = some "_slit_var._parameters" := by decide

theorem posA_index {V : Type} (names : List String) (hn : names.Nodup) (pos : List V) (j : Nat) (b : String)
    (hb : names[j]? = some b) : posA pos (compIndex names b) = pos[j]? := by
  rw [((index_by_name_iff names hn b j).1).mpr hb]
  rw [posA, if_neg (by omega)]
  simp

/-- C82, part 3: the distance of two components is that of their positions. -/
theorem distance_by_name {V : Type} (dist : V → V → R) (names : List String) (hn : names.Nodup) (pos : List V)
    (i j : Nat) (a b : String) (ha : names[i]? = some a) (hb : names[j]? = some b) (u v : V) (hu : pos[i]? = some u)
    (hv : pos[j]? = some v) : getdistance dist names pos a b = some (dist u v) := by
  simp [getdistance, indexDistance, posA_index names hn pos _ _ ha, posA_index names hn pos _ _ hb, hu, hv]

example : getdistance (fun u v : Int => ((u - v).natAbs : Int)) ["arm", "slit"] [1, 5] "slit" "arm" = some 4 := by decide

/-- C82, part 4: while component number `k` (from 0) is placed, the distance of two components before it is that of their
positions, which are known by then; for components which are not placed yet it is 0. -/
theorem distance_while_placing {V : Type} [Zero R] (dist : V → V → R) (names : List String) (hn : names.Nodup)
    (pos : List V) (k : Nat) (hk : pos.length = k) (i j : Nat) (a b : String) (ha : names[i]? = some a)
    (hb : names[j]? = some b) :
    (∀ u v, i < k → j < k → pos[i]? = some u → pos[j]? = some v →
      setposDistance dist names pos (k + 1) a b = some (dist u v)) ∧
    (i < k → j < k → ∃ r, setposDistance dist names pos (k + 1) a b = some r) ∧
    (k ≤ i ∨ k ≤ j → setposDistance dist names pos (k + 1) a b = some 0) := by
  have hi := ((index_by_name_iff names hn a i).1).mpr ha
  have hj := ((index_by_name_iff names hn b j).1).mpr hb
  have hc : i < k → j < k → ¬ (compIndex names a ≥ (k : Int) + 1 ∨ compIndex names b ≥ (k : Int) + 1) := by
    intro h1 h2; rw [hi, hj]; omega
  have hfirst : ∀ u v, i < k → j < k → pos[i]? = some u → pos[j]? = some v →
      setposDistance dist names pos (k + 1) a b = some (dist u v) := by
    intro u v h1 h2 hu hv
    rw [setposDistance, if_neg (hc h1 h2)]
    simp [indexDistance, posA_index names hn pos _ _ ha, posA_index names hn pos _ _ hb, hu, hv]
  refine ⟨hfirst, fun h1 h2 => ?_, fun h => ?_⟩
  · exact ⟨_, hfirst pos[i] pos[j] h1 h2 (List.getElem?_eq_getElem (by omega)) (List.getElem?_eq_getElem (by omega))⟩
  · rw [setposDistance, if_pos]
    rw [hi, hj]; omega

example : setposDistance (fun u v : Int => ((u - v).natAbs : Int)) ["a", "b", "c"] [1, 5] 3 "a" "b" = some 4 := by decide

/-- C82, where it fails: a name which is none of a component has the index -1; the test against the index of the current
component does not refuse it, and the program reads before the start of the array of positions. -/
theorem unknown_name_read {V : Type} [Zero R] (dist : V → V → R) (names : List String) (hn : names.Nodup) (pos : List V)
    (k : Nat) (a b : String) (ha : a ∉ names) :
    getdistance dist names pos a b = none ∧
    (∀ j < k, names[j]? = some b → setposDistance dist names pos (k + 1) a b = none) := by
  have hi := ((index_by_name_iff names hn a 0).2).mpr ha
  constructor
  · simp [getdistance, indexDistance, hi, posA]
  · intro j hj hb
    have hj' := ((index_by_name_iff names hn b j).1).mpr hb
    rw [setposDistance, if_neg]
    · simp [indexDistance, hi, posA]
    · rw [hi, hj']; omega

example : "armm" ∉ ["arm", "slit"] ∧ ["arm", "slit"][0]? = some "arm" := by decide

end Verif.Particle
