import Verif.Macros.Model
import Mathlib.Tactic.Push

/-! Lemmas about the macros known after lines of several shapes. -/

namespace Verif.Macros

theorem after_append (m : Table) (a b : List Line) : after m (a ++ b) = after (after m a) b := by
  simp [after, List.foldl_append]

theorem after_nil (m : Table) : after m [] = m := rfl

theorem after_cons (m : Table) (l : Line) (ls : List Line) : after m (l :: ls) = after (step m l) ls := rfl

theorem after_defines {α : Type} (l : List α) (n b : α → String) (hb : ∀ x ∈ l, ∀ y ∈ l, n x = n y → b x = b y)
    (m : Table) (k : String) :
    (∀ x ∈ l, n x = k → after m (l.map fun x => .define (n x) (b x)) k = some (b x)) ∧
      (k ∉ l.map n → after m (l.map fun x => .define (n x) (b x)) k = m k) := by
  induction l generalizing m with
  | nil => exact ⟨by simp, fun _ => rfl⟩
  | cons y l ih =>
    obtain ⟨h1, h2⟩ := ih (fun x hx z hz => hb x (by simp [hx]) z (by simp [hz])) (step m (.define (n y) (b y)))
    constructor
    · intro x hx hk
      rw [List.map_cons, after_cons]
      by_cases hl : k ∈ l.map n
      · obtain ⟨z, hz, hzk⟩ := List.mem_map.mp hl
        rw [h1 z hz hzk, hb z (by simp [hz]) x hx (hzk.trans hk.symm)]
      · rw [h2 hl]
        rcases List.mem_cons.mp hx with rfl | hx
        · simp [step, hk]
        · exact absurd (List.mem_map.mpr ⟨x, hx, hk⟩) hl
    · intro hk
      rw [List.map_cons, List.mem_cons, not_or] at hk
      rw [List.map_cons, after_cons, h2 hk.2]
      simp [step, hk.1]

theorem after_defines' (l : List String) (b : String → String) (m : Table) (k : String) :
    after m (l.map fun x => .define x (b x)) k = if k ∈ l then some (b k) else m k := by
  obtain ⟨h1, h2⟩ := after_defines l (fun x => x) b (by rintro x _ y _ rfl; rfl) m k
  split_ifs with h
  · exact h1 k h rfl
  · exact h2 (by simpa using h)

theorem after_undefs (l : List String) (m : Table) (k : String) :
    after m (l.map .undef) k = if k ∈ l then none else m k := by
  induction l generalizing m with
  | nil => rfl
  | cons y l ih =>
    rw [List.map_cons, after_cons, ih]
    by_cases h : k ∈ l
    · simp [h]
    · by_cases hy : k = y <;> simp [h, hy, step]

theorem after_codes {α : Type} (l : List α) (o t : α → String) (m : Table) :
    after m (l.map fun x => .code (o x) (t x)) = m := by
  induction l generalizing m with
  | nil => rfl
  | cons y l ih => rw [List.map_cons, after_cons]; exact ih m

/-- The lines leave a macro undefined if `T`, and as it was otherwise. -/
def ClearsAt (k : String) (ls : List Line) (T : Prop) : Prop :=
  ∀ m, (T → after m ls k = none) ∧ (¬T → after m ls k = m k)

theorem ClearsAt.append {k : String} {a b : List Line} {S T : Prop} (ha : ClearsAt k a S) (hb : ClearsAt k b T) :
    ClearsAt k (a ++ b) (S ∨ T) := by
  intro m
  rw [after_append]
  by_cases ht : T
  · exact ⟨fun _ => (hb _).1 ht, fun h => absurd (Or.inr ht) h⟩
  · refine ⟨fun h => ?_, fun h => ?_⟩
    · rw [(hb _).2 ht]
      exact (ha m).1 (h.resolve_right ht)
    · rw [(hb _).2 ht]
      exact (ha m).2 fun hs => h (.inl hs)

theorem ClearsAt.congr {k : String} {a : List Line} {S T : Prop} (ha : ClearsAt k a S) (h : S ↔ T) : ClearsAt k a T :=
  (propext h) ▸ ha

theorem ClearsAt.flatMap {α : Type} {k : String} {l : List α} {f : α → List Line} {T : α → Prop}
    (h : ∀ x, ClearsAt k (f x) (T x)) : ClearsAt k (l.flatMap f) (∃ x ∈ l, T x) := by
  induction l with
  | nil => intro m; exact ⟨by simp, fun _ => rfl⟩
  | cons x l ih =>
    rw [List.flatMap_cons]
    exact ((h x).append ih).congr (by simp)

theorem clears_block (names : List String) (b : String → String) (mid : List Line) (k : String) {T : Prop}
    (hm : ClearsAt k mid T) :
    ClearsAt k (names.map (fun n => .define n (b n)) ++ mid ++ names.map .undef) (k ∈ names ∨ T) := by
  intro m
  rw [after_append, after_append, after_undefs]
  split_ifs with h
  · exact ⟨fun _ => rfl, fun h' => absurd (Or.inl h) h'⟩
  · have := hm (after m (names.map fun n => .define n (b n)))
    refine ⟨fun h' => this.1 (h'.resolve_left h), fun h' => ?_⟩
    rw [this.2 fun ht => h' (.inr ht), after_defines', if_neg h]

theorem clears_codes {α : Type} (l : List α) (o t : α → String) (k : String) :
    ClearsAt k (l.map fun x => .code (o x) (t x)) False := by
  intro m
  rw [after_codes]
  exact ⟨fun h => h.elim, fun _ => rfl⟩

theorem clears_nil (k : String) : ClearsAt k [] False := fun _ => ⟨fun h => h.elim, fun _ => rfl⟩

theorem clears_class (blocks : CType → List String) (c : CType) (k : String) :
    ClearsAt k (classSection blocks c) (blocks c ≠ [] ∧ k ∈ c.names) := by
  rw [classSection]
  split_ifs with h
  · exact (clears_nil k).congr (by simp [List.length_eq_zero_iff.mp h])
  · have hne : blocks c ≠ [] := fun hb => h (by rw [hb]; rfl)
    exact (clears_block c.names _ _ k (clears_codes (blocks c) (fun _ => c.name) (fun t => t) k)).congr (by simp [hne])

theorem clears_instr (s : Source) (body : String → String) (blocks : List String) (k : String) :
    ClearsAt k (instrSection s body blocks) (blocks ≠ [] ∧ k ∈ s.parameters) := by
  rw [instrSection]
  split_ifs with h
  · exact (clears_nil k).congr (by simp [List.length_eq_zero_iff.mp h])
  · have hne : blocks ≠ [] := fun hb => h (by rw [hb]; rfl)
    exact (clears_block s.parameters _ _ k (clears_codes blocks (fun _ => s.name) (fun t => t) k)).congr (by simp [hne])

theorem clears_extend (s : Source) (c : CType) (k : String) :
    ClearsAt k (extendLines s c) (extended s c ≠ [] ∧ k ∈ userNames s c) := by
  rw [extendLines]
  split_ifs with h
  · exact (clears_nil k).congr (by simp [List.length_eq_zero_iff.mp h])
  · have hne : extended s c ≠ [] := fun hb => h (by rw [hb]; rfl)
    exact (clears_block (userNames s c) _ _ k (clears_codes (extended s c) (fun e => e.2.1) (fun e => e.2.2) k)).congr
      (by simp [hne])

/-- The trace function of a type is written. -/
def Traced (s : Source) (c : CType) : Prop := extended s c ≠ [] ∨ ∃ t ∈ c.trace, isEmptyBlock t = false

theorem not_traced_iff (s : Source) (c : CType) :
    ((extended s c).length = 0 ∧ c.trace.all isEmptyBlock) ↔ ¬Traced s c := by
  rw [Traced, List.length_eq_zero_iff]
  simp

theorem clears_traceClass (s : Source) (c : CType) (k : String) :
    ClearsAt k (traceClass s c) (Traced s c ∧ (k ∈ c.names ∨ extended s c ≠ [] ∧ k ∈ userNames s c)) := by
  rw [traceClass]
  split_ifs with h
  · exact (clears_nil k).congr (by simp [(not_traced_iff s c).mp h])
  · have ht : Traced s c := by_contra fun h' => h ((not_traced_iff s c).mpr h')
    have := clears_block c.names (fun n => "(_comp->_parameters." ++ n ++ ")") _ k
      ((clears_codes c.trace (fun _ => c.name) (fun t => t) k).append (clears_extend s c k))
    have e : c.defines ++ c.trace.map (.code c.name) ++ extendLines s c ++ c.undefs =
        c.names.map (fun n => .define n ("(_comp->_parameters." ++ n ++ ")")) ++
          (c.trace.map (fun t => .code c.name t) ++ extendLines s c) ++ c.names.map .undef := by
      simp [CType.defines, CType.undefs]
    rw [e]
    exact this.congr (by simp [ht])

/-! What code sees. -/

theorem seen_append (m : Table) (a b : List Line) : seen m (a ++ b) = seen m a ++ seen (after m a) b := by
  induction a generalizing m with
  | nil => rfl
  | cons l a ih => cases l <;> simp [seen, ih, after_cons, step]

theorem seen_defines {α : Type} (l : List α) (n b : α → String) (m : Table) :
    seen m (l.map fun x => .define (n x) (b x)) = [] := by
  induction l generalizing m with
  | nil => rfl
  | cons x l ih => simp only [List.map_cons, seen]; exact ih _

theorem seen_undefs (l : List String) (m : Table) : seen m (l.map .undef) = [] := by
  induction l generalizing m with
  | nil => rfl
  | cons x l ih => simp only [List.map_cons, seen]; exact ih _

theorem seen_codes {α : Type} (l : List α) (o t : α → String) (m : Table) :
    seen m (l.map fun x => .code (o x) (t x)) = l.map fun x => (o x, t x, m) := by
  induction l with
  | nil => rfl
  | cons x l ih => simp only [List.map_cons, seen, ih]

theorem seen_block (names : List String) (b : String → String) (mid : List Line) (m : Table) :
    seen m (names.map (fun n => .define n (b n)) ++ mid ++ names.map .undef) =
      seen (fun k => if k ∈ names then some (b k) else m k) mid := by
  rw [seen_append, seen_append, seen_defines, seen_undefs, List.nil_append, List.append_nil]
  congr 1
  funext k
  exact after_defines' names b m k

/-- What is known in a section of a component. -/
def within (names : List String) (body : String → String) (m : Table) : Table :=
  fun k => if k ∈ names then some (body k) else m k

theorem seen_class (blocks : CType → List String) (c : CType) (m : Table) :
    seen m (classSection blocks c) =
      (blocks c).map fun t => (c.name, t, within c.names (fun n => "(_comp->_parameters." ++ n ++ ")") m) := by
  rw [classSection]
  split_ifs with h
  · rw [List.length_eq_zero_iff.mp h]; rfl
  · exact (seen_block c.names _ _ m).trans (seen_codes (blocks c) (fun _ => c.name) (fun t => t) _)

theorem seen_instr (s : Source) (body : String → String) (blocks : List String) (m : Table) :
    seen m (instrSection s body blocks) = blocks.map fun t => (s.name, t, within s.parameters body m) := by
  rw [instrSection]
  split_ifs with h
  · rw [List.length_eq_zero_iff.mp h]; rfl
  · exact (seen_block s.parameters _ _ m).trans (seen_codes blocks (fun _ => s.name) (fun t => t) _)

theorem seen_extend (s : Source) (c : CType) (m : Table) :
    seen m (extendLines s c) = (extended s c).map fun e => (e.2.1, e.2.2, within (userNames s c) particleBody m) := by
  rw [extendLines]
  split_ifs with h
  · rw [List.length_eq_zero_iff.mp h]; rfl
  · exact (seen_block (userNames s c) _ _ m).trans (seen_codes (extended s c) (fun e => e.2.1) (fun e => e.2.2) _)

theorem seen_traceClass (s : Source) (c : CType) (m : Table) (h : Traced s c) :
    seen m (traceClass s c) =
      (c.trace.map fun t => (c.name, t, within c.names (fun n => "(_comp->_parameters." ++ n ++ ")") m)) ++
        (extended s c).map fun e => (e.2.1, e.2.2,
          within (userNames s c) particleBody (within c.names (fun n => "(_comp->_parameters." ++ n ++ ")") m)) := by
  rw [traceClass, if_neg fun h' => (not_traced_iff s c).mp h' h]
  have e : c.defines ++ c.trace.map (.code c.name) ++ extendLines s c ++ c.undefs =
      c.names.map (fun n => .define n ("(_comp->_parameters." ++ n ++ ")")) ++
        (c.trace.map (fun t => .code c.name t) ++ extendLines s c) ++ c.names.map .undef := by
    simp [CType.defines, CType.undefs]
  rw [e, seen_block, seen_append, seen_codes c.trace (fun _ => c.name) (fun t => t),
    after_codes c.trace (fun _ => c.name) (fun t => t), seen_extend]
  rfl

theorem mem_fromKeys (l : List String) (x : String) : x ∈ fromKeys l ↔ x ∈ l := by
  have key : ∀ (l acc : List String), x ∈ l.foldl (fun acc x => if x ∈ acc then acc else acc ++ [x]) acc ↔ x ∈ acc ∨ x ∈ l := by
    intro l
    induction l with
    | nil => simp
    | cons y l ih =>
      intro acc
      rw [List.foldl_cons, ih]
      split_ifs with h
      · by_cases hx : x = y
        · simp [hx, h]
        · simp [hx]
      · simp only [List.mem_append, List.mem_cons, List.not_mem_nil, or_false]
        tauto
  simpa [fromKeys] using key l []

end Verif.Macros
