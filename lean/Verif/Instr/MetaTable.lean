import Verif.Instr.Props

/-!
C99: the table of metadata in the generated program. The rows are written by `metadata_table`
(src/mccode_antlr/translators/c_decls.py 80-89) from `Instr.collect_metadata` (instr/instr.py 213-217); the first field of a row is
`m.source.name`, which is set where the metadata is read: to the name of the component type (comp/visitor.py 228-233), of the instance
(instr/visitor.py 145-150) or of the instrument (48-52). An instance made with COPY keeps the metadata of the other one
(instr/instance.py 88-97).
-/

namespace Verif.Instr

/-- `MetaData` (common/metadata.py 33-38) without its name: the name of the source and the rest. -/
structure Meta where
  source : String
  value : String
  deriving DecidableEq, Repr

/-- A component type with the METADATA of its definition, as read: `add_metadata` for each. -/
structure TypeDef where
  name : String
  defined : List (Named String)
  deriving DecidableEq

/-- comp/visitor.py 228-233. -/
def TypeDef.metadata (t : TypeDef) : List (Named Meta) :=
  (t.defined.map fun (n, v) => (n, ⟨t.name, v⟩)).foldl addMetadata []

/-- An instance as written in an instrument: of a type or a COPY of an earlier instance, with its own METADATA. -/
inductive Written
  | new (name : String) (type : TypeDef) (own : List (Named String))
  | copy (name : String) (of : Written) (own : List (Named String))
  deriving DecidableEq

def Written.name : Written → String
  | .new n _ _ => n
  | .copy n _ _ => n

def Written.type : Written → TypeDef
  | .new _ t _ => t
  | .copy _ w _ => w.type

/-- instr/visitor.py 126, 145-150 and instance.py 96: the metadata of the instance. -/
def Written.metadata : Written → List (Named Meta)
  | .new n _ own => (own.map fun (k, v) => (k, ⟨n, v⟩)).foldl addMetadata []
  | .copy n w own => (own.map fun (k, v) => (k, ⟨n, v⟩)).foldl addMetadata w.metadata

/-- The rows (c_decls.py 85-87) as (source, name, value). -/
def rows (instances : List Written) (instrument : List (Named Meta)) : List (String × String × String) :=
  (collectInstr (instances.map fun w => (w.type.metadata, w.metadata)) instrument).map fun (n, m) => (m.source, n, m.value)

/-! ### What the rows are -/

/-- The last value written for a name. -/
def lastWritten (l : List (Named String)) (n : String) : Option String := (l.reverse.find? fun m => m.1 = n).map (·.2)

/-- The metadata of an instance under a name: what it writes itself, else what the one it copies has, else that of the type; together with
the name of the instance or type that writes it. -/
def Written.entry (n : String) : Written → Option (String × String)
  | .new i t own => ((lastWritten own n).map fun v => (i, v)).or ((lastWritten t.defined n).map fun v => (t.name, v))
  | .copy i w own => ((lastWritten own n).map fun v => (i, v)).or (w.entry n)

theorem find_reverse_nodup {α : Type} (l : List (Named α)) (n : String) (h : (l.map (·.1)).Nodup) :
    (l.reverse.find? fun m => m.1 = n) = first? l n := by
  cases hf : l.reverse.find? (fun m => m.1 = n) with
  | none =>
    rw [List.find?_eq_none] at hf
    symm
    rw [first?_none]
    intro hc
    obtain ⟨b, hb, he⟩ := List.mem_map.1 hc
    exact hf b (List.mem_reverse.2 hb) (by simp [he])
  | some a =>
    have h1 := List.mem_reverse.1 (List.mem_of_find?_eq_some hf)
    have h2 := List.find?_some hf
    simp only [decide_eq_true_eq] at h2
    rw [← h2]
    exact (first?_of_mem l a h h1).symm

theorem find_tagged (l : List (Named String)) (s n : String) :
    ((l.map fun (k, v) => (k, (⟨s, v⟩ : Meta))).reverse.find? fun m => m.1 = n) =
      (lastWritten l n).map fun v => (n, ⟨s, v⟩) := by
  rw [← List.map_reverse, List.find?_map, lastWritten]
  have : ((fun m : Named Meta => decide (m.1 = n)) ∘ fun (x : Named String) => ((x.1, ⟨s, x.2⟩) : Named Meta)) =
      fun m => decide (m.1 = n) := rfl
  cases hf : l.reverse.find? (fun m => m.1 = n) with
  | none => simp [Function.comp_def, hf]
  | some a =>
    have h2 := List.find?_some hf
    simp only [decide_eq_true_eq] at h2
    simp [Function.comp_def, hf, h2]

/-- All that was written for an instance, those of the copied instances first. -/
def Written.all : Written → List (Named Meta)
  | .new n _ own => own.map fun (k, v) => (k, ⟨n, v⟩)
  | .copy n w own => w.all ++ own.map fun (k, v) => (k, ⟨n, v⟩)

theorem Written.metadata_all (w : Written) : w.metadata = w.all.foldl addMetadata [] := by
  induction w with
  | new n t own => rfl
  | copy n w own ih => rw [metadata, all, List.foldl_append, ih]

/-- The metadata collected for an instance under a name. -/
theorem collected_entry (w : Written) (n : String) :
    first? (collectInstance w.type.metadata w.metadata) n = (w.entry n).map fun p => (n, ⟨p.1, p.2⟩) := by
  obtain ⟨h1, h2, h3⟩ := metadata_last_wins w.all
  rw [(collected_metadata_of_instance _ _).2.1, w.metadata_all, find_reverse_nodup _ _ h1, h2]
  have ht : ∀ t : TypeDef, (t.metadata.reverse.find? fun m => m.1 = n) = (lastWritten t.defined n).map fun v => (n, ⟨t.name, v⟩) := by
    intro t
    obtain ⟨h1, h2, _⟩ := metadata_last_wins (t.defined.map fun (k, v) => (k, (⟨t.name, v⟩ : Meta)))
    rw [TypeDef.metadata, find_reverse_nodup _ _ h1, h2, find_tagged]
  rw [ht]
  clear h1 h2 h3 ht
  induction w with
  | new i t own =>
    rw [Written.all, find_tagged, Written.entry, Written.type]
    cases lastWritten own n <;> cases lastWritten t.defined n <;> rfl
  | copy i w own ih =>
    rw [Written.all, List.reverse_append, List.find?_append, find_tagged, Written.entry, Written.type, Option.or_assoc, ih]
    cases lastWritten own n <;> rfl

/-- C99, what the rows are: one for each instance and each name under which it has metadata, with the name of the instance or type that
wrote it and the value, and one for each of the instrument. -/
theorem rows_are (instances : List Written) (instrument : List (Named Meta)) (s n v : String) :
    (s, n, v) ∈ rows instances instrument ↔ (∃ w ∈ instances, w.entry n = some (s, v)) ∨ (n, ⟨s, v⟩) ∈ instrument := by
  have hrow : ∀ w : Written, (n, (⟨s, v⟩ : Meta)) ∈ collectInstance w.type.metadata w.metadata ↔ w.entry n = some (s, v) := by
    intro w
    have hnd := (collected_metadata_of_instance w.type.metadata w.metadata).1
    have he := collected_entry w n
    constructor
    · intro h
      have := first?_of_mem _ _ hnd h
      simp only [he, Option.map_eq_some_iff, Prod.mk.injEq, Meta.mk.injEq, true_and] at this
      obtain ⟨⟨a, b⟩, hab, rfl, rfl⟩ := this
      exact hab
    · intro h
      rw [h] at he
      exact (first?_some _ _ _ he).1
  simp only [rows, collectInstr, List.flatMap_map, List.map_append, List.mem_append, List.mem_map, List.mem_flatMap, Prod.mk.injEq]
  constructor
  · rintro (⟨⟨k, m⟩, ⟨w, hw, hm⟩, rfl, rfl, rfl⟩ | ⟨⟨k, m⟩, hm, rfl, rfl, rfl⟩)
    · exact .inl ⟨w, hw, (hrow w).1 hm⟩
    · exact .inr hm
  · rintro (⟨w, hw, h⟩ | h)
    · exact .inl ⟨(n, ⟨s, v⟩), ⟨w, hw, (hrow w).2 h⟩, rfl, rfl, rfl⟩
    · exact .inr ⟨(n, ⟨s, v⟩), h, rfl, rfl, rfl⟩

/-- The METADATA an instance writes itself. -/
def Written.own : Written → List (Named String)
  | .new _ _ own => own
  | .copy _ _ own => own

/-- An instance and those it copies. -/
def Written.chain : Written → List Written
  | .new n t own => [.new n t own]
  | .copy n w own => .copy n w own :: w.chain

theorem entry_from (w : Written) (n s v : String) (h : w.entry n = some (s, v)) :
    (∃ u ∈ w.chain, u.name = s ∧ lastWritten u.own n = some v) ∨ (w.type.name = s ∧ lastWritten w.type.defined n = some v) := by
  induction w with
  | new i t own =>
    rw [Written.entry] at h
    cases ho : lastWritten own n with
    | some x =>
      rw [ho] at h
      cases h
      exact .inl ⟨_, List.mem_singleton_self _, rfl, ho⟩
    | none =>
      rw [ho] at h
      simp only [Option.map_none, Option.none_or, Option.map_eq_some_iff, Prod.mk.injEq] at h
      obtain ⟨x, hx, rfl, rfl⟩ := h
      exact .inr ⟨rfl, hx⟩
  | copy i w own ih =>
    rw [Written.entry] at h
    cases ho : lastWritten own n with
    | some x =>
      rw [ho] at h
      cases h
      exact .inl ⟨_, List.mem_cons_self, rfl, ho⟩
    | none =>
      rw [ho, Option.map_none, Option.none_or] at h
      rcases ih h with ⟨u, hu, h⟩ | h
      · exact .inl ⟨u, List.mem_cons_of_mem _ hu, h⟩
      · exact .inr h

/-- C99: the row that an instance gives for a name is under the name of the instance iff it writes it itself, when neither its type nor
an instance it copies has its name. -/
theorem under_own_name_iff (w : Written) (n v : String) (ht : w.type.name ≠ w.name)
    (hc : ∀ u ∈ w.chain.tail, u.name ≠ w.name) : (w.name, n, v) ∈ rows [w] [] ↔ lastWritten w.own n = some v := by
  rw [rows_are]
  simp only [List.mem_singleton, exists_eq_left, List.not_mem_nil, or_false]
  cases w with
  | new i t own =>
    simp only [Written.entry, Written.name, Written.own, Written.type] at ht ⊢
    cases ho : lastWritten own n with
    | some x => simp
    | none => simp [ht]
  | copy i w own =>
    simp only [Written.entry, Written.name, Written.own, Written.type, Written.chain, List.tail_cons] at ht hc ⊢
    cases ho : lastWritten own n with
    | some x => simp
    | none =>
      simp only [Option.map_none, Option.none_or, reduceCtorEq, iff_false]
      intro h
      rcases entry_from w n i v h with ⟨u, hu, hn, _⟩ | ⟨hn, _⟩
      · exact hc u hu hn
      · exact ht hn

/-- C99, where it holds: if the names of instances are distinct, types of the same name are the same, and no type has the name of an
instance nor the instrument the name of one of them, then the rows of one source and name have one value. -/
theorem one_value_partial (instances : List Written) (instrument : List (Named Meta)) (iname : String)
    (hn : ∀ a ∈ instances, ∀ b ∈ instances, a.name = b.name → a = b)
    (hc : ∀ w ∈ instances, ∀ u ∈ w.chain, u ∈ instances)
    (ht : ∀ a ∈ instances, ∀ b ∈ instances, a.type.name = b.type.name → a.type = b.type)
    (hd : ∀ a ∈ instances, ∀ b ∈ instances, a.name ≠ b.type.name)
    (hi : ∀ m ∈ instrument, m.2.source = iname) (hin : ∀ a ∈ instances, a.name ≠ iname ∧ a.type.name ≠ iname)
    (hinn : (instrument.map (·.1)).Nodup) (s n v v' : String) (h : (s, n, v) ∈ rows instances instrument)
    (h' : (s, n, v') ∈ rows instances instrument) : v = v' := by
  rw [rows_are] at h h'
  have split : ∀ x, (∃ w ∈ instances, w.entry n = some (s, x)) → s ≠ iname ∧
      ((∃ u ∈ instances, u.name = s ∧ lastWritten u.own n = some x) ∨
        ∃ w ∈ instances, w.type.name = s ∧ lastWritten w.type.defined n = some x) := by
    rintro x ⟨w, hw, he⟩
    rcases entry_from w n s x he with ⟨u, hu, rfl, hx⟩ | ⟨rfl, hx⟩
    · exact ⟨(hin u (hc w hw u hu)).1, .inl ⟨u, hc w hw u hu, rfl, hx⟩⟩
    · exact ⟨(hin w hw).2, .inr ⟨w, hw, rfl, hx⟩⟩
  rcases h with h | h <;> rcases h' with h' | h'
  · obtain ⟨_, h⟩ := split v h
    obtain ⟨_, h'⟩ := split v' h'
    rcases h with ⟨u, hu, hs, hx⟩ | ⟨w, hw, hs, hx⟩ <;> rcases h' with ⟨u', hu', hs', hx'⟩ | ⟨w', hw', hs', hx'⟩
    · rw [hn u hu u' hu' (hs.trans hs'.symm), hx'] at hx
      exact (Option.some.inj hx).symm
    · exact absurd (hs.trans hs'.symm) (hd u hu w' hw')
    · exact absurd (hs'.trans hs.symm) (hd u' hu' w hw)
    · rw [ht w hw w' hw' (hs.trans hs'.symm), hx'] at hx
      exact (Option.some.inj hx).symm
  · exact absurd (hi _ h') (split v h).1
  · exact absurd (hi _ h) (split v' h').1
  · have h1 := first?_of_mem _ _ hinn h
    have h2 := first?_of_mem _ _ hinn h'
    simp only at h1 h2
    rw [h1] at h2
    cases h2
    rfl

theorem rows_append (x y : List Written) (z : List (Named Meta)) : rows (x ++ y) z = rows x [] ++ rows y z := by
  simp [rows, collectInstr]

/-- Two instances that have the same entry. -/
theorem rows_twice (a b c : List Written) (instrument : List (Named Meta)) (w u : Written) (s n v : String)
    (hw : w.entry n = some (s, v)) (hu : u.entry n = some (s, v)) :
    [(s, n, v), (s, n, v)].Sublist (rows (a ++ w :: (b ++ u :: c)) instrument) := by
  have cons : ∀ (x : Written) (y : List Written) (z : List (Named Meta)), rows (x :: y) z = rows [x] [] ++ rows y z :=
    fun x y z => rows_append [x] y z
  rw [rows_append, cons, rows_append, cons u]
  have s1 : [(s, n, v)].Sublist (rows [w] []) := List.singleton_sublist.2 ((rows_are _ _ _ _ _).2 (.inl ⟨w, by simp, hw⟩))
  have s2 : [(s, n, v)].Sublist (rows [u] []) := List.singleton_sublist.2 ((rows_are _ _ _ _ _).2 (.inl ⟨u, by simp, hu⟩))
  exact ((s1.append ((s2.append (List.nil_sublist _)).trans (List.sublist_append_right _ _))).trans
    (List.sublist_append_right _ _))

/-- C99 does not hold for the METADATA of a component type: two instances of the type which do not write it themselves give the same
row twice, and the row has the name of neither. -/
theorem type_metadata_repeated (a b c : List Written) (instrument : List (Named Meta)) (i j : String) (t : TypeDef)
    (own own' : List (Named String)) (n v : String) (h : lastWritten own n = none) (h' : lastWritten own' n = none)
    (ht : lastWritten t.defined n = some v) :
    [(t.name, n, v), (t.name, n, v)].Sublist (rows (a ++ .new i t own :: (b ++ .new j t own' :: c)) instrument) :=
  rows_twice a b c instrument _ _ _ _ _ (by simp [Written.entry, h, ht]) (by simp [Written.entry, h', ht])

/-- C99 does not hold for copies: the row of what is copied has the name of the instance that wrote it, so it is there twice. -/
theorem copied_metadata_repeated (a b c : List Written) (instrument : List (Named Meta)) (i j : String) (t : TypeDef)
    (own own' : List (Named String)) (n v : String) (h : lastWritten own n = some v) (h' : lastWritten own' n = none) :
    [(i, n, v), (i, n, v)].Sublist (rows (a ++ .new i t own :: (b ++ .copy j (.new i t own) own' :: c)) instrument) :=
  rows_twice a b c instrument _ _ _ _ _ (by simp [Written.entry, h]) (by simp [Written.entry, h, h'])

/-- Nor does it when an instance is called like a type: rows of the same source and name have different values. -/
theorem same_key_other_value :
    rows [.new "Slit" ⟨"Arm", []⟩ [("k", "1")], .new "s" ⟨"Slit", [("k", "2")]⟩ []] [] = [("Slit", "k", "1"), ("Slit", "k", "2")] := by
  decide +kernel

example : rows [.new "a" ⟨"Arm", [("k", "1"), ("l", "2")]⟩ [("k", "3")], .new "b" ⟨"Arm", [("k", "1"), ("l", "2")]⟩ [],
      .copy "c" (.new "a" ⟨"Arm", [("k", "1"), ("l", "2")]⟩ [("k", "3")]) [("m", "4")]] [("k", ⟨"i", "5"⟩)] =
    [("a", "k", "3"), ("Arm", "l", "2"), ("Arm", "k", "1"), ("Arm", "l", "2"), ("a", "k", "3"), ("Arm", "l", "2"), ("c", "m", "4"),
      ("i", "k", "5")] := by decide +kernel

/-- An instance, and a copy of it. -/
def wA : Written := .new "a" ⟨"Arm", [("k", "1"), ("l", "2")]⟩ [("k", "3")]
def wC : Written := .copy "c" wA [("m", "4")]

/-- The hypotheses of `one_value_partial` and `under_own_name_iff` are met. -/
example : (∀ a ∈ [wA, wC], ∀ b ∈ [wA, wC], a.name = b.name → a = b) ∧ (∀ w ∈ [wA, wC], ∀ u ∈ w.chain, u ∈ [wA, wC]) ∧
    (∀ a ∈ [wA, wC], ∀ b ∈ [wA, wC], a.type.name = b.type.name → a.type = b.type) ∧
    (∀ a ∈ [wA, wC], ∀ b ∈ [wA, wC], a.name ≠ b.type.name) ∧
    (∀ m ∈ [("k", (⟨"i", "5"⟩ : Meta))], m.2.source = "i") ∧ (∀ a ∈ [wA, wC], a.name ≠ "i" ∧ a.type.name ≠ "i") ∧
    (∀ u ∈ wC.chain.tail, u.name ≠ wC.name) ∧ wC.entry "m" = some ("c", "4") ∧ wC.entry "k" = some ("a", "3") := by
  decide +kernel

end Verif.Instr
