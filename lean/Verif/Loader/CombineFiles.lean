import Verif.Loader.CombineProps
import Verif.Loader.DatNeg

/-! C45: combination of the descriptions of simulations and of data files. -/

namespace Verif.Loader

/-- The number of rays of two simulations is added exactly if the descriptions agree, including the directory, and all
parameters of the first are among those of the second. -/
theorem rays_added_iff (a b : Simulation) (ha : 0 < a.ncount) (hb : 0 < b.ncount) :
    (combineSimulation a b).ncount = a.ncount + b.ncount ↔
      (a.name = b.name ∧ a.format = b.format ∧ a.url = b.url ∧ a.creator = b.creator ∧ a.instrument = b.instrument ∧
        a.trace = b.trace ∧ a.gravitation = b.gravitation ∧ a.directory = b.directory ∧ ∀ p ∈ a.params, p ∈ b.params) := by
  rw [combineSimulation]
  split_ifs with h1 h2 h3
  · exact iff_of_true rfl h1
  · refine iff_of_false ?_ h1
    omega
  · refine iff_of_false ?_ h1
    omega
  all_goals
    refine iff_of_false ?_ h1
    show min a.ncount b.ncount ≠ a.ncount + b.ncount
    omega

/-- Repetitions of a simulation in two directories: the rays are not added. -/
theorem repeats_not_added : ∃ a b : Simulation, a.ncount = 100 ∧ b = { a with seed := 2, directory := t "run2" } ∧
    (combineSimulation a b).ncount = 100 :=
  ⟨{ name := t "n", format := t "f", url := t "u", creator := t "c", instrument := t "i", ncount := 100, trace := false,
     gravitation := false, seed := 1, directory := t "run1", params := [] }, _, rfl, rfl, by decide +kernel⟩

theorem joined_spec (a b : Text) : a <:+: joined a b ∧ b <:+: joined a b ∧ (b <:+: a → joined a b = a) := by
  rw [joined]
  split_ifs with h
  · exact ⟨List.infix_rfl, h, fun _ => rfl⟩
  · exact ⟨⟨[], t " + " ++ b, by simp⟩, ⟨a ++ t " + ", [], by simp⟩, fun h' => absurd h' h⟩

theorem infix_antisymm (a b : Text) (h1 : a <:+: b) (h2 : b <:+: a) : b = a :=
  (h1.eq_of_length (le_antisymm h1.length_le h2.length_le)).symm

/-- The texts of both descriptions are in those of the combination, and a text that is already there is not added again. -/
theorem descriptions_kept (a b : Simulation) (field : Simulation → Text)
    (hf : field = Simulation.name ∨ field = Simulation.format ∨ field = Simulation.url ∨ field = Simulation.creator ∨
      field = Simulation.instrument ∨ field = Simulation.directory) :
    field a <:+: field (combineSimulation a b) ∧ field b <:+: field (combineSimulation a b) ∧
      (field b <:+: field a → field (combineSimulation a b) = field a) := by
  rw [combineSimulation]
  split_ifs with h1 h2 h3
  · obtain ⟨e1, e2, e3, e4, e5, -, -, e6, -⟩ := h1
    rcases hf with rfl | rfl | rfl | rfl | rfl | rfl
    · exact ⟨List.infix_rfl, e1 ▸ List.infix_rfl, fun _ => rfl⟩
    · exact ⟨List.infix_rfl, e2 ▸ List.infix_rfl, fun _ => rfl⟩
    · exact ⟨List.infix_rfl, e3 ▸ List.infix_rfl, fun _ => rfl⟩
    · exact ⟨List.infix_rfl, e4 ▸ List.infix_rfl, fun _ => rfl⟩
    · exact ⟨List.infix_rfl, e5 ▸ List.infix_rfl, fun _ => rfl⟩
    · exact ⟨List.infix_rfl, e6 ▸ List.infix_rfl, fun _ => rfl⟩
  · obtain ⟨e1, e2, e3, e4, e5, -, -, e6, -⟩ := h2
    rcases hf with rfl | rfl | rfl | rfl | rfl | rfl
    · exact ⟨List.infix_rfl, e1, fun _ => rfl⟩
    · exact ⟨List.infix_rfl, e2, fun _ => rfl⟩
    · exact ⟨List.infix_rfl, e3, fun _ => rfl⟩
    · exact ⟨List.infix_rfl, e4, fun _ => rfl⟩
    · exact ⟨List.infix_rfl, e5, fun _ => rfl⟩
    · exact ⟨List.infix_rfl, e6, fun _ => rfl⟩
  · obtain ⟨e1, e2, e3, e4, e5, -, -, e6, -⟩ := h3
    rcases hf with rfl | rfl | rfl | rfl | rfl | rfl
    · exact ⟨e1, List.infix_rfl, infix_antisymm _ _ e1⟩
    · exact ⟨e2, List.infix_rfl, infix_antisymm _ _ e2⟩
    · exact ⟨e3, List.infix_rfl, infix_antisymm _ _ e3⟩
    · exact ⟨e4, List.infix_rfl, infix_antisymm _ _ e4⟩
    · exact ⟨e5, List.infix_rfl, infix_antisymm _ _ e5⟩
    · exact ⟨e6, List.infix_rfl, infix_antisymm _ _ e6⟩
  all_goals
    rcases hf with rfl | rfl | rfl | rfl | rfl | rfl <;> exact joined_spec _ _

theorem mem_fromkeys (l d : List Text) (p : Text) :
    p ∈ l.foldl (fun (l : List Text) (p : Text) => if p ∈ l then l else l ++ [p]) d ↔ p ∈ d ∨ p ∈ l := by
  induction l generalizing d with
  | nil => simp
  | cons q l ih =>
    rw [List.foldl_cons, ih]
    by_cases h : q ∈ d
    · rw [if_pos h, List.mem_cons]
      constructor
      · rintro (h' | h')
        · exact .inl h'
        · exact .inr (.inr h')
      · rintro (h' | rfl | h')
        · exact .inl h'
        · exact .inl h
        · exact .inr h'
    · rw [if_neg h]
      simp only [List.mem_append, List.mem_cons, List.not_mem_nil, or_false, or_assoc]

/-- The parameters of the first are kept. Those of the second are too, unless the descriptions agree and the parameters of the first are
among those of the second. -/
theorem parameters_kept_iff (a b : Simulation) (p : Text) :
    p ∈ (combineSimulation a b).params ↔
      p ∈ a.params ∨ (p ∈ b.params ∧ ¬ (a.name = b.name ∧ a.format = b.format ∧ a.url = b.url ∧ a.creator = b.creator ∧
        a.instrument = b.instrument ∧ a.trace = b.trace ∧ a.gravitation = b.gravitation ∧ a.directory = b.directory ∧
        ∀ p ∈ a.params, p ∈ b.params)) := by
  have e : (a.name = b.name ∧ a.format = b.format ∧ a.url = b.url ∧ a.creator = b.creator ∧ a.instrument = b.instrument ∧
      a.trace = b.trace ∧ a.gravitation = b.gravitation ∧ a.directory = b.directory ∧ ∀ p ∈ a.params, p ∈ b.params) ↔ simEq b a := Iff.rfl
  rw [e, combineSimulation]
  by_cases h1 : simEq b a
  · rw [if_pos h1]
    exact ⟨fun h => .inl h, fun h => h.elim id fun h => absurd h1 h.2⟩
  · rw [if_neg h1]
    by_cases h2 : simIn b a
    · rw [if_pos h2]
      exact ⟨fun h => .inl h, fun h => h.elim id fun h => h2.2.2.2.2.2.2.2.2 p h.1⟩
    · rw [if_neg h2]
      by_cases h3 : simIn a b
      · rw [if_pos h3]
        exact ⟨fun h => .inr ⟨h, h1⟩, fun h => h.elim (h3.2.2.2.2.2.2.2.2 p) And.left⟩
      · rw [if_neg h3]
        show p ∈ (a.params ++ b.params).foldl _ [] ↔ _
        rw [mem_fromkeys, List.mem_append]
        simp [h1]

/-- A parameter of the second simulation only is lost. -/
theorem parameter_lost : ∃ a b : Simulation, t "x=1" ∈ b.params ∧ t "x=1" ∉ (combineSimulation a b).params :=
  ⟨{ name := t "n", format := t "f", url := t "u", creator := t "c", instrument := t "i", ncount := 100, trace := false,
     gravitation := false, seed := 1, directory := t "d", params := [] },
   { name := t "n", format := t "f", url := t "u", creator := t "c", instrument := t "i", ncount := 100, trace := false,
     gravitation := false, seed := 2, directory := t "d", params := [t "x=1"] }, by decide +kernel, by decide +kernel⟩

/-- The combination is traced, or has gravitation, if both are or have. -/
theorem settings_combined (a b : Simulation) :
    (combineSimulation a b).trace = (a.trace && b.trace) ∧ (combineSimulation a b).gravitation = (a.gravitation && b.gravitation) := by
  rw [combineSimulation]
  split_ifs with h1 h2 h3
  · obtain ⟨-, -, -, -, -, e1, e2, -, -⟩ := h1
    exact ⟨by rw [← e1, Bool.and_self], by rw [← e2, Bool.and_self]⟩
  · obtain ⟨-, -, -, -, -, e1, e2, -, -⟩ := h2
    exact ⟨by rw [e1, Bool.and_self], by rw [e2, Bool.and_self]⟩
  · obtain ⟨-, -, -, -, -, e1, e2, -, -⟩ := h3
    exact ⟨by rw [e1, Bool.and_self], by rw [e2, Bool.and_self]⟩
  all_goals exact ⟨rfl, rfl⟩

/-! ### Arrays -/

theorem combineArr_2 {α : Type} [AddCommMonoid α] {a b : Nd α} {n m : Nat} (ha : a.shape = [n, m]) (hb : b.shape = [n, m])
    (la : a.data.length = n * m) (lb : b.data.length = n * m) :
    ∃ c, combineArr a b = .ok c ∧ c.shape = [n, m] ∧ c.data.length = n * m ∧
      ∀ v < n, ∀ i < m, c.data.getD (v * m + i) 0 =
        if v < n - 3 then a.data.getD (v * m + i) 0 else a.data.getD (v * m + i) 0 + b.data.getD (v * m + i) 0 := by
  have hle : (n - 3) * m ≤ n * m := Nat.mul_le_mul_right m (by omega)
  refine ⟨⟨[n, m], a.data.take ((n - 3) * m) ++
    List.zipWith (· + ·) (a.data.drop ((n - 3) * m)) (b.data.drop ((n - 3) * m))⟩, ?_, rfl, ?_, ?_⟩
  · simp [combineArr, ha, hb]
  · simp [la, lb]
    omega
  · intro v hv i hi
    have hidx : v * m + i < n * m := index_lt hv hi
    have ht : (a.data.take ((n - 3) * m)).length = (n - 3) * m := by rw [List.length_take, la]; omega
    simp only [List.getD_eq_getElem?_getD]
    split_ifs with h3
    · have : v * m + i < (n - 3) * m := index_lt h3 hi
      rw [List.getElem?_append_left (by omega), List.getElem?_take_of_lt this]
    · have hge : (n - 3) * m ≤ v * m + i := by
        have : (n - 3) * m ≤ v * m := Nat.mul_le_mul_right m (by omega)
        omega
      rw [List.getElem?_append_right (by omega), ht, List.getElem?_zipWith, List.getElem?_drop, List.getElem?_drop]
      have : (n - 3) * m + (v * m + i - (n - 3) * m) = v * m + i := by omega
      rw [this, List.getElem?_eq_getElem (by omega), List.getElem?_eq_getElem (by omega)]
      rfl

theorem combineArr_3 {α : Type} [AddCommMonoid α] {a b : Nd α} {n m l : Nat} (ha : a.shape = [n, m, l]) (hb : b.shape = [n, m, l])
    (hl : a.data.length = b.data.length) :
    ∃ c, combineArr a b = .ok c ∧ c.shape = [n, m, l] ∧ c.data.length = a.data.length ∧
      ∀ i, c.data.getD i 0 = a.data.getD i 0 + b.data.getD i 0 := by
  refine ⟨⟨[n, m, l], List.zipWith (· + ·) a.data b.data⟩, ?_, rfl, ?_, ?_⟩
  · simp [combineArr, ha, hb]
  · simp [hl]
  · intro i
    simp only [List.getD_eq_getElem?_getD, List.getElem?_zipWith]
    by_cases h : i < a.data.length
    · rw [List.getElem?_eq_getElem h, List.getElem?_eq_getElem (by omega)]
      rfl
    · rw [List.getElem?_eq_none (by omega), List.getElem?_eq_none (by omega)]
      simp

/-! ### Dictionaries -/

/-- The keys whose entries are changed (254-255). -/
def Special (k : Text) : Prop := hasAny [t "Ncount"] k ∨ hasAny [t "Directory", t "filename", t "Date", t "Seed"] k

theorem combineEntry_lookup {c c' : List (Text × Text)} {k v : Text} (h : combineEntry c k v = .ok c') :
    (∀ x, x ≠ k → c'.lookup x = c.lookup x) ∧ (¬ Special k → c' = c) := by
  rw [combineEntry] at h
  split_ifs at h with h1 h2 h3
  · refine ⟨fun x hx => ?_, fun hs => absurd (Or.inl h1) hs⟩
    split at h
    · cases h
    · split at h
      · cases h
      · split at h
        · cases h
        · cases h
          rw [lookup_setKey, if_neg hx]
  · refine ⟨fun x hx => ?_, fun hs => absurd (Or.inr h2) hs⟩
    split at h
    · cases h
    · split_ifs at h
      · cases h
        rfl
      · cases h
        rw [lookup_setKey, if_neg hx]
  · cases h
    exact ⟨fun _ _ => rfl, fun _ => rfl⟩
  · split at h
    · cases h
    · split_ifs at h
      · cases h
        exact ⟨fun _ _ => rfl, fun _ => rfl⟩

theorem combineDicts_other {k : Text} (hk : ¬ Special k) : ∀ {b c c' : List (Text × Text)}, combineDicts c b = .ok c' →
    c'.lookup k = c.lookup k
  | [], c, c', h => by cases h; rfl
  | p :: b, c, c', h => by
    rw [combineDicts] at h
    split at h
    · cases h
    · rename_i c1 h1
      rw [combineDicts_other hk h]
      obtain ⟨e1, e2⟩ := combineEntry_lookup h1
      by_cases hp : k = p.1
      · rw [e2 (by rw [← hp]; exact hk)]
      · exact e1 k hp

theorem combineDicts_absent {k : Text} : ∀ {b c c' : List (Text × Text)}, k ∉ b.map (·.1) → combineDicts c b = .ok c' →
    c'.lookup k = c.lookup k
  | [], c, c', _, h => by cases h; rfl
  | p :: b, c, c', hk, h => by
    rw [List.map_cons, List.mem_cons, not_or] at hk
    rw [combineDicts] at h
    split at h
    · cases h
    · rename_i c1 h1
      rw [combineDicts_absent hk.2 h]
      exact (combineEntry_lookup h1).1 k hk.1

theorem mem_keys_of_lookup {b : List (Text × Text)} {k v : Text} (h : b.lookup k = some v) : k ∈ b.map (·.1) := by
  induction b with
  | nil => cases h
  | cons p b ih =>
    rw [List.lookup_cons] at h
    split at h
    · rename_i hk
      rw [List.map_cons, List.mem_cons]
      exact Or.inl (by simpa using hk)
    · exact List.mem_cons_of_mem _ (ih h)

/-- The number of rays of two files is added. -/
theorem combineDicts_ncount : ∀ {b c c' : List (Text × Text)} {i j : Int}, (b.map (·.1)).Nodup → combineDicts c b = .ok c' →
    c.lookup (t "Ncount") = some (strInt i) → b.lookup (t "Ncount") = some (strInt j) →
    c'.lookup (t "Ncount") = some (strInt (i + j))
  | [], _, _, _, _, _, _, _, hb => by cases hb
  | p :: b, c, c', i, j, hn, h, hc, hb => by
    rw [List.map_cons, List.nodup_cons] at hn
    rw [combineDicts] at h
    split at h
    · cases h
    · rename_i c1 h1
      rw [List.lookup_cons] at hb
      split at hb
      · rename_i hk
        have hk : t "Ncount" = p.1 := by simpa using hk
        have hp2 : p.2 = strInt j := by simpa using hb
        rw [← hk] at hn
        rw [combineDicts_absent hn.1 h]
        have hz : ∀ z, parseInt (strip (strInt z)) = .ok z := by
          intro z
          rw [strip_stripped (stripped_of_forall (strInt_mem z)), parseInt_strInt]
        rw [combineEntry, ← hk, if_pos (by decide), hc] at h1
        simp only at h1
        rw [hz i] at h1
        simp only at h1
        rw [hp2, hz j] at h1
        cases h1
        rw [lookup_setKey, if_pos rfl]
      · rename_i hk
        have hk : t "Ncount" ≠ p.1 := by simpa using hk
        refine combineDicts_ncount hn.2 h ?_ hb
        rw [(combineEntry_lookup h1).1 _ hk, hc]

/-! ### Files -/

/-- One-dimensional data as they are after reading: `nx` points of each variable. -/
def Dat.Read1 {α : Type} (nx : Nat) (d : Dat α) : Prop :=
  d.metadata.lookup (t "type") = some (t "array_1d(" ++ strInt nx ++ t ")") ∧ d.data.shape = [d.vars.length, nx] ∧
    d.data.data.length = d.vars.length * nx

theorem postInit_read1 {α : Type} {nx : Nat} {d : Dat α} (h : d.Read1 nx) : postInit .d1 d = .ok d := by
  have ht : d.metadata.lookup (t "type") = some (type1 nx) := by
    rw [h.1]
    simp [type1, strInt, t]
  rw [postInit, ht]
  simp only
  rw [sizes1]
  simp only
  rw [strip_dec, parse_dec]
  simp only
  have : shape1 (nx : Int) d.vars.length d.data = .ok d.data := by
    rw [shape1, h.2.1]
    simp
  rw [this]
  rfl

theorem type_not_special : ¬ Special (t "type") := by
  rw [Special]
  decide

theorem addDat_1 {α : Type} [AddCommMonoid α] {a b : Kind × Dat α} {c : Kind × Dat α} {nx : Nat} (h : addDat a b = .ok c)
    (ha : a.1 = .d1) (hra : a.2.Read1 nx) (hlb : b.2.data.data.length = a.2.vars.length * nx) :
    c.1 = .d1 ∧ c.2.vars = a.2.vars ∧ c.2.Read1 nx ∧ combineDicts a.2.metadata b.2.metadata = .ok c.2.metadata ∧
      combineDicts a.2.parameters b.2.parameters = .ok c.2.parameters ∧ b.2.vars = a.2.vars ∧
      ∀ v < a.2.vars.length, ∀ i < nx, c.2.data.data.getD (v * nx + i) 0 =
        if v < a.2.vars.length - 3 then a.2.data.data.getD (v * nx + i) 0
        else a.2.data.data.getD (v * nx + i) 0 + b.2.data.data.getD (v * nx + i) 0 := by
  have hrk : resultKind a.1 = .d1 := by rw [ha]; rfl
  rw [addDat, hrk] at h
  split at h
  · cases h
  · cases h
  split at h
  · cases h
  rename_i md hmd
  split at h
  · cases h
  rename_i pm hpm
  split_ifs at h with hv
  split at h
  · cases h
  rename_i data hdata
  have hsh : a.2.data.shape = b.2.data.shape := by
    by_contra hne
    rw [combineArr, if_pos hne] at hdata
    cases hdata
  obtain ⟨c', h1, h2, h3, h4⟩ := combineArr_2 hra.2.1 (hsh.symm.trans hra.2.1) hra.2.2 hlb
  rw [h1] at hdata
  cases hdata
  have hr : (Dat.mk md pm a.2.vars data).Read1 nx := by
    refine ⟨?_, h2, h3⟩
    rw [← hra.1]
    exact combineDicts_other type_not_special hmd
  rw [postInit_read1 hr] at h
  cases h
  exact ⟨rfl, rfl, hr, hmd, hpm, (not_not.mp hv).symm, h4⟩

/-- C45: for one-dimensional data files of repeated simulations the numbers of rays are added, and of each point the last
three variables; the others are those of the first file. -/
theorem files_sum {α : Type} [AddCommMonoid α] (nx : Nat) (a out : Kind × Dat α) (l : List (Kind × Dat α)) (n : Kind × Dat α → Int)
    (h : addDats a l = .ok out) (ha : a.1 = .d1) (hra : a.2.Read1 nx)
    (hl : ∀ b ∈ l, b.2.data.data.length = b.2.vars.length * nx ∧ (b.2.metadata.map (·.1)).Nodup)
    (hn : ∀ b ∈ a :: l, b.2.metadata.lookup (t "Ncount") = some (strInt (n b))) :
    out.2.metadata.lookup (t "Ncount") = some (strInt (((a :: l).map n).sum)) ∧ out.2.vars = a.2.vars ∧
      out.2.data.shape = [a.2.vars.length, nx] ∧
      ∀ v < a.2.vars.length, ∀ i < nx, out.2.data.data.getD (v * nx + i) 0 =
        if v < a.2.vars.length - 3 then a.2.data.data.getD (v * nx + i) 0
        else ((a :: l).map fun b => b.2.data.data.getD (v * nx + i) 0).sum := by
  -- the number of rays of the first is generalised
  have main : ∀ (l : List (Kind × Dat α)) (a : Kind × Dat α) (na : Int), addDats a l = .ok out → a.1 = .d1 → a.2.Read1 nx →
      (∀ b ∈ l, b.2.data.data.length = b.2.vars.length * nx ∧ (b.2.metadata.map (·.1)).Nodup) →
      a.2.metadata.lookup (t "Ncount") = some (strInt na) →
      (∀ b ∈ l, b.2.metadata.lookup (t "Ncount") = some (strInt (n b))) →
      out.2.metadata.lookup (t "Ncount") = some (strInt (na + (l.map n).sum)) ∧ out.2.vars = a.2.vars ∧
        out.2.data.shape = [a.2.vars.length, nx] ∧
        ∀ v < a.2.vars.length, ∀ i < nx, out.2.data.data.getD (v * nx + i) 0 =
          if v < a.2.vars.length - 3 then a.2.data.data.getD (v * nx + i) 0
          else ((a :: l).map fun b => b.2.data.data.getD (v * nx + i) 0).sum := by
    intro l
    induction l with
    | nil =>
      intro a na h ha hra _ hna _
      obtain rfl : a = out := by cases h; rfl
      exact ⟨by simpa using hna, rfl, hra.2.1, by simp⟩
    | cons b l ih =>
      intro a na h ha hra hl hna hn
      rw [addDats] at h
      split at h
      · cases h
      rename_i c hc
      obtain ⟨hlb, hnb⟩ := hl b List.mem_cons_self
      have hvars : b.2.vars = a.2.vars := by
        rw [addDat] at hc
        split at hc
        · cases hc
        · cases hc
        split at hc
        · cases hc
        split at hc
        · cases hc
        split_ifs at hc with hv
        exact (not_not.mp hv).symm
      rw [hvars] at hlb
      obtain ⟨c1, c2, c3, c4, _, _, c7⟩ := addDat_1 hc ha hra hlb
      have hnc := combineDicts_ncount hnb c4 hna (hn b List.mem_cons_self)
      obtain ⟨i1, i2, i3, i4⟩ := ih c _ h c1 c3 (fun x hx => hl x (List.mem_cons_of_mem _ hx)) hnc
        fun x hx => hn x (List.mem_cons_of_mem _ hx)
      rw [c2] at i2 i3 i4
      refine ⟨?_, i2, i3, fun v hv i hi => ?_⟩
      · rw [i1, List.map_cons, List.sum_cons, add_assoc]
      · rw [i4 v hv i hi, c7 v hv i hi]
        simp only [List.map_cons, List.sum_cons]
        split_ifs with h3
        · rfl
        · rw [c7 v hv i hi, if_neg h3, add_assoc]
  obtain ⟨m1, m2⟩ := main l a (n a) h ha hra hl (hn a List.mem_cons_self) fun b hb => hn b (List.mem_cons_of_mem _ hb)
  refine ⟨?_, m2⟩
  rw [m1, List.map_cons, List.sum_cons]

/-- The sums do not depend on the order, and the result is that of the files in any other order if the coordinates agree. -/
theorem files_order {α : Type} [AddCommMonoid α] (nx : Nat) (a a' out out' : Kind × Dat α) (l l' : List (Kind × Dat α))
    (n : Kind × Dat α → Int) (hp : (a :: l).Perm (a' :: l')) (h : addDats a l = .ok out) (h' : addDats a' l' = .ok out')
    (hk : ∀ b ∈ a :: l, b.1 = .d1 ∧ b.2.Read1 nx ∧ (b.2.metadata.map (·.1)).Nodup)
    (hn : ∀ b ∈ a :: l, b.2.metadata.lookup (t "Ncount") = some (strInt (n b))) (hv : a.2.vars = a'.2.vars) :
    out.2.metadata.lookup (t "Ncount") = out'.2.metadata.lookup (t "Ncount") ∧
      ∀ v < a.2.vars.length, a.2.vars.length - 3 ≤ v → ∀ i < nx,
        out.2.data.data.getD (v * nx + i) 0 = out'.2.data.data.getD (v * nx + i) 0 := by
  have hk' : ∀ b ∈ a' :: l', b.1 = .d1 ∧ b.2.Read1 nx ∧ (b.2.metadata.map (·.1)).Nodup := fun b hb => hk b (hp.mem_iff.mpr hb)
  have hn' : ∀ b ∈ a' :: l', b.2.metadata.lookup (t "Ncount") = some (strInt (n b)) := fun b hb => hn b (hp.mem_iff.mpr hb)
  obtain ⟨e1, _, _, e4⟩ := files_sum nx a out l n h (hk a List.mem_cons_self).1 (hk a List.mem_cons_self).2.1
    (fun b hb => ⟨(hk b (List.mem_cons_of_mem _ hb)).2.1.2.2, (hk b (List.mem_cons_of_mem _ hb)).2.2⟩) hn
  obtain ⟨f1, _, _, f4⟩ := files_sum nx a' out' l' n h' (hk' a' List.mem_cons_self).1 (hk' a' List.mem_cons_self).2.1
    (fun b hb => ⟨(hk' b (List.mem_cons_of_mem _ hb)).2.1.2.2, (hk' b (List.mem_cons_of_mem _ hb)).2.2⟩) hn'
  refine ⟨?_, fun v hv1 hv2 i hi => ?_⟩
  · rw [e1, f1, (hp.map n).sum_eq]
  · rw [e4 v hv1 i hi, f4 v (by rw [← hv]; exact hv1) i hi, if_neg (by omega), if_neg (by rw [← hv]; omega)]
    exact (hp.map _).sum_eq

/-- Two-dimensional data as they are after reading. -/
def Dat.Read2 {α : Type} (nx ny : Nat) (d : Dat α) : Prop :=
  d.metadata.lookup (t "type") = some (t "array_2d(" ++ strInt nx ++ t ", " ++ strInt ny ++ t ")") ∧
    d.data.shape = [d.vars.length, ny, nx] ∧ d.data.data.length = d.vars.length * ny * nx

theorem postInit_read2 {α : Type} {nx ny : Nat} {d : Dat α} (h : d.Read2 nx ny) : postInit .d2 d = .ok d := by
  have ht : d.metadata.lookup (t "type") = some (type2 nx ny) := by
    rw [h.1]
    simp [type2, strInt, t]
  rw [postInit, ht]
  simp only
  rw [sizes2]
  simp only
  rw [sizes2_split]
  simp only
  have : shape2 (nx : Int) (ny : Int) d.vars.length d.data = .ok d.data := by
    rw [shape2, h.2.1]
    simp
  rw [this]
  rfl

theorem addDat_2 {α : Type} [AddCommMonoid α] {a b : Kind × Dat α} {c : Kind × Dat α} {nx ny : Nat} (h : addDat a b = .ok c)
    (ha : a.1 = .d2) (hra : a.2.Read2 nx ny) (hlb : b.2.data.data.length = a.2.vars.length * ny * nx) :
    c.1 = .d2 ∧ c.2.vars = a.2.vars ∧ c.2.Read2 nx ny ∧ combineDicts a.2.metadata b.2.metadata = .ok c.2.metadata ∧
      ∀ i, c.2.data.data.getD i 0 = a.2.data.data.getD i 0 + b.2.data.data.getD i 0 := by
  have hrk : resultKind a.1 = .d2 := by rw [ha]; rfl
  rw [addDat, hrk] at h
  split at h
  · cases h
  · cases h
  split at h
  · cases h
  rename_i md hmd
  split at h
  · cases h
  rename_i pm hpm
  split_ifs at h with hv
  split at h
  · cases h
  rename_i data hdata
  have hsh : a.2.data.shape = b.2.data.shape := by
    by_contra hne
    rw [combineArr, if_pos hne] at hdata
    cases hdata
  obtain ⟨c', h1, h2, h3, h4⟩ := combineArr_3 hra.2.1 (hsh.symm.trans hra.2.1) (hra.2.2.trans hlb.symm)
  rw [h1] at hdata
  cases hdata
  have hr : (Dat.mk md pm a.2.vars data).Read2 nx ny := by
    refine ⟨?_, h2, h3.trans hra.2.2⟩
    rw [← hra.1]
    exact combineDicts_other type_not_special hmd
  rw [postInit_read2 hr] at h
  cases h
  exact ⟨rfl, rfl, hr, hmd, h4⟩

theorem addDat_vars {α : Type} [Add α] {a b c : Kind × Dat α} (hc : addDat a b = .ok c) : b.2.vars = a.2.vars := by
  rw [addDat] at hc
  split at hc
  · cases hc
  · cases hc
  split at hc
  · cases hc
  split at hc
  · cases hc
  split_ifs at hc with hv
  exact (not_not.mp hv).symm

/-- C45: for two-dimensional data files of repeated simulations the numbers of rays are added, and all data. -/
theorem files_sum_2 {α : Type} [AddCommMonoid α] (nx ny : Nat) (a out : Kind × Dat α) (l : List (Kind × Dat α))
    (n : Kind × Dat α → Int) (h : addDats a l = .ok out) (ha : a.1 = .d2) (hra : a.2.Read2 nx ny)
    (hl : ∀ b ∈ l, b.2.data.data.length = b.2.vars.length * ny * nx ∧ (b.2.metadata.map (·.1)).Nodup)
    (hn : ∀ b ∈ a :: l, b.2.metadata.lookup (t "Ncount") = some (strInt (n b))) :
    out.2.metadata.lookup (t "Ncount") = some (strInt (((a :: l).map n).sum)) ∧ out.2.vars = a.2.vars ∧
      out.2.data.shape = [a.2.vars.length, ny, nx] ∧
      ∀ i, out.2.data.data.getD i 0 = ((a :: l).map fun b => b.2.data.data.getD i 0).sum := by
  have main : ∀ (l : List (Kind × Dat α)) (a : Kind × Dat α) (na : Int), addDats a l = .ok out → a.1 = .d2 → a.2.Read2 nx ny →
      (∀ b ∈ l, b.2.data.data.length = b.2.vars.length * ny * nx ∧ (b.2.metadata.map (·.1)).Nodup) →
      a.2.metadata.lookup (t "Ncount") = some (strInt na) →
      (∀ b ∈ l, b.2.metadata.lookup (t "Ncount") = some (strInt (n b))) →
      out.2.metadata.lookup (t "Ncount") = some (strInt (na + (l.map n).sum)) ∧ out.2.vars = a.2.vars ∧
        out.2.data.shape = [a.2.vars.length, ny, nx] ∧
        ∀ i, out.2.data.data.getD i 0 = ((a :: l).map fun b => b.2.data.data.getD i 0).sum := by
    intro l
    induction l with
    | nil =>
      intro a na h ha hra _ hna _
      obtain rfl : a = out := by cases h; rfl
      exact ⟨by simpa using hna, rfl, hra.2.1, by simp⟩
    | cons b l ih =>
      intro a na h ha hra hl hna hn
      rw [addDats] at h
      split at h
      · cases h
      rename_i c hc
      obtain ⟨hlb, hnb⟩ := hl b List.mem_cons_self
      rw [addDat_vars hc] at hlb
      obtain ⟨c1, c2, c3, c4, c7⟩ := addDat_2 hc ha hra hlb
      have hnc := combineDicts_ncount hnb c4 hna (hn b List.mem_cons_self)
      obtain ⟨i1, i2, i3, i4⟩ := ih c _ h c1 c3 (fun x hx => hl x (List.mem_cons_of_mem _ hx)) hnc
        fun x hx => hn x (List.mem_cons_of_mem _ hx)
      rw [c2] at i2 i3
      refine ⟨?_, i2, i3, fun i => ?_⟩
      · rw [i1, List.map_cons, List.sum_cons, add_assoc]
      · rw [i4 i]
        simp only [List.map_cons, List.sum_cons]
        rw [c7 i, add_assoc]
  obtain ⟨m1, m2⟩ := main l a (n a) h ha hra hl (hn a List.mem_cons_self) fun b hb => hn b (List.mem_cons_of_mem _ hb)
  refine ⟨?_, m2⟩
  rw [m1, List.map_cons, List.sum_cons]

/-! ### Which files are combined -/

/-- The keys whose entries are not compared (254-256), by the texts they contain. -/
def NotCompared (k : Text) : Prop :=
  t "Ncount" <:+: k ∨ t "Directory" <:+: k ∨ t "filename" <:+: k ∨ t "Date" <:+: k ∨ t "Seed" <:+: k ∨ t "signal" <:+: k ∨
    t "statistics" <:+: k ∨ t "values" <:+: k

theorem combineDicts_agree : ∀ {b c c' : List (Text × Text)}, combineDicts c b = .ok c' →
    ∀ p ∈ b, ¬ NotCompared p.1 → c.lookup p.1 = some p.2
  | [], _, _, _, p, hp, _ => by cases hp
  | q :: b, c, c', h, p, hp, hk => by
    rw [combineDicts] at h
    split at h
    · cases h
    rename_i c1 h1
    have hns : ¬ Special p.1 := by
      intro hs
      apply hk
      rcases hs with ⟨x, hx, hk⟩ | ⟨x, hx, hk⟩
      · simp only [List.mem_cons, List.not_mem_nil, or_false] at hx
        subst hx
        exact Or.inl hk
      · simp only [List.mem_cons, List.not_mem_nil, or_false] at hx
        rcases hx with rfl | rfl | rfl | rfl
        · exact Or.inr (Or.inl hk)
        · exact Or.inr (Or.inr (Or.inl hk))
        · exact Or.inr (Or.inr (Or.inr (Or.inl hk)))
        · exact Or.inr (Or.inr (Or.inr (Or.inr (Or.inl hk))))
    rcases List.mem_cons.mp hp with rfl | hp
    · rw [combineEntry] at h1
      have n3 : ¬ hasAny [t "signal", t "statistics", t "values"] p.1 := by
        intro hs
        apply hk
        obtain ⟨x, hx, hk⟩ := hs
        simp only [List.mem_cons, List.not_mem_nil, or_false] at hx
        rcases hx with rfl | rfl | rfl
        · exact Or.inr (Or.inr (Or.inr (Or.inr (Or.inr (Or.inl hk)))))
        · exact Or.inr (Or.inr (Or.inr (Or.inr (Or.inr (Or.inr (Or.inl hk))))))
        · exact Or.inr (Or.inr (Or.inr (Or.inr (Or.inr (Or.inr (Or.inr hk))))))
      rw [if_neg (fun x => hns (Or.inl x)), if_neg (fun x => hns (Or.inr x)), if_neg n3] at h1
      split at h1
      · cases h1
      · rename_i x hx
        split_ifs at h1 with hv
        rw [hx, not_not.mp hv]
    · have := combineDicts_agree h p hp hk
      rw [← this]
      obtain ⟨e1, e2⟩ := combineEntry_lookup h1
      by_cases hq : p.1 = q.1
      · rw [e2 (by rw [← hq]; exact hns)]
      · exact (e1 _ hq).symm

/-- Only data of the same variables, shape, axes and other entries and parameters are combined. -/
theorem only_compatible {α : Type} [Add α] (a b c : Kind × Dat α) (h : addDat a b = .ok c) :
    a.2.vars = b.2.vars ∧ a.2.data.shape = b.2.data.shape ∧
      (∀ p ∈ b.2.metadata, ¬ NotCompared p.1 → a.2.metadata.lookup p.1 = some p.2) ∧
      (∀ p ∈ b.2.parameters, ¬ NotCompared p.1 → a.2.parameters.lookup p.1 = some p.2) ∧
      (a.1 = .d1 → b.1 = .d1 ∧ ∀ k ∈ [t "xlabel", t "xlimits"], a.2.metadata.lookup k = b.2.metadata.lookup k) ∧
      (a.1 = .d2 → b.1 = .d2 ∧
        ∀ k ∈ [t "xlabel", t "ylabel", t "xylimits"], a.2.metadata.lookup k = b.2.metadata.lookup k) := by
  have hagree : ∀ (keys : List Text) (x y : List (Text × Text)), agree keys x y = .ok true →
      ∀ k ∈ keys, x.lookup k = y.lookup k := by
    intro keys x y hxy
    induction keys with
    | nil => intro k hk; cases hk
    | cons q keys ih =>
      rw [agree] at hxy
      split at hxy
      · rename_i u v hu hv
        split_ifs at hxy with huv
        · cases hxy
        intro k hk
        rcases List.mem_cons.mp hk with rfl | hk
        · rw [hu, hv, not_not.mp huv]
        · exact ih hxy k hk
      · cases hxy
  have hv := addDat_vars h
  rw [addDat] at h
  split at h
  · cases h
  · cases h
  rename_i hs
  split at h
  · cases h
  rename_i md hmd
  split at h
  · cases h
  rename_i pm hpm
  rw [safe] at hs
  split_ifs at hs with h1 h2 h3
  · cases hs
  · cases hs
  · split at hs <;> cases hs
  split at hs
  · cases hs
  · cases hs
  rename_i hag
  refine ⟨hv.symm, not_not.mp h3, combineDicts_agree hmd, combineDicts_agree hpm, ?_, ?_⟩
  · intro ha
    rw [ha] at h1 hag
    exact ⟨not_not.mp h1, hagree _ _ _ hag⟩
  · intro ha
    rw [ha] at h1 hag
    exact ⟨not_not.mp h1, hagree _ _ _ hag⟩

/-- Files with two points of three variables. -/
def file1 (a b e : Int) : Kind × Dat Int :=
  (.d1, { metadata := [(t "type", t "array_1d(2)"), (t "xlabel", t "x"), (t "xlimits", t "0 1"), (t "Ncount", strInt 100)],
          parameters := [(t "Ncount_max", t "5")], vars := [t "x", t "I", t "I_err", t "N"],
          data := ⟨[4, 2], [0, 1, a, b, e, e, 1, 2]⟩ })

example : ∃ out, addDats (file1 1 2 3) [file1 10 20 4, file1 100 200 12] = .ok out ∧
    out.2.data.data = [0, 1, 111, 222, 19, 19, 3, 6] ∧ out.2.metadata.lookup (t "Ncount") = some (t "300") := by
  have h : (match addDats (file1 1 2 3) [file1 10 20 4, file1 100 200 12] with
      | .ok out => decide (out.2.data.data = [0, 1, 111, 222, 19, 19, 3, 6] ∧
          out.2.metadata.lookup (t "Ncount") = some (t "300"))
      | .error _ => false) = true := by decide +kernel
  split at h
  · rename_i out hout
    exact ⟨out, hout, by simpa using h⟩
  · cases h

example : (file1 1 2 3).2.Read1 2 := ⟨by decide +kernel, by decide +kernel, by decide +kernel⟩

/-- Files with one variable more and two by one points. -/
def file2 (a b e : Int) : Kind × Dat Int :=
  (.d2, { metadata := [(t "type", t "array_2d(2, 1)"), (t "xlabel", t "x"), (t "ylabel", t "y"), (t "xylimits", t "0 1 0 1"),
            (t "Ncount", strInt 100)],
          parameters := [], vars := [t "I", t "I_err", t "N"], data := ⟨[3, 1, 2], [a, b, e, e, 1, 2]⟩ })

example : ∃ out, addDats (file2 1 2 3) [file2 10 20 4, file2 100 200 12] = .ok out ∧
    out.2.data.data = [111, 222, 19, 19, 3, 6] ∧ out.2.metadata.lookup (t "Ncount") = some (t "300") := by
  have h : (match addDats (file2 1 2 3) [file2 10 20 4, file2 100 200 12] with
      | .ok out => decide (out.2.data.data = [111, 222, 19, 19, 3, 6] ∧
          out.2.metadata.lookup (t "Ncount") = some (t "300"))
      | .error _ => false) = true := by decide +kernel
  split at h
  · rename_i out hout
    exact ⟨out, hout, by simpa using h⟩
  · cases h

example : (file2 1 2 3).2.Read2 2 1 := ⟨by decide +kernel, by decide +kernel, by decide +kernel⟩

/-- The errors of data files are added, not combined in quadrature. -/
theorem file_errors_wrong : ∃ (a b out : Kind × Dat Int), addDat a b = .ok out ∧ a.2.vars = [t "x", t "I", t "I_err", t "N"] ∧
    a.2.data.data.getD (2 * 2) 0 = 3 ∧ b.2.data.data.getD (2 * 2) 0 = 4 ∧
    out.2.data.data.getD (2 * 2) 0 * out.2.data.data.getD (2 * 2) 0 ≠ 3 * 3 + 4 * 4 := by
  have h : (match addDat (file1 1 2 3) (file1 1 2 4) with
      | .ok out => decide (out.2.data.data.getD (2 * 2) 0 * out.2.data.data.getD (2 * 2) 0 ≠ 3 * 3 + 4 * 4)
      | .error _ => false) = true := by decide +kernel
  split at h
  · rename_i out hout
    exact ⟨_, _, out, hout, rfl, rfl, rfl, by simpa using h⟩
  · cases h

/-- A parameter with `Ncount` in its name is added too, although both simulations had the same value. -/
theorem parameter_added : ∃ (a b out : Kind × Dat Int), addDat a b = .ok out ∧
    a.2.parameters = [(t "Ncount_max", t "5")] ∧ b.2.parameters = [(t "Ncount_max", t "5")] ∧
    out.2.parameters = [(t "Ncount_max", t "10")] := by
  have h : (match addDat (file1 1 2 3) (file1 1 2 4) with
      | .ok out => decide (out.2.parameters = [(t "Ncount_max", t "10")])
      | .error _ => false) = true := by decide +kernel
  split at h
  · rename_i out hout
    exact ⟨_, _, out, hout, rfl, rfl, by simpa using h⟩
  · cases h

/-- Data files without dimensions can never be combined. -/
theorem no_dimension_refused {α : Type} [Add α] (a b : Kind × Dat α) (ha : a.1 = .d0) (hb : b.1 = .d0) :
    addDat a b = .error .runtimeError := by
  have : safe a b = .ok false := by
    rw [safe, if_pos]
    rw [ha, hb]
    decide
  rw [addDat, this]

end Verif.Loader
