import Verif.Loader.Dat
import Mathlib.Tactic.Ring
import Mathlib.Tactic.Linarith

/-! C46: the orientation of data arrays. -/

namespace Verif.Loader

/-- Rows of equal length, one after another. -/
theorem flatten_get {α : Type} {m : Nat} : ∀ {rows : List (List α)}, (∀ r ∈ rows, r.length = m) → ∀ (i j : Nat), j < m →
    rows.flatten[i * m + j]? = rows[i]?.bind fun r => r[j]?
  | [], _, i, j, _ => by simp
  | r :: rows, h, i, j, hj => by
    have hr := h r List.mem_cons_self
    rw [List.flatten_cons]
    cases i with
    | zero =>
      rw [Nat.zero_mul, Nat.zero_add, List.getElem?_append_left (by omega)]
      rfl
    | succ i =>
      have : (i + 1) * m + j = r.length + (i * m + j) := by rw [hr]; ring
      rw [this, List.getElem?_append_right (by omega), Nat.add_sub_cancel_left,
        flatten_get (fun x hx => h x (List.mem_cons_of_mem _ hx)) i j hj]
      rfl

theorem flatten_length {α : Type} {m : Nat} : ∀ {rows : List (List α)}, (∀ r ∈ rows, r.length = m) →
    rows.flatten.length = rows.length * m
  | [], _ => by simp
  | r :: rows, h => by
    rw [List.flatten_cons, List.length_append, h r List.mem_cons_self,
      flatten_length fun x hx => h x (List.mem_cons_of_mem _ hx), List.length_cons]
    ring

theorem filterMap_range {α : Type} {f : Nat → Option α} : ∀ {n : Nat}, (∀ i < n, f i ≠ none) →
    ((List.range n).filterMap f).length = n ∧ ∀ i < n, ((List.range n).filterMap f)[i]? = f i
  | 0, _ => by simp
  | n + 1, h => by
    obtain ⟨h1, h2⟩ := filterMap_range (n := n) fun i hi => h i (by omega)
    obtain ⟨x, hx⟩ := Option.ne_none_iff_exists'.mp (h n (by omega))
    rw [List.range_succ, List.filterMap_append, List.filterMap_cons_some hx, List.filterMap_nil]
    refine ⟨by simp [h1], fun i hi => ?_⟩
    by_cases hin : i < n
    · rw [List.getElem?_append_left (by omega), h2 i hin]
    · obtain rfl : i = n := by omega
      rw [List.getElem?_append_right (by omega), h1, Nat.sub_self, hx]
      rfl

theorem index_lt {n m i j : Nat} (hi : i < n) (hj : j < m) : i * m + j < n * m := by
  have : (i + 1) * m ≤ n * m := Nat.mul_le_mul_right m hi
  linarith [Nat.succ_mul i m, this]

theorem column_some {α : Type} {a : Nd α} {n m : Nat} (h : a.data.length = n * m) {j : Nat} (hj : j < m) :
    ∀ i < n, a.data[i * m + j]? ≠ none := by
  intro i hi
  rw [ne_eq, List.getElem?_eq_none_iff, h]
  have := index_lt hi hj
  omega

theorem columns_spec {α : Type} {a : Nd α} {n m : Nat} (h : a.data.length = n * m) :
    (a.columns n m).length = m ∧ (∀ r ∈ a.columns n m, r.length = n) ∧
      ∀ i < n, ∀ j < m, ((a.columns n m)[j]?.bind fun r => r[i]?) = a.data[i * m + j]? := by
  refine ⟨by simp [Nd.columns], ?_, ?_⟩
  · intro r hr
    obtain ⟨j, hj, rfl⟩ := List.mem_map.mp hr
    exact (filterMap_range (column_some h (List.mem_range.mp hj))).1
  · intro i hi j hj
    rw [Nd.columns, List.getElem?_map, List.getElem?_range hj]
    exact (filterMap_range (column_some h hj)).2 i hi

theorem transpose_eq {α : Type} (a : Nd α) (n m : Nat) : a.transpose n m = ⟨[m, n], (a.columns n m).flatten⟩ := by
  rw [Nd.transpose, Nd.columns, List.flatMap]

theorem transpose_get {α : Type} {a : Nd α} {n m : Nat} (h : a.data.length = n * m) {i j : Nat} (hi : i < n) (hj : j < m) :
    (a.transpose n m).data[j * n + i]? = a.data[i * m + j]? := by
  obtain ⟨_, h2, h3⟩ := columns_spec h
  rw [transpose_eq, flatten_get h2 j i hi, h3 i hi j hj]

theorem ofRows_regular {α : Type} {table : List (List α)} {n m : Nat} (hn : table.length = n) (hpos : 0 < n)
    (h : ∀ r ∈ table, r.length = m) : Nd.ofRows table = .ok ⟨[n, m], table.flatten⟩ := by
  cases table with
  | nil => simp at hn; omega
  | cons r rows =>
    have hr := h r List.mem_cons_self
    rw [Nd.ofRows, if_pos, hr, ← hn, List.length_cons]
    rw [List.all_eq_true]
    intro x hx
    rw [hr, h x (List.mem_cons_of_mem _ hx)]
    simp

/-- C46: a table of `nx` lines of `nv` numbers each, under a header that declares `nx` points and `nv` variables, is always
accepted. The numbers of variable `v` are those of column `v` exactly if `nx` and `nv` differ or the table is symmetric. -/
theorem orientation {α : Type} (table : List (List α)) (nx nv : Nat) (hpos : 0 < nx) (hn : table.length = nx)
    (h : ∀ r ∈ table, r.length = nv) :
    ∃ a b : Nd α, Nd.ofRows table = .ok a ∧ shape1 nx nv a = .ok b ∧ b.shape = [nv, nx] ∧ b.data.length = nv * nx ∧
      ((∀ v < nv, ∀ i < nx, b.data[v * nx + i]? = table[i]?.bind fun r => r[v]?) ↔
        (nx ≠ nv ∨ ∀ i < nx, ∀ v < nx, (table[i]?.bind fun r => r[v]?) = table[v]?.bind fun r => r[i]?)) := by
  have hlen := flatten_length h
  rw [hn] at hlen
  by_cases he : nx = nv
  · subst he
    refine ⟨_, ⟨[nx, nx], table.flatten⟩, ofRows_regular hn hpos h, by simp [shape1], rfl, hlen, ?_⟩
    constructor
    · intro hb
      refine Or.inr fun i hi v hv => ?_
      rw [← hb v hv i hi, flatten_get h v i hi]
    · rintro (hb | hb) v hv i hi
      · exact absurd rfl hb
      · rw [flatten_get h v i hi, hb i hi v hv]
  · refine ⟨_, ({ shape := [nx, nv], data := table.flatten } : Nd α).transpose nx nv, ofRows_regular hn hpos h, ?_, rfl, ?_,
      ?_⟩
    · rw [shape1]
      simp only
      rw [if_neg (by omega), if_neg (by omega)]
    · rw [transpose_eq]
      obtain ⟨h1, h2, _⟩ := columns_spec (a := ⟨[nx, nv], table.flatten⟩) hlen
      rw [flatten_length h2, h1]
    · refine iff_of_true (fun v hv i hi => ?_) (Or.inl he)
      rw [transpose_get hlen hi hv, flatten_get h i v hv]

/-- With as many points as variables the numbers of different variables are mixed: the second variable is
read from the second line. -/
theorem square_table_mixed : ∃ (table : List (List Int)) (a b : Nd Int),
    table = [[0, 10, 1, 2], [1, 11, 3, 4], [2, 12, 5, 6], [3, 13, 7, 8]] ∧ Nd.ofRows table = .ok a ∧
    shape1 4 4 a = .ok b ∧ (b.data.drop 4).take 4 = [1, 11, 3, 4] :=
  ⟨_, ⟨[4, 4], [0, 10, 1, 2, 1, 11, 3, 4, 2, 12, 5, 6, 3, 13, 7, 8]⟩, _, rfl, by decide +kernel, rfl, by decide +kernel⟩

/-- A file without points cannot be read. -/
theorem no_points_refused {α : Type} (nv : Nat) : ∃ a : Nd α, Nd.ofRows ([] : List (List α)) = .ok a ∧
    shape1 0 nv a = .error .indexError :=
  ⟨_, rfl, rfl⟩

/-- A table of another size is refused, whatever the header declares. -/
theorem wrong_size_refused {α : Type} (n m : Nat) (data : List α) (nx : Int) (nv : Nat)
    (h1 : ¬ ((n : Int) = nx ∧ m = nv)) (h2 : ¬ (n = nv ∧ (m : Int) = nx)) : shape1 nx nv ⟨[n, m], data⟩ = .error .runtimeError := by
  rw [shape1]
  simp only
  rw [if_neg (by omega), if_pos (by omega)]

/-- Likewise for data without dimensions. -/
theorem wrong_size_refused_0 {α : Type} (n m : Nat) (data : List α) (nv : Nat) (h : data.length ≠ nv) :
    shape0 nv ⟨[n, m], data⟩ = .error .runtimeError := by
  rw [shape0, if_neg (by simp), if_pos h]

/-- Likewise for two-dimensional data. -/
theorem wrong_size_refused_2 {α : Type} (n m : Nat) (data : List α) (nx ny : Int) (nv : Nat)
    (h : ¬ ((n : Int) = ny * nv ∧ (m : Int) = nx)) : shape2 nx ny nv ⟨[n, m], data⟩ = .error .runtimeError := by
  rw [shape2]
  simp only
  rw [if_pos]
  by_contra hc
  push Not at hc
  exact h hc

/-- Two-dimensional data: the block of each variable is read in the declared orientation, for all sizes. -/
theorem orientation2 {α : Type} (table : List (List α)) (nx ny nv : Nat) (hpos : 0 < ny * nv) (hn : table.length = ny * nv)
    (h : ∀ r ∈ table, r.length = nx) :
    ∃ a b : Nd α, Nd.ofRows table = .ok a ∧ shape2 nx ny nv a = .ok b ∧ b.shape = [nv, ny, nx] ∧
      ∀ v y x, x < nx → b.data[(v * ny + y) * nx + x]? = table[v * ny + y]?.bind fun r => r[x]? := by
  refine ⟨_, ⟨[nv, ny, nx], table.flatten⟩, ofRows_regular hn hpos h, ?_, rfl, fun v y x hx => flatten_get h _ x hx⟩
  rw [shape2]
  simp only [Int.toNat_natCast]
  rw [if_neg]
  push_cast
  omega

/-- Data without dimensions: one line with a number for each variable. -/
theorem orientation0 {α : Type} (l : List α) : ∃ a : Nd α, Nd.ofRows [l] = .ok a ∧
    shape0 l.length a = .ok ⟨[l.length], l⟩ := by
  refine ⟨⟨[1, l.length], l⟩, by simp [Nd.ofRows], ?_⟩
  rw [shape0]
  simp

example : ∃ table : List (List Int), table.length = 2 ∧ ∀ r ∈ table, r.length = 4 := ⟨[[1, 2, 3, 4], [5, 6, 7, 8]], rfl, by decide⟩

end Verif.Loader
