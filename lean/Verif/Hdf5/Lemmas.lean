import Verif.Hdf5.Model
import Mathlib.Data.List.Forall2
import Mathlib.Data.List.Nodup
import Mathlib.Tactic.Push

/-! Lemmas on look-ups and on the names of entries. -/

namespace Verif.Hdf5

/-! ### Look-ups -/

theorem lookup_filterMap {α : Type} (f : String → Option α) (l : List String) (n : String) :
    (l.filterMap fun m => (f m).map (Prod.mk m)).lookup n = if n ∈ l then f n else none := by
  induction l with
  | nil => rfl
  | cons m l ih =>
    cases hf : f m with
    | none =>
      rw [List.filterMap_cons_none (by simp [hf]), ih]
      by_cases hn : n = m
      · subst hn
        simp [hf]
      · simp [hn]
    | some a =>
      rw [List.filterMap_cons_some (b := (m, a)) (by simp [hf])]
      by_cases hn : n = m
      · subst hn
        simp [List.lookup, hf]
      · simp only [List.lookup, beq_false_of_ne hn, ih, List.mem_cons, hn, false_or]

theorem lookup_map {α : Type} (f : String → α) (l : List String) (n : String) :
    (l.map fun m => (m, f m)).lookup n = if n ∈ l then some (f n) else none := by
  have := lookup_filterMap (fun m => some (f m)) l n
  rwa [show (l.filterMap fun m => (some (f m)).map (Prod.mk m)) = l.map fun m => (m, f m) by
    induction l <;> simp_all] at this

theorem lookup_map_snd {α β : Type} (f : α → β) (l : List (String × α)) (n : String) :
    (l.map fun p => (p.1, f p.2)).lookup n = (l.lookup n).map f := by
  induction l with
  | nil => rfl
  | cons p l ih =>
    simp only [List.map_cons, List.lookup]
    split <;> simp_all

theorem lookup_append' {α : Type} (l1 l2 : List (String × α)) (n : String) :
    (l1 ++ l2).lookup n = (l1.lookup n).or (l2.lookup n) := by
  induction l1 with
  | nil => simp
  | cons p l ih =>
    simp only [List.cons_append, List.lookup]
    split <;> simp_all

theorem lookup_zip {α : Type} {names : List String} {values : List α} (hn : names.Nodup) {p : String × α}
    (hp : p ∈ names.zip values) : (names.zip values).lookup p.1 = some p.2 := by
  induction names generalizing values with
  | nil => simp at hp
  | cons n names ih =>
    cases values with
    | nil => simp at hp
    | cons v values =>
      rw [List.zip_cons_cons] at hp ⊢
      rw [List.nodup_cons] at hn
      rcases List.mem_cons.mp hp with rfl | hp'
      · simp [List.lookup]
      · have hne : p.1 ≠ n := by
          rintro rfl
          exact hn.1 (List.of_mem_zip (a := p.1) (b := p.2) hp').1
        rw [List.lookup, beq_false_of_ne hne]
        exact ih hn.2 hp'

theorem lookup_zip_none {α : Type} {names : List String} {values : List α} {n : String} (hn : n ∉ names) :
    (names.zip values).lookup n = none := by
  induction names generalizing values with
  | nil => simp
  | cons m names ih =>
    cases values with
    | nil => simp
    | cons v values =>
      rw [List.mem_cons, not_or] at hn
      rw [List.zip_cons_cons, List.lookup, beq_false_of_ne hn.1]
      exact ih hn.2

theorem zip_mem_of_mem {α : Type} {names : List String} {values : List α} (h : values.length = names.length) {n : String}
    (hn : n ∈ names) : ∃ v, (n, v) ∈ names.zip values := by
  induction names generalizing values with
  | nil => cases hn
  | cons m names ih =>
    cases values with
    | nil => simp at h
    | cons v values =>
      rcases List.mem_cons.mp hn with rfl | hn
      · exact ⟨v, by simp⟩
      · obtain ⟨w, hw⟩ := ih (values := values) (by simpa using h) hn
        exact ⟨w, by rw [List.zip_cons_cons]; exact List.mem_cons_of_mem _ hw⟩

theorem saveEach_eq (ver : String) (l : List Val) : saveEach ver l = l.map (save ver) := by
  induction l with
  | nil => rfl
  | cons v l ih => rw [saveEach, ih, List.map_cons]

theorem loadEach_eq (ver : String) (dt : String → List Val → Option Atom) (l : List Node) :
    loadEach ver dt l = l.map (load ver dt) := by
  induction l with
  | nil => rfl
  | cons v l ih => rw [loadEach, ih, List.map_cons]

theorem allOk_map {α : Type} (l : List α) : allOk (l.map Except.ok) = .ok l := by
  induction l with
  | nil => rfl
  | cons a l ih => rw [List.map_cons, allOk, ih]

/-! ### Names of entries -/

/-- The last `k` digits of `n`. -/
def fixed : Nat → Nat → List Char
  | 0, _ => []
  | k + 1, n => fixed k (n / 10) ++ [digit n]

theorem fixed_length (k n : Nat) : (fixed k n).length = k := by
  induction k generalizing n with
  | zero => rfl
  | succ k ih => simp [fixed, ih]

theorem fixed_zero (k : Nat) : fixed k 0 = List.replicate k '0' := by
  induction k with
  | zero => rfl
  | succ k ih =>
    rw [fixed, Nat.zero_div, ih, List.replicate_succ']
    rfl

theorem dec_length_pos (n : Nat) : 0 < (dec n).length := by
  unfold dec
  split_ifs <;> simp

/-- A number of `k` digits is below `10 ^ k`. -/
theorem lt_pow_dec (n : Nat) : n < 10 ^ (dec n).length := by
  induction n using Nat.strong_induction_on with
  | _ n ih =>
    unfold dec
    split_ifs with h
    · simpa using h
    · have := ih (n / 10) (by omega)
      rw [List.length_append, List.length_singleton, Nat.pow_succ]
      omega

theorem dec_length_le {k n : Nat} (hk : 0 < k) (h : n < 10 ^ k) : (dec n).length ≤ k := by
  induction k generalizing n with
  | zero => omega
  | succ k ih =>
    unfold dec
    split_ifs with hn
    · simp
    · rw [List.length_append, List.length_singleton]
      have hk' : 0 < k := by
        rcases Nat.eq_zero_or_pos k with rfl | hk
        · simp at h
          omega
        · exact hk
      have := ih hk' (n := n / 10) (by rw [Nat.pow_succ] at h; omega)
      omega

theorem pad_dec {k n : Nat} (hk : 0 < k) (h : n < 10 ^ k) :
    List.replicate (k - (dec n).length) '0' ++ dec n = fixed k n := by
  induction k generalizing n with
  | zero => omega
  | succ k ih =>
    rw [fixed]
    unfold dec
    split_ifs with hn
    · rw [show n / 10 = 0 by omega, fixed_zero]
      simp
    · have hk' : 0 < k := by
        rcases Nat.eq_zero_or_pos k with rfl | hk
        · simp at h
          omega
        · exact hk
      rw [← ih hk' (n := n / 10) (by rw [Nat.pow_succ] at h; omega), List.length_append, List.length_singleton,
        List.append_assoc, Nat.add_sub_add_right]

theorem digit_lt {a b : Nat} (h : a % 10 < b % 10) : digit a < digit b := by
  have ha : a % 10 < 10 := Nat.mod_lt _ (by decide)
  have hb : b % 10 < 10 := Nat.mod_lt _ (by decide)
  simp only [digit]
  have key : ∀ x < 10, ∀ y < 10, x < y → Char.ofNat (48 + x) < Char.ofNat (48 + y) := by decide
  exact key _ ha _ hb h

theorem lt_append {l1 l2 : List Char} (hl : l1.length = l2.length) (h : l1 < l2) (r1 r2 : List Char) :
    l1 ++ r1 < l2 ++ r2 := by
  induction l1 generalizing l2 with
  | nil =>
    cases l2 with
    | nil => exact absurd h (List.lt_irrefl [])
    | cons _ _ => simp at hl
  | cons a l1 ih =>
    cases l2 with
    | nil => simp at hl
    | cons b l2 =>
      rw [List.cons_append, List.cons_append, List.cons_lt_cons_iff] at *
      rcases h with h | ⟨rfl, h⟩
      · exact .inl h
      · exact .inr ⟨rfl, ih (by simpa using hl) h⟩

theorem append_lt (l : List Char) {r1 r2 : List Char} (h : r1 < r2) : l ++ r1 < l ++ r2 := by
  induction l with
  | nil => exact h
  | cons a l ih =>
    rw [List.cons_append, List.cons_append, List.cons_lt_cons_iff]
    exact .inr ⟨rfl, ih⟩

theorem fixed_lt {k a b : Nat} (hb : b < 10 ^ k) (h : a < b) : fixed k a < fixed k b := by
  induction k generalizing a b with
  | zero =>
    simp at hb
    omega
  | succ k ih =>
    rw [fixed, fixed]
    rw [Nat.pow_succ] at hb
    rcases Nat.lt_or_ge (a / 10) (b / 10) with hd | hd
    · exact lt_append (by rw [fixed_length, fixed_length]) (ih (by omega) hd) _ _
    · have he : a / 10 = b / 10 := by omega
      rw [he]
      refine append_lt _ ?_
      rw [List.cons_lt_cons_iff]
      exact .inl (digit_lt (by omega))

theorem entryName_eq {count idx : Nat} (h : idx < count) :
    entryName (padOf count) idx = String.ofList ('t' :: fixed (padOf count) idx) := by
  rw [entryName, padOf, pad_dec (dec_length_pos count)]
  exact Nat.lt_trans h (lt_pow_dec count)

end Verif.Hdf5
