import Verif.Scan.Model
import Verif.Range.Props

namespace Verif.Scan
open Verif.Range

theorem mapM_ok {α β ε : Type} (f : α → Except ε β) (l : List α) (l' : List β) :
    l.mapM f = .ok l' ↔ List.Forall₂ (fun a b => f a = .ok b) l l' := by
  induction l generalizing l' with
  | nil =>
    simp only [List.mapM_nil, List.forall₂_nil_left_iff]
    constructor
    · intro h; cases h; rfl
    · rintro rfl; rfl
  | cons a l ih =>
    rw [List.mapM_cons]
    cases hfa : f a with
    | error e =>
      simp only [bind, Except.bind]
      constructor
      · intro h; cases h
      · intro h; cases h with | cons h _ => simp [hfa] at h
    | ok b =>
      cases hl : l.mapM f with
      | error e =>
        simp only [bind, Except.bind]
        constructor
        · intro h; cases h
        · intro h
          cases h with | cons h h2 =>
            have := (ih _).mpr h2
            rw [hl] at this; cases this
      | ok bs =>
        simp only [bind, Except.bind, pure, Except.pure]
        constructor
        · intro h; cases h
          exact List.Forall₂.cons hfa ((ih _).mp hl)
        · intro h
          cases h with | cons h h2 =>
            have := (ih _).mpr h2
            rw [hl] at this; cases this
            rw [hfa] at h; cases h; rfl

theorem mapM_some {α β : Type} (f : α → Option β) (l : List α) (l' : List β) :
    l.mapM f = some l' ↔ List.Forall₂ (fun a b => f a = some b) l l' := by
  induction l generalizing l' with
  | nil =>
    simp only [List.mapM_nil, List.forall₂_nil_left_iff]
    constructor
    · intro h; cases h; rfl
    · rintro rfl; rfl
  | cons a l ih =>
    rw [List.mapM_cons]
    cases hfa : f a with
    | none =>
      simp only [bind, Option.bind]
      constructor
      · intro h; cases h
      · intro h; cases h with | cons h _ => simp [hfa] at h
    | some b =>
      cases hl : l.mapM f with
      | none =>
        simp only [bind, Option.bind]
        constructor
        · intro h; cases h
        · intro h
          cases h with | cons h h2 =>
            have := (ih _).mpr h2
            rw [hl] at this; cases this
      | some bs =>
        simp only [bind, Option.bind, pure]
        constructor
        · intro h; cases h
          exact List.Forall₂.cons hfa ((ih _).mp hl)
        · intro h
          cases h with | cons h h2 =>
            have := (ih _).mpr h2
            rw [hl] at this; cases this
            rw [hfa] at h; cases h; rfl

theorem zipCols_eq (n : Nat) : ∀ (cols : List (List Val)), (∀ c ∈ cols, c.length = n) →
    zipCols cols n = (List.range n).map fun i => cols.filterMap (fun c => c[i]?) := by
  induction n with
  | zero => intro cols _; rfl
  | succ n ih =>
    intro cols h
    have hall : cols.all (fun c => !c.isEmpty) = true := by
      rw [List.all_eq_true]
      intro c hc
      have := h c hc
      cases c with
      | nil => simp at this
      | cons => rfl
    rw [zipCols, if_pos hall, ih (cols.map List.tail)]
    · rw [List.range_succ_eq_map, List.map_cons]
      congr 1
      · congr 1; funext c; cases c <;> rfl
      · rw [List.map_map]
        apply List.map_congr_left
        intro i _
        simp only [List.filterMap_map, Function.comp]
        congr 1; funext c; cases c <;> simp
    · intro c hc
      rw [List.mem_map] at hc
      obtain ⟨d, hd, rfl⟩ := hc
      simp [h d hd]

theorem pyZip_eq (cols : List (List Val)) (hne : cols ≠ []) (n : Nat)
    (h : ∀ c ∈ cols, c.length = n) :
    pyZip cols = (List.range n).map fun i => cols.filterMap (fun c => c[i]?) := by
  cases cols with
  | nil => exact absurd rfl hne
  | cons c cs =>
    have := h c (by simp)
    subst this
    exact zipCols_eq _ _ h

theorem le_foldl_max (l : List Nat) : ∀ (a : Nat), a ≤ l.foldl max a ∧ ∀ x ∈ l, x ≤ l.foldl max a := by
  induction l with
  | nil => intro a; simp
  | cons b l ih =>
    intro a
    have := ih (max a b)
    simp only [List.foldl_cons, List.mem_cons]
    refine ⟨by omega, ?_⟩
    rintro x (rfl | hx)
    · omega
    · exact this.2 x hx

theorem foldl_max_mem (l : List Nat) : ∀ (a : Nat), l.foldl max a = a ∨ l.foldl max a ∈ l := by
  induction l with
  | nil => intro a; simp
  | cons b l ih =>
    intro a
    simp only [List.foldl_cons, List.mem_cons]
    rcases ih (max a b) with h | h
    · rw [h]; rcases le_total a b with h' | h' <;> simp [h']
    · exact Or.inr (Or.inr h)

theorem le_maxLen (l : List Nat) (x : Nat) (h : x ∈ l) : x ≤ maxLen l := (le_foldl_max l 0).2 x h

theorem len_gt_one_fits (r : MRange) (n : Nat) (h : r.len = .ok n) (hn : 1 < n) : OneStepFits r := by
  have hs : r.step ≠ 0 := by
    intro hc
    simp [MRange.len, hc] at h
  rw [oneStepFits_iff]
  refine ⟨hs, ?_⟩
  by_cases h0 : 0 ≤ r.quot
  · rw [len_of_nonneg r hs h0] at h
    cases h
    have h1 : (1 : ℤ) ≤ ⌊r.quot⌋ := by omega
    have := Int.le_floor.mp h1
    simpa using this
  · rw [len_of_neg r hs (lt_of_not_ge h0)] at h
    have hc0 : ⌈r.quot⌉ ≤ 0 := by
      rw [Int.ceil_le]; push_cast; linarith
    split at h
    · cases h
    · cases h; omega

theorem product_length (cols : List (List Val)) :
    (product cols).length = (cols.map List.length).prod := by
  induction cols with
  | nil => rfl
  | cons c cs ih =>
    simp only [product, List.length_flatMap, List.length_map, ih, List.map_cons, List.prod_cons]
    simp

theorem product_getElem? (c : List Val) (cs : List (List Val)) (i k : Nat)
    (hk : k < (product cs).length) :
    (product (c :: cs))[i * (product cs).length + k]? =
      (c[i]?).bind fun v => ((product cs)[k]?).map (v :: ·) := by
  generalize hr : product cs = rest at *
  rw [product, hr]
  clear hr
  induction c generalizing i with
  | nil => simp
  | cons a c ih =>
    rw [List.flatMap_cons]
    cases i with
    | zero =>
      rw [List.getElem?_append_left (by simpa using hk)]
      simp
    | succ i =>
      have : (i + 1) * rest.length + k = rest.length + (i * rest.length + k) := by ring
      rw [this, List.getElem?_append_right (by simp)]
      simp only [List.length_map]
      rw [show rest.length + (i * rest.length + k) - rest.length = i * rest.length + k by omega]
      rw [ih]
      simp

end Verif.Scan
