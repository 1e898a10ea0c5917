import Verif.DataType.Model
import Mathlib.Data.List.Perm.Basic

/-! Property C08: promotion of data types. -/

namespace Verif.DT

/-- How general a type is: a string can represent anything, a float any integer. -/
def rank : DataType → Nat
  | .undefined => 0
  | .int => 1
  | .float => 2
  | .str => 3

theorem rank_injective (a b : DataType) (h : rank a = rank b) : a = b := by
  cases a <;> cases b <;> first | rfl | (exact absurd h (by decide))

/-- **C08**: the promoted type is the more general of the two. -/
theorem promotion_is_max (a b : DataType) : rank (a.add b) = max (rank a) (rank b) := by
  cases a <;> cases b <;> rfl

/-- **C08**: promotion is commutative, associative, idempotent, and `undefined` is neutral. -/
theorem promotion_laws (a b c : DataType) :
    a.add b = b.add a ∧ (a.add b).add c = a.add (b.add c) ∧ a.add a = a ∧
    DataType.undefined.add a = a ∧ a.add .undefined = a := by
  refine ⟨?_, ?_, ?_, ?_, ?_⟩ <;> apply rank_injective <;> simp only [promotion_is_max]
  · exact Nat.max_comm _ _
  · exact Nat.max_assoc _ _ _
  · exact Nat.max_self _
  · exact Nat.zero_max _
  · exact Nat.max_zero _

/-- All ways of combining the types of a sequence, with arbitrary bracketing. -/
inductive Combines : List DataType → DataType → Prop
  | one (t) : Combines [t] t
  | join {xs ys a b} : Combines xs a → Combines ys b → Combines (xs ++ ys) (a.add b)

theorem combines_rank (xs : List DataType) (t : DataType) (h : Combines xs t) :
    (∃ x ∈ xs, rank x = rank t) ∧ ∀ x ∈ xs, rank x ≤ rank t := by
  induction h with
  | one t => simp
  | @join xs ys a b _ _ iha ihb =>
    rw [promotion_is_max]
    obtain ⟨⟨x, hx, ex⟩, ha⟩ := iha
    obtain ⟨⟨y, hy, ey⟩, hb⟩ := ihb
    constructor
    · rcases Nat.le_total (rank a) (rank b) with h | h
      · exact ⟨y, by simp [hy], by omega⟩
      · exact ⟨x, by simp [hx], by omega⟩
    · intro z hz
      rcases List.mem_append.1 hz with h | h
      · have := ha z h; omega
      · have := hb z h; omega

/-- **C08**: the type of a compound expression depends neither on the order nor on the bracketing of its parts:
it is the most general type that occurs. -/
theorem promotion_order_independent (xs ys : List DataType) (h : xs.Perm ys) (s t : DataType)
    (hs : Combines xs s) (ht : Combines ys t) : s = t := by
  apply rank_injective
  obtain ⟨⟨x, hx, ex⟩, ha⟩ := combines_rank xs s hs
  obtain ⟨⟨y, hy, ey⟩, hb⟩ := combines_rank ys t ht
  have h1 := ha y (h.mem_iff.2 hy)
  have h2 := hb x (h.mem_iff.1 hx)
  omega

example : Combines [.int, .undefined, .float] .float ∧ Combines [.float, .int, .undefined] .float :=
  ⟨.join (.one .int) (.join (.one .undefined) (.one .float)),
   .join (.join (.one .float) (.one .int)) (.one .undefined)⟩

/-- Division yields a float unless one of the arguments is a string, which is refused. -/
theorem division_type (a b : DataType) :
    (a.truediv b = none ↔ a = .str ∨ b = .str) ∧ ∀ t, a.truediv b = some t → t = .float := by
  cases a <;> cases b <;> simp [DataType.truediv]

/-- Compatibility is reflexive and symmetric and says that promotion does not turn a number into a string;
it is not transitive, because `undefined` is compatible with everything. -/
theorem compatibility_laws :
    (∀ a : DataType, a.compatible a = true) ∧
    (∀ a b : DataType, a.compatible b = b.compatible a) ∧
    (∀ a b : DataType, a.compatible b = true ↔ (a.add b = .str → (a = .str ∨ a = .undefined) ∧ (b = .str ∨ b = .undefined))) ∧
    (∃ a b c : DataType, a.compatible b = true ∧ b.compatible c = true ∧ a.compatible c = false) := by
  refine ⟨?_, ?_, ?_, ⟨.int, .undefined, .str, by decide⟩⟩
  · intro a; cases a <;> rfl
  · intro a b; cases a <;> cases b <;> rfl
  · intro a b; cases a <;> cases b <;> decide

end Verif.DT
