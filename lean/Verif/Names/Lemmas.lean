import Verif.Names.Model
import Mathlib.Data.List.Nodup
import Mathlib.Data.List.Perm.Basic
import Mathlib.Tactic.Tauto

/-!
Lemmas about names made by putting fixed texts around a name.
-/

namespace Verif.Names

/-- What is between two texts. -/
def strip (pre suf f : String) : Option String :=
  let m := (f.toList.drop pre.length).take (f.length - pre.length - suf.length)
  if pre ++ String.ofList m ++ suf = f then some (String.ofList m) else none

theorem strip_eq_some {pre suf f x : String} : strip pre suf f = some x ↔ pre ++ x ++ suf = f := by
  unfold strip
  constructor
  · intro h
    simp only at h
    split at h
    · rename_i he
      cases h
      exact he
    · cases h
  · rintro rfl
    have h : ((pre ++ x ++ suf).toList.drop pre.length).take ((pre ++ x ++ suf).length - pre.length - suf.length) =
        x.toList := by
      have h1 : (pre ++ x ++ suf).toList = pre.toList ++ (x.toList ++ suf.toList) := by simp
      have h2 : (pre ++ x ++ suf).length - pre.length - suf.length = x.toList.length := by
        simp only [String.length_append, String.length_toList]
        omega
      rw [h1, h2, ← String.length_toList, List.drop_left, List.take_left]
    simp only [h, String.ofList_toList, if_true]

/-- Which names give one of some fixed names. -/
theorem affix_mem_iff (pre suf x : String) (fs : List String) :
    pre ++ x ++ suf ∈ fs ↔ x ∈ fs.filterMap (strip pre suf) := by
  simp [strip_eq_some]

theorem affix_inj {pre suf x y : String} : pre ++ x ++ suf = pre ++ y ++ suf ↔ x = y := by
  constructor
  · intro h
    have : strip pre suf (pre ++ y ++ suf) = some x := strip_eq_some.2 h
    rw [strip_eq_some.2 rfl] at this
    exact (Option.some.inj this).symm
  · rintro rfl
    rfl

theorem prefix_inj {pre x y : String} : pre ++ x = pre ++ y ↔ x = y := by
  simp

theorem suffix_inj {suf x y : String} : x ++ suf = y ++ suf ↔ x = y := by
  simp

/-- Texts with different endings of the same length differ. -/
theorem ne_of_endings {a b s t : String} (hl : s.length = t.length) (h : s ≠ t) : a ++ s ≠ b ++ t := by
  intro he
  have h1 : a.toList ++ s.toList = b.toList ++ t.toList := by
    rw [← String.toList_append, ← String.toList_append, he]
  have := List.append_inj_right' h1 (by rw [String.length_toList, String.length_toList]; exact hl)
  exact h (String.toList_inj.1 this)

/-- Texts with different beginnings of the same length differ. -/
theorem ne_of_beginnings {a b s t : String} (hl : s.length = t.length) (h : s ≠ t) : s ++ a ≠ t ++ b := by
  intro he
  have h1 : s.toList ++ a.toList = t.toList ++ b.toList := by
    rw [← String.toList_append, ← String.toList_append, he]
  have := List.append_inj_left h1 (by rw [String.length_toList, String.length_toList]; exact hl)
  exact h (String.toList_inj.1 this)

/-! ### `dict.fromkeys` -/

theorem fromKeys_fold {α : Type} [DecidableEq α] (xs acc : List α) (h : acc.Nodup) :
    (xs.foldl (fun acc x => if x ∈ acc then acc else acc ++ [x]) acc).Nodup ∧
      ∀ a, a ∈ xs.foldl (fun acc x => if x ∈ acc then acc else acc ++ [x]) acc ↔ a ∈ acc ∨ a ∈ xs := by
  induction xs generalizing acc with
  | nil => simp [h]
  | cons x xs ih =>
    rw [List.foldl_cons]
    by_cases hx : x ∈ acc
    · rw [if_pos hx]
      refine ⟨(ih acc h).1, fun a => ?_⟩
      rw [(ih acc h).2, List.mem_cons]
      constructor
      · tauto
      · rintro (h | rfl | h) <;> tauto
    · rw [if_neg hx]
      have hn : (acc ++ [x]).Nodup := by
        rw [List.nodup_append']
        simpa [h, List.disjoint_singleton] using hx
      refine ⟨(ih _ hn).1, fun a => ?_⟩
      rw [(ih _ hn).2]
      simp only [List.mem_append, List.mem_cons]
      tauto

theorem fromKeys_nodup {α : Type} [DecidableEq α] (xs : List α) : (fromKeys xs).Nodup :=
  (fromKeys_fold xs [] List.nodup_nil).1

theorem mem_fromKeys {α : Type} [DecidableEq α] {xs : List α} {a : α} : a ∈ fromKeys xs ↔ a ∈ xs := by
  rw [fromKeys, (fromKeys_fold xs [] List.nodup_nil).2]
  simp

theorem mem_types {s : Source} {c : Comp} : c ∈ s.types ↔ ∃ i ∈ s.comps, i.type = c := by
  rw [Source.types, mem_fromKeys, List.mem_map]

/-- The names of the definitions are distinct just if no two definitions have the same name. -/
theorem types_names_nodup {s : Source} :
    (s.types.map (·.name)).Nodup ↔ ∀ i ∈ s.comps, ∀ j ∈ s.comps, i.type.name = j.type.name → i.type = j.type := by
  constructor
  · intro h i hi j hj he
    exact List.inj_on_of_nodup_map h (mem_types.2 ⟨i, hi, rfl⟩) (mem_types.2 ⟨j, hj, rfl⟩) he
  · intro h
    refine List.Nodup.map_on ?_ (fromKeys_nodup _)
    intro c hc d hd he
    obtain ⟨i, hi, rfl⟩ := mem_types.1 hc
    obtain ⟨j, hj, rfl⟩ := mem_types.1 hd
    exact h i hi j hj he

/-! ### Functions of sections -/

theorem className_inj {c d : Comp} {t : String} : className c t = className d t ↔ c.name = d.name := by
  unfold className
  rw [show "class_" ++ c.name ++ "_" ++ t = "class_" ++ c.name ++ ("_" ++ t) by rw [String.append_assoc],
    show "class_" ++ d.name ++ "_" ++ t = "class_" ++ d.name ++ ("_" ++ t) by rw [String.append_assoc]]
  exact affix_inj

theorem classFunctions_nodup {s : Source} (h : (s.types.map (·.name)).Nodup) (p : Comp → Prop) [DecidablePred p]
    (t : String) : (s.types.flatMap fun c => if p c then [className c t] else []).Nodup := by
  rw [List.nodup_flatMap]
  refine ⟨fun c _ => by split <;> simp, ?_⟩
  rw [List.Nodup, List.pairwise_map] at h
  refine h.imp ?_
  intro c d hcd
  simp only [Function.onFun]
  split <;> split <;> simp [List.disjoint_singleton, className_inj, Ne.symm hcd]

theorem mem_classFunctions {s : Source} {p : Comp → Prop} [DecidablePred p] {t n : String} :
    n ∈ (s.types.flatMap fun c => if p c then [className c t] else []) ↔ ∃ c ∈ s.types, p c ∧ n = className c t := by
  rw [List.mem_flatMap]
  constructor
  · rintro ⟨c, hc, hn⟩
    split at hn
    · rename_i hp
      exact ⟨c, hc, hp, by simpa using hn⟩
    · simp at hn
  · rintro ⟨c, hc, hp, rfl⟩
    exact ⟨c, hc, by simp [hp]⟩

theorem classPart_eq (s : Source) (blocks : Comp → List String) (t : String) :
    classPart s blocks t = s.types.flatMap fun c => if blocks c ≠ [] then [className c t] else [] := by
  unfold classPart
  congr 1
  funext c
  simp [List.length_eq_zero_iff]

end Verif.Names
