import Verif.CDecl.Model
import Std.Data.String.ToNat
import Mathlib.Data.List.Nodup
import Mathlib.Data.List.Dedup
import Mathlib.Tactic.Push

/-!
C35: equality of declarations is reflexive and symmetric, not transitive.
C34: the names of the user variables of component instances never collide with each other; they may collide with those of
the instrument, and arrays are not written as arrays.
-/

namespace Verif.CDecl

/-! ### Equality -/

/-- One of the two is missing or they are equal. -/
def Lax {α : Type} (a b : Option α) : Prop := ∀ x ∈ a, ∀ y ∈ b, x = y

theorem notBoth_iff {α : Type} [DecidableEq α] (a b : Option α) : notBothNoneOrNotEqual a b = false ↔ Lax a b := by
  unfold notBothNoneOrNotEqual Lax
  cases a <;> cases b <;> simp

theorem Lax.refl {α : Type} (a : Option α) : Lax a a := by
  intro x hx y hy
  rw [Option.mem_def] at hx hy
  rw [hx] at hy
  exact Option.some.inj hy

theorem Lax.symm {α : Type} {a b : Option α} (h : Lax a b) : Lax b a := fun x hx y hy => (h y hy x hx).symm

theorem Lax.trans {α : Type} {a b c : Option α} (h : Lax a b) (h' : Lax b c) (hb : a.isSome → c.isSome → b.isSome) :
    Lax a c := by
  intro x hx z hz
  obtain ⟨y, hy⟩ := Option.isSome_iff_exists.mp (hb (by rw [Option.mem_def.mp hx]; rfl) (by rw [Option.mem_def.mp hz]; rfl))
  exact (h x hx y hy).trans (h' y hy z hz)

theorem zip_any_ne (a b : List String) (h : a.length = b.length) :
    (a.zip b).any (fun p => decide (p.1 ≠ p.2)) = false ↔ a = b := by
  induction a generalizing b with
  | nil => cases b <;> simp_all
  | cons x a ih =>
    cases b with
    | nil => simp at h
    | cons y b =>
      simp only [List.length_cons, Nat.add_right_cancel_iff] at h
      simp only [List.zip_cons_cons, List.any_cons, Bool.or_eq_false_iff, ih b h, List.cons.injEq]
      simp

theorem attrEq_iff (a b : Attr) : attrEq a b = true ↔
    a.extensions = b.extensions ∧ Lax a.pointer b.pointer ∧ Lax a.elements b.elements ∧ Lax a.dtype b.dtype ∧
      Lax a.init b.init := by
  unfold attrEq
  by_cases hl : a.extensions.length = b.extensions.length
  · rw [if_neg (by simpa using hl), ← zip_any_ne _ _ hl]
    simp only [← notBoth_iff]
    cases (a.extensions.zip b.extensions).any (fun p => decide (p.1 ≠ p.2)) <;>
      cases notBothNoneOrNotEqual a.pointer b.pointer <;> cases notBothNoneOrNotEqual a.elements b.elements <;>
      cases notBothNoneOrNotEqual a.dtype b.dtype <;> cases notBothNoneOrNotEqual a.init b.init <;> simp
  · rw [if_pos hl]
    constructor
    · intro h; cases h
    · rintro ⟨h, _⟩; exact absurd (congrArg List.length h) hl

/-- The outermost members. -/
def Decl.attr : Decl → Attr
  | .plain a _ => a
  | .func a _ _ _ => a

/-- C35: a declaration equals itself. -/
theorem decl_eq_refl (d : Decl) : d.eq d = true := by
  have ha : ∀ a, attrEq a a = true := fun a =>
    (attrEq_iff a a).mpr ⟨rfl, Lax.refl _, Lax.refl _, Lax.refl _, Lax.refl _⟩
  induction d with
  | plain a n => simp [Decl.eq, ha]
  | func a d m s ih => simp [Decl.eq, ha, ih, (notBoth_iff _ _).mpr (Lax.refl m), (notBoth_iff _ _).mpr (Lax.refl s)]

theorem attrEq_symm {a b : Attr} (h : attrEq a b = true) : attrEq b a = true := by
  rw [attrEq_iff] at h ⊢
  exact ⟨h.1.symm, h.2.1.symm, h.2.2.1.symm, h.2.2.2.1.symm, h.2.2.2.2.symm⟩

theorem func_eq_iff (a b : Attr) (d e : Decl) (m m' s s' : Option String) :
    (Decl.func a d m s).eq (.func b e m' s') = true ↔
      attrEq a b = true ∧ Lax s s' ∧ Lax m m' ∧ d.eq e = true := by
  simp only [Decl.eq, Bool.and_eq_true, ← notBoth_iff]
  cases notBothNoneOrNotEqual s s' <;> cases notBothNoneOrNotEqual m m' <;> simp

/-- C35: equality is symmetric. -/
theorem decl_eq_symm (d e : Decl) : d.eq e = e.eq d := by
  have key : ∀ d e : Decl, d.eq e = true → e.eq d = true := by
    intro d
    induction d with
    | plain a n =>
      intro e h
      cases e with
      | plain b m =>
        simp only [Decl.eq, Bool.and_eq_true, decide_eq_true_eq] at h ⊢
        exact ⟨attrEq_symm h.1, h.2.symm⟩
      | func => simp [Decl.eq] at h
    | func a d m s ih =>
      intro e h
      cases e with
      | plain => simp [Decl.eq] at h
      | func b e m' s' =>
        rw [func_eq_iff] at h ⊢
        exact ⟨attrEq_symm h.1, h.2.1.symm, h.2.2.1.symm, ih e h.2.2.2⟩
  rw [Bool.eq_iff_iff]
  exact ⟨key d e, key e d⟩

/-- The declaration says whether there is a pointer, a size, a type and an initial value, everywhere. -/
def Decl.Full : Decl → Prop
  | .plain a _ => a.pointer.isSome ∧ a.elements.isSome ∧ a.dtype.isSome ∧ a.init.isSome
  | .func a d m s =>
    (a.pointer.isSome ∧ a.elements.isSome ∧ a.dtype.isSome ∧ a.init.isSome) ∧ m.isSome ∧ s.isSome ∧ d.Full

/-- C35, partial: `d = e` and `e = f` give `d = f` if `e` has all the members. Missing: the general case, which does not
hold. -/
theorem decl_eq_trans_partial (d e f : Decl) (he : e.Full) (h : d.eq e = true) (h' : e.eq f = true) : d.eq f = true := by
  have ha : ∀ a b c : Attr, (b.pointer.isSome ∧ b.elements.isSome ∧ b.dtype.isSome ∧ b.init.isSome) →
      attrEq a b = true → attrEq b c = true → attrEq a c = true := by
    intro a b c hb h h'
    rw [attrEq_iff] at h h' ⊢
    exact ⟨h.1.trans h'.1, h.2.1.trans h'.2.1 fun _ _ => hb.1, h.2.2.1.trans h'.2.2.1 fun _ _ => hb.2.1,
      h.2.2.2.1.trans h'.2.2.2.1 fun _ _ => hb.2.2.1, h.2.2.2.2.trans h'.2.2.2.2 fun _ _ => hb.2.2.2⟩
  induction e generalizing d f with
  | plain b n =>
    cases d with
    | func => simp [Decl.eq] at h
    | plain a k =>
      cases f with
      | func => simp [Decl.eq] at h'
      | plain c l =>
        simp only [Decl.eq, Bool.and_eq_true, decide_eq_true_eq] at h h' ⊢
        exact ⟨ha a b c he h.1 h'.1, h.2.trans h'.2⟩
  | func b e m s ih =>
    cases d with
    | plain => simp [Decl.eq] at h
    | func a d m1 s1 =>
      cases f with
      | plain => simp [Decl.eq] at h'
      | func c f m2 s2 =>
        rw [func_eq_iff] at h h' ⊢
        exact ⟨ha a b c he.1 h.1 h'.1, h.2.1.trans h'.2.1 fun _ _ => he.2.2.1, h.2.2.1.trans h'.2.2.1 fun _ _ => he.2.1,
          ih d f he.2.2.2 h.2.2.2 h'.2.2.2⟩

/-- `double x[3]`, `double x`, `double x[4]`. -/
def arr (n : Nat) : Decl := .plain { dtype := some "double", elements := some [.num n] } "x"
def scalar : Decl := .plain { dtype := some "double" } "x"
def ptr : Decl := .plain { dtype := some "double", pointer := some "*" } "x"

/-- A middle declaration with all members, between two with fewer. -/
example : let e := Decl.plain { pointer := some "*", elements := some [.num 3], dtype := some "int", init := some "{0}" } "x"
    let d := Decl.plain { elements := some [.num 3], dtype := some "int" } "x"
    e.Full ∧ d.eq e = true ∧ e.eq d = true ∧ (Decl.plain { dtype := some "double" } "x").eq e = false := by
  refine ⟨⟨rfl, rfl, rfl, rfl⟩, ?_⟩
  decide +kernel

/-- C35 does not hold: equality is not transitive. -/
theorem decl_eq_not_transitive : (arr 3).eq scalar = true ∧ scalar.eq (arr 4) = true ∧ (arr 3).eq (arr 4) = false := by
  decide +kernel

/-- C35: declarations of different names, or with two different types, are different. -/
theorem different_types_differ (d e : Decl)
    (h : d.name ≠ e.name ∨ ∃ t u, d.attr.dtype = some t ∧ e.attr.dtype = some u ∧ t ≠ u) : d.eq e = false := by
  rw [Bool.eq_false_iff]
  intro heq
  rcases h with h | ⟨t, u, ht, hu, htu⟩
  · apply h
    clear h
    induction d generalizing e with
    | plain a n =>
      cases e with
      | plain b m => simp only [Decl.eq, Bool.and_eq_true, decide_eq_true_eq] at heq; exact heq.2
      | func => simp [Decl.eq] at heq
    | func a d m s ih =>
      cases e with
      | plain => simp [Decl.eq] at heq
      | func b e m' s' => rw [func_eq_iff] at heq; exact ih e heq.2.2.2
  · have key : attrEq d.attr e.attr = true := by
      cases d <;> cases e
      · simp only [Decl.eq, Bool.and_eq_true] at heq; exact heq.1
      · simp [Decl.eq] at heq
      · simp [Decl.eq] at heq
      · rw [func_eq_iff] at heq; exact heq.1
    exact htu (((attrEq_iff _ _).mp key).2.2.2.1 t ht u hu)

example : (Decl.plain { dtype := some "int" } "x").eq scalar = false ∧ scalar.eq scalar = true := by decide +kernel

/-- C35 does not hold for pointers: a variable and a pointer compare as equal, although they are written differently and
have different hashes. -/
theorem pointer_equals_scalar : scalar.eq ptr = true ∧ scalar.str = "double x" ∧ ptr.str = "double * x" := by
  decide +kernel

/-! ### Names of user variables -/

/-- The name of a copy. -/
theorem copy_name (d : Decl) (suffix : String) : (d.copy suffix).name = d.name ++ "_" ++ suffix := by
  induction d with
  | plain a n => rfl
  | func a d m s ih => exact ih

theorem underscore_not_digit (n : Nat) : '_' ∉ (toString n).toList := by
  intro h
  have h' : '_' ∈ n.repr.toList := h
  rw [Nat.toList_repr] at h'
  have := Nat.isDigit_of_mem_toDigits (by decide) (by decide) h'
  revert this
  decide

/-- The last underscore tells the variable from the number. -/
theorem suffix_injective (a b : List Char) (m n : List Char) (hm : '_' ∉ m) (hn : '_' ∉ n)
    (h : a ++ '_' :: m = b ++ '_' :: n) : a = b ∧ m = n := by
  have hr := congrArg List.reverse h
  simp only [List.reverse_append, List.reverse_cons, List.append_assoc, List.singleton_append] at hr
  have key : ∀ (p q r s : List Char), '_' ∉ p → '_' ∉ q → p ++ '_' :: r = q ++ '_' :: s → p = q ∧ r = s := by
    intro p
    induction p with
    | nil =>
      intro q r s _ hq h
      cases q with
      | nil => simp at h; exact ⟨rfl, h⟩
      | cons x q => simp at h; exact absurd (by rw [← h.1]; simp) hq
    | cons x p ih =>
      intro q r s hp hq h
      cases q with
      | nil => simp at h; exact absurd (by rw [h.1]; simp) hp
      | cons y q =>
        simp only [List.cons_append, List.cons.injEq] at h
        obtain ⟨h1, h2⟩ := ih q r s (fun hc => hp (by simp [hc])) (fun hc => hq (by simp [hc])) h.2
        exact ⟨by rw [h.1, h1], h2⟩
  obtain ⟨h1, h2⟩ := key m.reverse n.reverse a.reverse b.reverse (by simpa using hm) (by simpa using hn) hr
  exact ⟨List.reverse_injective h2, List.reverse_injective h1⟩

/-- C34: variables of different names, or of different instances, get different names. -/
theorem member_name_injective (v w : String) (i j : Nat)
    (h : v ++ "_" ++ toString (i + 1) = w ++ "_" ++ toString (j + 1)) : v = w ∧ i = j := by
  have h1 := congrArg String.toList h
  simp only [String.toList_append, show "_".toList = ['_'] from rfl, List.append_assoc, List.singleton_append] at h1
  obtain ⟨h2, h3⟩ := suffix_injective _ _ _ _ (underscore_not_digit _) (underscore_not_digit _) h1
  refine ⟨String.toList_injective h2, ?_⟩
  have h4 : Nat.repr (i + 1) = Nat.repr (j + 1) := String.toList_injective h3
  have := Nat.repr_inj.mp h4
  omega

end Verif.CDecl
