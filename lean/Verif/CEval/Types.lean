import Verif.CEval.Model

/-! C56: the types of the results. `b = a` makes the result for `b` hold the `Value` object of `a` (c_listener.py 421-427,
`Value.simplify` returns the object itself, expression.py 987-988), and `get_found` (448-452) sets the type of the object in
place. Modelled with the addresses of the `Value` objects, for assignments of a number or of another variable. -/

namespace Verif.CEval
open Verif.DT

/-- The object a variable stands for: one made by the `n`-th statement, or one made for a variable without a value. -/
inductive Ref
  | made (n : Nat)
  | own (s : String)
  deriving DecidableEq

/-- A right hand side: a number or a variable. -/
inductive Src
  | num
  | var (s : String)

/-- `visitExpressionIdentifier` (421-427) and the values of `get_found` (448). -/
def refOf (found : String → Option Ref) (s : String) : Ref := (found s).getD (.own s)

/-- The statements (441-446): a number makes a new object, a variable does not. A variable without a value makes a new
object (427). -/
def refs : Nat → (String → Option Ref) → List (String × Src) → (String → Option Ref)
  | _, found, [] => found
  | n, found, (x, .num) :: l => refs (n + 1) (fun s => if s = x then some (.made n) else found s) l
  | n, found, (x, .var y) :: l =>
    refs (n + 1) (fun s => if s = x then some ((found y).getD (.made n)) else found s) l

/-- `get_found` for each variable (448-454): the types of the objects afterwards. -/
def setTypes (found : String → Option Ref) (heap : Ref → DataType) : List (String × DataType) → (Ref → DataType)
  | [] => heap
  | v :: l => setTypes found (fun r => if r = refOf found v.1 then v.2 else heap r) l

/-- C56: the type of the object returned for a variable is the one asked for the last variable which stands for the same
object. -/
theorem type_of_last (found : String → Option Ref) (heap : Ref → DataType) (l₁ l₂ : List (String × DataType))
    (v w : String × DataType) (hs : refOf found v.1 = refOf found w.1)
    (hl : ∀ u ∈ l₂, refOf found u.1 ≠ refOf found w.1) :
    setTypes found heap (l₁ ++ w :: l₂) (refOf found v.1) = w.2 := by
  have key : ∀ (l : List (String × DataType)) (heap : Ref → DataType) (r : Ref), (∀ u ∈ l, refOf found u.1 ≠ r) →
      setTypes found heap l r = heap r := by
    intro l
    induction l with
    | nil => intro heap r _; rfl
    | cons u l ih =>
      intro heap r h
      rw [setTypes, ih _ _ (fun u hu => h u (List.mem_cons_of_mem _ hu)), if_neg]
      exact fun e => h u List.mem_cons_self e.symm
  induction l₁ generalizing heap with
  | nil =>
    rw [List.nil_append, setTypes, key l₂ _ _ (by rw [hs]; exact hl), if_pos hs]
  | cons u l₁ ih => rw [List.cons_append, setTypes]; exact ih _

/-- The type asked for is the type returned if no other variable asked for stands for the same object. Missing: variables
which do, see `copied_type_lost`. -/
theorem type_as_asked_partial (found : String → Option Ref) (heap : Ref → DataType) (l : List (String × DataType))
    (hn : (l.map fun v => refOf found v.1).Nodup) (v : String × DataType) (hv : v ∈ l) :
    setTypes found heap l (refOf found v.1) = v.2 := by
  obtain ⟨l₁, l₂, rfl⟩ := List.append_of_mem hv
  apply type_of_last _ _ _ _ _ _ rfl
  intro u hu e
  simp only [List.map_append, List.map_cons, List.nodup_append, List.nodup_cons, List.mem_map] at hn
  exact hn.2.1.1 ⟨u, hu, e⟩

/-- Programs which assign only numbers give every variable its own object. -/
theorem numbers_not_shared (prog : List (String × Src)) (hp : ∀ p ∈ prog, p.2 = .num) (a b : String)
    (h : refOf (refs 0 (fun _ => none) prog) a = refOf (refs 0 (fun _ => none) prog) b) : a = b := by
  have key : ∀ (prog : List (String × Src)) (n : Nat) (found : String → Option Ref), (∀ p ∈ prog, p.2 = .num) →
      (∀ s k, found s = some k → ∃ m < n, k = .made m) →
      (∀ s t, found s ≠ none → found s = found t → s = t) →
      (∀ s k, refs n found prog s = some k → ∃ m, k = .made m) ∧
      (∀ s t, refs n found prog s ≠ none → refs n found prog s = refs n found prog t → s = t) := by
    intro prog
    induction prog with
    | nil => intro n found _ h1 h2; exact ⟨fun s k h => (h1 s k h).imp fun _ h => h.2, h2⟩
    | cons p prog ih =>
      obtain ⟨x, e⟩ := p
      intro n found hp h1 h2
      have : e = .num := hp (x, e) List.mem_cons_self
      subst this
      rw [refs]
      apply ih _ _ (fun q hq => hp q (List.mem_cons_of_mem _ hq))
      · intro s k h
        by_cases hs : s = x
        · rw [if_pos hs] at h; cases h; exact ⟨n, by omega, rfl⟩
        · rw [if_neg hs] at h
          obtain ⟨m, hm, rfl⟩ := h1 s k h
          exact ⟨m, by omega, rfl⟩
      · intro s t hs ht
        by_cases hsx : s = x <;> by_cases htx : t = x
        · rw [hsx, htx]
        · rw [if_pos hsx, if_neg htx] at ht
          obtain ⟨m, hm, h⟩ := h1 t _ ht.symm
          cases h
          omega
        · rw [if_neg hsx, if_pos htx] at ht
          obtain ⟨m, hm, h⟩ := h1 s _ ht
          cases h
          omega
        · rw [if_neg hsx] at hs ht
          rw [if_neg htx] at ht
          exact h2 s t hs ht
  obtain ⟨h1, h2⟩ := key prog 0 (fun _ => none) hp (by intro s k h; cases h) (by intro s t h; exact absurd rfl h)
  unfold refOf at h
  cases ha : refs 0 (fun _ => none) prog a with
  | none =>
    cases hb : refs 0 (fun _ => none) prog b with
    | none => rw [ha, hb] at h; simpa using h
    | some k =>
      obtain ⟨m, rfl⟩ := h1 b k hb
      rw [ha, hb] at h
      simp at h
  | some j =>
    obtain ⟨m, rfl⟩ := h1 a j ha
    cases hb : refs 0 (fun _ => none) prog b with
    | none => rw [ha, hb] at h; simp at h
    | some k =>
      rw [ha, hb] at h
      simp only [Option.getD_some] at h
      exact h2 a b (by rw [ha]; simp) (by rw [ha, hb, h])

/-- C56, negation: after `a = 1; b = a`, asking for `int a` and `float b` gives a `float` for `a`. -/
theorem copied_type_lost (heap : Ref → DataType) :
    setTypes (refs 0 (fun _ => none) [("a", .num), ("b", .var "a")]) heap [("a", .int), ("b", .float)]
      (refOf (refs 0 (fun _ => none) [("a", .num), ("b", .var "a")]) "a") = .float := by
  apply type_of_last _ _ [("a", .int)] [] ("a", .int) ("b", .float)
  · decide +kernel
  · simp

/-- For `a = 1; b = 2; c = b` the variables `a`, `b` and an unassigned `d` keep the types asked for. -/
example (heap : Ref → DataType) :
    ∀ v ∈ [("a", DataType.int), ("b", .float), ("d", .str)],
      setTypes (refs 0 (fun _ => none) [("a", .num), ("b", .num), ("c", .var "b")]) heap
        [("a", .int), ("b", .float), ("d", .str)]
        (refOf (refs 0 (fun _ => none) [("a", .num), ("b", .num), ("c", .var "b")]) v.1) = v.2 :=
  fun v hv => type_as_asked_partial _ _ _ (by decide +kernel) v hv

end Verif.CEval
