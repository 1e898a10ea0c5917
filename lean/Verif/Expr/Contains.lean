import Verif.Expr.Props
import Mathlib.Data.List.TakeWhile

/-!
Property C125: `name in expression`, by which unused instrument parameters are found (instr/instance.py 233-246).

Model of `__contains__` of `TrinaryOp`, `BinaryOp`, `UnaryOp`, `Value` and `Expr` (src/mccode_antlr/common/expression.py 373-375, 527-529,
629-631, 1004-1012, 1040-1041) for a name, which is a text that is not empty. Vectors are left out, as in `Verif.Expr.Model`.
-/

namespace Verif.Ex
open Verif.DT

/-- `s.strip('"')`. -/
def stripQuotes (s : String) : String :=
  String.ofList (((s.toList.dropWhile (· = '"')).reverse.dropWhile (· = '"')).reverse)

/-- `value[0] != '"' or value[-1] != '"'` (1009). -/
def notQuoted (name : String) : Bool := decide (name.toList.head? ≠ some '"' ∨ name.toList.getLast? ≠ some '"')

mutual
/-- `x == name` (1231-1239, 929-933, 334-336, 458-460, 586-588): an operation is not equal to a text. `Value.best(name)` has the text as
its value. -/
def Node.eqText (name : String) : Node → Bool
  | .num .. => false
  | .text s _ _ => s = name
  | .boxed _ es => eqTextL name es
  | .un .. => false
  | .bin .. => false
  | .tri .. => false
  | .expr es => eqTextL name es
/-- `Expr(es) == name` (1239). -/
def eqTextL (name : String) : List Node → Bool
  | [] => false
  | x :: xs => x.eqText name && xs.isEmpty
end

/-- `name in value` for a `Value` with a text (1005-1012). -/
def textContains (name s : String) (dt : DataType) (o : Obj) : Bool :=
  if o = .ident ∨ o = .param then s = name
  else if o = .value ∧ dt = .str ∧ notQuoted name = true then stripQuotes s = stripQuotes name
  else s = name

mutual
/-- `name in x`: 1004-1012 for a `Value`, where an `Expr` has no `strip` (1011); 629-631; 527-529; 373-375, where all three are
looked at; 1040-1041. -/
def Node.contains (name : String) : Node → Except Err Bool
  | .num .. => .ok false
  | .text s dt o => .ok (textContains name s dt o)
  | .boxed dt es => if dt = .str ∧ notQuoted name = true then .error .attributeError else .ok (eqTextL name es)
  | .un _ _ xs => containsL name xs
  | .bin _ _ ls rs =>
    match containsL name ls with
    | .error e => .error e
    | .ok true => .ok true
    | .ok false => containsL name rs
  | .tri _ _ fs ss ts =>
    match containsL name fs, containsL name ss, containsL name ts with
    | .ok a, .ok b, .ok c => .ok (a || b || c)
    | _, _, _ => .error .attributeError
  | .expr es => containsL name es
/-- `any(name in x for x in xs)`. -/
def containsL (name : String) : List Node → Except Err Bool
  | [] => .ok false
  | x :: xs =>
    match x.contains name with
    | .error e => .error e
    | .ok true => .ok true
    | .ok false => containsL name xs
end

/-! ### C125 -/

mutual
/-- The texts in an expression: names, strings and names of functions. -/
def Node.texts : Node → List (String × DataType × Obj)
  | .num .. => []
  | .text s dt o => [(s, dt, o)]
  | .boxed _ es => textsL es
  | .un _ _ xs => textsL xs
  | .bin _ _ ls rs => textsL ls ++ textsL rs
  | .tri _ _ fs ss ts => textsL fs ++ textsL ss ++ textsL ts
  | .expr es => textsL es
def textsL : List Node → List (String × DataType × Obj)
  | [] => []
  | x :: xs => x.texts ++ textsL xs
end

mutual
theorem contains_eq (name : String) : ∀ n : Node, n.unboxed = true →
    n.contains name = .ok (n.texts.any fun t => textContains name t.1 t.2.1 t.2.2)
  | .num .., _ => rfl
  | .text s dt o, _ => by simp [Node.contains, Node.texts]
  | .boxed .., h => by simp [Node.unboxed] at h
  | .un _ _ xs, h => by
    simp only [Node.unboxed] at h
    simp only [Node.contains, Node.texts, containsL_eq name xs h]
  | .bin _ _ ls rs, h => by
    simp only [Node.unboxed, Bool.and_eq_true] at h
    simp only [Node.contains, Node.texts, containsL_eq name ls h.1, containsL_eq name rs h.2, List.any_append]
    split <;> simp_all
  | .tri _ _ fs ss ts, h => by
    simp only [Node.unboxed, Bool.and_eq_true] at h
    simp only [Node.contains, Node.texts, containsL_eq name fs h.1.1, containsL_eq name ss h.1.2, containsL_eq name ts h.2,
      List.any_append]
  | .expr es, h => by
    simp only [Node.unboxed] at h
    simp only [Node.contains, Node.texts, containsL_eq name es h]
theorem containsL_eq (name : String) : ∀ xs : List Node, unboxedL xs = true →
    containsL name xs = .ok ((textsL xs).any fun t => textContains name t.1 t.2.1 t.2.2)
  | [], _ => rfl
  | x :: xs, h => by
    simp only [unboxedL, Bool.and_eq_true] at h
    simp only [containsL, textsL, contains_eq name x h.1, containsL_eq name xs h.2, List.any_append]
    split <;> simp_all
end

mutual
theorem dependsOn_eq (name : String) : ∀ n : Node, n.unboxed = true →
    n.dependsOn name = n.texts.any fun t => decide ((t.2.2 = .ident ∨ t.2.2 = .param) ∧ t.1 = name)
  | .num .., _ => rfl
  | .text s dt o, _ => by simp [Node.dependsOn, Node.texts]
  | .boxed .., h => by simp [Node.unboxed] at h
  | .un _ _ xs, h => by
    simp only [Node.unboxed] at h
    simp only [Node.dependsOn, Node.texts, dependsOnL_eq name xs h]
  | .bin _ _ ls rs, h => by
    simp only [Node.unboxed, Bool.and_eq_true] at h
    simp only [Node.dependsOn, Node.texts, dependsOnL_eq name ls h.1, dependsOnL_eq name rs h.2, List.any_append]
  | .tri _ _ fs ss ts, h => by
    simp only [Node.unboxed, Bool.and_eq_true] at h
    simp only [Node.dependsOn, Node.texts, dependsOnL_eq name fs h.1.1, dependsOnL_eq name ss h.1.2, dependsOnL_eq name ts h.2,
      List.any_append]
  | .expr es, h => by
    simp only [Node.unboxed] at h
    simp only [Node.dependsOn, Node.texts, dependsOnL_eq name es h]
theorem dependsOnL_eq (name : String) : ∀ xs : List Node, unboxedL xs = true →
    dependsOnL name xs = (textsL xs).any fun t => decide ((t.2.2 = .ident ∨ t.2.2 = .param) ∧ t.1 = name)
  | [], _ => rfl
  | x :: xs, h => by
    simp only [unboxedL, Bool.and_eq_true] at h
    simp only [dependsOnL, textsL, dependsOn_eq name x h.1, dependsOnL_eq name xs h.2, List.any_append]
end

theorem dropQuotes_self {l : List Char} (h : '"' ∉ l) : l.dropWhile (fun c => decide (c = '"')) = l := by
  cases l with
  | nil => rfl
  | cons c l =>
    rw [List.dropWhile_cons_of_neg]
    intro hc
    rw [of_decide_eq_true hc] at h
    exact h (by simp)

/-- What a text without the quotes around it is, for a name without quotes. -/
theorem stripQuotes_iff (s name : String) (hq : '"' ∉ name.toList) :
    stripQuotes s = name ↔ ∃ a b : List Char, (∀ c ∈ a, c = '"') ∧ (∀ c ∈ b, c = '"') ∧ s.toList = a ++ name.toList ++ b := by
  constructor
  · rintro rfl
    refine ⟨s.toList.takeWhile (fun c => decide (c = '"')),
      ((s.toList.dropWhile (fun c => decide (c = '"'))).reverse.takeWhile (fun c => decide (c = '"'))).reverse, ?_, ?_, ?_⟩
    · exact fun c hc => by simpa using List.mem_takeWhile_imp hc
    · exact fun c hc => by simpa using List.mem_takeWhile_imp (List.mem_reverse.mp hc)
    · rw [stripQuotes, String.toList_ofList, List.append_assoc, ← List.reverse_append, List.takeWhile_append_dropWhile,
        List.reverse_reverse, List.takeWhile_append_dropWhile]
  · rintro ⟨a, b, ha, hb, hs⟩
    have h1 : s.toList.dropWhile (fun c => decide (c = '"')) = (name.toList ++ b).dropWhile (fun c => decide (c = '"')) := by
      rw [hs, List.append_assoc, List.dropWhile_append_of_pos]
      exact fun c hc => decide_eq_true (ha c hc)
    have h2 : (name.toList ++ b).reverse.dropWhile (fun c => decide (c = '"')) = name.toList.reverse := by
      rw [List.reverse_append, List.dropWhile_append_of_pos]
      · exact dropQuotes_self fun h => hq (List.mem_reverse.mp h)
      · exact fun c hc => decide_eq_true (hb c (List.mem_reverse.mp hc))
    rw [stripQuotes, h1]
    cases hn : name.toList with
    | nil =>
      have : b.dropWhile (fun c => decide (c = '"')) = [] := by
        rw [List.dropWhile_eq_nil_iff]
        exact fun c hc => decide_eq_true (hb c hc)
      rw [List.nil_append, this]
      rw [← String.ofList_toList (s := name), hn]
      rfl
    | cons c l =>
      rw [hn] at h2
      rw [List.cons_append, List.dropWhile_cons_of_neg, ← List.cons_append, h2, List.reverse_reverse, ← hn,
        String.ofList_toList]
      intro hc
      rw [hn, of_decide_eq_true hc] at hq
      exact hq (by simp)

/-- C125: `name in e` is true exactly if the name is that of an identifier or parameter in the expression, or is a string constant
in it (but for its quotes), or another text such as the name of a function. Missing: a `Value` that holds an `Expr`. -/
theorem contains_iff_partial (n : Node) (hu : n.unboxed = true) (name : String) (hq : '"' ∉ name.toList) :
    ∃ b, n.contains name = .ok b ∧
      (b = true ↔ ∃ s dt o, (s, dt, o) ∈ n.texts ∧
        (((o = .ident ∨ o = .param) ∧ s = name) ∨ (o = .value ∧ dt = .str ∧
          ∃ a b : List Char, (∀ c ∈ a, c = '"') ∧ (∀ c ∈ b, c = '"') ∧ s.toList = a ++ name.toList ++ b) ∨
          (¬ (o = .ident ∨ o = .param) ∧ ¬ (o = .value ∧ dt = .str) ∧ s = name))) := by
  refine ⟨_, contains_eq name n hu, ?_⟩
  have hs : stripQuotes name = name := (stripQuotes_iff name name hq).mpr ⟨[], [], by simp, by simp, by simp⟩
  have hnq : notQuoted name = true := by
    rw [notQuoted, decide_eq_true_iff]
    left
    intro h
    exact hq (List.mem_of_mem_head? (by rw [h]; rfl))
  rw [List.any_eq_true]
  constructor
  · rintro ⟨⟨s, dt, o⟩, hm, ht⟩
    refine ⟨s, dt, o, hm, ?_⟩
    simp only [textContains, hs, hnq, and_true] at ht
    split_ifs at ht with h1 h2
    · exact .inl ⟨h1, of_decide_eq_true ht⟩
    · exact .inr (.inl ⟨h2.1, h2.2, (stripQuotes_iff s name hq).mp (of_decide_eq_true ht)⟩)
    · exact .inr (.inr ⟨h1, h2, of_decide_eq_true ht⟩)
  · rintro ⟨s, dt, o, hm, ht⟩
    refine ⟨(s, dt, o), hm, ?_⟩
    simp only [textContains, hs, hnq, and_true]
    rcases ht with ⟨h, h'⟩ | ⟨h, h', h''⟩ | ⟨h, h', h''⟩
    · rw [if_pos h]
      exact decide_eq_true h'
    · rw [if_neg (by rw [h]; decide), if_pos ⟨h, h'⟩]
      exact decide_eq_true ((stripQuotes_iff s name hq).mpr h'')
    · rw [if_neg h, if_neg h']
      exact decide_eq_true h''

/-- C125: no use is missed: where the expression depends on a name the name is in it, and where it is not the value of the
expression does not change with that of the parameter. -/
theorem use_seen_partial (n : Node) (hu : n.unboxed = true) (name : String) :
    (n.dependsOn name = true → n.contains name = .ok true) ∧
    (n.contains name = .ok false → ∀ (ρ : Env) (v : Option Base),
      n.den { ρ with var := fun s => if s = name then v else ρ.var s } = n.den ρ) := by
  have h1 : n.dependsOn name = true → n.contains name = .ok true := by
    intro h
    rw [dependsOn_eq name n hu, List.any_eq_true] at h
    obtain ⟨t, ht, h⟩ := h
    have h := of_decide_eq_true h
    rw [contains_eq name n hu, List.any_eq_true.mpr ⟨t, ht, ?_⟩]
    rw [textContains, if_pos h.1]
    exact decide_eq_true h.2
  refine ⟨h1, fun h ρ v => depends_on_sound_partial n hu name ?_ ρ v⟩
  cases hd : n.dependsOn name with
  | false => rfl
  | true =>
    rw [h1 hd] at h
    cases h

/-- C125: where all texts of an expression are identifiers and parameters, `name in e` and `e.depends_on(name)` are the same. -/
theorem contains_depends_partial (n : Node) (hu : n.unboxed = true) (name : String)
    (hi : ∀ s dt o, (s, dt, o) ∈ n.texts → o = .ident ∨ o = .param) : n.contains name = .ok (n.dependsOn name) := by
  rw [contains_eq name n hu, dependsOn_eq name n hu]
  congr 1
  rw [Bool.eq_iff_iff, List.any_eq_true, List.any_eq_true]
  constructor
  · rintro ⟨⟨s, dt, o⟩, hm, h⟩
    rw [textContains, if_pos (hi s dt o hm)] at h
    exact ⟨_, hm, decide_eq_true ⟨hi s dt o hm, of_decide_eq_true h⟩⟩
  · rintro ⟨⟨s, dt, o⟩, hm, h⟩
    refine ⟨_, hm, ?_⟩
    rw [textContains, if_pos (hi s dt o hm)]
    exact decide_eq_true (of_decide_eq_true h).2

/-- C125 fails for a `Value` that holds an `Expr`: no name in an operation held this way is seen; if the type is that of texts the
question raises an error. -/
theorem boxed_use_missed (name : String) (hq : notQuoted name = true) (op : String) (t dt : DataType) (ls rs : List Node) :
    (dt ≠ .str → (Node.boxed dt [.bin op t ls rs]).contains name = .ok false ∧
      (Node.boxed dt [.un op t ls]).contains name = .ok false) ∧
    (Node.boxed .str [.bin op t ls rs]).contains name = .error .attributeError := by
  refine ⟨fun h => ⟨?_, ?_⟩, ?_⟩ <;> simp [Node.contains, eqTextL, Node.eqText, hq] <;> try exact h

/-- C125 fails: a string constant counts as a use of the parameter of that name. -/
theorem string_is_use (name : String) (hq : notQuoted name = true) :
    (Node.text name .str .value).contains name = .ok true ∧ (Node.text name .str .value).dependsOn name = false := by
  simp [Node.contains, textContains, Node.dependsOn, hq]

/-! ### Examples -/

/-- `2 * L + mode`, and a string. -/
def useEx : Node := .expr [.bin "+" .float [.bin "*" .float [.num (.int 2) .int] [.text "L" .undefined .param]]
  [.text "mode" .undefined .ident]]

example : useEx.unboxed = true ∧ useEx.contains "L" = .ok true ∧ useEx.contains "M" = .ok false ∧ '"' ∉ "L".toList ∧
    (Node.text "\"L\"" .str .value).contains "L" = .ok true ∧ (Node.text "\"LL\"" .str .value).contains "L" = .ok false ∧
    notQuoted "L" = true ∧ useEx.texts = [("L", .undefined, .param), ("mode", .undefined, .ident)] := by
  decide +kernel

end Verif.Ex
