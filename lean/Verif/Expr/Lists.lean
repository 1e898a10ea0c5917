import Verif.Expr.Visit

/-!
Property C119: a list given for an array parameter.

`x = {e1, e2, ...}` in the TRACE section is read by `visitInitializerlist` (src/mccode_antlr/common/visitor.py 85-88), which keeps,
of the expression made for each element, only `expr[0].value`. The elements are written into the generated C one by one
(src/mccode_antlr/translators/c_initialise.py 132-137). Elements that are strings are not modelled (`Tree` has none).
-/

namespace Verif.Ex
open Verif.DT

/-- What `.value` of a node is: a number, the name in a `Value`, or else a Python object that contains further nodes. -/
inductive Element
  | num (x : Num)
  | text (s : String)
  | nodes (xs : List Node)

/-- `.value` (common/expression.py 537-552, 638-690: the field of `Value`, and that of `UnaryOp`, which is the list of its operands; the other
operations have no such field). -/
def Node.payload : Node → Except Err Element
  | .num x _ => .ok (.num x)
  | .text s _ _ => .ok (.text s)
  | .boxed _ es => .ok (.nodes es)
  | .un _ _ xs => .ok (.nodes xs)
  | .bin .. => .error .attributeError
  | .tri .. => .error .attributeError
  | .expr _ => .error .notModelled

/-- The values of the list (common/visitor.py 85-88): `obj.visit(x).expr[0].value` for each `x`. -/
def readList (par : String → Option DataType) : List Tree → Except Err (List Element)
  | [] => .ok []
  | t :: ts => do .ok ((← (← firstOf (← t.visit par)).payload) :: (← readList par ts))

/-- What C makes of the right side of `full[i] = {v};` (translators/c_initialise.py 136-137), where `var` gives the values of
the names which are declared. A parameter of the instrument is not one of them: its name is `_instrument_var._parameters.x`.
For a list of nodes, what is written is a list in square brackets, with which no expression of C begins. -/
def Element.inC (var : String → Option ℚ) : Element → Option ℚ
  | .num x => some x.toRat
  | .text s => var s
  | .nodes _ => none

theorem readList_cons {par : String → Option DataType} {t : Tree} {ts : List Tree} {es : List Element} :
    readList par (t :: ts) = .ok es ↔ ∃ n x e es', t.visit par = .ok n ∧ firstOf n = .ok x ∧ x.payload = .ok e ∧
      readList par ts = .ok es' ∧ es = e :: es' := by
  simp only [readList, bind_ok, Except.ok.injEq]
  constructor
  · rintro ⟨n, hn, x, hx, e, he, es', hes, rfl⟩
    exact ⟨n, x, e, es', hn, hx, he, hes, rfl⟩
  · rintro ⟨n, x, e, es', hn, hx, he, hes, rfl⟩
    exact ⟨n, hn, x, hx, e, he, es', hes, rfl⟩

/-- There is one element for each one written, in the same order, made of what is written there alone. -/
theorem element_at (par : String → Option DataType) : ∀ (ts : List Tree) (es : List Element), readList par ts = .ok es →
    es.length = ts.length ∧ ∀ (i : Nat) (t : Tree), ts[i]? = some t → ∃ e, es[i]? = some e ∧ readList par [t] = .ok [e]
  | [], es, h => by
    simp only [readList, Except.ok.injEq] at h
    subst h
    simp
  | t :: ts, es, h => by
    obtain ⟨n, x, e, es', hn, hx, he, hes, rfl⟩ := readList_cons.mp h
    obtain ⟨hl, hi⟩ := element_at par ts es' hes
    refine ⟨by simp [hl], fun i u hu => ?_⟩
    cases i with
    | zero =>
      simp only [List.getElem?_cons_zero, Option.some.injEq] at hu
      subst hu
      exact ⟨e, rfl, readList_cons.mpr ⟨n, x, e, [], hn, hx, he, rfl, rfl⟩⟩
    | succ i =>
      simp only [List.getElem?_cons_succ] at hu ⊢
      exact hi i u hu

theorem readList_single {par : String → Option DataType} {t : Tree} {e : Element} :
    readList par [t] = .ok [e] ↔ ∃ n x, t.visit par = .ok n ∧ firstOf n = .ok x ∧ x.payload = .ok e := by
  constructor
  · intro h
    obtain ⟨n, x, e', es', hn, hx, he, hes, hh⟩ := readList_cons.mp h
    simp only [List.cons.injEq] at hh
    exact ⟨n, x, hn, hx, by rw [hh.1]; exact he⟩
  · rintro ⟨n, x, hn, hx, he⟩
    exact readList_cons.mpr ⟨n, x, e, [], hn, hx, he, rfl, rfl⟩

/-- C119: a list is accepted exactly if what is made of each element is not an operation with two or three operands. -/
theorem list_accepted_iff (par : String → Option DataType) (ts : List Tree) :
    (∃ es, readList par ts = .ok es) ↔
      ∀ t ∈ ts, ∃ x xs, t.visit par = .ok (.expr (x :: xs)) ∧ (∀ ys, x ≠ .expr ys) ∧ (∀ o dt ls rs, x ≠ .bin o dt ls rs) ∧
        ∀ o dt as bs cs, x ≠ .tri o dt as bs cs := by
  induction ts with
  | nil => simp [readList]
  | cons t ts ih =>
    rw [List.forall_mem_cons, ← ih]
    constructor
    · rintro ⟨es, h⟩
      obtain ⟨n, x, e, es', hn, hx, he, hes, rfl⟩ := readList_cons.mp h
      refine ⟨?_, es', hes⟩
      match n, hx with
      | .expr (y :: ys), hx =>
        simp only [firstOf, Except.ok.injEq] at hx
        subst hx
        refine ⟨y, ys, hn, ?_, ?_, ?_⟩ <;> intros <;> rintro rfl <;> simp [Node.payload] at he
    · rintro ⟨⟨x, xs, hx, h1, h2, h3⟩, es', hes⟩
      have : ∃ e, x.payload = .ok e := by
        cases x with
        | expr ys => exact absurd rfl (h1 ys)
        | bin o dt ls rs => exact absurd rfl (h2 o dt ls rs)
        | tri o dt as bs cs => exact absurd rfl (h3 o dt as bs cs)
        | _ => exact ⟨_, rfl⟩
      obtain ⟨e, he⟩ := this
      exact ⟨e :: es', readList_cons.mpr ⟨_, x, e, es', hx, rfl, he, hes, rfl⟩⟩

/-- C119, as far as it goes: each element of the array is the value of what is written in its place, if that was reduced to
a number or to a name, and the name is not one of a parameter. (Missing: elements which remain an operation, and
parameters; see `operation_of_one`, `list_without_calls` and `parameter_bare`.) `var` are the variables that are declared in C. -/
theorem list_values_partial (par : String → Option DataType) (ρ : Env) (var : String → Option ℚ)
    (hvar : ∀ s, par s = none → ∀ q, ρ.var s = some (.num q) → var s = some q) (ts : List Tree) (es : List Element)
    (h : readList par ts = .ok es) (i : Nat) (t : Tree) (ht : ts[i]? = some t) (hc : t.inC.cOk) (q : ℚ)
    (hq : t.den ρ = some (.num q)) :
    ∃ e, es[i]? = some e ∧
      ((∃ xs, e = .nodes xs) ∨ (∃ s dt, e = .text s ∧ par s = some dt) ∨ e.inC var = some q) := by
  obtain ⟨e, he, h1⟩ := (element_at par ts es h).2 i t ht
  refine ⟨e, he, ?_⟩
  obtain ⟨n, x, hn, hx, hp⟩ := readList_single.mp h1
  obtain ⟨y, rfl, hy⟩ := visit_den par ρ t hc n hn
  simp only [firstOf, Except.ok.injEq] at hx
  subst hx
  have hd := hy _ hq
  cases y with
  | num z dt =>
    simp only [Node.payload, Except.ok.injEq] at hp
    subst hp
    refine .inr (.inr ?_)
    simpa [Node.den, Element.inC] using hd
  | text s dt o =>
    simp only [Node.payload, Except.ok.injEq] at hp
    subst hp
    simp only [Node.den] at hd
    split_ifs at hd
    · rcases hps : par s with _ | dt'
      · exact .inr (.inr (hvar s hps q hd))
      · exact .inr (.inl ⟨s, dt', rfl, hps⟩)
    · simp at hd
  | boxed dt xs => simp only [Node.payload, Except.ok.injEq] at hp; exact .inl ⟨_, hp.symm⟩
  | un o dt xs => simp only [Node.payload, Except.ok.injEq] at hp; exact .inl ⟨_, hp.symm⟩
  | bin => simp [Node.payload] at hp
  | tri => simp [Node.payload] at hp
  | expr => simp [Node.payload] at hp

/-- `{2 * 3, a}`: the array is 6 and the value of `a`. -/
example : (readList (fun _ => none) [.bin "*" (.lit (.int 2)) (.lit (.int 3)), .id "a"]).toOption.map
    (·.map (Element.inC fun s => if s = "a" then some 7 else none)) = some [some 6, some 7] := by decide +kernel

/-- C119: numbers, with or without a sign, and declared names are what they are. -/
theorem list_of_numbers (par : String → Option DataType) (x : Num) (s : String) :
    readList par [.lit x] = .ok [.num x] ∧ readList par [.neg (.lit x)] = .ok [.num x.neg] ∧
      readList par [.id s] = .ok [.text s] := by
  refine ⟨?_, ?_, ?_⟩
  · cases x <;> rfl
  · cases x <;> rfl
  · rw [readList_single]
    cases h : par s with
    | none => exact ⟨.expr [.text s .undefined .ident], _, by simp [Tree.visit, h], rfl, rfl⟩
    | some dt => exact ⟨.expr [.text s dt .param], _, by simp [Tree.visit, h], rfl, rfl⟩

/-- C119, where it fails: of an operation with one operand only the operand is kept, as a list. `-s`, `(s)` and `!s` are
therefore the same, and what is written for them in C is not an expression. -/
theorem operation_of_one (par : String → Option DataType) (s : String) (hs : par s = none) :
    readList par [.neg (.id s)] = .ok [.nodes [.text s .undefined .ident]] ∧
    readList par [.group (.id s)] = .ok [.nodes [.text s .undefined .ident]] ∧
    readList par [.not (.id s)] = .ok [.nodes [.text s .undefined .ident]] ∧
    ∀ (t : Tree) (e : Element), readList par [.group t] = .ok [e] → ∀ var, e.inC var = none := by
  have hv : (Tree.id s).visit par = .ok (.expr [.text s .undefined .ident]) := by simp [Tree.visit, hs]
  refine ⟨?_, ?_, ?_, ?_⟩
  · rw [readList_single]
    refine ⟨.expr [.un "-" .undefined [.text s .undefined .ident]], _, ?_, rfl, rfl⟩
    simp [Tree.visit, hs, Node.neg, negL, mkUn, uniqueType, bind, Except.bind]
    try rfl
  · rw [readList_single]
    refine ⟨.expr [.un "__group__" .undefined [.text s .undefined .ident]], _, ?_, rfl, rfl⟩
    simp [Tree.visit, hs, operands, mkUn, bind, Except.bind]
    try rfl
  · rw [readList_single]
    refine ⟨.expr [.un "__not__" .undefined [.text s .undefined .ident]], _, ?_, rfl, rfl⟩
    simp [Tree.visit, hs, operands, mkUn, bind, Except.bind]
    try rfl
  · intro t e h var
    obtain ⟨n, x, hn, hx, he⟩ := readList_single.mp h
    simp only [Tree.visit, bind_ok, Except.ok.injEq] at hn
    obtain ⟨m, hm, y, hy, rfl⟩ := hn
    simp only [firstOf, Except.ok.injEq] at hx
    subst hx
    obtain ⟨dt, rfl⟩ := mkUn_ok hy
    simp only [Node.payload, Except.ok.injEq] at he
    subst he
    rfl

/-- C119, where it fails: no list with a function call, an element of an array or a choice is accepted. -/
theorem list_without_calls (par : String → Option DataType) (ts : List Tree) (es : List Element) (h : readList par ts = .ok es) :
    (∀ f as, Tree.call f as ∉ ts) ∧ (∀ o l r, accessOp o → Tree.bin o l r ∉ ts) ∧ (∀ c a b, Tree.cond c a b ∉ ts) := by
  have H := (list_accepted_iff par ts).mp ⟨es, h⟩
  refine ⟨fun f as hm => ?_, fun o l r ho hm => ?_, fun c a b hm => ?_⟩
  · obtain ⟨x, xs, hx, -, h2, -⟩ := H _ hm
    simp only [Tree.visit, bind_ok, Except.ok.injEq] at hx
    obtain ⟨ys, hys, y, hy, hxy⟩ := hx
    obtain ⟨dt, rfl⟩ := mkBin_ok hy
    simp only [Node.expr.injEq, List.cons.injEq] at hxy
    exact h2 _ _ _ _ hxy.1.symm
  · obtain ⟨x, xs, hx, -, h2, -⟩ := H _ hm
    simp only [Tree.visit, ho, if_true] at hx
    cases l with
    | id s =>
      simp only [bind_ok, Except.ok.injEq] at hx
      obtain ⟨ys, hys, y, hy, hxy⟩ := hx
      obtain ⟨dt, rfl⟩ := mkBin_ok hy
      simp only [Node.expr.injEq, List.cons.injEq] at hxy
      exact h2 _ _ _ _ hxy.1.symm
    | _ => simp at hx
  · obtain ⟨x, xs, hx, -, -, h3⟩ := H _ hm
    simp only [Tree.visit, bind_ok, Except.ok.injEq] at hx
    obtain ⟨m1, _, m2, _, m3, _, y, hy, hxy⟩ := hx
    obtain ⟨dt, rfl⟩ := mkTri_ok hy
    simp only [Node.expr.injEq, List.cons.injEq] at hxy
    exact h3 _ _ _ _ _ hxy.1.symm

/-- `{a, -a}` and `{a, (a)}` are the same; `{a + b}` is refused. -/
example : (readList (fun _ => none) [.id "a", .neg (.id "a")]).toOption.isSome = true ∧
    (readList (fun _ => none) [.bin "+" (.id "a") (.id "b")]).toOption.isSome = false := by decide +kernel

/-- C119, where it fails: a parameter of the instrument in a list is its bare name, which is the same as if it were no
parameter; where there is no variable of that name, it has no value in C. -/
theorem parameter_bare (par : String → Option DataType) (s : String) :
    readList par [.id s] = readList (fun _ => none) [.id s] ∧
    ∀ var : String → Option ℚ, var s = none → ∀ e, readList par [.id s] = .ok [e] → e.inC var = none := by
  have h1 := (list_of_numbers par (.int 0) s).2.2
  refine ⟨by rw [h1, (list_of_numbers (fun _ => none) (.int 0) s).2.2], fun var hv e he => ?_⟩
  rw [h1] at he
  simp only [Except.ok.injEq, List.cons.injEq, and_true] at he
  subst he
  exact hv

end Verif.Ex
