import Verif.CDecl.Model
import Verif.Common.Decimal
import Verif.Literal.Model
import Mathlib.Data.List.Infix
import Mathlib.Tactic.IntervalCases

/-!
C104: from the syntax tree of C declarations to the declarations used by the translator: `DeclaresCVisitor`
(src/mccode_antlr/translators/c_listener.py 212-363). The tree is that of the rules `declaration`, `declarator` and
`directDeclarator` of src/grammar/C.g4 (158-161, 293-309) with the text between tokens, since the visitor cuts names and sizes out of
the text. The declarations are those of `Verif.CDecl.Model`.

Simplified: `int(n)` accepts digits with blanks around them (signs and underscores are not among the sizes considered); calling
conventions of Visual C have no constructor.
-/

namespace Verif.CDecl.Visit
open Verif Verif.CDecl

abbrev Text := List Char

/-- `directDeclarator` (C.g4 297-309): an identifier (with what belongs to it), a declarator in parentheses (with the blanks in it and
the extensions of the GNU compiler), or one followed by a text in brackets or parentheses. -/
inductive Direct
  | ident (name : Text)
  | group (open_ : Text) (pointer : Option Text) (gap : Text) (d : Direct) (ext : List Text) (close : Text)
  | suffix (d : Direct) (gap : Text) (s : Text)

/-- `literal_string` (15-18): the text of the input. -/
def Direct.lit : Direct → Text
  | .ident n => n
  | .group o p g d e c => '(' :: o ++ p.getD [] ++ g ++ d.lit ++ e.flatten ++ c ++ [')']
  | .suffix d g s => d.lit ++ g ++ s

/-- `s.replace(p, '')` for a text `p` that is not empty; the first argument counts characters of an occurrence still to be left out. -/
def removeAll (p : Text) : Nat → Text → Text
  | _, [] => []
  | n + 1, _ :: t => removeAll p n t
  | 0, c :: t => if p.isPrefixOf (c :: t) then removeAll p (p.length - 1) t else c :: removeAll p 0 t

/-- `s.strip('()')`. -/
def strip (s : Text) : Text :=
  ((s.dropWhile fun c => c == '(' || c == ')').reverse.dropWhile fun c => c == '(' || c == ')').reverse

/-- `s.split(c, 1)` for a character that is in `s`. -/
def split (c : Char) (s : Text) : Text × Text := (s.takeWhile (· != c), (s.dropWhile (· != c)).drop 1)

/-- The loop over the brackets (333-337). -/
def sizes : Nat → Text → List Text
  | 0, _ => []
  | fuel + 1, post =>
    if ']' ∈ post then
      let (num, post) := split ']' post
      num :: sizes fuel (if '[' ∈ post then (split '[' post).2 else post)
    else []

/-- White space. -/
def blank (c : Char) : Bool := c == ' ' || c == '\t' || c == '\n' || c == '\r'

/-- `int(n)`. -/
def toInt (n : Text) : Option Nat :=
  let n := ((n.dropWhile blank).reverse.dropWhile blank).reverse
  if n ≠ [] ∧ n.all (fun c => 48 ≤ c.toNat && c.toNat ≤ 57) then some (undecimal n) else none

/-- `int(n) if len(n) else 0` (339). -/
def toSize (n : Text) : Option Nat := if n = [] then some 0 else toInt n

/-- 338-342: numbers, or the texts if one is not a number. -/
def elements (nums : List Text) : List Elem :=
  if nums.all fun n => (toSize n).isSome then nums.map fun n => .num ((toSize n).getD 0)
  else nums.map fun n => .text (String.ofList n)

/-- The result of `visitDirectDeclarator` (349-363): a text or a `CFuncPointer`. -/
inductive Visited
  | text (t : Text)
  | func (d : Decl) (args : Option Text)

/-- The members of a declaration known to `visitDeclarator`: each extension is visited by a method that returns None, which is
written as `None` (157). -/
def attr (pointer : Option Text) (ext : List Text) (els : Option (List Elem)) : Attr :=
  { pointer := pointer.map String.ofList, extensions := ext.map fun _ => "None", elements := els }

/-- `visitDeclarator` (321-343), given the direct declarator. -/
def declOf (pointer : Option Text) (ext : List Text) : Visited → Decl
  | .func d args => .func (attr pointer ext none) d none (args.map String.ofList)
  | .text dec =>
    if '[' ∈ dec ∧ ']' ∈ dec then
      let (dec, post) := split '[' dec
      .plain (attr pointer ext (some (elements (sizes (post.length + 1) post)))) (String.ofList dec)
    else .plain (attr pointer ext none) (String.ofList dec)

/-- `visitDirectDeclarator` (349-363). -/
def visitDirect : Direct → Visited
  | .ident n => .text n
  | .group _ p _ d e _ => .func (declOf p e (visitDirect d)) none
  | .suffix d g s =>
    let after := removeAll d.lit 0 (d.lit ++ g ++ s)
    match visitDirect d with
    | .func e _ => .func e (some (strip after))
    | .text t => .text (t ++ after)

/-- `initDeclarator` (C.g4 183-185). -/
structure Init where
  pointer : Option Text := none
  direct : Direct
  ext : List Text := []
  init : Option Text := none

/-- `declaration` (C.g4 158-161) with the texts of its specifiers; `double x;` has two specifiers and nothing else. -/
structure Declaration where
  specs : List Text
  inits : List Init

/-- `externalDeclaration` (C.g4 505-510): a declaration, a function with the declarations in its body, anything else. -/
inductive External
  | declaration (d : Declaration)
  | function (body : List Declaration)
  | other

/-- `' '.join(specs)`. -/
def joinSpecs (specs : List Text) : String := " ".intercalate (specs.map String.ofList)

/-- `decl.dtype = ...; decl.init = ...` (250-251). -/
def setAttr (dtype : String) (init : Option Text) : Decl → Decl
  | .plain a n => .plain { a with dtype := some dtype, init := init.map String.ofList } n
  | .func a d m s => .func { a with dtype := some dtype, init := init.map String.ofList } d m s

/-- `visitDeclaration` (226-256). -/
def visitDeclaration (d : Declaration) : List Decl :=
  if "typedef".toList ∈ d.specs then []
  else if d.inits ≠ [] then
    d.inits.map fun i => setAttr (joinSpecs d.specs) i.init (declOf i.pointer i.ext (visitDirect i.direct))
  else if 1 < d.specs.length then
    [.plain { dtype := some (joinSpecs d.specs.dropLast) } (String.ofList (d.specs.getLast?.getD []))]
  else []

/-- `extract_c_declared_variables` (383-387) given the tree; `visitFunctionDefinition` is that of the generated class, which visits all
parts of the function. -/
def visit (unit : List External) : List Decl :=
  unit.flatMap fun x =>
    match x with
    | .declaration d => visitDeclaration d
    | .function body => body.flatMap visitDeclaration
    | .other => []

/-! ### Removing a text from a text -/

theorem removeAll_skip (p : Text) (a b : Text) : removeAll p a.length (a ++ b) = removeAll p 0 b := by
  induction a with
  | nil => rfl
  | cons c a ih => simpa [removeAll] using ih

theorem removeAll_prefix (p b : Text) (hp : p ≠ []) : removeAll p 0 (p ++ b) = removeAll p 0 b := by
  cases p with
  | nil => exact absurd rfl hp
  | cons c p =>
    have h : (c :: p).isPrefixOf (c :: (p ++ b)) = true := by
      rw [List.isPrefixOf_iff_prefix]
      exact List.prefix_append (c :: p) b
    rw [List.cons_append, removeAll, if_pos h]
    simpa using removeAll_skip (c :: p) p b

theorem removeAll_length (p : Text) (hp : p ≠ []) : ∀ (t : Text) (n : Nat), (removeAll p n t).length ≤ t.length - n := by
  intro t
  induction t with
  | nil => intro n; simp [removeAll]
  | cons c t ih =>
    intro n
    cases n with
    | succ n => have := ih n; simp only [removeAll, List.length_cons]; omega
    | zero =>
      simp only [removeAll, List.length_cons]
      split_ifs
      · have := ih (p.length - 1); omega
      · have := ih 0; simp only [List.length_cons]; omega

/-- Nothing is removed iff the text does not occur. -/
theorem removeAll_eq_iff (p : Text) (hp : p ≠ []) (t : Text) : removeAll p 0 t = t ↔ ¬ p <:+: t := by
  induction t with
  | nil => simp [removeAll, hp]
  | cons c t ih =>
    rw [removeAll]
    by_cases h : p.isPrefixOf (c :: t) = true
    · rw [if_pos h]
      have h1 := removeAll_length p hp t (p.length - 1)
      constructor
      · intro he
        rw [he] at h1
        simp only [List.length_cons] at h1
        omega
      · intro hn
        exact absurd (List.isPrefixOf_iff_prefix.1 h).isInfix hn
    · rw [if_neg h, List.cons.injEq, ih, List.infix_cons_iff]
      rw [List.isPrefixOf_iff_prefix] at h
      simp [h]

/-- A text that starts with a character of a kind, before one that has none of this kind, is removed only behind it. -/
theorem removeAll_append_of_not (p a b : Text) (h : ∀ c ∈ p.head?, c ∉ a) (hp : p ≠ []) : removeAll p 0 (a ++ b) = a ++ removeAll p 0 b := by
  induction a with
  | nil => rfl
  | cons c a ih =>
    have hn : ¬ p.isPrefixOf (c :: (a ++ b)) = true := by
      cases p with
      | nil => exact absurd rfl hp
      | cons d p =>
        intro hc
        have := List.isPrefixOf_iff_prefix.1 hc
        rw [List.cons_prefix_cons] at this
        exact h d (by simp) (by simp [this.1])
    rw [List.cons_append, removeAll, if_neg hn, ih (fun d hd hm => h d hd (by simp [hm]))]
    rfl

/-- Up to a character that the text does not have, removing is on its own. -/
theorem removeAll_append_stop (p a b : Text) (x : Char) (hx : x ∉ p) (hp : p ≠ []) :
    ∀ n, n ≤ a.length → removeAll p n (a ++ x :: b) = removeAll p n a ++ removeAll p 0 (x :: b) := by
  induction a with
  | nil =>
    intro n hn
    have : n = 0 := by simpa using hn
    subst this
    rfl
  | cons c a ih =>
    intro n hn
    cases n with
    | succ n => exact ih n (by simpa using hn)
    | zero =>
      have hpre : p.isPrefixOf (c :: (a ++ x :: b)) = p.isPrefixOf (c :: a) := by
        rw [Bool.eq_iff_iff, List.isPrefixOf_iff_prefix, List.isPrefixOf_iff_prefix]
        constructor
        · intro h
          rw [← List.cons_append] at h
          by_cases hl : p.length ≤ (c :: a).length
          · exact List.prefix_of_prefix_length_le h (List.prefix_append _ _) hl
          · exfalso
            have h2 : (c :: a) ++ [x] <+: (c :: a) ++ x :: b := ⟨b, by simp⟩
            have h3 : (c :: a) ++ [x] <+: p := by
              refine List.prefix_of_prefix_length_le h2 h ?_
              simp only [List.length_append, List.length_cons, List.length_nil] at hl ⊢
              omega
            exact hx (h3.subset (by simp))
        · intro h
          rw [← List.cons_append]
          exact h.trans (List.prefix_append _ _)
      rw [List.cons_append, removeAll, hpre, removeAll]
      split_ifs with h
      · have hl := (List.isPrefixOf_iff_prefix.1 h).length_le
        simp only [List.length_cons] at hl
        exact ih _ (by omega)
      · rw [ih 0 (by omega)]
        rfl

theorem split_eq (c : Char) (a b : Text) (h : c ∉ a) : split c (a ++ c :: b) = (a, b) := by
  have h1 : ∀ x ∈ a, (x != c) = true := fun x hx => by
    simp only [bne_iff_ne]
    rintro rfl
    exact h hx
  simp only [split]
  rw [List.takeWhile_append_of_pos h1, List.dropWhile_append_of_pos h1]
  simp

/-! ### Arrays -/

/-- The declarator `name g₁[e₁] g₂[e₂] …`. -/
def arrayOf (name : Text) (dims : List (Text × Text)) : Direct :=
  dims.foldl (fun d x => .suffix d x.1 ('[' :: x.2 ++ [']'])) (.ident name)

/-- The text of dimensions. -/
def dimsText (dims : List (Text × Text)) : Text := dims.flatMap fun x => x.1 ++ '[' :: x.2 ++ [']']

/-- Blanks before a bracket and a size in them. -/
def IsDim (x : Text × Text) : Prop := (∀ c ∈ x.1, blank c = true) ∧ '[' ∉ x.2 ∧ ']' ∉ x.2

/-- An identifier, as far as it matters here: not empty, no blank, no bracket. -/
def IsName (name : Text) : Prop := name ≠ [] ∧ ∀ c ∈ name, blank c = false ∧ c ≠ '[' ∧ c ≠ ']'

theorem arrayOf_concat (name : Text) (dims : List (Text × Text)) (x : Text × Text) :
    arrayOf name (dims ++ [x]) = .suffix (arrayOf name dims) x.1 ('[' :: x.2 ++ [']']) := by
  simp [arrayOf]

theorem arrayOf_lit (name : Text) (dims : List (Text × Text)) : (arrayOf name dims).lit = name ++ dimsText dims := by
  induction dims using List.reverseRecOn with
  | nil => simp [arrayOf, Direct.lit, dimsText]
  | append_singleton dims x ih =>
    rw [arrayOf_concat, Direct.lit, ih]
    simp [dimsText]

theorem name_head (name : Text) (hn : IsName name) : ∀ c ∈ name.head?, blank c = false ∧ c ≠ '[' ∧ c ≠ ']' :=
  fun c hc => hn.2 c (List.mem_of_mem_head? hc)

theorem removeAll_first (name g e : Text) (hn : IsName name) (hg : ∀ c ∈ g, blank c = true) :
    removeAll name 0 (g ++ ('[' :: e ++ [']'])) = g ++ ('[' :: removeAll name 0 e ++ [']']) := by
  have hb : ']' ∉ name := fun h => (hn.2 _ h).2.2 rfl
  have h1 : removeAll name 0 (g ++ ['['] ++ (e ++ [']'])) = (g ++ ['[']) ++ removeAll name 0 (e ++ [']']) := by
    refine removeAll_append_of_not name (g ++ ['[']) (e ++ [']']) (fun c hc hm => ?_) hn.1
    have h := name_head name hn c hc
    rcases List.mem_append.1 hm with hm | hm
    · have := hg c hm
      rw [h.1] at this
      cases this
    · exact h.2.1 (by simpa using hm)
  have h2 : removeAll name 0 [']'] = [']'] := by
    rw [removeAll_eq_iff name hn.1]
    intro h
    cases name with
    | nil => exact hn.1 rfl
    | cons c n =>
      have := h.subset (List.mem_cons_self (a := c) (l := n))
      rw [List.mem_singleton] at this
      exact hb (by simp [this])
  rw [removeAll_append_stop name e [] ']' hb hn.1 0 (by omega), h2] at h1
  simpa using h1

theorem not_infix_dim (h : Char) (u v g e : Text) (hh : h ∉ g) (he : '[' ∉ e) :
    ¬ (h :: u ++ '[' :: v) <:+: (g ++ '[' :: e) := by
  rintro ⟨s, r, hsr⟩
  have hsr : (s ++ h :: u) ++ '[' :: (v ++ r) = g ++ '[' :: e := by simpa using hsr
  rcases List.append_eq_append_iff.1 hsr with ⟨k, h1, h2⟩ | ⟨k, h1, h2⟩
  · exact hh (by rw [h1]; simp)
  · cases k with
    | nil =>
      rw [List.append_nil] at h1
      exact hh (by rw [← h1]; simp)
    | cons w k =>
      simp only [List.cons_append, List.cons.injEq] at h2
      exact he (by rw [h2.2]; simp)

theorem visit_array (name : Text) (g e : Text) (rest : List (Text × Text)) (hn : IsName name)
    (hd : IsDim (g, e)) (hr : ∀ x ∈ rest, IsDim x) :
    visitDirect (arrayOf name ((g, e) :: rest)) =
      .text (name ++ (g ++ ('[' :: removeAll name 0 e ++ [']'])) ++ dimsText rest) := by
  induction rest using List.reverseRecOn with
  | nil =>
    have : arrayOf name [(g, e)] = .suffix (.ident name) g ('[' :: e ++ [']']) := rfl
    rw [this]
    simp only [visitDirect, Direct.lit]
    rw [List.append_assoc, removeAll_prefix name _ hn.1, removeAll_first name g e hn hd.1]
    simp [dimsText]
  | append_singleton rest x ih =>
    have hx : IsDim x := hr x (by simp)
    rw [← List.cons_append, arrayOf_concat]
    have hl : (arrayOf name ((g, e) :: rest)).lit ≠ [] := by
      rw [arrayOf_lit]
      simp [hn.1]
    simp only [visitDirect]
    rw [ih fun y hy => hr y (by simp [hy]), List.append_assoc (arrayOf name ((g, e) :: rest)).lit, removeAll_prefix _ _ hl]
    have hk : removeAll (arrayOf name ((g, e) :: rest)).lit 0 (x.1 ++ ('[' :: x.2 ++ [']'])) = x.1 ++ ('[' :: x.2 ++ [']']) := by
      rw [removeAll_eq_iff _ hl, arrayOf_lit]
      obtain ⟨c, n, rfl⟩ := List.exists_cons_of_ne_nil hn.1
      have := not_infix_dim c (n ++ g) (e ++ [']'] ++ dimsText rest) x.1 (x.2 ++ [']'])
        (fun hm => by have := hx.1 c hm; rw [(hn.2 c (by simp)).1] at this; cases this)
        (by simpa using hx.2.1)
      simpa [dimsText] using this
    rw [hk]
    simp [dimsText]

theorem blank_not_bracket (c : Char) (h : blank c = true) : c ≠ '[' ∧ c ≠ ']' := by
  constructor <;> (rintro rfl; revert h; decide)

theorem sizes_step (fuel : Nat) (e t : Text) (he : ']' ∉ e) :
    sizes (fuel + 1) (e ++ ']' :: t) = e :: sizes fuel (if '[' ∈ t then (split '[' t).2 else t) := by
  rw [sizes, if_pos (by simp), split_eq ']' e _ he]

theorem sizes_nil (fuel : Nat) : sizes fuel [] = [] := by cases fuel <;> simp [sizes]

theorem sizes_dims (rest : List (Text × Text)) (hr : ∀ x ∈ rest, IsDim x) :
    ∀ (fuel : Nat) (e : Text), ']' ∉ e → rest.length ≤ fuel →
      sizes (fuel + 1) (e ++ ']' :: dimsText rest) = e :: rest.map (·.2) := by
  induction rest with
  | nil =>
    intro fuel e he hf
    rw [sizes_step fuel e _ he]
    simp [dimsText, sizes_nil]
  | cons x rest ih =>
    intro fuel e he hf
    cases fuel with
    | zero => simp at hf
    | succ f =>
      have hx := hr x (by simp)
      have hd : dimsText (x :: rest) = x.1 ++ '[' :: (x.2 ++ ']' :: dimsText rest) := by simp [dimsText]
      have hb : '[' ∉ x.1 := fun h => (blank_not_bracket _ (hx.1 _ h)).1 rfl
      rw [sizes_step (f + 1) e _ he, hd, if_pos (by simp), split_eq '[' _ _ hb,
        ih (fun y hy => hr y (by simp [hy])) f x.2 hx.2.2 (by simpa using hf)]
      simp

theorem removeAll_subset (p : Text) (t : Text) : ∀ n, ∀ c ∈ removeAll p n t, c ∈ t := by
  induction t with
  | nil => intro n c hc; simp [removeAll] at hc
  | cons d t ih =>
    intro n c hc
    cases n with
    | succ n => exact List.mem_cons_of_mem _ (ih n c hc)
    | zero =>
      rw [removeAll] at hc
      split_ifs at hc
      · exact List.mem_cons_of_mem _ (ih _ c hc)
      · rcases List.mem_cons.1 hc with rfl | hc
        · simp
        · exact List.mem_cons_of_mem _ (ih _ c hc)

theorem dimsText_length (rest : List (Text × Text)) : rest.length ≤ (dimsText rest).length := by
  induction rest with
  | nil => simp
  | cons x rest ih =>
    have hd : dimsText (x :: rest) = x.1 ++ '[' :: (x.2 ++ ']' :: dimsText rest) := by simp [dimsText]
    rw [hd]
    simp only [List.length_append, List.length_cons]
    omega

/-- What is made of an array, exactly. -/
theorem array_declared (pointer : Option Text) (ext : List Text) (name g e : Text) (rest : List (Text × Text)) (hn : IsName name)
    (hd : IsDim (g, e)) (hr : ∀ x ∈ rest, IsDim x) :
    declOf pointer ext (visitDirect (arrayOf name ((g, e) :: rest))) =
      .plain (attr pointer ext (some (elements (removeAll name 0 e :: rest.map (·.2))))) (String.ofList (name ++ g)) := by
  have hsub : ∀ c ∈ removeAll name 0 e, c ∈ e := removeAll_subset name e 0
  rw [visit_array name g e rest hn hd hr, declOf]
  have ht : name ++ (g ++ ('[' :: removeAll name 0 e ++ [']'])) ++ dimsText rest =
      (name ++ g) ++ '[' :: (removeAll name 0 e ++ ']' :: dimsText rest) := by simp
  have hng : '[' ∉ name ++ g := by
    intro h
    rcases List.mem_append.1 h with h | h
    · exact (hn.2 _ h).2.1 rfl
    · exact (blank_not_bracket _ (hd.1 _ h)).1 rfl
  rw [ht, if_pos (by simp), split_eq '[' _ _ hng]
  simp only
  have hl := dimsText_length rest
  rw [sizes_dims rest hr _ _ (fun h => hd.2.2 (hsub _ h)) (by simp only [List.length_append, List.length_cons]; omega)]

theorem toString_eq (n : Nat) : toString n = String.ofList (decimal n) := by
  have : ∀ n, Nat.toDigits 10 n = decimal n := by
    intro n
    induction n using Nat.strong_induction_on with
    | _ n ih =>
      rw [decimal]
      split_ifs with h
      · rw [Nat.toDigits_of_lt_base h]
        interval_cases n <;> rfl
      · rw [Nat.toDigits_of_base_le (by omega) (by omega), ih (n / 10) (by omega)]
        have : n % 10 < 10 := Nat.mod_lt _ (by omega)
        generalize n % 10 = k at this
        interval_cases k <;> rfl
  rw [← this]
  rfl

/-! ### Sizes -/

def digit (c : Char) : Bool := 48 ≤ c.toNat && c.toNat ≤ 57

/-- A size whose text and value agree for the visitor: a decimal number above zero as Python writes it, or a text with a character
that is neither a digit nor a blank, as the name of a constant. -/
def PlainSize (e : Text) : Prop := (∃ n, 0 < n ∧ e = decimal n) ∨ ∃ c ∈ e, digit c = false ∧ blank c = false

theorem decimal_digit (n : Nat) : ∀ c ∈ decimal n, digit c = true ∧ blank c = false := by
  intro c hc
  obtain ⟨d, hd, rfl⟩ := decimal_digits n c hc
  interval_cases d <;> decide

theorem trim_of_no_blank (t : Text) (h : ∀ c ∈ t, blank c = false) : ((t.dropWhile blank).reverse.dropWhile blank).reverse = t := by
  have h1 : ∀ t : Text, (∀ c ∈ t, blank c = false) → t.dropWhile blank = t := by
    intro t ht
    cases t with
    | nil => rfl
    | cons c t => rw [List.dropWhile_cons, if_neg (by simp [ht c (by simp)])]
  rw [h1 t h, h1 t.reverse (by simpa using h), List.reverse_reverse]

theorem toInt_decimal (n : Nat) : toInt (decimal n) = some n := by
  simp only [toInt]
  have h : ((decimal n).all fun c => 48 ≤ c.toNat && c.toNat ≤ 57) = true :=
    List.all_eq_true.2 fun c hc => (decimal_digit n c hc).1
  rw [trim_of_no_blank _ fun c hc => (decimal_digit n c hc).2, if_pos ⟨decimal_ne_nil n, h⟩, undecimal_decimal]

theorem mem_trim (t : Text) (c : Char) (hc : c ∈ t) (hb : blank c = false) :
    c ∈ ((t.dropWhile blank).reverse.dropWhile blank).reverse := by
  have h1 : ∀ t : Text, c ∈ t → c ∈ t.dropWhile blank := by
    intro t ht
    induction t with
    | nil => simp at ht
    | cons d t ih =>
      rw [List.dropWhile_cons]
      split_ifs with hd
      · rcases List.mem_cons.1 ht with rfl | ht
        · rw [hb] at hd; cases hd
        · exact ih ht
      · exact ht
  rw [List.mem_reverse]
  exact h1 _ (by rw [List.mem_reverse]; exact h1 t hc)

theorem toInt_text (e : Text) (h : ∃ c ∈ e, digit c = false ∧ blank c = false) : toInt e = none := by
  obtain ⟨c, hc, hd, hb⟩ := h
  simp only [toInt]
  rw [if_neg]
  rintro ⟨_, h⟩
  have := List.all_eq_true.1 h c (mem_trim e c hc hb)
  have hd' : digit c = true := this
  rw [hd] at hd'
  cases hd'

theorem elements_shown (es : List Text) (h : ∀ e ∈ es, PlainSize e) (mal : List Elem) :
    (fillZeros (elements es) mal).map Elem.show = es.map String.ofList := by
  have hsome : ∀ e ∈ es, (toSize e).isSome = true → ∃ n, 0 < n ∧ e = decimal n ∧ toSize e = some n := by
    intro e he hs
    rcases h e he with ⟨n, hn, rfl⟩ | ht
    · exact ⟨n, hn, rfl, by rw [toSize, if_neg (decimal_ne_nil n), toInt_decimal]⟩
    · have hne : e ≠ [] := by
        rintro rfl
        obtain ⟨c, hc, _⟩ := ht
        simp at hc
      rw [toSize, if_neg hne, toInt_text e ht] at hs
      cases hs
  simp only [elements]
  by_cases ha : (es.all fun n => (toSize n).isSome) = true
  · rw [if_pos ha]
    rw [List.all_eq_true] at ha
    have h0 : Elem.num 0 ∉ es.map fun n => Elem.num ((toSize n).getD 0) := by
      intro hm
      obtain ⟨e, he, h0⟩ := List.mem_map.1 hm
      obtain ⟨n, hn, _, h2⟩ := hsome e he (ha e he)
      rw [h2] at h0
      have h0 : n = 0 := by simpa using h0
      omega
    rw [fillZeros, if_neg h0, List.map_map]
    refine List.map_congr_left fun e he => ?_
    obtain ⟨n, hn, h1, h2⟩ := hsome e he (ha e he)
    simp only [Function.comp, h2, Option.getD_some, Elem.show]
    rw [toString_eq, ← h1]
  · rw [if_neg ha]
    have h0 : Elem.num 0 ∉ es.map fun n => Elem.text (String.ofList n) := by simp
    rw [fillZeros, if_neg h0, List.map_map]
    rfl

/-! ### The properties -/

/-- A variable as written: `*name[e₁][e₂]…`. -/
structure Var where
  pointer : Option Text := none
  name : Text
  sizes : List Text := []

/-- Its declarator. -/
def Var.decl (v : Var) : Init := { pointer := v.pointer, direct := arrayOf v.name (v.sizes.map fun e => ([], e)) }

/-- The text of the variable, with a blank behind the stars. -/
def Var.text (v : Var) : String :=
  (v.pointer.map fun p => String.ofList p ++ " ").getD "" ++ String.ofList v.name ++
    String.join (v.sizes.map fun e => "[" ++ String.ofList e ++ "]")

/-- An identifier, stars that are not nothing, sizes without brackets that mean the same to Python and to C, and the first one does
not contain the name. -/
def Var.Fine (v : Var) : Prop :=
  IsName v.name ∧ v.pointer ≠ some [] ∧ (∀ e ∈ v.sizes, PlainSize e ∧ '[' ∉ e ∧ ']' ∉ e) ∧ ∀ e ∈ v.sizes.head?, ¬ v.name <:+: e

theorem maxLengths_ok (a : Attr) (h : a.init = none) : ∃ m, maxLengths a [.num 16384] = .ok m := by
  simp only [maxLengths, h, given]
  split_ifs <;> simp_all

theorem attrString_eq (dtype : String) (hd : dtype ≠ "") (pointer : Option Text) (hp : pointer ≠ some []) (els : Option (List Elem))
    (n : String) :
    attrString { pointer := pointer.map String.ofList, extensions := [], elements := els, dtype := some dtype, init := none } n =
      dtype ++ " " ++ ((pointer.map fun p => String.ofList p ++ " ").getD "" ++ n) := by
  cases pointer with
  | none => simp [attrString, given, hd, String.intercalate]
  | some p =>
    have : String.ofList p ≠ "" := by
      intro h
      apply hp
      have := congrArg String.toList h
      simpa using this
    simp [attrString, given, hd, this, String.intercalate, String.append_assoc]

theorem var_member (dtype : String) (hd : dtype ≠ "") (v : Var) (hv : v.Fine) :
    (setAttr dtype none (declOf v.pointer [] (visitDirect v.decl.direct))).declareMember = .ok (dtype ++ " " ++ v.text) := by
  obtain ⟨hn, hp, hs, hi⟩ := hv
  obtain ⟨pointer, name, es⟩ := v
  simp only at hn hp hs hi
  cases es with
  | nil =>
    have h1 : visitDirect (arrayOf name []) = .text name := rfl
    have h2 : ¬ ('[' ∈ name ∧ ']' ∈ name) := fun h => (hn.2 _ h.1).2.1 rfl
    obtain ⟨m, hm⟩ := maxLengths_ok { pointer := pointer.map String.ofList, dtype := some dtype } rfl
    simp only [Var.decl, List.map_nil, h1, declOf, if_neg h2, setAttr, attr, Decl.declareMember, Decl.asStructMember, Option.map_none, hm]
    simp only [Except.map, Option.isSome_none, Bool.false_eq_true, if_false]
    rw [attrString_eq dtype hd pointer hp]
    simp [Var.text, String.join]
  | cons e es =>
    have h1 := array_declared pointer [] name [] e (es.map fun e => ([], e)) hn
      ⟨by simp, (hs e (by simp)).2⟩ (by
        intro x hx
        obtain ⟨y, hy, rfl⟩ := List.mem_map.1 hx
        exact ⟨by simp, (hs y (by simp [hy])).2⟩)
    rw [(removeAll_eq_iff name hn.1 e).2 (hi e (by simp)), List.map_map] at h1
    have h3 : (es.map ((fun x : Text × Text => x.2) ∘ fun e => (([] : Text), e))) = es := by
      rw [show ((fun x : Text × Text => x.2) ∘ fun e => (([] : Text), e)) = id from rfl, List.map_id]
    rw [h3, List.append_nil] at h1
    obtain ⟨m, hm⟩ := maxLengths_ok { pointer := pointer.map String.ofList, elements := some (elements (e :: es)), dtype := some dtype } rfl
    simp only [Var.decl, List.map_cons, h1, setAttr, attr, Decl.declareMember, Decl.asStructMember, Option.map_none, List.map_nil, hm]
    simp only [Except.map, Option.isSome_some, if_true]
    rw [attrString_eq dtype hd pointer hp]
    have hne : (elements (e :: es)).isEmpty = false := by
      simp only [elements]
      split_ifs <;> rfl
    have hz := elements_shown (e :: es) (fun x hx => (hs x hx).1) m
    have hz' : (fillZeros (elements (e :: es)) m).map (fun x => "[" ++ x.show ++ "]") =
        (e :: es).map fun x => "[" ++ String.ofList x ++ "]" := by
      have := congrArg (List.map fun x => "[" ++ x ++ "]") hz
      simpa only [List.map_map, Function.comp_def] using this
    simp only [sizesOr, Option.getD_some, hne, Bool.false_eq_true, if_false, hz', Var.text]
    simp only [String.append_assoc]

theorem strip_parens (args : Text) (h : ∀ c ∈ args, c ≠ '(' ∧ c ≠ ')') : strip ('(' :: args ++ [')']) = args := by
  have h1 : ∀ t : Text, (∀ c ∈ t, c ≠ '(' ∧ c ≠ ')') → t.dropWhile (fun c => c == '(' || c == ')') = t := by
    intro t ht
    cases t with
    | nil => rfl
    | cons c t =>
      have := ht c (by simp)
      rw [List.dropWhile_cons, if_neg (by simp [this.1, this.2])]
  have h2 : ('(' :: args ++ [')']).dropWhile (fun c => c == '(' || c == ')') = (args ++ [')']).dropWhile fun c => c == '(' || c == ')' := by
    rw [List.cons_append, List.dropWhile_cons, if_pos (by decide)]
  cases args with
  | nil => decide
  | cons a args =>
    have ha := h a (by simp)
    rw [strip, h2, List.cons_append, List.dropWhile_cons, if_neg (by simp [ha.1, ha.2]), ← List.cons_append, List.reverse_append,
      List.reverse_singleton, List.singleton_append, List.dropWhile_cons, if_pos (by decide),
      h1 _ (by intro c hc; exact h c (List.mem_reverse.1 hc)), List.reverse_reverse]

/-- The declarator `(*name)(args)`. -/
def pointerTo (name args : Text) : Direct := .suffix (.group [] (some ['*']) [] (.ident name) [] []) [] ('(' :: args ++ [')'])

/-- C104: a pointer to a function, whose arguments have no parentheses, gives a member with the same text. -/
theorem function_pointer_member_partial (specs : List Text) (name args : Text) (ht : "typedef".toList ∉ specs)
    (hs : joinSpecs specs ≠ "") (hn : IsName name) (hargs : ∀ c ∈ args, c ≠ '(' ∧ c ≠ ')')
    (hne : args ≠ '*' :: name) :
    (visit [.declaration { specs := specs, inits := [{ direct := pointerTo name args }] }]).map (fun d => (d.name, d.declareMember)) =
      [(String.ofList name, .ok (joinSpecs specs ++ " " ++ ("(* " ++ String.ofList name ++ ")(" ++ String.ofList args ++ ")")))] := by
  have h2 : ¬ ('[' ∈ name ∧ ']' ∈ name) := fun h => (hn.2 _ h.1).2.1 rfl
  have hl : (Direct.group [] (some ['*']) [] (.ident name) [] []).lit = '(' :: '*' :: name ++ [')'] := by simp [Direct.lit]
  have hafter : removeAll ('(' :: '*' :: name ++ [')']) 0 ('(' :: '*' :: name ++ [')'] ++ [] ++ ('(' :: args ++ [')'])) =
      '(' :: args ++ [')'] := by
    rw [List.append_nil, removeAll_prefix _ _ (by simp), removeAll_eq_iff _ (by simp)]
    rintro ⟨a, b, hab⟩
    have hstar : a = [] := by
      cases a with
      | nil => rfl
      | cons c a =>
        exfalso
        simp only [List.cons_append, List.cons.injEq] at hab
        have hm : '(' ∈ args ++ [')'] := by rw [← hab.2]; simp
        rcases List.mem_append.1 hm with hm | hm
        · exact (hargs _ hm).1 rfl
        · simp at hm
    subst hstar
    have hab : ('*' :: name) ++ ')' :: b = args ++ ')' :: [] := by simpa using hab
    have h1 : ∀ (x y : Text) (b c : Text), ')' ∉ y → ')' ∉ c → x ++ ')' :: b = y ++ ')' :: c → x = y := by
      intro x y b c hy hc h
      rcases List.append_eq_append_iff.1 h with ⟨k, h1, h2⟩ | ⟨k, h1, h2⟩
      · cases k with
        | nil => simpa using h1.symm
        | cons w k =>
          simp only [List.cons_append, List.cons.injEq] at h2
          exact absurd (by rw [h1, ← h2.1]; simp) hy
      · cases k with
        | nil => simpa using h1
        | cons w k =>
          simp only [List.cons_append, List.cons.injEq] at h2
          exact absurd (by rw [h2.2]; simp) hc
    exact hne (h1 _ _ _ _ (fun h => (hargs _ h).2 rfl) (by simp) hab).symm
  have hv : visitDirect (pointerTo name args) =
      .func (.plain (attr (some ['*']) [] none) (String.ofList name)) (some args) := by
    simp only [pointerTo, visitDirect, hl, hafter, strip_parens args hargs, declOf, if_neg h2]
  have hstar : String.ofList ['*'] = "*" := by decide
  have hgiven : given (some (String.ofList args)) = true ∨ String.ofList args = "" := by
    simp only [given]
    by_cases h : String.ofList args = ""
    · exact .inr h
    · exact .inl (by simp [h])
  have hf : funcString none (some (String.ofList args)) ("* " ++ String.ofList name) =
      "(* " ++ String.ofList name ++ ")(" ++ String.ofList args ++ ")" := by
    have h0 : ("(" ++ ("* " ++ String.ofList name) : String) = "(* " ++ String.ofList name := by
      rw [← String.append_assoc]
      congr 1
    have h3 : (")" ++ "(" : String) = ")(" := by decide
    simp only [funcString]
    rw [h0]
    rcases hgiven with h | h
    · rw [h]
      simp only [given, if_true, Option.getD_some, Bool.false_eq_true, if_false]
      simp only [String.append_assoc]
      rw [← h3]
      simp only [String.append_assoc]
    · rw [h]
      have h4 : (")" ++ "()" : String) = ")()" := by decide
      have h5 : (")(" ++ ("" ++ ")") : String) = ")()" := by decide
      simp only [given, ne_eq, not_true_eq_false, decide_false, Bool.false_eq_true, if_false, String.append_assoc, h4, h5]
  simp only [visit, List.flatMap_cons, List.flatMap_nil, List.append_nil, visitDeclaration, if_neg ht]
  rw [if_pos (by simp)]
  simp only [List.map_cons, List.map_nil, hv, declOf, setAttr, Decl.name, Decl.declareMember, Decl.asStructMember, attr, Option.map_some,
    Option.map_none, hstar]
  obtain ⟨m, hm⟩ := maxLengths_ok { dtype := some (joinSpecs specs) } rfl
  obtain ⟨m', hm'⟩ : ∃ m', maxLengths { pointer := some "*" } m = .ok m' := by
    simp only [maxLengths, given]
    split_ifs <;> simp_all
  simp only [hm, sizesOr, Option.getD_none, List.isEmpty_nil, if_true, bind, Except.bind, hm', Except.map, Option.isSome_none,
    Bool.false_eq_true, if_false, pure, Except.pure]
  have ha : attrString { pointer := some "*" } (String.ofList name) = "* " ++ String.ofList name := by
    simp [attrString, given, String.intercalate]
  have hb : ∀ n, attrString { dtype := some (joinSpecs specs) } n = joinSpecs specs ++ " " ++ n := by
    intro n
    simp [attrString, given, String.intercalate, hs]
  rw [ha, hf, hb]

/-- C104: the variables of a declaration are found in order, and each gives a member of the struct with the text it was written with.
Missing: sizes that contain the name of the variable, that are octal or zero, blanks before brackets, and functions; see the negations
below. -/
theorem members_as_written_partial (specs : List Text) (vars : List Var) (ht : "typedef".toList ∉ specs) (hs : joinSpecs specs ≠ "")
    (hv : ∀ v ∈ vars, v.Fine) (hne : vars ≠ []) :
    (visit [.declaration { specs := specs, inits := vars.map Var.decl }]).map Decl.declareMember =
      vars.map fun v => .ok (joinSpecs specs ++ " " ++ v.text) := by
  simp only [visit, List.flatMap_cons, List.flatMap_nil, List.append_nil, visitDeclaration, if_neg ht]
  rw [if_pos (by simpa using hne), List.map_map, List.map_map]
  refine List.map_congr_left fun v hv' => ?_
  exact var_member (joinSpecs specs) hs v (hv v hv')

/-- `int *a[3][N], b` -/
example : (visit [.declaration { specs := ["int".toList], inits := [{ pointer := some ['*'], name := ['a'], sizes := [['3'], ['N']] : Var },
      { name := ['b'] : Var }].map Var.decl }]).map Decl.declareMember = [.ok "int * a[3][N]", .ok "int b"] := by
  decide +kernel

example : ({ pointer := some ['*'], name := ['a'], sizes := [['3'], ['N']] : Var }).Fine := by
  refine ⟨⟨by simp, by decide⟩, by simp, ?_, ?_⟩
  · intro e he
    simp only [List.mem_cons, List.not_mem_nil, or_false] at he
    rcases he with rfl | rfl
    · exact ⟨.inl ⟨3, by omega, by decide +kernel⟩, by decide, by decide⟩
    · exact ⟨.inr ⟨'N', by simp, by decide, by decide⟩, by decide, by decide⟩
  · intro e he
    simp only [List.head?_cons, Option.mem_def, Option.some.injEq] at he
    subst he
    rw [← removeAll_eq_iff _ (by simp)]
    decide

/-- C104: the first size of an array is kept exactly if the name of the variable is not in it. -/
theorem first_size_kept_iff (name e : Text) (hn : IsName name) (he : '[' ∉ e ∧ ']' ∉ e) :
    visitDirect (arrayOf name [([], e)]) = .text (name ++ '[' :: e ++ [']']) ↔ ¬ name <:+: e := by
  rw [visit_array name [] e [] hn ⟨by simp, he⟩ (by simp), ← removeAll_eq_iff name hn.1]
  simp [dimsText]

/-- C104 does not hold when the size contains the name: `double x[max]` and `int n[2*n_max]` have the sizes `ma` and `2*_max`, and
`int n[n3]` has three elements. -/
theorem name_removed_from_size :
    ((visit [.declaration ⟨["double".toList], [Var.decl { name := "x".toList, sizes := ["max".toList] }]⟩,
      .declaration ⟨["int".toList], [Var.decl { name := "n".toList, sizes := ["2*n_max".toList] }]⟩,
      .declaration ⟨["int".toList], [Var.decl { name := "n".toList, sizes := ["n3".toList] }]⟩]).map Decl.declareMember) =
      [.ok "double x[ma]", .ok "int n[2*_max]", .ok "int n[3]"] := by
  decide +kernel

/-- C104 does not hold for octal sizes: `010` is eight in C, but ten is written; and where no size is given, sixteen thousand are. -/
theorem octal_size_decimal :
    (visit [.declaration ⟨["int".toList], [Var.decl { name := "x".toList, sizes := ["010".toList] }, Var.decl { name := "y".toList, sizes := [[]] }]⟩]).map
        Decl.declareMember = [.ok "int x[10]", .ok "int y[16384]"] ∧
      Verif.Lit.cInt "010".toList = some 8 := by
  decide +kernel

/-- C104: a blank between the name and the bracket belongs to the name, whatever the size; the name of the member for an instance
of the component is two words. -/
theorem blank_in_name (pointer : Option Text) (name e : Text) (suffix : String) (hn : IsName name) (he : '[' ∉ e ∧ ']' ∉ e) :
    ((declOf pointer [] (visitDirect (arrayOf name [([' '], e)]))).copy suffix).name = String.ofList name ++ " _" ++ suffix := by
  rw [array_declared pointer [] name [' '] e [] hn ⟨by simp [blank], he⟩ (by simp)]
  have h : String.ofList (name ++ [' ']) ++ "_" = String.ofList name ++ " _" := by
    rw [String.ofList_append, String.append_assoc]
    congr 1
  simp only [Decl.copy, Decl.name, h]

/-- C104: the variables declared in the body of a function are taken for variables of the section. -/
theorem locals_declared (body : List Declaration) : visit [.function body] = visit (body.map .declaration) := by
  simp [visit, List.flatMap_map]

/-- C104: prototypes are taken for variables (and lose the letters of their name), pointers to arrays for pointers to functions,
and attributes are written as `None`. -/
theorem other_declarators_wrong :
    (visit [.declaration ⟨["double".toList], [{ direct := .suffix (.ident "f".toList) [] "(float y)".toList }]⟩,
      .declaration ⟨["double".toList], [{ direct := .suffix (.group [] (some ['*']) [] (.ident ['p']) [] []) [] "[3]".toList }]⟩,
      .declaration ⟨["double".toList], [{ direct := .ident "x".toList, ext := ["__attribute__((aligned(16)))".toList] }]⟩]).map
        Decl.declareMember = [.ok "double f(loat y)", .ok "double (* p)([3])", .ok "double x None"] := by
  decide +kernel

/-- A declaration of one variable without anything else: the last word is the variable, the others its type; a word alone and a type
definition declare nothing. -/
theorem plain_declared (specs : List Text) (name : Text) (ht : "typedef".toList ∉ specs ++ [name]) :
    visit [.declaration ⟨specs ++ [name], []⟩] =
      if specs = [] then [] else [.plain { dtype := some (" ".intercalate (specs.map String.ofList)) } (String.ofList name)] := by
  simp only [visit, List.flatMap_cons, List.flatMap_nil, List.append_nil, visitDeclaration, if_neg ht]
  cases specs with
  | nil => simp
  | cons a specs =>
    rw [if_neg (by simp), if_pos (by simp), if_neg (by simp), List.dropLast_concat, List.getLast?_concat]
    rfl

theorem typedef_declares_nothing (d : Declaration) (h : "typedef".toList ∈ d.specs) : visit [.declaration d] = [] := by
  simp only [visit, List.flatMap_cons, List.flatMap_nil, List.append_nil, visitDeclaration, if_pos h]

end Verif.CDecl.Visit
