import Verif.Expr.Props
import Verif.Common.Decimal

/-!
Equality, printing and hashing of expressions (expression.py 321-335, 411-475, 558-579, 715-728, 930-934, 1024-1046,
1204-1212). Properties C14, C64 and C65.
-/

namespace Verif.Ex
open Verif.DT

/-! ### Equality -/

mutual
/-- `x == s` for a Python string `s` which is not empty. -/
def Node.isStr (s : String) : Node → Bool
  | .num .. => false
  | .text s' _ _ => s' = s
  | .boxed _ es => isStrL s es
  | .un .. => false
  | .bin .. => false
  | .tri .. => false
  | .expr es => isStrL s es
def isStrL (s : String) : List Node → Bool
  | [] => false
  | x :: xs => match xs with
    | [] => x.isStr s
    | _ :: _ => false
end

/-- Python `xs == ys` for lists, given `==` of the elements. -/
def eqList (rec : Node → Node → Bool) : List Node → List Node → Bool
  | [], [] => true
  | x :: xs, y :: ys => rec x y && eqList rec xs ys
  | _, _ => false

/-- The `__eq__` of `BinaryOp` (464-472), after comparing the operations. -/
def eqBin (rec : Node → Node → Bool) (op : String) (ls rs ls' rs' : List Node) : Bool :=
  ((op = "*" || op = "+") && eqList rec ls rs' && eqList rec rs ls') || (eqList rec ls ls' && eqList rec rs rs')

/-- Python `a == b` (332-335, 464-472, 577-579, 930-934, 1204-1212). Two `Expr`s compare the elements of the second
with those of the first; an operation is never equal to an `Expr`, although an `Expr` may be equal to an operation.
The recursion is bounded by `fuel`. -/
def eqN : Nat → Node → Node → Bool
  | 0, _, _ => false
  | fuel + 1, a, b =>
    match a, b with
    | .num x _, .num y _ => x.toRat = y.toRat
    | .num x _, .boxed _ es => isValueL x.toRat es
    | .num x _, .expr es => isValueL x.toRat es
    | .num .., _ => false
    | .text s _ _, .text s' _ _ => s = s'
    | .text s _ _, .boxed _ es => isStrL s es
    | .text s _ _, .expr es => isStrL s es
    | .text .., _ => false
    | .boxed _ es, .num y _ => isValueL y.toRat es
    | .boxed _ es, .text s _ _ => isStrL s es
    | .boxed _ es, .boxed _ fs => eqList (eqN fuel) fs es
    | .boxed _ es, .expr fs => eqList (eqN fuel) fs es
    | .boxed .., _ => false
    | .un op _ xs, .un op' _ ys => op = op' && eqList (eqN fuel) xs ys
    | .un .., _ => false
    | .bin op _ ls rs, .bin op' _ ls' rs' => op = op' && eqBin (eqN fuel) op ls rs ls' rs'
    | .bin .., _ => false
    | .tri op _ fs ss ts, .tri op' _ fs' ss' ts' =>
      op = op' && eqList (eqN fuel) fs fs' && eqList (eqN fuel) ss ss' && eqList (eqN fuel) ts ts'
    | .tri .., _ => false
    | .expr es, .expr fs => eqList (eqN fuel) fs es
    | .expr [e], b => eqN fuel e b
    | .expr _, _ => false

/-- `a == b` -/
def pyEq (a b : Node) : Bool := eqN (a.size + b.size) a b

/-! ### Printing -/

/-- `','.join(...)` -/
def joinComma : List String → String
  | [] => ""
  | [x] => x
  | x :: y :: xs => x ++ "," ++ joinComma (y :: xs)

/-- `str` of an integer. -/
def intText (n : ℤ) : String := (if n < 0 then "-" else "") ++ String.ofList (Verif.decimal n.natAbs)

/-- `str` of a number; the text of floating point numbers is a parameter. -/
def Num.text (fl : ℚ → String) : Num → String
  | .int n => intText n
  | .flt q => fl q

/-- 558-566 -/
def unText (op v : String) : String :=
  if op = "__group__" then "(" ++ v ++ ")"
  else if op = "__not__" then "!" ++ v
  else if op.toList.any (fun c => c = '+' || c = '-') then op ++ v
  else op ++ "(" ++ v ++ ")"

/-- 411-449 -/
def binText (op l r : String) : String :=
  if op = "__call__" then l ++ "(" ++ r ++ ")"
  else if op = "__struct_access__" then l ++ "." ++ r
  else if op = "__pointer_access__" then l ++ "->" ++ r
  else if op = "__getitem__" then l ++ "[" ++ r ++ "]"
  else if op = "__pow__" then l ++ "^" ++ r
  else if op = "__lt__" then l ++ "<" ++ r
  else if op = "__gt__" then l ++ ">" ++ r
  else if op = "__le__" then l ++ "<=" ++ r
  else if op = "__ge__" then l ++ ">=" ++ r
  else if op = "__neq__" then l ++ "!=" ++ r
  else if op = "__eq__" then l ++ "==" ++ r
  else if op = "__or__" then l ++ " || " ++ r
  else if op = "__and__" then l ++ " && " ++ r
  else if op = "+" ∨ op = "-" ∨ op = "%" ∨ op = "<<" ∨ op = ">>" then "(" ++ l ++ " " ++ op ++ " " ++ r ++ ")"
  else if op = "//" then l ++ " / " ++ r
  else if op.toList.any (fun c => c = '*' || c = '/') then l ++ " " ++ op ++ " " ++ r
  else op ++ "(" ++ l ++ ", " ++ r ++ ")"

/-- 321-325 -/
def triText (op f s t : String) : String := if op = "__trinary__" then f ++ " ? " ++ s ++ " : " ++ t else "None"

mutual
/-- `str(x)`, in the style `C`. -/
def Node.str (fl : ℚ → String) : Node → String
  | .num x _ => x.text fl
  | .text s _ _ => s
  | .boxed _ es => joinComma (strL fl es)
  | .un op _ xs => unText op (joinComma (strL fl xs))
  | .bin op _ ls rs => binText op (joinComma (strL fl ls)) (joinComma (strL fl rs))
  | .tri op _ fs ss ts => triText op (joinComma (strL fl fs)) (joinComma (strL fl ss)) (joinComma (strL fl ts))
  | .expr es => joinComma (strL fl es)
def strL (fl : ℚ → String) : List Node → List String
  | [] => []
  | x :: xs => x.str fl :: strL fl xs
end

/-- `hash(x)` is the hash of the text (198-199, 727-728, 1037-1038). -/
def Node.hash {H : Type} (strHash : String → H) (fl : ℚ → String) (n : Node) : H := strHash (n.str fl)

/-! ### C14 -/

mutual
/-- Only integer constants, and neither `+` nor `*`. -/
def Node.rigid : Node → Bool
  | .num (.int _) _ => true
  | .num (.flt _) _ => false
  | .text .. => true
  | .boxed _ es => rigidL es
  | .un _ _ xs => rigidL xs
  | .bin op _ ls rs => !(op = "*" || op = "+") && rigidL ls && rigidL rs
  | .tri _ _ fs ss ts => rigidL fs && rigidL ss && rigidL ts
  | .expr es => rigidL es
def rigidL : List Node → Bool
  | [] => true
  | x :: xs => x.rigid && rigidL xs
end

theorem rigid_num (x : Num) (dt : DataType) (h : (Node.num x dt).rigid = true) : ∃ n, x = .int n := by
  cases x with
  | int n => exact ⟨n, rfl⟩
  | flt q => simp [Node.rigid] at h

mutual
theorem isValue_str (fl : ℚ → String) (k : ℤ) : ∀ n : Node, n.rigid = true → n.isValue k = true →
    n.str fl = intText k
  | .num x dt, hr, h => by
    obtain ⟨m, rfl⟩ := rigid_num x dt hr
    simp only [Node.isValue, Num.toRat, decide_eq_true_eq, Int.cast_inj] at h
    simp [Node.str, Num.text, h]
  | .text .., _, h => by simp [Node.isValue] at h
  | .boxed _ es, hr, h => by
    simp only [Node.isValue] at h
    simp only [Node.rigid] at hr
    simp only [Node.str]
    exact isValueL_str fl k es hr h
  | .un .., _, h => by simp [Node.isValue] at h
  | .bin .., _, h => by simp [Node.isValue] at h
  | .tri .., _, h => by simp [Node.isValue] at h
  | .expr es, hr, h => by
    simp only [Node.isValue] at h
    simp only [Node.rigid] at hr
    simp only [Node.str]
    exact isValueL_str fl k es hr h
theorem isValueL_str (fl : ℚ → String) (k : ℤ) : ∀ es : List Node, rigidL es = true → isValueL k es = true →
    joinComma (strL fl es) = intText k
  | [], _, h => by simp [isValueL] at h
  | [x], hr, h => by
    simp only [rigidL, Bool.and_eq_true] at hr
    simp only [isValueL] at h
    simp only [strL, joinComma]
    exact isValue_str fl k x hr.1 h
  | _ :: _ :: _, _, h => by simp [isValueL] at h
end

mutual
theorem isStr_str (fl : ℚ → String) (s : String) : ∀ n : Node, n.isStr s = true → n.str fl = s
  | .num .., h => by simp [Node.isStr] at h
  | .text s' _ _, h => by simpa [Node.isStr, Node.str] using h
  | .boxed _ es, h => by
    simp only [Node.isStr] at h
    simp only [Node.str]
    exact isStrL_str fl s es h
  | .un .., h => by simp [Node.isStr] at h
  | .bin .., h => by simp [Node.isStr] at h
  | .tri .., h => by simp [Node.isStr] at h
  | .expr es, h => by
    simp only [Node.isStr] at h
    simp only [Node.str]
    exact isStrL_str fl s es h
theorem isStrL_str (fl : ℚ → String) (s : String) : ∀ es : List Node, isStrL s es = true →
    joinComma (strL fl es) = s
  | [], h => by simp [isStrL] at h
  | [x], h => by
    simp only [isStrL] at h
    simp only [strL, joinComma]
    exact isStr_str fl s x h
  | _ :: _ :: _, h => by simp [isStrL] at h
end

theorem eqList_str (fl : ℚ → String) (rec : Node → Node → Bool)
    (hrec : ∀ a b, rec a b = true → a.rigid = true → b.rigid = true → a.str fl = b.str fl) :
    ∀ xs ys, eqList rec xs ys = true → rigidL xs = true → rigidL ys = true → strL fl xs = strL fl ys
  | [], [], _, _, _ => rfl
  | x :: xs, y :: ys, h, hx, hy => by
    simp only [eqList, Bool.and_eq_true] at h
    simp only [rigidL, Bool.and_eq_true] at hx hy
    simp only [strL]
    rw [hrec x y h.1 hx.1 hy.1, eqList_str fl rec hrec xs ys h.2 hx.2 hy.2]
  | [], _ :: _, h, _, _ => by simp [eqList] at h
  | _ :: _, [], h, _, _ => by simp [eqList] at h

theorem eqN_str (fl : ℚ → String) : ∀ (fuel : Nat) (a b : Node), eqN fuel a b = true → a.rigid = true →
    b.rigid = true → a.str fl = b.str fl
  | 0, _, _, h, _, _ => by simp [eqN] at h
  | fuel + 1, a, b, h, ha, hb => by
    have L := eqList_str fl (eqN fuel) (eqN_str fl fuel)
    unfold eqN at h
    split at h
    · rename_i x dt y dt'
      obtain ⟨m, rfl⟩ := rigid_num x _ ha
      obtain ⟨k, rfl⟩ := rigid_num y _ hb
      simp only [Num.toRat, decide_eq_true_eq, Int.cast_inj] at h
      simp [Node.str, h]
    · rename_i x dt _ es
      obtain ⟨m, rfl⟩ := rigid_num x _ ha
      simp only [Node.rigid] at hb
      simp only [Node.str, Num.text]
      exact (isValueL_str fl m es hb h).symm
    · rename_i x dt es
      obtain ⟨m, rfl⟩ := rigid_num x _ ha
      simp only [Node.rigid] at hb
      simp only [Node.str, Num.text]
      exact (isValueL_str fl m es hb h).symm
    · cases h
    · simpa [Node.str] using h
    · simp only [Node.str]; exact (isStrL_str fl _ _ h).symm
    · simp only [Node.str]; exact (isStrL_str fl _ _ h).symm
    · cases h
    · rename_i _ es y dt
      obtain ⟨m, rfl⟩ := rigid_num y _ hb
      simp only [Node.rigid] at ha
      simp only [Node.str, Num.text]
      exact isValueL_str fl m es ha h
    · simp only [Node.str]; exact isStrL_str fl _ _ h
    · simp only [Node.rigid] at ha hb
      simp only [Node.str]
      rw [L _ _ h hb ha]
    · simp only [Node.rigid] at ha hb
      simp only [Node.str]
      rw [L _ _ h hb ha]
    · cases h
    · simp only [Node.rigid] at ha hb
      simp only [Bool.and_eq_true, decide_eq_true_eq] at h
      simp only [Node.str]
      rw [h.1, L _ _ h.2 ha hb]
    · cases h
    · simp only [Node.rigid, Bool.and_eq_true, Bool.not_eq_true'] at ha hb
      simp only [Bool.and_eq_true, decide_eq_true_eq, eqBin, ha.1.1, Bool.false_and, Bool.false_or] at h
      simp only [Node.str]
      rw [h.1, L _ _ h.2.1 ha.1.2 hb.1.2, L _ _ h.2.2 ha.2 hb.2]
    · cases h
    · simp only [Node.rigid, Bool.and_eq_true] at ha hb
      simp only [Bool.and_eq_true, decide_eq_true_eq] at h
      simp only [Node.str]
      rw [h.1.1.1, L _ _ h.1.1.2 ha.1.1 hb.1.1, L _ _ h.1.2 ha.1.2 hb.1.2, L _ _ h.2 ha.2 hb.2]
    · cases h
    · simp only [Node.rigid] at ha hb
      simp only [Node.str]
      rw [L _ _ h hb ha]
    · rename_i e _
      simp only [Node.rigid, rigidL, Bool.and_eq_true] at ha
      have := eqN_str fl fuel e b h ha.1 hb
      simp only [Node.str, strL, joinComma, this]
    · cases h

/-- **C14** (partial): equal expressions hash equally if their constants are integers and they contain neither `+` nor
`*`. Missing: sums, products and floating point constants, see `equal_but_different_hash`. -/
theorem equal_hash_partial {H : Type} (strHash : String → H) (fl : ℚ → String) (a b : Node)
    (ha : a.rigid = true) (hb : b.rigid = true) (h : pyEq a b = true) :
    a.hash strHash fl = b.hash strHash fl := by
  unfold Node.hash
  rw [eqN_str fl _ a b h ha hb]

example : (Node.expr [.bin "/" .int [.text "x" .int .param] [.num (.int 2) .int]]).rigid = true ∧
    pyEq (.expr [.bin "/" .int [.text "x" .int .param] [.num (.int 2) .int]])
      (.expr [.bin "/" .float [.text "x" .float .ident] [.num (.int 2) .float]]) = true := by decide +kernel

/-- The negation of the full claim C14: `a + b == b + a` and `1 == 1.0` (as expressions), but they have different
texts, so their hashes differ whenever the string hash distinguishes these. -/
theorem equal_but_different_hash (fl : ℚ → String) (h1 : fl 1 = "1.0") :
    (pyEq (.bin "+" .int [.text "a" .int .ident] [.text "b" .int .ident])
        (.bin "+" .int [.text "b" .int .ident] [.text "a" .int .ident]) = true ∧
      (Node.bin "+" .int [.text "a" .int .ident] [.text "b" .int .ident]).str fl = "(a + b)" ∧
      (Node.bin "+" .int [.text "b" .int .ident] [.text "a" .int .ident]).str fl = "(b + a)") ∧
    (pyEq (.num (.int 1) .int) (.num (.flt 1) .float) = true ∧
      (Node.num (.int 1) .int).str fl = "1" ∧ (Node.num (.flt 1) .float).str fl = "1.0") :=
  ⟨⟨by decide +kernel, rfl, rfl⟩, by decide +kernel, by show intText 1 = "1"; decide +kernel, h1⟩

/-! ### C64: equality is an equivalence -/

mutual
/-- No `Expr` inside the expression. -/
def Node.flat : Node → Bool
  | .num .. => true
  | .text .. => true
  | .boxed .. => false
  | .un _ _ xs => flatL xs
  | .bin _ _ ls rs => flatL ls && flatL rs
  | .tri _ _ fs ss ts => flatL fs && flatL ss && flatL ts
  | .expr _ => false
def flatL : List Node → Bool
  | [] => true
  | x :: xs => x.flat && flatL xs
end

/-- The expressions stored in an `Expr` built without nesting. -/
def flatExpr : Node → Bool
  | .expr es => flatL es
  | n => n.flat

theorem eqList_fuel (f g : Nat) (k : Nat)
    (hrec : ∀ a b : Node, a.size + b.size ≤ k → eqN f a b = eqN g a b) :
    ∀ xs ys : List Node, sizeL xs + sizeL ys ≤ k → eqList (eqN f) xs ys = eqList (eqN g) xs ys
  | [], [], _ => rfl
  | [], _ :: _, _ => rfl
  | _ :: _, [], _ => rfl
  | x :: xs, y :: ys, h => by
    simp only [sizeL] at h
    simp only [eqList]
    rw [hrec x y (by omega), eqList_fuel f g k hrec xs ys (by omega)]

/-- Enough fuel is enough. -/
theorem eqN_fuel : ∀ (f g : Nat) (a b : Node), a.size + b.size ≤ f → a.size + b.size ≤ g → eqN f a b = eqN g a b
  | 0, _, a, b, h, _ => by have := size_pos a; omega
  | _ + 1, 0, a, b, _, h => by have := size_pos a; omega
  | f + 1, g + 1, a, b, hf, hg => by
    have L : ∀ xs ys : List Node, sizeL xs + sizeL ys ≤ min f g → eqList (eqN f) xs ys = eqList (eqN g) xs ys :=
      eqList_fuel f g (min f g) fun a b h => eqN_fuel f g a b (by omega) (by omega)
    cases a <;> cases b <;> (try rfl) <;> simp only [Node.size] at hf hg
    case boxed.boxed => simp only [eqN]; exact L _ _ (by omega)
    case boxed.expr => simp only [eqN]; exact L _ _ (by omega)
    case expr.expr => simp only [eqN]; exact L _ _ (by omega)
    case un.un => simp only [eqN]; rw [L _ _ (by omega)]
    case bin.bin => simp only [eqN, eqBin]; rw [L _ _ (by omega), L _ _ (by omega), L _ _ (by omega), L _ _ (by omega)]
    case tri.tri => simp only [eqN]; rw [L _ _ (by omega), L _ _ (by omega), L _ _ (by omega)]
    all_goals
      rename_i es
      have key : ∀ (es : List Node) (b : Node), (∀ fs, b ≠ .expr fs) → 1 + sizeL es + b.size ≤ f + 1 →
          1 + sizeL es + b.size ≤ g + 1 → eqN (f + 1) (.expr es) b = eqN (g + 1) (.expr es) b := by
        intro es b hb h1 h2
        match es with
        | [] => cases b <;> first | rfl | exact absurd rfl (hb _)
        | [e] =>
          simp only [sizeL] at h1 h2
          have := eqN_fuel f g e b (by omega) (by omega)
          cases b <;> first | (simp only [eqN]; exact this) | exact absurd rfl (hb _)
        | x :: y :: zs => cases b <;> first | rfl | exact absurd rfl (hb _)
      exact key _ _ (by simp) (by simp only [Node.size]; omega) (by simp only [Node.size]; omega)

theorem eqList_refl (rec : Node → Node → Bool) : ∀ xs : List Node, (∀ x ∈ xs, rec x x = true) →
    eqList rec xs xs = true
  | [], _ => rfl
  | x :: xs, h => by
    simp only [eqList, h x (by simp), Bool.true_and]
    exact eqList_refl rec xs fun y hy => h y (by simp [hy])

theorem size_mem : ∀ (xs : List Node) (x : Node), x ∈ xs → x.size ≤ sizeL xs
  | y :: ys, x, h => by
    simp only [sizeL]
    rcases List.mem_cons.1 h with rfl | h
    · omega
    · have := size_mem ys x h; omega

theorem eqN_refl : ∀ (f : Nat) (a : Node), a.size ≤ f → eqN f a a = true
  | 0, a, h => by have := size_pos a; omega
  | f + 1, a, h => by
    have L : ∀ xs : List Node, sizeL xs ≤ f → eqList (eqN f) xs xs = true := fun xs hx =>
      eqList_refl _ xs fun x hm => eqN_refl f x (by have := size_mem xs x hm; omega)
    cases a <;> simp only [Node.size] at h <;> simp only [eqN, decide_true, Bool.true_and, eqBin]
    · exact L _ (by omega)
    · exact L _ (by omega)
    · simp only [Bool.or_eq_true, Bool.and_eq_true]
      exact .inr ⟨L _ (by omega), L _ (by omega)⟩
    · simp only [Bool.and_eq_true]
      exact ⟨⟨L _ (by omega), L _ (by omega)⟩, L _ (by omega)⟩
    · exact L _ (by omega)

theorem eqList_symm (rec : Node → Node → Bool)
    (hrec : ∀ a b : Node, a.flat = true → b.flat = true → rec a b = true → rec b a = true) :
    ∀ xs ys : List Node, flatL xs = true → flatL ys = true → eqList rec xs ys = true → eqList rec ys xs = true
  | [], [], _, _, _ => rfl
  | [], _ :: _, _, _, h => by simp [eqList] at h
  | _ :: _, [], _, _, h => by simp [eqList] at h
  | x :: xs, y :: ys, hx, hy, h => by
    simp only [eqList, flatL, Bool.and_eq_true] at h hx hy ⊢
    exact ⟨hrec x y hx.1 hy.1 h.1, eqList_symm rec hrec xs ys hx.2 hy.2 h.2⟩

theorem eqN_symm_flat : ∀ (f : Nat) (a b : Node), a.flat = true → b.flat = true → eqN f a b = true →
    eqN f b a = true
  | 0, _, _, _, _, h => by simp [eqN] at h
  | f + 1, a, b, ha, hb, h => by
    have L := eqList_symm (eqN f) (eqN_symm_flat f)
    cases a <;> cases b <;> first
      | (simp only [eqN, Bool.false_eq_true] at h; done)
      | (simp only [Node.flat, Bool.false_eq_true] at ha; done)
      | (simp only [Node.flat, Bool.false_eq_true] at hb; done)
      | skip
    · simp only [eqN, decide_eq_true_eq] at h ⊢; exact h.symm
    · simp only [eqN, decide_eq_true_eq] at h ⊢; exact h.symm
    · simp only [Node.flat] at ha hb
      simp only [eqN, Bool.and_eq_true, decide_eq_true_eq] at h ⊢
      exact ⟨h.1.symm, L _ _ ha hb h.2⟩
    · simp only [Node.flat, Bool.and_eq_true] at ha hb
      simp only [eqN, eqBin, Bool.and_eq_true, Bool.or_eq_true, decide_eq_true_eq] at h ⊢
      refine ⟨h.1.symm, ?_⟩
      rcases h.2 with h' | h'
      · rw [← h.1]
        exact .inl ⟨⟨h'.1.1, L _ _ ha.2 hb.1 h'.2⟩, L _ _ ha.1 hb.2 h'.1.2⟩
      · exact .inr ⟨L _ _ ha.1 hb.1 h'.1, L _ _ ha.2 hb.2 h'.2⟩
    · simp only [Node.flat, Bool.and_eq_true] at ha hb
      simp only [eqN, Bool.and_eq_true, decide_eq_true_eq] at h ⊢
      exact ⟨⟨⟨h.1.1.1.symm, L _ _ ha.1.1 hb.1.1 h.1.1.2⟩, L _ _ ha.1.2 hb.1.2 h.1.2⟩, L _ _ ha.2 hb.2 h.2⟩

theorem eqList_trans (rec : Node → Node → Bool)
    (hrec : ∀ a b c : Node, a.flat = true → b.flat = true → c.flat = true → rec a b = true → rec b c = true →
      rec a c = true) :
    ∀ xs ys zs : List Node, flatL xs = true → flatL ys = true → flatL zs = true → eqList rec xs ys = true →
      eqList rec ys zs = true → eqList rec xs zs = true
  | [], [], [], _, _, _, _, _ => rfl
  | [], _ :: _, _, _, _, _, h, _ => by simp [eqList] at h
  | _ :: _, [], _, _, _, _, h, _ => by simp [eqList] at h
  | _, [], _ :: _, _, _, _, _, h => by simp [eqList] at h
  | _, _ :: _, [], _, _, _, _, h => by simp [eqList] at h
  | x :: xs, y :: ys, z :: zs, hx, hy, hz, h, h' => by
    simp only [eqList, flatL, Bool.and_eq_true] at h h' hx hy hz ⊢
    exact ⟨hrec x y z hx.1 hy.1 hz.1 h.1 h'.1, eqList_trans rec hrec xs ys zs hx.2 hy.2 hz.2 h.2 h'.2⟩

theorem eqN_trans_flat : ∀ (f : Nat) (a b c : Node), a.flat = true → b.flat = true → c.flat = true →
    eqN f a b = true → eqN f b c = true → eqN f a c = true
  | 0, _, _, _, _, _, _, h, _ => by simp [eqN] at h
  | f + 1, a, b, c, ha, hb, hc, h, h' => by
    have L := eqList_trans (eqN f) (eqN_trans_flat f)
    cases a <;> cases b <;> first
      | (simp only [eqN, Bool.false_eq_true] at h; done)
      | (simp only [Node.flat, Bool.false_eq_true] at ha; done)
      | (simp only [Node.flat, Bool.false_eq_true] at hb; done)
      | skip
    all_goals cases c <;> first
      | (simp only [eqN, Bool.false_eq_true] at h'; done)
      | (simp only [Node.flat, Bool.false_eq_true] at hc; done)
      | skip
    · simp only [eqN, decide_eq_true_eq] at h h' ⊢; exact h.trans h'
    · simp only [eqN, decide_eq_true_eq] at h h' ⊢; exact h.trans h'
    · simp only [Node.flat] at ha hb hc
      simp only [eqN, Bool.and_eq_true, decide_eq_true_eq] at h h' ⊢
      exact ⟨h.1.trans h'.1, L _ _ _ ha hb hc h.2 h'.2⟩
    · simp only [Node.flat, Bool.and_eq_true] at ha hb hc
      simp only [eqN, eqBin, Bool.and_eq_true, Bool.or_eq_true, decide_eq_true_eq] at h h' ⊢
      refine ⟨h.1.trans h'.1, ?_⟩
      rcases h.2 with h1 | h1 <;> rcases h'.2 with h2 | h2
      · exact .inr ⟨L _ _ _ ha.1 hb.2 hc.1 h1.1.2 h2.2, L _ _ _ ha.2 hb.1 hc.2 h1.2 h2.1.2⟩
      · exact .inl ⟨⟨h1.1.1, L _ _ _ ha.1 hb.2 hc.2 h1.1.2 h2.2⟩, L _ _ _ ha.2 hb.1 hc.1 h1.2 h2.1⟩
      · rw [← h.1] at h2
        exact .inl ⟨⟨h2.1.1, L _ _ _ ha.1 hb.1 hc.2 h1.1 h2.1.2⟩, L _ _ _ ha.2 hb.2 hc.1 h1.2 h2.2⟩
      · exact .inr ⟨L _ _ _ ha.1 hb.1 hc.1 h1.1 h2.1, L _ _ _ ha.2 hb.2 hc.2 h1.2 h2.2⟩
    · simp only [Node.flat, Bool.and_eq_true] at ha hb hc
      simp only [eqN, Bool.and_eq_true, decide_eq_true_eq] at h h' ⊢
      exact ⟨⟨⟨h.1.1.1.trans h'.1.1.1, L _ _ _ ha.1.1 hb.1.1 hc.1.1 h.1.1.2 h'.1.1.2⟩,
        L _ _ _ ha.1.2 hb.1.2 hc.1.2 h.1.2 h'.1.2⟩, L _ _ _ ha.2 hb.2 hc.2 h.2 h'.2⟩

theorem pyEq_expr (es fs : List Node) : pyEq (.expr es) (.expr fs) = true ↔
    ∃ k, ∀ f, k ≤ f → eqList (eqN f) fs es = true := by
  have e : ∀ f, sizeL es + sizeL fs + 2 ≤ f + 1 →
      eqN ((Node.expr es).size + (Node.expr fs).size) (.expr es) (.expr fs) = eqList (eqN f) fs es := by
    intro f hf
    rw [eqN_fuel _ (f + 1) (.expr es) (.expr fs) (le_refl _) (by simp only [Node.size]; omega)]
    rw [eqN]
  unfold pyEq
  constructor
  · intro h
    exact ⟨sizeL es + sizeL fs + 2, fun f hf => by rw [← e f (by omega)]; exact h⟩
  · rintro ⟨k, h⟩
    rw [e (max k (sizeL es + sizeL fs + 2)) (by omega)]
    exact h _ (by omega)

/-- **C64** (partial): on `Expr` objects without nested `Expr`s, `==` is an equivalence. Missing: nested `Expr`s and
comparisons between an `Expr` and an operation, see `equality_not_symmetric`. -/
theorem equality_is_equivalence_partial :
    (∀ a : Node, pyEq a a = true) ∧
    (∀ es fs, flatL es = true → flatL fs = true → pyEq (.expr es) (.expr fs) = true →
      pyEq (.expr fs) (.expr es) = true) ∧
    (∀ es fs gs, flatL es = true → flatL fs = true → flatL gs = true → pyEq (.expr es) (.expr fs) = true →
      pyEq (.expr fs) (.expr gs) = true → pyEq (.expr es) (.expr gs) = true) := by
  refine ⟨fun a => eqN_refl _ a (by omega), fun es fs he hf h => ?_, fun es fs gs he hf hg h h' => ?_⟩
  · rw [pyEq_expr] at h ⊢
    obtain ⟨k, h⟩ := h
    exact ⟨k, fun f hk => eqList_symm _ (eqN_symm_flat f) _ _ hf he (h f hk)⟩
  · rw [pyEq_expr] at h h' ⊢
    obtain ⟨k, h⟩ := h
    obtain ⟨k', h'⟩ := h'
    exact ⟨max k k', fun f hk => eqList_trans _ (eqN_trans_flat f) _ _ _ hg hf he (h' f (by omega)) (h f (by omega))⟩

example : flatL [.bin "*" .int [.text "a" .int .ident] [.num (.int 2) .int]] = true ∧
    pyEq (.expr [.bin "*" .int [.text "a" .int .ident] [.num (.int 2) .int]])
      (.expr [.bin "*" .int [.num (.flt 2) .float] [.text "a" .int .param]]) = true := by decide +kernel

/-- The negation of the full claim C64: an `Expr` is equal to the operation it holds, but not the other way round. -/
theorem equality_not_symmetric :
    pyEq (.expr [.un "-" .int [.text "a" .int .ident]]) (.un "-" .int [.text "a" .int .ident]) = true ∧
    pyEq (.un "-" .int [.text "a" .int .ident]) (.expr [.un "-" .int [.text "a" .int .ident]]) = false := by
  decide +kernel

/-! ### C65: equal expressions have equal values -/

mutual
/-- Every name is used either as an identifier (or parameter) or as something else, as told by `role`. -/
def Node.roles (role : String → Bool) : Node → Bool
  | .num .. => true
  | .text s _ o => role s = decide (o = .ident ∨ o = .param)
  | .boxed _ es => rolesL role es
  | .un _ _ xs => rolesL role xs
  | .bin _ _ ls rs => rolesL role ls && rolesL role rs
  | .tri _ _ fs ss ts => rolesL role fs && rolesL role ss && rolesL role ts
  | .expr es => rolesL role es
def rolesL (role : String → Bool) : List Node → Bool
  | [] => true
  | x :: xs => x.roles role && rolesL role xs
end

/-- The value of a name with a role. -/
def nameDen (role : String → Bool) (ρ : Env) (s : String) : Option Base := if role s then ρ.var s else some (.text s)

theorem text_den (role : String → Bool) (ρ : Env) (s : String) (dt : DataType) (o : Obj)
    (h : (Node.text s dt o).roles role = true) : (Node.text s dt o).den ρ = nameDen role ρ s := by
  simp only [Node.roles, decide_eq_true_eq] at h
  simp only [Node.den, nameDen, h, decide_eq_true_eq]

mutual
theorem isStr_den (role : String → Bool) (ρ : Env) (s : String) : ∀ n : Node, n.roles role = true →
    n.isStr s = true → n.den ρ = nameDen role ρ s
  | .num .., _, h => by simp [Node.isStr] at h
  | .text s' dt o, hr, h => by
    simp only [Node.isStr, decide_eq_true_eq] at h
    rw [text_den role ρ s' dt o hr, h]
  | .boxed _ es, hr, h => by
    simp only [Node.isStr] at h
    simp only [Node.roles] at hr
    simp only [Node.den]
    exact isStrL_den role ρ s es hr h
  | .un .., _, h => by simp [Node.isStr] at h
  | .bin .., _, h => by simp [Node.isStr] at h
  | .tri .., _, h => by simp [Node.isStr] at h
  | .expr es, hr, h => by
    simp only [Node.isStr] at h
    simp only [Node.roles] at hr
    simp only [Node.den]
    exact isStrL_den role ρ s es hr h
theorem isStrL_den (role : String → Bool) (ρ : Env) (s : String) : ∀ es : List Node, rolesL role es = true →
    isStrL s es = true → only (denL ρ es) = nameDen role ρ s
  | [], _, h => by simp [isStrL] at h
  | [x], hr, h => by
    simp only [isStrL] at h
    simp only [rolesL, Bool.and_eq_true] at hr
    rw [only_single]
    exact isStr_den role ρ s x hr.1 h
  | _ :: _ :: _, _, h => by simp [isStrL] at h
end

theorem eqList_den (role : String → Bool) (ρ : Env) (rec : Node → Node → Bool)
    (hrec : ∀ a b : Node, a.roles role = true → b.roles role = true → rec a b = true → a.den ρ = b.den ρ) :
    ∀ xs ys, rolesL role xs = true → rolesL role ys = true → eqList rec xs ys = true → denL ρ xs = denL ρ ys
  | [], [], _, _, _ => rfl
  | [], _ :: _, _, _, h => by simp [eqList] at h
  | _ :: _, [], _, _, h => by simp [eqList] at h
  | x :: xs, y :: ys, hx, hy, h => by
    simp only [eqList, rolesL, Bool.and_eq_true] at h hx hy
    simp only [denL]
    rw [hrec x y hx.1 hy.1 h.1, eqList_den role ρ rec hrec xs ys hx.2 hy.2 h.2]

theorem apply2_comm (ρ : Env) (op : String) (hop : op = "*" ∨ op = "+") (a b : List Base) :
    apply2 ρ op a b = apply2 ρ op b a := by
  rcases hop with rfl | rfl
  all_goals
    simp only [apply2]
    rw [if_pos (by decide), if_pos (by decide)]
    rcases a with _ | ⟨x, _ | ⟨x', xs⟩⟩ <;> rcases b with _ | ⟨y, _ | ⟨y', ys⟩⟩ <;> (try cases x) <;> (try cases y) <;>
      first | rfl | simp [arith, mul_comm, add_comm]

theorem eqN_den (role : String → Bool) (ρ : Env) : ∀ (f : Nat) (a b : Node), a.roles role = true →
    b.roles role = true → eqN f a b = true → a.den ρ = b.den ρ
  | 0, _, _, _, _, h => by simp [eqN] at h
  | fuel + 1, a, b, ha, hb, h => by
    have L := eqList_den role ρ (eqN fuel) (eqN_den role ρ fuel)
    unfold eqN at h
    split at h
    · simp only [decide_eq_true_eq] at h
      simp [Node.den, h]
    · rw [isValue_den ρ _ (.boxed _ _) (by simpa only [Node.isValue] using h)]; rfl
    · rw [isValue_den ρ _ (.expr _) (by simpa only [Node.isValue] using h)]; rfl
    · cases h
    · simp only [decide_eq_true_eq] at h
      rw [text_den role ρ _ _ _ ha, text_den role ρ _ _ _ hb, h]
    · rw [text_den role ρ _ _ _ ha, isStr_den role ρ _ (.boxed _ _) hb (by simpa only [Node.isStr] using h)]
    · rw [text_den role ρ _ _ _ ha, isStr_den role ρ _ (.expr _) hb (by simpa only [Node.isStr] using h)]
    · cases h
    · rw [isValue_den ρ _ (.boxed _ _) (by simpa only [Node.isValue] using h)]; rfl
    · rw [text_den role ρ _ _ _ hb, isStr_den role ρ _ (.boxed _ _) ha (by simpa only [Node.isStr] using h)]
    · simp only [Node.roles] at ha hb
      simp only [Node.den]
      rw [L _ _ hb ha h]
    · simp only [Node.roles] at ha hb
      simp only [Node.den]
      rw [L _ _ hb ha h]
    · cases h
    · simp only [Node.roles] at ha hb
      simp only [Bool.and_eq_true, decide_eq_true_eq] at h
      simp only [Node.den]
      rw [h.1, L _ _ ha hb h.2]
    · cases h
    · simp only [Node.roles, Bool.and_eq_true] at ha hb
      simp only [Bool.and_eq_true, decide_eq_true_eq, eqBin, Bool.or_eq_true] at h
      simp only [Node.den]
      obtain ⟨rfl, h | h⟩ := h
      · rw [L _ _ ha.1 hb.2 h.1.2, L _ _ ha.2 hb.1 h.2]
        have hc := apply2_comm ρ _ h.1.1
        rename_i ls' rs'
        cases denL ρ rs' with
        | none => cases denL ρ ls' <;> rfl
        | some u =>
          cases denL ρ ls' with
          | none => rfl
          | some w => simp only [Option.bind_some]; exact hc u w
      · rw [L _ _ ha.1 hb.1 h.1, L _ _ ha.2 hb.2 h.2]
    · cases h
    · simp only [Node.roles, Bool.and_eq_true] at ha hb
      simp only [Bool.and_eq_true, decide_eq_true_eq] at h
      simp only [Node.den]
      rw [h.1.1.1, L _ _ ha.1.1 hb.1.1 h.1.1.2, L _ _ ha.1.2 hb.1.2 h.1.2, L _ _ ha.2 hb.2 h.2]
    · cases h
    · simp only [Node.roles] at ha hb
      simp only [Node.den]
      rw [L _ _ hb ha h]
    · rename_i e _
      simp only [Node.roles, rolesL, Bool.and_eq_true] at ha
      rw [expr_den]
      exact eqN_den role ρ fuel e b ha.1 hb h
    · cases h

/-- **C65** (partial): expressions which compare equal have the same value under every assignment, provided no name
is an identifier in one and a string or function name in the other. See `identifier_equals_string`. -/
theorem equal_same_value_partial (a b : Node) (role : String → Bool) (ha : a.roles role = true)
    (hb : b.roles role = true) (h : pyEq a b = true) (ρ : Env) : a.den ρ = b.den ρ :=
  eqN_den role ρ _ a b ha hb h

example : (Node.bin "*" .int [.text "a" .int .ident] [.num (.int 2) .int]).roles (fun _ => true) = true ∧
    pyEq (.bin "*" .int [.text "a" .int .ident] [.num (.int 2) .int])
      (.bin "*" .int [.num (.flt 2) .float] [.text "a" .int .param]) = true := by decide +kernel

/-- The negation of the full claim C65: an identifier and a string constant with the same characters are equal. -/
theorem identifier_equals_string :
    pyEq (.text "a" .undefined .ident) (.text "a" .str .value) = true ∧
    (Node.text "a" .undefined .ident).den (.ofNumbers (fun _ => 1) (fun _ _ => none) (fun _ _ _ => none)) =
      some (.num 1) ∧
    (Node.text "a" .str .value).den (.ofNumbers (fun _ => 1) (fun _ _ => none) (fun _ _ _ => none)) =
      some (.text "a") := by
  refine ⟨by decide +kernel, rfl, rfl⟩

end Verif.Ex
