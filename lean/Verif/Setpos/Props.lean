import Verif.Setpos.Model

/-!
C77: after `setpos` every setting parameter of an instance holds the value given in the instrument.
-/

namespace Verif.Setpos

open Verif.Escape Verif.DT

variable {R : Type} [Zero R]

/-- The parameter holds a text. -/
def HoldsText (r : Option (Mem R)) (s : List Nat) : Prop := ∃ m, r = some (.text m) ∧ textIn m = some s

/-- What a name or an operation is called in the program: instrument parameters are members of `_instrument_var`. -/
inductive Called : Ex → Text → Prop
  | identifier (t : Text) (d : DataType) (s : Bool) : Called (.val (.text t) d .identifier s) t
  | parameter (t : Text) (d : DataType) (s : Bool) :
      Called (.val (.text t) d .parameter s) (txt "_instrument_var._parameters." ++ t)
  | operation (t : Text) (d : DataType) : Called (.op t d) t

theorem called_iff {v : Ex} {t : Text} (h : Called v t) : v.printP = t ∧ (v.isId = true ∨ v.isOp = true) := by
  cases h with
  | identifier => exact ⟨rfl, Or.inl rfl⟩
  | parameter => exact ⟨rfl, Or.inl rfl⟩
  | operation => exact ⟨rfl, Or.inr rfl⟩

/-! ### Copying texts -/

theorem cstr_nozero (bs : List Nat) : ∀ x ∈ cstr bs, x ≠ 0 := by
  intro x hx
  simpa using List.mem_takeWhile_imp hx

theorem cstr_of_nozero {bs : List Nat} (h : ∀ x ∈ bs, x ≠ 0) : cstr bs = bs :=
  List.takeWhile_eq_self_iff.2 fun x hx => by simpa using h x hx

theorem textIn_zeros (cs : List Nat) (h : ∀ x ∈ cs, x ≠ 0) (k : Nat) :
    textIn (cs ++ List.replicate k 0) = if k = 0 then none else some cs := by
  unfold textIn
  cases k with
  | zero =>
    rw [if_pos rfl, if_neg]
    simp only [List.replicate_zero, List.append_nil]
    exact fun h0 => h 0 h0 rfl
  | succ k =>
    rw [if_neg (by omega : ¬ k + 1 = 0), if_pos (List.mem_append_right _ (by simp))]
    unfold cstr
    rw [List.takeWhile_append_of_pos (fun x hx => by simpa using h x hx)]
    simp [List.replicate_succ]

/-- What is in an array of zeros after a copy. -/
theorem copied_iff (src : List Nat) (n size : Nat) (s : List Nat) :
    (∃ m, stracpy (List.replicate size 0) src n = some m ∧ textIn m = some s) ↔
      s = (cstr src).take n ∧ s.length < size := by
  unfold stracpy
  simp only [List.length_replicate, List.drop_replicate]
  have hnz : ∀ x ∈ (cstr src).take n, x ≠ 0 := fun x hx => cstr_nozero src x (List.mem_of_mem_take hx)
  by_cases hn : (cstr src).length < n
  · have h1 : (cstr src ++ [0]).take n = cstr src ++ [0] := List.take_of_length_le (by simp; omega)
    have h2 : (cstr src).take n = cstr src := List.take_of_length_le (by omega)
    rw [h1, h2]
    rw [h2] at hnz
    constructor
    · rintro ⟨m, hm, ht⟩
      split_ifs at hm with hl
      injection hm with hm
      subst hm
      rw [List.append_assoc] at ht
      have : [0] ++ List.replicate (size - (cstr src ++ [0]).length) 0 =
          List.replicate (size - (cstr src ++ [0]).length + 1) 0 := by rw [List.replicate_succ]; rfl
      rw [this, textIn_zeros _ hnz, if_neg (by omega)] at ht
      injection ht with ht
      subst ht
      simp at hl
      exact ⟨rfl, by omega⟩
    · rintro ⟨rfl, hl⟩
      refine ⟨_, by rw [if_pos (by simp; omega)], ?_⟩
      rw [List.append_assoc]
      have : [0] ++ List.replicate (size - (cstr src ++ [0]).length) 0 =
          List.replicate (size - (cstr src ++ [0]).length + 1) 0 := by rw [List.replicate_succ]; rfl
      rw [this, textIn_zeros _ hnz, if_neg (by omega)]
  · have h1 : (cstr src ++ [0]).take n = (cstr src).take n := List.take_append_of_le_length (by omega)
    rw [h1]
    constructor
    · rintro ⟨m, hm, ht⟩
      split_ifs at hm with hl
      injection hm with hm
      subst hm
      rw [textIn_zeros _ hnz] at ht
      split_ifs at ht with h0
      injection ht with ht
      subst ht
      exact ⟨rfl, by omega⟩
    · rintro ⟨rfl, hl⟩
      refine ⟨_, by rw [if_pos (by omega)], ?_⟩
      rw [textIn_zeros _ hnz, if_neg (by omega)]

theorem isStr_val (v : Py) (d : DataType) (o : Obj) (s : Bool) : (Ex.val v d o s).isStr = (o = .value && d = .str) := rfl

theorem member_vector {d : Ex} (h : d.isStr = false) (h' : d.isVector = true) : (member d : Mem R) = .pointer none := by
  simp [member, h, h']

theorem member_number {d : Ex} (h : d.isStr = false) (h' : d.isVector = false) : (member d : Mem R) = .number 0 := by
  simp [member, h, h']

theorem member_str {d : Ex} (h : d.isStr = true) : (member d : Mem R) = .text (List.replicate textSize 0) := if_pos h

/-- C77, a text given as a literal: the parameter holds the text of the literal if and only if the text is not longer than
what is between the quotes, in bytes and characters, by more than one, and fits the array. -/
theorem literal_held_iff (ev : Text → Option (CVal R)) (d : Ex) (hd : d.isStr = true) (b : Text) (bs : List Nat)
    (hb : litBytes (quote b) = some bs) (hne : b ≠ []) :
    HoldsText (held ev d (.val (.text (quote b)) .str .value false)) (cstr bs) ↔
      (cstr bs).length ≤ b.length + 1 ∧ (cstr bs).length < 16384 := by
  have hsize : textSize = 16384 := rfl
  have hq : quote b ≠ txt "0" ∧ quote b ≠ txt "NULL" ∧ quote b ≠ txt "\"\"" := by
    refine ⟨fun h => ?_, fun h => ?_, fun h => ?_⟩
    · have := congrArg List.head? h
      revert this
      simp [quote, txt, ch]
    · have := congrArg List.head? h
      revert this
      simp [quote, txt, ch]
    · have := congrArg List.length h
      have hl : b.length ≠ 0 := fun h0 => hne (List.length_eq_zero_iff.1 h0)
      rw [show (txt "\"\"").length = 2 by rfl] at this
      rw [show (quote b).length = b.length + 2 by simp [quote]] at this
      omega
  have hlines : parameterLines d (.val (.text (quote b)) .str .value false) = .ok [.copy (quote b) (b.length + 1)] := by
    simp only [parameterLines, hd, Bool.true_or, if_true]
    simp only [Ex.isId, Ex.isOp, Ex.printP, Py.print]
    rw [if_pos hq]
    simp [quote]
  have hrun : held ev d (.val (.text (quote b)) .str .value false) =
      (stracpy (List.replicate textSize 0) bs (b.length + 1)).map .text := by
    unfold held
    rw [hlines]
    simp only [run, member_str hd, exec, look, hb]
    cases stracpy (List.replicate textSize 0) bs (b.length + 1) <;> rfl
  rw [hrun]
  have := copied_iff bs (b.length + 1) textSize (cstr bs)
  have hiff : HoldsText ((stracpy (List.replicate textSize 0) bs (b.length + 1)).map (Mem.text (R := R))) (cstr bs) ↔
      ∃ m, stracpy (List.replicate textSize 0) bs (b.length + 1) = some m ∧ textIn m = some (cstr bs) := by
    constructor
    · rintro ⟨m, hm, ht⟩
      cases hs : stracpy (List.replicate textSize 0) bs (b.length + 1) with
      | none => rw [hs] at hm; cases hm
      | some m' =>
        rw [hs] at hm
        injection hm with hm
        injection hm with hm
        exact ⟨m', rfl, by rw [hm]; exact ht⟩
    · rintro ⟨m, hm, ht⟩
      exact ⟨m, by rw [hm]; rfl, ht⟩
  rw [hiff, this, hsize]
  constructor
  · rintro ⟨h1, h2⟩
    refine ⟨?_, h2⟩
    have := congrArg List.length h1
    rw [List.length_take] at this
    omega
  · rintro ⟨h1, h2⟩
    exact ⟨(List.take_of_length_le h1).symm, h2⟩

theorem utf8_ascii (c : Nat) (h : c < 128) : utf8 c = [c] := by unfold utf8; rw [if_pos h]

theorem utf8_length_le (c : Nat) : (utf8 c).length ≤ 4 := by unfold utf8; split_ifs <;> simp

theorem readUcn_bytes (k : Nat) (t : Text) (x : List Nat) (t' : Text) (h : readUcn k t = some (x, t')) :
    x.length ≤ 4 ∧ t'.length + k ≤ t.length := by
  unfold readUcn at h
  split_ifs at h with hc
  obtain ⟨hl, -, -⟩ := hc
  injection h with h; injection h with h1 h2
  rw [← h1, ← h2]
  refine ⟨utf8_length_le _, ?_⟩
  rw [List.length_drop]
  rw [List.length_take] at hl
  omega

theorem readChar_bytes (t : Text) (x : List Nat) (t' : Text) (ha : ∀ c ∈ t, c < 128) (h : readChar t = some (x, t')) :
    x.length + t'.length ≤ t.length ∧ ∀ c ∈ t', c < 128 := by
  cases t with
  | nil => simp [readChar] at h
  | cons c t =>
    have hat : ∀ c ∈ t, c < 128 := fun y hy => ha y (List.mem_cons_of_mem _ hy)
    rw [readChar] at h
    split_ifs at h with h1 h2
    · cases t with
      | nil => simp [readEsc] at h
      | cons e t =>
        have hae : ∀ c ∈ t, c < 128 := fun y hy => hat y (List.mem_cons_of_mem _ hy)
        rw [readEsc] at h
        cases hl : simpleEsc.lookup e with
        | some v =>
          rw [hl] at h
          injection h with h; injection h with h3 h
          rw [← h, ← h3]
          exact ⟨by simp; omega, hae⟩
        | none =>
          rw [hl] at h
          simp only at h
          split_ifs at h with a1 a2 a3 a4 a5 a6
          · injection h with h; injection h with h3 h
            have := (List.dropWhile_suffix isHex (l := t)).length_le
            rw [← h, ← h3]
            exact ⟨by simp; omega, fun y hy => hae y ((List.dropWhile_suffix isHex).subset hy)⟩
          · have := readUcn_bytes _ _ _ _ h
            refine ⟨by simp; omega, fun y hy => hae y ?_⟩
            unfold readUcn at h
            split_ifs at h
            injection h with h; injection h with _ h
            exact List.mem_of_mem_drop (h ▸ hy)
          · have := readUcn_bytes _ _ _ _ h
            refine ⟨by simp; omega, fun y hy => hae y ?_⟩
            unfold readUcn at h
            split_ifs at h
            injection h with h; injection h with _ h
            exact List.mem_of_mem_drop (h ▸ hy)
          · injection h with h; injection h with h3 h
            rw [← h, ← h3]
            exact ⟨by simp; omega, fun y hy => hat y (List.mem_of_mem_drop hy)⟩
    · injection h with h; injection h with h3 h
      rw [← h, ← h3, utf8_ascii c (ha c List.mem_cons_self)]
      exact ⟨by simp; omega, hat⟩

theorem readFuel_bytes : ∀ (n : Nat) (t : Text) (bs : List Nat) (r : Text), (∀ c ∈ t, c < 128) → readFuel n t = some (bs, r) →
    bs.length + r.length + 1 ≤ t.length := by
  intro n
  induction n with
  | zero => intro t bs r _ h; simp [readFuel] at h
  | succ n ih =>
    intro t bs r ha h
    rw [readFuel] at h
    split_ifs at h with hq
    · injection h with h; injection h with h1 h2
      rw [← h1, ← h2]
      cases t with
      | nil => simp at hq
      | cons c t => simp
    · cases hc : readChar t with
      | none => rw [hc] at h; cases h
      | some p =>
        obtain ⟨x, t'⟩ := p
        have hb := readChar_bytes t x t' ha hc
        rw [hc] at h
        simp only at h
        cases hrec : readFuel n t' with
        | none => rw [hrec] at h; cases h
        | some q =>
          obtain ⟨ys, r'⟩ := q
          have := ih t' ys r' hb.2 hrec
          rw [hrec] at h
          injection h with h; injection h with h1 h2
          rw [← h1, ← h2, List.length_append]
          omega

/-- C77, a text given as a literal of ASCII characters, with any escape sequences: the parameter holds its text. Missing:
literals with other characters, where the text can be cut (`text_cut`), and longer literals, which are copied beyond the
end of the array. -/
theorem literal_held_partial (ev : Text → Option (CVal R)) (d : Ex) (hd : d.isStr = true) (b : Text) (bs : List Nat)
    (hb : litBytes (quote b) = some bs) (hne : b ≠ []) (ha : ∀ c ∈ b, c < 128) (hl : b.length < 16384) :
    HoldsText (held ev d (.val (.text (quote b)) .str .value false)) (cstr bs) := by
  have h1 := readFuel_bytes _ (b ++ [34]) bs [] (by
    intro c hc
    rcases List.mem_append.1 hc with hc | hc
    · exact ha c hc
    · simp at hc; omega) ((litBytes_quote b bs).1 hb)
  have h2 : (cstr bs).length ≤ bs.length := (List.takeWhile_prefix _).length_le
  simp at h1
  exact (literal_held_iff ev d hd b bs hb hne).2 ⟨by omega, by omega⟩

example : HoldsText (held (R := Int) (fun _ => none) (.val .none .str .value false)
    (.val (.text (quote (txt "a\\tb.dat"))) .str .value false)) (97 :: 9 :: txt "b.dat") :=
  literal_held_partial _ _ rfl (txt "a\\tb.dat") (97 :: 9 :: txt "b.dat") (by decide +kernel) (by decide +kernel)
    (by decide +kernel) (by decide +kernel)

/-- C77, where it fails: of a text whose characters take more bytes only the first bytes are copied, as many as there are
characters and one more. -/
theorem text_cut (ev : Text → Option (CVal R)) (d : Ex) (hd : d.isStr = true) (b : Text) (hne : b ≠ [])
    (hb : ∀ c ∈ b, 128 ≤ c) (hl : 2 ≤ b.length) :
    ∃ bs, litBytes (quote b) = some bs ∧
      ¬ HoldsText (held ev d (.val (.text (quote b)) .str .value false)) (cstr bs) := by
  have hread : ∀ b : Text, (∀ c ∈ b, 128 ≤ c) → ∃ n, readFuel n (b ++ [34]) = some (b.flatMap utf8, []) := by
    intro b
    induction b with
    | nil => intro _; exact ⟨1, rfl⟩
    | cons c b ih =>
      intro h
      obtain ⟨n, hn⟩ := ih fun x hx => h x (List.mem_cons_of_mem _ hx)
      have hc := h c List.mem_cons_self
      refine ⟨n + 1, ?_⟩
      rw [List.cons_append, readFuel, if_neg (by simp [ch]; omega), readChar, if_neg (by omega),
        if_neg (by simp [ch]; omega)]
      simp only [hn, List.flatMap_cons]
  obtain ⟨n, hn⟩ := hread b hb
  refine ⟨b.flatMap utf8, (litBytes_quote b _).2 (readLit_of_fuel hn), ?_⟩
  rw [literal_held_iff ev d hd b _ ((litBytes_quote b _).2 (readLit_of_fuel hn)) hne]
  have hnz : ∀ x ∈ b.flatMap utf8, x ≠ 0 := by
    intro x hx
    obtain ⟨c, hc, hx⟩ := List.mem_flatMap.1 hx
    have := hb c hc
    unfold utf8 at hx
    split_ifs at hx <;> simp at hx <;> omega
  have hlen : 2 * b.length ≤ (b.flatMap utf8).length := by
    clear hn hread hnz hl hne
    induction b with
    | nil => simp
    | cons c b ih =>
      have := ih fun x hx => hb x (List.mem_cons_of_mem _ hx)
      have hc := hb c List.mem_cons_self
      have : 2 ≤ (utf8 c).length := by unfold utf8; split_ifs <;> first | omega | simp
      rw [List.flatMap_cons, List.length_append, List.length_cons]
      omega
  rw [cstr_of_nozero hnz]
  rintro ⟨h1, -⟩
  omega

/-- Two letters `é`: four bytes, three of which are copied. -/
example : held (R := Int) (fun _ => none) (.val .none .str .value false) (.val (.text (quote [233, 233])) .str .value false) =
    some (.text ([195, 169, 195] ++ List.replicate (textSize - 3) 0)) := by
  have : (stracpy (List.replicate textSize 0) [195, 169, 195, 169] 3) = some ([195, 169, 195] ++ List.replicate (textSize - 3) 0) := by
    have : 3 ≤ textSize := by decide
    simp [stracpy, cstr, this]
  have h2 : litBytes (quote [233, 233]) = some [195, 169, 195, 169] := by decide +kernel
  have h3 : parameterLines (.val .none .str .value false) (.val (.text (quote [233, 233])) .str .value false) =
      .ok [.copy (quote [233, 233]) 3] := by decide +kernel
  simp [held, h3, run, exec, look, h2, member, Ex.isStr, this]

/-- C77, a text given as `NULL`, `0`, the empty literal, or not at all: the parameter holds the empty text. -/
theorem no_text_held (ev : Text → Option (CVal R)) (d : Ex) (hd : d.isStr = true) (v : Py) (dt : DataType)
    (hv : v = .none ∨ v = .text (txt "0") ∨ v = .text (txt "NULL") ∨ v = .text (txt "\"\"")) :
    HoldsText (held ev d (.val v dt .value false)) [] := by
  have hlines : parameterLines d (.val v dt .value false) = .ok [.clear] := by
    simp only [parameterLines, hd, Bool.true_or, if_true, Ex.isId, Ex.isOp]
    rcases hv with rfl | rfl | rfl | rfl <;> simp
  refine ⟨List.replicate textSize 0, ?_, ?_⟩
  · unfold held
    rw [hlines]
    simp only [run, exec, member_str hd]
    rw [show textSize = 16383 + 1 by rfl, List.replicate_succ]
    rfl
  · have := textIn_zeros [] (by simp) textSize
    rw [if_neg (by decide)] at this
    simpa using this

/-- C77, a text given by an expression: nothing for a null pointer; the text it points to if and only if that is shorter
than the array. -/
theorem text_expression_held (ev : Text → Option (CVal R)) (d v : Ex) (hd : d.isStr = true) (t : Text) (hc : Called v t)
    (s : List Nat) :
    (look ev t = some .null → HoldsText (held ev d v) []) ∧
      (look ev t = some (.chars s) → (HoldsText (held ev d v) (cstr s) ↔ (cstr s).length < 16384)) := by
  have hsize : textSize = 16384 := rfl
  obtain ⟨rfl, hv⟩ := called_iff hc
  have hlines : parameterLines d v = .ok [.copyIf v.printP 16384] := by
    have : (v.isId || v.isOp) = true := by simpa using hv
    simp only [parameterLines, hd, Bool.true_or, if_true, this]
  have hclear : HoldsText (some (Mem.text (R := R) (List.replicate textSize 0))) [] :=
    ⟨_, rfl, by have := textIn_zeros [] (by simp) textSize; rw [if_neg (by decide)] at this; simpa using this⟩
  have hzero : clear (Mem.text (R := R) (List.replicate textSize 0)) = some (Mem.text (R := R) (List.replicate textSize 0)) := by
    rw [show textSize = 16383 + 1 by rfl, List.replicate_succ]
    rfl
  constructor
  · intro hn
    unfold held
    rw [hlines]
    simp only [run, exec, member_str hd, hn, hzero, Option.bind_some]
    exact hclear
  · intro hc
    unfold held
    rw [hlines]
    simp only [run, exec, member_str hd, hc]
    by_cases h0 : cstr s = []
    · rw [if_pos h0, hzero]
      simp only [Option.bind_some, h0]
      exact ⟨fun _ => by simp, fun _ => hclear⟩
    · rw [if_neg h0]
      have hcop := copied_iff s 16384 textSize (cstr s)
      constructor
      · rintro ⟨m, hm, ht⟩
        cases hs : stracpy (List.replicate textSize 0) s 16384 with
        | none => rw [hs] at hm; cases hm
        | some m' =>
          rw [hs] at hm
          injection hm with hm
          injection hm with hm
          exact (hcop.1 ⟨m', hs, by rw [hm]; exact ht⟩).2
      · intro hl
        obtain ⟨m, hm, ht⟩ := hcop.2 ⟨(List.take_of_length_le (by omega)).symm, hl⟩
        exact ⟨m, by rw [hm]; rfl, ht⟩

example : HoldsText (held (R := Int) (fun t => if t = txt "_instrument_var._parameters.file" then some (.chars (txt "a.dat")) else none)
    (.val .none .str .value false) (.val (.text (txt "file")) .str .parameter false)) (txt "a.dat") :=
  ((text_expression_held _ _ _ rfl _ (.parameter (txt "file") .str false) (txt "a.dat")).2 (by decide +kernel)).2 (by decide +kernel)

/-! ### Vectors and numbers -/

theorem run_elems (ev : Text → Option (CVal R)) : ∀ (ts : List Text) (rs pre : List R),
    ts.map (look ev) = rs.map (fun r => some (.num r)) →
    run ev (ts.mapIdx fun i t => .elem (pre.length + i) t) (.pointer (some (pre ++ List.replicate ts.length 0))) =
      some (.pointer (some (pre ++ rs))) := by
  intro ts
  induction ts with
  | nil =>
    intro rs pre h
    cases rs with
    | nil => rfl
    | cons r rs => cases h
  | cons t ts ih =>
    intro rs pre h
    cases rs with
    | nil => cases h
    | cons r rs =>
      rw [List.map_cons, List.map_cons] at h
      injection h with h1 h2
      rw [List.mapIdx_cons, run, exec, h1]
      simp only [Nat.add_zero]
      rw [if_pos (by simp)]
      have hset : (pre ++ List.replicate (t :: ts).length 0).set pre.length r = (pre ++ [r]) ++ List.replicate ts.length 0 := by
        rw [List.set_append_right _ _ (le_refl _)]
        simp [List.replicate_succ]
      rw [Option.bind_some, hset]
      have := ih rs (pre ++ [r]) h2
      rw [List.length_append, List.length_singleton] at this
      have hf : (fun (i : Nat) (t : Text) => Line.elem (pre.length + (i + 1)) t) = fun i t => Line.elem (pre.length + 1 + i) t := by
        funext i t
        congr 1
        omega
      rw [hf, this]
      simp

theorem run_elems_none (ev : Text → Option (CVal R)) : ∀ (ts : List Text) (k : Nat) (m : Option (List R)),
    (∃ t ∈ ts, ∀ r, look ev t ≠ some (.num r)) →
    run ev (ts.mapIdx fun i t => .elem (k + i) t) (.pointer m) = none := by
  intro ts
  induction ts with
  | nil => rintro k m ⟨t, ht, -⟩; cases ht
  | cons t ts ih =>
    intro k m h
    rw [List.mapIdx_cons, run]
    cases m with
    | none => rfl
    | some rs =>
      rw [exec]
      cases hl : look ev t with
      | none => rfl
      | some c =>
        cases c with
        | num r =>
          simp only
          have h' : ∃ t ∈ ts, ∀ r, look ev t ≠ some (.num r) := by
            obtain ⟨u, hu, hr⟩ := h
            rcases List.mem_cons.1 hu with rfl | hu
            · exact absurd hl (hr r)
            · exact ⟨u, hu, hr⟩
          split_ifs with hi
          · have hf : (fun (i : Nat) (t : Text) => Line.elem (k + (i + 1)) t) = fun i t => Line.elem (k + 1 + i) t := by
              funext i t
              congr 1
              omega
            rw [Option.bind_some, hf]
            exact ih (k + 1) _ h'
          · rfl
        | _ => rfl

/-- C77, a vector given as a list: the parameter points to the values of its elements. -/
theorem vector_held (ev : Text → Option (CVal R)) (d : Ex) (hs : d.isStr = false) (hv : d.isVector = true) (ts : List Text)
    (dt : DataType) (rs : List R) :
    held ev d (.val (.list ts) dt .initializerList true) = some (.pointer (some rs)) ↔
      ts.map (look ev) = rs.map (fun r => some (.num r)) := by
  have hlines : parameterLines d (.val (.list ts) dt .initializerList true) =
      .ok (.alloc ts.length :: ts.mapIdx fun i t => .elem i t) := by
    simp [parameterLines, hs, hv, isStr_val, Ex.vectorKnown, Ex.isId]
  have hheld : held ev d (.val (.list ts) dt .initializerList true) =
      run ev (ts.mapIdx fun i t => .elem i t) (.pointer (some (List.replicate ts.length 0))) := by
    unfold held
    rw [hlines]
    simp [run, exec, member, hs, hv]
  have hok : ∀ rs : List R, ts.map (look ev) = rs.map (fun r => some (.num r)) →
      held ev d (.val (.list ts) dt .initializerList true) = some (.pointer (some rs)) := by
    intro rs h
    have := run_elems ev ts rs [] h
    simp only [List.length_nil, Nat.zero_add, List.nil_append] at this
    rw [hheld, this]
  constructor
  · intro h
    by_cases hall : ∀ t ∈ ts, ∃ r, look ev t = some (.num r)
    · have : ∃ rs : List R, ts.map (look ev) = rs.map (fun r => some (.num r)) := by
        clear h hok hheld hlines
        induction ts with
        | nil => exact ⟨[], rfl⟩
        | cons t ts ih =>
          obtain ⟨rs, h1⟩ := ih fun u hu => hall u (List.mem_cons_of_mem _ hu)
          obtain ⟨r, h2⟩ := hall t List.mem_cons_self
          exact ⟨r :: rs, by simp [h1, h2]⟩
      obtain ⟨rs', h'⟩ := this
      have := hok rs' h'
      rw [h] at this
      injection this with this
      injection this with this
      injection this with this
      rw [this]
      exact h'
    · push Not at hall
      obtain ⟨t, ht, hr⟩ := hall
      have := run_elems_none ev ts 0 (some (List.replicate ts.length 0)) ⟨t, ht, hr⟩
      simp only [Nat.zero_add] at this
      rw [hheld, this] at h
      cases h
  · exact hok rs

example : held (R := Int) (fun t => if t = txt "1" then some (.num 1) else if t = txt "5" then some (.num 5) else none)
    (.val .none .float .value true) (.val (.list [txt "1", txt "5"]) .float .initializerList true) =
      some (.pointer (some [1, 5])) :=
  (vector_held _ _ rfl rfl _ _ [1, 5]).2 (by decide +kernel)

/-- C77, a vector given by a name: the parameter points to what the name points to. A vector without a value is null. -/
theorem vector_name_held (ev : Text → Option (CVal R)) (d : Ex) (hs : d.isStr = false) (hv : d.isVector = true) (v : Ex) (t : Text) :
    (Called v t → v.isId = true →
      (∀ rs, held ev d v = some (.pointer (some rs)) ↔ look ev t = some (.array rs)) ∧
      (held ev d v = some (.pointer none) ↔ look ev t = some .null)) ∧
    (∀ dt, held ev d (.val .none dt .value true) = if dt = .str then none else some (.pointer none)) := by
  constructor
  · intro hc hid
    have hvs : v.isStr = false := by cases hc <;> first | rfl | cases hid
    have hvk : v.vectorKnown = none := by cases hc <;> rfl
    obtain ⟨rfl, -⟩ := called_iff hc
    have hlines : parameterLines d v = .ok [.assign v.printP] := by
      simp [parameterLines, hs, hv, hvs, hvk, hid]
    have hheld : held ev d v = match look ev v.printP with
        | some .null => some (.pointer none)
        | some (.array rs) => some (.pointer (some rs))
        | _ => none := by
      unfold held
      rw [hlines]
      rw [member_vector hs hv]
      simp only [run, exec]
      cases look ev v.printP with
      | none => rfl
      | some c => cases c <;> rfl
    rw [hheld]
    cases look ev v.printP with
    | none => simp
    | some c => cases c <;> simp
  · intro dt
    by_cases h : dt = .str
    · subst h
      simp [held, parameterLines, hs, isStr_val, Ex.isId, Ex.isOp, run, exec, member_vector hs hv, clear]
    · have hn : look ev (txt "NULL") = some .null := by
        have : litBytes (txt "NULL") = none := by decide +kernel
        simp [look, this]
      simp [held, parameterLines, hs, hv, isStr_val, Ex.isId, h, Ex.vectorKnown, Ex.hasValue, run, exec, member_vector hs hv, hn]

example : held (R := Int) (fun t => if t = txt "table" then some (.array [1, 2]) else none)
    (.val .none .float .value true) (.val (.text (txt "table")) .float .identifier true) = some (.pointer (some [1, 2])) :=
  (((vector_name_held _ _ rfl rfl _ _).1 (.identifier (txt "table") .float true) rfl).1 [1, 2]).2 (by decide +kernel)

/-- C77, a number given by a name, an operation or a number: the parameter holds the value of what is printed; a parameter
without a value is zero. -/
theorem number_held (ev : Text → Option (CVal R)) (d v : Ex) (hs : d.isStr = false) (hv : d.isVector = false)
    (hs' : v.isStr = false) (hv' : v.isVector = false) (r : R) :
    (∀ t, Called v t → (held ev d v = some (.number r) ↔ look ev t = some (.num r))) ∧
    (∀ t dt, v = .val (.number t) dt .value false → (held ev d v = some (.number r) ↔ look ev t = some (.num r))) ∧
    (∀ dt, v = .val .none dt .value false → (held ev d v = some (.number r) ↔ look ev (txt "0") = some (.num r))) := by
  have key : ∀ t : Text, parameterLines d v = .ok [.assign t] →
      (held ev d v = some (.number r) ↔ look ev t = some (.num r)) := by
    intro t hl
    unfold held
    rw [hl]
    rw [member_number hs hv]
    simp only [run, exec]
    cases look ev t with
    | none => simp
    | some c => cases c <;> simp
  refine ⟨fun t hc => key _ ?_, ?_, ?_⟩
  · obtain ⟨rfl, h⟩ := called_iff hc
    have : (v.isId || v.isOp) = true := by simpa using h
    simp [parameterLines, hs, hv, hs', hv', this]
  · rintro t dt rfl
    refine key _ ?_
    have : dt ≠ .str := by rintro rfl; simp [Ex.isStr] at hs'
    simp [parameterLines, hs, hv, isStr_val, hv', Ex.isId, Ex.isOp, this, Ex.hasValue, Py.print]
  · rintro dt rfl
    refine key _ ?_
    have : dt ≠ .str := by rintro rfl; simp [Ex.isStr] at hs'
    simp [parameterLines, hs, hv, isStr_val, hv', Ex.isId, Ex.isOp, this, Ex.hasValue]

example : held (R := Int) (fun t => if t = txt "_instrument_var._parameters.e" then some (.num 5) else none)
    (.val .none .float .value false) (.val (.text (txt "e")) .float .parameter false) = some (.number 5) :=
  ((number_held _ _ _ rfl rfl rfl rfl 5).1 _ (.parameter (txt "e") .float false)).2 (by decide +kernel)

/-- C77, where it fails: `NULL` is taken for every parameter, also one that is not a text; the statement written for it then
writes through a null pointer, or does not compile. -/
theorem null_not_a_text (ev : Text → Option (CVal R)) (d : Ex) (hs : d.isStr = false) (v : Py) (dt : DataType) (o : Obj) (s : Bool)
    (hd : d = .val v dt o s) : compatible d nullValue = true ∧ held ev d nullValue = none := by
  subst hd
  refine ⟨rfl, ?_⟩
  have hl : parameterLines (.val v dt o s) nullValue = .ok [.clear] := by
    have : nullValue.isStr = true := rfl
    simp only [parameterLines, this, Bool.or_true, if_true]
    rfl
  unfold held
  rw [hl]
  simp only [run, exec, member, hs]
  cases s <;> rfl

/-- C77, where it fails: an instrument parameter in a list is written as its bare name, so that the value of the parameter
is not used: what counts is a variable of that name, if there is one. An operation in a list makes the reading fail. -/
theorem parameter_in_list (ev : Text → Option (CVal R)) (d : Ex) (hs : d.isStr = false) (hv : d.isVector = true) (name : Text)
    (dt : DataType) :
    (∃ e, initializerList [.val (.text name) dt .parameter false] = .ok e ∧
      ∀ r, held ev d e = some (.pointer (some [r])) ↔ look ev name = some (.num r)) ∧
    (∀ t, initializerList [.op t dt] = .error .attributeError) := by
  refine ⟨⟨.val (.list [name]) .float .initializerList true, rfl, fun r => ?_⟩, fun t => rfl⟩
  rw [vector_held ev d hs hv [name] .float [r]]
  simp

/-- The parameter `e` is 5, but no value is set. -/
example : held (R := Int) (fun t => if t = txt "_instrument_var._parameters.e" then some (.num 5) else none)
    (.val .none .float .value true) (.val (.list [txt "e"]) .float .initializerList true) = none := by decide +kernel

/-! ### All parameters of an instance -/

/-- C77: every setting parameter of the definition ends up with what is held for the value given to the instance, or else
for the default; the parameters do not disturb each other. The program is not valid if one of them can not be set. -/
theorem every_parameter_held (ev : Text → Option (CVal R)) (own setting : List Par) (hn : (setting.map Par.name).Nodup) :
    (∀ m, setAll ev own setting setting (fresh setting) = some m →
      ∀ p ∈ setting,
        (∀ q ∈ own.find? (·.name = p.name), held ev p.value q.value = some (m p.name)) ∧
        ((∀ q ∈ own, q.name ≠ p.name) → held ev p.value p.value = some (m p.name))) ∧
    ((setAll ev own setting setting (fresh (R := R) setting)).isSome ↔
      ∀ p ∈ setting, ∀ v, given own setting p.name = some v → (held ev p.value v).isSome) := by
  have hgiven : ∀ p ∈ setting, ∃ v, given own setting p.name = some v := by
    intro p hp
    unfold given
    cases own.find? (·.name = p.name) with
    | some q => exact ⟨_, rfl⟩
    | none =>
      cases hf : setting.find? (·.name = p.name) with
      | some q => exact ⟨_, rfl⟩
      | none => exact absurd (List.find?_eq_none.1 hf p hp) (by simp)
  have hfind : ∀ p ∈ setting, setting.find? (·.name = p.name) = some p := by
    clear hgiven
    induction setting with
    | nil => intro p hp; cases hp
    | cons a s ih =>
      rw [List.map_cons, List.nodup_cons] at hn
      intro p hp
      rcases List.mem_cons.1 hp with rfl | hp
      · simp
      · have hne : a.name ≠ p.name := fun h => hn.1 (h ▸ List.mem_map_of_mem hp)
        rw [List.find?_cons_of_neg (by simpa using hne)]
        exact ih hn.2 p hp
  have hfresh : ∀ p ∈ setting, (fresh setting p.name : Mem R) = member p.value := by
    intro p hp
    simp [fresh, hfind p hp]
  -- all runs over a part of the list
  have key : ∀ ps : List Par, (∀ p ∈ ps, p ∈ setting) → (ps.map Par.name).Nodup → ∀ m0 : Text → Mem R,
      (∀ p ∈ ps, m0 p.name = member p.value) →
      (∀ m, setAll ev own setting ps m0 = some m →
        (∀ p ∈ ps, ∀ v, given own setting p.name = some v → held ev p.value v = some (m p.name)) ∧
        (∀ n, n ∉ ps.map Par.name → m n = m0 n)) ∧
      ((setAll ev own setting ps m0).isSome ↔
        ∀ p ∈ ps, ∀ v, given own setting p.name = some v → (held ev p.value v).isSome) := by
    intro ps
    induction ps with
    | nil =>
      intro _ _ m0 _
      refine ⟨?_, by simp [setAll]⟩
      intro m hm
      rw [setAll] at hm
      injection hm with hm
      subst hm
      exact ⟨fun p hp => absurd hp List.not_mem_nil, fun _ _ => rfl⟩
    | cons p ps ih =>
      intro hsub hnd m0 hm0
      rw [List.map_cons, List.nodup_cons] at hnd
      obtain ⟨v, hv⟩ := hgiven p (hsub p List.mem_cons_self)
      have hp0 := hm0 p List.mem_cons_self
      have hheld : held ev p.value v = match parameterLines p.value v with
          | .ok ls => run ev ls (m0 p.name)
          | .error _ => none := by rw [hp0]; rfl
      rw [setAll, hv]
      simp only
      cases hl : parameterLines p.value v with
      | error e =>
        rw [hl] at hheld
        simp only at hheld ⊢
        refine ⟨fun m hm => (by cases hm), by simp, fun h => ?_⟩
        have := h p List.mem_cons_self v hv
        rw [hheld] at this
        cases this
      | ok ls =>
        rw [hl] at hheld
        simp only at hheld ⊢
        cases hr : run ev ls (m0 p.name) with
        | none =>
          rw [hr] at hheld
          simp only
          refine ⟨fun m hm => (by cases hm), by simp, fun h => ?_⟩
          have := h p List.mem_cons_self v hv
          rw [hheld] at this
          cases this
        | some x =>
          rw [hr] at hheld
          simp only
          have hstep := ih (fun q hq => hsub q (List.mem_cons_of_mem _ hq)) hnd.2 (fun n => if n = p.name then x else m0 n) (by
            intro q hq
            have hne : q.name ≠ p.name := fun h => hnd.1 (h ▸ List.mem_map_of_mem hq)
            rw [if_neg hne]
            exact hm0 q (List.mem_cons_of_mem _ hq))
          refine ⟨fun m hm => ⟨?_, ?_⟩, ?_⟩
          · intro q hq w hw
            rcases List.mem_cons.1 hq with rfl | hq
            · rw [hv] at hw
              injection hw with hw
              subst hw
              rw [hheld, (hstep.1 m hm).2 _ hnd.1, if_pos rfl]
            · exact (hstep.1 m hm).1 q hq w hw
          · intro n hn'
            rw [List.map_cons, List.mem_cons, not_or] at hn'
            rw [(hstep.1 m hm).2 n hn'.2, if_neg hn'.1]
          · rw [hstep.2]
            constructor
            · intro h q hq w hw
              rcases List.mem_cons.1 hq with rfl | hq
              · rw [hv] at hw
                injection hw with hw
                subst hw
                rw [hheld]
                rfl
              · exact h q hq w hw
            · exact fun h q hq w hw => h q (List.mem_cons_of_mem _ hq) w hw
  obtain ⟨h1, h2⟩ := key setting (fun _ h => h) hn (fresh setting) hfresh
  refine ⟨fun m hm p hp => ⟨fun q hq => ?_, fun hno => ?_⟩, h2⟩
  · refine (h1 m hm).1 p hp q.value ?_
    unfold given
    rw [Option.mem_def.1 hq]
  · refine (h1 m hm).1 p hp p.value ?_
    unfold given
    have : own.find? (·.name = p.name) = none := by
      rw [List.find?_eq_none]
      simpa using hno
    rw [this, hfind p hp]
    rfl

example : ([⟨txt "x", .val (.number (txt "1")) .float .value false⟩, ⟨txt "f", .val .none .str .value false⟩] : List Par).map
    Par.name |>.Nodup := by decide +kernel

/-! ### The name of an instance -/

/-- c_initialise.py 188 and c_decls.py 199: the name of an instance, a C identifier, is copied to an array of 256 characters.
It is held if and only if it is shorter than that. -/
theorem instance_name_held_iff (name : Text) (hn : ∀ c ∈ name, c ≠ 0) :
    (∃ m, stracpy (List.replicate 256 0) name (min (name.length + 1) 16384) = some m ∧ textIn m = some name) ↔
      name.length ≤ 255 := by
  rw [copied_iff, cstr_of_nozero hn]
  constructor
  · rintro ⟨-, h⟩
    omega
  · intro h
    exact ⟨(List.take_of_length_le (by omega)).symm, by omega⟩

end Verif.Setpos
