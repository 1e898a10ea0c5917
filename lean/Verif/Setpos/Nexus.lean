import Verif.Setpos.Table
import Verif.Setpos.Props
import Verif.Names.Lemmas

/-!
C93: with NeXus output every component instance has a record of its setting parameters. Model of `nexus_lines` in
`cogen_comp_setpos` (src/mccode_antlr/translators/c_initialise.py 152-175) and of a C compiler reading the arguments of
`mccomp_param_nexus`, which are pointers to characters. The function itself belongs to the run time.
-/

namespace Verif.Setpos

open Verif.Escape Verif.DT

/-- c_initialise.py 166-172: the arguments for the default and the value of a setting parameter. -/
def nexusArgs (default value : Ex) : Text × Text :=
  let dstr := default.printP
  let vstr := value.printP
  if !(default.isStr || value.isStr) then (quote dstr, quote vstr) else (dstr, vstr)

/-- The decimal digits of a number. -/
def digits : Nat → Nat → Text
  | 0, _ => []
  | fuel + 1, n => if n < 10 then [48 + n] else digits fuel (n / 10) ++ [48 + n % 10]

/-- c_initialise.py 155: `f'"{index:04d}_{name}"'`, without the quotes. -/
def groupName (index : Nat) (name : Text) : Text :=
  let ds := digits (index + 1) index
  List.replicate (4 - ds.length) 48 ++ ds ++ ch '_' :: name

variable {R : Type}

/-- What an argument that must be a pointer to characters says: a text, or nothing (a null pointer: `NULL` or the constant 0);
`none`: not a valid argument. -/
def asText (ev : Text → Option (CVal R)) (t : Text) : Option (Option (List Nat)) :=
  if t = txt "0" then some none
  else
    match look ev t with
    | some (.chars bs) => some (some bs)
    | some .null => some none
    | _ => none

theorem asText_quote (ev : Text → Option (CVal R)) (t : Text) (bs : List Nat) :
    asText ev (quote t) = some (some bs) ↔ litBytes (quote t) = some bs ∨
      (litBytes (quote t) = none ∧ ev (quote t) = some (.chars bs)) := by
  have h0 : quote t ≠ txt "0" := by
    intro h
    have := congrArg List.head? h
    revert this
    rw [show (quote t).head? = some 34 from rfl]
    decide +kernel
  have h1 : quote t ≠ txt "NULL" := by
    intro h
    have := congrArg List.head? h
    revert this
    rw [show (quote t).head? = some 34 from rfl]
    decide +kernel
  unfold asText look
  rw [if_neg h0]
  cases litBytes (quote t) with
  | some b => simp
  | none =>
    simp only [h1, if_false]
    cases ev (quote t) with
    | none => simp
    | some v => cases v <;> simp

/-! ### The claims -/

/-- C93, numbers and lists: the record has the default and the value as they are written in the generated program, if that
text can be written between quotes. -/
theorem nexus_written_partial (ev : Text → Option (CVal R)) (d v : Ex) (hd : d.isStr = false) (hv : v.isStr = false)
    (hdb : Bare d.printP) (hvb : Bare v.printP) :
    asText ev (nexusArgs d v).1 = some (some (d.printP.flatMap utf8)) ∧
    asText ev (nexusArgs d v).2 = some (some (v.printP.flatMap utf8)) := by
  have : nexusArgs d v = (quote d.printP, quote v.printP) := by simp [nexusArgs, hd, hv]
  rw [this]
  exact ⟨(asText_quote ev _ _).2 (.inl (bare_read _ hdb)), (asText_quote ev _ _).2 (.inl (bare_read _ hvb))⟩

example : (Ex.val (.number (txt "1.5")) .float .value false).isStr = false ∧
    Bare (Ex.val (.number (txt "1.5")) .float .value false).printP := by
  refine ⟨rfl, ?_⟩
  unfold Bare
  decide +kernel

/-- C93, texts: a literal is recorded as the text it says, and a name or another expression as the text it has when the program
is run, which is the value held by the component, and `NULL` or `0` as no text; that needs a default that is a literal too. -/
theorem nexus_text_partial (ev : Text → Option (CVal R)) (d v : Ex) (hd : d.isStr = true) (b : Text) (bs : List Nat)
    (hdl : d.printP = quote b) (hb : litBytes (quote b) = some bs) :
    asText ev (nexusArgs d v).1 = some (some bs) ∧
    (∀ b' bs', v.printP = quote b' → litBytes (quote b') = some bs' → asText ev (nexusArgs d v).2 = some (some bs')) ∧
    (∀ bs', v.printP ≠ txt "0" → litBytes v.printP = none → v.printP ≠ txt "NULL" →
      (asText ev (nexusArgs d v).2 = some (some bs') ↔ ev v.printP = some (.chars bs'))) ∧
    (v.printP = txt "NULL" ∨ v.printP = txt "0" → asText ev (nexusArgs d v).2 = some none) := by
  have : nexusArgs d v = (d.printP, v.printP) := by simp [nexusArgs, hd]
  rw [this]
  refine ⟨?_, ?_, ?_, ?_⟩
  · simp only
    rw [hdl]
    exact (asText_quote ev _ _).2 (.inl hb)
  · intro b' bs' h1 h2
    simp only
    rw [h1]
    exact (asText_quote ev _ _).2 (.inl h2)
  · intro bs' h0 h1 h2
    simp only [asText, look, h0, h1, h2, if_false]
    cases ev v.printP with
    | none => simp
    | some x => cases x <;> simp
  · have hl : litBytes (txt "NULL") = none := by decide +kernel
    rintro (h | h)
    · simp only [h, asText, look, hl, if_true]
      rw [if_neg (by decide +kernel)]
    · simp only [h, asText, if_true]

example : (Ex.val (.text (txt "\"abc\"")) .str .value false).printP = quote (txt "abc") ∧
    litBytes (quote (txt "abc")) = some (txt "abc") := by decide +kernel

/-- C93, where it fails: a text parameter without a default has the argument `None`, which is no text, whatever the value: with
NeXus output such a component can not be compiled. Without it, all is well (C77). -/
theorem no_default_refused (ev : Text → Option (CVal R)) (hnone : ev (txt "None") = none) (v : Ex) :
    (nexusArgs (.val .none .str .value false) v).1 = txt "None" ∧
    asText ev (nexusArgs (.val .none .str .value false) v).1 = none := by
  have : nexusArgs (.val .none .str .value false) v = (txt "None", v.printP) := rfl
  rw [this]
  refine ⟨rfl, ?_⟩
  have h1 : litBytes (txt "None") = none := by decide +kernel
  have h2 : txt "None" ≠ txt "NULL" := by decide +kernel
  have h3 : txt "None" ≠ txt "0" := by decide +kernel
  simp only [asText, look, h1, h2, h3, if_false, hnone]

/-- The same component without NeXus: the file name `"d.dat"` is held. -/
example : HoldsText (held (R := Int) (fun _ => none) (.val .none .str .value false)
    (.val (.text (quote (txt "d.dat"))) .str .value false)) (cstr (txt "d.dat")) :=
  literal_held_partial _ _ rfl _ _ (by decide +kernel) (by decide) (by decide +kernel) (by decide +kernel)

/-- C93, where it fails: `NULL` for a parameter that is no text turns off the quotes around the default: a number other than the
constant 0 is then passed as a text, which is refused. -/
theorem null_value_refused (ev : Text → Option (CVal R)) (t : Text) (r : R) (dt : DataType) (hdt : dt ≠ .str) (h0 : t ≠ txt "0")
    (hl : litBytes t = none) (hn : t ≠ txt "NULL") (hev : ev t = some (.num r)) (hb : Bare t) :
    asText ev (nexusArgs (.val (.number t) dt .value false) nullValue).1 = none ∧
    asText ev (nexusArgs (.val (.number t) dt .value false) (.val (.number t) dt .value false)).1 =
      some (some (t.flatMap utf8)) := by
  have h1 : nexusArgs (.val (.number t) dt .value false) nullValue = (t, txt "NULL") := by
    unfold nexusArgs nullValue
    simp [Ex.isStr, Ex.printP, Py.print]
  rw [h1]
  refine ⟨?_, ?_⟩
  · simp only [asText, look, h0, hl, hn, if_false, hev]
  · have hs : (Ex.val (.number t) dt .value false).isStr = false := by simp [Ex.isStr, hdt]
    exact (nexus_written_partial ev _ _ hs hs hb hb).1

example : Bare (txt "1.5") ∧ litBytes (txt "1.5") = none ∧ txt "1.5" ≠ txt "0" ∧ txt "1.5" ≠ txt "NULL" := by
  unfold Bare
  decide +kernel

/-- C93, where it fails: the value of an instrument parameter, or of another variable, is not recorded for parameters that are
no texts: the record has the expression, whatever its value. -/
theorem value_not_recorded (ev : Text → Option (CVal R)) (d : Ex) (hd : d.isStr = false) (name : Text) (hb : Bare name)
    (dt : DataType) :
    asText ev (nexusArgs d (.val (.text name) dt .parameter false)).2 =
      some (some (txt "_instrument_var._parameters." ++ name.flatMap utf8)) := by
  have hv : (Ex.val (.text name) dt .parameter false).isStr = false := rfl
  have : nexusArgs d (.val (.text name) dt .parameter false) =
      (quote d.printP, quote (txt "_instrument_var._parameters." ++ name)) := by simp [nexusArgs, hd, hv]; rfl
  rw [this]
  have hbare : Bare (txt "_instrument_var._parameters." ++ name) := by
    intro c hc
    rcases List.mem_append.1 hc with hc | hc
    · clear * - hc
      revert c
      decide +kernel
    · exact hb c hc
  have := (asText_quote ev _ _).2 (.inl (bare_read _ hbare))
  rw [this, List.flatMap_append]
  have hk : (txt "_instrument_var._parameters.").flatMap utf8 = txt "_instrument_var._parameters." := by decide +kernel
  rw [hk]

/-- C93, where it fails: an expression with a text in it, such as a call `f("x")`, is not one literal when put between quotes. -/
theorem quotes_inside (d : Ex) (hd : d.isStr = false) (dt : DataType) (hdt : dt ≠ .str) (a b : Text) (ha : Bare a) :
    litBytes (nexusArgs d (.op (a ++ ch '"' :: b) dt)).2 = none := by
  have hv : (Ex.op (a ++ ch '"' :: b) dt).isStr = false := by simp [Ex.isStr, hdt]
  have : (nexusArgs d (.op (a ++ ch '"' :: b) dt)).2 = quote (a ++ ch '"' :: b) := by
    simp [nexusArgs, hd, hv]
    rfl
  rw [this]
  by_contra hne
  obtain ⟨bs, h⟩ := Option.ne_none_iff_exists'.1 hne
  have h1 := (litBytes_quote _ _).1 h
  have h2 := read_then a (a.flatMap utf8) (b ++ [34]) (bare_read a ha)
  have he : a ++ ch '"' :: b ++ [34] = a ++ ch '"' :: (b ++ [34]) := by simp
  rw [he, h2] at h1
  injection h1 with h1
  injection h1 with _ h1
  simp at h1

example : litBytes (nexusArgs (.val (.number (txt "1")) .float .value false) (.op (txt "f(\"x\")") .float)).2 = none := by
  decide +kernel

/-! ### The names of the records -/

theorem digits_ne (fuel n : Nat) : ∀ c ∈ digits fuel n, c ≠ ch '_' := by
  induction fuel generalizing n with
  | zero => intro c hc; cases hc
  | succ f ih =>
    intro c hc
    have h95 : ch '_' = 95 := rfl
    unfold digits at hc
    split at hc
    · rw [List.mem_singleton] at hc
      omega
    · rcases List.mem_append.1 hc with hc | hc
      · exact ih _ c hc
      · rw [List.mem_singleton] at hc
        omega

/-- C93: records of different instances have different names, even if the instances belong to different programs. -/
theorem group_names_distinct (i j : Nat) (a b : Text) (h : groupName i a = groupName j b) : a = b := by
  have key : ∀ (k : Nat) (x : Text), (groupName k x).dropWhile (· ≠ ch '_') = ch '_' :: x := by
    intro k x
    have hall : ∀ c ∈ List.replicate (4 - (digits (k + 1) k).length) 48 ++ digits (k + 1) k, c ≠ ch '_' := by
      intro c hc
      rcases List.mem_append.1 hc with hc | hc
      · rw [List.eq_of_mem_replicate hc]
        decide
      · exact digits_ne _ _ c hc
    unfold groupName
    simp only
    rw [List.dropWhile_append_of_pos (by simpa using hall)]
    simp
  have := congrArg (List.dropWhile (· ≠ ch '_')) h
  rw [key, key] at this
  injection this

example : groupName 7 (txt "mon") = txt "0007_mon" ∧ groupName 12345 (txt "a") = txt "12345_a" := by decide +kernel

end Verif.Setpos
