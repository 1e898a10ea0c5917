import Mathlib.Data.List.Nodup

/-!
C101: `Assembler.ensure_user_var` (src/mccode_antlr/assembler/assembler.py 135-153), with `user_vars` (132-133), `Instr.USERVARS`
(src/mccode_antlr/instr/instr.py 180-181) and `blocks_to_raw_c` (src/mccode_antlr/common/block.py 49-53).
The parser of C declarations `extract_c_declared_variables` is any function; what C35 and C36 say about it is not used.
-/

namespace Verif.UserVars

abbrev Text := List Char

/-- A declared variable, as far as it is used here. -/
structure Decl where
  name : Text
  dtype : Text
  deriving DecidableEq, Repr

/-- `RawC.is_empty` (block.py): nothing but spaces, tabulators and line ends. -/
def blank (s : Text) : Bool := s.all fun c => c == ' ' || c == '\t' || c == '\n'

/-- `ensure_user_var` (assembler.py 135-153): the USERVARS of the instrument afterwards; `none` for the ValueError. -/
def ensure (parse : Text → List Decl) (user : List Text) (string : Text) : Option (List Text) :=
  match parse string with
  | [] => none
  | decl :: _ => some (go decl user)
where
  /-- The loop over the blocks (146-152) and the addition behind it (153). -/
  go (decl : Decl) : List Text → List Text
    | [] => user ++ (if blank string then [] else [string])
    | uv :: rest =>
      if (parse uv).any (fun x => x.dtype == decl.dtype && x.name == decl.name) then user
      else if (parse uv).any (fun x => x.name == decl.name) then user
      else go decl rest

/-- All variables declared by blocks, in order. -/
def declared (parse : Text → List Decl) (user : List Text) : List Decl := user.flatMap parse

theorem not_blank {s : Text} (h : ∃ c ∈ s, c ≠ ' ' ∧ c ≠ '\t' ∧ c ≠ '\n') : blank s = false := by
  obtain ⟨c, hc, h1, h2, h3⟩ := h
  rw [Bool.eq_false_iff]
  intro hb
  have := List.all_eq_true.1 hb c hc
  simp [h1, h2, h3] at this

theorem go_eq (parse : Text → List Decl) (user : List Text) (string : Text) (decl : Decl) : ∀ l,
    ensure.go parse user string decl l = if ∃ x ∈ declared parse l, x.name = decl.name then user
      else user ++ (if blank string then [] else [string]) := by
  intro l
  induction l with
  | nil => simp [ensure.go, declared]
  | cons uv rest ih =>
    have hd : declared parse (uv :: rest) = parse uv ++ declared parse rest := rfl
    by_cases h : ∃ x ∈ parse uv, x.name = decl.name
    · rw [if_pos (by obtain ⟨x, hx, hn⟩ := h; exact ⟨x, by rw [hd]; simp [hx], hn⟩)]
      simp only [ensure.go]
      by_cases h1 : (parse uv).any (fun x => x.dtype == decl.dtype && x.name == decl.name) = true
      · rw [if_pos h1]
      · rw [if_neg h1, if_pos (by simpa using h)]
    · have h1 : ¬ (parse uv).any (fun x => x.dtype == decl.dtype && x.name == decl.name) = true := by
        simp only [List.any_eq_true, Bool.and_eq_true, beq_iff_eq, not_exists, not_and]
        exact fun x hx _ hn => h ⟨x, hx, hn⟩
      have h2 : ¬ (parse uv).any (fun x => x.name == decl.name) = true := by
        simp only [List.any_eq_true, beq_iff_eq, not_exists, not_and]
        exact fun x hx hn => h ⟨x, hx, hn⟩
      simp only [ensure.go]
      rw [if_neg h1, if_neg h2, ih]
      have hiff : (∃ x ∈ declared parse (uv :: rest), x.name = decl.name) ↔ ∃ x ∈ declared parse rest, x.name = decl.name := by
        rw [hd]
        simp only [List.mem_append]
        constructor
        · rintro ⟨x, hx | hx, hn⟩
          · exact absurd ⟨x, hx, hn⟩ h
          · exact ⟨x, hx, hn⟩
        · rintro ⟨x, hx, hn⟩
          exact ⟨x, .inr hx, hn⟩
      simp only [hiff]

/-- C101: the effect for all texts: a text without a declaration is refused, the blocks stay if the first variable of the text is
declared by any of them (as whatever type), and the whole text is added otherwise. -/
theorem ensure_is (parse : Text → List Decl) (user : List Text) (string : Text) (hb : parse string ≠ [] → ∃ c ∈ string, c ≠ ' ' ∧ c ≠ '\t' ∧ c ≠ '\n') :
    (ensure parse user string = none ↔ parse string = []) ∧
    ∀ d rest, parse string = d :: rest →
      ((∃ x ∈ declared parse user, x.name = d.name) → ensure parse user string = some user) ∧
      ((∀ x ∈ declared parse user, x.name ≠ d.name) → ensure parse user string = some (user ++ [string])) := by
  constructor
  · simp only [ensure]
    cases parse string <;> simp
  · intro d rest hp
    have hb' : blank string = false := not_blank (hb (by simp [hp]))
    simp only [ensure, hp, go_eq, hb', Bool.false_eq_true, if_false]
    refine ⟨fun h => by rw [if_pos h], fun h => by rw [if_neg]; rintro ⟨x, hx, hn⟩; exact h x hx hn⟩

/-- C101: a text that declares one variable. Afterwards the name is declared, all that was declared before still is, no name is
declared twice if none was, and the variable has the type asked for unless it had another one before. -/
theorem one_variable_ensured_partial (parse : Text → List Decl) (user : List Text) (string : Text) (d : Decl)
    (hb : ∃ c ∈ string, c ≠ ' ' ∧ c ≠ '\t' ∧ c ≠ '\n') (hp : parse string = [d]) (hn : ((declared parse user).map (·.name)).Nodup) :
    ∃ after, ensure parse user string = some after ∧
      (∃ more, after = user ++ more) ∧
      ((declared parse after).map (·.name)).Nodup ∧
      d.name ∈ (declared parse after).map (·.name) ∧
      (d ∈ declared parse after ↔ ∀ x ∈ declared parse user, x.name = d.name → x.dtype = d.dtype) := by
  obtain ⟨_, h⟩ := ensure_is parse user string (fun _ => hb)
  obtain ⟨h1, h2⟩ := h d [] hp
  by_cases hx : ∃ x ∈ declared parse user, x.name = d.name
  · refine ⟨user, h1 hx, ⟨[], by simp⟩, hn, ?_, ?_⟩
    · obtain ⟨x, hx, he⟩ := hx
      exact List.mem_map.2 ⟨x, hx, he⟩
    · constructor
      · intro hd x hx he
        have : x = d := List.inj_on_of_nodup_map hn hx hd he
        rw [this]
      · intro hall
        obtain ⟨x, hx, he⟩ := hx
        have : x = d := by
          cases x; cases d
          simp only [Decl.mk.injEq] at *
          exact ⟨he, hall _ hx he⟩
        rwa [← this]
  · have hx' : ∀ x ∈ declared parse user, x.name ≠ d.name := fun x hm he => hx ⟨x, hm, he⟩
    have hd : declared parse (user ++ [string]) = declared parse user ++ [d] := by simp [declared, hp]
    refine ⟨user ++ [string], h2 hx', ⟨_, rfl⟩, ?_, ?_, ?_⟩
    · rw [hd, List.map_append, List.nodup_append]
      refine ⟨hn, by simp, ?_⟩
      intro a ha b hb' hab
      obtain ⟨x, hx, rfl⟩ := List.mem_map.1 ha
      simp only [List.map_cons, List.map_nil, List.mem_singleton] at hb'
      exact hx' x hx (hab.trans hb')
    · rw [hd]; simp
    · rw [hd]
      simp only [List.mem_append, List.mem_singleton, or_true, true_iff]
      exact fun x hx he => absurd he (hx' x hx)

/-- C101 does not hold for a text with more variables: if the first is there already, the others are not added. -/
theorem others_not_ensured (parse : Text → List Decl) (user : List Text) (string : Text) (d e : Decl) (rest : List Decl)
    (hb : ∃ c ∈ string, c ≠ ' ' ∧ c ≠ '\t' ∧ c ≠ '\n') (hp : parse string = d :: rest) (he : e ∈ rest)
    (hd : ∃ x ∈ declared parse user, x.name = d.name) (hne : ∀ x ∈ declared parse user, x.name ≠ e.name) :
    ∃ after, ensure parse user string = some after ∧ ∀ x ∈ declared parse after, x.name ≠ e.name :=
  ⟨user, ((ensure_is parse user string (fun _ => hb)).2 d rest hp).1 hd, hne⟩

/-- C101 does not hold for a text with more variables: if the first is not there, the others are declared again. -/
theorem others_declared_twice (parse : Text → List Decl) (user : List Text) (string : Text) (d e : Decl) (rest : List Decl)
    (hb : ∃ c ∈ string, c ≠ ' ' ∧ c ≠ '\t' ∧ c ≠ '\n') (hp : parse string = d :: rest) (he : e ∈ rest)
    (hd : ∀ x ∈ declared parse user, x.name ≠ d.name) (hex : ∃ x ∈ declared parse user, x.name = e.name) :
    ∃ after, ensure parse user string = some after ∧ ¬ ((declared parse after).map (·.name)).Nodup := by
  refine ⟨user ++ [string], ((ensure_is parse user string (fun _ => hb)).2 d rest hp).2 hd, ?_⟩
  have : declared parse (user ++ [string]) = declared parse user ++ d :: rest := by simp [declared, hp]
  rw [this, List.map_append, List.nodup_append]
  rintro ⟨_, _, h⟩
  obtain ⟨x, hx, hn⟩ := hex
  exact h x.name (List.mem_map.2 ⟨x, hx, rfl⟩) e.name (List.mem_map.2 ⟨e, by simp [he], rfl⟩) hn

/-- Asking again for a text that declares one variable changes nothing. -/
theorem ensure_again (parse : Text → List Decl) (user after : List Text) (string : Text)
    (hb : parse string ≠ [] → ∃ c ∈ string, c ≠ ' ' ∧ c ≠ '\t' ∧ c ≠ '\n') (h : ensure parse user string = some after) :
    ensure parse after string = some after := by
  obtain ⟨h0, hs⟩ := ensure_is parse user string hb
  obtain ⟨_, hs'⟩ := ensure_is parse after string hb
  cases hp : parse string with
  | nil => rw [h0.2 hp] at h; cases h
  | cons d rest =>
    obtain ⟨h1, h2⟩ := hs d rest hp
    by_cases hx : ∃ x ∈ declared parse user, x.name = d.name
    · rw [h1 hx] at h; cases h
      exact h1 hx
    · rw [h2 (fun x hm he => hx ⟨x, hm, he⟩)] at h; cases h
      exact (hs' d rest hp).1 ⟨d, by simp [declared, hp], rfl⟩

/-! A parser for examples: `t:n;t:n;`. -/

/-- Declarations for the examples: each is two characters, the type and the name. -/
def toy : Text → List Decl
  | t :: n :: rest => ⟨[n], [t]⟩ :: toy rest
  | _ => []

example : ensure toy ["ia".toList] "db".toList = some ["ia".toList, "db".toList] := by decide +kernel
example : ensure toy ["ia".toList] "ia".toList = some ["ia".toList] := by decide +kernel
/-- The hypotheses of `others_not_ensured` and `others_declared_twice` are met. -/
example : (∃ c ∈ "iaib".toList, c ≠ ' ' ∧ c ≠ '\t' ∧ c ≠ '\n') ∧ toy "iaib".toList = [⟨['a'], ['i']⟩, ⟨['b'], ['i']⟩] ∧
    ensure toy ["ia".toList] "iaib".toList = some ["ia".toList] ∧
    ensure toy ["ib".toList] "iaib".toList = some ["ib".toList, "iaib".toList] := by decide +kernel
example : ((declared toy ["ia".toList]).map (·.name)).Nodup ∧ toy "db".toList = [⟨['b'], ['d']⟩] ∧ (∃ c ∈ "db".toList, c ≠ ' ' ∧ c ≠ '\t' ∧ c ≠ '\n') := by
  decide +kernel

end Verif.UserVars
