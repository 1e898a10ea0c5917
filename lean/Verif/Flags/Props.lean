import Verif.Flags.Model
import Mathlib.Tactic.Push

/-!
C57: the flags of an instrument after reading it are exactly its DEPENDENCY and those of the components it uses, if it is read
with `parse_mccode_instr`; `Reader.get_instrument` loses its own.
-/

namespace Verif.Flags

/-! ### What is to be collected -/

/-- The text `t` as it is written. -/
def quoted (t : List Char) : List Char := '"' :: (t ++ ['"'])

/-- The definition of the component `c`, or one it copies from, has the clause `DEPENDENCY "t"`. -/
inductive CompFlag (lib : Lib) : String → List Char → Prop
  | own {c steps t} : lib.comps c = some steps → .flag (quoted t) ∈ steps → CompFlag lib c t
  | copied {c d steps t} : lib.comps c = some steps → .need d ∈ steps → CompFlag lib d t → CompFlag lib c t

/-- The component `c` is used by an instrument, or by one that it includes. -/
inductive Uses (lib : Lib) : List Item → String → Prop
  | here {items c} : .comp c ∈ items → Uses lib items c
  | included {items items' i c} : .incl i ∈ items → lib.instrs i = some items' → Uses lib items' c → Uses lib items c

/-- All literals are between quotes, and do not begin or end with another. -/
def Lib.Plain (lib : Lib) : Prop :=
  ∀ c steps s, lib.comps c = some steps → Step.flag s ∈ steps →
    ∃ t : List Char, s = quoted t ∧ t.head? ≠ some '"' ∧ t.getLast? ≠ some '"'

/-! ### Components -/

theorem middle_quoted (t : List Char) : middle (quoted t) = t := by simp [middle, quoted]

theorem quoted_injective {s t : List Char} (h : quoted s = quoted t) : s = t := by
  have := congrArg middle h
  rwa [middle_quoted, middle_quoted] at this

theorem dropWhile_of_head {l : List Char} (h : l.head? ≠ some '"') : l.dropWhile (· = '"') = l := by
  cases l with
  | nil => rfl
  | cons a l =>
    rw [List.dropWhile_cons_of_neg]
    intro ha
    simp only [decide_eq_true_eq] at ha
    exact h (by rw [ha]; rfl)

theorem strip_quoted {t : List Char} (h1 : t.head? ≠ some '"') (h2 : t.getLast? ≠ some '"') : strip (quoted t) = t := by
  rw [strip, quoted, List.dropWhile_cons_of_pos (by simp)]
  cases t with
  | nil => rfl
  | cons a t =>
    have h : (a :: t ++ ['"']).dropWhile (· = '"') = a :: t ++ ['"'] := dropWhile_of_head (by simpa using h1)
    rw [h, List.reverse_append, List.reverse_singleton, List.singleton_append, List.dropWhile_cons_of_pos (by simp),
      dropWhile_of_head (by rw [List.head?_reverse]; exact h2), List.reverse_reverse]

/-- The flags of all components read are held. -/
def Good (lib : Lib) (r : Reader) : Prop := ∀ c ∈ r.known, ∀ t, CompFlag lib c t → t ∈ r.flags

theorem compFlag_iff {lib : Lib} {c : String} {steps : List Step} (hc : lib.comps c = some steps) (t : List Char) :
    CompFlag lib c t ↔ .flag (quoted t) ∈ steps ∨ ∃ d, .need d ∈ steps ∧ CompFlag lib d t := by
  constructor
  · rintro (⟨h1, h2⟩ | ⟨h1, h2, h3⟩)
    · rw [hc] at h1; cases h1
      exact .inl h2
    · rw [hc] at h1; cases h1
      exact .inr ⟨_, h2, h3⟩
  · rintro (h | ⟨d, h1, h2⟩)
    · exact .own hc h
    · exact .copied hc h1 h2

/-- What `get_component` does. -/
def Gets (lib : Lib) (get : Reader → String → Except Err Reader) : Prop :=
  ∀ r c r', Good lib r → get r c = .ok r' →
    Good lib r' ∧ (∀ t, t ∈ r'.flags ↔ t ∈ r.flags ∨ CompFlag lib c t)

theorem runSteps_spec {lib : Lib} {get : Reader → String → Except Err Reader} (hg : Gets lib get) :
    ∀ (steps : List Step) (r r' : Reader), Good lib r → runSteps get steps r = .ok r' →
      Good lib r' ∧ ∀ t, t ∈ r'.flags ↔
        t ∈ r.flags ∨ (∃ s, .flag s ∈ steps ∧ strip s = t) ∨ ∃ d, .need d ∈ steps ∧ CompFlag lib d t := by
  intro steps
  induction steps with
  | nil =>
    intro r r' h hr
    cases hr
    exact ⟨h, fun t => by simp⟩
  | cons s l ih =>
    intro r r' h hr
    cases s with
    | flag s =>
      rw [runSteps] at hr
      obtain ⟨h1, h2⟩ := ih { r with flags := r.flags ++ [strip s] } _
        (fun c hc t ht => List.mem_append_left _ (h c hc t ht)) hr
      refine ⟨h1, fun t => ?_⟩
      rw [h2]
      simp only [List.mem_append, List.mem_cons, Step.flag.injEq, reduceCtorEq, false_or, List.not_mem_nil, or_false]
      constructor
      · rintro ((h | rfl) | ⟨s', h, h'⟩ | h)
        · exact .inl h
        · exact .inr (.inl ⟨s, .inl rfl, rfl⟩)
        · exact .inr (.inl ⟨s', .inr h, h'⟩)
        · exact .inr (.inr h)
      · rintro (h | ⟨s', rfl | h, h'⟩ | h)
        · exact .inl (.inl h)
        · exact .inl (.inr h'.symm)
        · exact .inr (.inl ⟨s', h, h'⟩)
        · exact .inr (.inr h)
    | need d =>
      rw [runSteps] at hr
      split at hr
      · cases hr
      · rename_i r1 hr1
        obtain ⟨h1, h2⟩ := hg _ _ _ h hr1
        obtain ⟨h3, h4⟩ := ih _ _ h1 hr
        refine ⟨h3, fun t => ?_⟩
        rw [h4, h2]
        simp only [List.mem_cons, Step.need.injEq, reduceCtorEq, false_or]
        constructor
        · rintro ((h | h) | h | ⟨d', h, h'⟩)
          · exact .inl h
          · exact .inr (.inr ⟨d, .inl rfl, h⟩)
          · exact .inr (.inl h)
          · exact .inr (.inr ⟨d', .inr h, h'⟩)
        · rintro (h | h | ⟨d', rfl | h, h'⟩)
          · exact .inl (.inl h)
          · exact .inr (.inl h)
          · exact .inl (.inr h')
          · exact .inr (.inr ⟨d', h, h'⟩)

theorem getComponent_spec {lib : Lib} (hp : lib.Plain) (n : Nat) : Gets lib (getComponent lib n) := by
  induction n with
  | zero =>
    intro r c r' _ h
    cases h
  | succ n ih =>
    intro r c r' hgood h
    rw [getComponent] at h
    split_ifs at h with hk
    · cases h
      refine ⟨hgood, fun t => ⟨.inl, ?_⟩⟩
      rintro (h | h)
      · exact h
      · exact hgood c hk t h
    · split at h
      · cases h
      · rename_i steps hc
        split at h
        · cases h
        · rename_i r1 hr1
          cases h
          obtain ⟨h1, h2⟩ := runSteps_spec ih steps r r1 hgood hr1
          have h3 : ∀ t, t ∈ r1.flags ↔ t ∈ r.flags ∨ CompFlag lib c t := by
            intro t
            rw [h2, compFlag_iff hc]
            constructor
            · rintro (h | ⟨s, h, h'⟩ | h)
              · exact .inl h
              · obtain ⟨u, rfl, hu1, hu2⟩ := hp c steps s hc h
                rw [strip_quoted hu1 hu2] at h'
                exact .inr (.inl (h' ▸ h))
              · exact .inr (.inr h)
            · rintro (h | h | h)
              · exact .inl h
              · obtain ⟨u, hu, hu1, hu2⟩ := hp c steps _ hc h
                have := quoted_injective hu
                subst this
                exact .inr (.inl ⟨_, h, strip_quoted hu1 hu2⟩)
              · exact .inr (.inr h)
          refine ⟨fun d hd t ht => ?_, h3⟩
          rw [List.mem_append, List.mem_singleton] at hd
          rcases hd with hd | rfl
          · exact h1 d hd t ht
          · exact (h3 t).mpr (.inr ht)

/-! ### Instruments -/

/-- What the reading of an included instrument does. -/
def Includes (lib : Lib) (incl : Reader → String → Except Err Reader) : Prop :=
  ∀ r i r', Good lib r → incl r i = .ok r' →
    Good lib r' ∧ ∃ items, lib.instrs i = some items ∧
      ∀ t, t ∈ r'.flags ↔ t ∈ r.flags ∨ ∃ c, Uses lib items c ∧ CompFlag lib c t

theorem uses_nil {lib : Lib} {c : String} (h : Uses lib [] c) : False := by
  cases h with
  | here h => cases h
  | included h _ _ => cases h

theorem uses_cons {lib : Lib} {x : Item} {l : List Item} {c : String} :
    Uses lib (x :: l) c ↔ x = .comp c ∨ (∃ i items, x = .incl i ∧ lib.instrs i = some items ∧ Uses lib items c) ∨
      Uses lib l c := by
  constructor
  · intro h
    cases h with
    | here h =>
      rcases List.mem_cons.mp h with h | h
      · exact .inl h.symm
      · exact .inr (.inr (.here h))
    | included h1 h2 h3 =>
      rcases List.mem_cons.mp h1 with h | h
      · exact .inr (.inl ⟨_, _, h.symm, h2, h3⟩)
      · exact .inr (.inr (.included h h2 h3))
  · rintro (rfl | ⟨i, items, rfl, h1, h2⟩ | h)
    · exact .here List.mem_cons_self
    · exact .included List.mem_cons_self h1 h2
    · cases h with
      | here h => exact .here (List.mem_cons_of_mem _ h)
      | included h1 h2 h3 => exact .included (List.mem_cons_of_mem _ h1) h2 h3

theorem runItems_spec {lib : Lib} {get incl : Reader → String → Except Err Reader} (hg : Gets lib get)
    (hi : Includes lib incl) :
    ∀ (items : List Item) (r r' : Reader) (own own' : List (List Char)), Good lib r →
      runItems get incl items r own = .ok (r', own') →
      Good lib r' ∧ (∀ t, t ∈ r'.flags ↔ t ∈ r.flags ∨ ∃ c, Uses lib items c ∧ CompFlag lib c t) ∧
        ∀ t, t ∈ own' ↔ t ∈ own ∨ ∃ s, .dependency s ∈ items ∧ middle s = t := by
  intro items
  induction items with
  | nil =>
    intro r r' own own' h hr
    cases hr
    refine ⟨h, fun t => ⟨.inl, ?_⟩, fun t => by simp⟩
    rintro (h | ⟨c, h, _⟩)
    · exact h
    · exact (uses_nil h).elim
  | cons x l ih =>
    intro r r' own own' h hr
    cases x with
    | dependency s =>
      rw [runItems] at hr
      obtain ⟨h1, h2, h3⟩ := ih _ _ _ _ h hr
      refine ⟨h1, fun t => ?_, fun t => ?_⟩
      · rw [h2]
        simp only [uses_cons, reduceCtorEq, false_or, false_and, exists_false]
      · rw [h3]
        simp only [List.mem_append, List.mem_cons, Item.dependency.injEq, List.not_mem_nil, or_false]
        constructor
        · rintro ((h | rfl) | ⟨s', h, h'⟩)
          · exact .inl h
          · exact .inr ⟨s, .inl rfl, rfl⟩
          · exact .inr ⟨s', .inr h, h'⟩
        · rintro (h | ⟨s', rfl | h, h'⟩)
          · exact .inl (.inl h)
          · exact .inl (.inr h'.symm)
          · exact .inr ⟨s', h, h'⟩
    | comp c =>
      rw [runItems] at hr
      split at hr
      · cases hr
      · rename_i r1 hr1
        obtain ⟨h1, h2⟩ := hg _ _ _ h hr1
        obtain ⟨h3, h4, h5⟩ := ih _ _ _ _ h1 hr
        refine ⟨h3, fun t => ?_, fun t => by rw [h5]; simp⟩
        rw [h4, h2]
        simp only [uses_cons, Item.comp.injEq, reduceCtorEq, false_and, exists_false, false_or]
        constructor
        · rintro ((h | h) | ⟨d, h, h'⟩)
          · exact .inl h
          · exact .inr ⟨c, .inl rfl, h⟩
          · exact .inr ⟨d, .inr h, h'⟩
        · rintro (h | ⟨d, rfl | h, h'⟩)
          · exact .inl (.inl h)
          · exact .inl (.inr h')
          · exact .inr ⟨d, h, h'⟩
    | incl i =>
      rw [runItems] at hr
      split at hr
      · cases hr
      · rename_i r1 hr1
        obtain ⟨h1, its, hits, h2⟩ := hi _ _ _ h hr1
        obtain ⟨h3, h4, h5⟩ := ih _ _ _ _ h1 hr
        refine ⟨h3, fun t => ?_, fun t => by rw [h5]; simp⟩
        rw [h4, h2]
        simp only [uses_cons, Item.incl.injEq, reduceCtorEq, false_or]
        constructor
        · rintro ((h | ⟨d, h, h'⟩) | ⟨d, h, h'⟩)
          · exact .inl h
          · exact .inr ⟨d, .inl ⟨i, its, rfl, hits, h⟩, h'⟩
          · exact .inr ⟨d, .inr h, h'⟩
        · rintro (h | ⟨d, ⟨j, its', rfl, hj, h⟩ | h, h'⟩)
          · exact .inl (.inl h)
          · rw [hits] at hj
            cases hj
            exact .inl (.inr ⟨d, h, h'⟩)
          · exact .inr ⟨d, h, h'⟩

theorem includeInstr_spec {lib : Lib} (hp : lib.Plain) (n : Nat) : Includes lib (includeInstr lib n) := by
  induction n with
  | zero =>
    intro r c r' _ h
    cases h
  | succ n ih =>
    intro r i r' hgood h
    rw [includeInstr] at h
    split at h
    · cases h
    · rename_i items hi
      split at h
      · cases h
      · rename_i r1 own hr1
        cases h
        obtain ⟨h1, h2, _⟩ := runItems_spec (getComponent_spec hp n) ih items r r' [] own hgood hr1
        exact ⟨h1, items, hi, h2⟩

/-- C57: an instrument read by `parse_mccode_instr`, as `load_mcstas_instr` does, has exactly the flags of its own
DEPENDENCY and those of the components used by it or by instruments it includes, and of the components these copy. -/
theorem parse_flags (lib : Lib) (hp : lib.Plain) (n : Nat) (items : List Item)
    (hq : ∀ s, .dependency s ∈ items → ∃ t, s = quoted t) (flags : List (List Char))
    (h : parseInstr lib n items = .ok flags) (t : List Char) :
    t ∈ flags ↔ .dependency (quoted t) ∈ items ∨ ∃ c, Uses lib items c ∧ CompFlag lib c t := by
  unfold parseInstr at h
  split at h
  · cases h
  · rename_i r own hr
    cases h
    obtain ⟨_, h2, h3⟩ := runItems_spec (getComponent_spec hp n) (includeInstr_spec hp n) items ⟨[], []⟩ r [] own
      (fun c hc => by cases hc) hr
    rw [List.mem_append, h2, h3]
    simp only [List.not_mem_nil, false_or]
    have : (∃ s, .dependency s ∈ items ∧ middle s = t) ↔ .dependency (quoted t) ∈ items := by
      constructor
      · rintro ⟨s, hs, rfl⟩
        obtain ⟨u, rfl⟩ := hq s hs
        rw [middle_quoted]
        exact hs
      · exact fun h => ⟨_, h, middle_quoted t⟩
    rw [this]

/-- C57: `Reader.get_instrument` gives the instrument the flags of all components read so far by this reader, and those of the
components that it uses. -/
theorem get_instrument_flags_partial (lib : Lib) (hp : lib.Plain) (n : Nat) (r r' : Reader) (hr : Good lib r)
    (items : List Item) (flags : List (List Char)) (h : getInstrument lib n r items = .ok (r', flags)) (t : List Char) :
    Good lib r' ∧ r'.flags = flags ∧
      (t ∈ flags ↔ t ∈ r.flags ∨ ∃ c, Uses lib items c ∧ CompFlag lib c t) := by
  unfold getInstrument at h
  split at h
  · cases h
  · rename_i r1 own hr1
    cases h
    obtain ⟨h1, h2, _⟩ := runItems_spec (getComponent_spec hp n) (includeInstr_spec hp n) items r r' [] own hr hr1
    exact ⟨h1, rfl, h2 t⟩

/-- C57 does not hold for `Reader.get_instrument`: the DEPENDENCY of the instrument itself is lost, unless one of its components
has the same. -/
theorem get_instrument_loses_own (lib : Lib) (hp : lib.Plain) (n : Nat) (r' : Reader) (items : List Item)
    (flags : List (List Char)) (h : getInstrument lib n ⟨[], []⟩ items = .ok (r', flags)) (t : List Char)
    (ht : ∀ c, Uses lib items c → ¬CompFlag lib c t) : t ∉ flags := by
  have := (get_instrument_flags_partial lib hp n ⟨[], []⟩ r' (fun c hc => by cases hc) items flags h t).2.2
  rw [this]
  rintro (h | ⟨c, h1, h2⟩)
  · cases h
  · exact ht c h1 h2

/-- C57: a component added by `make_instance` brings its flags. -/
theorem make_instance_flags (lib : Lib) (hp : lib.Plain) (n : Nat) (flags flags' : List (List Char)) (c : String)
    (h : makeInstance lib n flags c = .ok flags') (t : List Char) :
    t ∈ flags' ↔ t ∈ flags ∨ CompFlag lib c t := by
  unfold makeInstance at h
  split at h
  · cases h
  · rename_i r hr
    cases h
    rw [List.mem_append, (getComponent_spec hp n ⟨[], []⟩ c r (fun c hc => by cases hc) hr).2]
    simp

theorem mem_fromKeys (l : List (List Char)) (t : List Char) : (t ∈ fromKeys l ↔ t ∈ l) ∧ (fromKeys l).Nodup := by
  have key : ∀ (l acc : List (List Char)), acc.Nodup →
      (t ∈ l.foldl (fun acc x => if x ∈ acc then acc else acc ++ [x]) acc ↔ t ∈ acc ∨ t ∈ l) ∧
        (l.foldl (fun acc x => if x ∈ acc then acc else acc ++ [x]) acc).Nodup := by
    intro l
    induction l with
    | nil => intro acc h; simp [h]
    | cons x l ih =>
      intro acc h
      rw [List.foldl_cons]
      by_cases hx : x ∈ acc
      · rw [if_pos hx]
        refine ⟨?_, (ih acc h).2⟩
        rw [(ih acc h).1, List.mem_cons]
        constructor
        · rintro (h | h)
          · exact .inl h
          · exact .inr (.inr h)
        · rintro (h | rfl | h)
          · exact .inl h
          · exact .inl hx
          · exact .inr h
      · rw [if_neg hx]
        have hn : (acc ++ [x]).Nodup := by
          rw [List.nodup_append]
          refine ⟨h, by simp, fun a ha b hb => ?_⟩
          rw [List.mem_singleton] at hb
          rintro rfl
          exact hx (hb ▸ ha)
        refine ⟨?_, (ih _ hn).2⟩
        rw [(ih _ hn).1, List.mem_append, List.mem_singleton, List.mem_cons, or_assoc]
  have := key l [] List.nodup_nil
  simpa [fromKeys] using this

/-- C57: a component added by an assembler brings its flags; with any flag, none is held twice. -/
theorem assemble_flags (lib : Lib) (hp : lib.Plain) (n : Nat) (r r' : Reader) (hr : Good lib r)
    (flags flags' : List (List Char)) (c : String) (h : assemble lib n r flags c = .ok (r', flags')) (t : List Char) :
    Good lib r' ∧ (t ∈ flags' ↔ t ∈ flags ∨ t ∈ r.flags ∨ CompFlag lib c t) ∧ (r'.flags ≠ [] → flags'.Nodup) := by
  unfold assemble at h
  split at h
  · cases h
  · rename_i r1 hr1
    cases h
    obtain ⟨h1, h2⟩ := getComponent_spec hp n r c r' hr hr1
    refine ⟨h1, ?_, fun hne => by rw [if_neg hne]; exact (mem_fromKeys _ []).2⟩
    split_ifs with he
    · rw [← h2, he]
      simp
    · rw [(mem_fromKeys _ t).1, List.mem_append, h2]

/-! ### Examples -/

def exampleLib : Lib where
  comps
    | "Arm" => some []
    | "Nexus" => some [.flag (quoted "-lnexus".toList)]
    | "Better" => some [.need "Nexus", .flag (quoted "-lm".toList)]
    | _ => none
  instrs
    | "part.instr" => some [.dependency (quoted "-DPART".toList), .comp "Nexus"]
    | _ => none

theorem exampleLib_plain : exampleLib.Plain := by
  intro c steps s hc hs
  simp only [exampleLib] at hc
  split at hc <;> cases hc
  · cases hs
  · rw [List.mem_singleton] at hs
    cases hs
    exact ⟨_, rfl, by decide, by decide⟩
  · rcases List.mem_cons.mp hs with hs | hs
    · cases hs
    · rw [List.mem_singleton] at hs
      cases hs
      exact ⟨_, rfl, by decide, by decide⟩

example : parseInstr exampleLib 9 [.dependency (quoted "-DMINE".toList), .comp "Arm", .comp "Better", .comp "Better"] =
    .ok ["-DMINE".toList, "-lnexus".toList, "-lm".toList] := by decide +kernel

example : (getInstrument exampleLib 9 ⟨[], []⟩ [.dependency (quoted "-DMINE".toList), .comp "Better"]).map (·.2) =
    .ok ["-lnexus".toList, "-lm".toList] := by decide +kernel

example : makeInstance exampleLib 9 ["-DMINE".toList] "Better" =
      .ok ["-DMINE".toList, "-lnexus".toList, "-lm".toList] ∧
    (assemble exampleLib 9 ⟨["-lnexus".toList], ["Nexus"]⟩ ["-lnexus".toList] "Better").map (·.2) =
      .ok ["-lnexus".toList, "-lm".toList] := by decide +kernel

/-- C57 does not hold for included instruments: their own DEPENDENCY is lost, also by `parse_mccode_instr`. -/
theorem included_dependency_lost :
    parseInstr exampleLib 9 [.comp "Arm", .incl "part.instr"] = .ok ["-lnexus".toList] ∧
      exampleLib.instrs "part.instr" = some [.dependency (quoted "-DPART".toList), .comp "Nexus"] := by
  refine ⟨by decide +kernel, rfl⟩

/-- C57 does not hold for a reader used for two instruments: the second has the flags of the first. -/
theorem earlier_flags_kept (lib : Lib) (hp : lib.Plain) (n : Nat) (r r' : Reader) (hr : Good lib r) (items : List Item)
    (flags : List (List Char)) (h : getInstrument lib n r items = .ok (r', flags)) : ∀ t ∈ r.flags, t ∈ flags :=
  fun t ht => (get_instrument_flags_partial lib hp n r r' hr items flags h t).2.2.mpr (.inl ht)

/-- C57 does not hold for flags that end in a quote: that of a component loses it, that of an instrument does not. -/
theorem final_quote_lost :
    strip (quoted "-DNAME=\\\"x\\\"".toList) = "-DNAME=\\\"x\\".toList ∧
      middle (quoted "-DNAME=\\\"x\\\"".toList) = "-DNAME=\\\"x\\\"".toList := by decide +kernel

end Verif.Flags
