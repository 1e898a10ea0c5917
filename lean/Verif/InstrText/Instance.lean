import Verif.InstrText.Jumps

/-! C72: printed component instances are read as the same instance. -/

namespace Verif.InstrText

open Verif.Loader (Text t)

theorem printJump_cons {E V P : Type} (j : Jump E) :
    ∃ l, (printJump j : List (Tok E V P)) = .kw .jump :: l := ⟨_, rfl⟩

theorem jumps_again {E V P : Type} (rest : List (Tok E V P)) (hr : rest.head? ≠ some (.kw .jump)) : ∀ (js : List (Jump E)) (n : Nat),
    (∀ j ∈ js, ∀ l : List (Tok E V P), readJump (printJump j ++ l) = .ok (j, l)) → js.length ≤ n →
    readJumps n ((js.map printJump).flatten ++ rest) = .ok (js, rest)
  | [], n, _, _ => by
    cases n with
    | zero => simp [readJumps]
    | succ n =>
      simp only [List.map_nil, List.flatten_nil, List.nil_append]
      unfold readJumps
      split
      · exact absurd rfl hr
      · rfl
  | j :: js, n, h, hn => by
    obtain ⟨n, rfl⟩ : ∃ m, n = m + 1 := ⟨n - 1, by simp at hn; omega⟩
    have h1 := h j List.mem_cons_self ((js.map printJump).flatten ++ rest)
    obtain ⟨l, hl⟩ := printJump_cons (V := V) (P := P) j
    simp only [List.map_cons, List.flatten_cons, List.append_assoc]
    rw [hl] at h1 ⊢
    simp only [List.cons_append] at h1 ⊢
    rw [readJumps, h1]
    simp only
    rw [jumps_again rest hr js n (fun j' hj' => h j' (List.mem_cons_of_mem _ hj')) (by simp at hn; omega)]

/-- A jump that is read as it was printed, by C52. -/
def Jump.Readable {E : Type} (j : Jump E) : Prop :=
  j.absolute = -1 ∧
    ((j.target = t "PREVIOUS" ∧ j.relative = -1) ∨ (j.target = t "MYSELF" ∧ j.relative = 0) ∨
     (j.target = t "NEXT" ∧ j.relative = 1) ∨
     ((∀ k ∈ keywords, k.1 ≠ j.target) ∧ j.relative = 0 ∧
       ¬ ('_' ∈ j.target ∧ (t "PREVIOUS" <+: j.target ∨ t "NEXT" <+: j.target))))

/-- A metadata entry that can be read: the name is a word that is no keyword, or in quotes with a blank. -/
def Meta.Readable (m : Meta) : Prop :=
  ('"' ∉ m.mimetype ∧ '\\' ∉ m.mimetype ∧ '\n' ∉ m.mimetype ∧ '\r' ∉ m.mimetype) ∧ ¬ t "%}" <:+: t "\n" ++ m.value ++ t "\n" ∧
  ((m.name ≠ [] ∧ (∀ c ∈ m.name, c.isAlpha = true ∨ c = '_' ∨ c.isDigit = true) ∧ m.name.head?.map Char.isDigit = some false ∧
      Plain m.name) ∨
   ∃ s, m.name = t "\"" ++ s ++ t "\"" ∧ ' ' ∈ s ∧ '"' ∉ s ∧ '\\' ∉ s ∧ '\n' ∉ s ∧ '\r' ∉ s)

/-- The entry with line ends around its value. -/
def Meta.padded (m : Meta) : Meta := { m with value := t "\n" ++ m.value ++ t "\n" }

theorem makeMeta_value (mime name v : Text) : (makeMeta mime name (t "\n" ++ v ++ t "\n")).value = t "\n" ++ v ++ t "\n" := by
  simp [makeMeta, t]

theorem printMeta_read {E V P : Type} {m : Meta} (h : m.Readable) (n : Nat) (ms : List Meta) (l : List (Tok E V P)) :
    readMetas (n + 1) ms (printMeta m ++ l) = readMetas n (addMeta ms m.padded) l := by
  obtain ⟨⟨h1, h2, h3, h4⟩, h5, h6⟩ := h
  have e1 : (lexStr m.mimetype : Tok E V P) = .str m.mimetype := by rw [lexStr, if_neg (by simp [h1, h2, h3, h4])]
  have e2 : (lexBlock (t "\n" ++ m.value ++ t "\n") : Tok E V P) = .block (t "\n" ++ m.value ++ t "\n") := by
    rw [lexBlock, if_neg h5]
  rcases h6 with ⟨a1, a2, a3, a4⟩ | ⟨s, b1, b2, b3, b4, b5, b6⟩
  · have hq : m.name.head? ≠ some '"' := by
      intro hh
      have := a2 '"' (List.mem_of_mem_head? hh)
      revert this
      decide
    have hb : ' ' ∉ m.name := by
      intro hm
      have := a2 ' ' hm
      revert this
      decide
    have e3 : (lexMetaName m.name : Tok E V P) = .word m.name := by
      rw [lexMetaName, if_neg (fun hh => hq hh.1), if_pos, lexWord_plain a4]
      refine ⟨a1, ?_, a3⟩
      rw [List.all_eq_true]
      intro c hc
      have := a2 c hc
      simp only [Bool.or_eq_true, decide_eq_true_eq]
      tauto
    have e4 : makeMeta m.mimetype m.name (t "\n" ++ m.value ++ t "\n") = m.padded := by
      have := makeMeta_value m.mimetype m.name m.value
      simp only [makeMeta, hb, false_and, if_false] at this ⊢
      rw [this]
      rfl
    rw [printMeta, e1, e2, e3]
    simp only [List.cons_append, List.nil_append, readMetas, e4]
  · have e3 : (lexMetaName m.name : Tok E V P) = .str s := by
      have ht : (t "\"" ++ s ++ t "\"").tail.dropLast = s := by simp [t]
      rw [lexMetaName, b1, ht, if_pos ⟨by simp [t], List.getLast?_concat, by simp [t]⟩, if_neg (by simp [b3, b4, b5, b6])]
    have hq : s.head? ≠ some '"' := fun hh => b3 (List.mem_of_mem_head? hh)
    have e4 : makeMeta m.mimetype s (t "\n" ++ m.value ++ t "\n") = m.padded := by
      have := makeMeta_value m.mimetype s m.value
      simp only [makeMeta] at this ⊢
      rw [this, if_pos ⟨b2, .inl hq⟩, ← b1]
      rfl
    rw [printMeta, e1, e2, e3]
    simp only [List.cons_append, List.nil_append, readMetas, e4]

theorem addMeta_new {ms : List Meta} {m : Meta} (h : ∀ x ∈ ms, x.name ≠ m.name) : addMeta ms m = ms ++ [m] := by
  rw [addMeta, List.filter_eq_self.mpr (by simpa using h)]

theorem metas_again {E V P : Type} (rest : List (Tok E V P)) (hr : rest.head? ≠ some (.kw .metadata)) :
    ∀ (ms acc : List Meta) (n : Nat), (∀ m ∈ ms, m.Readable) → ((acc ++ ms).map (·.name)).Nodup → ms.length ≤ n →
    readMetas n acc ((ms.map printMeta).flatten ++ rest) = .ok (acc ++ ms.map Meta.padded, rest)
  | [], acc, n, _, _, _ => by
    simp only [List.map_nil, List.flatten_nil, List.nil_append, List.append_nil]
    unfold readMetas
    split <;> first | exact absurd rfl hr | rfl
  | m :: ms, acc, n, h, hd, hn => by
    obtain ⟨n, rfl⟩ : ∃ k, n = k + 1 := ⟨n - 1, by simp at hn; omega⟩
    simp only [List.map_cons, List.flatten_cons, List.append_assoc]
    rw [printMeta_read (h m List.mem_cons_self), addMeta_new, metas_again rest hr ms _ n
      (fun x hx => h x (List.mem_cons_of_mem _ hx)) (by simpa [Meta.padded] using hd) (by simp at hn; omega)]
    · simp
    · intro x hx he
      rw [List.map_append, List.nodup_append] at hd
      exact hd.2.2 x.name (List.mem_map_of_mem hx) m.name (by simp) he

theorem length_flatten_jumps {E V P : Type} (js : List (Jump E)) (l : List (Tok E V P)) :
    js.length ≤ ((js.map printJump).flatten ++ l).length := by
  induction js with
  | nil => simp
  | cons j js ih =>
    obtain ⟨k, hk⟩ := printJump_cons (V := V) (P := P) j
    simp only [List.map_cons, List.flatten_cons, List.append_assoc, List.length_append, hk, List.length_cons] at ih ⊢
    omega

theorem length_flatten_metas {E V P : Type} (ms : List Meta) (l : List (Tok E V P)) :
    ms.length ≤ ((ms.map printMeta).flatten ++ l).length := by
  induction ms with
  | nil => simp
  | cons m ms ih =>
    simp only [List.map_cons, List.flatten_cons, List.append_assoc, List.length_append, printMeta, List.length_cons] at ih ⊢
    omega

/-- What a placement is read as: the same, if a rotation is printed or there is nothing to print. -/
theorem placement_same {E V P : Type} [Triple V] {names : List Text} (hn : names.Nodup) (hp : ∀ n ∈ names, Plain n)
    {p : Placement V} (ha : ∀ i, p.atRef = some i → i < names.length) (hr : ∀ i, p.rotRef = some i → i < names.length)
    (hrot : Triple.null p.rot = false ∨ p.rotRef ≠ none ∨ (p.rot = Triple.zero ∧ p.atRef = none))
    (l : List (Tok E V P)) (hl : l.head? ≠ some (.kw .rotated)) :
    readPlacement ⟨names, none⟩ (printPlacement names p ++ l) =
      .ok (⟨p.at_, p.atRef.map .own, p.rot, p.rotRef.map .own⟩, l) := by
  by_cases h : Triple.null p.rot = false ∨ p.rotRef ≠ none
  · exact placement_again_partial names hn hp p ha hr h l
  · push Not at h
    have h0 : Triple.null p.rot = true := by simpa using h.1
    rw [omitted_rotation names hn hp p ha h0 h.2 l hl]
    rcases hrot with h' | h' | ⟨h1, h2⟩
    · exact absurd h' h.1
    · exact absurd h.2 h'
    · rw [h1, h2, h.2]

section
variable {E V P : Type}

theorem head_metas (ms : List Meta) (l : List (Tok E V P)) (k : Kw) (hk : k ≠ .metadata) (h : l.head? ≠ some (.kw k)) :
    ((ms.map printMeta).flatten ++ l).head? ≠ some (.kw k) := by
  cases ms with
  | nil => simpa using h
  | cons m ms => simpa [printMeta] using hk.symm

theorem head_jumps (js : List (Jump E)) (l : List (Tok E V P)) (k : Kw) (hk : k ≠ .jump) (h : l.head? ≠ some (.kw k)) :
    ((js.map printJump).flatten ++ l).head? ≠ some (.kw k) := by
  cases js with
  | nil => simpa using h
  | cons m ms => simpa [printJump] using hk.symm

/-- The printed EXTEND block. -/
def extendToks (ext : List Text) : List (Tok E V P) :=
  if ext = [] then [] else [.kw .extend, lexBlock (t "\n\n" ++ joinBlocks ext ++ t "\n")]

/-- The printed GROUP. -/
def groupToks (g : Option Text) : List (Tok E V P) := match g with | some g => [.kw .group, lexWord g] | none => []

/-- The printed WHEN. -/
def whenToks (w : Option E) : List (Tok E V P) := match w with | some e => [.kw .when, .expr e] | none => []

theorem head_extend (x : List Text) (l : List (Tok E V P)) (k : Kw) (hk : k ≠ .extend) (h : l.head? ≠ some (.kw k)) :
    (extendToks x ++ l).head? ≠ some (.kw k) := by
  rw [extendToks]
  split_ifs
  · simpa using h
  · simpa using hk.symm

theorem head_group (g : Option Text) (l : List (Tok E V P)) (k : Kw) (hk : k ≠ .group) (h : l.head? ≠ some (.kw k)) :
    (groupToks g ++ l).head? ≠ some (.kw k) := by
  cases g with
  | none => simpa [groupToks] using h
  | some g => simpa [groupToks] using hk.symm

theorem optGroup_again (g : Option Text) (hg : ∀ x, g = some x → Plain x) (l : List (Tok E V P))
    (hl : l.head? ≠ some (.kw .group)) : optGroup (groupToks g ++ l) = (g, l) := by
  cases g with
  | none =>
    simp only [groupToks, List.nil_append]
    unfold optGroup
    split
    · exact absurd rfl hl
    · rfl
  | some x => simp [groupToks, lexWord_plain (hg x rfl), optGroup]

theorem optWhen_again (w : Option E) (l : List (Tok E V P)) (hl : l.head? ≠ some (.kw .when)) :
    optWhen (whenToks w ++ l) = (w, l) := by
  cases w with
  | none =>
    simp only [whenToks, List.nil_append]
    unfold optWhen
    split
    · exact absurd rfl hl
    · rfl
  | some x => simp [whenToks, optWhen]

theorem optExtend_again (x : List Text) (hx : x ≠ [] → ¬ t "%}" <:+: t "\n\n" ++ joinBlocks x ++ t "\n" ∧
      blank (joinBlocks x) = false) (l : List (Tok E V P)) (hl : l.head? ≠ some (.kw .extend)) :
    optExtend (extendToks x ++ l) = (if x = [] then [] else [t "\n\n" ++ joinBlocks x ++ t "\n"], l) := by
  rw [extendToks]
  split_ifs with h
  · simp only [List.nil_append]
    unfold optExtend
    split
    · exact absurd rfl hl
    · rfl
  · obtain ⟨h1, h2⟩ := hx h
    have hb : blank (t "\n\n" ++ joinBlocks x ++ t "\n") = false := by
      rw [blank, List.all_append, List.all_append, ← blank, ← blank, h2]
      simp
    rw [lexBlock, if_neg h1]
    simp only [List.cons_append, List.nil_append, optExtend, hb, Bool.false_eq_true, if_false]

end

theorem joinBlocks_eq : ∀ l : List Text, joinBlocks l = ['\n'].intercalate l
  | [] => rfl
  | [s] => by simp [joinBlocks, List.intercalate]
  | s :: q :: l => by
    rw [joinBlocks, joinBlocks_eq (q :: l)]
    · simp [List.intercalate, t]
    · simp

/-- C72: an instance is read as it was printed, for instances without SPLIT and REMOVABLE whose names are no keywords, whose
placement, jumps and metadata can be read, except that the EXTEND blocks become one and line ends are put around it and around
the values of metadata. What is missing are the instances with SPLIT or REMOVABLE, and those of C51 and C52. -/
theorem instance_again_partial {E V P : Type} [DecidableEq E] [DecidableEq V] [DecidableEq P] [Triple V] (r : Reader E) (ten : E)
    (names : List Text) (hn : names.Nodup) (hp : ∀ n ∈ names, ∀ k ∈ keywords, k.1 ≠ n) (i : Instance E V P)
    (hname : ∀ k ∈ keywords, k.1 ≠ i.name) (hnew : i.name ∉ names) (htype : ∀ k ∈ keywords, k.1 ≠ i.type)
    (hknown : r.known i.type = true) (hcpu : r.noacc i.type = true → i.cpu = true)
    (hgroup : ∀ g, i.group = some g → ∀ k ∈ keywords, k.1 ≠ g) (hwhen : ∀ e, i.when = some e → r.constant e = false)
    (hext : i.extend ≠ [] → ¬ t "%}" <:+: t "\n\n" ++ joinBlocks i.extend ++ t "\n" ∧ blank (joinBlocks i.extend) = false)
    (hat : ∀ a, i.place.atRef = some a → a < names.length) (hro : ∀ a, i.place.rotRef = some a → a < names.length)
    (hrot : Triple.null i.place.rot = false ∨ i.place.rotRef ≠ none ∨ (i.place.rot = Triple.zero ∧ i.place.atRef = none))
    (hjump : ∀ j ∈ i.jumps, j.Readable)
    (hmeta : ∀ m ∈ i.metas, m.Readable) (hmn : (i.metas.map (·.name)).Nodup)
    (hsplit : i.split = none) (hrem : i.removable = false) (l : List (Tok E V P))
    (hl : ∀ k ∈ [Kw.rotated, .group, .extend, .jump, .metadata], l.head? ≠ some (.kw k)) :
    readInstance r ten ⟨names, none⟩ (printInstance names i ++ l) =
      .ok (⟨i.name, i.type, i.params,
        ⟨i.place.at_, i.place.atRef.map .own, i.place.rot, i.place.rotRef.map .own⟩, i.removable, i.cpu, i.split, i.when,
        i.group, if i.extend = [] then [] else [t "\n\n" ++ ['\n'].intercalate i.extend ++ t "\n"], i.jumps,
        i.metas.map fun m => ⟨m.name, m.mimetype, t "\n" ++ m.value ++ t "\n"⟩⟩, l) := by
  simp only [← joinBlocks_eq]
  have hl1 := hl .rotated (by simp)
  have hl2 := hl .group (by simp)
  have hl3 := hl .extend (by simp)
  have hl4 := hl .jump (by simp)
  have hl5 := hl .metadata (by simp)
  obtain ⟨name, type, params, place, removable, cpu, split, when, group, extend, jumps, metas⟩ := i
  simp only at *
  subst hsplit
  subst hrem
  have hprint : printInstance names (⟨name, type, params, place, false, cpu, none, when, group, extend, jumps, metas⟩ :
      Instance E V P) ++ l = (if cpu then [.kw .cpu] else []) ++ (.kw .component :: lexWord name :: .assign :: lexWord type ::
        .params params :: (whenToks when ++ (printPlacement names place ++ (groupToks group ++ (extendToks extend ++
          ((jumps.map printJump).flatten ++ ((metas.map printMeta).flatten ++ l))))))) := by
    simp [printInstance, whenToks, groupToks, extendToks]
    rfl
  have hplace : ∀ l' : List (Tok E V P), (printPlacement names place ++ l').head? ≠ some (.kw .when) := by
    intro l'
    simp [printPlacement]
  have e1 := optWhen_again when (printPlacement names place ++ (groupToks group ++ (extendToks extend ++
          ((jumps.map printJump).flatten ++ ((metas.map printMeta).flatten ++ l))))) (hplace _)
  have e2 := placement_same (E := E) (P := P) hn hp hat hro hrot (groupToks group ++ (extendToks extend ++
          ((jumps.map printJump).flatten ++ ((metas.map printMeta).flatten ++ l))))
      (head_group _ _ _ (by decide) (head_extend _ _ _ (by decide) (head_jumps _ _ _ (by decide)
        (head_metas _ _ _ (by decide) hl1))))
  have e3 := optGroup_again group hgroup (extendToks extend ++
          ((jumps.map printJump).flatten ++ ((metas.map printMeta).flatten ++ l)))
      (head_extend _ _ _ (by decide) (head_jumps _ _ _ (by decide) (head_metas _ _ _ (by decide) hl2)))
  have e4 := optExtend_again extend hext ((jumps.map printJump).flatten ++ ((metas.map printMeta).flatten ++ l))
      (head_jumps _ _ _ (by decide) (head_metas _ _ _ (by decide) hl3))
  have e5 := jumps_again ((metas.map printMeta).flatten ++ l) (head_metas _ _ _ (by decide) hl4) jumps _
    (fun j hj l => (jump_again_iff j l).mpr (hjump j hj))
    (length_flatten_jumps jumps ((metas.map printMeta).flatten ++ l))
  have e6 := metas_again l hl5 metas [] _ hmeta (by simpa using hmn) (length_flatten_metas metas l)
  have ew : (Option.map r.constant when).getD false = false := by
    cases when with
    | none => rfl
    | some e => exact hwhen e rfl
  have ec : (cpu || r.noacc type) = cpu := by
    cases hc : r.noacc type with
    | false => simp
    | true => simp [hcpu hc]
  have body : ∀ l' : List (Tok E V P), l' = .kw .component :: .word name :: .assign :: .word type ::
        .params params :: (whenToks when ++ (printPlacement names place ++ (groupToks group ++ (extendToks extend ++
          ((jumps.map printJump).flatten ++ ((metas.map printMeta).flatten ++ l)))))) →
      readInstance r ten ⟨names, none⟩ ((if cpu then [.kw .cpu] else []) ++ l') = .ok (⟨name, type, params,
        ⟨place.at_, place.atRef.map .own, place.rot, place.rotRef.map .own⟩, false, cpu, none, when, group,
        if extend = [] then [] else [t "\n\n" ++ joinBlocks extend ++ t "\n"], jumps,
        metas.map fun m => ⟨m.name, m.mimetype, t "\n" ++ m.value ++ t "\n"⟩⟩, l) := by
    rintro l' rfl
    have k1 : ∀ l' : List (Tok E V P), optKw .removable ((if cpu then [.kw .cpu] else []) ++ (.kw .component :: l')) =
        (false, (if cpu then [.kw .cpu] else []) ++ (.kw .component :: l')) := by
      intro l'
      cases cpu <;> simp [optKw]
    have k2 : ∀ l' : List (Tok E V P), optKw .cpu ((if cpu then [.kw .cpu] else []) ++ (.kw .component :: l')) =
        (cpu, .kw .component :: l') := by
      intro l'
      cases cpu <;> simp [optKw]
    rw [readInstance, k1]
    simp only
    rw [k2]
    simp only [optSplit, hknown, if_true, e1, e2, ew, e3, e4, e5, e6, Bool.false_eq_true, if_false, hnew, ec]
    simp [Meta.padded]
  rw [hprint, lexWord_plain hname, lexWord_plain htype]
  exact body _ rfl

/-- C72, negation: SPLIT and REMOVABLE are lost, whatever the instance. -/
theorem split_lost {E V P : Type} [DecidableEq E] [DecidableEq V] [DecidableEq P] [Triple V] (r : Reader E) (ten : E) (s : Scope)
    (names : List Text) (i : Instance E V P) (l l' : List (Tok E V P)) (q : ReadInstance E V P)
    (h : readInstance r ten s (printInstance names i ++ l) = .ok (q, l')) : q.split = none ∧ q.removable = false := by
  obtain ⟨l1, hp⟩ : ∃ l1, printInstance names i ++ l = (if i.cpu then [.kw .cpu] else []) ++ (.kw .component :: l1) := by
    rw [printInstance]
    simp only [List.append_assoc, List.cons_append, List.nil_append]
    exact ⟨_, rfl⟩
  rw [hp] at h
  have k1 : optKw .removable ((if i.cpu then [.kw .cpu] else []) ++ (.kw .component :: l1)) =
      (false, (if i.cpu then [.kw .cpu] else []) ++ (.kw .component :: l1)) := by
    cases i.cpu <;> simp [optKw]
  have k2 : optKw .cpu ((if i.cpu then [.kw .cpu] else []) ++ (.kw .component :: l1)) = (i.cpu, .kw .component :: l1) := by
    cases i.cpu <;> simp [optKw]
  rw [readInstance, k1] at h
  simp only at h
  rw [k2] at h
  simp only [optSplit] at h
  repeat' split at h
  all_goals (cases h <;> exact ⟨rfl, rfl⟩)

/-- Instances of components marked NOACC are CPU when they are read; the others are as written. -/
theorem noacc_is_cpu {E V P : Type} [DecidableEq E] [DecidableEq V] [DecidableEq P] [Triple V] (r : Reader E) (ten : E) (s : Scope)
    (l rest : List (Tok E V P)) (q : ReadInstance E V P) (h : readInstance r ten s l = .ok (q, rest)) :
    r.known q.type = true ∧ q.name ∉ s.names ∧
      (q.cpu = true ↔ r.noacc q.type = true ∨ (optKw .cpu (optKw .removable l).2).1 = true) := by
  simp only [readInstance] at h
  repeat' split at h
  all_goals first
    | (cases h; done)
    | (cases h
       refine ⟨by assumption, by assumption, ?_⟩
       simp only [Bool.or_eq_true]
       exact or_comm)

/-- An instance with all that is printed. -/
def sampleInstance : Instance Nat Nat Nat where
  name := t "b"
  type := t "Arm"
  params := 3
  place := ⟨5, some 0, 0, some 0⟩
  cpu := true
  when := some 8
  group := some (t "g")
  extend := [t "x = 1;", t "y = 2;"]
  jumps := [⟨t "a", 0, false, 9, -1⟩, ⟨t "PREVIOUS", -1, true, 9, -1⟩]
  metas := [⟨t "note", t "text/plain", t "v"⟩, ⟨t "\"a b\"", t "text/plain", t "w"⟩]

/-- The constants are the numbers below five; only Arm is known. -/
def sampleReader : Reader Nat := ⟨fun e => e < 5, fun n => n = t "Arm", fun _ => false⟩

example : ∃ q, readInstance sampleReader 10 ⟨[t "a"], none⟩ (printInstance [t "a"] sampleInstance ++ []) = .ok (q, []) ∧
    q.jumps = sampleInstance.jumps ∧ q.extend = [t "\n\nx = 1;\ny = 2;\n"] := by
  refine ⟨_, instance_again_partial sampleReader 10 [t "a"] (by decide) (by decide +kernel) sampleInstance (by decide +kernel)
    (by decide) (by decide +kernel) (by decide) (by decide) ?_ ?_ (by decide +kernel) ?_ ?_ (.inr (.inl (by decide))) ?_ ?_
    (by decide) rfl rfl [] (by decide), rfl, ?_⟩
  · intro g hg
    cases hg
    decide +kernel
  · intro e he
    cases he
    decide
  · intro a ha
    cases ha
    decide
  · intro a ha
    cases ha
    decide
  · intro j hj
    simp only [sampleInstance, List.mem_cons, List.not_mem_nil, or_false] at hj
    rcases hj with rfl | rfl
    · exact ⟨rfl, .inr (.inr (.inr ⟨by decide +kernel, rfl, by decide⟩))⟩
    · exact ⟨rfl, .inl ⟨rfl, rfl⟩⟩
  · intro m hm
    simp only [sampleInstance, List.mem_cons, List.not_mem_nil, or_false] at hm
    rcases hm with rfl | rfl
    · exact ⟨by decide, by decide +kernel, .inl ⟨by decide, by decide +kernel, by decide, by unfold Plain; decide +kernel⟩⟩
    · exact ⟨by decide, by decide +kernel, .inr ⟨t "a b", by decide, by decide, by decide, by decide, by decide, by decide⟩⟩
  · decide +kernel

/-- C72, negation: with a name of metadata that is not a word, which can be written in quotes, the printed text is not read. -/
theorem metadata_name_refused : readInstance sampleReader 10 ⟨[t "a"], none⟩
    (printInstance [t "a"] { sampleInstance with metas := [⟨t "my-note", t "text/plain", t "v"⟩] }) = .error .syntaxError := by
  decide +kernel

/-- C72, negation: an EXTEND block with white space only is lost. -/
theorem blank_extend_lost : ∃ q, readInstance sampleReader 10 ⟨[t "a"], none⟩
    (printInstance [t "a"] { sampleInstance with extend := [t " "] }) = .ok (q, []) ∧ q.extend = [] := by
  refine ⟨⟨t "b", t "Arm", 3, ⟨5, some (.own 0), 0, some (.own 0)⟩, false, true, none, some 8, some (t "g"), [],
    sampleInstance.jumps, [⟨t "note", t "text/plain", t "\nv\n"⟩, ⟨t "\"a b\"", t "text/plain", t "\nw\n"⟩]⟩, ?_, rfl⟩
  decide +kernel

end Verif.InstrText
