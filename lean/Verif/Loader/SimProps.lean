import Verif.Loader.Sim
import Mathlib.Data.List.Forall2

/-! C44: what is written for a simulation summary is read again. -/

namespace Verif.Loader

/-! ### Text -/

theorem lstrip_append {f : Text} (h : lstrip f ≠ []) (y : Text) : lstrip (f ++ y) = lstrip f ++ y := by
  induction f with
  | nil => exact absurd rfl h
  | cons c f ih =>
    by_cases hc : isSpace c = true
    · rw [lstrip_space hc] at h ⊢
      rw [List.cons_append, lstrip_space hc, ih h]
    · rw [Bool.not_eq_true] at hc
      rw [lstrip_cons hc, List.cons_append, lstrip_cons hc]

theorem rstrip_eq (s : Text) : rstrip s = (lstrip s.reverse).reverse := rfl

theorem rstrip_append {l : Text} (h : rstrip l ≠ []) (x : Text) : rstrip (x ++ l) = x ++ rstrip l := by
  rw [rstrip_eq] at h ⊢
  rw [List.reverse_append, lstrip_append (by simpa using h), List.reverse_append, List.reverse_reverse, rstrip_eq]

theorem lstrip_head (s : Text) : ∀ c, (lstrip s).head? = some c → isSpace c = false := by
  induction s with
  | nil => intro c hc; cases hc
  | cons a s ih =>
    by_cases ha : isSpace a = true
    · rw [lstrip_space ha]
      exact ih
    · rw [Bool.not_eq_true] at ha
      rw [lstrip_cons ha]
      intro c hc
      cases hc
      exact ha

theorem strip_is_stripped (s : Text) : Stripped (strip s) := by
  constructor
  · intro c hc
    have hp : strip s <+: lstrip s := by
      rw [strip, rstrip_eq, ← List.reverse_suffix, List.reverse_reverse]
      exact List.dropWhile_suffix _
    apply lstrip_head s c
    obtain ⟨r, hr⟩ := hp
    rw [← hr]
    cases h : strip s with
    | nil => rw [h] at hc; cases hc
    | cons d l => rw [h] at hc; exact hc
  · intro c hc
    rw [strip, rstrip_eq, List.getLast?_reverse] at hc
    exact lstrip_head _ c hc

theorem strip_strip (s : Text) : strip (strip s) = strip s := strip_stripped (strip_is_stripped s)

theorem not_mem_strip {c : Char} {s : Text} (h : c ∉ s) : c ∉ lstrip s ∧ c ∉ rstrip s := by
  refine ⟨fun hc => h ((List.dropWhile_sublist _).subset hc), fun hc => h ?_⟩
  rw [rstrip, List.mem_reverse] at hc
  exact List.mem_reverse.mp ((List.dropWhile_sublist _).subset hc)

/-- The lines of a stripped block. -/
theorem lines_block {f last : Text} {mid : List Text} (hf : lstrip f ≠ []) (hl : rstrip last ≠ [])
    (hn : ∀ l ∈ f :: (mid ++ [last]), '\n' ∉ l) :
    lines (strip (unlines (f :: (mid ++ [last])))) = lstrip f :: (mid ++ [rstrip last]) := by
  have h1 : unlines (f :: (mid ++ [last])) = f ++ ('\n' :: unlines mid ++ (last ++ ['\n'])) := by
    rw [unlines, unlines_append]
    simp [unlines]
  have h2 : rstrip (last ++ ['\n']) = rstrip last := rstrip_space rfl
  rw [h1, strip, lstrip_append hf, ← List.append_assoc, rstrip_append (by rw [h2]; exact hl), h2]
  have h3 : lstrip f ++ '\n' :: unlines mid ++ rstrip last = unlines (lstrip f :: mid) ++ rstrip last := by
    rw [unlines]
  rw [h3, splitOn_unlines]
  · rfl
  · intro x hx
    rcases List.mem_cons.mp hx with rfl | hx
    · exact (not_mem_strip (hn f (by simp))).1
    · exact hn x (by simp [hx])
  · exact (not_mem_strip (hn last (by simp))).2

/-! ### Markers -/

def markers : List Text :=
  [t "begin instrument: ", t "begin simulation: ", t "end instrument", t "end simulation", t "begin data", t "end data"]

/-- A text that is not changed by being written as a value and read: no white space at its ends, no line ends and none of the
marks of the parts of the file. -/
def Clean (v : Text) : Prop := Stripped v ∧ '\n' ∉ v ∧ ∀ m ∈ markers, ¬ m <:+: v

/-- A mark does not begin in `p`. -/
def NoStraddle (m p : Text) : Prop := ¬ m <:+: p ∧ ∀ j < m.length, ¬ m.take (j + 1) <:+ p

instance (m p : Text) : Decidable (NoStraddle m p) := inferInstanceAs (Decidable (_ ∧ _))

theorem infix_append_of_noStraddle {m p v : Text} (hs : NoStraddle m p) (h : m <:+: p ++ v) : m <:+: v := by
  induction p with
  | nil => exact h
  | cons c p ih =>
    rw [List.cons_append] at h
    rcases List.infix_cons_iff.mp h with hp | hi
    · exfalso
      have h1 : c :: p <+: c :: (p ++ v) := by rw [← List.cons_append]; exact List.prefix_append _ _
      rcases List.prefix_or_prefix_of_prefix hp h1 with h2 | h2
      · exact hs.1 h2.isInfix
      · refine hs.2 p.length ?_ ?_
        · have := h2.length_le
          simp only [List.length_cons] at this
          omega
        · have := (List.prefix_iff_eq_take.mp h2)
          rw [List.length_cons] at this
          rw [← this]
    · refine ih ⟨fun hm => hs.1 (List.infix_cons hm), fun j hj hsu => hs.2 j hj ?_⟩ hi
      exact hsu.trans (List.suffix_cons _ _)

def allKeywords : List Text := keywords0f ++ keywords1 ++ keywords2 ++
  [t "Program", t "File", t "Source", t "Parameters", t "Trace_enabled", t "Default_main", t "Embedded_runtime", t "Format",
    t "URL", t "Creator", t "Instrument", t "Trace", t "Gravitation", t "Seed", t "Directory", t "Param"]

theorem key_facts : ∀ k ∈ allKeywords, (∀ c ∈ k, isSpace c = false) ∧ ':' ∉ k ∧ '\n' ∉ k ∧ k ≠ [] ∧
    ∀ m ∈ markers, NoStraddle m (t "  " ++ k ++ t ": ") ∧ NoStraddle m (k ++ t ": ") := by decide +kernel

/-- A line for a key and a value. -/
def row (k v : Text) : Text := t "  " ++ k ++ t ": " ++ v

theorem row_no_mark {k v : Text} (hk : k ∈ allKeywords) (hv : Clean v) {m : Text} (hm : m ∈ markers) : ¬ m <:+: row k v :=
  fun h => hv.2.2 m hm (infix_append_of_noStraddle ((key_facts k hk).2.2.2.2 m hm).1 h)

theorem row_no_newline {k v : Text} (hk : k ∈ allKeywords) (hv : Clean v) : '\n' ∉ row k v := by
  have h1 := (key_facts k hk).2.2.1
  have h2 : '\n' ∉ t "  " := by decide
  have h3 : '\n' ∉ t ": " := by decide
  simp only [row, List.mem_append, not_or]
  exact ⟨⟨⟨h2, h1⟩, h3⟩, hv.2.1⟩

theorem clean_of_no_space {v : Text} (h : ∀ c ∈ v, isSpace c = false) : Clean v := by
  have hnl : '\n' ∉ v := by
    intro hn
    have := h _ hn
    cases this
  refine ⟨stripped_of_forall h, hnl, ?_⟩
  intro m hm hi
  have hsp : ∀ m ∈ markers, ' ' ∈ m := by decide
  have := h _ (hi.subset (hsp m hm))
  cases this

theorem clean_yesNo (b : Bool) : Clean (yesNo b) := by
  refine clean_of_no_space ?_
  cases b <;> decide

theorem clean_strInt (z : Int) : Clean (strInt z) := clean_of_no_space (strInt_mem z)

theorem yesNo_yes (b : Bool) : decide (yesNo b = t "yes") = b := by cases b <;> decide

/-! ### Lines that are read as a key with a value -/

def KL (l : Text) (kv : Text × Text) : Prop :=
  ∃ pre post, l = pre ++ ':' :: post ∧ ':' ∉ pre ∧ strip pre = kv.1 ∧ strip post = kv.2

theorem KL.read {l : Text} {kv : Text × Text} (h : KL l kv) :
    strip (partition [':'] l).1 = kv.1 ∧ strip (partition [':'] l).2 = kv.2 := by
  obtain ⟨pre, post, rfl, hn, h1, h2⟩ := h
  rw [partition_char hn]
  exact ⟨h1, h2⟩

theorem readEach_eq : ∀ {ls : List Text} {kvs : List (Text × Text)}, List.Forall₂ KL ls kvs →
    readEach ls (kvs.map (·.1)) = .ok (kvs.map (·.2))
  | [], _, .nil => rfl
  | l :: ls, kv :: kvs, .cons h hs => by
    obtain ⟨h1, h2⟩ := h.read
    rw [List.map_cons, readEach, if_neg (by rw [h1]; simp), readEach_eq hs, h2, List.map_cons]

theorem readKeywords_eq {ls : List Text} {kvs : List (Text × Text)} (h : List.Forall₂ KL ls kvs) :
    readKeywords ls (kvs.map (·.1)) = .ok (kvs.map (·.2)) := by
  rw [readKeywords, if_neg, readEach_eq h]
  rw [List.length_map, h.length_eq]
  omega

theorem row_eq (k v : Text) : row k v = (t "  " ++ k) ++ ':' :: (' ' :: v) := by
  simp [row, t]

theorem strip_key {k : Text} (hk : k ∈ allKeywords) : strip (t "  " ++ k) = k ∧ strip k = k := by
  have hs := stripped_of_forall (key_facts k hk).1
  refine ⟨?_, strip_stripped hs⟩
  rw [show t "  " ++ k = ' ' :: ' ' :: k by rfl, strip, lstrip_space rfl, lstrip_space rfl]
  exact strip_stripped hs

theorem row_KL {k v : Text} (hk : k ∈ allKeywords) (hv : Stripped v) : KL (row k v) (k, v) := by
  refine ⟨t "  " ++ k, ' ' :: v, row_eq k v, ?_, (strip_key hk).1, strip_space rfl hv⟩
  have h2 : ':' ∉ t "  " := by decide
  simp only [List.mem_append, not_or]
  exact ⟨h2, (key_facts k hk).2.1⟩

/-- The first line of a stripped block. -/
theorem lstrip_row {k v : Text} (hk : k ∈ allKeywords) : lstrip (row k v) = k ++ ':' :: (' ' :: v) := by
  rw [row_eq, show (t "  " ++ k) ++ ':' :: (' ' :: v) = ' ' :: ' ' :: (k ++ ':' :: (' ' :: v)) by rfl, lstrip_space rfl,
    lstrip_space rfl]
  obtain ⟨c, k', rfl⟩ := List.exists_cons_of_ne_nil (key_facts k hk).2.2.2.1
  rw [List.cons_append, lstrip_cons ((key_facts _ hk).1 c List.mem_cons_self)]

theorem lstrip_row_KL {k v : Text} (hk : k ∈ allKeywords) (hv : Stripped v) : KL (lstrip (row k v)) (k, v) :=
  ⟨k, ' ' :: v, lstrip_row hk, (key_facts k hk).2.1, (strip_key hk).2, strip_space rfl hv⟩

theorem rstrip_row_KL {k v : Text} (hk : k ∈ allKeywords) (hv : Stripped v) :
    KL (rstrip (row k v)) (k, v) ∧ rstrip (row k v) ≠ [] := by
  by_cases hne : v = []
  · subst hne
    have h : rstrip (row k []) = (t "  " ++ k) ++ [':'] := by
      rw [row_eq, show (t "  " ++ k) ++ [':', ' '] = ((t "  " ++ k) ++ [':']) ++ [' '] by simp, rstrip_space rfl,
        rstrip_snoc rfl]
    rw [h]
    refine ⟨⟨t "  " ++ k, [], rfl, ?_, (strip_key hk).1, rfl⟩, by simp⟩
    have h2 : ':' ∉ t "  " := by decide
    simp only [List.mem_append, not_or]
    exact ⟨h2, (key_facts k hk).2.1⟩
  · have h : rstrip (row k v) = row k v := by
      refine rstrip_stripped fun c hc => hv.2 c ?_
      rw [row, List.getLast?_append] at hc
      cases hg : v.getLast? with
      | none => exact absurd (List.getLast?_eq_none_iff.mp hg) hne
      | some d => rw [hg] at hc; exact hc
    rw [h]
    refine ⟨row_KL hk hv, ?_⟩
    rw [row_eq]
    simp

theorem forall₂_append {α β : Type} {R : α → β → Prop} {a c : List α} {b d : List β} (h1 : List.Forall₂ R a b)
    (h2 : List.Forall₂ R c d) : List.Forall₂ R (a ++ c) (b ++ d) := by
  induction h1 with
  | nil => exact h2
  | cons h _ ih => exact .cons h ih

theorem rows_KL {kvs : List (Text × Text)} (hk : ∀ p ∈ kvs, p.1 ∈ allKeywords ∧ Stripped p.2) :
    List.Forall₂ KL (kvs.map fun p => row p.1 p.2) kvs := by
  induction kvs with
  | nil => exact .nil
  | cons p kvs ih =>
    exact .cons (row_KL (hk p List.mem_cons_self).1 (hk p List.mem_cons_self).2)
      (ih fun q hq => hk q (List.mem_cons_of_mem _ hq))

/-- A block that begins with a name. -/
theorem named_block {name : Text} (hname : Clean name) (hne : name ≠ []) (kvs : List (Text × Text)) (k v : Text)
    (h : ∀ p ∈ kvs ++ [(k, v)], p.1 ∈ allKeywords ∧ Clean p.2) :
    ∃ ls, lines (strip (unlines (name :: (kvs ++ [(k, v)]).map fun p => row p.1 p.2))) = name :: ls ∧
      List.Forall₂ KL ls (kvs ++ [(k, v)]) := by
  obtain ⟨hk, hv⟩ := h (k, v) (by simp)
  obtain ⟨hr1, hr2⟩ := rstrip_row_KL hk hv.1
  have hf : lstrip name = name := lstrip_stripped hname.1
  refine ⟨(kvs.map fun p => row p.1 p.2) ++ [rstrip (row k v)], ?_, ?_⟩
  · rw [List.map_append, List.map_singleton, lines_block (by rw [hf]; exact hne) hr2, hf]
    intro l hl
    rcases List.mem_cons.mp hl with rfl | hl
    · exact hname.2.1
    · rcases List.mem_append.mp hl with hl | hl
      · obtain ⟨p, hp, rfl⟩ := List.mem_map.mp hl
        obtain ⟨h1, h2⟩ := h p (List.mem_append_left _ hp)
        exact row_no_newline h1 h2
      · rw [List.mem_singleton] at hl
        subst hl
        exact row_no_newline hk hv
  · refine forall₂_append (rows_KL fun p hp => ?_) (.cons hr1 .nil)
    obtain ⟨h1, h2⟩ := h p (List.mem_append_left _ hp)
    exact ⟨h1, h2.1⟩

/-! ### The parts -/

/-- A summary whose texts are clean. -/
def Header.Good (h : Header) : Prop := Clean h.description ∧ h.description ≠ [] ∧ Clean h.date ∧ Clean h.program

def SimInstr.Good (i : SimInstr) : Prop := Clean i.name ∧ i.name ≠ [] ∧ Clean i.file ∧ Clean i.source ∧ Clean i.parameters

def Simulation.Good (s : Simulation) : Prop :=
  Clean s.name ∧ s.name ≠ [] ∧ Clean s.format ∧ Clean s.url ∧ Clean s.creator ∧ Clean s.instrument ∧ Clean s.directory ∧
    ∀ p ∈ s.params, Clean p

/-- Data with the attributes of one of the four kinds. -/
def Datum.Good (d : Datum) : Prop :=
  d.keywords ∈ [keywords0, keywords0f, keywords1, keywords2] ∧
    (∀ k ∈ d.keywords, k ≠ t "Ncount" → ∃ v, d.attr k = some v ∧ Clean v) ∧
    d.attr (t "Ncount") = none ∧ ∀ k, k ∉ d.keywords → d.attr k = none

def SimFile.Good (s : SimFile) : Prop :=
  s.header.Good ∧ s.instrument.Good ∧ s.simulation.Good ∧ ∀ d ∈ s.data, d.Good

theorem mem_allKeywords {s : String} (h : t s ∈ allKeywords := by decide) : t s ∈ allKeywords := h

def Header.block (h : Header) : List Text := h.lines ++ [[]]

theorem header_rest {h : Header} : unlines h.block = unlines h.lines ++ ['\n'] := by
  rw [Header.block, unlines_append]
  rfl

theorem header_again {h : Header} (hg : h.Good) : parseHeader (unlines h.block) = .ok h := by
  obtain ⟨hd, hne, hdate, hprog⟩ := hg
  have hf : lstrip h.description = h.description := lstrip_stripped hd.1
  have hk1 : t "Date" ∈ allKeywords := by decide
  have hk2 : t "Program" ∈ allKeywords := by decide
  -- the last line
  have hlast : KL (rstrip (t "Program: " ++ h.program)) (t "Program", h.program) ∧
      rstrip (t "Program: " ++ h.program) ≠ [] := by
    by_cases hp : h.program = []
    · rw [hp, show rstrip (t "Program: " ++ []) = t "Program" ++ [':'] by decide]
      exact ⟨⟨t "Program", [], rfl, (key_facts _ hk2).2.1, (strip_key hk2).2, rfl⟩, by simp⟩
    · have hr : rstrip (t "Program: " ++ h.program) = t "Program: " ++ h.program := by
        refine rstrip_stripped fun c hc => hprog.1.2 c ?_
        rw [List.getLast?_append] at hc
        cases hg : h.program.getLast? with
        | none => exact absurd (List.getLast?_eq_none_iff.mp hg) hp
        | some d => rw [hg] at hc; exact hc
      rw [hr]
      exact ⟨⟨t "Program", ' ' :: h.program, rfl, (key_facts _ hk2).2.1, (strip_key hk2).2, strip_space rfl hprog.1⟩,
        by simp [t]⟩
  have hls : lines (strip (unlines h.block)) = [h.description, t "Date: " ++ h.date, rstrip (t "Program: " ++ h.program)] := by
    have hst : strip (unlines h.block) = strip (unlines h.lines) := by
      rw [header_rest, strip, lstrip_append (f := unlines h.lines), rstrip_space rfl, strip]
      rw [Header.lines, unlines, lstrip_append (by rw [hf]; exact hne), hf]
      simp
    rw [hst, Header.lines]
    have := lines_block (f := h.description) (mid := [t "Date: " ++ h.date]) (last := t "Program: " ++ h.program)
      (by rw [hf]; exact hne) hlast.2 (by
        have n1 : '\n' ∉ t "Date: " := by decide
        have n2 : '\n' ∉ t "Program: " := by decide
        have h1 := hd.2.1
        have h2 := hdate.2.1
        have h3 := hprog.2.1
        intro l hl
        simp only [List.cons_append, List.nil_append, List.mem_cons, List.not_mem_nil, or_false] at hl
        rcases hl with rfl | rfl | rfl
        · exact h1
        · simp only [List.mem_append, not_or]; exact ⟨n1, h2⟩
        · simp only [List.mem_append, not_or]; exact ⟨n2, h3⟩)
    rw [hf] at this
    exact this
  have hdl : KL (t "Date: " ++ h.date) (t "Date", h.date) :=
    ⟨t "Date", ' ' :: h.date, rfl, (key_facts _ hk1).2.1, (strip_key hk1).2, strip_space rfl hdate.1⟩
  have hread := readKeywords_eq (.cons hdl (.cons hlast.1 .nil))
  rw [parseHeader, hls]
  simp only
  simp only [List.map_cons, List.map_nil] at hread
  rw [hread]
  simp only [strip_stripped hd.1]

def SimInstr.rows (i : SimInstr) : List (Text × Text) :=
  [(t "File", i.file), (t "Source", i.source), (t "Parameters", i.parameters), (t "Trace_enabled", yesNo i.trace),
    (t "Default_main", yesNo i.dflt)]

theorem SimInstr.rows_good {i : SimInstr} (hg : i.Good) :
    ∀ p ∈ i.rows ++ [(t "Embedded_runtime", yesNo i.embed)], p.1 ∈ allKeywords ∧ Clean p.2 := by
  obtain ⟨_, _, h1, h2, h3⟩ := hg
  intro p hp
  simp only [SimInstr.rows, List.cons_append, List.nil_append, List.mem_cons, List.not_mem_nil, or_false] at hp
  rcases hp with rfl | rfl | rfl | rfl | rfl | rfl
  · exact ⟨by dsimp only; decide, h1⟩
  · exact ⟨by dsimp only; decide, h2⟩
  · exact ⟨by dsimp only; decide, h3⟩
  · exact ⟨by dsimp only; decide, clean_yesNo _⟩
  · exact ⟨by dsimp only; decide, clean_yesNo _⟩
  · exact ⟨by dsimp only; decide, clean_yesNo _⟩

theorem SimInstr.lines_eq (i : SimInstr) : i.lines = (t "begin instrument: " ++ i.name) ::
    (i.rows ++ [(t "Embedded_runtime", yesNo i.embed)]).map (fun p => row p.1 p.2) ++ [t "end instrument"] := rfl

theorem instr_again {i : SimInstr} (hg : i.Good) :
    parseInstr (unlines (i.name :: (i.rows ++ [(t "Embedded_runtime", yesNo i.embed)]).map fun p => row p.1 p.2)) = .ok i := by
  obtain ⟨ls, h1, h2⟩ := named_block hg.1 hg.2.1 i.rows _ _ (SimInstr.rows_good hg)
  have hr := readKeywords_eq h2
  have hlen : ls.length = 6 := h2.length_eq
  rw [parseInstr, h1]
  simp only [hlen, ne_eq, not_true_eq_false, if_false]
  simp only [SimInstr.rows, List.cons_append, List.nil_append, List.map_cons, List.map_nil] at hr
  rw [hr]
  simp only [strip_stripped hg.1.1, yesNo_yes]

def Simulation.rows (s : Simulation) : List (Text × Text) :=
  [(t "Format", s.format), (t "URL", s.url), (t "Creator", s.creator), (t "Instrument", s.instrument),
    (t "Ncount", strInt s.ncount), (t "Trace", yesNo s.trace), (t "Gravitation", yesNo s.gravitation),
    (t "Seed", strInt s.seed), (t "Directory", s.directory)]

def Simulation.all (s : Simulation) : List (Text × Text) := s.rows ++ s.params.map (Prod.mk (t "Param"))

theorem Simulation.all_good {s : Simulation} (hg : s.Good) : ∀ p ∈ s.all, p.1 ∈ allKeywords ∧ Clean p.2 := by
  obtain ⟨_, _, h1, h2, h3, h4, h5, h6⟩ := hg
  intro p hp
  rcases List.mem_append.mp hp with hp | hp
  · simp only [Simulation.rows, List.mem_cons, List.not_mem_nil, or_false] at hp
    rcases hp with rfl | rfl | rfl | rfl | rfl | rfl | rfl | rfl | rfl
    · exact ⟨by dsimp only; decide, h1⟩
    · exact ⟨by dsimp only; decide, h2⟩
    · exact ⟨by dsimp only; decide, h3⟩
    · exact ⟨by dsimp only; decide, h4⟩
    · exact ⟨by dsimp only; decide, clean_strInt _⟩
    · exact ⟨by dsimp only; decide, clean_yesNo _⟩
    · exact ⟨by dsimp only; decide, clean_yesNo _⟩
    · exact ⟨by dsimp only; decide, clean_strInt _⟩
    · exact ⟨by dsimp only; decide, h5⟩
  · obtain ⟨q, hq, rfl⟩ := List.mem_map.mp hp
    exact ⟨by dsimp only; decide, h6 q hq⟩

theorem Simulation.lines_eq (s : Simulation) : s.lines = (t "begin simulation: " ++ s.name) ::
    s.all.map (fun p => row p.1 p.2) ++ [t "end simulation"] := by
  rw [Simulation.all, List.map_append, List.map_map]
  rfl

theorem forall₂_take {α β : Type} {R : α → β → Prop} {a : List α} {b : List β} (h : List.Forall₂ R a b) (n : Nat) :
    List.Forall₂ R (a.take n) (b.take n) ∧ List.Forall₂ R (a.drop n) (b.drop n) := by
  induction h generalizing n with
  | nil => simp
  | cons h _ ih =>
    cases n with
    | zero => simp [*]
    | succ n => exact ⟨.cons h (ih n).1, (ih n).2⟩

theorem simulation_again {s : Simulation} (hg : s.Good) :
    parseSimulation (unlines (s.name :: s.all.map fun p => row p.1 p.2)) = .ok s := by
  have hne : s.all ≠ [] := by simp [Simulation.all, Simulation.rows]
  have hsplit : s.all = s.all.dropLast ++ [((s.all.getLast hne).1, (s.all.getLast hne).2)] := by
    exact (List.dropLast_append_getLast hne).symm
  have hall := Simulation.all_good hg
  rw [hsplit] at hall
  obtain ⟨ls, h1, h2⟩ := named_block hg.1 hg.2.1 _ _ _ hall
  rw [← hsplit] at h1 h2
  have hlen : ls.length = 9 + s.params.length := by
    rw [h2.length_eq, Simulation.all, List.length_append, List.length_map]
    rfl
  obtain ⟨h3, h4⟩ := forall₂_take h2 9
  have ht : s.all.take 9 = s.rows := by
    rw [Simulation.all, show (9 : Nat) = s.rows.length by rfl, List.take_left]
  have hd : s.all.drop 9 = s.params.map (Prod.mk (t "Param")) := by
    rw [Simulation.all, show (9 : Nat) = s.rows.length by rfl, List.drop_left]
  rw [ht] at h3
  rw [hd] at h4
  have hr := readKeywords_eq h3
  have hp : (ls.drop 9).map (fun l => strip (partition [':'] l).2) = s.params := by
    generalize ls.drop 9 = m at h4
    generalize s.params = ps at h4
    induction ps generalizing m with
    | nil => cases h4; rfl
    | cons p ps ih =>
      rw [List.map_cons] at h4
      cases h4 with
      | cons h h' => rw [List.map_cons, h.read.2, ih _ h']
  rw [parseSimulation, h1]
  simp only [hlen]
  rw [if_neg (by omega)]
  simp only [Simulation.rows, List.map_cons, List.map_nil] at hr
  rw [hr]
  simp only [parseInt_strInt, strip_stripped hg.1.1, yesNo_yes, hp]

/-! ### Data -/

/-- The text of an attribute. -/
def Datum.val (d : Datum) (k : Text) : Text := if k = t "Ncount" then strInt d.ncount else (d.attr k).getD []

def Datum.rows (d : Datum) : List (Text × Text) := d.keywords.map fun k => (k, d.val k)

theorem keywords_known : ∀ ks ∈ [keywords0, keywords0f, keywords1, keywords2], (∀ k ∈ ks, k ∈ allKeywords) ∧ ks.Nodup ∧
    t "Ncount" ∈ ks ∧ 2 ≤ ks.length ∧ keywordsFor ks.length = some ks := by decide +kernel

theorem Datum.val_clean {d : Datum} (hg : d.Good) {k : Text} (hk : k ∈ d.keywords) : Clean (d.val k) := by
  rw [Datum.val]
  split_ifs with h
  · exact clean_strInt _
  · obtain ⟨v, hv, hc⟩ := hg.2.1 k hk h
    rw [hv]
    exact hc

theorem Datum.lines_eq {d : Datum} (hg : d.Good) :
    d.lines = [t "begin data"] ++ d.rows.map (fun p => row p.1 p.2) ++ [t "end data"] := by
  rw [Datum.lines, Datum.rows, List.map_map]
  congr 2
  have h := hg.2.1
  generalize d.keywords = ks at h
  induction ks with
  | nil => rfl
  | cons k ks ih =>
    rw [List.map_cons, List.filterMap_cons_some, ih fun x hx => h x (List.mem_cons_of_mem _ hx)]
    rw [Datum.keyLine]
    simp only [Function.comp, Datum.val]
    split_ifs with hk
    · rfl
    · obtain ⟨v, hv, _⟩ := h k List.mem_cons_self hk
      rw [hv]
      rfl

theorem Datum.rows_good {d : Datum} (hg : d.Good) : ∀ p ∈ d.rows, p.1 ∈ allKeywords ∧ Clean p.2 := by
  intro p hp
  obtain ⟨k, hk, rfl⟩ := List.mem_map.mp hp
  exact ⟨(keywords_known _ hg.1).1 k hk, d.val_clean hg hk⟩

theorem lookup_map_key (f : Text → Text) (l : List Text) (n : Text) :
    (l.map fun k => (k, f k)).lookup n = if n ∈ l then some (f n) else none := by
  induction l with
  | nil => rfl
  | cons k l ih =>
    rw [List.map_cons, List.lookup]
    by_cases h : n = k
    · subst h
      simp
    · rw [beq_false_of_ne h]
      simp only [ih, List.mem_cons, h, false_or]

theorem zip_map_map {d : Datum} : (d.rows.map (·.1)).zip (d.rows.map (·.2)) = d.keywords.map fun k => (k, d.val k) := by
  rw [List.zip_map', Datum.rows]
  simp

/-- The text between the marks of data. -/
theorem datum_again {d : Datum} (hg : d.Good) :
    strip ('\n' :: unlines (d.rows.map fun p => row p.1 p.2)) ≠ [] ∧
      parseDatum (strip (strip ('\n' :: unlines (d.rows.map fun p => row p.1 p.2)))) = .ok d := by
  obtain ⟨hk1, hk2, hk3, hk4, hk5⟩ := keywords_known _ hg.1
  have hlen : 2 ≤ d.rows.length := by rw [Datum.rows, List.length_map]; exact hk4
  obtain ⟨p, q, mid, hrows⟩ : ∃ p q mid, d.rows = p :: (mid ++ [q]) := by
    match hd : d.rows, hlen with
    | a :: b :: l, _ =>
      exact ⟨a, (b :: l).getLast (by simp), (b :: l).dropLast, by rw [List.dropLast_append_getLast]⟩
  have hgood := d.rows_good hg
  have hp := hgood p (by rw [hrows]; simp)
  have hq := hgood q (by rw [hrows]; simp)
  have hlst : lstrip (row p.1 p.2) ≠ [] := by rw [lstrip_row hp.1]; simp
  have hrst := rstrip_row_KL hq.1 hq.2.1
  have hbase : strip ('\n' :: unlines (d.rows.map fun p => row p.1 p.2)) =
      strip (unlines (d.rows.map fun p => row p.1 p.2)) := by
    rw [strip, lstrip_space rfl, strip]
  have hls : lines (strip (unlines (d.rows.map fun p => row p.1 p.2))) =
      lstrip (row p.1 p.2) :: (mid.map (fun p => row p.1 p.2) ++ [rstrip (row q.1 q.2)]) := by
    rw [hrows, List.map_cons, List.map_append, List.map_singleton, lines_block hlst hrst.2]
    intro l hl
    have : l ∈ d.rows.map fun p => row p.1 p.2 := by
      rw [hrows, List.map_cons, List.map_append, List.map_singleton]
      exact hl
    obtain ⟨x, hx, rfl⟩ := List.mem_map.mp this
    obtain ⟨h1, h2⟩ := hgood x hx
    exact row_no_newline h1 h2
  have hKL : List.Forall₂ KL (lstrip (row p.1 p.2) :: (mid.map (fun p => row p.1 p.2) ++ [rstrip (row q.1 q.2)])) d.rows := by
    rw [hrows]
    refine .cons (lstrip_row_KL hp.1 hp.2.1) (forall₂_append (rows_KL fun x hx => ?_) (.cons hrst.1 .nil))
    obtain ⟨h1, h2⟩ := hgood x (by rw [hrows]; simp [hx])
    exact ⟨h1, h2.1⟩
  have hr := readKeywords_eq hKL
  have hkeys : d.rows.map (·.1) = d.keywords := by
    rw [Datum.rows, List.map_map]
    exact List.map_id _
  rw [hkeys] at hr
  refine ⟨?_, ?_⟩
  · rw [hbase]
    intro hnil
    rw [hnil] at hls
    have := congrArg List.length hls
    simp only [lines, List.splitOn_nil, List.length_cons, List.length_nil, List.length_append] at this
    omega
  · rw [strip_strip, hbase, parseDatum, strip_strip]
    have hn : (lines (strip (unlines (d.rows.map fun p => row p.1 p.2)))).length = d.keywords.length := by
      rw [hls, hKL.length_eq, Datum.rows, List.length_map]
    rw [hn, hk5]
    simp only
    rw [hls, hr]
    simp only
    have hz : d.keywords.zip (d.rows.map (·.2)) = d.keywords.map fun k => (k, d.val k) := by
      rw [← zip_map_map, hkeys]
    rw [hz, lookup_map_key, if_pos hk3]
    simp only
    rw [Datum.val, if_pos rfl, parseInt_strInt]
    simp only [Except.ok.injEq]
    have hattr : (fun k => if k = t "Ncount" then none else
        (d.keywords.map fun k => (k, d.val k)).lookup k) = d.attr := by
      funext k
      split_ifs with h
      · rw [h]
        exact hg.2.2.1.symm
      · rw [lookup_map_key]
        split_ifs with hm
        · obtain ⟨v, hv, _⟩ := hg.2.1 k hm h
          rw [Datum.val, if_neg h, hv]
          rfl
        · exact (hg.2.2.2 k hm).symm
    rw [hattr]

/-- What follows the mark `end simulation` or `end data`. -/
def tail (data : List Datum) : Text := '\n' :: '\n' :: unlines (data.flatMap fun d => d.lines ++ [[]])

theorem tail_nil : tail [] = ['\n', '\n'] := rfl

theorem tail_cons (d : Datum) (hg : d.Good) (data : List Datum) :
    tail (d :: data) = unlines ([[], [], t "begin data"] ++ d.rows.map fun p => row p.1 p.2) ++ (t "end data" ++ tail data) := by
  rw [tail, List.flatMap_cons, d.lines_eq hg]
  simp only [unlines_append, unlines, tail]
  simp

theorem dataParts_eq : ∀ (data : List Datum) (n : Nat), (∀ d ∈ data, d.Good) → data.length < n →
    dataParts n (tail data) = data.map fun d => strip ('\n' :: unlines (d.rows.map fun p => row p.1 p.2))
  | [], n + 1, _, _ => by
    rw [tail_nil, dataParts, if_neg (by simp)]
    have h1 : partition (t "end data") ['\n', '\n'] = (['\n', '\n'], []) := by decide
    have h2 : partition (t "begin data") ['\n', '\n'] = (['\n', '\n'], []) := by decide
    simp only [h1, h2]
    rw [show strip [] = [] from rfl, if_pos rfl]
    cases n <;> simp [dataParts]
  | d :: data, n + 1, hg, hn => by
    have hd := hg d List.mem_cons_self
    have hmark : t "end data" ∈ markers := by decide
    have hb : t "begin data" ∈ markers := by decide
    have h1 : partition (t "end data") (tail (d :: data)) =
        (unlines ([[], [], t "begin data"] ++ d.rows.map fun p => row p.1 p.2), tail data) := by
      rw [tail_cons d hd]
      refine partition_lines (by decide) (by decide) ?_ _
      intro l hl
      rcases List.mem_append.mp hl with hl | hl
      · have : ∀ l ∈ [[], [], t "begin data"], ¬ t "end data" <:+: l := by decide
        exact this l hl
      · obtain ⟨p, hp, rfl⟩ := List.mem_map.mp hl
        obtain ⟨hk, hv⟩ := d.rows_good hd p hp
        exact row_no_mark hk hv hmark
    have h2 : partition (t "begin data") (unlines ([[], [], t "begin data"] ++ d.rows.map fun p => row p.1 p.2)) =
        (unlines [[], []], '\n' :: unlines (d.rows.map fun p => row p.1 p.2)) := by
      have : unlines ([[], [], t "begin data"] ++ d.rows.map fun p => row p.1 p.2) =
          unlines [[], []] ++ (t "begin data" ++ '\n' :: unlines (d.rows.map fun p => row p.1 p.2)) := by
        rw [unlines_append]
        simp [unlines]
      rw [this]
      exact partition_lines (by decide) (by decide) (by decide) _
    rw [dataParts, if_neg (by simp [tail])]
    simp only [h1, h2]
    rw [if_neg (datum_again hd).1, List.map_cons,
      dataParts_eq data n (fun x hx => hg x (List.mem_cons_of_mem _ hx)) (by simpa using hn)]

theorem mapM_eq : ∀ data : List Datum, (∀ d ∈ data, d.Good) →
    mapM (fun d => parseDatum (strip d))
      (data.map fun d => strip ('\n' :: unlines (d.rows.map fun p => row p.1 p.2))) = .ok data
  | [], _ => rfl
  | d :: data, hg => by
    rw [List.map_cons, mapM, (datum_again (hg d List.mem_cons_self)).2]
    simp only
    rw [mapM_eq data fun x hx => hg x (List.mem_cons_of_mem _ hx)]

theorem flatMap_length (data : List Datum) : data.length ≤ (unlines (data.flatMap fun d => d.lines ++ [[]])).length := by
  induction data with
  | nil => simp
  | cons d data ih =>
    rw [List.flatMap_cons, unlines_append, List.length_append, unlines_append, List.length_append, List.length_cons]
    have : (unlines [[]]).length = 1 := rfl
    omega

/-- C44: what is written for a summary with clean texts is read as the same summary. -/
theorem summary_again_partial (s : SimFile) (hg : s.Good) : parse s.text = .ok s := by
  obtain ⟨hh, hi, hs, hd⟩ := hg
  -- the text
  have htext : s.text = unlines s.header.block ++ (t "begin instrument: " ++
      (unlines ((s.instrument.name :: (s.instrument.rows ++ [(t "Embedded_runtime", yesNo s.instrument.embed)]).map
          (fun p => row p.1 p.2)) ++ [t "end instrument", []]) ++
        (t "begin simulation: " ++ (unlines (s.simulation.name :: s.simulation.all.map fun p => row p.1 p.2) ++
          (t "end simulation" ++ tail s.data))))) := by
    rw [SimFile.text, SimFile.lines, SimInstr.lines_eq, Simulation.lines_eq, Header.block]
    simp only [unlines_append, unlines, tail, List.append_assoc, List.cons_append, List.nil_append]
  -- the first mark
  have h1 : ∀ b, partition (t "begin instrument: ") (unlines s.header.block ++ (t "begin instrument: " ++ b)) =
      (unlines s.header.block, b) := by
    intro b
    refine partition_lines (by decide) (by decide) ?_ _
    have hmark : t "begin instrument: " ∈ markers := by decide
    have k1 : t "Date" ∈ allKeywords := by decide
    have k2 : t "Program" ∈ allKeywords := by decide
    intro l hl
    simp only [Header.block, Header.lines, List.cons_append, List.nil_append, List.mem_cons, List.not_mem_nil,
      or_false] at hl
    rcases hl with rfl | rfl | rfl | rfl
    · exact hh.1.2.2 _ hmark
    · exact fun h => hh.2.2.1.2.2 _ hmark (infix_append_of_noStraddle ((key_facts _ k1).2.2.2.2 _ hmark).2 h)
    · exact fun h => hh.2.2.2.2.2 _ hmark (infix_append_of_noStraddle ((key_facts _ k2).2.2.2.2 _ hmark).2 h)
    · decide
  -- the rows of the instrument have no mark
  have hrows : ∀ m ∈ markers, ∀ l ∈ s.instrument.name :: (s.instrument.rows ++
      [(t "Embedded_runtime", yesNo s.instrument.embed)]).map (fun p => row p.1 p.2), ¬ m <:+: l := by
    intro m hm l hl
    rcases List.mem_cons.mp hl with rfl | hl
    · exact hi.1.2.2 m hm
    · obtain ⟨p, hp, rfl⟩ := List.mem_map.mp hl
      obtain ⟨h1, h2⟩ := SimInstr.rows_good hi p hp
      exact row_no_mark h1 h2 hm
  have h2 : ∀ b, partition (t "begin simulation: ")
      (unlines ((s.instrument.name :: (s.instrument.rows ++ [(t "Embedded_runtime", yesNo s.instrument.embed)]).map
          (fun p => row p.1 p.2)) ++ [t "end instrument", []]) ++ (t "begin simulation: " ++ b)) =
      (unlines ((s.instrument.name :: (s.instrument.rows ++ [(t "Embedded_runtime", yesNo s.instrument.embed)]).map
          (fun p => row p.1 p.2)) ++ [t "end instrument", []]), b) := by
    intro b
    refine partition_lines (by decide) (by decide) ?_ _
    intro l hl
    rcases List.mem_append.mp hl with hl | hl
    · exact hrows _ (by decide) l hl
    · have : ∀ l ∈ [t "end instrument", []], ¬ t "begin simulation: " <:+: l := by decide
      exact this l hl
  have h3 : (partition (t "end instrument")
      (unlines ((s.instrument.name :: (s.instrument.rows ++ [(t "Embedded_runtime", yesNo s.instrument.embed)]).map
          (fun p => row p.1 p.2)) ++ [t "end instrument", []]))).1 =
      unlines (s.instrument.name :: (s.instrument.rows ++ [(t "Embedded_runtime", yesNo s.instrument.embed)]).map
          (fun p => row p.1 p.2)) := by
    rw [unlines_append, show unlines [t "end instrument", []] = t "end instrument" ++ ['\n', '\n'] by rfl,
      partition_lines (by decide) (by decide) (hrows _ (by decide))]
  have h4 : partition (t "end simulation") (unlines (s.simulation.name :: s.simulation.all.map fun p => row p.1 p.2) ++
      (t "end simulation" ++ tail s.data)) =
      (unlines (s.simulation.name :: s.simulation.all.map fun p => row p.1 p.2), tail s.data) := by
    refine partition_lines (by decide) (by decide) ?_ _
    intro l hl
    rcases List.mem_cons.mp hl with rfl | hl
    · exact hs.1.2.2 _ (by decide)
    · obtain ⟨p, hp, rfl⟩ := List.mem_map.mp hl
      obtain ⟨h1, h2⟩ := Simulation.all_good hs p hp
      exact row_no_mark h1 h2 (by decide)
  have h5 : dataParts ((tail s.data).length + 1) (tail s.data) = _ := dataParts_eq s.data _ hd (by
    have := flatMap_length s.data
    simp only [tail, List.length_cons]
    omega)
  rw [parse, htext]
  simp only [h1, h2, h3, h4, h5]
  rw [header_again hh]
  simp only
  rw [instr_again hi]
  simp only
  rw [simulation_again hs]
  simp only
  rw [mapM_eq s.data hd]

end Verif.Loader
