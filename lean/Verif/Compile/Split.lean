import Verif.Compile.Target
import Verif.Loader.DatProps

/-!
C48: model of the splitting of flags and of the commands, src/mccode_antlr/compiler/c.py 94-173, and of the set of flags,
src/mccode_antlr/instr/instr.py 289-297. The flags of the instrument are those of `decoded_flags` (see `Depend`). White space
is that of ASCII.
-/

namespace Verif.Compile

open Verif.Loader (Text t words strip isSpace startsWith)

/-- The two groups of flags. -/
structure Groups where
  compile : List Text
  link : List Text
  deriving DecidableEq, Repr

/-- `linux_split_flags` (94-107). -/
def linuxSplit (flags : List Text) (s : Target) (c : Config) : Groups :=
  let compile := s.flags c ++ s.extraFlags c
  let link := s.linkerFlags c ++ flags.flatMap words
  if (∃ w ∈ compile, t "OPENACC" <:+: w) ∧ (∃ w ∈ compile, t "NeXus" <:+: w) then
    { compile := compile ++ [t "-D__GNUC__"], link }
  else { compile, link }

/-- The entries of `cl_flags` (117-122): the beginning, what is not taken, what has to be there, and whether `=` is replaced. -/
structure Entry where
  key : Text
  excluded : Option Text
  has : Option Text
  replace : Option (Char × Char)

def clFlags : List Entry :=
  [⟨t "D", some (t "/DYNAMICBASE"), none, none⟩, ⟨t "U", none, none, none⟩, ⟨t "p", none, some (t "="), none⟩,
    ⟨t "std", none, some (t "="), some ('=', ':')⟩]

/-- `flag.replace(a, b)` for single characters (134). -/
def replaceChar (p : Char × Char) (s : Text) : Text := s.map fun c => if c = p.1 then p.2 else c

/-- `s.lower()` for ASCII. -/
def lower (s : Text) : Text := s.map Char.toLower

/-- One flag of the instrument (124-141). -/
def windowsStep (g : Groups) (flag : Text) : Groups :=
  let flag := strip flag
  if !startsWith (t "/") flag && !startsWith (t "-") flag then { g with link := g.link ++ [flag] }
  else
    match clFlags.find? fun e => startsWith e.key (flag.drop 1) with
    | some e =>
      if e.excluded = some flag ∨ (∃ h, e.has = some h ∧ ¬ h <:+: flag) then { g with link := g.link ++ [flag] }
      else
        match e.replace with
        | some p => { g with compile := g.compile ++ [replaceChar p flag] }
        | none => { g with compile := g.compile ++ [flag] }
    | none =>
      if startsWith (t "l") (lower (flag.drop 1)) || (t ".lib").isSuffixOf (lower flag) then { g with link := g.link ++ [flag] }
      else { g with link := g.link ++ [flag] }

/-- `windows_split_flags` (110-143). -/
def windowsSplit (flags : List Text) (s : Target) (c : Config) : Groups :=
  flags.foldl windowsStep { compile := s.flags c ++ s.extraFlags c, link := s.linkerFlags c }

/-- `linux_compile` (146-150): the command, given the name of the result. -/
def linuxCommand (compiler target : Text) (g : Groups) : List Text :=
  [compiler] ++ g.compile ++ [t "-o", target, t "-"] ++ g.link

/-- `windows_compile` (154-173): the command, given the names of the source and of the result. -/
def windowsCommand (compiler source target : Text) (g : Groups) : List Text :=
  [compiler] ++ g.compile ++ [source, t "/W0"] ++ (if t "/link" ∈ g.link then g.link else t "/link" :: g.link) ++
    [t "/out:" ++ target]

/-- `unique_flags` (290-297) is a set: its elements come in some order, each once. -/
def IsUniqueFlags (flags : List Text) (cpu : Bool) (l : List Text) : Prop :=
  l.Nodup ∧ ∀ x, x ∈ l ↔ x ∈ flags ∨ (cpu = true ∧ x = t "-DFUNNEL")

/-! ### Linux -/

/-- On Linux the options of the compiler come before the source `-`, and what is linked after it: a library is searched for
symbols the source needs. -/
theorem linux_link_after_source (compiler target : Text) (g : Groups) : ∃ a b, linuxCommand compiler target g = a ++ [t "-"] ++ b ∧
    a = compiler :: (g.compile ++ [t "-o", target]) ∧ b = g.link :=
  ⟨_, _, by simp [linuxCommand], rfl, rfl⟩

theorem words_flatten (s : Text) : (words s).flatten = s.filter (fun c => !isSpace c) := by
  have h : ∀ l : List Text, (l.filter (· ≠ [])).flatten = l.flatten := by
    intro l
    induction l with
    | nil => rfl
    | cons x l ih =>
      by_cases hx : x = []
      · rw [List.filter_cons_of_neg (by simpa using hx), ih, hx]
        rfl
      · rw [List.filter_cons_of_pos (by simpa using hx), List.flatten_cons, List.flatten_cons, ih]
  rw [words, h]
  induction s with
  | nil => simp
  | cons c s ih =>
    rw [List.splitOnP_cons_eq_if_modifyHead]
    split_ifs with hc
    · simp [hc, ih]
    · obtain ⟨x, xs, hx⟩ := List.exists_cons_of_ne_nil (List.splitOnP_ne_nil isSpace s)
      rw [hx] at ih ⊢
      simp only [List.modifyHead_cons, List.flatten_cons, List.cons_append]
      rw [List.flatten_cons] at ih
      simp [hc, ih]

theorem splitOnP_plain (p : Char → Bool) (s : Text) : ∀ w ∈ s.splitOnP p, ∀ c ∈ w, p c = false := by
  induction s with
  | nil => simp
  | cons x s ih =>
    rw [List.splitOnP_cons_eq_if_modifyHead]
    split_ifs with hx
    · intro w hw
      rcases List.mem_cons.mp hw with rfl | hw
      · simp
      · exact ih w hw
    · obtain ⟨y, ys, hy⟩ := List.exists_cons_of_ne_nil (List.splitOnP_ne_nil p s)
      rw [hy] at ih ⊢
      intro w hw
      rw [List.modifyHead_cons] at hw
      rcases List.mem_cons.mp hw with rfl | hw
      · intro c hc
        rcases List.mem_cons.mp hc with rfl | hc
        · simpa using hx
        · exact ih y List.mem_cons_self c hc
      · exact ih w (List.mem_cons_of_mem _ hw)

theorem words_plain (s : Text) : ∀ w ∈ words s, w ≠ [] ∧ ∀ c ∈ w, isSpace c = false := by
  intro w hw
  rw [words, List.mem_filter] at hw
  exact ⟨by simpa using hw.2, splitOnP_plain _ _ _ hw.1⟩

/-- C48 on Linux: the flags of the instrument are all given to the linker, after those of the configuration, in order and
without loss other than of white space; the compiler gets the flags of the target, whatever the instrument. -/
theorem linux_groups (flags : List Text) (s : Target) (c : Config) :
    ∃ l : List Text, (linuxSplit flags s c).link = s.linkerFlags c ++ l ∧
      l.flatten = flags.flatten.filter (fun c => !isSpace c) ∧ (∀ w ∈ l, w ≠ [] ∧ ∀ c ∈ w, isSpace c = false) ∧
      (s.flags c ++ s.extraFlags c) <+: (linuxSplit flags s c).compile ∧
      (linuxSplit flags s c).compile = (linuxSplit [] s c).compile := by
  refine ⟨flags.flatMap words, ?_, ?_, ?_, ?_, ?_⟩
  · rw [linuxSplit]
    split_ifs <;> rfl
  · induction flags with
    | nil => rfl
    | cons x l ih => rw [List.flatMap_cons, List.flatten_append, words_flatten, ih, List.flatten_cons, List.filter_append]
  · intro w hw
    obtain ⟨x, _, hx⟩ := List.mem_flatMap.mp hw
    exact words_plain x w hx
  · rw [linuxSplit]
    split_ifs
    · exact List.prefix_append _ _
    · exact List.prefix_refl _
  · rw [linuxSplit, linuxSplit]
    split_ifs <;> rfl

/-- A flag without blanks is one argument. -/
theorem linux_flag_kept (flags : List Text) (s : Target) (c : Config)
    (h : ∀ f ∈ flags, f ≠ [] ∧ ∀ c ∈ f, isSpace c = false) : (linuxSplit flags s c).link = s.linkerFlags c ++ flags := by
  have hw : flags.flatMap words = flags := by
    induction flags with
    | nil => rfl
    | cons x l ih =>
      obtain ⟨h1, h2⟩ := h x List.mem_cons_self
      rw [List.flatMap_cons, ih fun f hf => h f (List.mem_cons_of_mem _ hf), words, List.splitOnP_eq_singleton h2,
        List.filter_cons_of_pos (by simpa using h1)]
      rfl
  rw [linuxSplit]
  simp only [hw]
  split_ifs <;> rfl

/-- A quoted argument with a blank is broken in two. -/
theorem quoted_blank_broken (s : Target) (c : Config) :
    (linuxSplit [t "-DTITLE='a b'"] s c).link = s.linkerFlags c ++ [t "-DTITLE='a", t "b'"] := by
  have : [t "-DTITLE='a b'"].flatMap words = [t "-DTITLE='a", t "b'"] := by decide +kernel
  rw [linuxSplit]
  simp only [this]
  split_ifs <;> rfl

/-! ### Windows -/

/-- The flags for the compiler: those that begin with `/D` or `-D` other than `/DYNAMICBASE`, with `/U` or `-U`, and those that
begin with `/p`, `-p`, `/std` or `-std` and have an equals sign. -/
def ForCompiler (f : Text) : Prop :=
  ∃ c r, f = c :: r ∧ (c = '/' ∨ c = '-') ∧
    ((t "D" <+: r ∧ f ≠ t "/DYNAMICBASE") ∨ t "U" <+: r ∨ (t "p" <+: r ∧ '=' ∈ f) ∨ (t "std" <+: r ∧ '=' ∈ f))

/-- What the compiler gets for a flag: the language standard is given with a colon. -/
def forCl (f : Text) : Text := if t "std" <+: f.drop 1 then f.map (fun c => if c = '=' then ':' else c) else f

open Classical in
theorem windowsStep_eq (g : Groups) (flag : Text) : windowsStep g flag =
    if ForCompiler (strip flag) then { g with compile := g.compile ++ [forCl (strip flag)] }
    else { g with link := g.link ++ [strip flag] } := by
  rw [windowsStep]
  generalize strip flag = f
  cases f with
  | nil =>
    have h : ¬ ForCompiler [] := by
      rintro ⟨c, r, h, _⟩
      cases h
    rw [if_neg h, if_pos (by decide)]
  | cons c r =>
    by_cases hc : c = '/' ∨ c = '-'
    · have h1 : (!startsWith (t "/") (c :: r) && !startsWith (t "-") (c :: r)) = false := by
        rcases hc with rfl | rfl <;> simp [startsWith, t]
      rw [if_neg (by rw [h1]; decide)]
      cases r with
      | nil =>
        have h : ¬ ForCompiler [c] := by
          rintro ⟨c', r, h, _, h'⟩
          cases h
          simp [t] at h'
        rw [if_neg h]
        simp [clFlags, startsWith, t]
      | cons d r =>
        have hs : ∀ k : Char, startsWith [k] (d :: r) = decide (k = d) := by
          intro k
          rw [Bool.eq_iff_iff]
          simp [startsWith, List.isPrefixOf]
        have hp : ∀ k : Char, [k] <+: d :: r ↔ k = d := by
          intro k
          simp [List.cons_prefix_cons]
        by_cases hD : d = 'D'
        · subst hD
          have hf : (clFlags.find? fun e => startsWith e.key (List.drop 1 (c :: 'D' :: r))) =
              some ⟨t "D", some (t "/DYNAMICBASE"), none, none⟩ := by
            simp [clFlags, startsWith, t, List.isPrefixOf]
          rw [hf]
          simp only [reduceCtorEq, false_and, exists_false, or_false, Option.some.injEq]
          have hfc : ForCompiler (c :: 'D' :: r) ↔ t "/DYNAMICBASE" ≠ c :: 'D' :: r := by
            constructor
            · rintro ⟨c', r', h, _, h'⟩
              cases h
              rcases h' with h' | h' | h' | h'
              · exact Ne.symm h'.2
              · exact absurd h' (by simp [t])
              · exact absurd h'.1 (by simp [t])
              · exact absurd h'.1 (by simp [t])
            · intro hne
              exact ⟨_, _, rfl, hc, Or.inl ⟨by simp [t], Ne.symm hne⟩⟩
          have hcl : forCl (c :: 'D' :: r) = c :: 'D' :: r := by
            rw [forCl, if_neg (by simp [t])]
          simp only [hfc, hcl, ne_eq, ite_not]
        · by_cases hU : d = 'U'
          · subst hU
            have hf : (clFlags.find? fun e => startsWith e.key (List.drop 1 (c :: 'U' :: r))) =
                some ⟨t "U", none, none, none⟩ := by
              simp [clFlags, startsWith, t, List.isPrefixOf]
            rw [hf]
            have hfc : ForCompiler (c :: 'U' :: r) := ⟨_, _, rfl, hc, Or.inr (Or.inl (by simp [t]))⟩
            have hcl : forCl (c :: 'U' :: r) = c :: 'U' :: r := by
              rw [forCl, if_neg (by simp [t])]
            rw [if_pos hfc, hcl]
            simp
          · by_cases hp' : d = 'p'
            · subst hp'
              have hf : (clFlags.find? fun e => startsWith e.key (List.drop 1 (c :: 'p' :: r))) =
                  some ⟨t "p", none, some (t "="), none⟩ := by
                simp [clFlags, startsWith, t, List.isPrefixOf]
              rw [hf]
              have hfc : ForCompiler (c :: 'p' :: r) ↔ '=' ∈ c :: 'p' :: r := by
                constructor
                · rintro ⟨c', r', h, _, h'⟩
                  cases h
                  rcases h' with h' | h' | h' | h'
                  · exact absurd h'.1 (by simp [t])
                  · exact absurd h' (by simp [t])
                  · exact h'.2
                  · exact h'.2
                · exact fun h => ⟨_, _, rfl, hc, Or.inr (Or.inr (Or.inl ⟨by simp [t], h⟩))⟩
              have hcl : forCl (c :: 'p' :: r) = c :: 'p' :: r := by
                rw [forCl, if_neg (by simp [t])]
              have he : (t "=" <:+: c :: 'p' :: r) ↔ '=' ∈ c :: 'p' :: r := List.singleton_infix_iff _ _
              simp only [hfc, hcl, reduceCtorEq, Option.some.injEq, false_or, exists_eq_left', he]
              simp only [ite_not]
            · by_cases hstd : t "std" <+: d :: r
              · have hd : d = 's' := by
                  have := (List.cons_prefix_cons.mp hstd).1
                  exact this.symm
                have hf : (clFlags.find? fun e => startsWith e.key (List.drop 1 (c :: d :: r))) =
                    some ⟨t "std", none, some (t "="), some ('=', ':')⟩ := by
                  have h4 : startsWith (t "std") (d :: r) = true := List.isPrefixOf_iff_prefix.mpr hstd
                  simp only [List.drop_succ_cons, List.drop_zero]
                  rw [clFlags, List.find?_cons_of_neg, List.find?_cons_of_neg, List.find?_cons_of_neg, List.find?_cons_of_pos]
                  · exact h4
                  · rw [show t "p" = ['p'] from rfl, hs]; simp [hd]
                  · rw [show t "U" = ['U'] from rfl, hs]; simp [hd]
                  · rw [show t "D" = ['D'] from rfl, hs]; simp [hd]
                rw [hf]
                have hfc : ForCompiler (c :: d :: r) ↔ '=' ∈ c :: d :: r := by
                  constructor
                  · rintro ⟨c', r', h, _, h'⟩
                    cases h
                    rcases h' with h' | h' | h' | h'
                    · exact absurd ((hp 'D').mp h'.1) (by simp [hd])
                    · exact absurd ((hp 'U').mp h') (by simp [hd])
                    · exact h'.2
                    · exact h'.2
                  · exact fun h => ⟨_, _, rfl, hc, Or.inr (Or.inr (Or.inr ⟨hstd, h⟩))⟩
                have hcl : forCl (c :: d :: r) = replaceChar ('=', ':') (c :: d :: r) := by
                  rw [forCl, if_pos (by simpa using hstd), replaceChar]
                have he : (t "=" <:+: c :: d :: r) ↔ '=' ∈ c :: d :: r := List.singleton_infix_iff _ _
                simp only [hfc, hcl, reduceCtorEq, Option.some.injEq, false_or, exists_eq_left', he]
                simp only [ite_not]
              · have hf : (clFlags.find? fun e => startsWith e.key (List.drop 1 (c :: d :: r))) = none := by
                  have h4 : startsWith (t "std") (d :: r) = false := by
                    rw [← Bool.not_eq_true]
                    exact fun h => hstd (List.isPrefixOf_iff_prefix.mp h)
                  simp only [List.drop_succ_cons, List.drop_zero]
                  rw [clFlags, List.find?_cons_of_neg, List.find?_cons_of_neg, List.find?_cons_of_neg, List.find?_cons_of_neg,
                    List.find?_nil]
                  · simp [h4]
                  · rw [show t "p" = ['p'] from rfl, hs]; simpa using Ne.symm hp'
                  · rw [show t "U" = ['U'] from rfl, hs]; simpa using Ne.symm hU
                  · rw [show t "D" = ['D'] from rfl, hs]; simpa using Ne.symm hD
                rw [hf]
                have hfc : ¬ ForCompiler (c :: d :: r) := by
                  rintro ⟨c', r', h, _, h'⟩
                  cases h
                  rcases h' with h' | h' | h' | h'
                  · exact hD ((hp 'D').mp h'.1).symm
                  · exact hU ((hp 'U').mp h').symm
                  · exact hp' ((hp 'p').mp h'.1).symm
                  · exact hstd h'.1
                rw [if_neg hfc]
                simp
    · have h : ¬ ForCompiler (c :: r) := by
        rintro ⟨c', r', h, h', _⟩
        cases h
        exact hc h'
      have h1 : (!startsWith (t "/") (c :: r) && !startsWith (t "-") (c :: r)) = true := by
        rw [not_or] at hc
        simp [startsWith, t, List.isPrefixOf, Ne.symm hc.1, Ne.symm hc.2]
      rw [if_neg h, if_pos h1]

open Classical in
/-- C48 on Windows: each flag of the instrument, without white space at its ends, is given to the compiler or to the linker,
in order, after the flags of the target. -/
theorem windows_groups (flags : List Text) (s : Target) (c : Config) :
    (windowsSplit flags s c).compile =
        s.flags c ++ s.extraFlags c ++ ((flags.map strip).filter fun f => decide (ForCompiler f)).map forCl ∧
      (windowsSplit flags s c).link = s.linkerFlags c ++ (flags.map strip).filter fun f => decide (¬ ForCompiler f) := by
  have h : ∀ (flags : List Text) (g : Groups), flags.foldl windowsStep g =
      { compile := g.compile ++ ((flags.map strip).filter fun f => decide (ForCompiler f)).map forCl,
        link := g.link ++ (flags.map strip).filter fun f => decide (¬ ForCompiler f) } := by
    intro flags
    induction flags with
    | nil => intro g; simp
    | cons f flags ih =>
      intro g
      rw [List.foldl_cons, ih, windowsStep_eq]
      by_cases hf : ForCompiler (strip f)
      · simp [hf]
      · simp [hf]
  rw [windowsSplit, h]
  exact ⟨rfl, rfl⟩

/-- No flag is lost or given twice. -/
theorem windows_lengths (flags : List Text) (s : Target) (c : Config) :
    (windowsSplit flags s c).compile.length + (windowsSplit flags s c).link.length =
      (s.flags c).length + (s.extraFlags c).length + (s.linkerFlags c).length + flags.length := by
  classical
  obtain ⟨h1, h2⟩ := windows_groups flags s c
  rw [h1, h2]
  have h3 : ((flags.map strip).filter fun f => decide (ForCompiler f)).length +
      ((flags.map strip).filter fun f => decide (¬ ForCompiler f)).length = flags.length := by
    have := List.length_eq_length_filter_add (l := flags.map strip) (fun f => decide (ForCompiler f))
    rw [List.length_map] at this
    rw [this]
    congr 2
    apply List.filter_congr
    intro x _
    simp
  simp only [List.length_append, List.length_map] at h3 ⊢
  omega

/-- Two flags in one text are one argument: a library after a definition is not linked. -/
theorem windows_not_split (s : Target) (c : Config) :
    (windowsSplit [t "-DUSE_X -lx"] s c).compile = s.flags c ++ s.extraFlags c ++ [t "-DUSE_X -lx"] ∧
      (windowsSplit [t "-DUSE_X -lx"] s c).link = s.linkerFlags c := by
  obtain ⟨g1, g2⟩ : ∃ g : Groups, windowsStep ⟨[], []⟩ (t "-DUSE_X -lx") = ⟨[t "-DUSE_X -lx"], []⟩ :=
    ⟨⟨[], []⟩, by decide +kernel⟩
  classical
  have hf : ForCompiler (strip (t "-DUSE_X -lx")) := by
    by_contra hn
    rw [windowsStep_eq, if_neg hn] at g2
    cases g2
  obtain ⟨h1, h2⟩ := windows_groups [t "-DUSE_X -lx"] s c
  rw [windowsStep_eq, if_pos hf] at g2
  simp only [List.nil_append, Groups.mk.injEq, and_true] at g2
  rw [h1, h2]
  simp only [List.map_cons, List.map_nil, List.filter_cons, hf, List.filter_nil, decide_true, if_true, g2, not_true, decide_false,
    Bool.false_eq_true, if_false, List.append_nil, and_self]

/-! ### The commands -/

/-- On Windows the flags of the linker come after `/link`, unless they have one of their own that is not the first. -/
theorem windows_link (compiler source target : Text) (g : Groups) (h : t "/link" ∉ g.link ∨ g.link.head? = some (t "/link")) :
    ∃ l, windowsCommand compiler source target g =
      compiler :: g.compile ++ [source, t "/W0", t "/link"] ++ l ++ [t "/out:" ++ target] ∧
      (g.link = l ∨ g.link = t "/link" :: l) := by
  rcases h with h | h
  · exact ⟨g.link, by simp [windowsCommand, h], Or.inl rfl⟩
  · obtain ⟨l, hl⟩ : ∃ l, g.link = t "/link" :: l := by
      cases hg : g.link with
      | nil => rw [hg] at h; cases h
      | cons a l =>
        rw [hg] at h
        exact ⟨l, by rw [Option.some.inj h]⟩
    exact ⟨l, by simp [windowsCommand, hl], Or.inr hl⟩

/-- A flag for the linker before such a `/link` is given to the compiler. -/
theorem windows_link_late : windowsCommand (t "cl") (t "a.c") (t "a.exe") ⟨[], [t "x.lib", t "/link", t "y.lib"]⟩ =
    [t "cl", t "a.c", t "/W0", t "x.lib", t "/link", t "y.lib", t "/out:a.exe"] := by decide +kernel

/-! ### The order of the flags -/

/-- The flags of the instrument are a set: two orders are possible for two libraries, and the linker gets them in either. -/
theorem order_not_determined (s : Target) (c : Config) : ∃ a b : List Text,
    IsUniqueFlags [t "-lA", t "-lB"] false a ∧ IsUniqueFlags [t "-lA", t "-lB"] false b ∧
      (linuxSplit a s c).link ≠ (linuxSplit b s c).link := by
  refine ⟨[t "-lA", t "-lB"], [t "-lB", t "-lA"], ⟨by decide, by simp⟩, ⟨by decide, ?_⟩, ?_⟩
  · intro x
    simp only [List.mem_cons, List.not_mem_nil, or_false, Bool.false_eq_true, false_and]
    exact or_comm
  · rw [linux_flag_kept _ s c (by decide), linux_flag_kept _ s c (by decide)]
    intro h
    exact absurd (List.append_cancel_left h) (by decide)

/-- But the linker gets the same words. -/
theorem same_words (flags a b : List Text) (cpu : Bool) (ha : IsUniqueFlags flags cpu a) (hb : IsUniqueFlags flags cpu b)
    (s : Target) (c : Config) : (linuxSplit a s c).link.Perm (linuxSplit b s c).link := by
  have hp : a.Perm b := (List.perm_ext_iff_of_nodup ha.1 hb.1).mpr fun x => (ha.2 x).trans (hb.2 x).symm
  have hl : ∀ l, (linuxSplit l s c).link = s.linkerFlags c ++ l.flatMap words := by
    intro l
    rw [linuxSplit]
    split_ifs <;> rfl
  rw [hl, hl]
  exact (hp.flatMap_right words).append_left _

example : ForCompiler (t "-std=c99") ∧ forCl (t "-std=c99") = t "-std:c99" :=
  ⟨⟨'-', t "std=c99", rfl, Or.inr rfl, Or.inr (Or.inr (Or.inr ⟨by decide, by decide⟩))⟩, by decide⟩

end Verif.Compile
