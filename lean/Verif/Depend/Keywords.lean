import Verif.Depend.Model
import Mathlib.Data.List.Infix

/-!
C71: model of the keywords `@...@` in dependency strings, src/mccode_antlr/instr/instr.py 268-287. The configuration is a
function giving the expanded text of an entry of `config['flags']`. Letters are those of ASCII (`\w` and `lower` of Python also
know others). The functions of `re` are modelled for the patterns used here.
-/

namespace Verif.Depend

open Verif.Loader (Text t)

/-- A character matched by `\w`. -/
def isWord (c : Char) : Bool := c.isAlphanum || c = '_'

/-- `s.lower()`. -/
def lower (s : Text) : Text := s.map Char.toLower

/-- `re.sub` for a pattern that is a plain text which is not empty and a replacement without backslashes: the text is gone
through from left to right; `skip` counts the characters of the last match still to be passed. -/
def subGo (pat v : Text) : Nat → Text → Text
  | _, [] => []
  | skip + 1, _ :: s => subGo pat v skip s
  | 0, c :: s => if pat.isPrefixOf (c :: s) then v ++ subGo pat v (pat.length - 1) s else c :: subGo pat v 0 s

inductive KErr
  | badEscape
  | notModelled
  deriving DecidableEq, Repr

/-- The replacement given to `re.sub` is a template: a backslash is followed by the letter of a control character, another
backslash, or a character that is no ASCII letter or digit, which is kept with the backslash; other letters are refused. The
patterns have no groups: references to groups by number are refused, which is not told apart from octal numbers here. -/
def template : Text → Except KErr Text
  | [] => .ok []
  | '\\' :: [] => .error .badEscape
  | '\\' :: c :: s =>
    if c.isDigit then .error .notModelled
    else
      let kept : Except KErr Text :=
        if c = '\\' then .ok ['\\']
        else if c = 'n' then .ok ['\n']
        else if c = 't' then .ok ['\t']
        else if c = 'r' then .ok ['\r']
        else if c = 'a' then .ok ['\x07']
        else if c = 'b' then .ok ['\x08']
        else if c = 'f' then .ok ['\x0c']
        else if c = 'v' then .ok ['\x0b']
        else if c.isAlpha then .error .badEscape
        else .ok ['\\', c]
      match kept, template s with
      | .error e, _ => .error e
      | .ok _, .error e => .error e
      | .ok k, .ok r => .ok (k ++ r)
  | c :: s =>
    match template s with
    | .error e => .error e
    | .ok r => .ok (c :: r)

/-- `re.sub`. -/
def sub (pat repl s : Text) : Except KErr Text :=
  match template repl with
  | .error e => .error e
  | .ok v => .ok (subGo pat v 0 s)

/-- The keyword a text begins with, without its first `@`. -/
def keyword (s : Text) : Option Text :=
  if s.takeWhile isWord ≠ [] ∧ (s.dropWhile isWord).head? = some '@' then some (s.takeWhile isWord) else none

/-- `re.findall(r'@(\w+)@', s)`. -/
def findGo : Nat → Text → List Text
  | _, [] => []
  | skip + 1, _ :: s => findGo skip s
  | 0, c :: s =>
    if c = '@' then
      match keyword s with
      | some w => w :: findGo (w.length + 1) s
      | none => findGo 0 s
    else findGo 0 s

/-- `f'@{key}@'`. -/
def at' (key : Text) : Text := '@' :: (key ++ ['@'])

/-- One round of the loop (279-286). -/
def replaceOne (cfg : Text → Option Text) (flag key : Text) : Except KErr Text :=
  if (t "flags").isSuffixOf (lower key) then
    let name := (lower key).take (key.length - 5)
    match cfg name with
    | some v => sub (at' key) v flag
    | none => sub (at' key) (t "-l" ++ name) flag
  else .ok flag

/-- The loop (279-286). -/
def replaceAll (cfg : Text → Option Text) : Text → List Text → Except KErr Text
  | flag, [] => .ok flag
  | flag, k :: ks =>
    match replaceOne cfg flag k with
    | .error e => .error e
    | .ok flag => replaceAll cfg flag ks

/-- `_replace_keywords` (268-287); `nexus` is the configured text of the NeXus flags. -/
def replaceKeywords (nexus : Text) (cfg : Text → Option Text) (flag : Text) : Except KErr Text :=
  match (if (at' (t "NEXUSFLAGS")) <:+: flag then sub (at' (t "NEXUSFLAGS")) nexus flag else .ok flag) with
  | .error e => .error e
  | .ok flag =>
    match (if (at' (t "MCCODE_LIB")) <:+: flag then sub (at' (t "MCCODE_LIB")) (t ".") flag else .ok flag) with
    | .error e => .error e
    | .ok flag => replaceAll cfg flag (findGo 0 flag)

/-! ### The specification -/

/-- What a keyword stands for: the NeXus flags, the current directory, the configured flags, a library; nothing otherwise. -/
def meaning (nexus : Text) (cfg : Text → Option Text) (key : Text) : Option Text :=
  if key = t "NEXUSFLAGS" then some nexus
  else if key = t "MCCODE_LIB" then some (t ".")
  else if t "flags" <:+ lower key then
    some ((cfg ((lower key).take (key.length - 5))).getD (t "-l" ++ (lower key).take (key.length - 5)))
  else none

/-- A text with keywords, those with a value replaced by it: a plain text, then keywords each followed by a plain text. -/
def shown (σ : Text → Option Text) : Text → List (Text × Text) → Text
  | l, [] => l
  | l, (k, l') :: ks => l ++ (match σ k with
      | some v => v
      | none => '@' :: (k ++ ['@'])) ++ shown σ l' ks

/-- A text that cannot be taken for a keyword. -/
def Loose (l : Text) : Prop := l = [] ∨ ∃ c ∈ l, isWord c = false

/-- Keywords are words; the plain texts have no `@`, and those between two keywords are no words. -/
def Plain : List (Text × Text) → Prop
  | [] => True
  | (k, l) :: ks => (k ≠ [] ∧ ∀ c ∈ k, isWord c = true) ∧ '@' ∉ l ∧ (ks ≠ [] → Loose l) ∧ Plain ks

theorem Loose.append {a b : Text} (ha : Loose a) (hb : Loose b) : Loose (a ++ b) := by
  rcases ha with rfl | ⟨c, hc, h⟩
  · exact hb
  · exact .inr ⟨c, List.mem_append_left _ hc, h⟩

theorem word_no_at {k : Text} (h : ∀ c ∈ k, isWord c = true) : '@' ∉ k := by
  intro hc
  have := h _ hc
  revert this
  decide

theorem shown_head (σ : Text → Option Text) (hσ : ∀ k v, σ k = some v → '@' ∉ v ∧ Loose v) :
    ∀ (ks : List (Text × Text)) (l : Text), '@' ∉ l → (ks ≠ [] → Loose l) → Plain ks →
    Loose ((shown σ l ks).takeWhile (· ≠ '@')) ∨ '@' ∉ shown σ l ks
  | [], l, hl, _, _ => .inr hl
  | (k, l') :: ks, l, hl, hlo, hp => by
    obtain ⟨-, hl', hlo', hp'⟩ := hp
    have tw : ∀ (a b : Text), '@' ∉ a → (a ++ b).takeWhile (· ≠ '@') = a ++ b.takeWhile (· ≠ '@') := by
      intro a b ha
      rw [List.takeWhile_append_of_pos]
      intro c hc
      simp only [ne_eq, decide_not, Bool.not_eq_eq_eq_not, Bool.not_true, decide_eq_false_iff_not]
      rintro rfl
      exact ha hc
    cases hs : σ k with
    | none =>
      left
      rw [shown, hs, List.append_assoc, tw _ _ hl]
      simpa using hlo (by simp)
    | some v =>
      obtain ⟨h1, h2⟩ := hσ k v hs
      rcases shown_head σ hσ ks l' hl' hlo' hp' with h | h
      · left
        rw [shown, hs, List.append_assoc, tw _ _ hl, tw _ _ h1]
        exact (hlo (by simp)).append (h2.append h)
      · right
        rw [shown, hs]
        simp [hl, h1, h]

theorem subGo_skip (pat v : Text) : ∀ (a s : Text), subGo pat v a.length (a ++ s) = subGo pat v 0 s
  | [], s => rfl
  | c :: a, s => by
    rw [List.length_cons, List.cons_append, subGo]
    exact subGo_skip pat v a s

theorem subGo_plain (w v : Text) : ∀ (a s : Text), '@' ∉ a → subGo (at' w) v 0 (a ++ s) = a ++ subGo (at' w) v 0 s
  | [], s, _ => rfl
  | c :: a, s, h => by
    simp only [List.mem_cons, not_or] at h
    rw [List.cons_append, subGo, if_neg, subGo_plain w v a s h.2]
    · rfl
    · simp [at', h.1]

theorem subGo_match (w v s : Text) : subGo (at' w) v 0 (at' w ++ s) = v ++ subGo (at' w) v 0 s := by
  have h : at' w ++ s = '@' :: ((w ++ ['@']) ++ s) := rfl
  rw [h, subGo, if_pos]
  · have : (at' w).length - 1 = (w ++ ['@']).length := by simp [at']
    rw [this, subGo_skip]
  · rw [List.isPrefixOf_iff_prefix]
    exact ⟨s, by simp [at']⟩

/-- The text before the `@` decides whether a keyword begins. -/
theorem prefix_word {w s : Text} (hw : '@' ∉ w) (h : w ++ ['@'] <+: s) : s.takeWhile (· ≠ '@') = w ∧ '@' ∈ s := by
  obtain ⟨r, rfl⟩ := h
  constructor
  · rw [List.append_assoc, List.takeWhile_append_of_pos]
    · simp
    · intro c hc
      simp only [ne_eq, decide_not, Bool.not_eq_eq_eq_not, Bool.not_true, decide_eq_false_iff_not]
      rintro rfl
      exact hw hc
  · simp

theorem subGo_pass (w v k s : Text) (hw : w ≠ [] ∧ ∀ c ∈ w, isWord c = true) (hk : ∀ c ∈ k, isWord c = true) (hne : k ≠ w)
    (hs : Loose (s.takeWhile (· ≠ '@')) ∨ '@' ∉ s) :
    subGo (at' w) v 0 ('@' :: (k ++ ['@']) ++ s) = '@' :: (k ++ ['@']) ++ subGo (at' w) v 0 s := by
  have hwa := word_no_at hw.2
  have hka := word_no_at hk
  rw [List.cons_append, subGo, if_neg, List.append_assoc, subGo_plain _ _ _ _ hka, List.singleton_append, subGo, if_neg]
  · simp
  · rw [List.isPrefixOf_iff_prefix, at', List.cons_prefix_cons]
    rintro ⟨-, h⟩
    obtain ⟨h1, h2⟩ := prefix_word hwa h
    rcases hs with h | h
    · rw [h1] at h
      rcases h with h | ⟨c, hc, h⟩
      · exact hw.1 h
      · rw [hw.2 c hc] at h; cases h
    · exact h h2
  · rw [List.isPrefixOf_iff_prefix, at', List.cons_prefix_cons]
    rintro ⟨-, h⟩
    obtain ⟨h1, -⟩ := prefix_word hwa h
    rw [List.append_assoc, List.takeWhile_append_of_pos] at h1
    · simp at h1; exact hne h1
    · intro c hc
      simp only [ne_eq, decide_not, Bool.not_eq_eq_eq_not, Bool.not_true, decide_eq_false_iff_not]
      rintro rfl
      exact hka hc

/-- Replacing a keyword in such a text replaces it where it is a keyword. -/
theorem subGo_shown (w v : Text) (hw : w ≠ [] ∧ ∀ c ∈ w, isWord c = true) (σ : Text → Option Text)
    (hσ : ∀ k v, σ k = some v → '@' ∉ v ∧ Loose v) :
    ∀ (ks : List (Text × Text)) (l : Text), '@' ∉ l → Plain ks →
    subGo (at' w) v 0 (shown σ l ks) = shown (fun k => if k = w then some ((σ k).getD v) else σ k) l ks
  | [], l, hl, _ => by
    have := subGo_plain w v l [] hl
    simpa [subGo, shown] using this
  | (k, l') :: ks, l, hl, hp => by
    obtain ⟨⟨hk0, hk⟩, hl', hlo', hp'⟩ := hp
    have ih := subGo_shown w v hw σ hσ ks l' hl' hp'
    rw [shown, shown, List.append_assoc, List.append_assoc, subGo_plain _ _ _ _ hl]
    congr 1
    cases hs : σ k with
    | some u =>
      obtain ⟨h1, -⟩ := hσ k u hs
      rw [subGo_plain _ _ _ _ h1, ih]
      by_cases h : k = w <;> simp [h]
    | none =>
      by_cases h : k = w
      · subst h
        have := subGo_match k v (shown σ l' ks)
        simp only [at'] at this ih ⊢
        rw [this, ih]
        simp
      · rw [subGo_pass w v k _ hw hk h (shown_head σ hσ ks l' hl' hlo' hp'), ih]
        simp [h]

theorem findGo_skip : ∀ (a s : Text), findGo a.length (a ++ s) = findGo 0 s
  | [], s => rfl
  | c :: a, s => by
    rw [List.length_cons, List.cons_append, findGo]
    exact findGo_skip a s

theorem findGo_plain : ∀ (a s : Text), '@' ∉ a → findGo 0 (a ++ s) = findGo 0 s
  | [], s, _ => rfl
  | c :: a, s, h => by
    simp only [List.mem_cons, not_or] at h
    rw [List.cons_append, findGo, if_neg (Ne.symm h.1), findGo_plain a s h.2]

/-- The keywords found are those which are not replaced. -/
theorem findGo_shown (σ : Text → Option Text) (hσ : ∀ k v, σ k = some v → '@' ∉ v) :
    ∀ (ks : List (Text × Text)) (l : Text), '@' ∉ l → Plain ks →
    findGo 0 (shown σ l ks) = (ks.map (·.1)).filter fun k => (σ k).isNone
  | [], l, hl, _ => by
    have := findGo_plain l [] hl
    simpa [findGo, shown] using this
  | (k, l') :: ks, l, hl, hp => by
    obtain ⟨⟨hk0, hk⟩, hl', hlo', hp'⟩ := hp
    have ih := findGo_shown σ hσ ks l' hl' hp'
    rw [shown, List.append_assoc, findGo_plain _ _ hl]
    cases hs : σ k with
    | some u =>
      rw [findGo_plain _ _ (hσ k u hs), ih]
      simp [hs]
    | none =>
      have hkw : keyword (k ++ ['@'] ++ shown σ l' ks) = some k := by
        have h1 : (k ++ ['@'] ++ shown σ l' ks).takeWhile isWord = k := by
          rw [List.append_assoc, List.takeWhile_append_of_pos hk, List.singleton_append, List.takeWhile_cons_of_neg (by decide)]
          simp
        have h2 : (k ++ ['@'] ++ shown σ l' ks).dropWhile isWord = '@' :: shown σ l' ks := by
          rw [List.append_assoc, List.dropWhile_append_of_pos hk, List.singleton_append, List.dropWhile_cons_of_neg (by decide)]
        rw [keyword, h1, h2]
        simp [hk0]
      simp only [List.cons_append]
      rw [findGo, if_pos rfl, hkw]
      have : k.length + 1 = (k ++ ['@']).length := by simp
      simp only [this, findGo_skip, ih]
      simp [hs]

theorem template_plain : ∀ (s : Text), '\\' ∉ s → template s = .ok s
  | [], _ => rfl
  | c :: s, h => by
    simp only [List.mem_cons, not_or] at h
    rw [template, template_plain s h.2]
    · rintro rfl; exact absurd rfl h.1
    · rintro d r rfl; exact absurd rfl h.1

theorem shown_congr {σ τ : Text → Option Text} : ∀ (ks : List (Text × Text)) (l : Text), (∀ k ∈ ks.map (·.1), σ k = τ k) →
    shown σ l ks = shown τ l ks
  | [], _, _ => rfl
  | (k, l') :: ks, l, h => by
    rw [shown, shown, h k (by simp), shown_congr ks l' fun k hk => h k (by simp at hk ⊢; exact .inr hk)]

theorem subGo_le (pat : Text) : ∀ (s : Text) (n : Nat), (subGo pat [] n s).length ≤ s.length
  | [], n => by cases n <;> simp [subGo]
  | c :: s, n + 1 => by
    rw [subGo]
    exact (subGo_le pat s n).trans (by simp)
  | c :: s, 0 => by
    rw [subGo]
    split
    · exact (subGo_le pat s _).trans (by simp)
    · simpa using subGo_le pat s 0

theorem subGo_lt (pat : Text) (hp : pat ≠ []) : ∀ (s : Text), pat <:+: s → (subGo pat [] 0 s).length < s.length
  | [], h => absurd (List.infix_nil.1 h) hp
  | c :: s, h => by
    rw [subGo]
    split
    · have := subGo_le pat s (pat.length - 1)
      simp only [List.nil_append, List.length_cons]
      omega
    · rename_i hn
      rw [List.isPrefixOf_iff_prefix] at hn
      rcases List.infix_cons_iff.1 h with h | h
      · exact absurd h hn
      · simpa using subGo_lt pat hp s h

theorem shown_infix (σ : Text → Option Text) : ∀ (ks : List (Text × Text)) (l k : Text), k ∈ ks.map (·.1) → σ k = none →
    at' k <:+: shown σ l ks
  | [], _, _, h, _ => by simp at h
  | (k', l') :: ks, l, k, h, hk => by
    rw [shown]
    by_cases e : k = k'
    · subst e
      rw [hk]
      exact ⟨l, shown σ l' ks, rfl⟩
    · have hm : k ∈ ks.map (·.1) := by simpa [e] using h
      exact (shown_infix σ ks l' k hm hk).trans (List.suffix_append _ _).isInfix

/-- A keyword is found in such a text exactly if it is one of the keywords left. -/
theorem infix_shown {w : Text} (hw : w ≠ [] ∧ ∀ c ∈ w, isWord c = true) (σ : Text → Option Text)
    (hσ : ∀ k v, σ k = some v → '@' ∉ v ∧ Loose v) {ks : List (Text × Text)} {l : Text} (hl : '@' ∉ l) (hp : Plain ks) :
    at' w <:+: shown σ l ks ↔ w ∈ ks.map (·.1) ∧ σ w = none := by
  constructor
  · intro h
    by_contra hn
    have e := subGo_shown w [] hw σ hσ ks l hl hp
    have e' : shown (fun k => if k = w then some ((σ k).getD []) else σ k) l ks = shown σ l ks := by
      apply shown_congr
      intro k hk
      by_cases hkw : k = w
      · subst hkw
        cases hs : σ k with
        | none => exact absurd ⟨hk, hs⟩ hn
        | some v => simp
      · simp [hkw]
    have := subGo_lt (at' w) (by simp [at']) _ h
    rw [e, e'] at this
    omega
  · rintro ⟨h1, h2⟩
    exact shown_infix σ ks l w h1 h2

theorem plain_words : ∀ {ks : List (Text × Text)}, Plain ks → ∀ k ∈ ks.map (·.1), k ≠ [] ∧ ∀ c ∈ k, isWord c = true
  | [], _, _, h => by simp at h
  | (k', l) :: ks, hp, k, h => by
    rw [List.map_cons, List.mem_cons] at h
    rcases h with rfl | h
    · exact hp.1
    · exact plain_words hp.2.2.2 k h

/-- A value that is no template and brings no keyword. -/
def Tame (v : Text) : Prop := '@' ∉ v ∧ '\\' ∉ v ∧ Loose v

/-- The state of the replacement: some keywords have their value. -/
def Known (nexus : Text) (cfg : Text → Option Text) (ks : List (Text × Text)) (σ : Text → Option Text) : Prop :=
  ∀ k v, σ k = some v → k ∈ ks.map (·.1) ∧ meaning nexus cfg k = some v

/-- Replacing one keyword by its value. -/
theorem sub_step {nexus : Text} {cfg : Text → Option Text} {ks : List (Text × Text)} {l : Text} {σ : Text → Option Text}
    (hl : '@' ∉ l) (hp : Plain ks) (hm : ∀ k ∈ ks.map (·.1), ∀ v, meaning nexus cfg k = some v → Tame v)
    (hσ : Known nexus cfg ks σ) {w v : Text} (hw : w ∈ ks.map (·.1)) (hv : meaning nexus cfg w = some v) :
    sub (at' w) v (shown σ l ks) = .ok (shown (fun k => if k = w then some v else σ k) l ks) ∧
    Known nexus cfg ks (fun k => if k = w then some v else σ k) := by
  have hs : ∀ k v, σ k = some v → '@' ∉ v ∧ Loose v := fun k v h =>
    have := hm k (hσ k v h).1 v (hσ k v h).2
    ⟨this.1, this.2.2⟩
  constructor
  · rw [sub, template_plain v (hm w hw v hv).2.1]
    simp only
    rw [subGo_shown w v (plain_words hp w hw) σ hs ks l hl hp]
    congr 1
    apply shown_congr
    intro k _
    by_cases hk : k = w
    · subst hk
      cases h : σ k with
      | none => simp
      | some u =>
        have := (hσ k u h).2
        rw [hv] at this
        simp at this
        simp [this]
    · simp [hk]
  · intro k u h
    by_cases hk : k = w
    · subst hk
      simp at h
      subst h
      exact ⟨hw, hv⟩
    · simp [hk] at h
      exact hσ k u h

/-- The replacement of one of the two special keywords, which is done if the keyword is in the text. -/
theorem special_step {nexus : Text} {cfg : Text → Option Text} {ks : List (Text × Text)} {l : Text} {σ : Text → Option Text}
    (hl : '@' ∉ l) (hp : Plain ks) (hm : ∀ k ∈ ks.map (·.1), ∀ v, meaning nexus cfg k = some v → Tame v)
    (hσ : Known nexus cfg ks σ) {w v : Text} (hw : w ≠ [] ∧ ∀ c ∈ w, isWord c = true) (hv : meaning nexus cfg w = some v) :
    ∃ τ, (if at' w <:+: shown σ l ks then sub (at' w) v (shown σ l ks) else .ok (shown σ l ks)) = .ok (shown τ l ks) ∧
    Known nexus cfg ks τ ∧ (∀ k, (σ k).isSome → (τ k).isSome) ∧ (w ∈ ks.map (·.1) → (τ w).isSome) := by
  have hs : ∀ k v, σ k = some v → '@' ∉ v ∧ Loose v := fun k v h =>
    have := hm k (hσ k v h).1 v (hσ k v h).2
    ⟨this.1, this.2.2⟩
  by_cases h : at' w <:+: shown σ l ks
  · have hmem := ((infix_shown hw σ hs hl hp).1 h).1
    obtain ⟨h1, h2⟩ := sub_step hl hp hm hσ hmem hv
    refine ⟨_, by rw [if_pos h, h1], h2, ?_, ?_⟩
    · intro k hk
      by_cases e : k = w <;> simp [e, hk]
    · simp
  · refine ⟨σ, by rw [if_neg h], hσ, fun _ h => h, fun hmem => ?_⟩
    cases e : σ w with
    | some _ => rfl
    | none => exact absurd ((infix_shown hw σ hs hl hp).2 ⟨hmem, e⟩) h

/-- The loop gives each keyword it goes through its value. -/
theorem replaceAll_shown {nexus : Text} {cfg : Text → Option Text} {ks : List (Text × Text)} {l : Text}
    (hl : '@' ∉ l) (hp : Plain ks) (hm : ∀ k ∈ ks.map (·.1), ∀ v, meaning nexus cfg k = some v → Tame v) :
    ∀ (ws : List Text) (σ : Text → Option Text), Known nexus cfg ks σ →
    (∀ w ∈ ws, w ∈ ks.map (·.1) ∧ w ≠ t "NEXUSFLAGS" ∧ w ≠ t "MCCODE_LIB") →
    ∃ τ, replaceAll cfg (shown σ l ks) ws = .ok (shown τ l ks) ∧ Known nexus cfg ks τ ∧ (∀ k, (σ k).isSome → (τ k).isSome) ∧
      ∀ w ∈ ws, meaning nexus cfg w ≠ none → (τ w).isSome
  | [], σ, hσ, _ => ⟨σ, rfl, hσ, fun _ h => h, by simp⟩
  | w :: ws, σ, hσ, hws => by
    obtain ⟨hw, hn1, hn2⟩ := hws w (by simp)
    have hws' : ∀ w ∈ ws, w ∈ ks.map (·.1) ∧ w ≠ t "NEXUSFLAGS" ∧ w ≠ t "MCCODE_LIB" := fun x hx => hws x (by simp [hx])
    by_cases hf : t "flags" <:+ lower w
    · have hv : ∃ v, meaning nexus cfg w = some v ∧ replaceOne cfg (shown σ l ks) w = sub (at' w) v (shown σ l ks) := by
        refine ⟨_, by rw [meaning, if_neg hn1, if_neg hn2, if_pos hf], ?_⟩
        rw [replaceOne, if_pos (List.isSuffixOf_iff_suffix.2 hf)]
        simp only
        cases cfg ((lower w).take (w.length - 5)) <;> rfl
      obtain ⟨v, hv, e⟩ := hv
      obtain ⟨h1, h2⟩ := sub_step hl hp hm hσ hw hv
      obtain ⟨τ, g1, g2, g3, g4⟩ := replaceAll_shown hl hp hm ws _ h2 hws'
      refine ⟨τ, ?_, g2, fun k hk => g3 k ?_, fun x hx hx' => ?_⟩
      · rw [replaceAll, e, h1]
        exact g1
      · by_cases e : k = w <;> simp [e, hk]
      · rcases List.mem_cons.1 hx with rfl | hx
        · exact g3 x (by simp)
        · exact g4 x hx hx'
    · obtain ⟨τ, g1, g2, g3, g4⟩ := replaceAll_shown hl hp hm ws σ hσ hws'
      refine ⟨τ, ?_, g2, g3, fun x hx hx' => ?_⟩
      · rw [replaceAll, replaceOne, if_neg (by rwa [List.isSuffixOf_iff_suffix])]
        exact g1
      · rcases List.mem_cons.1 hx with rfl | hx
        · exact absurd (by rw [meaning, if_neg hn1, if_neg hn2, if_neg hf]) hx'
        · exact g4 x hx hx'

/-- C71 (partial): every keyword of a dependency string is replaced by what it stands for, keywords standing for nothing and
the rest of the text are kept. What is missing: texts between keywords that are words themselves, and values which contain `@`
or a backslash or are a single word; the theorems below show that these go wrong. -/
theorem keywords_replaced_partial (nexus : Text) (cfg : Text → Option Text) (l : Text) (ks : List (Text × Text))
    (hl : '@' ∉ l) (hp : Plain ks)
    (hm : ∀ k ∈ ks.map (·.1), ∀ v, meaning nexus cfg k = some v → '@' ∉ v ∧ '\\' ∉ v ∧ Loose v) :
    replaceKeywords nexus cfg (shown (fun _ => none) l ks) = .ok (shown (meaning nexus cfg) l ks) := by
  obtain ⟨σ, e1, k1, -, n1⟩ := special_step (nexus := nexus) (cfg := cfg) (σ := fun _ => none) (w := t "NEXUSFLAGS") (v := nexus)
    hl hp hm (fun _ _ h => by cases h) (by decide) (by rw [meaning, if_pos rfl])
  obtain ⟨τ, e2, k2, m2, n2⟩ := special_step (nexus := nexus) (cfg := cfg) (σ := σ) (w := t "MCCODE_LIB") (v := t ".")
    hl hp hm k1 (by decide) (by rw [meaning, if_neg (by decide), if_pos rfl])
  have hf := findGo_shown τ (fun k v h => (hm k (k2 k v h).1 v (k2 k v h).2).1) ks l hl hp
  obtain ⟨ρ, e3, k3, m3, n3⟩ := replaceAll_shown hl hp hm (findGo 0 (shown τ l ks)) τ k2 (by
    intro w hw
    rw [hf, List.mem_filter] at hw
    refine ⟨hw.1, ?_, ?_⟩
    · rintro rfl
      have := m2 _ (n1 hw.1)
      simp [Option.isSome_iff_ne_none] at this hw
      exact this hw.2
    · rintro rfl
      have := n2 hw.1
      simp [Option.isSome_iff_ne_none] at this hw
      exact this hw.2)
  rw [replaceKeywords, e1]
  simp only
  rw [e2]
  simp only
  rw [e3]
  congr 1
  apply shown_congr
  intro k hk
  cases h : ρ k with
  | some v => exact ((k3 k v h).2).symm
  | none =>
    by_contra hne
    have : (ρ k).isSome := by
      cases ht : τ k with
      | some v => exact m3 k (by simp [ht])
      | none =>
        refine n3 k ?_ (Ne.symm hne)
        rw [hf, List.mem_filter]
        exact ⟨hk, by simp [ht]⟩
    simp [h] at this

def cfgNone : Text → Option Text := fun _ => none

/-- A configuration with one entry. -/
def cfgOne (name value : Text) : Text → Option Text := fun k => if k = name then some value else none

example :
    '@' ∉ t "-Wl " ∧ Plain [(t "NEXUSFLAGS", t " "), (t "GSLFLAGS", t ", "), (t "WHAT", t " "), (t "NCrystalFlags", t "x")] ∧
    replaceKeywords (t "-lNeXus -DX") (cfgOne (t "gsl") (t "-lgsl -lblas")) (t "-Wl @NEXUSFLAGS@ @GSLFLAGS@, @WHAT@ @NCrystalFlags@x")
      = .ok (t "-Wl -lNeXus -DX -lgsl -lblas, @WHAT@ -lncrystalx") := by
  refine ⟨by decide, ?_, by decide +kernel⟩
  simp only [Plain, Loose]
  decide

/-- C71: a text without `@` is returned as it is. -/
theorem no_keyword_kept (nexus : Text) (cfg : Text → Option Text) (l : Text) (hl : '@' ∉ l) :
    replaceKeywords nexus cfg l = .ok l := by
  have := keywords_replaced_partial nexus cfg l [] hl trivial (by simp)
  simpa [shown] using this

example : '@' ∉ t "-lgsl -I/usr/include" := by decide

/-- C71 fails for configured values with a backslash, as in the paths of Windows: the value is taken for a template. Followed by
a letter that names no control character, the replacement raises whatever the rest of the value is. -/
theorem backslash_raises (nexus name a b : Text) (c : Char) (key : Text) (hk : ∀ c ∈ key, isWord c = true)
    (hf : lower key = name ++ t "flags") (hn : key ≠ t "NEXUSFLAGS") (ha : '\\' ∉ a) (hc : c.isAlpha = true)
    (hc' : c ∉ t "abfnrtv") :
    replaceKeywords nexus (cfgOne name (a ++ '\\' :: c :: b)) ('@' :: (key ++ ['@'])) = .error .badEscape := by
  have hlen : key.length = name.length + 5 := by
    have := congrArg List.length hf
    simpa [lower, t] using this
  have hne : key ≠ [] := by
    rintro rfl
    simp at hlen
  have hnl : key ≠ t "MCCODE_LIB" := by
    rintro rfl
    have h1 : (t "flags") <:+ lower (t "MCCODE_LIB") := ⟨name, hf.symm⟩
    revert h1
    decide
  have hP : Plain [(key, [])] := ⟨⟨hne, hk⟩, by simp, by simp, trivial⟩
  have hsh : '@' :: (key ++ ['@']) = shown (fun _ => none) [] [(key, [])] := by simp [shown]
  have hin : ∀ w : Text, w ≠ [] → (∀ c ∈ w, isWord c = true) → key ≠ w → ¬ at' w <:+: '@' :: (key ++ ['@']) := by
    intro w h1 h2 h3
    rw [hsh, infix_shown ⟨h1, h2⟩ _ (fun _ _ h => by cases h) (by simp) hP]
    simp [h3.symm]
  have hfind : findGo 0 ('@' :: (key ++ ['@'])) = [key] := by
    rw [hsh, findGo_shown _ (fun _ _ h => by cases h) _ _ (by simp) hP]
    simp
  rw [replaceKeywords, if_neg (hin _ (by decide) (by decide) hn)]
  simp only
  rw [if_neg (hin _ (by decide) (by decide) hnl)]
  simp only
  rw [hfind, replaceAll, replaceOne, if_pos]
  · have h1 : (lower key).take (key.length - 5) = name := by
      rw [hf, hlen]
      simp
    have hdig : c.isDigit = false := by
      by_contra h
      simp only [Char.isAlpha, Char.isUpper, Char.isLower, Char.isDigit, Bool.or_eq_true, Bool.and_eq_true, decide_eq_true_eq,
        Bool.not_eq_false, UInt32.le_iff_toNat_le] at h hc
      simp at h hc
      omega
    have hbs : c ≠ '\\' := by
      rintro rfl
      revert hc
      decide
    have ht : ∀ a : Text, '\\' ∉ a → template (a ++ '\\' :: c :: b) = .error .badEscape := by
      intro a
      induction a with
      | nil =>
        intro _
        simp [t] at hc'
        simp only [List.nil_append, template, hdig]
        simp [hbs, hc', hc]
      | cons d a ih =>
        intro h
        simp only [List.mem_cons, not_or] at h
        rw [List.cons_append, template, ih h.2]
        · rintro rfl; exact absurd rfl h.1
        · rintro d r rfl; exact absurd rfl h.1
    simp only [h1, cfgOne, if_true, sub, ht a ha]
  · rw [List.isSuffixOf_iff_suffix, hf]
    exact List.suffix_append _ _

example : lower (t "GSLFLAGS") = t "gsl" ++ t "flags" ∧
    replaceKeywords [] (cfgOne (t "gsl") (t "-LC:\\gsl")) (t "@GSLFLAGS@") = .error .badEscape := by decide +kernel

/-- C71 fails silently for other values with a backslash: `C:\new` becomes two lines. -/
theorem backslash_changed :
    replaceKeywords [] (cfgOne (t "gsl") (t "-LC:\\new")) (t "@GSLFLAGS@") = .ok (t "-LC:\new") := by decide +kernel

/-- C71 fails for a word between two keywords: the `@` that ends a keyword is taken to begin another one. -/
theorem shared_at_replaced :
    replaceKeywords [] cfgNone (t "@WHAT@XFLAGS@WHAT@ @XFLAGS@") = .ok (t "@WHAT-lxWHAT@ -lx") := by decide +kernel

/-- C71 fails for values with keywords: those of the NeXus flags are replaced, those of other flags are not, unless the same
keyword comes later. -/
theorem values_searched :
    replaceKeywords (t "@GSLFLAGS@") cfgNone (t "@NEXUSFLAGS@") = .ok (t "-lgsl") ∧
    replaceKeywords [] (cfgOne (t "x") (t "@GSLFLAGS@")) (t "@XFLAGS@") = .ok (t "@GSLFLAGS@") ∧
    replaceKeywords [] (cfgOne (t "x") (t "@GSLFLAGS@")) (t "@XFLAGS@ @GSLFLAGS@") = .ok (t "-lgsl -lgsl") := by decide +kernel

end Verif.Depend
