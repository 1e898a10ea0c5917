import Verif.Depend.Model

/-! C49: the directives of dependency strings. -/

namespace Verif.Depend

open Verif.Loader (Text t strip partition partition_eq partition_none partition_char NoStraddle infix_append_of_noStraddle)

def keys : List Text := [t "ENV", t "GETPATH", t "CMD"]

/-- A text with directives of one kind: plain texts each followed by a directive with its argument, and a plain text. -/
def render (key : Text) : List (Text × Text) → Text → Text
  | [], last => last
  | p :: ps, last => p.1 ++ key ++ t "(" ++ p.2 ++ t ")" ++ render key ps last

/-- The same text with values in the place of the directives. -/
def filled : List (Text × Text) → List Text → Text → Text
  | p :: ps, v :: vs, last => p.1 ++ v ++ filled ps vs last
  | _, _, last => last

theorem key_first {key : Text} (hk : key ∈ keys) {a : Text} (h : ¬ key <:+: a) : ¬ key <:+: a ++ key.dropLast := by
  have hs : ∀ k ∈ keys, NoStraddle k.reverse k.dropLast.reverse := by decide +kernel
  intro hi
  apply h
  rw [← List.reverse_infix, List.reverse_append] at hi
  have := infix_append_of_noStraddle (hs key hk) hi
  exact List.reverse_infix.mp this

theorem key_ne {key : Text} (hk : key ∈ keys) : key ≠ [] := by
  have : ∀ k ∈ keys, k ≠ [] := by decide
  exact this key hk

/-- The first occurrence splits a text. -/
theorem partition_spec {m s : Text} (hm : m ≠ []) (h : m <:+: s) :
    s = (partition m s).1 ++ (m ++ (partition m s).2) ∧ ¬ m <:+: (partition m s).1 := by
  induction s with
  | nil =>
    exact absurd (List.infix_nil.mp h) hm
  | cons c s ih =>
    rw [partition]
    split_ifs with hp
    · rw [List.isPrefixOf_iff_prefix] at hp
      refine ⟨?_, fun h => hm (List.infix_nil.mp h)⟩
      obtain ⟨b, hb⟩ := hp
      rw [← hb]
      simp
    · have hi : m <:+: s := by
        rcases List.infix_cons_iff.mp h with h | h
        · exact absurd (List.isPrefixOf_iff_prefix.mpr h) hp
        · exact h
      obtain ⟨h1, h2⟩ := ih hi
      refine ⟨by simp only [List.cons_append]; rw [← h1], fun h => ?_⟩
      rcases List.infix_cons_iff.mp h with h | h
      · apply hp
        rw [List.isPrefixOf_iff_prefix]
        refine h.trans ?_
        rw [List.cons_prefix_cons]
        refine ⟨rfl, ?_⟩
        conv_rhs => rw [h1]
        exact List.prefix_append _ _
      · exact h2 h

theorem replaceN_render {key : Text} (hk : key ∈ keys) (f : Text → Except Err Text) (last : Text) (hl : ¬ key <:+: last) :
    ∀ (ps : List (Text × Text)) (vs : List Text) (n : Nat),
      (∀ p ∈ ps, ¬ key <:+: p.1 ∧ ')' ∉ p.2 ∧ ¬ key <:+: p.2) → List.Forall₂ (fun p v => f p.2 = .ok v) ps vs → ps.length < n →
      replaceN key f n (render key ps last) = .ok (filled ps vs last)
  | [], vs, n, _, hv, hn => by
    cases hv
    obtain ⟨n, rfl⟩ : ∃ m, n = m + 1 := ⟨n - 1, by simp at hn; omega⟩
    rw [render, replaceN, if_pos hl, filled]
    simp
  | p :: ps, v :: vs, n, hp, hv, hn => by
    cases hv with
    | cons hv hvs =>
      obtain ⟨n, rfl⟩ : ∃ m, n = m + 1 := ⟨n - 1, by simp at hn; omega⟩
      obtain ⟨h1, h2, h3⟩ := hp p List.mem_cons_self
      have hr : render key (p :: ps) last = p.1 ++ (key ++ ('(' :: (p.2 ++ ')' :: render key ps last))) := by
        rw [render]
        simp [t]
      have hin : key <:+: p.1 ++ (key ++ ('(' :: (p.2 ++ ')' :: render key ps last))) :=
        ⟨p.1, '(' :: (p.2 ++ ')' :: render key ps last), by simp⟩
      rw [hr, replaceN, if_neg (not_not.mpr hin), partition_eq (key_ne hk) (key_first hk h1)]
      simp only
      rw [if_neg (by simp), if_neg (by simp), partition_char h2]
      simp only
      rw [if_neg h3, hv]
      simp only
      rw [replaceN_render hk f last hl ps vs n (fun q hq => hp q (List.mem_cons_of_mem _ hq)) hvs (by simp at hn; omega)]
      simp [filled]

theorem replaceN_inv {key : Text} (hk : key ∈ keys) (f : Text → Except Err Text) : ∀ (n : Nat) (s out : Text), s.length < n →
    replaceN key f n s = .ok out → ∃ ps vs last, s = render key ps last ∧ ¬ key <:+: last ∧
      (∀ p ∈ ps, ¬ key <:+: p.1 ∧ ')' ∉ p.2 ∧ ¬ key <:+: p.2) ∧ List.Forall₂ (fun p v => f p.2 = .ok v) ps vs ∧
      out = filled ps vs last
  | 0, s, out, hn, h => absurd hn (Nat.not_lt_zero _)
  | n + 1, s, out, hn, h => by
    rw [replaceN] at h
    split_ifs at h with hi
    case neg =>
      cases h
      exact ⟨[], [], s, rfl, hi, by simp, .nil, rfl⟩
    case pos =>
      obtain ⟨h1, h2⟩ := partition_spec (key_ne hk) hi
      generalize hP : partition key s = P at h h1 h2
      obtain ⟨before, after⟩ := P
      simp only at h h1 h2
      cases after with
      | nil => cases h
      | cons c rest =>
        simp only at h
        split_ifs at h with hc hp hd
        rw [not_not] at hc
        subst hc
        have hp' : ')' ∈ rest := by
          rcases List.mem_cons.mp hp with hp | hp
          · cases hp
          · exact hp
        obtain ⟨e1, e2⟩ := partition_spec (m := [')']) (by simp) ((List.singleton_infix_iff _ _).mpr hp')
        generalize hQ : partition [')'] rest = Q at h hd e1 e2
        obtain ⟨dep, after⟩ := Q
        simp only at h hd e1 e2
        split at h
        · cases h
        rename_i v hv
        split at h
        · cases h
        rename_i r hr
        cases h
        have hlen : after.length < n := by
          have := congrArg List.length h1
          rw [e1] at this
          simp at this
          omega
        obtain ⟨ps, vs, last, i1, i2, i3, i4, i5⟩ := replaceN_inv hk f n after r hlen hr
        refine ⟨(before, dep) :: ps, v :: vs, last, ?_, i2, ?_, .cons hv i4, ?_⟩
        · rw [render, ← i1, h1, e1]
          simp [t]
        · intro p hp
          rcases List.mem_cons.mp hp with rfl | hp
          · exact ⟨h2, fun hm => e2 ((List.singleton_infix_iff _ _).mpr hm), hd⟩
          · exact i3 p hp
        · rw [filled, i5]

theorem render_length {key : Text} (ps : List (Text × Text)) (last : Text) : ps.length ≤ (render key ps last).length := by
  induction ps with
  | nil => simp
  | cons p ps ih =>
    rw [render]
    simp [t]
    omega

/-- C49: the replacement of the directives of one kind succeeds exactly for texts in which the keyword occurs only in
directives with a closing parenthesis and without one another in their arguments, and whose values are found; then each
directive is replaced by its value and all other text is kept. Everything else raises. -/
theorem directives_iff {key : Text} (hk : key ∈ [t "ENV", t "GETPATH", t "CMD"]) (f : Text → Except Err Text) (s out : Text) :
    replace key f s = .ok out ↔ ∃ (ps : List (Text × Text)) (vs : List Text) (last : Text), s = render key ps last ∧
      ¬ key <:+: last ∧ (∀ p ∈ ps, ¬ key <:+: p.1 ∧ ')' ∉ p.2 ∧ ¬ key <:+: p.2) ∧
      List.Forall₂ (fun p v => f p.2 = .ok v) ps vs ∧ out = filled ps vs last := by
  constructor
  · exact replaceN_inv hk f _ s out (by omega)
  · rintro ⟨ps, vs, last, rfl, h1, h2, h3, rfl⟩
    exact replaceN_render hk f last h1 ps vs _ h2 h3 (by have := render_length (key := key) ps last; omega)

/-! ### All directives -/

/-- The parts of a dependency string. -/
inductive Part
  | text (s : Text)
  | env (x : Text)
  | path (x : Text)
  | cmd (x : Text)
  deriving DecidableEq, Repr

def Part.written : Part → Text
  | .text s => s
  | .env x => t "ENV(" ++ x ++ t ")"
  | .path x => t "GETPATH(" ++ x ++ t ")"
  | .cmd x => t "CMD(" ++ x ++ t ")"

/-- The text of a list of parts. -/
def written (ps : List Part) : Text := (ps.map Part.written).flatten

/-- The value of a part in a world; `none` if it has none. -/
def Part.value (w : World) : Part → Option Text
  | .text s => some s
  | .env x => some ((w.env x).getD [])
  | .path x => some (getpath w.regs x)
  | .cmd x =>
    match w.run x with
    | none => none
    | some out =>
      match outputLines out with
      | [] => some []
      | [l] => some l
      | _ :: _ :: _ => none

/-- A text in which no keyword can begin or end: without the letters V, G and C. -/
def Free (s : Text) : Prop := 'V' ∉ s ∧ 'G' ∉ s ∧ 'C' ∉ s

/-- The text and the argument of a part. -/
def Part.arg : Part → Text
  | .text s => s
  | .env x => x
  | .path x => x
  | .cmd x => x

/-- The parts with the directives of one kind selected by `sel` as pairs. -/
def pairs (sel : Part → Option Text) : List Part → Text → List (Text × Text) × Text
  | [], acc => ([], acc)
  | p :: ps, acc =>
    match sel p with
    | some x => ((acc, x) :: (pairs sel ps []).1, (pairs sel ps []).2)
    | none => pairs sel ps (acc ++ p.written)

theorem pairs_render {key : Text} {sel : Part → Option Text}
    (hsel : ∀ p x, sel p = some x → p.written = key ++ t "(" ++ x ++ t ")") : ∀ (ps : List Part) (acc : Text),
    render key (pairs sel ps acc).1 (pairs sel ps acc).2 = acc ++ written ps
  | [], acc => by simp [pairs, render, written]
  | p :: ps, acc => by
    rw [pairs]
    cases h : sel p with
    | none =>
      simp only
      rw [pairs_render hsel ps]
      simp [written]
    | some x =>
      simp only [render]
      rw [pairs_render hsel ps, List.nil_append]
      simp [written, hsel p x h]

theorem pairs_mem {sel : Part → Option Text} (P : Text → Prop) : ∀ (ps : List Part) (acc : Text),
    (∀ p ∈ ps, ∀ x, sel p = some x → P x) → ∀ q ∈ (pairs sel ps acc).1, P q.2
  | [], acc, h, q, hq => by cases hq
  | p :: ps, acc, h, q, hq => by
    rw [pairs] at hq
    cases hs : sel p with
    | none =>
      rw [hs] at hq
      exact pairs_mem P ps _ (fun p' hp' => h p' (List.mem_cons_of_mem _ hp')) q hq
    | some x =>
      rw [hs] at hq
      rcases List.mem_cons.mp hq with rfl | hq
      · exact h p List.mem_cons_self x hs
      · exact pairs_mem P ps _ (fun p' hp' => h p' (List.mem_cons_of_mem _ hp')) q hq

theorem pairs_char {sel : Part → Option Text} (c : Char) : ∀ (ps : List Part) (acc : Text), c ∉ acc →
    (∀ p ∈ ps, sel p = none → c ∉ p.written) → (∀ q ∈ (pairs sel ps acc).1, c ∉ q.1) ∧ c ∉ (pairs sel ps acc).2
  | [], acc, ha, h => ⟨by simp [pairs], by simpa [pairs] using ha⟩
  | p :: ps, acc, ha, h => by
    rw [pairs]
    cases hs : sel p with
    | none =>
      refine pairs_char c ps _ ?_ fun p' hp' => h p' (List.mem_cons_of_mem _ hp')
      rw [List.mem_append, not_or]
      exact ⟨ha, h p List.mem_cons_self hs⟩
    | some x =>
      obtain ⟨h1, h2⟩ := pairs_char (sel := sel) c ps [] (by simp) fun p' hp' => h p' (List.mem_cons_of_mem _ hp')
      refine ⟨?_, h2⟩
      intro q hq
      rcases List.mem_cons.mp hq with rfl | hq
      · exact ha
      · exact h1 q hq

/-- The directives of one kind replaced by values. -/
def put (sel : Part → Option Text) (f : Text → Option Text) (p : Part) : Part :=
  match sel p with
  | some x => .text ((f x).getD [])
  | none => p

theorem pairs_filled {sel : Part → Option Text} {f : Text → Except Err Text} {g : Text → Option Text}
    (hf : ∀ x v, g x = some v → f x = .ok v) : ∀ (ps : List Part) (acc : Text),
    (∀ p ∈ ps, ∀ x, sel p = some x → g x ≠ none) → ∃ vs, List.Forall₂ (fun p v => f p.2 = .ok v) (pairs sel ps acc).1 vs ∧
      filled (pairs sel ps acc).1 vs (pairs sel ps acc).2 = acc ++ written (ps.map (put sel g))
  | [], acc, h => ⟨[], .nil, by simp [pairs, filled, written]⟩
  | p :: ps, acc, h => by
    rw [pairs]
    cases hs : sel p with
    | none =>
      obtain ⟨vs, h1, h2⟩ := pairs_filled hf ps (acc ++ p.written) fun p' hp' => h p' (List.mem_cons_of_mem _ hp')
      refine ⟨vs, h1, ?_⟩
      simp only [h2]
      simp [written, put, hs]
    | some x =>
      obtain ⟨vs, h1, h2⟩ := pairs_filled hf ps [] fun p' hp' => h p' (List.mem_cons_of_mem _ hp')
      obtain ⟨v, hv⟩ := Option.ne_none_iff_exists'.mp (h p List.mem_cons_self x hs)
      refine ⟨v :: vs, .cons (hf x v hv) h1, ?_⟩
      simp only [filled, h2]
      simp [written, put, hs, hv, Part.written]

theorem not_infix_of_char {c : Char} {key s : Text} (hk : c ∈ key) (h : c ∉ s) : ¬ key <:+: s :=
  fun hi => h (hi.subset hk)

theorem stage {key : Text} (hk : key ∈ keys) (c : Char) (hc : c ∈ key) {sel : Part → Option Text}
    (hsel : ∀ p x, sel p = some x → p.written = key ++ t "(" ++ x ++ t ")")
    {f : Text → Except Err Text} {g : Text → Option Text} (hf : ∀ x v, g x = some v → f x = .ok v) (ps : List Part)
    (hv : ∀ p ∈ ps, ∀ x, sel p = some x → g x ≠ none ∧ ')' ∉ x ∧ c ∉ x) (hn : ∀ p ∈ ps, sel p = none → c ∉ p.written) :
    replace key f (written ps) = .ok (written (ps.map (put sel g))) := by
  have hr := pairs_render hsel ps []
  rw [List.nil_append] at hr
  obtain ⟨vs, h1, h2⟩ := pairs_filled hf ps [] fun p hp x hx => (hv p hp x hx).1
  rw [List.nil_append] at h2
  obtain ⟨h3, h4⟩ := pairs_char c ps [] (by simp) hn
  rw [directives_iff hk]
  refine ⟨_, vs, _, hr.symm, not_infix_of_char hc h4, fun p hp => ?_, h1, h2.symm⟩
  have := pairs_mem (fun x => ')' ∉ x ∧ c ∉ x) ps [] (fun p hp x hx => (hv p hp x hx).2) p hp
  exact ⟨not_infix_of_char hc (h3 p hp), this.1, not_infix_of_char hc this.2⟩

def selEnv : Part → Option Text
  | .env x => some x
  | _ => none

def selPath : Part → Option Text
  | .path x => some x
  | _ => none

def selCmd : Part → Option Text
  | .cmd x => some x
  | _ => none

theorem written_V {p : Part} (h : 'V' ∉ p.arg) (hs : selEnv p = none) : 'V' ∉ p.written := by
  cases p <;> simp_all [Part.written, Part.arg, selEnv, t]

theorem written_G {p : Part} (h : 'G' ∉ p.arg) (hs : selPath p = none) : 'G' ∉ p.written := by
  cases p <;> simp_all [Part.written, Part.arg, selPath, t]

theorem written_C {p : Part} (h : 'C' ∉ p.arg) (hs : selCmd p = none) : 'C' ∉ p.written := by
  cases p <;> simp_all [Part.written, Part.arg, selCmd, t]

/-- C49: every directive is replaced by its value and all other text is kept, for texts, arguments and values without the
letters V, G and C, of which each keyword has one. What is missing are texts with these letters: there other text may be taken
for a keyword, see the negations. -/
theorem decode_partial (w : World) (ps : List Part) (vs : List Text) (hval : ps.map (Part.value w) = vs.map some)
    (harg : ∀ p ∈ ps, Free p.arg ∧ ((∃ s, p = .text s) ∨ ')' ∉ p.arg)) (hv : ∀ v ∈ vs, Free v) :
    decode w (written ps) = .ok vs.flatten := by
  have hval' : ∀ p ∈ ps, ∃ v, p.value w = some v ∧ Free v := by
    intro p hp
    have : p.value w ∈ vs.map some := hval ▸ List.mem_map_of_mem hp
    obtain ⟨v, hv', he⟩ := List.mem_map.mp this
    exact ⟨v, he.symm, hv v hv'⟩
  have e1 : replace (t "ENV") w.evalEnv (written ps) =
      .ok (written (ps.map (put selEnv fun x => some ((w.env x).getD [])))) := by
    refine stage (by decide) 'V' (by decide) ?_ (by intro x v h; cases h; rfl) ps ?_ ?_
    · intro p x h
      cases p <;> simp_all [selEnv, Part.written, t]
    · intro p hp x h
      have := harg p hp
      cases p <;> simp_all [selEnv, Part.arg, Free]
    · intro p hp h
      exact written_V (harg p hp).1.1 h
  have m1 : ∀ p ∈ ps.map (put selEnv fun x => some ((w.env x).getD [])), Free p.arg ∧ ((∃ s, p = .text s) ∨ ')' ∉ p.arg) := by
    intro p hp
    obtain ⟨q, hq, rfl⟩ := List.mem_map.mp hp
    have h1 := harg q hq
    obtain ⟨v, h2, h3⟩ := hval' q hq
    cases q <;> simp_all [put, selEnv, Part.arg, Part.value]
  have e2 : replace (t "GETPATH") w.evalPath (written (ps.map (put selEnv fun x => some ((w.env x).getD [])))) =
      .ok (written ((ps.map (put selEnv fun x => some ((w.env x).getD []))).map
        (put selPath fun x => some (getpath w.regs x)))) := by
    refine stage (by decide) 'G' (by decide) ?_ (by intro x v h; cases h; rfl) _ ?_ ?_
    · intro p x h
      cases p <;> simp_all [selPath, Part.written, t]
    · intro p hp x h
      have := m1 p hp
      clear m1
      cases p <;> simp_all [selPath, Part.arg, Free]
    · intro p hp h
      exact written_G (m1 p hp).1.2.1 h
  have m2 : ∀ p ∈ (ps.map (put selEnv fun x => some ((w.env x).getD []))).map
      (put selPath fun x => some (getpath w.regs x)), Free p.arg ∧ ((∃ s, p = .text s) ∨ ')' ∉ p.arg) := by
    intro p hp
    rw [List.map_map] at hp
    obtain ⟨q, hq, rfl⟩ := List.mem_map.mp hp
    have h1 := harg q hq
    obtain ⟨v, h2, h3⟩ := hval' q hq
    cases q <;> simp_all [put, selEnv, selPath, Part.arg, Part.value]
  have e3 : replace (t "CMD") (evalCmd w.run) (written ((ps.map (put selEnv fun x => some ((w.env x).getD []))).map
        (put selPath fun x => some (getpath w.regs x)))) =
      .ok (written (((ps.map (put selEnv fun x => some ((w.env x).getD []))).map
        (put selPath fun x => some (getpath w.regs x))).map (put selCmd fun x => (Part.cmd x).value w))) := by
    refine stage (by decide) 'C' (by decide) ?_ ?_ _ ?_ ?_
    · intro p x h
      cases p <;> simp_all [selCmd, Part.written, t]
    · intro x v h
      simp only [Part.value] at h
      rw [evalCmd]
      cases hr : w.run x with
      | none => simp [hr] at h
      | some out =>
        simp only [hr] at h ⊢
        split at h <;> simp_all
    · intro p hp x h
      have h1 := m2 p hp
      rw [List.map_map] at hp
      obtain ⟨q, hq, rfl⟩ := List.mem_map.mp hp
      obtain ⟨v, h2, h3⟩ := hval' q hq
      clear m1 m2 e1 e2
      cases q <;> simp only [Function.comp, put, selEnv, selPath, selCmd, Part.arg, Free] at h h1 <;> cases h
      refine ⟨by rw [h2]; simp, ?_, h1.1.2.2⟩
      rcases h1.2 with ⟨s, hs⟩ | h1
      · cases hs
      · exact h1
    · intro p hp h
      exact written_C (m2 p hp).1.2.2 h
  rw [decode, e1]
  simp only
  rw [e2]
  simp only
  rw [e3, List.map_map, List.map_map, written]
  congr 1
  rw [List.map_map]
  congr 1
  have : (ps.map fun p => some (Part.written (put selCmd (fun x => (Part.cmd x).value w) (put selPath
      (fun x => some (getpath w.regs x)) (put selEnv (fun x => some ((w.env x).getD [])) p))))) = vs.map some := by
    rw [← hval]
    apply List.map_congr_left
    intro p hp
    obtain ⟨v, h2, -⟩ := hval' p hp
    cases p <;> simp only [put, selEnv, selPath, selCmd, Part.written, Option.getD_some, Part.value]
    simp only [Part.value] at h2
    rw [h2]
    rfl
  have h2 := congrArg (List.map fun o : Option Text => o.getD []) this
  rw [List.map_map, List.map_map] at h2
  simpa [Function.comp_def] using h2

/-- A world with a variable, a registry with one file and a command. -/
def sampleWorld : World where
  env := fun x => if x = t "HOME" then some (t "/home/u") else if x = t "EVIL" then some (t "CMD(rm)") else
    if x = t "DIR" then some (t "/data/CMD") else none
  regs := [⟨fun x => x = t "a.c", fun _ => t "/lib/a.c"⟩]
  run := fun x => if x = t "nexus-conf --libs" then some (t "  -lneXus\n\n") else if x = t "rm" then some (t "deleted") else
    if x = t "echo $(pwd" then some (t "$(pwd") else if x = t "ls /home/u" then some (t "b") else none

example : decode sampleWorld (written [.text (t "-I"), .env (t "HOME"), .text (t " "), .path (t "a.c"), .text (t " "),
    .cmd (t "nexus-conf --libs")]) = .ok (t "-I/home/u /lib/a.c -lneXus") := by
  rw [decode_partial sampleWorld _ [t "-I", t "/home/u", t " ", t "/lib/a.c", t " ", t "-lneXus"] (by decide +kernel)
    (by
      intro p hp
      simp only [List.mem_cons, List.not_mem_nil, or_false] at hp
      rcases hp with rfl | rfl | rfl | rfl | rfl | rfl <;> simp [Free, Part.arg, t])
    (by unfold Free; decide)]
  decide

/-- C49: a directive in the argument of a later kind is replaced first. -/
theorem nested_directive : decode sampleWorld (t "x CMD(ls ENV(HOME)) y") = .ok (t "x b y") := by
  decide +kernel

/-! ### The values -/

/-- C49: a command has a value exactly if it succeeds and prints at most one line that is not blank; the value is that line
without the white space around it. -/
theorem command_value (run : Text → Option Text) (x v : Text) :
    evalCmd run x = .ok v ↔ ∃ out, run x = some out ∧
      (((out.splitOnP fun c => c = '\n' || c = '\r' || c = '\x0b' || c = '\x0c').map strip).filter (· ≠ []) = [v] ∨
        v = [] ∧ ∀ l ∈ out.splitOnP fun c => c = '\n' || c = '\r' || c = '\x0b' || c = '\x0c', strip l = []) := by
  have hnil : ∀ out : Text, outputLines out = [] ↔
      ∀ l ∈ out.splitOnP fun c => c = '\n' || c = '\r' || c = '\x0b' || c = '\x0c', strip l = [] := by
    intro out
    rw [outputLines, List.filter_eq_nil_iff]
    simp
  rw [evalCmd]
  cases hr : run x with
  | none => simp
  | some out =>
    simp only [Option.some.injEq, exists_eq_left']
    rw [← hnil, ← outputLines]
    have hne : outputLines out ≠ [[]] := by
      intro h
      have : ([] : Text) ∈ outputLines out := by rw [h]; simp
      rw [outputLines, List.mem_filter] at this
      simp at this
    cases ho : outputLines out with
    | nil =>
      simp [eq_comm]
    | cons l ls =>
      cases ls with
      | nil => simp
      | cons l' ls => simp

example : evalCmd sampleWorld.run (t "nexus-conf --libs") = .ok (t "-lneXus") := by decide +kernel

/-- C49: a file is looked up in the first registry that knows it; a file that none knows is replaced by the current directory
without an error. -/
theorem path_value (regs : List Registry) (x : Text) :
    (∀ a r b, regs = a ++ r :: b → (∀ r' ∈ a, r'.known x = false) → r.known x = true → getpath regs x = r.path x) ∧
    ((∀ r ∈ regs, r.known x = false) → getpath regs x = t ".") := by
  refine ⟨?_, ?_⟩
  · rintro a r b rfl ha hr
    have : (a ++ r :: b).find? (fun r => r.known x) = some r := by
      rw [List.find?_append, List.find?_eq_none.mpr (by simpa using ha)]
      simp [hr]
    rw [getpath, this]
  · intro h
    rw [getpath, List.find?_eq_none.mpr (by simpa using h)]

example : getpath sampleWorld.regs (t "b.c") = t "." := by decide +kernel

/-! ### What is broken -/

/-- C49, negation: a keyword without an argument raises, also as part of other text, whatever comes before and after. -/
theorem bare_keyword_refused {key : Text} (hk : key ∈ [t "ENV", t "GETPATH", t "CMD"]) (f : Text → Except Err Text)
    (a b : Text) (ha : ¬ key <:+: a) (hb : b.head? ≠ some '(') :
    replace key f (a ++ key ++ b) = .error (if b = [] then .indexError else .valueError) := by
  have hin : key <:+: a ++ (key ++ b) := ⟨a, b, by simp⟩
  rw [List.append_assoc, replace, replaceN, if_neg (not_not.mpr hin), partition_eq (key_ne hk) (key_first hk ha)]
  cases b with
  | nil => rfl
  | cons c b =>
    have : c ≠ '(' := by simpa using hb
    simp [this]

/-- C49, negation: an ordinary flag with the name of a directive in it is refused. -/
theorem flag_refused : decode sampleWorld (t "-DENVIRONMENT=1") = .error .valueError ∧
    decode sampleWorld (t "-DCMD") = .error .indexError := by
  decide +kernel

/-- C49, negation: the value of a variable is searched for directives again; a command in it is run, and one with the name of a
directive in it is refused. -/
theorem value_scanned_again : decode sampleWorld (t "ENV(EVIL)") = .ok (t "deleted") ∧
    decode sampleWorld (t "-IENV(DIR)") = .error .indexError := by
  decide +kernel

/-- C49, negation: an argument ends at the first closing parenthesis, so that a command with parentheses is cut. -/
theorem parentheses_cut : decode sampleWorld (t "CMD(echo $(pwd))") = .ok (t "$(pwd)") := by
  decide +kernel

end Verif.Depend
