import Mathlib.Data.List.Infix

/-!
C103: the view of an instrument as HTML (`Instr._my_repr_html_`, src/mccode_antlr/instr/instr.py 88-117), as far as it is made by
`HTMLWrapper` (src/mccode_antlr/common/textwrap.py 222-326). What a browser shows of HTML text is simplified: a tag begins with `<`
before a letter, `/`, `!` or `?` and ends with the next `>`; the character references are those `html.escape` makes.
-/

namespace Verif.Html

abbrev Text := List Char

/-! ### What is shown of HTML text -/

/-- Whether `<` before this text begins a tag (HTML standard 13.2.5.6, tag open state). -/
def opens : Text → Bool
  | c :: _ => c.isAlpha || c == '/' || c == '!' || c == '?'
  | [] => false

/-- Character references behind `&`. -/
def refs : List (Text × Char) :=
  [("amp;".toList, '&'), ("lt;".toList, '<'), ("gt;".toList, '>'), ("quot;".toList, '"'), ("#x27;".toList, '\'')]

/-- The reference at the beginning of the text behind `&`: the character and the length without the last `;`. -/
def ref (r : Text) : Option (Char × Nat) := (refs.find? fun x => x.1.isPrefixOf r).map fun x => (x.2, x.1.length - 1)

/-- In text, in a tag, or in a character reference with so many characters before its last. -/
inductive St
  | text
  | tag
  | skip (n : Nat)

/-- The text shown. -/
def shown : St → Text → Text
  | _, [] => []
  | .skip 0, _ :: r => shown .text r
  | .skip (n + 1), _ :: r => shown (.skip n) r
  | .tag, c :: r => if c = '>' then shown .text r else shown .tag r
  | .text, c :: r =>
    if c = '<' ∧ opens r = true then shown .tag r
    else if c = '&' then
      match ref r with
      | some (d, n) => d :: shown (.skip n) r
      | none => '&' :: shown .text r
    else c :: shown .text r

/-! ### The wrapper -/

/-- `html.escape` of a character. -/
def escapeChar (c : Char) : Text :=
  if c = '&' then "&amp;".toList else if c = '<' then "&lt;".toList else if c = '>' then "&gt;".toList
  else if c = '"' then "&quot;".toList else if c = '\'' then "&#x27;".toList else [c]

/-- `HTMLWrapper.escape` (textwrap.py 295-298). -/
def escape (s : Text) : Text := s.flatMap escapeChar

/-- `HTMLWrapper.value` (textwrap.py 269-270). -/
def value (s : Text) : Text := "<code>".toList ++ escape s ++ "</code>".toList

/-- `HTMLWrapper.parameter` (textwrap.py 261-263). -/
def parameter (s : Text) : Text := "<var>".toList ++ s ++ "</var>".toList

/-- `HTMLWrapper.bold` (textwrap.py 304-306). -/
def bold (s : Text) : Text := "<b style=\"font-size:small\">".toList ++ s ++ "</b>".toList

/-- `HTMLWrapper.hide` (textwrap.py 316-324) for a text that is not blank; `uuid` is random. -/
def hide (uuid s : Text) : Text :=
  "<span class=\"hider\" data-id=\"".toList ++ uuid ++ "\"><span class=\"hidden\" id=\"".toList ++ uuid ++ "\">".toList ++ s ++
    "</span></span>".toList

/-- `HTMLWrapper.block` (textwrap.py 241-242). -/
def block (uuid name content : Text) : Text :=
  bold name ++ " %{".toList ++ hide uuid ("<pre>".toList ++ content ++ "</pre><br>".toList) ++ "%} ".toList

/-- `HTMLWrapper.metadata_group` (textwrap.py 253-255). -/
def metadataGroup (name mimetype item content : Text) : Text :=
  "<b>".toList ++ name ++ "</b> <code>\"".toList ++ mimetype ++ "\"</code>\" <var>".toList ++ item ++ "</var> %{<pre>".toList ++
    content ++ "</pre>%}".toList

/-! ### Text in HTML -/

/-- Text that is shown as it is: no `<` in it begins a tag and no `&` a character reference. -/
def Plain (t : Text) : Prop := ∀ (u v : Text) (c : Char), t = u ++ c :: v → (c = '<' → opens v = false) ∧ (c = '&' → ref v = none)

theorem prefix_append_lt (p v w : Text) (hp : '<' ∉ p) : p.isPrefixOf (v ++ '<' :: w) = p.isPrefixOf v := by
  induction p generalizing v with
  | nil => simp
  | cons a p ih =>
    simp only [List.mem_cons, not_or] at hp
    cases v with
    | nil =>
      have : (a == '<') = false := by simpa using fun h : a = '<' => hp.1 h.symm
      simp [List.isPrefixOf, this]
    | cons b v => simp [List.isPrefixOf, ih v hp.2]

theorem refs_no_lt : ∀ x ∈ refs, '<' ∉ x.1 := by decide +kernel

theorem ref_append_lt (v w : Text) : ref (v ++ '<' :: w) = ref v := by
  have : (fun x : Text × Char => x.1.isPrefixOf (v ++ '<' :: w)) = fun x => x.1.isPrefixOf (v ++ '<' :: w) := rfl
  simp only [ref]
  congr 1
  have : ∀ l : List (Text × Char), (∀ x ∈ l, '<' ∉ x.1) →
      l.find? (fun x => x.1.isPrefixOf (v ++ '<' :: w)) = l.find? fun x => x.1.isPrefixOf v := by
    intro l hl
    induction l with
    | nil => rfl
    | cons a l ih =>
      simp only [List.find?_cons, prefix_append_lt a.1 v w (hl a (by simp))]
      rw [ih (fun x hx => hl x (by simp [hx]))]
  exact this refs refs_no_lt

theorem opens_append_lt (v w : Text) : opens (v ++ '<' :: w) = opens v := by
  cases v with
  | nil =>
    have : '<'.isAlpha = false := by decide +kernel
    simp [opens, this]
  | cons c v => rfl

theorem Plain.tail {c : Char} {t : Text} (h : Plain (c :: t)) : Plain t := fun u v d hd => h (c :: u) v d (by simp [hd])

theorem shown_plain (t w : Text) (h : Plain t) : shown .text (t ++ '<' :: w) = t ++ shown .text ('<' :: w) := by
  induction t with
  | nil => rfl
  | cons c t ih =>
    obtain ⟨h1, h2⟩ := h [] t c rfl
    rw [List.cons_append, shown, opens_append_lt, ref_append_lt]
    by_cases hl : c = '<'
    · subst hl
      rw [if_neg (by simp [h1 rfl]), if_neg (by decide), ih h.tail]
      rfl
    · rw [if_neg (by simp [hl])]
      by_cases ha : c = '&'
      · subst ha
        rw [if_pos rfl, h2 rfl, ih h.tail]
        rfl
      · rw [if_neg ha, ih h.tail]
        rfl

/-- A tag shows nothing. -/
theorem shown_tag (t w : Text) (h : '>' ∉ t) : shown .tag (t ++ '>' :: w) = shown .text w := by
  induction t with
  | nil => simp [shown]
  | cons c t ih =>
    simp only [List.mem_cons, not_or] at h
    rw [List.cons_append, shown, if_neg (fun hc => h.1 hc.symm), ih h.2]

theorem shown_open (c : Char) (t w : Text) (hc : opens [c] = true) (h : '>' ∉ c :: t) :
    shown .text ('<' :: c :: (t ++ '>' :: w)) = shown .text w := by
  rw [shown, if_pos ⟨rfl, hc⟩]
  exact shown_tag (c :: t) w h

theorem ref_length (v : Text) (d : Char) (n : Nat) (h : ref v = some (d, n)) : n < v.length ∧ 2 ≤ n := by
  simp only [ref, Option.map_eq_some_iff, Prod.mk.injEq] at h
  obtain ⟨x, hx, _, hn⟩ := h
  have hp := List.find?_some hx
  have hm := List.mem_of_find?_eq_some hx
  have hl : x.1.length ≤ v.length := (List.isPrefixOf_iff_prefix.1 hp).length_le
  have : 3 ≤ x.1.length := by
    have : ∀ y ∈ refs, 3 ≤ y.1.length := by decide +kernel
    exact this x hm
  omega

/-- How many characters a state has still to pass over. -/
def St.rest : St → Nat
  | .skip n => n + 1
  | _ => 0

/-- No more is shown than there is, when what follows is the same in text and in a tag. -/
theorem shown_le (w : Text) (hw : shown .tag ('<' :: w) = shown .text ('<' :: w)) : ∀ (v : Text) (st : St), st.rest ≤ v.length →
    (shown st (v ++ '<' :: w)).length + st.rest ≤ v.length + (shown .text ('<' :: w)).length := by
  generalize hK : (shown .text ('<' :: w)).length = K
  intro v
  induction v with
  | nil =>
    intro st hst
    cases st with
    | text => simp [St.rest, hK]
    | tag => simp [St.rest, hw, hK]
    | skip n => simp [St.rest] at hst
  | cons c v ih =>
    intro st hst
    rw [List.cons_append]
    cases st with
    | skip n =>
      cases n with
      | zero =>
        have := ih .text (by simp [St.rest])
        simp only [shown, St.rest, List.length_cons] at *
        omega
      | succ n =>
        have := ih (.skip n) (by simp only [St.rest, List.length_cons] at *; omega)
        simp only [shown, St.rest, List.length_cons] at *
        omega
    | tag =>
      have h1 := ih .text (by simp [St.rest])
      have h2 := ih .tag (by simp [St.rest])
      simp only [shown, St.rest, List.length_cons] at *
      split_ifs <;> omega
    | text =>
      have h1 := ih .text (by simp [St.rest])
      have h2 := ih .tag (by simp [St.rest])
      rw [shown, opens_append_lt, ref_append_lt]
      simp only [St.rest, List.length_cons] at *
      split_ifs
      · omega
      · cases hr : ref v with
        | none => simp only [List.length_cons]; omega
        | some p =>
          obtain ⟨d, n⟩ := p
          have h3 := ih (.skip n) (by simp only [St.rest]; have := ref_length v d n hr; omega)
          simp only [St.rest, List.length_cons] at *
          omega
      · simp only [List.length_cons]; omega

/-- Text that is not plain is shown shorter than it is. -/
theorem shown_lt (w : Text) (hw : shown .tag ('<' :: w) = shown .text ('<' :: w)) (t : Text) (h : ¬ Plain t) :
    (shown .text (t ++ '<' :: w)).length < t.length + (shown .text ('<' :: w)).length := by
  have hle := shown_le w hw
  generalize (shown .text ('<' :: w)).length = K at hle ⊢
  induction t with
  | nil =>
    exact absurd (fun u v c hc => by simp at hc) h
  | cons c t ih =>
    rw [List.cons_append, shown, opens_append_lt, ref_append_lt]
    by_cases ho : c = '<' ∧ opens t = true
    · rw [if_pos ho]
      have := hle t .tag (by simp [St.rest])
      simp only [St.rest, List.length_cons] at *
      omega
    · rw [if_neg ho]
      by_cases ha : c = '&'
      · rw [if_pos ha]
        cases hr : ref t with
        | some p =>
          obtain ⟨d, n⟩ := p
          obtain ⟨hl, h2⟩ := ref_length t d n hr
          have := hle t (.skip n) (by simp only [St.rest]; omega)
          simp only [St.rest, List.length_cons] at *
          omega
        | none =>
          have : ¬ Plain t := by
            intro hp
            apply h
            intro u v d hd
            cases u with
            | nil =>
              simp only [List.nil_append, List.cons.injEq] at hd
              obtain ⟨rfl, rfl⟩ := hd
              exact ⟨fun hc => by simpa [hc] using ho, fun _ => hr⟩
            | cons e u =>
              simp only [List.cons_append, List.cons.injEq] at hd
              exact hp u v d hd.2
          have := ih this
          simp only [List.length_cons]
          omega
      · rw [if_neg ha]
        have : ¬ Plain t := by
          intro hp
          apply h
          intro u v d hd
          cases u with
          | nil =>
            simp only [List.nil_append, List.cons.injEq] at hd
            obtain ⟨rfl, rfl⟩ := hd
            exact ⟨fun hc => by simpa [hc] using ho, fun hc => absurd hc ha⟩
          | cons e u =>
            simp only [List.cons_append, List.cons.injEq] at hd
            exact hp u v d hd.2
        have := ih this
        simp only [List.length_cons]
        omega

theorem shown_escapeChar (c : Char) (r : Text) : shown .text (escapeChar c ++ r) = c :: shown .text r := by
  simp only [escapeChar]
  split_ifs with h1 h2 h3 h4 h5
  · subst h1; simp [shown, ref, refs]
  · subst h2; simp [shown, ref, refs]
  · subst h3; simp [shown, ref, refs]
  · subst h4; simp [shown, ref, refs]
  · subst h5; simp [shown, ref, refs]
  · rw [List.singleton_append, shown, if_neg (by simp [h2]), if_neg h1]

theorem shown_escape (s r : Text) : shown .text (escape s ++ r) = s ++ shown .text r := by
  induction s with
  | nil => rfl
  | cons c s ih =>
    have : escape (c :: s) = escapeChar c ++ escape s := rfl
    rw [this, List.append_assoc, shown_escapeChar, ih]
    rfl

/-- C103: the value of a parameter is shown as it is, whatever text it is. -/
theorem value_shown (s r : Text) : shown .text (value s ++ r) = s ++ shown .text r := by
  have h1 : ∀ w, shown .text ("<code>".toList ++ w) = shown .text w := fun w => shown_open 'c' "ode".toList w (by decide +kernel) (by decide +kernel)
  have h2 : ∀ w, shown .text ("</code>".toList ++ w) = shown .text w := fun w => shown_open '/' "code".toList w (by decide +kernel) (by decide +kernel)
  simp only [value, List.append_assoc]
  rw [h1, shown_escape, h2]

/-- C103: a condition, as written by `Instance.to_file` behind WHEN (instance.py 48), is shown as it is. -/
theorem escape_shown (s r : Text) : shown .text (escape s ++ r) = s ++ shown .text r := shown_escape s r

/-- A tag written out. -/
def isTag (t : Text) : Bool := t.head? == some '<' && opens t.tail && t.getLast? == some '>' && !t.dropLast.contains '>'

theorem shown_isTag (t w : Text) (h : isTag t = true) : shown .text (t ++ w) = shown .text w := by
  simp only [isTag, Bool.and_eq_true, beq_iff_eq, Bool.not_eq_true'] at h
  obtain ⟨⟨⟨h1, h2⟩, h3⟩, h4⟩ := h
  cases t with
  | nil => cases h1
  | cons a t =>
    simp only [List.head?_cons, Option.some.injEq] at h1
    subst h1
    rw [List.tail_cons] at h2
    cases t with
    | nil => cases h2
    | cons c t =>
      have hne : ('<' :: c :: t) ≠ [] := by simp
      have hl := List.dropLast_append_getLast hne
      have hg : ('<' :: c :: t).getLast hne = '>' := by
        rw [List.getLast?_eq_some_getLast hne] at h3
        simpa using h3
      rw [hg] at hl
      have h5 : '>' ∉ (c :: t).dropLast := by
        intro hc
        rw [← Bool.not_eq_true, List.contains_iff_mem] at h4
        apply h4
        rw [List.dropLast_cons_of_ne_nil (by simp)]
        exact List.mem_cons_of_mem _ hc
      have h6 : (c :: t).dropLast ++ ['>'] = c :: t := by
        rw [List.dropLast_cons_of_ne_nil (by simp), List.cons_append] at hl
        exact (List.cons.inj hl).2
      have h7 : opens (c :: t ++ w) = true := h2
      rw [List.cons_append, shown, if_pos ⟨rfl, h7⟩, ← h6, List.append_assoc]
      exact shown_tag _ _ h5

theorem isTag_span (a uuid b : Text) (hu : '>' ∉ uuid) (ha : 2 ≤ a.length) (h : isTag (a ++ b) = true) (hb : b ≠ []) :
    isTag (a ++ (uuid ++ b)) = true := by
  match a, ha with
  | x :: y :: a, _ =>
    simp only [isTag, Bool.and_eq_true, beq_iff_eq, Bool.not_eq_true', List.cons_append, List.head?_cons, List.tail_cons] at h ⊢
    obtain ⟨⟨⟨h1, h2⟩, h3⟩, h4⟩ := h
    refine ⟨⟨⟨h1, h2⟩, ?_⟩, ?_⟩
    · rw [← List.cons_append, ← List.cons_append, List.getLast?_append_of_ne_nil _ hb] at h3
      rw [← List.cons_append, ← List.cons_append, ← List.append_assoc, List.getLast?_append_of_ne_nil _ hb]
      exact h3
    · rw [← Bool.not_eq_true, List.contains_iff_mem] at h4 ⊢
      rw [← List.cons_append, ← List.cons_append, List.dropLast_append_of_ne_nil hb] at h4
      rw [← List.cons_append, ← List.cons_append, ← List.append_assoc, List.dropLast_append_of_ne_nil hb]
      simp only [List.mem_append] at h4 ⊢
      tauto

/-- Plain text before a tag is shown as it is. -/
theorem shown_plain_tag (p t w : Text) (hp : Plain p) (h : isTag t = true) : shown .text (p ++ (t ++ w)) = p ++ shown .text w := by
  have ht := shown_isTag t w h
  cases t with
  | nil => simp [isTag] at h
  | cons c t =>
    have hc : c = '<' := by
      simp only [isTag, Bool.and_eq_true, beq_iff_eq, List.head?_cons, Option.some.injEq] at h
      exact h.1.1.1
    subst hc
    rw [List.cons_append] at ht ⊢
    rw [shown_plain p _ hp, ht]

/-- Texts without the two characters are plain. -/
theorem plain_of_neither (t : Text) (h : '<' ∉ t ∧ '&' ∉ t) : Plain t := by
  intro u v c hc
  subst hc
  simp only [List.mem_append, List.mem_cons, not_or] at h
  exact ⟨fun e => absurd e.symm h.1.2.1, fun e => absurd e.symm h.2.2.1⟩

theorem shown_neither (t w : Text) (h : '<' ∉ t ∧ '&' ∉ t) : shown .text (t ++ w) = t ++ shown .text w := by
  induction t with
  | nil => rfl
  | cons c t ih =>
    simp only [List.mem_cons, not_or] at h
    rw [List.cons_append, shown, if_neg (fun hc => h.1.1 hc.1.symm), if_neg (fun hc => h.2.1 hc.symm), ih ⟨h.1.2, h.2.2⟩]
    rfl

/-- What follows the text of a section. -/
def blockEnd (r : Text) : Text :=
  '/' :: ("pre".toList ++ '>' :: ("<br>".toList ++ ("</span>".toList ++ ("</span>".toList ++ ("%} ".toList ++ r)))))

theorem block_eq (uuid name content r : Text) : block uuid name content ++ r = "<b style=\"font-size:small\">".toList ++ (name ++ ("</b>".toList ++ (" %{".toList ++
    (("<span class=\"hider\" data-id=\"".toList ++ (uuid ++ "\">".toList)) ++ (("<span class=\"hidden\" id=\"".toList ++ (uuid ++ "\">".toList)) ++
    ("<pre>".toList ++ (content ++ ("</pre><br>".toList ++ ("</span></span>".toList ++ ("%} ".toList ++ r)))))))))) := by
  have s3 : "\"><span class=\"hidden\" id=\"".toList = "\">".toList ++ "<span class=\"hidden\" id=\"".toList := by decide +kernel
  unfold block bold hide
  rw [s3]
  simp only [List.append_assoc]

theorem shown_block (uuid name content r : Text) (hu : '>' ∉ uuid) (hn : Plain name) :
    shown .text (block uuid name content ++ r) = name ++ (" %{".toList ++ shown .text (content ++ '<' :: blockEnd r)) := by
  have t1 : isTag ("<span class=\"hider\" data-id=\"".toList ++ (uuid ++ "\">".toList)) = true :=
    isTag_span _ uuid _ hu (by decide +kernel) (by decide +kernel) (by decide +kernel)
  have t2 : isTag ("<span class=\"hidden\" id=\"".toList ++ (uuid ++ "\">".toList)) = true :=
    isTag_span _ uuid _ hu (by decide +kernel) (by decide +kernel) (by decide +kernel)
  have he : ("</pre><br>".toList ++ ("</span></span>".toList ++ ("%} ".toList ++ r))) = '<' :: blockEnd r := by
    have e1 : "</pre><br>".toList = '<' :: '/' :: ("pre".toList ++ '>' :: "<br>".toList) := by decide +kernel
    have e2 : "</span></span>".toList = "</span>".toList ++ "</span>".toList := by decide +kernel
    have : ∀ (a b c d e f : Text), a = '<' :: '/' :: (c ++ '>' :: d) → b = e ++ e →
        a ++ (b ++ (f ++ r)) = '<' :: '/' :: (c ++ '>' :: (d ++ (e ++ (e ++ (f ++ r))))) := by
      intro a b c d e f ha hb
      subst ha hb
      simp
    exact this _ _ _ _ _ _ e1 e2
  refine (congrArg _ (block_eq uuid name content r)).trans ?_
  refine (shown_isTag _ _ (by decide +kernel)).trans ?_
  refine (shown_plain_tag _ _ _ hn (by decide +kernel)).trans ?_
  refine congrArg _ ?_
  refine (shown_plain_tag _ _ _ (plain_of_neither _ (by decide +kernel)) t1).trans ?_
  refine congrArg _ ?_
  refine (shown_isTag _ _ t2).trans ?_
  refine (shown_isTag _ _ (by decide +kernel)).trans ?_
  exact congrArg (fun x => shown .text (content ++ x)) he

theorem shown_end (r : Text) : shown .text ('<' :: blockEnd r) = "%} ".toList ++ shown .text r ∧
    shown .tag ('<' :: blockEnd r) = "%} ".toList ++ shown .text r := by
  have h : shown .text ("<br>".toList ++ ("</span>".toList ++ ("</span>".toList ++ ("%} ".toList ++ r)))) = "%} ".toList ++ shown .text r :=
    (shown_isTag _ _ (by decide +kernel)).trans ((shown_isTag _ _ (by decide +kernel)).trans ((shown_isTag _ _ (by decide +kernel)).trans
      (shown_neither _ _ (by decide +kernel))))
  constructor
  · exact (shown_open '/' _ _ (by decide +kernel) (by decide +kernel)).trans h
  · exact (shown_tag ('<' :: '/' :: "pre".toList) _ (by decide +kernel)).trans h

/-- C103: the text of a section is shown as it is iff it is plain: no `<` in it begins a tag and no `&` a character reference. -/
theorem block_shown_iff (uuid name content r : Text) (hu : '>' ∉ uuid) (hn : Plain name) :
    shown .text (block uuid name content ++ r) = name ++ " %{".toList ++ content ++ "%} ".toList ++ shown .text r ↔ Plain content := by
  obtain ⟨h1, h2⟩ := shown_end r
  rw [shown_block uuid name content r hu hn]
  constructor
  · intro h
    by_contra hp
    have hl := shown_lt (blockEnd r) (h2.trans h1.symm) content hp
    simp only [List.append_assoc, List.append_cancel_left_eq] at h
    rw [h, h1] at hl
    simp at hl
  · intro hp
    rw [shown_plain content _ hp, h1]
    simp

/-- C103 does not hold for sections: a file that is included by its name in angle brackets is not shown. -/
theorem include_not_shown (uuid name file before after r : Text) (hu : '>' ∉ uuid) (hn : Plain name) (c : Char) (hc : c.isAlpha = true) :
    shown .text (block uuid name (before ++ "#include <".toList ++ c :: file ++ ">".toList ++ after) ++ r) ≠
      name ++ " %{".toList ++ (before ++ "#include <".toList ++ c :: file ++ ">".toList ++ after) ++ "%} ".toList ++ shown .text r := by
  intro h
  have hp := (block_shown_iff uuid name _ r hu hn).1 h
  have := (hp (before ++ "#include ".toList) (c :: file ++ ">".toList ++ after) '<' (by simp)).1 rfl
  simp [opens, hc] at this

theorem regroup (b name b1 mime c1 item v1 content p1 r x1 x2 x3 x4 y1 y2 y3 y4 z1 z2 w1 w2 : Text)
    (s1 : b1 = x1 ++ (x2 ++ (x3 ++ x4))) (s2 : c1 = y1 ++ (y2 ++ (y3 ++ y4))) (s3 : v1 = z1 ++ (z2 ++ w1)) (s4 : p1 = w2 ++ r) (q : Text) :
    b ++ name ++ b1 ++ mime ++ c1 ++ item ++ v1 ++ content ++ p1 ++ q = b ++ (name ++ (x1 ++ (x2 ++ (x3 ++ (x4 ++ ((mime ++ y1) ++ (y2 ++
      (y3 ++ (y4 ++ (item ++ (z1 ++ (z2 ++ (w1 ++ (content ++ (w2 ++ (r ++ q)))))))))))))))) := by
  subst s1 s2 s3 s4
  simp only [List.append_assoc]

/-- C103 does not hold for metadata: there is a quotation mark too many, even if all parts are plain. -/
theorem metadata_extra_quote (name mimetype item content r : Text) (h1 : Plain name) (h2 : Plain mimetype) (h3 : Plain item)
    (h4 : Plain content) : shown .text (metadataGroup name mimetype item content ++ r) =
      name ++ " \"".toList ++ mimetype ++ "\"\" ".toList ++ item ++ " %{".toList ++ content ++ "%}".toList ++ shown .text r := by
  have hm : metadataGroup name mimetype item content ++ r = "<b>".toList ++ (name ++ ("</b>".toList ++ (" ".toList ++ ("<code>".toList ++
      ("\"".toList ++ ((mimetype ++ ['"']) ++ ("</code>".toList ++ ("\" ".toList ++ ("<var>".toList ++ (item ++ ("</var>".toList ++ (" %{".toList ++
      ("<pre>".toList ++ (content ++ ("</pre>".toList ++ ("%}".toList ++ r)))))))))))))))) := by
    have s1 : "</b> <code>\"".toList = "</b>".toList ++ (" ".toList ++ ("<code>".toList ++ "\"".toList)) := by decide +kernel
    have s2 : "\"</code>\" <var>".toList = ['"'] ++ ("</code>".toList ++ ("\" ".toList ++ "<var>".toList)) := by decide +kernel
    have s3 : "</var> %{<pre>".toList = "</var>".toList ++ (" %{".toList ++ "<pre>".toList) := by decide +kernel
    have s4 : "</pre>%}".toList = "</pre>".toList ++ "%}".toList := by decide +kernel
    exact regroup _ _ _ _ _ _ _ _ _ _ _ _ _ _ _ _ _ _ _ _ _ _ s1 s2 s3 s4 _
  have hq : Plain (mimetype ++ ['"']) := by
    intro u v c hc
    rcases List.append_eq_append_iff.1 hc with ⟨a, ha, hb⟩ | ⟨a, ha, hb⟩
    · cases a with
      | nil =>
        simp only [List.nil_append, List.cons.injEq] at hb
        rw [← hb.1]; exact ⟨fun h => absurd h (by decide), fun h => absurd h (by decide)⟩
      | cons x a => simp at hb
    · cases a with
      | nil =>
        simp only [List.nil_append, List.cons.injEq] at hb
        rw [hb.1]; exact ⟨fun h => absurd h (by decide), fun h => absurd h (by decide)⟩
      | cons x a =>
        simp only [List.cons_append, List.cons.injEq] at hb
        obtain ⟨rfl, rfl⟩ := hb
        obtain ⟨g1, g2⟩ := h2 u a c ha
        refine ⟨fun h => ?_, fun h => ?_⟩
        · have := g1 h
          cases a with
          | nil => decide +kernel
          | cons y a => exact this
        · have := g2 h
          simp only [ref, Option.map_eq_none_iff, List.find?_eq_none, Bool.not_eq_true] at this ⊢
          intro x hx
          have h5 := this x hx
          have : ∀ y ∈ refs, '"' ∉ y.1 := by decide +kernel
          have h6 := this x hx
          rw [Bool.eq_false_iff] at h5 ⊢
          intro hpre
          apply h5
          rw [List.isPrefixOf_iff_prefix] at hpre ⊢
          rcases List.prefix_concat_iff.1 hpre with he | he
          · exact absurd (by rw [he]; simp) h6
          · exact he
  have hs : name ++ " \"".toList ++ mimetype ++ "\"\" ".toList ++ item ++ " %{".toList ++ content ++ "%}".toList ++ shown .text r =
      name ++ (" ".toList ++ ("\"".toList ++ ((mimetype ++ ['"']) ++ ("\" ".toList ++ (item ++ (" %{".toList ++ (content ++ ("%}".toList ++
        shown .text r)))))))) := by
    have s1 : " \"".toList = " ".toList ++ "\"".toList := by decide +kernel
    have s2 : "\"\" ".toList = ['"'] ++ "\" ".toList := by decide +kernel
    rw [s1, s2]
    simp only [List.append_assoc]
  refine (congrArg _ hm).trans (Eq.trans ?_ hs.symm)
  refine (shown_isTag _ _ (by decide +kernel)).trans ?_
  refine (shown_plain_tag _ _ _ h1 (by decide +kernel)).trans (congrArg _ ?_)
  refine (shown_plain_tag _ _ _ (plain_of_neither _ (by decide +kernel)) (by decide +kernel)).trans (congrArg _ ?_)
  refine (shown_neither _ _ (by decide +kernel)).trans (congrArg _ ?_)
  refine (shown_plain_tag _ _ _ hq (by decide +kernel)).trans (congrArg _ ?_)
  refine (shown_plain_tag _ _ _ (plain_of_neither _ (by decide +kernel)) (by decide +kernel)).trans (congrArg _ ?_)
  refine (shown_plain_tag _ _ _ h3 (by decide +kernel)).trans (congrArg _ ?_)
  refine (shown_plain_tag _ _ _ (plain_of_neither _ (by decide +kernel)) (by decide +kernel)).trans (congrArg _ ?_)
  refine (shown_plain_tag _ _ _ h4 (by decide +kernel)).trans (congrArg _ ?_)
  exact shown_neither _ _ (by decide +kernel)

example : shown .text (value "a<b & \"c\"".toList) = "a<b & \"c\"".toList := by decide +kernel
example : shown .text (block "g-1".toList "DECLARE".toList "#include <math.h>\ndouble x;".toList) =
    "DECLARE %{#include \ndouble x;%} ".toList := by decide +kernel
/-- The hypotheses are met. -/
example : Plain "double x = 1;".toList ∧ '>' ∉ "g-0123".toList := ⟨plain_of_neither _ (by decide +kernel), by decide +kernel⟩
example : shown .text (block "g-1".toList "TRACE".toList "for (i = 0; i < n; i++)".toList) = "TRACE %{for (i = 0; i < n; i++)%} ".toList := by
  decide +kernel

end Verif.Html
