import Verif.CDecl.Model
import Mathlib.Tactic.Push
import Mathlib.Data.List.Infix

/-!
C36: the sizes deduced from an initializer list. A rectangular list of shape `d₁, ..., dₖ` with entries free of braces and
commas gives `(d₁, ..., dₖ)`; the sizes are used for the dimensions left open in the declaration. An array with an
initial value without braces, such as a text, makes the translation fail.
-/

namespace Verif.CDecl

/-- No braces and no commas. -/
def Plain (t : List Char) : Prop := ∀ c ∈ t, c ≠ '{' ∧ c ≠ '}' ∧ c ≠ ','

/-- The items of a list, with commas between them. -/
def joinComma : List (List Char) → List Char
  | [] => []
  | [t] => t
  | t :: ts => t ++ ',' :: joinComma ts

/-- The text of an initializer of the given shape, with any text free of braces and commas (as blanks) around each brace. -/
inductive Rect : List Nat → List Char → Prop
  | entry (t : List Char) : Plain t → Rect [] t
  | list (d : Nat) (ds : List Nat) (pre post : List Char) (items : List (List Char)) : Plain pre → Plain post →
      items.length = d → 0 < d → (∀ t ∈ items, Rect ds t) → Rect (d :: ds) (pre ++ '{' :: joinComma items ++ '}' :: post)

theorem inner_cons_ne (fuel : Nat) (c : Char) (t : List Char) (h : c ≠ '{') :
    inner (fuel + 1) (c :: t) = ((inner fuel t).1, c :: (inner fuel t).2) := by
  rw [inner, if_neg h]

theorem plainChar_of {t : List Char} (h : Plain t) : ∀ c ∈ t, plainChar c = true := by
  intro c hc
  have := h c hc
  simp [plainChar, this.1, this.2.1]

/-- Enough fuel is enough. -/
theorem inner_fuel : ∀ (t : List Char) (m n : Nat), t.length < m → t.length < n → inner m t = inner n t := by
  intro t
  induction hl : t.length using Nat.strong_induction_on generalizing t with
  | _ k ih =>
    intro m n hm hn
    cases m with
    | zero => omega
    | succ m =>
      cases n with
      | zero => omega
      | succ n =>
        cases t with
        | nil => rfl
        | cons c t =>
          simp only [List.length_cons] at hl
          have ht := ih t.length (by omega) t rfl m n (by omega) (by omega)
          rw [inner, inner]
          by_cases hc : c = '{'
          · rw [if_pos hc, if_pos hc]
            have hlen : (t.dropWhile plainChar).length ≤ t.length := (List.dropWhile_suffix _).length_le
            generalize hd : t.dropWhile plainChar = d at hlen
            rcases d with _ | ⟨x, rest⟩
            · simp only [ht]
            · by_cases hx : x = '}'
              · subst hx
                simp only [List.length_cons] at hlen
                have := ih rest.length (by omega) rest rfl m n (by omega) (by omega)
                simp only [this]
              · split
                · rename_i h; simp at h; exact absurd h.1 hx
                · rw [ht]
          · rw [if_neg hc, if_neg hc, ht]

/-- All matches and the replaced text. -/
def round (t : List Char) : List (List Char) × List Char := inner (t.length + 1) t

theorem inner_eq_round (t : List Char) (n : Nat) (h : t.length < n) : inner n t = round t :=
  inner_fuel t n (t.length + 1) h (by omega)

theorem round_cons_ne (c : Char) (t : List Char) (h : c ≠ '{') : round (c :: t) = ((round t).1, c :: (round t).2) := by
  rw [round, List.length_cons, inner_cons_ne _ _ _ h]
  rfl

theorem round_no_open (a t : List Char) (h : ∀ c ∈ a, c ≠ '{') : round (a ++ t) = ((round t).1, a ++ (round t).2) := by
  induction a with
  | nil => rfl
  | cons c a ih =>
    rw [List.cons_append, round_cons_ne _ _ (h c (by simp)), ih fun x hx => h x (by simp [hx])]
    rfl

theorem takeWhile_plain (a : List Char) (c : Char) (t : List Char) (ha : ∀ x ∈ a, plainChar x = true) (hc : plainChar c = false) :
    (a ++ c :: t).takeWhile plainChar = a ∧ (a ++ c :: t).dropWhile plainChar = c :: t := by
  induction a with
  | nil =>
    exact ⟨List.takeWhile_cons_of_neg (by simp [hc]), List.dropWhile_cons_of_neg (by simp [hc])⟩
  | cons x a ih =>
    obtain ⟨h1, h2⟩ := ih fun y hy => ha y (by simp [hy])
    rw [List.cons_append, List.takeWhile_cons_of_pos (ha x (by simp)), List.dropWhile_cons_of_pos (ha x (by simp)), h1, h2]
    exact ⟨rfl, rfl⟩

/-- A brace with its partner. -/
theorem round_match (a t : List Char) (ha : ∀ x ∈ a, plainChar x = true) :
    round ('{' :: a ++ '}' :: t) = (a :: (round t).1, '_' :: (round t).2) := by
  obtain ⟨h1, h2⟩ := takeWhile_plain a '}' t ha rfl
  rw [List.cons_append, round, List.length_cons, inner, if_pos rfl, h1, h2]
  simp only
  rw [inner_eq_round t _ (by simp; omega)]

/-- A brace followed by another opening one. -/
theorem round_nested (a t : List Char) (ha : ∀ x ∈ a, plainChar x = true) :
    round ('{' :: a ++ '{' :: t) = ((round (a ++ '{' :: t)).1, '{' :: (round (a ++ '{' :: t)).2) := by
  obtain ⟨h1, h2⟩ := takeWhile_plain a '{' t ha rfl
  rw [List.cons_append, round, List.length_cons, inner, if_pos rfl, h2]
  rfl

/-! One round on the texts of initializers. -/

theorem joinComma_cons (t : List Char) (ts : List (List Char)) :
    joinComma (t :: ts) = if ts = [] then t else t ++ ',' :: joinComma ts := by
  cases ts with
  | nil => rfl
  | cons u us => rfl

theorem joinComma_plain (items : List (List Char)) (h : ∀ t ∈ items, Plain t) :
    ∀ c ∈ joinComma items, plainChar c = true := by
  induction items with
  | nil => simp [joinComma]
  | cons t ts ih =>
    intro c hc
    rw [joinComma_cons] at hc
    split_ifs at hc
    · exact plainChar_of (h t (by simp)) c hc
    · rcases List.mem_append.mp hc with hc | hc
      · exact plainChar_of (h t (by simp)) c hc
      · rcases List.mem_cons.mp hc with rfl | hc
        · rfl
        · exact ih (fun u hu => h u (by simp [hu])) c hc

theorem pieces_joinComma (items : List (List Char)) (h : ∀ t ∈ items, Plain t) (hne : items ≠ []) :
    pieces (joinComma items) = items.length := by
  have hc : ∀ t, Plain t → t.count ',' = 0 := fun t ht => List.count_eq_zero.mpr fun hm => (ht _ hm).2.2 rfl
  induction items with
  | nil => exact absurd rfl hne
  | cons t ts ih =>
    rw [joinComma_cons]
    split_ifs with hts
    · subst hts
      simp [pieces, hc t (h t (by simp))]
    · have := ih (fun u hu => h u (by simp [hu])) hts
      simp only [pieces] at this ⊢
      rw [List.count_append, List.count_cons_self, hc t (h t (by simp)), List.length_cons]
      omega

/-- The start of the text of a list: something without braces, then a brace. -/
theorem Rect.starts {ds : List Nat} {t : List Char} (h : Rect ds t) (hne : ds ≠ []) :
    ∃ pre rest, t = pre ++ '{' :: rest ∧ Plain pre := by
  cases h with
  | entry => exact absurd rfl hne
  | list d ds pre post items h1 =>
    exact ⟨pre, joinComma items ++ '}' :: post, by simp, h1⟩

theorem joinComma_starts {ds : List Nat} (hne : ds ≠ []) (items : List (List Char)) (hi : items ≠ [])
    (h : ∀ t ∈ items, Rect ds t) : ∃ pre rest, joinComma items = pre ++ '{' :: rest ∧ Plain pre := by
  cases items with
  | nil => exact absurd rfl hi
  | cons t ts =>
    obtain ⟨pre, rest, ht, hp⟩ := (h t (by simp)).starts hne
    rw [joinComma_cons]
    split_ifs
    · exact ⟨pre, rest, ht, hp⟩
    · exact ⟨pre, rest ++ ',' :: joinComma ts, by rw [ht]; simp, hp⟩

/-- One round removes the innermost level, of which every match found is a list. -/
theorem round_rect {d : Nat} {ds : List Nat} {t : List Char} (h : Rect (ds ++ [d]) t) :
    ∃ t' found, Rect ds t' ∧ found ≠ [] ∧ (∀ y ∈ found, pieces y = d) ∧
      ∀ suffix, round (t ++ suffix) = (found ++ (round suffix).1, t' ++ (round suffix).2) := by
  induction ds generalizing t with
  | nil =>
    cases h with
    | list _ _ pre post items h1 h2 h3 h4 h5 =>
      have hitems : ∀ t ∈ items, Plain t := by
        intro t ht
        have := h5 t ht
        cases this with
        | entry _ hp => exact hp
      have hne : items ≠ [] := by rintro rfl; simp at h3; omega
      refine ⟨pre ++ '_' :: post, [joinComma items], .entry _ ?_, by simp, ?_, ?_⟩
      · intro c hc
        rcases List.mem_append.mp hc with hc | hc
        · exact h1 c hc
        · rcases List.mem_cons.mp hc with rfl | hc
          · decide
          · exact h2 c hc
      · intro y hy
        rw [List.mem_singleton.mp hy, pieces_joinComma items hitems hne, h3]
      · intro suffix
        have e : pre ++ '{' :: joinComma items ++ '}' :: post ++ suffix =
            pre ++ ('{' :: joinComma items ++ '}' :: (post ++ suffix)) := by simp
        rw [e, round_no_open pre _ fun c hc => (h1 c hc).1, round_match _ _ (joinComma_plain items hitems),
          round_no_open post _ fun c hc => (h2 c hc).1]
        simp
  | cons e ds ih =>
    rw [List.cons_append] at h
    cases h with
    | list _ _ pre post items h1 h2 h3 h4 h5 =>
      have hne : items ≠ [] := by rintro rfl; simp at h3; omega
      -- the items one after the other
      have hjoin : ∀ items : List (List Char), items ≠ [] → (∀ t ∈ items, Rect (ds ++ [d]) t) →
          ∃ items' found, items'.length = items.length ∧ (∀ t ∈ items', Rect ds t) ∧ found ≠ [] ∧
            (∀ y ∈ found, pieces y = d) ∧
            ∀ suffix, round (joinComma items ++ suffix) = (found ++ (round suffix).1, joinComma items' ++ (round suffix).2) := by
        intro items
        induction items with
        | nil => intro h; exact absurd rfl h
        | cons t ts iht =>
          intro _ hall
          obtain ⟨t', found, g1, g2, g3, g4⟩ := ih (hall t (by simp))
          by_cases hts : ts = []
          · subst hts
            exact ⟨[t'], found, rfl, by simpa using g1, g2, g3, g4⟩
          · obtain ⟨ts', found', k1, k2, k3, k4, k5⟩ := iht hts fun u hu => hall u (by simp [hu])
            have hts' : ts' ≠ [] := by rintro rfl; exact hts (List.length_eq_zero_iff.mp k1.symm)
            refine ⟨t' :: ts', found ++ found', by simp [k1], ?_, by simp [g2], ?_, ?_⟩
            · intro u hu
              rcases List.mem_cons.mp hu with rfl | hu
              · exact g1
              · exact k2 u hu
            · intro y hy
              rcases List.mem_append.mp hy with hy | hy
              · exact g3 y hy
              · exact k4 y hy
            · intro suffix
              rw [joinComma_cons, if_neg hts, joinComma_cons, if_neg hts']
              rw [List.append_assoc, g4, List.cons_append, round_cons_ne _ _ (by decide), k5]
              simp
      obtain ⟨items', found, k1, k2, k3, k4, k5⟩ := hjoin items hne h5
      refine ⟨pre ++ '{' :: joinComma items' ++ '}' :: post, found,
        .list e ds pre post items' h1 h2 (by rw [k1, h3]) h4 k2, k3, k4, ?_⟩
      intro suffix
      obtain ⟨p, rest, hst, hp⟩ := joinComma_starts (by simp) items hne h5
      have e : pre ++ '{' :: joinComma items ++ '}' :: post ++ suffix =
          pre ++ ('{' :: p ++ '{' :: (rest ++ '}' :: (post ++ suffix))) := by rw [hst]; simp
      have e' : p ++ '{' :: (rest ++ '}' :: (post ++ suffix)) = joinComma items ++ '}' :: (post ++ suffix) := by
        rw [hst]; simp
      rw [e, round_no_open pre _ fun c hc => (h1 c hc).1, round_nested p _ (plainChar_of hp), e', k5,
        round_cons_ne _ _ (by decide), round_no_open post _ fun c hc => (h2 c hc).1]
      simp

theorem round_plain {t : List Char} (h : Plain t) : round t = ([], t) := by
  have := round_no_open t [] fun c hc => (h c hc).1
  simpa [round, inner] using this

theorem sizeLoop_rect (ds : List Nat) : ∀ (t : List Char) (fuel : Nat) (size : List Nat), Rect ds t → ds.length < fuel →
    sizeLoop fuel t size = size ++ ds.reverse := by
  induction ds using List.reverseRecOn with
  | nil =>
    intro t fuel size h hf
    cases fuel with
    | zero => omega
    | succ fuel =>
      cases h with
      | entry _ hp =>
        have := round_plain hp
        simp only [round] at this
        rw [sizeLoop, this]
        simp
  | append_singleton ds d ih =>
    intro t fuel size h hf
    cases fuel with
    | zero => omega
    | succ fuel =>
      obtain ⟨t', found, h1, h2, h3, h4⟩ := round_rect h
      have hr := h4 []
      have hnil : round [] = ([], []) := rfl
      rw [hnil] at hr
      simp only [List.append_nil] at hr
      simp only [round] at hr
      rw [sizeLoop, hr]
      cases found with
      | nil => exact absurd rfl h2
      | cons y ys =>
        simp only
        rw [ih t' fuel _ h1 (by simp at hf; omega), h3 y (by simp)]
        simp

theorem rect_length {ds : List Nat} {t : List Char} (h : Rect ds t) : ds.length ≤ t.length := by
  induction h with
  | entry => simp
  | list d ds pre post items _ _ h3 h4 _ ih =>
    cases items with
    | nil => simp at h3; omega
    | cons t ts =>
      have := ih t (by simp)
      have hj : t.length ≤ (joinComma (t :: ts)).length := by
        rw [joinComma_cons]
        split_ifs <;> simp
      simp only [List.length_append, List.length_cons]
      omega

/-- C36: the sizes deduced from the text of a rectangular initializer list are its sizes. -/
theorem initializer_size_partial (ds : List Nat) (t : List Char) (h : Rect ds t) : initializerSize t = ds := by
  rw [initializerSize, sizeLoop_rect ds t _ [] h (by have := rect_length h; omega)]
  simp

/-- The examples of the source (196-200). -/
example : initializerSize "{{0, 1, 2}, {3, 4, 5}}".toList = [2, 3] ∧
    initializerSize "{{{0}, {1}}, {{2}, {3}}, {{4}, {5}}, {{6}, {7}}}".toList = [4, 2, 1] := by decide +kernel

example : Rect [2, 3] "{{0, 1, 2}, {3, 4, 5}}".toList := by
  have h : ∀ (a b c pre : List Char), Plain a → Plain b → Plain c → Plain pre →
      Rect [3] (pre ++ '{' :: joinComma [a, b, c] ++ '}' :: []) := by
    intro a b c pre ha hb hc hp
    refine .list 3 [] pre [] [a, b, c] hp (by simp [Plain]) rfl (by decide) ?_
    intro t ht
    simp only [List.mem_cons, List.not_mem_nil, or_false] at ht
    rcases ht with rfl | rfl | rfl
    · exact .entry _ ha
    · exact .entry _ hb
    · exact .entry _ hc
  have := Rect.list 2 [3] [] [] [_, _] (by simp [Plain]) (by simp [Plain]) rfl (by decide) (by
    intro t ht
    simp only [List.mem_cons, List.not_mem_nil, or_false] at ht
    rcases ht with rfl | rfl
    · exact h "0".toList " 1".toList " 2".toList [] (by simp [Plain]) (by simp [Plain]) (by simp [Plain]) (by simp [Plain])
    · exact h "3".toList " 4".toList " 5".toList [' '] (by simp [Plain]) (by simp [Plain]) (by simp [Plain])
        (by simp [Plain]))
  exact this

/-- C36 does not hold for lists that are empty, end in a comma, or have entries with commas. -/
theorem initializer_size_wrong :
    initializerSize "{}".toList = [1] ∧ initializerSize "{1, 2,}".toList = [3] ∧
      initializerSize "{max(1, 2), 3}".toList = [3] := by decide +kernel

/-! ### Members of the component structure -/

/-- C36: an array of a DECLARE section, initialized by a rectangular list with as many dimensions as the declaration, is
declared with the sizes given, and those of the list where none is given. -/
theorem array_member_sizes (a : Attr) (n : String) (es : List Nat) (ds : List Nat) (init : String)
    (hi : a.init = some init) (he : a.elements = some (es.map Elem.num)) (hds : ds ≠ []) (h : Rect ds init.toList)
    (hlen : es.length = ds.length) :
    (Decl.plain a n).declareMember = .ok (attrString a n ++
      String.join ((es.zip ds).map fun p => "[" ++ toString (if p.1 = 0 then p.2 else p.1) ++ "]")) := by
  have hinit : init ≠ "" := by
    rintro rfl
    have := rect_length h
    cases ds with
    | nil => exact hds rfl
    | cons d ds => simp at this
  have hml : maxLengths a [.num 16384] = .ok (ds.map Elem.num) := by
    simp only [maxLengths, hi, given, Option.getD_some, he, ne_eq, hinit, not_false_eq_true, decide_true, if_true,
      initializer_size_partial ds _ h, List.length_map, hlen, Nat.lt_irrefl, if_false]
  have hes : es ≠ [] := by rintro rfl; simp at hlen; exact hds (List.length_eq_zero_iff.mp hlen.symm)
  have hso : sizesOr a (ds.map Elem.num) = es.map Elem.num := by
    rw [sizesOr, he, Option.getD_some, if_neg]
    simp [hes]
  have hfz : (fillZeros (es.map Elem.num) (ds.map Elem.num)).map (fun e => "[" ++ e.show ++ "]") =
      (es.zip ds).map fun p => "[" ++ toString (if p.1 = 0 then p.2 else p.1) ++ "]" := by
    unfold fillZeros
    split_ifs with h0
    · rw [List.zip_map, List.map_map, List.map_map]
      refine List.map_congr_left fun p _ => ?_
      simp only [Function.comp, Prod.map, Elem.num.injEq]
      split_ifs <;> rfl
    · have hno : ∀ x ∈ es, x ≠ 0 := by
        rintro x hx rfl
        exact h0 (List.mem_map_of_mem hx)
      have e1 : es = (es.zip ds).map (·.1) := by rw [List.map_fst_zip (by omega)]
      conv_lhs => rw [e1]
      rw [List.map_map, List.map_map]
      refine List.map_congr_left fun p hp => ?_
      have := hno p.1 (List.of_mem_zip (show (p.1, p.2) ∈ es.zip ds from hp)).1
      simp only [Function.comp, if_neg this]
      rfl
  simp only [Decl.declareMember, Decl.asStructMember, hml, Except.map, he, Option.isSome_some, if_true, hso, hfz]

example : (Decl.plain { dtype := some "double", elements := some [.num 0, .num 3], init := some "{{0,1,2},{3,4,5}}" }
    "m").declareMember.toOption = some "double m[2][3]" := by decide +kernel

/-- C36 does not hold for arrays with an initial value that is not a list, as in `char name[20] = "abc"`: the translation
fails with an exception. -/
theorem array_with_text_raises (a : Attr) (n : String) (es : List Elem) (init : String) (hi : a.init = some init)
    (hne : init ≠ "") (he : a.elements = some es) (hes : es ≠ []) (h : ∀ c ∈ init.toList, c ≠ '{') :
    (Decl.plain a n).declareMember = .error .zeroDivisionError := by
  have hsz : initializerSize init.toList = [] := by
    have := round_no_open init.toList [] h
    simp only [List.append_nil] at this
    have hr : inner (init.toList.length + 1) init.toList = ([], init.toList) := by
      have h2 : round init.toList = ([], init.toList) := by rw [this]; simp [round, inner]
      exact h2
    simp [initializerSize, sizeLoop, hr]
  have hl : 0 < es.length := by
    cases es with
    | nil => exact absurd rfl hes
    | cons => simp
  simp only [Decl.declareMember, Decl.asStructMember, maxLengths, hi, given, Option.getD_some, he, ne_eq, hne,
    not_false_eq_true, decide_true, if_true, hsz, List.map_nil, List.length_nil, hl, Except.map]

example : (Decl.plain { dtype := some "char", elements := some [.num 20], init := some "\"abc\"" } "s").declareMember =
    .error .zeroDivisionError :=
  array_with_text_raises _ _ _ _ rfl (by decide) rfl (by simp) (by decide +kernel)

end Verif.CDecl
