import Verif.Loader.DatProps

/-! C70: what is written for a data file is read again. -/

namespace Verif.Loader

/-! ### The declared sizes -/

theorem dec_plain (n : Nat) : ∀ c ∈ dec n, c ≠ ')' ∧ c ≠ ',' := by
  have hd : ∀ n, digit n ≠ ')' ∧ digit n ≠ ',' := by
    intro n
    have : ∀ k < 10, Char.ofNat (48 + k) ≠ ')' ∧ Char.ofNat (48 + k) ≠ ',' := by decide
    exact this (n % 10) (Nat.mod_lt _ (by omega))
  induction n using dec.induct with
  | case1 n h =>
    intro c hc
    rw [dec, if_pos h, List.mem_singleton] at hc
    rw [hc]
    exact hd n
  | case2 n h ih =>
    intro c hc
    rw [dec, if_neg h, List.mem_append, List.mem_singleton] at hc
    rcases hc with hc | hc
    · exact ih c hc
    · rw [hc]
      exact hd n

theorem stripParen_eq {s : Text} (hne : s ≠ []) (h : ∀ c ∈ s, c ≠ ')') : stripParen (s ++ [')']) = s := by
  have h1 : (s ++ [')']).dropWhile (· == ')') = s ++ [')'] := by
    obtain ⟨c, l, rfl⟩ := List.exists_cons_of_ne_nil hne
    rw [List.cons_append, List.dropWhile_cons_of_neg]
    simpa using h c List.mem_cons_self
  have h2 : (s.reverse).dropWhile (· == ')') = s.reverse := by
    obtain ⟨c, l, hl⟩ := List.exists_cons_of_ne_nil (show s.reverse ≠ [] by simpa using hne)
    rw [hl, List.dropWhile_cons_of_neg]
    simpa using h c (by rw [← List.mem_reverse, hl]; exact List.mem_cons_self)
  rw [stripParen, h1, List.reverse_append]
  simp [h2]

theorem parse_dec (n : Nat) : parseInt (dec n) = .ok n := parseInt_strInt n

theorem strip_dec (n : Nat) : strip (dec n) = dec n := strip_stripped (stripped_of_forall fun c hc => (dec_mem n c hc).1)

def type1 (nx : Nat) : Text := t "array_1d" ++ '(' :: (dec nx ++ [')'])

def type2 (nx ny : Nat) : Text := t "array_2d" ++ '(' :: (dec nx ++ t ", " ++ dec ny ++ [')'])

theorem kind1 (nx : Nat) : kindOf (type1 nx) = some .d1 := by
  have h0 : startsWith (t "array_0d") (type1 nx) = false := by
    rw [startsWith, type1, show t "array_0d" = t "array_" ++ '0' :: t "d" by rfl,
      show t "array_1d" = t "array_" ++ '1' :: t "d" by rfl]
    rfl
  have h1 : startsWith (t "array_1d") (type1 nx) = true := by
    rw [startsWith, List.isPrefixOf_iff_prefix]
    exact List.prefix_append _ _
  rw [kindOf, h0, h1]
  rfl

theorem kind2 (nx ny : Nat) : kindOf (type2 nx ny) = some .d2 := by
  have h0 : startsWith (t "array_0d") (type2 nx ny) = false := rfl
  have h1 : startsWith (t "array_1d") (type2 nx ny) = false := rfl
  have h2 : startsWith (t "array_2d") (type2 nx ny) = true := by
    rw [startsWith, List.isPrefixOf_iff_prefix]
    exact List.prefix_append _ _
  rw [kindOf, h0, h1, h2]
  rfl

theorem sizes1 (nx : Nat) : sizesText (type1 nx) = .ok (dec nx) := by
  have h1 : '(' ∉ t "array_1d" := by decide
  rw [sizesText, afterFirst, type1, if_pos (by simp), partition_char h1]
  simp only
  rw [stripParen_eq (dec_ne_nil nx) fun c hc => (dec_plain nx c hc).1]

theorem sizes2 (nx ny : Nat) : sizesText (type2 nx ny) = .ok (dec nx ++ t ", " ++ dec ny) := by
  have h1 : '(' ∉ t "array_2d" := by decide
  rw [sizesText, afterFirst, type2, if_pos (by simp), partition_char h1]
  simp only
  rw [stripParen_eq (by simp [dec_ne_nil])]
  intro c hc
  simp only [List.mem_append] at hc
  rcases hc with (hc | hc) | hc
  · exact (dec_plain nx c hc).1
  · intro h
    subst h
    revert hc
    decide
  · exact (dec_plain ny c hc).1

theorem sizes2_split (nx ny : Nat) :
    mapE (fun x => parseInt (strip x)) ((dec nx ++ t ", " ++ dec ny).splitOn ',') = .ok [(nx : Int), (ny : Int)] := by
  have h : dec nx ++ t ", " ++ dec ny = dec nx ++ ',' :: (' ' :: dec ny) := by simp [t]
  have h1 : ',' ∉ dec nx := fun h => (dec_plain nx _ h).2 rfl
  have h2 : ',' ∉ ' ' :: dec ny := by
    simp only [List.mem_cons, not_or]
    exact ⟨by decide, fun h => (dec_plain ny _ h).2 rfl⟩
  rw [h, List.splitOn_append_cons_self_of_not_mem h1, List.splitOn_eq_singleton h2]
  have h3 : strip (' ' :: dec ny) = dec ny := strip_space rfl (stripped_of_forall fun c hc => (dec_mem ny c hc).1)
  simp only [mapE, strip_dec, h3, parse_dec]

/-! ### The header -/

/-- The header of data that can be written and read: the entries of its kind are there, the names of the parameters differ and
no text has a line end, white space at its ends or `#` at its end. -/
def Dat.Header {α : Type} (k : Kind) (d : Dat α) : Prop :=
  (∀ key ∈ firstPart ++ secondPart k, ∃ v, d.metadata.lookup key = some v ∧ Plain v) ∧
    (d.parameters.map (·.1)).Nodup ∧ (∀ p ∈ d.parameters, Stripped p.1 ∧ '=' ∉ p.1 ∧ '\n' ∉ p.1 ∧ Plain p.2) ∧
    ∃ v, d.metadata.lookup (t "variables") = some v ∧ d.vars = v.splitOn ' '

def Dat.val {α : Type} (d : Dat α) (k : Text) : Text := (d.metadata.lookup k).getD []

def Dat.headerLines {α : Type} (k : Kind) (d : Dat α) : List (Line α) :=
  firstPart.map (fun key => .entry key (d.val key)) ++ d.parameters.map (fun p => .param p.1 p.2) ++
    (secondPart k).map fun key => .entry key (d.val key)

theorem parts_ok (k : Kind) : ∀ key ∈ firstPart ++ secondPart k, key ≠ [] ∧ (∀ c ∈ key, isSpace c = false) ∧ ':' ∉ key ∧
    '\n' ∉ key ∧ key.head? ≠ some '#' ∧ key.head? ≠ some 'P' ∧ '[' ∉ key := by
  cases k <;> decide +kernel

theorem parts_keyOk {k : Kind} {key : Text} (h : key ∈ firstPart ++ secondPart k) : KeyOk key := by
  obtain ⟨h1, h2, h3, h4, h5, h6, _⟩ := parts_ok k key h
  exact ⟨h1, stripped_of_forall h2, h3, h4, h5, h6⟩

theorem headerLines_good {α : Type} {k : Kind} {d : Dat α} (h : d.Header k) : ∀ l ∈ d.headerLines k, l.Good := by
  obtain ⟨h1, _, h3, _⟩ := h
  have he : ∀ key ∈ firstPart ++ secondPart k, (Line.entry (α := α) key (d.val key)).Good := by
    intro key hk
    obtain ⟨v, hv, hp⟩ := h1 key hk
    refine ⟨parts_keyOk hk, ?_⟩
    rw [Dat.val, hv]
    exact hp
  intro l hl
  simp only [Dat.headerLines, List.mem_append, List.mem_map] at hl
  rcases hl with (⟨key, hk, rfl⟩ | ⟨p, hp, rfl⟩) | ⟨key, hk, rfl⟩
  · exact he key (List.mem_append_left _ hk)
  · exact h3 p hp
  · exact he key (List.mem_append_right _ hk)

theorem entries_written {α : Type} (N : Num α) {d : Dat α} : ∀ keys : List Text, (∀ key ∈ keys, ∃ v, d.metadata.lookup key = some v) →
    mapE (entryLine d.metadata) keys = .ok (keys.map fun key => (Line.entry (α := α) key (d.val key)).text N)
  | [], _ => rfl
  | key :: keys, h => by
    obtain ⟨v, hv⟩ := h key List.mem_cons_self
    have he : entryLine d.metadata key = .ok ((Line.entry (α := α) key (d.val key)).text N) := by
      rw [entryLine, hv, Dat.val, hv]
      rfl
    rw [mapE, he]
    simp only
    rw [entries_written N keys fun x hx => h x (List.mem_cons_of_mem _ hx), List.map_cons]

theorem written {α : Type} (N : Num α) {k : Kind} {d : Dat α} (h : d.Header k) {ls : List (Line α)}
    (hd : dataLines N k d = .ok (ls.map (Line.text N))) :
    writeDat N k d = .ok (unlines ((d.headerLines k ++ ls).map (Line.text N))) := by
  have h1 := entries_written N (d := d) firstPart fun key hk => (h.1 key (List.mem_append_left _ hk)).imp fun _ h => h.1
  have h2 := entries_written N (d := d) (secondPart k) fun key hk => (h.1 key (List.mem_append_right _ hk)).imp fun _ h => h.1
  rw [writeDat, h1]
  simp only
  rw [h2]
  simp only
  rw [hd]
  simp only [Dat.headerLines, List.map_append, List.map_map]
  rfl

theorem header_pairs {α : Type} (k : Kind) (d : Dat α) :
    (d.headerLines k).filterMap Line.pair = (firstPart ++ secondPart k).map (fun key => (key, d.val key)) ∧
      (d.headerLines k).filterMap Line.par = d.parameters ∧ (d.headerLines k).filterMap Line.nums = [] := by
  have e1 : ∀ l : List Text, (l.map fun key => Line.entry (α := α) key (d.val key)).filterMap Line.pair =
      l.map fun key => (key, d.val key) := by
    intro l
    induction l with
    | nil => rfl
    | cons x l ih => rw [List.map_cons, List.filterMap_cons_some (f := Line.pair) (b := (x, d.val x)) rfl, ih, List.map_cons]
  have e2 : ∀ l : List Text, (l.map fun key => Line.entry (α := α) key (d.val key)).filterMap Line.par = [] := by
    intro l
    induction l with
    | nil => rfl
    | cons x l ih => rw [List.map_cons, List.filterMap_cons_none rfl, ih]
  have e3 : ∀ l : List Text, (l.map fun key => Line.entry (α := α) key (d.val key)).filterMap Line.nums = [] := by
    intro l
    induction l with
    | nil => rfl
    | cons x l ih => rw [List.map_cons, List.filterMap_cons_none rfl, ih]
  have p1 : ∀ l : List (Text × Text), (l.map fun p => Line.param (α := α) p.1 p.2).filterMap Line.pair = [] := by
    intro l
    induction l with
    | nil => rfl
    | cons x l ih => rw [List.map_cons, List.filterMap_cons_none rfl, ih]
  have p2 : ∀ l : List (Text × Text), (l.map fun p => Line.param (α := α) p.1 p.2).filterMap Line.par = l := by
    intro l
    induction l with
    | nil => rfl
    | cons x l ih => rw [List.map_cons, List.filterMap_cons_some (f := Line.par) (b := x) rfl, ih]
  have p3 : ∀ l : List (Text × Text), (l.map fun p => Line.param (α := α) p.1 p.2).filterMap Line.nums = [] := by
    intro l
    induction l with
    | nil => rfl
    | cons x l ih => rw [List.map_cons, List.filterMap_cons_none rfl, ih]
  refine ⟨?_, ?_, ?_⟩
  · rw [Dat.headerLines, List.filterMap_append, List.filterMap_append, e1, e1, p1, List.append_nil, List.map_append]
  · rw [Dat.headerLines, List.filterMap_append, List.filterMap_append, e2, e2, p2, List.append_nil, List.nil_append]
  · rw [Dat.headerLines, List.filterMap_append, List.filterMap_append, e3, e3, p3]
    rfl

/-- The header is read as written; `ls` are the lines of the data. -/
theorem header_read {α : Type} (N : Num α) {k : Kind} {d : Dat α} (h : d.Header k) {ls : List (Line α)} (hls : ∀ l ∈ ls, l.Good)
    (hpar : ls.filterMap Line.par = []) (hpair : ∀ p ∈ ls.filterMap Line.pair, '[' ∈ p.1 ∧ p.2 = [])
    (hd : dataLines N k d = .ok (ls.map (Line.text N))) {a : Nd α} (ha : Nd.ofRows (ls.filterMap Line.nums) = .ok a) :
    ∃ (s : Text) (d' : Dat α), writeDat N k d = .ok s ∧ fromText N s = .ok d' ∧ d'.parameters = d.parameters ∧ d'.vars = d.vars ∧
      d'.data = a ∧ ∀ key ∈ firstPart ++ secondPart k, d'.metadata.lookup key = d.metadata.lookup key := by
  obtain ⟨e1, e2, e3⟩ := header_pairs k d
  have hgood : ∀ l ∈ d.headerLines k ++ ls, l.Good := fun l hl =>
    (List.mem_append.mp hl).elim (headerLines_good h l) (hls l)
  have hr := fromText_lines N hgood (a := a) (by rw [List.filterMap_append, e3, List.nil_append]; exact ha)
  have hlook : ∀ key ∈ firstPart ++ secondPart k,
      (dictOf ((d.headerLines k ++ ls).filterMap Line.pair)).lookup key = d.metadata.lookup key := by
    intro key hk
    rw [lookup_dictOf (fun x => if x ∈ firstPart ++ secondPart k then d.val x else []), if_pos, if_pos hk]
    · obtain ⟨v, hv, _⟩ := h.1 key hk
      rw [Dat.val, hv]
      rfl
    · rw [List.filterMap_append, e1, List.map_append, List.map_map]
      refine List.mem_append_left _ (List.mem_map.mpr ⟨key, hk, rfl⟩)
    · intro p hp
      rw [List.filterMap_append, e1] at hp
      rcases List.mem_append.mp hp with hp | hp
      · obtain ⟨x, hx, rfl⟩ := List.mem_map.mp hp
        simp only
        rw [if_pos hx]
      · obtain ⟨h1, h2⟩ := hpair p hp
        rw [if_neg, h2]
        exact fun hm => (parts_ok k _ hm).2.2.2.2.2.2 h1
  obtain ⟨v, hv, hvars⟩ := h.2.2.2
  refine ⟨_, _, written N h hd, hr, ?_, ?_, rfl, hlook⟩
  · simp only [List.filterMap_append, e2, hpar, List.append_nil]
    exact dictOf_nodup h.2.1
  · simp only
    rw [hlook (t "variables") (by cases k <;> decide), hv, hvars]
    rfl

theorem vars_pos {α : Type} {k : Kind} {d : Dat α} (h : d.Header k) : 0 < d.vars.length := by
  obtain ⟨_, _, _, v, _, hv⟩ := h
  rw [hv]
  exact List.length_pos_of_ne_nil (List.splitOn_ne_nil ' ' v)

theorem rows_filterMap {α : Type} (rows : List (List α)) :
    (rows.map Line.row).filterMap Line.nums = rows ∧ (rows.map Line.row).filterMap Line.par = [] ∧
      (rows.map Line.row).filterMap Line.pair = [] := by
  induction rows with
  | nil => exact ⟨rfl, rfl, rfl⟩
  | cons r rows ih =>
    obtain ⟨h1, h2, h3⟩ := ih
    rw [List.map_cons]
    exact ⟨by rw [List.filterMap_cons_some (f := Line.nums) (b := r) rfl, h1], by rw [List.filterMap_cons_none rfl, h2],
      by rw [List.filterMap_cons_none rfl, h3]⟩

theorem Nd.ext_get {α : Type} {a b : List α} {n m : Nat} (ha : a.length = n * m) (hb : b.length = n * m)
    (h : ∀ i < n, ∀ j < m, a[i * m + j]? = b[i * m + j]?) : a = b := by
  refine List.ext_getElem? fun k => ?_
  by_cases hk : k < n * m
  · have hm : 0 < m := by
      rcases Nat.eq_zero_or_pos m with h0 | h0
      · rw [h0] at hk; omega
      · exact h0
    have h1 : k / m < n := Nat.div_lt_of_lt_mul (by rw [Nat.mul_comm]; exact hk)
    have := h (k / m) h1 (k % m) (Nat.mod_lt _ hm)
    have hk' : k / m * m + k % m = k := by rw [Nat.mul_comm]; exact Nat.div_add_mod k m
    rwa [hk'] at this
  · rw [List.getElem?_eq_none (by omega), List.getElem?_eq_none (by omega)]

theorem transpose_twice {α : Type} {a : Nd α} {n m : Nat} (hs : a.shape = [n, m]) (h : a.data.length = n * m) :
    (Nd.transpose ⟨[m, n], (a.columns n m).flatten⟩ m n) = a := by
  obtain ⟨h1, h2, h3⟩ := columns_spec h
  have hl : (a.columns n m).flatten.length = m * n := by rw [flatten_length h2, h1]
  have hd : (Nd.transpose ⟨[m, n], (a.columns n m).flatten⟩ m n).data = a.data := by
    refine Nd.ext_get (n := n) (m := m) ?_ h fun i hi j hj => ?_
    · rw [transpose_eq]
      obtain ⟨g1, g2, _⟩ := columns_spec (a := ⟨[m, n], (a.columns n m).flatten⟩) hl
      rw [flatten_length g2, g1]
    · rw [transpose_get (a := ⟨[m, n], (a.columns n m).flatten⟩) hl hj hi, flatten_get h2 j i hi, h3 i hi j hj]
  have hs' : (Nd.transpose ⟨[m, n], (a.columns n m).flatten⟩ m n).shape = a.shape := by rw [hs]; rfl
  generalize Nd.transpose ⟨[m, n], (a.columns n m).flatten⟩ m n = b at hd hs'
  obtain ⟨_, _⟩ := a
  obtain ⟨_, _⟩ := b
  simp only at hd hs'
  rw [hd, hs']

/-- C70: one-dimensional data that are written are read with the same entries, parameters and variables, and with the same
numbers if the numbers of points and variables differ; otherwise the array is transposed. -/
theorem data_file_1d_partial {α : Type} (N : Num α) (d : Dat α) (nx : Nat) (h : d.Header .d1)
    (ht : d.metadata.lookup (t "type") = some (t "array_1d(" ++ strInt nx ++ t ")"))
    (hs : d.data.shape = [d.vars.length, nx]) (hl : d.data.data.length = d.vars.length * nx) (hpos : 0 < nx) :
    ∃ (s : Text) (d' : Dat α), writeDat N .d1 d = .ok s ∧ readDat N s = .ok (.d1, d') ∧ d'.parameters = d.parameters ∧
      d'.vars = d.vars ∧ d'.data = (if nx = d.vars.length then d.data.transpose nx nx else d.data) ∧
      ∀ key ∈ firstPart ++ secondPart .d1, d'.metadata.lookup key = d.metadata.lookup key := by
  have hv := vars_pos h
  obtain ⟨h1, h2, h3⟩ := columns_spec hl
  obtain ⟨r1, r2, r3⟩ := rows_filterMap (d.data.columns d.vars.length nx)
  have hd : dataLines N .d1 d = .ok (((d.data.columns d.vars.length nx).map Line.row).map (Line.text N)) := by
    simp only [dataLines, hs, List.map_map]
    rfl
  have hgood : ∀ l ∈ (d.data.columns d.vars.length nx).map Line.row, l.Good := by
    intro l hl
    obtain ⟨r, hr, rfl⟩ := List.mem_map.mp hl
    have := h2 r hr
    intro hnil
    rw [hnil] at this
    simp at this
    omega
  obtain ⟨s, d', w1, w2, w3, w4, w5, w6⟩ := header_read N h hgood r2 (by rw [r3]; simp) hd
    (a := ⟨[nx, d.vars.length], (d.data.columns d.vars.length nx).flatten⟩)
    (by rw [r1]; exact ofRows_regular h1 hpos h2)
  have hty : d'.metadata.lookup (t "type") = some (type1 nx) := by
    rw [w6 _ (by decide), ht]
    simp [type1, strInt, t]
  refine ⟨s, { d' with data := if nx = d.vars.length then d.data.transpose nx nx else d.data }, w1, ?_, w3, w4, rfl, w6⟩
  rw [readDat, w2]
  simp only
  rw [hty]
  simp only
  rw [kind1]
  simp only
  rw [postInit, hty]
  simp only
  rw [sizes1]
  simp only
  rw [strip_dec, parse_dec]
  simp only
  rw [w5, w4]
  have hshape : shape1 (nx : Int) d.vars.length ⟨[nx, d.vars.length], (d.data.columns d.vars.length nx).flatten⟩ =
      .ok (if nx = d.vars.length then d.data.transpose nx nx else d.data) := by
    rw [shape1]
    simp only
    by_cases he : nx = d.vars.length
    · rw [if_pos (by omega), if_pos he, transpose_eq, ← he]
    · rw [if_neg (by omega), if_neg (by omega), if_neg he, transpose_twice hs hl]
  rw [hshape]
  rfl

theorem rowsOf_spec {α : Type} {a : Nd α} {nv ny nx : Nat} (h : a.data.length = nv * ny * nx) {i : Nat} (hi : i < nv) :
    (a.rowsOf ny nx i).length = ny ∧ (∀ r ∈ a.rowsOf ny nx i, r.length = nx) ∧
      ∀ y < ny, ∀ x < nx, ((a.rowsOf ny nx i)[y]?.bind fun r => r[x]?) = a.data[(i * ny + y) * nx + x]? := by
  have hs : ∀ y < ny, ∀ x < nx, a.data[(i * ny + y) * nx + x]? ≠ none := by
    intro y hy x hx
    rw [ne_eq, List.getElem?_eq_none_iff, h]
    have := index_lt (index_lt hi hy) hx
    omega
  refine ⟨by simp [Nd.rowsOf], ?_, ?_⟩
  · intro r hr
    obtain ⟨y, hy, rfl⟩ := List.mem_map.mp hr
    exact (filterMap_range (hs y (List.mem_range.mp hy))).1
  · intro y hy x hx
    rw [Nd.rowsOf, List.getElem?_map, List.getElem?_range hy]
    exact (filterMap_range (hs y hy)).2 x hx

theorem rowsOf_flatten {α : Type} {a : Nd α} {nv ny nx : Nat} (h : a.data.length = nv * ny * nx) :
    ((List.range nv).flatMap (a.rowsOf ny nx)).length = nv * ny ∧
      (∀ r ∈ (List.range nv).flatMap (a.rowsOf ny nx), r.length = nx) ∧
      ((List.range nv).flatMap (a.rowsOf ny nx)).flatten = a.data := by
  have h1 : ∀ b ∈ (List.range nv).map (a.rowsOf ny nx), b.length = ny := by
    intro b hb
    obtain ⟨i, hi, rfl⟩ := List.mem_map.mp hb
    exact (rowsOf_spec h (List.mem_range.mp hi)).1
  have h2 : ∀ r ∈ (List.range nv).flatMap (a.rowsOf ny nx), r.length = nx := by
    intro r hr
    obtain ⟨i, hi, hr⟩ := List.mem_flatMap.mp hr
    exact (rowsOf_spec h (List.mem_range.mp hi)).2.1 r hr
  have h3 : ((List.range nv).flatMap (a.rowsOf ny nx)).length = nv * ny := by
    rw [List.flatMap, flatten_length h1]
    simp
  refine ⟨h3, h2, ?_⟩
  have hlen := flatten_length h2
  rw [h3] at hlen
  refine Nd.ext_get (n := nv * ny) (m := nx) hlen h fun k hk x hx => ?_
  rw [flatten_get h2 k x hx]
  have hny : 0 < ny := by
    rcases Nat.eq_zero_or_pos ny with h0 | h0
    · rw [h0] at hk; omega
    · exact h0
  have hi : k / ny < nv := Nat.div_lt_of_lt_mul (by rw [Nat.mul_comm]; exact hk)
  have hy := Nat.mod_lt k hny
  have hk' : k / ny * ny + k % ny = k := by rw [Nat.mul_comm]; exact Nat.div_add_mod k ny
  have hg := flatten_get h1 (k / ny) (k % ny) hy
  rw [hk', List.getElem?_map, List.getElem?_range hi] at hg
  rw [List.flatMap, hg]
  have := (rowsOf_spec h hi).2.2 (k % ny) hy x hx
  rw [hk'] at this
  exact this

/-- The label of the numbers of a variable. -/
def labelText {α : Type} (d : Dat α) (l n : Text) : Text :=
  l ++ t " [" ++ d.val (t "component") ++ t "/" ++ d.val (t "filename") ++ t "] " ++ n

def blockLines {α : Type} (d : Dat α) (ny nx : Nat) (p : Text × Nat) : List (Line α) :=
  .label (labelText d (labels[p.2]?.getD []) p.1) :: (d.data.rowsOf ny nx p.2).map .row

theorem blocks_written {α : Type} (N : Num α) {d : Dat α} {ny nx : Nat} (hc : ∃ v, d.metadata.lookup (t "component") = some v)
    (hf : ∃ v, d.metadata.lookup (t "filename") = some v) : ∀ ps : List (Text × Nat), (∀ p ∈ ps, p.2 < 3) →
    mapE (block2 N d ny nx) ps = .ok (ps.map fun p => (blockLines d ny nx p).map (Line.text N))
  | [], _ => rfl
  | p :: ps, h => by
    obtain ⟨c, hc'⟩ := hc
    obtain ⟨f, hf'⟩ := hf
    have hp := h p List.mem_cons_self
    obtain ⟨l, hl⟩ : ∃ l, labels[p.2]? = some l := by
      exact ⟨_, List.getElem?_eq_getElem (show p.2 < labels.length from hp)⟩
    have hb : block2 N d ny nx p = .ok ((blockLines d ny nx p).map (Line.text N)) := by
      rw [block2, hl]
      simp only [hc', hf', blockLines, hl, List.map_cons, List.map_map, Line.text, labelText, Dat.val, Option.getD_some]
      rw [Except.ok.injEq, List.cons.injEq]
      exact ⟨by simp [List.append_assoc], rfl⟩
    rw [mapE, hb]
    simp only
    rw [blocks_written N ⟨c, hc'⟩ ⟨f, hf'⟩ ps fun q hq => h q (List.mem_cons_of_mem _ hq), List.map_cons]

theorem labels_ok : ∀ l ∈ labels, l ≠ [] ∧ (∀ c, l.head? = some c → isSpace c = false ∧ c ≠ '#' ∧ c ≠ 'P') ∧ ':' ∉ l ∧ '\n' ∉ l := by
  have h : ∀ l ∈ labels, l ≠ [] ∧ (∀ c ∈ l.head?.toList, isSpace c = false ∧ c ≠ '#' ∧ c ≠ 'P') ∧ ':' ∉ l ∧ '\n' ∉ l := by
    decide
  intro l hl
  obtain ⟨h1, h2, h3⟩ := h l hl
  exact ⟨h1, fun c hc => h2 c (by simp [hc]), h3⟩

theorem label_keyOk {α : Type} {d : Dat α} {l n : Text} (hl : l ∈ labels) (hc : '\n' ∉ d.val (t "component"))
    (hc2 : ':' ∉ d.val (t "component")) (hf : '\n' ∉ d.val (t "filename")) (hf2 : ':' ∉ d.val (t "filename"))
    (hn : n ≠ []) (hn2 : Stripped n) (hn3 : ':' ∉ n) (hn4 : '\n' ∉ n) : KeyOk (labelText d l n) ∧ '[' ∈ labelText d l n := by
  obtain ⟨l1, l2, l3, l4⟩ := labels_ok l hl
  obtain ⟨c, r, rfl⟩ := List.exists_cons_of_ne_nil l1
  have hhead : (labelText d (c :: r) n).head? = some c := rfl
  have hcc := l2 c rfl
  have m1 : ':' ∉ t " [" ∧ '\n' ∉ t " [" := by decide
  have m2 : ':' ∉ t "/" ∧ '\n' ∉ t "/" := by decide
  have m3 : ':' ∉ t "] " ∧ '\n' ∉ t "] " := by decide
  refine ⟨⟨by simp [labelText], ⟨?_, ?_⟩, ?_, ?_, ?_, ?_⟩, ?_⟩
  · intro x hx
    rw [hhead] at hx
    cases hx
    exact hcc.1
  · intro x hx
    rw [labelText, List.getLast?_append] at hx
    cases hg : n.getLast? with
    | none => exact absurd (List.getLast?_eq_none_iff.mp hg) hn
    | some g =>
      rw [hg] at hx
      cases hx
      exact hn2.2 x hg
  · simp only [labelText, List.mem_append, not_or]
    exact ⟨⟨⟨⟨⟨⟨l3, m1.1⟩, hc2⟩, m2.1⟩, hf2⟩, m3.1⟩, hn3⟩
  · simp only [labelText, List.mem_append, not_or]
    exact ⟨⟨⟨⟨⟨⟨l4, m1.2⟩, hc⟩, m2.2⟩, hf⟩, m3.2⟩, hn4⟩
  · rw [hhead]
    intro h
    cases h
    exact hcc.2.1 rfl
  · rw [hhead]
    intro h
    cases h
    exact hcc.2.2 rfl
  · have : '[' ∈ t " [" := by decide
    simp only [labelText, List.mem_append]
    tauto

theorem blocks_filterMap {α : Type} (d : Dat α) (ny nx : Nat) : ∀ ps : List (Text × Nat),
    (ps.flatMap (blockLines d ny nx)).filterMap Line.nums = ps.flatMap (fun p => d.data.rowsOf ny nx p.2) ∧
      (ps.flatMap (blockLines d ny nx)).filterMap Line.par = [] ∧
      (ps.flatMap (blockLines d ny nx)).filterMap Line.pair = ps.map fun p => (labelText d (labels[p.2]?.getD []) p.1, [])
  | [] => ⟨rfl, rfl, rfl⟩
  | p :: ps => by
    obtain ⟨h1, h2, h3⟩ := blocks_filterMap d ny nx ps
    obtain ⟨r1, r2, r3⟩ := rows_filterMap (d.data.rowsOf ny nx p.2)
    simp only [List.flatMap_cons, List.filterMap_append, h1, h2, h3, blockLines]
    refine ⟨?_, ?_, ?_⟩
    · rw [List.filterMap_cons_none rfl, r1]
    · rw [List.filterMap_cons_none rfl, r2]
      rfl
    · rw [List.filterMap_cons_some (f := Line.pair) (b := (labelText d (labels[p.2]?.getD []) p.1, [])) rfl, r3]
      rfl

theorem zipIdx_map_rows {β : Type} (l : List Text) (f : Nat → List β) :
    l.zipIdx.flatMap (fun p => f p.2) = (List.range l.length).flatMap f := by
  have h : l.zipIdx.map (·.2) = List.range l.length := by
    rw [List.zipIdx_map_snd, List.range_eq_range']
  rw [← h, List.flatMap_map]

/-- C70: two-dimensional data that are written are read as they were, for all sizes. -/
theorem data_file_2d {α : Type} (N : Num α) (d : Dat α) (nx ny : Nat) (h : d.Header .d2)
    (ht : d.metadata.lookup (t "type") = some (t "array_2d(" ++ strInt nx ++ t ", " ++ strInt ny ++ t ")"))
    (hcomp : ':' ∉ (d.metadata.lookup (t "component")).getD []) (hfile : ':' ∉ (d.metadata.lookup (t "filename")).getD [])
    (hvars : ∀ n ∈ d.vars, n ≠ [] ∧ Stripped n ∧ ':' ∉ n ∧ '\n' ∉ n) (h3 : d.vars.length ≤ 3)
    (hs : d.data.shape = [d.vars.length, ny, nx]) (hl : d.data.data.length = d.vars.length * ny * nx) (hx : 0 < nx)
    (hy : 0 < ny) :
    ∃ (s : Text) (d' : Dat α), writeDat N .d2 d = .ok s ∧ readDat N s = .ok (.d2, d') ∧ d'.parameters = d.parameters ∧
      d'.vars = d.vars ∧ d'.data = d.data ∧
      ∀ key ∈ firstPart ++ secondPart .d2, d'.metadata.lookup key = d.metadata.lookup key := by
  have hv := vars_pos h
  have hcm : t "component" ∈ firstPart ++ secondPart .d2 := by decide
  have hfm : t "filename" ∈ firstPart ++ secondPart .d2 := by decide
  obtain ⟨cv, hc1, hc2⟩ := h.1 _ hcm
  obtain ⟨fv, hf1, hf2⟩ := h.1 _ hfm
  have hidx : ∀ p ∈ d.vars.zipIdx, p.2 < d.vars.length ∧ p.1 ∈ d.vars := by
    intro p hp
    have := List.mem_zipIdx hp
    refine ⟨by omega, ?_⟩
    rw [this.2.2]
    exact List.getElem_mem _
  obtain ⟨b1, b2, b3⟩ := blocks_filterMap d ny nx d.vars.zipIdx
  obtain ⟨q1, q2, q3⟩ := rowsOf_flatten hl
  rw [zipIdx_map_rows] at b1
  have hd : dataLines N .d2 d = .ok ((d.vars.zipIdx.flatMap (blockLines d ny nx)).map (Line.text N)) := by
    simp only [dataLines, hs]
    rw [blocks_written N ⟨cv, hc1⟩ ⟨fv, hf1⟩ _ fun p hp => by have := (hidx p hp).1; omega]
    simp only [Except.ok.injEq]
    rw [List.map_flatMap, List.flatMap]
  have hlab : ∀ p ∈ d.vars.zipIdx, KeyOk (labelText d (labels[p.2]?.getD []) p.1) ∧
      '[' ∈ labelText d (labels[p.2]?.getD []) p.1 := by
    intro p hp
    obtain ⟨hp1, hp2⟩ := hidx p hp
    obtain ⟨n1, n2, n3, n4⟩ := hvars p.1 hp2
    obtain ⟨l, hl⟩ : ∃ l, labels[p.2]? = some l := by
      exact ⟨_, List.getElem?_eq_getElem (show p.2 < 3 by omega)⟩
    rw [hl]
    refine label_keyOk (List.mem_of_getElem? hl) ?_ hcomp ?_ hfile n1 n2 n3 n4
    · rw [Dat.val, hc1]; exact hc2.2.1
    · rw [Dat.val, hf1]; exact hf2.2.1
  have hgood : ∀ l ∈ d.vars.zipIdx.flatMap (blockLines d ny nx), l.Good := by
    intro l hl'
    obtain ⟨p, hp, hl'⟩ := List.mem_flatMap.mp hl'
    rcases List.mem_cons.mp hl' with rfl | hl'
    · exact (hlab p hp).1
    · obtain ⟨r, hr, rfl⟩ := List.mem_map.mp hl'
      have := (rowsOf_spec hl (hidx p hp).1).2.1 r hr
      intro hnil
      rw [hnil] at this
      simp at this
      omega
  obtain ⟨s, d', w1, w2, w3, w4, w5, w6⟩ := header_read N h hgood b2 (by
      rw [b3]
      intro p hp
      obtain ⟨x, hx, rfl⟩ := List.mem_map.mp hp
      exact ⟨(hlab x hx).2, rfl⟩) hd (a := ⟨[d.vars.length * ny, nx], d.data.data⟩) (by
      rw [b1, ofRows_regular q1 (Nat.mul_pos hv hy) q2, q3])
  have hty : d'.metadata.lookup (t "type") = some (type2 nx ny) := by
    rw [w6 _ (by decide), ht]
    simp [type2, strInt, t]
  refine ⟨s, { d' with data := d.data }, w1, ?_, w3, w4, rfl, w6⟩
  rw [readDat, w2]
  simp only
  rw [hty]
  simp only
  rw [kind2]
  simp only
  rw [postInit, hty]
  simp only
  rw [sizes2]
  simp only
  rw [sizes2_split]
  simp only
  rw [w5, w4]
  have hshape : shape2 (nx : Int) (ny : Int) d.vars.length ⟨[d.vars.length * ny, nx], d.data.data⟩ = .ok d.data := by
    rw [shape2]
    simp only [Int.toNat_natCast]
    rw [if_neg]
    · rw [← hs]
    · push_cast
      rw [Int.mul_comm]
      omega
  rw [hshape]
  rfl

/-- C70: data without dimensions that are written are read as they were. -/
theorem data_file_0d {α : Type} (N : Num α) (d : Dat α) (h : d.Header .d0)
    (ht : d.metadata.lookup (t "type") = some (t "array_0d")) (hs : d.data.shape = [d.vars.length])
    (hl : d.data.data.length = d.vars.length) :
    ∃ (s : Text) (d' : Dat α), writeDat N .d0 d = .ok s ∧ readDat N s = .ok (.d0, d') ∧ d'.parameters = d.parameters ∧
      d'.vars = d.vars ∧ d'.data = d.data ∧
      ∀ key ∈ firstPart ++ secondPart .d0, d'.metadata.lookup key = d.metadata.lookup key := by
  have hv := vars_pos h
  obtain ⟨r1, r2, r3⟩ := rows_filterMap [d.data.data]
  have hd : dataLines N .d0 d = .ok (([d.data.data].map Line.row).map (Line.text N)) := by
    rw [dataLines]
    rfl
  have hgood : ∀ l ∈ [d.data.data].map Line.row, l.Good := by
    intro l hl'
    rw [List.map_singleton, List.mem_singleton] at hl'
    subst hl'
    intro hnil
    rw [hnil] at hl
    simp at hl
    omega
  obtain ⟨s, d', w1, w2, w3, w4, w5, w6⟩ := header_read N h hgood r2 (by rw [r3]; simp) hd
    (a := ⟨[1, d.vars.length], d.data.data⟩) (by
      rw [r1, ofRows_regular (n := 1) (m := d.vars.length) rfl (by omega) (by simpa using hl)]
      simp)
  refine ⟨s, { d' with data := d.data }, w1, ?_, w3, w4, rfl, w6⟩
  rw [readDat, w2]
  simp only
  rw [w6 _ (by decide), ht]
  simp only
  rw [show kindOf (t "array_0d") = some .d0 by decide]
  simp only
  rw [postInit, w5, w4]
  have hshape : shape0 d.vars.length ⟨[1, d.vars.length], d.data.data⟩ = .ok d.data := by
    rw [shape0, if_neg (by simp), if_neg (by simp [hl]), ← hs]
  rw [hshape]
  rfl

end Verif.Loader
