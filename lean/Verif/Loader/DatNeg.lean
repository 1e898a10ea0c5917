import Verif.Loader.DatAgain

/-! C70: a case that is read as written, and cases that are not. -/

namespace Verif.Loader

theorem dec_no_hash (n : Nat) : '#' ∉ dec n := by
  have hd : ∀ n, digit n ≠ '#' := by
    intro n
    have : ∀ k < 10, Char.ofNat (48 + k) ≠ '#' := by decide
    exact this (n % 10) (Nat.mod_lt _ (by omega))
  induction n using dec.induct with
  | case1 n h =>
    rw [dec, if_pos h, List.mem_singleton]
    exact (hd n).symm
  | case2 n h ih =>
    rw [dec, if_neg h, List.mem_append, List.mem_singleton]
    exact fun hc => hc.elim ih (hd n).symm

/-- Integers as numbers. -/
def intNum : Num Int where
  str := strInt
  parse s := match parseInt s with | .ok z => some z | .error _ => none
  parse_str z := by rw [parseInt_strInt]
  str_ne z := by
    cases z with
    | ofNat n => exact dec_ne_nil n
    | negSucc n => simp [strInt]
  str_chars z c hc := by
    refine ⟨strInt_mem z c hc, ?_⟩
    rintro rfl
    cases z with
    | ofNat n => exact dec_no_hash n hc
    | negSucc n =>
      rcases List.mem_cons.mp hc with h | h
      · cases h
      · exact dec_no_hash _ h

/-- One-dimensional data with given entries `type`, `variables` and `title`. -/
def dat1 (ty vars title : Text) (a : Nd Int) : Dat Int :=
  { metadata := (t "type", ty) :: (t "variables", vars) :: (t "title", title) ::
      (firstPart ++ secondPart .d2 ++ secondPart .d1).map fun k => (k, t "v w"),
    parameters := [(t "x", t "1"), (t "y", [])], vars := vars.splitOn ' ', data := a }

theorem plain_example : ∀ v ∈ [t "array_1d(2)", t "array_1d(4)", t "array_2d(2, 1)", t "x I I_err N", t "I I_err N", t "v w"], Plain v := by
  have h : ∀ v ∈ [t "array_1d(2)", t "array_1d(4)", t "array_2d(2, 1)", t "x I I_err N", t "I I_err N", t "v w"],
      (∀ c ∈ v.head?.toList, isSpace c = false) ∧ (∀ c ∈ v.getLast?.toList, isSpace c = false) ∧ '\n' ∉ v ∧
        v.getLast? ≠ some '#' := by decide +kernel
  intro v hv
  obtain ⟨h1, h2, h3, h4⟩ := h v hv
  exact ⟨⟨fun c hc => h1 c (by simp [hc]), fun c hc => h2 c (by simp [hc])⟩, h3, h4⟩

theorem header_example (k : Kind) (hk : k ≠ .d0) {ty vars : Text} (h1 : Plain ty) (h2 : Plain vars) (a : Nd Int) :
    (dat1 ty vars (t "v w") a).Header k := by
  have hvw : Plain (t "v w") := plain_example _ (by simp)
  refine ⟨?_, (show ([t "x", t "y"] : List Text).Nodup by decide), ?_, vars, ?_, rfl⟩
  · intro key hkey
    have hin : key ∈ firstPart ++ secondPart .d2 ++ secondPart .d1 := by
      have : ∀ k : Kind, k ≠ .d0 → ∀ key ∈ firstPart ++ secondPart k,
          key ∈ firstPart ++ secondPart .d2 ++ secondPart .d1 := by
        intro k; cases k <;> decide +kernel
      exact this k hk key hkey
    simp only [dat1, List.lookup_cons]
    split
    · exact ⟨_, rfl, h1⟩
    split
    · exact ⟨_, rfl, h2⟩
    split
    · exact ⟨_, rfl, hvw⟩
    · rw [lookup_map_key (fun _ => t "v w"), if_pos hin]
      exact ⟨_, rfl, hvw⟩
  · have hs : ∀ p ∈ [(t "x", t "1"), (t "y", [])], (∀ c ∈ p.1, isSpace c = false) ∧ '=' ∉ p.1 ∧ '\n' ∉ p.1 ∧
        (∀ c ∈ p.2, isSpace c = false) ∧ '\n' ∉ p.2 ∧ p.2.getLast? ≠ some '#' := by decide +kernel
    intro p hp
    obtain ⟨a1, a2, a3, a4, a5, a6⟩ := hs p hp
    exact ⟨stripped_of_forall a1, a2, a3, stripped_of_forall a4, a5, a6⟩
  · simp only [dat1, List.lookup_cons]
    rw [show (t "variables" == t "type") = false by decide]
    simp

/-- Two points of four variables. -/
example : ∃ (s : Text) (d' : Dat Int), writeDat intNum .d1
      (dat1 (t "array_1d(2)") (t "x I I_err N") (t "v w") ⟨[4, 2], [1, 2, 3, 4, 5, 6, 7, 8]⟩) = .ok s ∧
    readDat intNum s = .ok (.d1, d') ∧ d'.data = ⟨[4, 2], [1, 2, 3, 4, 5, 6, 7, 8]⟩ := by
  obtain ⟨s, d', h1, h2, _, _, h5, _⟩ := data_file_1d_partial intNum
    (dat1 (t "array_1d(2)") (t "x I I_err N") (t "v w") ⟨[4, 2], [1, 2, 3, 4, 5, 6, 7, 8]⟩) 2
    (header_example .d1 (by decide) (plain_example _ (by simp)) (plain_example _ (by simp)) _) (by decide +kernel)
    (by decide +kernel) (by decide +kernel) (by decide)
  rw [if_neg (by decide +kernel)] at h5
  exact ⟨s, d', h1, h2, h5⟩

/-- Three variables of one line of two numbers. -/
example : ∃ (s : Text) (d' : Dat Int), writeDat intNum .d2
      (dat1 (t "array_2d(2, 1)") (t "I I_err N") (t "v w") ⟨[3, 1, 2], [1, 2, 3, 4, 5, 6]⟩) = .ok s ∧
    readDat intNum s = .ok (.d2, d') ∧ d'.data = ⟨[3, 1, 2], [1, 2, 3, 4, 5, 6]⟩ := by
  obtain ⟨s, d', h1, h2, _, _, h5, _⟩ := data_file_2d intNum
    (dat1 (t "array_2d(2, 1)") (t "I I_err N") (t "v w") ⟨[3, 1, 2], [1, 2, 3, 4, 5, 6]⟩) 2 1
    (header_example .d2 (by decide) (plain_example _ (by simp)) (plain_example _ (by simp)) _) (by decide +kernel)
    (by decide +kernel) (by decide +kernel) (by
      have : ∀ n ∈ (t "I I_err N").splitOn ' ', n ≠ [] ∧ (∀ c ∈ n, isSpace c = false) ∧ ':' ∉ n ∧ '\n' ∉ n := by
        decide +kernel
      intro n hn
      obtain ⟨n1, n2, n3⟩ := this n hn
      exact ⟨n1, stripped_of_forall n2, n3⟩) (by decide +kernel)
    (by decide +kernel) (by decide +kernel) (by decide) (by decide)
  exact ⟨s, d', h1, h2, h5⟩

/-- With as many points as variables the data that are read differ from the data written, unless they are symmetric. -/
theorem square_data_changed {α : Type} (N : Num α) (d : Dat α) (n : Nat) (h : d.Header .d1)
    (ht : d.metadata.lookup (t "type") = some (t "array_1d(" ++ strInt n ++ t ")"))
    (hv : d.vars.length = n) (hs : d.data.shape = [n, n]) (hl : d.data.data.length = n * n)
    (hne : ∃ i < n, ∃ j < n, d.data.data[i * n + j]? ≠ d.data.data[j * n + i]?) :
    ∃ (s : Text) (d' : Dat α), writeDat N .d1 d = .ok s ∧ readDat N s = .ok (.d1, d') ∧ d'.data ≠ d.data := by
  obtain ⟨i, hi, j, hj, hne⟩ := hne
  obtain ⟨s, d', h1, h2, _, _, h5, _⟩ := data_file_1d_partial N d n h ht (by rw [hs, hv]) (by rw [hl, hv]) (by omega)
  refine ⟨s, d', h1, h2, fun he => hne ?_⟩
  rw [if_pos hv.symm] at h5
  rw [← transpose_get hl hj hi, ← h5, he]

example : (dat1 (t "array_1d(4)") (t "x I I_err N") (t "v w")
    ⟨[4, 4], [0, 1, 2, 3, 10, 11, 12, 13, 1, 3, 5, 7, 2, 4, 6, 8]⟩).Header .d1 :=
  header_example .d1 (by decide) (plain_example _ (by simp)) (plain_example _ (by simp)) _

/-- The text read for an entry after it was written. -/
def entryAgain (k : Kind) (key : Text) (d : Dat Int) : Option Text :=
  match writeDat intNum k d with
  | .error _ => none
  | .ok s =>
    match readDat intNum s with
    | .error _ => none
    | .ok r => r.2.metadata.lookup key

/-- A mark of comments at the end of a title is lost. -/
theorem hash_lost : ∃ d : Dat Int, d.metadata.lookup (t "title") = some (t "run #") ∧
    entryAgain .d1 (t "title") d = some (t "run") :=
  ⟨dat1 (t "array_1d(2)") (t "I") (t "run #") ⟨[1, 2], [1, 2]⟩, by decide +kernel, by decide +kernel⟩

/-- Entries that are not of the fixed list are lost. -/
theorem other_entries_lost : ∃ d : Dat Int, d.metadata.lookup (t "zvar") = some (t "v w") ∧
    entryAgain .d1 (t "title") d = some (t "a") ∧ entryAgain .d1 (t "zvar") d = none :=
  ⟨dat1 (t "array_1d(2)") (t "I") (t "a") ⟨[1, 2], [1, 2]⟩, by decide +kernel, by decide +kernel, by decide +kernel⟩

/-- Two-dimensional data of four variables cannot be written. -/
theorem four_variables_refused : ∃ d : Dat Int, d.vars.length = 4 ∧ d.data.shape = [4, 1, 2] ∧
    writeDat intNum .d2 d = .error .indexError :=
  ⟨dat1 (t "array_2d(2, 1)") (t "I I_err N p") (t "a") ⟨[4, 1, 2], [1, 2, 3, 4, 5, 6, 7, 8]⟩, by decide +kernel, rfl,
    by decide +kernel⟩

/-- Data without one of the entries of its kind cannot be written. -/
theorem missing_entry_refused {α : Type} (N : Num α) (k : Kind) (d : Dat α) {key : Text}
    (hk : key ∈ firstPart ++ secondPart k) (h : d.metadata.lookup key = none) : writeDat N k d = .error .keyError := by
  have hm : ∀ keys : List Text, key ∈ keys → mapE (entryLine d.metadata) keys = .error .keyError := by
    intro keys hm
    induction keys with
    | nil => cases hm
    | cons x keys ih =>
      rw [mapE]
      cases hx : d.metadata.lookup x with
      | none => rw [entryLine, hx]
      | some v =>
        have : entryLine d.metadata x = .ok (t "# " ++ x ++ t ": " ++ v) := by rw [entryLine, hx]
        rw [this]
        simp only
        rcases List.mem_cons.mp hm with rfl | hm
        · rw [h] at hx
          cases hx
        · rw [ih hm]
  have hr : ∀ keys : List Text, (∃ r, mapE (entryLine d.metadata) keys = .ok r) ∨
      mapE (entryLine d.metadata) keys = .error .keyError := by
    intro keys
    induction keys with
    | nil => exact Or.inl ⟨[], rfl⟩
    | cons x keys ih =>
      rw [mapE]
      cases hx : d.metadata.lookup x with
      | none => right; rw [entryLine, hx]
      | some v =>
        have : entryLine d.metadata x = .ok (t "# " ++ x ++ t ": " ++ v) := by rw [entryLine, hx]
        rw [this]
        rcases ih with ⟨r, hr⟩ | hr
        · left; rw [hr]; exact ⟨_, rfl⟩
        · right; rw [hr]
  rw [writeDat]
  rcases List.mem_append.mp hk with hk | hk
  · rw [hm _ hk]
  · rcases hr firstPart with ⟨r, h1⟩ | h1
    · rw [h1, hm _ hk]
    · rw [h1]

end Verif.Loader
