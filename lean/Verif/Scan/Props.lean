import Verif.Scan.Lemmas

/-!
Properties C03, C04, C05 (scans and command line parameters) and C60 (`parse_scan_parameters`).
-/

namespace Verif.Scan
open Verif.Range

/-- Spec: the `i`-th value a user means by a parameter setting. -/
def Src.at (s : Src) (i : Nat) : Option Val :=
  match s with
  | .range r => some (.num (r.start + i * r.step))
  | .singular v _ => some v
  | .list l => l[i]?
  | .scalar v => some v

/-- Spec: the value of a parameter with `n` values at scan point `i` of a linear scan. -/
def Src.atPoint (s : Src) (n i : Nat) : Option Val := s.at (if n ≤ 1 then 0 else i)

theorem spread_vals (s s' : Src) (n nmax : Nat) (hl : s.norm.len = .ok n) (hn : 1 < n → n = nmax)
    (hs : s.norm.spread nmax = .ok s') :
    ∃ (l : List Val) (bound : Nat), (∀ fuel ≥ bound, s'.vals fuel = some l) ∧ l.length = nmax ∧
      ∀ i < nmax, l[i]? = s.atPoint n i := by
  unfold Src.spread at hs
  rw [hl] at hs
  dsimp only at hs
  by_cases h1 : n > 1
  · rw [if_pos h1] at hs
    cases hs
    have hnm := hn h1
    subst hnm
    cases s with
    | range r =>
      obtain ⟨l, b, hb, hlen, hget, _⟩ := mrange_views_agree_partial r (len_gt_one_fits r n hl h1)
      have : l.length = n := by
        have e : r.len = .ok n := hl
        rw [hlen] at e
        injection e
      refine ⟨l.map .num, b, fun fuel hf => by simp [Src.norm, Src.vals, hb fuel hf], by simpa using this, ?_⟩
      intro i hi
      have h2 := (hget i (by omega)).2
      simp only [Src.atPoint, Src.at, if_neg (show ¬ n ≤ 1 by omega)]
      rw [List.getElem?_map, List.getElem?_eq_getElem (by omega), h2]
      simp
    | singular v m =>
      cases m with
      | none => simp [Src.norm, Src.len] at hl
      | some m =>
        simp only [Src.norm, Src.len] at hl
        cases hl
        refine ⟨List.replicate n v, 0, fun fuel _ => by simp [Src.norm, Src.vals], by simp, ?_⟩
        intro i hi
        simp [Src.atPoint, Src.at, List.getElem?_replicate, hi]
    | list l =>
      simp only [Src.norm, Src.len] at hl
      cases hl
      refine ⟨l, 0, fun fuel _ => by simp [Src.norm, Src.vals], rfl, ?_⟩
      intro i hi
      simp [Src.atPoint, Src.at, if_neg (show ¬ l.length ≤ 1 by omega)]
    | scalar v =>
      simp only [Src.norm, Src.len] at hl
      cases hl
      simp at h1
  · rw [if_neg h1] at hs
    have h1' : n ≤ 1 := by omega
    cases s with
    | range r =>
      simp only [Src.norm] at hs
      cases hg : r.getitem 0 with
      | error e => rw [hg] at hs; cases hs
      | ok q =>
        rw [hg] at hs
        cases hs
        have hq : q = r.start := by
          have hl' : r.len = .ok n := hl
          unfold MRange.getitem at hg
          rw [hl'] at hg
          dsimp only at hg
          split at hg
          · cases hg
          · cases hg; simp
        refine ⟨List.replicate nmax (.num q), 0, fun fuel _ => rfl, by simp, ?_⟩
        intro i hi
        simp [Src.atPoint, Src.at, List.getElem?_replicate, hi, h1', hq]
    | singular v m =>
      simp only [Src.norm] at hs
      cases hs
      refine ⟨List.replicate nmax v, 0, fun fuel _ => rfl, by simp, ?_⟩
      intro i hi
      simp [Src.atPoint, Src.at, List.getElem?_replicate, hi]
    | list l => simp [Src.norm] at hs
    | scalar v => simp [Src.norm] at hs

theorem cols_vals (nmax : Nat) : ∀ (ps : List (String × Src)) (lens : List Nat) (cols : List Src),
    List.Forall₂ (fun a b => Src.len a = .ok b) (ps.map fun p => p.2.norm) lens →
    (∀ n ∈ lens, 1 < n → n = nmax) →
    List.Forall₂ (fun a b => Src.spread nmax a = .ok b) (ps.map fun p => p.2.norm) cols →
    ∃ (ls : List (List Val)) (bound : Nat),
      (∀ fuel ≥ bound, List.Forall₂ (fun a b => Src.vals fuel a = some b) cols ls) ∧
      (∀ l ∈ ls, l.length = nmax) ∧ ls.length = ps.length ∧
      ∀ i < nmax, ∀ j : Nat, ((ls[j]?).bind (·[i]?)) =
        (ps[j]?).bind fun (p : String × Src) => (lens[j]?).bind fun n => p.2.atPoint n i := by
  intro ps
  induction ps with
  | nil =>
    intro lens cols h1 _ h2
    cases h1; cases h2
    exact ⟨[], 0, fun _ _ => List.Forall₂.nil, by simp, rfl, by simp⟩
  | cons p ps ih =>
    intro lens cols h1 hn h2
    rw [List.map_cons] at h1 h2
    cases h1 with
    | @cons _ n _ lens' hl h1 =>
    cases h2 with
    | @cons _ c _ cols' hc h2 =>
    obtain ⟨ls, b, hb, hlen, hlen', hget⟩ := ih lens' cols' h1 (fun n hn' => hn n (by simp [hn'])) h2
    obtain ⟨l, b2, hb2, hl2, hg2⟩ := spread_vals p.2 c n nmax hl (hn n (by simp)) hc
    refine ⟨l :: ls, max b b2, ?_, ?_, by simp [hlen'], ?_⟩
    · intro fuel hf
      exact List.Forall₂.cons (hb2 fuel (by omega)) (hb fuel (by omega))
    · intro l' hl'
      rcases List.mem_cons.mp hl' with rfl | h
      · exact hl2
      · exact hlen l' h
    · intro i hi j
      cases j with
      | zero => simp [hg2 i hi]
      | succ j => simpa using hget i hi j

/-- C03, what a linear scan visits. If `parameters_to_scan(parameters)` answers at all, then (once the
iterators are run) it reports `n` points and yields exactly `n` rows; row `i` has one entry per parameter
in order, the `j`-th being the `i`-th value of parameter `j`, or its only value if it has one. -/
theorem linear_scan_lock_step (lower : String → String) (ps : List (String × Src)) (f0 : Nat) (p0 : Plan)
    (h : parametersToScan lower f0 ps false = .ok p0) :
    ∃ (n : Nat) (rows : List (List Val)) (counts : List Nat) (bound : Nat),
      (∀ fuel ≥ bound, parametersToScan lower fuel ps false =
        .ok ⟨n, ps.map (fun p => lower p.1), some rows⟩) ∧
      rows.length = n ∧
      counts.length = ps.length ∧
      (∀ (j : Nat) (p : String × Src), ps[j]? = some p → ∃ m, counts[j]? = some m ∧ p.2.norm.len = .ok m ∧ (m ≤ 1 ∨ m = n)) ∧
      (∀ i < n, ∃ row, rows[i]? = some row ∧ row.length = ps.length ∧
        ∀ (j : Nat) (p : String × Src) (m : Nat), ps[j]? = some p → counts[j]? = some m → row[j]? = p.2.atPoint m i) := by
  unfold parametersToScan at h
  simp only [Bool.false_eq_true, if_false] at h
  by_cases he : ps = []
  · subst he
    refine ⟨0, [], [], 0, ?_, rfl, rfl, by simp, by simp⟩
    intro fuel _
    simp [parametersToScan]
  · have hne : ((ps.map fun p => p.2.norm).isEmpty) = false := by
      cases ps with
      | nil => exact absurd rfl he
      | cons => rfl
    rw [hne] at h
    simp only [Bool.false_eq_true, if_false] at h
    cases hlens : (ps.map fun p => p.2.norm).mapM Src.len with
    | error e => rw [hlens] at h; cases h
    | ok lens =>
      rw [hlens] at h
      simp only [bind, Except.bind] at h
      split at h
      · cases h
      · rename_i hany
        cases hcols : (ps.map fun p => p.2.norm).mapM (Src.spread (maxLen lens)) with
        | error e => rw [hcols] at h; cases h
        | ok cols =>
          have hF := (mapM_ok _ _ _).mp hlens
          have hC := (mapM_ok _ _ _).mp hcols
          have hn : ∀ n ∈ lens, 1 < n → n = maxLen lens := by
            intro n hn h1
            by_contra hc
            apply hany
            rw [List.any_eq_true]
            exact ⟨n, hn, by simp [h1, hc]⟩
          obtain ⟨ls, b, hb, hlen, hlen', hget⟩ := cols_vals (maxLen lens) ps lens cols hF hn hC
          have hls : ls ≠ [] := by
            intro hc
            rw [hc] at hlen'
            exact he (List.length_eq_zero_iff.mp hlen'.symm)
          have hll : lens.length = ps.length := by
            have := hF.length_eq
            simpa using this.symm
          refine ⟨maxLen lens, pyZip ls, lens, b, ?_, ?_, hll, ?_, ?_⟩
          · intro fuel hf
            unfold parametersToScan
            simp only [Bool.false_eq_true, if_false, hne, hlens, bind, Except.bind, hany, hcols]
            rw [(mapM_some _ _ _).mpr (hb fuel hf)]
            rfl
          · rw [pyZip_eq ls hls _ hlen]; simp
          · intro j p hp
            obtain ⟨hj, hpj⟩ := List.getElem?_eq_some_iff.mp hp
            have hj2 : j < lens.length := by omega
            refine ⟨lens[j], List.getElem?_eq_getElem hj2, ?_, ?_⟩
            · have := List.Forall₂.get hF (i := j) (by simpa using hj) hj2
              simpa [hpj] using this
            · by_cases h1 : 1 < lens[j]
              · exact Or.inr (hn _ (List.getElem_mem hj2) h1)
              · exact Or.inl (by omega)
          · intro i hi
            rw [pyZip_eq ls hls _ hlen]
            have hfm : ls.filterMap (fun c => c[i]?) = ls.pmap (fun c (hc : i < c.length) => c[i])
                (fun c hc => by rw [hlen c hc]; exact hi) := by
              clear hget hlen' hls hb
              induction ls with
              | nil => rfl
              | cons c cs ihc =>
                have hcl : i < c.length := by rw [hlen c (by simp)]; exact hi
                rw [List.filterMap_cons, List.getElem?_eq_getElem hcl]
                simp only [List.pmap_cons]
                rw [ihc (fun l hl => hlen l (by simp [hl]))]
            refine ⟨ls.filterMap (fun c => c[i]?), ?_, ?_, ?_⟩
            · simp [hi]
            · rw [hfm]; simpa using hlen'
            · intro j p m hp hm
              have := hget i hi j
              rw [hp, hm] at this
              simp only [Option.bind_some] at this
              rw [← this, hfm]
              by_cases hj : j < ls.length
              · have hcl : i < (ls[j]).length := by
                  rw [hlen _ (List.getElem_mem hj)]; exact hi
                rw [List.getElem?_eq_getElem (by simpa using hj), List.getElem?_eq_getElem hj]
                simp [List.getElem?_eq_getElem hcl]
              · rw [List.getElem?_eq_none (by simpa using hj), List.getElem?_eq_none (by omega)]
                rfl

/-- A mixed case: a range of five, a list of five and a repeated value. -/
example : (parametersToScan id 20 [("a", .range ⟨1, 5, 1⟩), ("b", .singular (.num 7) (some 5)),
      ("c", .list [.num 9, .num 8, .num 7, .num 6, .num 5])] false) =
    .ok ⟨5, ["a", "b", "c"], some [[.num 1, .num 7, .num 9], [.num 2, .num 7, .num 8],
      [.num 3, .num 7, .num 7], [.num 4, .num 7, .num 6], [.num 5, .num 7, .num 5]]⟩ := by
  decide +kernel

/-- C03, refusal: two parameters with different numbers of values, both more than one, are an error. -/
theorem linear_scan_refuses_mismatch (lower : String → String) (ps : List (String × Src)) (fuel : Nat)
    (p q : String × Src) (hp : p ∈ ps) (hq : q ∈ ps) (m n : Nat)
    (hm : p.2.norm.len = .ok m) (hn : q.2.norm.len = .ok n) (h1 : 1 < m) (h2 : 1 < n) (hmn : m ≠ n) :
    ∃ e, parametersToScan lower fuel ps false = .error e := by
  cases h : parametersToScan lower fuel ps false with
  | error e => exact ⟨e, rfl⟩
  | ok p0 =>
    exfalso
    obtain ⟨N, rows, counts, b, _, _, _, hc, _⟩ := linear_scan_lock_step lower ps fuel p0 h
    obtain ⟨i, hi⟩ := List.mem_iff_getElem?.mp hp
    obtain ⟨j, hj⟩ := List.mem_iff_getElem?.mp hq
    obtain ⟨m', _, hm', hm2⟩ := hc i p hi
    obtain ⟨n', _, hn', hn2⟩ := hc j q hj
    rw [hm] at hm'; rw [hn] at hn'
    cases hm'; cases hn'
    omega

example : (Src.norm (.range ⟨1, 5, 1⟩)).len = .ok 5 ∧ (Src.norm (.range ⟨1, 4, 1⟩)).len = .ok 4 := by
  decide +kernel

/-- C03 is not total in the code: a parameter given as a plain number, or as a list of one value, which the
function says it accepts, makes every linear scan raise `AttributeError`. -/
theorem linear_scan_scalar_fails : ∃ ps : List (String × Src),
    (∀ fuel, parametersToScan id fuel ps false = .error .attributeError) ∧
    ps = [("a", .scalar (.num 3)), ("b", .range ⟨1, 5, 1⟩)] := by
  refine ⟨_, fun fuel => ?_, rfl⟩
  have h5 : (⟨1, 5, 1⟩ : MRange).len = .ok 5 := by decide +kernel
  have hl : ([Src.scalar (.num 3), .range ⟨1, 5, 1⟩].map Src.norm).mapM Src.len = .ok [1, 5] := by
    rw [mapM_ok]
    exact .cons rfl (.cons h5 .nil)
  have hc : ([Src.scalar (.num 3), .range ⟨1, 5, 1⟩].map Src.norm).mapM (Src.spread 5)
      = .error .attributeError := rfl
  simp only [List.map_cons, List.map_nil] at hl hc
  simp only [parametersToScan, Bool.false_eq_true, if_false, List.map_cons, List.map_nil,
    List.isEmpty_cons, hl, bind, Except.bind]
  rw [if_neg (by decide), show maxLen [1, 5] = 5 from rfl, hc]

/-- When a linear scan answers: every length is defined and is at most one or the common one, and no entry
of length at most one is a plain list, a scalar, or an empty range. -/
theorem linear_scan_accepts (lower : String → String) (ps : List (String × Src)) (fuel N : Nat)
    (h : ∀ p ∈ ps, (∃ r, p.2 = .range r ∧ (r.len = .ok 1 ∨ (r.len = .ok N ∧ 1 < N))) ∨
      (∃ v m, p.2 = .singular v (some m) ∧ (m ≤ 1 ∨ m = N)) ∨
      (∃ l, p.2 = .list l ∧ l.length = N ∧ 1 < N))
    (hN : ∃ p ∈ ps, p.2.len = .ok N) (h1 : 1 ≤ N) :
    ∃ p0, parametersToScan lower fuel ps false = .ok p0 ∧ p0.n = N := by
  have hnorm : ∀ p ∈ ps, p.2.norm = p.2 := by
    intro p hp
    rcases h p hp with ⟨r, hr, _⟩ | ⟨v, m, hv, _⟩ | ⟨l, hl, _⟩ <;> simp [*, Src.norm]
  have hmap : (ps.map fun p => p.2.norm) = ps.map (·.2) := List.map_congr_left hnorm
  have hlen : ∀ p ∈ ps, ∃ n, p.2.len = .ok n ∧ (n ≤ 1 ∨ n = N) := by
    intro p hp
    rcases h p hp with ⟨r, hr, h | h⟩ | ⟨v, m, hv, h⟩ | ⟨l, hl, h, _⟩
    · exact ⟨1, by simpa [hr, Src.len] using h, Or.inl (le_refl _)⟩
    · exact ⟨N, by simpa [hr, Src.len] using h.1, Or.inr rfl⟩
    · exact ⟨m, by simp [hv, Src.len], h⟩
    · exact ⟨N, by simp [hl, Src.len, h], Or.inr rfl⟩
  obtain ⟨lens, hlens⟩ : ∃ lens, (ps.map (·.2)).mapM Src.len = .ok lens := by
    clear hN hnorm hmap h
    induction ps with
    | nil => exact ⟨[], rfl⟩
    | cons p ps ih =>
      obtain ⟨lens, hl⟩ := ih (fun q hq => hlen q (by simp [hq]))
      obtain ⟨n, hn, _⟩ := hlen p (by simp)
      refine ⟨n :: lens, ?_⟩
      rw [mapM_ok] at hl ⊢
      exact List.Forall₂.cons hn hl
  have hF := (mapM_ok _ _ _).mp hlens
  have hmemlens : ∀ n ∈ lens, n ≤ 1 ∨ n = N := by
    intro n hn
    obtain ⟨j, hj, rfl⟩ := List.mem_iff_getElem.mp hn
    have hj' : j < (ps.map (·.2)).length := by rw [hF.length_eq]; exact hj
    have h' := List.Forall₂.get hF hj' hj
    simp only [List.get_eq_getElem, List.getElem_map] at h'
    obtain ⟨m, hm, hm'⟩ := hlen _ (List.getElem_mem (l := ps) (n := j) (by simpa using hj'))
    rw [h'] at hm
    cases hm
    exact hm'
  have hNmem : N ∈ lens := by
    obtain ⟨p, hp, hpN⟩ := hN
    obtain ⟨j, hj, rfl⟩ := List.mem_iff_getElem.mp hp
    have hj' : j < lens.length := by rw [← hF.length_eq]; simpa using hj
    have h' := List.Forall₂.get hF (by simpa using hj) hj'
    simp only [List.get_eq_getElem, List.getElem_map] at h'
    rw [hpN] at h'
    cases h'
    exact List.getElem_mem hj'
  have hmax : maxLen lens = N := by
    apply le_antisymm
    · rcases foldl_max_mem lens 0 with h | h
      · unfold maxLen; omega
      · rcases hmemlens _ h with h' | h'
        · unfold maxLen; omega
        · unfold maxLen; omega
    · exact le_maxLen lens N hNmem
  have hany : lens.any (fun n => decide (n > 1) && decide (n ≠ maxLen lens)) = false := by
    rw [List.any_eq_false]
    intro n hn
    rcases hmemlens n hn with h' | h'
    · simp; omega
    · simp [hmax, h']
  obtain ⟨cols, hcols⟩ : ∃ cols, (ps.map (·.2)).mapM (Src.spread (maxLen lens)) = .ok cols := by
    clear hN hnorm hmap hlens hF hlen hmemlens hNmem hany
    generalize maxLen lens = M at *
    induction ps with
    | nil => exact ⟨[], rfl⟩
    | cons p ps ih =>
      obtain ⟨cs, hc⟩ := ih (fun q hq => h q (by simp [hq]))
      have : ∃ c, Src.spread M p.2 = .ok c := by
        rcases h p (by simp) with ⟨r, hr, h | ⟨h, h'⟩⟩ | ⟨v, m, hv, h⟩ | ⟨l, hl, h, h'⟩
        · refine ⟨.singular (.num (0 * r.step + r.start)) (some M), ?_⟩
          simp [Src.spread, hr, Src.len, h, MRange.getitem, Except.map]
        · refine ⟨.range r, ?_⟩
          simp [Src.spread, hr, Src.len, h, h']
        · by_cases hm : m > 1
          · exact ⟨.singular v (some m), by simp [Src.spread, hv, Src.len, hm]⟩
          · exact ⟨.singular v (some M), by simp [Src.spread, hv, Src.len, hm]⟩
        · exact ⟨.list l, by simp [Src.spread, hl, Src.len, h, h']⟩
      obtain ⟨c, hc'⟩ := this
      refine ⟨c :: cs, ?_⟩
      rw [mapM_ok] at hc ⊢
      exact List.Forall₂.cons hc' hc
  have hne : (ps.map (·.2)).isEmpty = false := by
    obtain ⟨p, hp, _⟩ := hN
    cases ps with
    | nil => cases hp
    | cons => rfl
  refine ⟨⟨maxLen lens, ps.map (fun p => lower p.1), (cols.mapM (Src.vals fuel)).map pyZip⟩, ?_, hmax⟩
  unfold parametersToScan
  simp only [Bool.false_eq_true, if_false, hmap, hne, hlens, bind, Except.bind, hany, hcols]

example : ∃ p ∈ [("a", Src.range ⟨1, 5, 1⟩), ("b", Src.singular (.num 7) (some 1))],
    p.2.len = .ok 5 := ⟨_, List.mem_cons_self, by decide +kernel⟩

/-! ### C04: grid scans -/

/-- Spec: how many values a parameter contributes to a grid. -/
def Src.gridCount (s : Src) (n : Nat) : Prop :=
  match s with
  | .range r => r.len = .ok n
  | .singular _ _ => n = 1
  | .list l => n = l.length
  | .scalar _ => n = 1

/-- Spec: position of a combination of indices when the last index varies fastest. -/
def rowIndex : List Nat → List Nat → Nat
  | _ :: cs, i :: is => i * cs.prod + rowIndex cs is
  | _, _ => 0

theorem rowIndex_lt : ∀ (cs is : List Nat), List.Forall₂ (fun i c => i < c) is cs →
    rowIndex cs is < cs.prod := by
  intro cs is h
  induction h with
  | nil => simp [rowIndex]
  | @cons i c is cs h _ ih =>
    simp only [rowIndex, List.prod_cons]
    calc i * cs.prod + rowIndex cs is < i * cs.prod + cs.prod := by omega
      _ = (i + 1) * cs.prod := by ring
      _ ≤ c * cs.prod := Nat.mul_le_mul_right _ h

/-- Every row number below the product is the position of a combination, and of only one. -/
theorem rowIndex_bijective (cs : List Nat) (k : Nat) (hk : k < cs.prod) :
    ∃ is, List.Forall₂ (fun i c => i < c) is cs ∧ rowIndex cs is = k ∧
      ∀ is', List.Forall₂ (fun i c => i < c) is' cs → rowIndex cs is' = k → is' = is := by
  induction cs generalizing k with
  | nil =>
    simp only [List.prod_nil, Nat.lt_one_iff] at hk
    exact ⟨[], List.Forall₂.nil, by simp [rowIndex, hk], fun is' h _ => by cases h; rfl⟩
  | cons c cs ih =>
    rw [List.prod_cons] at hk
    have hp : 0 < cs.prod := by
      rcases Nat.eq_zero_or_pos cs.prod with h | h
      · rw [h] at hk; omega
      · exact h
    obtain ⟨is, h1, h2, h3⟩ := ih (k % cs.prod) (Nat.mod_lt _ hp)
    refine ⟨k / cs.prod :: is, List.Forall₂.cons ?_ h1, ?_, ?_⟩
    · rw [Nat.div_lt_iff_lt_mul hp]; exact hk
    · simp only [rowIndex, h2]
      exact Nat.div_add_mod' k cs.prod
    · intro is' h h'
      cases h with
      | @cons i _ is'' _ hi hrest =>
        simp only [rowIndex] at h'
        have hlt := rowIndex_lt cs is'' hrest
        have e1 : k % cs.prod = rowIndex cs is'' := by
          rw [← h', Nat.mul_comm, Nat.mul_add_mod]
          exact Nat.mod_eq_of_lt hlt
        have e2 : k / cs.prod = i := by
          rw [← h', Nat.mul_comm, Nat.mul_add_div hp, Nat.div_eq_of_lt hlt]; rfl
        rw [e2, h3 is'' hrest e1.symm]

theorem product_row : ∀ (ls : List (List Val)) (is : List Nat),
    List.Forall₂ (fun i c => i < c) is (ls.map List.length) →
    ∃ row, (product ls)[rowIndex (ls.map List.length) is]? = some row ∧ row.length = ls.length ∧
      ∀ j : Nat, row[j]? = (ls[j]?).bind fun l => (is[j]?).bind fun i => l[i]? := by
  intro ls
  induction ls with
  | nil =>
    intro is h
    exact ⟨[], by simp [rowIndex, product], rfl, by simp⟩
  | cons c cs ih =>
    intro is h
    rw [List.map_cons] at h
    cases h with
    | @cons i _ is _ hi hrest =>
      obtain ⟨row, hrow, hlen, hget⟩ := ih is hrest
      have hlt := rowIndex_lt _ _ hrest
      rw [← product_length] at hlt
      refine ⟨c[i] :: row, ?_, by simp [hlen], ?_⟩
      · rw [List.map_cons]
        simp only [rowIndex]
        rw [← product_length, product_getElem? c cs i _ hlt, hrow,
          List.getElem?_eq_getElem hi]
        rfl
      · intro j
        cases j with
        | zero => simp [List.getElem?_eq_getElem hi]
        | succ j => simpa using hget j

theorem grid_vals (s : Src) (n : Nat) (hc : s.gridCount n)
    (hr : ∀ r, s = .range r → OneStepFits r) :
    (gridify s).norm.len = .ok n ∧ ∃ (l : List Val) (bound : Nat),
      (∀ fuel ≥ bound, (gridify s).norm.vals fuel = some l) ∧ l.length = n ∧
      ∀ i < n, l[i]? = s.at i := by
  cases s with
  | range r =>
    have hc' : r.len = .ok n := hc
    obtain ⟨l, b, hb, hlen, hget, _⟩ := mrange_views_agree_partial r (hr r rfl)
    have : l.length = n := by
      rw [hlen] at hc'
      injection hc'
    refine ⟨hc', l.map .num, b, fun fuel hf => by simp [gridify, Src.norm, Src.vals, hb fuel hf],
      by simpa using this, ?_⟩
    intro i hi
    have h2 := (hget i (by omega)).2
    rw [List.getElem?_map, List.getElem?_eq_getElem (by omega), h2]
    simp [Src.at]
  | singular v m =>
    have hc' : n = 1 := hc
    subst hc'
    refine ⟨rfl, [v], 0, fun _ _ => rfl, rfl, ?_⟩
    intro i hi
    have : i = 0 := by omega
    subst this; rfl
  | list l =>
    have hc' : n = l.length := hc
    subst hc'
    exact ⟨rfl, l, 0, fun _ _ => rfl, rfl, fun _ _ => rfl⟩
  | scalar v =>
    have hc' : n = 1 := hc
    subst hc'
    refine ⟨rfl, [v], 0, fun _ _ => rfl, rfl, ?_⟩
    intro i hi
    have : i = 0 := by omega
    subst this; rfl

/-- C04 (partial: every range must have room for one step, see `grid_scan_loses_short_range`).
A grid scan over parameters with `counts` values reports the product of the counts as the number of points,
yields that many rows, and for every combination of indices the row at its (last-index-fastest) position
holds exactly the values with these indices. With `rowIndex_bijective` every row is the row of exactly one
combination. -/
theorem grid_scan_is_product_partial (lower : String → String) (ps : List (String × Src)) (counts : List Nat)
    (hne : ps ≠ [])
    (hc : List.Forall₂ (fun (p : String × Src) n => p.2.gridCount n) ps counts)
    (hr : ∀ p ∈ ps, ∀ r, p.2 = .range r → OneStepFits r) :
    ∃ (rows : List (List Val)) (bound : Nat),
      (∀ fuel ≥ bound, parametersToScan lower fuel ps true =
        .ok ⟨counts.prod, ps.map (fun p => lower p.1), some rows⟩) ∧
      rows.length = counts.prod ∧
      ∀ is, List.Forall₂ (fun i c => i < c) is counts →
        ∃ row, rows[rowIndex counts is]? = some row ∧ row.length = ps.length ∧
          ∀ j : Nat, row[j]? = (ps[j]?).bind fun p => (is[j]?).bind fun i => p.2.at i := by
  have key : ∃ (ls : List (List Val)) (bound : Nat),
      List.Forall₂ (fun a b => Src.len a = .ok b) (ps.map fun p => (gridify p.2).norm) counts ∧
      (∀ fuel ≥ bound, List.Forall₂ (fun a b => Src.vals fuel a = some b)
        (ps.map fun p => (gridify p.2).norm) ls) ∧
      ls.map List.length = counts ∧ ls.length = ps.length ∧
      ∀ (j i : Nat), (∀ c, counts[j]? = some c → i < c) →
        ((ls[j]?).bind (·[i]?)) = (ps[j]?).bind fun p => p.2.at i := by
    clear hne
    induction hc with
    | nil => exact ⟨[], 0, List.Forall₂.nil, fun _ _ => List.Forall₂.nil, rfl, rfl, by simp⟩
    | @cons p n ps counts h1 _ ih =>
      obtain ⟨ls, b, hl, hb, hlen, hlen', hget⟩ := ih (fun p hp => hr p (by simp [hp]))
      obtain ⟨hl1, l, b1, hb1, hl2, hg⟩ := grid_vals p.2 n h1 (hr p (by simp))
      refine ⟨l :: ls, max b b1, List.Forall₂.cons hl1 hl, ?_, by simp [hl2, hlen], by simp [hlen'], ?_⟩
      · intro fuel hf
        exact List.Forall₂.cons (hb1 fuel (by omega)) (hb fuel (by omega))
      · intro j i hi
        cases j with
        | zero => simp [hg i (hi n rfl)]
        | succ j => simpa using hget j i (fun c hc => hi c (by simpa using hc))
  obtain ⟨ls, b, hl, hb, hlen, hlen', hget⟩ := key
  refine ⟨product ls, b, ?_, ?_, ?_⟩
  · intro fuel hf
    unfold parametersToScan
    have hE : (ps.map fun p => (gridify p.2).norm).isEmpty = false := by
      cases ps with
      | nil => exact absurd rfl hne
      | cons => rfl
    simp only [if_true, List.map_map, Function.comp_def]
    rw [hE]
    simp only [Bool.false_eq_true, if_false]
    rw [(mapM_ok _ _ _).mpr hl, (mapM_some _ _ _).mpr (hb fuel hf)]
    rfl
  · rw [product_length, hlen]
  · intro is his
    rw [← hlen] at his ⊢
    obtain ⟨row, hrow, hrl, hrg⟩ := product_row ls is his
    refine ⟨row, hrow, by omega, ?_⟩
    intro j
    rw [hrg j]
    cases hij : is[j]? with
    | none =>
      cases ls[j]? <;> cases ps[j]? <;> rfl
    | some i =>
      have := hget j i (by
        intro c hcj
        rw [← hlen] at hcj
        obtain ⟨hj, hji⟩ := List.getElem?_eq_some_iff.mp hij
        obtain ⟨hj2, hji2⟩ := List.getElem?_eq_some_iff.mp hcj
        have := List.Forall₂.get his hj hj2
        simp only [List.get_eq_getElem] at this
        rw [hji, hji2] at this
        exact this)
      simpa using this

/-- A two by two by one grid, last parameter fastest. -/
example : parametersToScan id 20 [("a", .range ⟨1, 2, 1⟩), ("b", .singular (.num 7) none),
      ("c", .list [.num 9, .num 8])] true =
    .ok ⟨4, ["a", "b", "c"], some [[.num 1, .num 7, .num 9], [.num 1, .num 7, .num 8],
      [.num 2, .num 7, .num 9], [.num 2, .num 7, .num 8]]⟩ := by
  decide +kernel

example : List.Forall₂ (fun (p : String × Src) n => p.2.gridCount n)
    [("a", .range ⟨1, 2, 1⟩), ("c", .list [.num 9, .num 8, .num 7])] [2, 3] :=
  .cons (show (⟨1, 2, 1⟩ : MRange).len = .ok 2 by decide +kernel)
    (.cons (show 3 = 3 from rfl) .nil)

/-- The full C04 is false for the code: with a range too short for a step the grid announces points but
yields none of them. -/
theorem grid_scan_loses_short_range : ∃ ps : List (String × Src),
    (∃ p0, parametersToScan id 5 ps true = .ok p0 ∧ p0.n = 3 ∧ p0.rows = some []) ∧
    ps = [("a", .range ⟨1, 3, 5⟩), ("b", .range ⟨1, 3, 1⟩)] := by
  refine ⟨_, ⟨⟨3, ["a", "b"], some []⟩, ?_, rfl, rfl⟩, rfl⟩
  decide +kernel

/-! ### C05: command line words -/

/-- Spec: how a list of words splits into (name, value) settings: `name=value` (the first `=` separates) or
two successive words without `=`. -/
inductive Reads : List Word → List (Word × Word) → Prop
  | nil : Reads [] []
  | assign (k v : Word) (ws : List Word) (kvs : List (Word × Word)) :
      '=' ∉ k → Reads ws kvs → Reads ((k ++ '=' :: v) :: ws) ((k, v) :: kvs)
  | pair (k v : Word) (ws : List Word) (kvs : List (Word × Word)) :
      '=' ∉ k → '=' ∉ v → Reads ws kvs → Reads (k :: v :: ws) ((k, v) :: kvs)

theorem splitEq_append (k v : Word) (h : '=' ∉ k) : splitEq (k ++ '=' :: v) = (k, v) := by
  induction k with
  | nil => simp [splitEq]
  | cons c cs ih =>
    simp only [List.mem_cons, not_or] at h
    simp [splitEq, Ne.symm h.1, ih h.2]

theorem splitEq_spec (w : Word) (h : '=' ∈ w) :
    w = (splitEq w).1 ++ '=' :: (splitEq w).2 ∧ '=' ∉ (splitEq w).1 := by
  induction w with
  | nil => cases h
  | cons c cs ih =>
    by_cases hc : c = '='
    · subst hc; simp [splitEq]
    · have h' : '=' ∈ cs := by
        rcases List.mem_cons.mp h with h | h
        · exact absurd h.symm hc
        · exact h
      obtain ⟨h1, h2⟩ := ih h'
      simp only [splitEq, hc, if_false]
      refine ⟨?_, ?_⟩
      · rw [List.cons_append, ← h1]
      · simp only [List.mem_cons, not_or]
        exact ⟨fun h => hc h.symm, h2⟩

/-- Spec: the last value given for a name. -/
def lastValue {V : Type} (k : Word) : List (Word × V) → Option V
  | [] => none
  | (k', v) :: rest => (lastValue k rest).or (if k' = k then some v else none)

theorem parseLoop_reads {V : Type} (conv : Word → Except Err V) (ws : List Word)
    (kvs : List (Word × Word)) (h : Reads ws kvs) : ∀ (d : List (Word × V)) (vals : List V),
    kvs.mapM (fun p => conv p.2) = .ok vals →
    parseLoop conv d ws =
      .ok ((kvs.map (·.1)).zip vals |>.foldl (fun d p => dictSet d p.1 p.2) d) := by
  induction h with
  | nil =>
    intro d vals hv
    simp only [parseLoop, List.map_nil, List.zip_nil_left, List.foldl_nil]
  | assign k v ws kvs hk hr ih =>
    intro d vals hv
    rw [mapM_ok] at hv
    cases hv with
    | @cons _ x _ xs hx hxs =>
      have hin : '=' ∈ k ++ '=' :: v := by simp
      have e : parseLoop conv d ((k ++ '=' :: v) :: ws) = parseLoop conv (dictSet d k x) ws := by
        cases ws with
        | nil =>
          simp only [parseLoop, if_pos hin]
          rw [splitEq_append k v hk]
          simp only at hx ⊢
          rw [hx]
        | cons w ws =>
          simp only [parseLoop, if_pos hin]
          rw [splitEq_append k v hk]
          simp only at hx ⊢
          rw [hx]
      rw [e, ih _ xs ((mapM_ok _ _ _).mpr hxs)]
      simp
  | pair k v ws kvs hk hv' hr ih =>
    intro d vals hv
    rw [mapM_ok] at hv
    cases hv with
    | @cons _ x _ xs hx hxs =>
      rw [parseLoop, if_neg hk, if_pos hv']
      simp only at hx ⊢
      rw [hx]
      simp only
      rw [ih _ xs ((mapM_ok _ _ _).mpr hxs)]
      simp

theorem parseLoop_ok_reads {V : Type} (conv : Word → Except Err V) (d d' : List (Word × V))
    (ws : List Word) (h : parseLoop conv d ws = .ok d') :
    ∃ kvs vals, Reads ws kvs ∧ kvs.mapM (fun p => conv p.2) = .ok vals := by
  induction hn : ws.length using Nat.strong_induction_on generalizing ws d with
  | _ n ih =>
    match ws, h with
    | [], _ => exact ⟨[], [], .nil, rfl⟩
    | [w], h =>
      rw [parseLoop] at h
      split at h
      · rename_i hin
        split at h
        · cases h
        · rename_i v hv
          obtain ⟨h1, h2⟩ := splitEq_spec w hin
          refine ⟨[((splitEq w).1, (splitEq w).2)], [v], ?_, ?_⟩
          · have := Reads.assign (splitEq w).1 (splitEq w).2 [] [] h2 .nil
            rwa [← h1] at this
          · rw [mapM_ok]; exact .cons hv .nil
      · cases h
    | w :: w' :: ws, h =>
      rw [parseLoop] at h
      split at h
      · rename_i hin
        split at h
        · cases h
        · rename_i v hv
          obtain ⟨kvs, vals, hr, hm⟩ := ih (ws.length + 1) (by simp [← hn]) _ _ h (by simp)
          obtain ⟨h1, h2⟩ := splitEq_spec w hin
          refine ⟨((splitEq w).1, (splitEq w).2) :: kvs, v :: vals, ?_, ?_⟩
          · have := Reads.assign (splitEq w).1 (splitEq w).2 (w' :: ws) kvs h2 hr
            rwa [← h1] at this
          · rw [mapM_ok] at hm ⊢; exact .cons hv hm
      · rename_i hin
        split at h
        · rename_i hin'
          split at h
          · cases h
          · rename_i v hv
            obtain ⟨kvs, vals, hr, hm⟩ := ih ws.length (by simp only [← hn, List.length_cons]; omega) _ _ h rfl
            exact ⟨(w, w') :: kvs, v :: vals, .pair w w' ws kvs hin hin' hr, by
              rw [mapM_ok] at hm ⊢; exact .cons hv hm⟩
        · cases h

theorem foldl_dictSet_get {V : Type} (kvs : List (Word × V)) (d : List (Word × V)) (k : Word) :
    dictGet (kvs.foldl (fun d p => dictSet d p.1 p.2) d) k = (lastValue k kvs).or (dictGet d k) := by
  induction kvs generalizing d with
  | nil => simp [lastValue]
  | cons p kvs ih =>
    rw [List.foldl_cons, ih, dictGet_dictSet]
    obtain ⟨k', v⟩ := p
    simp only [lastValue]
    by_cases h : k' = k
    · simp only [h, if_true]
      cases lastValue k kvs <;> simp
    · simp only [h, if_false]
      cases lastValue k kvs <;> simp

theorem foldl_dictSet_nodup {V : Type} (kvs : List (Word × V)) (d : List (Word × V))
    (h : (d.map (·.1)).Nodup) :
    ((kvs.foldl (fun d p => dictSet d p.1 p.2) d).map (·.1)).Nodup := by
  induction kvs generalizing d with
  | nil => exact h
  | cons p kvs ih => exact ih _ (dictSet_keys_nodup d _ _ h)

/-- C05. `parse_command_line_parameters` succeeds exactly on the word lists that split into settings whose
values convert, and then every name has the last value given for it, each name once; any other list (an
unpaired name, an inconvertible value) raises. -/
theorem command_line_parameters_spec {V : Type} (conv : Word → Except Err V) (ws : List Word) :
    (∀ kvs vals, Reads ws kvs → kvs.mapM (fun p => conv p.2) = .ok vals →
      ∃ d, parseCommandLine conv ws = .ok d ∧ (d.map (·.1)).Nodup ∧
        ∀ k, dictGet d k = lastValue k ((kvs.map (·.1)).zip vals)) ∧
    (∀ d, parseCommandLine conv ws = .ok d →
      ∃ kvs vals, Reads ws kvs ∧ kvs.mapM (fun p => conv p.2) = .ok vals) := by
  refine ⟨fun kvs vals hr hm => ?_, fun d h => parseLoop_ok_reads conv [] d ws h⟩
  refine ⟨_, parseLoop_reads conv ws kvs hr [] vals hm, foldl_dictSet_nodup _ _ (by simp), fun k => ?_⟩
  rw [foldl_dictSet_get]
  simp [dictGet]

/-- The reading of a word list is unique, so the values above are determined. -/
theorem reads_unique (ws : List Word) (a b : List (Word × Word)) (ha : Reads ws a) (hb : Reads ws b) :
    a = b := by
  induction ha generalizing b with
  | nil => cases hb; rfl
  | assign k v ws kvs hk hr ih =>
    generalize hw : (k ++ '=' :: v) :: ws = ws' at hb
    cases hb with
    | nil => cases hw
    | assign k' v' ws'' kvs' hk' hr' =>
      simp only [List.cons.injEq] at hw
      obtain ⟨h1, rfl⟩ := hw
      have e1 := splitEq_append k v hk
      rw [h1, splitEq_append k' v' hk'] at e1
      cases e1
      rw [ih _ hr']
    | pair k' v' ws'' kvs' hk' hv' hr' =>
      simp only [List.cons.injEq] at hw
      obtain ⟨rfl, _⟩ := hw
      simp at hk'
  | pair k v ws kvs hk hv hr ih =>
    generalize hw : k :: v :: ws = ws' at hb
    cases hb with
    | nil => cases hw
    | assign k' v' ws'' kvs' hk' hr' =>
      simp only [List.cons.injEq] at hw
      obtain ⟨rfl, _⟩ := hw
      simp at hk
    | pair k' v' ws'' kvs' hk' hv' hr' =>
      simp only [List.cons.injEq] at hw
      obtain ⟨rfl, rfl, rfl⟩ := hw
      rw [ih _ hr']

example : Reads ["a=1".toList, "b".toList, "2".toList, "a=3=4".toList]
    [("a".toList, "1".toList), ("b".toList, "2".toList), ("a".toList, "3=4".toList)] :=
  .assign "a".toList "1".toList _ _ (by decide)
    (.pair _ _ _ _ (by decide) (by decide) (.assign "a".toList "3=4".toList _ _ (by decide) .nil))

/-- An unpaired name raises rather than being dropped. -/
example : parseCommandLine (V := Word) .ok ["a=1".toList, "b".toList] = .error .valueError := by
  decide +kernel

/-- `parse_list` (used for the older entry point) reads exactly the same settings, with names lower-cased,
and leaves its argument list empty when it succeeds. -/
theorem parse_list_spec {V : Type} (lower : Word → Word) (conv : Word → Except Err V) (ws : List Word)
    (kvs : List (Word × Word)) (vals : List V)
    (h : Reads ws kvs) (hm : kvs.mapM (fun p => conv p.2) = .ok vals) :
    ∃ d, parseListLoop lower conv [] ws = .ok (d, []) ∧
      ∀ k, dictGet d k = lastValue k ((kvs.map (fun p => lower p.1)).zip vals) := by
  have key : ∀ (d : List (Word × V)) (vals : List V), kvs.mapM (fun p => conv p.2) = .ok vals →
      parseListLoop lower conv d ws =
        .ok (((kvs.map (fun p => lower p.1)).zip vals).foldl (fun d p => dictSet d p.1 p.2) d, []) := by
    clear hm
    induction h with
    | nil => intro d vals _; simp [parseListLoop]
    | assign k v ws kvs hk hr ih =>
      intro d vals hv
      rw [mapM_ok] at hv
      cases hv with
      | @cons _ x _ xs hx hxs =>
        have hin : '=' ∈ k ++ '=' :: v := by simp
        have e : parseListLoop lower conv d ((k ++ '=' :: v) :: ws)
            = parseListLoop lower conv (dictSet d (lower k) x) ws := by
          cases ws with
          | nil =>
            simp only [parseListLoop, if_pos hin]
            rw [splitEq_append k v hk]
            simp only at hx ⊢
            rw [hx]
          | cons w ws =>
            simp only [parseListLoop, if_pos hin]
            rw [splitEq_append k v hk]
            simp only at hx ⊢
            rw [hx]
        rw [e, ih _ xs ((mapM_ok _ _ _).mpr hxs)]
        simp
    | pair k v ws kvs hk hv' hr ih =>
      intro d vals hv
      rw [mapM_ok] at hv
      cases hv with
      | @cons _ x _ xs hx hxs =>
        rw [parseListLoop, if_neg hk, if_pos hv']
        simp only at hx ⊢
        rw [hx]
        simp only
        rw [ih _ xs ((mapM_ok _ _ _).mpr hxs)]
        simp
  refine ⟨_, key [] vals hm, fun k => ?_⟩
  rw [foldl_dictSet_get]
  simp [dictGet]

example : ∃ vals, [("a".toList, "1".toList)].mapM (fun p => (Except.ok p.2 : Except Err Word)) = .ok vals :=
  ⟨_, rfl⟩

/-! ### C60: bounding the repeated values of a parsed scan -/

/-- C60. After `parse_scan_parameters`, no repeated value is unbounded, the names are unchanged, ranges and
already bounded values are untouched, and the bound given to the others is the largest range length (one if
there is none). -/
theorem bound_singulars_spec (ps qs : List (String × Src)) (h : boundSingulars ps = .ok qs) :
    ∃ m, qs.length = ps.length ∧
      (∀ p ∈ ps, ∀ r n, p.2 = .range r → r.len = .ok n → n ≤ m) ∧
      ((∃ p ∈ ps, ∃ r, p.2 = .range r ∧ r.len = .ok m) ∨ m = 1) ∧
      ∀ (j : Nat) (p : String × Src), ps[j]? = some p → ∃ q, qs[j]? = some q ∧ q.1 = p.1 ∧
        (∀ v, p.2 = .singular v none → q.2 = .singular v (some m)) ∧
        ((∀ v, p.2 ≠ .singular v none) → q.2 = p.2) := by
  unfold boundSingulars at h
  cases hlens : ps.mapM (fun p => p.2.scanLen) with
  | error e => rw [hlens] at h; cases h
  | ok lens =>
    rw [hlens] at h
    simp only [Except.ok.injEq] at h
    have hF := (mapM_ok _ _ _).mp hlens
    refine ⟨if ps.isEmpty then 1 else maxLen lens, ?_, ?_, ?_, ?_⟩
    · rw [← h]; simp
    · intro p hp r n hr hn
      obtain ⟨j, hj, rfl⟩ := List.mem_iff_getElem.mp hp
      have hj' : j < lens.length := by rw [← hF.length_eq]; exact hj
      have h' := List.Forall₂.get hF hj hj'
      simp only [List.get_eq_getElem, hr, Src.scanLen] at h'
      rw [hn] at h'
      cases h'
      have : ps.isEmpty = false := by
        cases ps with
        | nil => cases hp
        | cons => rfl
      rw [this]
      exact le_maxLen _ _ (List.getElem_mem hj')
    · cases hps : ps with
      | nil => right; rfl
      | cons p0 ps0 =>
        rw [← hps]
        have hemp : ps.isEmpty = false := by rw [hps]; rfl
        rw [hemp]
        simp only [Bool.false_eq_true, if_false]
        rcases foldl_max_mem lens 0 with hz | hmem
        · -- all lengths are zero
          have h0 : ∀ n ∈ lens, n = 0 := by
            intro n hn
            have := (le_foldl_max lens 0).2 n hn
            omega
          left
          have hj' : 0 < lens.length := by rw [← hF.length_eq, hps]; simp
          have hj : 0 < ps.length := by rw [hps]; simp
          have h' := List.Forall₂.get hF hj hj'
          simp only [List.get_eq_getElem] at h'
          have hz' := h0 _ (List.getElem_mem hj')
          rw [hz'] at h'
          refine ⟨ps[0], List.getElem_mem hj, ?_⟩
          cases hs : ps[0].2 with
          | range r =>
            simp only [hs, Src.scanLen] at h'
            refine ⟨r, rfl, ?_⟩
            have : maxLen lens = 0 := hz
            rw [this]; exact h'
          | singular v m => simp only [hs, Src.scanLen] at h'; cases h'
          | list l => simp only [hs, Src.scanLen] at h'; cases h'
          | scalar v => simp only [hs, Src.scanLen] at h'; cases h'
        · obtain ⟨j, hj', hje⟩ := List.mem_iff_getElem.mp hmem
          have hj : j < ps.length := by rw [hF.length_eq]; exact hj'
          have h' := List.Forall₂.get hF hj hj'
          simp only [List.get_eq_getElem, hje] at h'
          cases hs : ps[j].2 with
          | range r =>
            simp only [hs, Src.scanLen] at h'
            exact Or.inl ⟨ps[j], List.getElem_mem hj, r, hs, h'⟩
          | singular v m => simp only [hs, Src.scanLen] at h'; right; injection h' with h'; exact h'.symm
          | list l => simp only [hs, Src.scanLen] at h'; right; injection h' with h'; exact h'.symm
          | scalar v => simp only [hs, Src.scanLen] at h'; right; injection h' with h'; exact h'.symm
    · intro j p hp
      rw [← h, List.getElem?_map, hp]
      refine ⟨_, rfl, ?_, ?_, ?_⟩
      · rfl
      · intro v hv; simp [hv, Src.bound]
      · intro hv
        cases hs : p.2 with
        | singular v m =>
          cases m with
          | none => exact absurd hs (hv v)
          | some m => simp [Src.bound, hs]
        | _ => simp [Src.bound, hs]

example : boundSingulars [("a", .range ⟨1, 5, 1⟩), ("b", .singular (.num 7) none)] =
    .ok [("a", .range ⟨1, 5, 1⟩), ("b", .singular (.num 7) (some 5))] := by decide +kernel

end Verif.Scan
