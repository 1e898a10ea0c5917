import Verif.Loader.Combine
import Verif.Loader.DatProps
import Mathlib.Tactic.FieldSimp
import Mathlib.Tactic.NormNum
import Mathlib.Tactic.Positivity
import Mathlib.Algebra.BigOperators.Group.List.Basic
import Mathlib.Algebra.Order.BigOperators.Group.List

/-! C45: combination of the results of repeated simulations. -/

namespace Verif.Loader

/-- The combination of a result with further ones, from left to right. -/
noncomputable def combineAll (r : Result) : List Result → Except Err Result
  | [] => .ok r
  | x :: l =>
    match combine r x with
    | .error e => .error e
    | .ok y => combineAll y l

theorem combine_ok {s o out : Result} (h : combine s o = .ok out) :
    isRepeat s o ∧ out.ncount = s.ncount + o.ncount ∧ out.intensity = s.intensity + o.intensity ∧
      out.counts = s.counts + o.counts ∧ out.error = Real.sqrt (s.error * s.error + o.error + o.error) ∧
      0 ≤ s.error * s.error + o.error + o.error ∧ out.keywords = s.keywords ∧ out.attr = s.attr ∧
      combineSignal s.counts o.counts s.signal o.signal = .ok out.signal ∧
      combineStats s.counts o.counts s.stats o.stats = .ok out.stats := by
  rw [combine] at h
  split_ifs at h with h1 h2
  split at h
  · cases h
  · rename_i signal hsig
    split at h
    · cases h
    · rename_i stats hst
      cases h
      exact ⟨h1, rfl, rfl, rfl, rfl, not_lt.mp h2, rfl, rfl, hsig, hst⟩

/-- C45: the rays, intensities and events of combined results are the sums over all of them. -/
theorem combined_sums (r out : Result) (l : List Result) (h : combineAll r l = .ok out) :
    out.ncount = ((r :: l).map (·.ncount)).sum ∧ out.intensity = ((r :: l).map (·.intensity)).sum ∧
      out.counts = ((r :: l).map (·.counts)).sum := by
  induction l generalizing r with
  | nil => cases h; simp
  | cons x l ih =>
    rw [combineAll] at h
    split at h
    · cases h
    · rename_i y hy
      obtain ⟨_, h1, h2, h3, _⟩ := combine_ok hy
      obtain ⟨i1, i2, i3⟩ := ih y h
      rw [i1, i2, i3]
      simp only [List.map_cons, List.sum_cons, h1, h2, h3]
      refine ⟨by ring, by ring, by ring⟩

/-- C45: these sums do not depend on the order. -/
theorem combined_order {r s out out' : Result} {l m : List Result} (hp : (r :: l).Perm (s :: m))
    (h : combineAll r l = .ok out) (h' : combineAll s m = .ok out') :
    out.ncount = out'.ncount ∧ out.intensity = out'.intensity ∧ out.counts = out'.counts := by
  obtain ⟨a1, a2, a3⟩ := combined_sums r out l h
  obtain ⟨b1, b2, b3⟩ := combined_sums s out' m h'
  rw [a1, a2, a3, b1, b2, b3]
  exact ⟨(hp.map _).sum_eq, (hp.map _).sum_eq, (hp.map _).sum_eq⟩

/-- What is made of the errors: the error of the first result in quadrature, but twice the errors of the others. -/
theorem combined_error (r out : Result) (l : List Result) (h : combineAll r l = .ok out) :
    out.error * out.error = r.error * r.error + 2 * (l.map (·.error)).sum := by
  induction l generalizing r with
  | nil => cases h; simp
  | cons x l ih =>
    rw [combineAll] at h
    split at h
    · cases h
    · rename_i y hy
      obtain ⟨_, _, _, _, h4, h5, _⟩ := combine_ok hy
      rw [ih y h, h4, Real.mul_self_sqrt h5, List.map_cons, List.sum_cons]
      ring

/-- The errors are combined in quadrature exactly if the sum of the squares of all but the first is twice their sum. -/
theorem quadrature_iff (r out : Result) (l : List Result) (h : combineAll r l = .ok out) (h0 : 0 ≤ r.error) :
    out.error = Real.sqrt (((r :: l).map fun x => x.error * x.error).sum) ↔
      (l.map fun x => x.error * x.error).sum = 2 * (l.map (·.error)).sum := by
  have hsq := combined_error r out l h
  have hnn : 0 ≤ out.error := by
    clear hsq
    induction l generalizing r with
    | nil => cases h; exact h0
    | cons x l ih =>
      rw [combineAll] at h
      split at h
      · cases h
      · rename_i y hy
        obtain ⟨_, _, _, _, h4, _⟩ := combine_ok hy
        exact ih y h (by rw [h4]; exact Real.sqrt_nonneg _)
  have hs : 0 ≤ ((r :: l).map fun x => x.error * x.error).sum := by
    apply List.sum_nonneg
    intro z hz
    obtain ⟨x, _, rfl⟩ := List.mem_map.mp hz
    exact mul_self_nonneg _
  constructor
  · intro he
    rw [he, Real.mul_self_sqrt hs, List.map_cons, List.sum_cons] at hsq
    linarith
  · intro he
    rw [eq_comm, Real.sqrt_eq_iff_mul_self_eq hs hnn, List.map_cons, List.sum_cons, hsq, he]

/-- Results of a repeated simulation with events and errors that are not negative are combined. -/
theorem combine_progress (r : Result) (l : List Result) (hr : 0 < r.counts)
    (h : ∀ x ∈ l, (∀ k ∈ r.keywords, k ∉ [t "Date", t "Ncount", t "statistics", t "signal", t "values"] → r.attr k = x.attr k) ∧
      0 ≤ x.error ∧ 0 < x.counts) : ∃ out, combineAll r l = .ok out := by
  induction l generalizing r with
  | nil => exact ⟨r, rfl⟩
  | cons x l ih =>
    obtain ⟨h1, h2, h3⟩ := h x List.mem_cons_self
    have hc : r.counts + x.counts ≠ 0 := by linarith
    have hm : ∀ a b, ∃ y, meanOf r.counts x.counts a b = .ok y := fun a b => ⟨_, by rw [meanOf, if_neg hc]⟩
    have hw : ∀ a b, ∃ y, widthOf r.counts x.counts a b = .ok y := fun a b => ⟨_, by rw [widthOf, if_neg hc]⟩
    have hb : ∀ (f : ℝ → ℝ → Except Err ℝ), (∀ a b, ∃ y, f a b = .ok y) → ∀ a b, ∃ y, both f a b = .ok y := by
      intro f hf a b
      cases a with
      | none => exact ⟨none, rfl⟩
      | some a =>
        cases b with
        | none => exact ⟨none, rfl⟩
        | some b =>
          obtain ⟨y, hy⟩ := hf a b
          exact ⟨some y, by rw [both, hy]⟩
    obtain ⟨sig, hsig⟩ : ∃ y, combineSignal r.counts x.counts r.signal x.signal = .ok y := by
      rcases r.signal with _ | ⟨a1, a2, a3⟩
      · exact ⟨none, rfl⟩
      · rcases x.signal with _ | ⟨b1, b2, b3⟩
        · exact ⟨none, rfl⟩
        · obtain ⟨y, hy⟩ := hm a3 b3
          exact ⟨_, by rw [combineSignal, hy]⟩
    obtain ⟨st, hst⟩ : ∃ y, combineStats r.counts x.counts r.stats x.stats = .ok y := by
      cases r.stats with
      | none => exact ⟨none, rfl⟩
      | some a =>
        cases x.stats with
        | none => exact ⟨none, rfl⟩
        | some b =>
          obtain ⟨y1, e1⟩ := hb _ hm a.x0 b.x0
          obtain ⟨y2, e2⟩ := hb _ hw a.dx b.dx
          obtain ⟨y3, e3⟩ := hb _ hm a.y0 b.y0
          obtain ⟨y4, e4⟩ := hb _ hw a.dy b.dy
          exact ⟨_, by rw [combineStats, e1]; simp only; rw [e2]; simp only; rw [e3]; simp only; rw [e4]⟩
    have hx : ∃ y, combine r x = .ok y := by
      refine ⟨_, by
        have h1 : isRepeat r x := h1
        rw [combine, if_neg (not_not.mpr h1), if_neg (not_lt.mpr (by nlinarith [mul_self_nonneg r.error])), hsig]
        simp only
        rw [hst]⟩
    obtain ⟨y, hy⟩ := hx
    obtain ⟨_, _, _, c1, _, _, c2, c3, _⟩ := combine_ok hy
    rw [combineAll, hy]
    refine ih y (by rw [c1]; linarith) fun z hz => ?_
    obtain ⟨z1, z2, z3⟩ := h z (List.mem_cons_of_mem _ hz)
    refine ⟨?_, z2, z3⟩
    rw [c2, c3]
    exact z1

/-- Results of another simulation are refused. -/
theorem other_result_refused (s o : Result) (k : Text) (hk : k ∈ s.keywords)
    (hk' : k ∉ [t "Date", t "Ncount", t "statistics", t "signal", t "values"]) (h : s.attr k ≠ o.attr k) :
    combine s o = .error .runtimeError := by
  rw [combine, if_pos fun hr => h (hr k hk hk')]

/-- Two results without events that both have a signal cannot be combined. -/
theorem no_events_refused (s o : Result)
    (hr : ∀ k ∈ s.keywords, k ∉ [t "Date", t "Ncount", t "statistics", t "signal", t "values"] → s.attr k = o.attr k) (he : 0 ≤ o.error) (hc : s.counts + o.counts = 0)
    (hs : s.signal ≠ none) (ho : o.signal ≠ none) : combine s o = .error .zeroDivision := by
  obtain ⟨⟨a1, a2, a3⟩, ha⟩ := Option.ne_none_iff_exists'.mp hs
  obtain ⟨⟨b1, b2, b3⟩, hb⟩ := Option.ne_none_iff_exists'.mp ho
  have hr : isRepeat s o := hr
  rw [combine, if_neg (not_not.mpr hr), if_neg (not_lt.mpr (by nlinarith [mul_self_nonneg s.error])), ha, hb, combineSignal,
    meanOf, if_pos hc]

/-- The combined mean of the signal is the mean over all results, each with the weight of its events. -/
theorem combined_mean (r out : Result) (l : List Result) (h : combineAll r l = .ok out)
    (hs : ∀ x ∈ r :: l, x.signal ≠ none) :
    ∃ lo hi mean, out.signal = some (lo, hi, mean) ∧
      mean * out.counts = ((r :: l).map fun x => ((x.signal.getD (0, 0, 0)).2.2) * x.counts).sum ∧
      (∀ x ∈ r :: l, lo ≤ (x.signal.getD (0, 0, 0)).1) ∧ (∀ x ∈ r :: l, (x.signal.getD (0, 0, 0)).2.1 ≤ hi) ∧
      (∃ x ∈ r :: l, lo = (x.signal.getD (0, 0, 0)).1) ∧ ∃ x ∈ r :: l, hi = (x.signal.getD (0, 0, 0)).2.1 := by
  induction l generalizing r with
  | nil =>
    obtain rfl : r = out := by cases h; rfl
    obtain ⟨⟨a1, a2, a3⟩, ha⟩ := Option.ne_none_iff_exists'.mp (hs r List.mem_cons_self)
    refine ⟨a1, a2, a3, ha, by simp [ha], ?_, ?_, ⟨r, by simp, by simp [ha]⟩, r, by simp, by simp [ha]⟩
    · intro x hx
      rw [List.mem_singleton] at hx
      rw [hx, ha]
      exact le_refl _
    · intro x hx
      rw [List.mem_singleton] at hx
      rw [hx, ha]
      exact le_refl _
  | cons x l ih =>
    rw [combineAll] at h
    split at h
    · cases h
    · rename_i y hy
      obtain ⟨_, _, _, hc, _, _, _, _, hsig, _⟩ := combine_ok hy
      obtain ⟨⟨a1, a2, a3⟩, ha⟩ := Option.ne_none_iff_exists'.mp (hs r List.mem_cons_self)
      obtain ⟨⟨b1, b2, b3⟩, hb⟩ := Option.ne_none_iff_exists'.mp (hs x (by simp))
      rw [ha, hb, combineSignal, meanOf] at hsig
      split_ifs at hsig with h0
      simp only [Except.ok.injEq] at hsig
      obtain ⟨lo, hi, mean, e1, e2, e3, e4, e5, e6⟩ := ih y h (by
        intro z hz
        rcases List.mem_cons.mp hz with rfl | hz
        · rw [← hsig]; simp
        · exact hs z (by simp [hz]))
      have hy1 : y.signal.getD (0, 0, 0) = (min a1 b1, max a2 b2, (a3 * r.counts + b3 * x.counts) / (r.counts + x.counts)) := by
        rw [← hsig]; rfl
      have hr1 : r.signal.getD (0, 0, 0) = (a1, a2, a3) := by rw [ha]; rfl
      have hx1 : x.signal.getD (0, 0, 0) = (b1, b2, b3) := by rw [hb]; rfl
      refine ⟨lo, hi, mean, e1, ?_, ?_, ?_, ?_, ?_⟩
      · rw [e2]
        simp only [List.map_cons, List.sum_cons, hy1, hr1, hx1, hc]
        field_simp
        ring
      · intro z hz
        have hy2 := e3 y List.mem_cons_self
        rw [hy1] at hy2
        rcases List.mem_cons.mp hz with rfl | hz
        · rw [hr1]; exact hy2.trans (min_le_left _ _)
        · rcases List.mem_cons.mp hz with rfl | hz
          · rw [hx1]; exact hy2.trans (min_le_right _ _)
          · exact e3 z (List.mem_cons_of_mem _ hz)
      · intro z hz
        have hy2 := e4 y List.mem_cons_self
        rw [hy1] at hy2
        rcases List.mem_cons.mp hz with rfl | hz
        · rw [hr1]; exact (le_max_left _ _).trans hy2
        · rcases List.mem_cons.mp hz with rfl | hz
          · rw [hx1]; exact (le_max_right _ _).trans hy2
          · exact e4 z (List.mem_cons_of_mem _ hz)
      · obtain ⟨z, hz, hlo⟩ := e5
        rcases List.mem_cons.mp hz with rfl | hz
        · rw [hy1] at hlo
          rcases min_choice a1 b1 with hm | hm
          · exact ⟨r, by simp, by rw [hr1, hlo]; exact hm⟩
          · exact ⟨x, by simp, by rw [hx1, hlo]; exact hm⟩
        · exact ⟨z, by simp [hz], hlo⟩
      · obtain ⟨z, hz, hlo⟩ := e6
        rcases List.mem_cons.mp hz with rfl | hz
        · rw [hy1] at hlo
          rcases max_choice a2 b2 with hm | hm
          · exact ⟨r, by simp, by rw [hr1, hlo]; exact hm⟩
          · exact ⟨x, by simp, by rw [hx1, hlo]; exact hm⟩
        · exact ⟨z, by simp [hz], hlo⟩

/-- The combined mean and width of a position: the mean is weighted with the events, and the widths, weighted with the events,
are combined in quadrature. -/
theorem both_mean {cs co : ℝ} {a b : Option ℝ} {y : Option ℝ} (h : both (meanOf cs co) a b = .ok y) (ha : a ≠ none)
    (hb : b ≠ none) : ∃ z, y = some z ∧ z * (cs + co) = a.getD 0 * cs + b.getD 0 * co := by
  obtain ⟨a, rfl⟩ := Option.ne_none_iff_exists'.mp ha
  obtain ⟨b, rfl⟩ := Option.ne_none_iff_exists'.mp hb
  rw [both] at h
  split at h
  · cases h
  · rename_i x hx
    cases h
    rw [meanOf] at hx
    split_ifs at hx with h0
    cases hx
    refine ⟨_, rfl, ?_⟩
    rw [div_mul_cancel₀ _ h0]
    rfl

theorem both_width {cs co : ℝ} {a b : Option ℝ} {y : Option ℝ} (h : both (widthOf cs co) a b = .ok y) (ha : a ≠ none)
    (hb : b ≠ none) : ∃ z, y = some z ∧ (z * (cs + co)) ^ 2 = (a.getD 0 * cs) ^ 2 + (b.getD 0 * co) ^ 2 := by
  obtain ⟨a, rfl⟩ := Option.ne_none_iff_exists'.mp ha
  obtain ⟨b, rfl⟩ := Option.ne_none_iff_exists'.mp hb
  rw [both] at h
  split at h
  · cases h
  · rename_i x hx
    cases h
    rw [widthOf] at hx
    split_ifs at hx with h0
    cases hx
    refine ⟨_, rfl, ?_⟩
    rw [div_mul_cancel₀ _ h0, Real.sq_sqrt (add_nonneg (mul_self_nonneg _) (mul_self_nonneg _))]
    simp only [Option.getD_some]
    ring

/-- The combined statistics: the mean positions are weighted with the events, and the widths, weighted with the events, are
combined in quadrature. -/
theorem combined_statistics (r out : Result) (l : List Result) (h : combineAll r l = .ok out)
    (hs : ∀ x ∈ r :: l, ∃ a b c d, x.stats = some ⟨some a, some b, some c, some d⟩) :
    ∃ x0 dx y0 dy, out.stats = some ⟨some x0, some dx, some y0, some dy⟩ ∧
      x0 * out.counts = ((r :: l).map fun x => ((x.stats.bind (·.x0)).getD 0) * x.counts).sum ∧
      y0 * out.counts = ((r :: l).map fun x => ((x.stats.bind (·.y0)).getD 0) * x.counts).sum ∧
      (dx * out.counts) ^ 2 = ((r :: l).map fun x => (((x.stats.bind (·.dx)).getD 0) * x.counts) ^ 2).sum ∧
      (dy * out.counts) ^ 2 = ((r :: l).map fun x => (((x.stats.bind (·.dy)).getD 0) * x.counts) ^ 2).sum := by
  induction l generalizing r with
  | nil =>
    obtain rfl : r = out := by cases h; rfl
    obtain ⟨a, b, c, d, ha⟩ := hs r List.mem_cons_self
    exact ⟨a, b, c, d, ha, by simp [ha], by simp [ha], by simp [ha], by simp [ha]⟩
  | cons x l ih =>
    rw [combineAll] at h
    split at h
    · cases h
    · rename_i y hy
      obtain ⟨_, _, _, hc, _, _, _, _, _, hst⟩ := combine_ok hy
      obtain ⟨a, b, c, d, ha⟩ := hs r List.mem_cons_self
      obtain ⟨a', b', c', d', hb⟩ := hs x (by simp)
      rw [ha, hb, combineStats] at hst
      split at hst
      · cases hst
      rename_i x0 hx0
      split at hst
      · cases hst
      rename_i dx hdx
      split at hst
      · cases hst
      rename_i y0 hy0
      split at hst
      · cases hst
      rename_i dy hdy
      simp only [Except.ok.injEq] at hst
      obtain ⟨z1, rfl, w1⟩ := both_mean hx0 (by simp) (by simp)
      obtain ⟨z2, rfl, w2⟩ := both_width hdx (by simp) (by simp)
      obtain ⟨z3, rfl, w3⟩ := both_mean hy0 (by simp) (by simp)
      obtain ⟨z4, rfl, w4⟩ := both_width hdy (by simp) (by simp)
      obtain ⟨x0, dx, y0, dy, e1, e2, e3, e4, e5⟩ := ih y h (by
        intro z hz
        rcases List.mem_cons.mp hz with rfl | hz
        · exact ⟨_, _, _, _, hst.symm⟩
        · exact hs z (by simp [hz]))
      refine ⟨x0, dx, y0, dy, e1, ?_, ?_, ?_, ?_⟩
      · rw [e2]
        simp only [List.map_cons, List.sum_cons, ← hst, ha, hb, hc, Option.bind_some, Option.getD_some] at w1 ⊢
        rw [w1]
        ring
      · rw [e3]
        simp only [List.map_cons, List.sum_cons, ← hst, ha, hb, hc, Option.bind_some, Option.getD_some] at w3 ⊢
        rw [w3]
        ring
      · rw [e4]
        simp only [List.map_cons, List.sum_cons, ← hst, ha, hb, hc, Option.bind_some, Option.getD_some] at w2 ⊢
        rw [w2]
        ring
      · rw [e5]
        simp only [List.map_cons, List.sum_cons, ← hst, ha, hb, hc, Option.bind_some, Option.getD_some] at w4 ⊢
        rw [w4]
        ring

/-! ### The errors of two results -/

/-- A result with a given error. -/
noncomputable def result0 (e : ℝ) : Result :=
  { keywords := [t "component", t "Ncount"], attr := fun _ => none, ncount := 10, intensity := 1, error := e, counts := 5,
    signal := none, stats := none }

theorem result0_combine {e f : ℝ} (h : 0 ≤ f) : ∃ out, combine (result0 e) (result0 f) = .ok out ∧
    out.error = Real.sqrt (e * e + f + f) := by
  obtain ⟨out, h1⟩ := combine_progress (result0 e) [result0 f] (by norm_num [result0]) (by
    intro x hx
    rw [List.mem_singleton] at hx
    subst hx
    exact ⟨fun _ _ _ => rfl, h, by norm_num [result0]⟩)
  rw [combineAll] at h1
  split at h1
  · cases h1
  · rename_i y hy
    exact ⟨y, hy, (combine_ok hy).2.2.2.2.1⟩

/-- The errors are not combined in quadrature, and the combined error depends on the order. -/
theorem error_wrong : ∃ s o out out' : Result, combine s o = .ok out ∧ combine o s = .ok out' ∧ s.error = 3 ∧ o.error = 4 ∧
    Real.sqrt (s.error * s.error + o.error * o.error) = 5 ∧ out.error ≠ 5 ∧ out.error ≠ out'.error := by
  obtain ⟨out, h1, h2⟩ := result0_combine (e := 3) (f := 4) (by norm_num)
  obtain ⟨out', h3, h4⟩ := result0_combine (e := 4) (f := 3) (by norm_num)
  refine ⟨_, _, out, out', h1, h3, rfl, rfl, ?_, ?_, ?_⟩
  · rw [Real.sqrt_eq_iff_mul_self_eq (by norm_num [result0]) (by norm_num)]
    norm_num [result0]
  · rw [h2, ne_eq, Real.sqrt_eq_iff_mul_self_eq (by norm_num) (by norm_num)]
    norm_num
  · rw [h2, h4]
    intro h
    rw [Real.sqrt_inj (by norm_num) (by norm_num)] at h
    norm_num at h

/-! ### All results of several files -/

theorem lookup_putResult (k : Option Text × Option Text) (v : Result) (x : Option Text × Option Text) : ∀ d : Results,
    (putResult k v d).lookup x = if x = k then some v else d.lookup x
  | [] => by
    rw [putResult, List.lookup_cons, List.lookup_nil]
    split <;> simp_all
  | p :: d => by
    rw [putResult]
    by_cases hp : p.1 = k
    · rw [if_pos hp, List.lookup_cons, List.lookup_cons]
      by_cases hx : x = k
      · simp [hx]
      · have h1 : (x == k) = false := beq_false_of_ne hx
        have h2 : (x == p.1) = false := by rw [hp]; exact h1
        simp only [h1, h2, if_neg hx]
    · rw [if_neg hp, List.lookup_cons, List.lookup_cons, lookup_putResult k v x d]
      by_cases hx : x = p.1
      · have h : x ≠ k := fun h => hp (hx.symm.trans h)
        simp [hx, hp]
      · have h2 : (x == p.1) = false := beq_false_of_ne hx
        simp only [h2]

theorem combineAll_snoc (r x : Result) : ∀ (l : List Result), combineAll r (l ++ [x]) =
    match combineAll r l with
    | .error e => .error e
    | .ok y => combine y x := by
  intro l
  induction l generalizing r with
  | nil =>
    rw [List.nil_append, combineAll]
    simp only [combineAll]
    cases combine r x <;> rfl
  | cons z l ih =>
    rw [List.cons_append, combineAll, combineAll]
    cases combine r z with
    | error e => rfl
    | ok y => exact ih y

/-- The results with a key, in order. -/
def ofKey (k : Option Text × Option Text) (l : List Result) : List Result := l.filter fun r => decide (r.key = k)

/-- What a dictionary has for a key after the results `l`. -/
def Holds (l : List Result) (d : Results) : Prop :=
  ∀ k, match ofKey k l with
    | [] => d.lookup k = none
    | r :: rs => ∃ out, combineAll r rs = .ok out ∧ d.lookup k = some out

theorem ofKey_snoc (k : Option Text × Option Text) (l : List Result) (r : Result) :
    ofKey k (l ++ [r]) = if r.key = k then ofKey k l ++ [r] else ofKey k l := by
  rw [ofKey, List.filter_append]
  split_ifs with h
  · simp [ofKey, h]
  · simp [ofKey, h]

theorem addResult_holds {l : List Result} {d d' : Results} {r : Result} (h : Holds l d) (hd : addResult d r = .ok d') :
    Holds (l ++ [r]) d' := by
  intro k
  have hk := h k
  rw [ofKey_snoc]
  rw [addResult] at hd
  by_cases hr : r.key = k
  · rw [if_pos hr]
    rw [hr] at hd
    cases ho : ofKey k l with
    | nil =>
      rw [ho] at hk
      rw [hk] at hd
      cases hd
      exact ⟨r, rfl, by rw [lookup_putResult, if_pos rfl]⟩
    | cons x xs =>
      rw [ho] at hk
      obtain ⟨out, h1, h2⟩ := hk
      rw [h2] at hd
      simp only at hd
      split at hd
      · cases hd
      · rename_i y hy
        cases hd
        refine ⟨y, ?_, by rw [lookup_putResult, if_pos rfl]⟩
        show combineAll x (xs ++ [r]) = .ok y
        rw [combineAll_snoc, h1]
        exact hy
  · rw [if_neg hr]
    have hl : d'.lookup k = d.lookup k := by
      split at hd
      · cases hd
        rw [lookup_putResult, if_neg (Ne.symm hr)]
      · split at hd
        · cases hd
        · cases hd
          rw [lookup_putResult, if_neg (Ne.symm hr)]
    rw [hl]
    exact hk

theorem addResults_holds : ∀ {m l : List Result} {d d' : Results}, Holds l d → addResults d m = .ok d' → Holds (l ++ m) d'
  | [], l, d, d', h, hd => by
    cases hd
    rw [List.append_nil]
    exact h
  | r :: m, l, d, d', h, hd => by
    rw [addResults] at hd
    split at hd
    · cases hd
    · rename_i d1 hd1
      have := addResults_holds (addResult_holds h hd1) hd
      rwa [List.append_assoc] at this

theorem firstResults_holds {l : List Result} (h : (l.map Result.key).Nodup) : Holds l (firstResults l) := by
  induction l using List.reverseRecOn with
  | nil => intro k; rfl
  | append_singleton l r ih =>
    rw [List.map_append, List.nodup_append] at h
    have ih := ih h.1
    have hnew : r.key ∉ l.map Result.key := fun hm => h.2.2 _ hm _ (by simp) rfl
    have hf : firstResults (l ++ [r]) = putResult r.key r (firstResults l) := by
      rw [firstResults, List.foldl_append]
      rfl
    have hn : (firstResults l).lookup r.key = none := by
      have := ih r.key
      have ho : ofKey r.key l = [] := by
        rw [ofKey, List.filter_eq_nil_iff]
        intro x hx hk
        exact hnew (List.mem_map.mpr ⟨x, hx, by simpa using hk⟩)
      rw [ho] at this
      exact this
    rw [hf]
    exact addResult_holds ih (by rw [addResult, hn])

theorem putResult_keys (k : Option Text × Option Text) (v : Result) : ∀ d : Results, (d.map (·.1)).Nodup →
    ((putResult k v d).map (·.1)).Nodup ∧ ∀ x, x ∈ (putResult k v d).map (·.1) ↔ x = k ∨ x ∈ d.map (·.1)
  | [], _ => by simp [putResult]
  | p :: d, h => by
    rw [List.map_cons, List.nodup_cons] at h
    rw [putResult]
    split_ifs with hp
    · subst hp
      refine ⟨by rw [List.map_cons, List.nodup_cons]; exact h, fun x => ?_⟩
      simp
    · obtain ⟨h1, h2⟩ := putResult_keys k v d h.2
      refine ⟨?_, fun x => ?_⟩
      · rw [List.map_cons, List.nodup_cons]
        refine ⟨fun hm => ?_, h1⟩
        rcases (h2 _).mp hm with hm | hm
        · exact hp hm
        · exact h.1 hm
      · rw [List.map_cons, List.mem_cons, h2, List.map_cons, List.mem_cons]
        tauto

theorem firstResults_nodup (l : List Result) : ((firstResults l).map (·.1)).Nodup := by
  have : ∀ (l : List Result) (d : Results), (d.map (·.1)).Nodup →
      ((l.foldl (fun d r => putResult r.key r d) d).map (·.1)).Nodup := by
    intro l
    induction l with
    | nil => exact fun d h => h
    | cons r l ih => exact fun d h => ih _ (putResult_keys _ _ d h).1
  exact this l [] List.nodup_nil

theorem addResults_nodup : ∀ {m : List Result} {d d' : Results}, (d.map (·.1)).Nodup → addResults d m = .ok d' →
    (d'.map (·.1)).Nodup
  | [], d, d', h, hd => by cases hd; exact h
  | r :: m, d, d', h, hd => by
    rw [addResults] at hd
    split at hd
    · cases hd
    · rename_i d1 hd1
      refine addResults_nodup ?_ hd
      rw [addResult] at hd1
      split at hd1
      · cases hd1
        exact (putResult_keys _ _ d h).1
      · split at hd1
        · cases hd1
        · cases hd1
          exact (putResult_keys _ _ d h).1

theorem mem_of_lookup {d : Results} {k : Option Text × Option Text} {v : Result} (h : d.lookup k = some v) : (k, v) ∈ d := by
  induction d with
  | nil => cases h
  | cons p d ih =>
    rw [List.lookup_cons] at h
    split at h
    · rename_i hk
      cases h
      have : k = p.1 := by simpa using hk
      rw [this]
      exact List.mem_cons_self
    · exact List.mem_cons_of_mem _ (ih h)

theorem lookup_of_mem {d : Results} (hn : (d.map (·.1)).Nodup) {p} (h : p ∈ d) : d.lookup p.1 = some p.2 := by
  induction d with
  | nil => cases h
  | cons q d ih =>
    rw [List.map_cons, List.nodup_cons] at hn
    rw [List.lookup_cons]
    rcases List.mem_cons.mp h with rfl | h
    · simp
    · have : p.1 ≠ q.1 := fun he => hn.1 (List.mem_map.mpr ⟨p, h, he⟩)
      rw [beq_false_of_ne this]
      exact ih hn.2 h

/-- C45: the data of several files hold, for each component and file name, the combination of all results of that name, in
order, and nothing else, if the names of the first file differ. -/
theorem combined_data (l : List Result) (ls : List (List Result)) (out : List Result)
    (h : combineData (l :: ls) = .ok out) (hn : (l.map fun x => (x.attr (t "component"), x.attr (t "filename"))).Nodup) :
    (∀ c f r rs, (l ++ ls.flatten).filter (fun x => decide (x.attr (t "component") = c ∧ x.attr (t "filename") = f)) = r :: rs →
      ∃ y ∈ out, combineAll r rs = .ok y) ∧
      ∀ y ∈ out, ∃ c f r rs,
        (l ++ ls.flatten).filter (fun x => decide (x.attr (t "component") = c ∧ x.attr (t "filename") = f)) = r :: rs ∧
        combineAll r rs = .ok y := by
  have hkey : ∀ (c f : Option Text), (fun x : Result => decide (x.attr (t "component") = c ∧ x.attr (t "filename") = f)) =
      fun x : Result => decide (x.key = (c, f)) := by
    intro c f
    funext x
    simp only [Result.key, Prod.mk.injEq]
  simp only [hkey]
  rw [combineData] at h
  split at h
  · cases h
  · rename_i d hd
    cases h
    have hh := addResults_holds (firstResults_holds hn) hd
    have hnd := addResults_nodup (firstResults_nodup l) hd
    constructor
    · intro c f r rs hk
      have := hh (c, f)
      rw [ofKey, hk] at this
      obtain ⟨y, h1, h2⟩ := this
      exact ⟨y, List.mem_map.mpr ⟨_, mem_of_lookup h2, rfl⟩, h1⟩
    · intro y hy
      obtain ⟨p, hp, rfl⟩ := List.mem_map.mp hy
      have hl := lookup_of_mem hnd hp
      have := hh p.1
      cases ho : ofKey p.1 (l ++ ls.flatten) with
      | nil =>
        rw [ho, hl] at this
        cases this
      | cons r rs =>
        rw [ho, hl] at this
        obtain ⟨z, h1, h2⟩ := this
        cases h2
        exact ⟨p.1.1, p.1.2, r, rs, ho, h1⟩

/-- Of two results of one name in the first file the first is lost. -/
theorem first_file_loses (r s : Result) (h1 : r.attr (t "component") = s.attr (t "component"))
    (h2 : r.attr (t "filename") = s.attr (t "filename")) : combineData [[r, s]] = .ok [s] := by
  have h : r.key = s.key := by rw [Result.key, Result.key, h1, h2]
  rw [combineData]
  have : firstResults [r, s] = [(s.key, s)] := by
    simp only [firstResults, List.foldl_cons, List.foldl_nil, putResult, h, if_true]
  simp [this, addResults]

/-- In a further file both are added. -/
example (r s o y z : Result) (h : r.key = s.key) (h' : o.key = r.key) (hy : combine o r = .ok y) (hz : combine y s = .ok z) :
    combineData [[o], [r, s]] = .ok [z] := by
  have hk : o.key = s.key := h'.trans h
  simp [combineData, firstResults, putResult, addResults, addResult, h', ← h, hy, hz]

end Verif.Loader
