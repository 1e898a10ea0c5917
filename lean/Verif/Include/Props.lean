import Verif.Include.Model

/-! C54: including an instrument. -/

namespace Verif.Include

theorem addComps_iff : ∀ (new cs r : List Comp), (cs.map (·.name)).Nodup → (addComps cs new = .ok r ↔
    r = cs ++ new.filter (fun c => !c.removable) ∧ (r.map (·.name)).Nodup)
  | [], cs, r, h => by
    rw [addComps]
    simp only [Except.ok.injEq, List.filter_nil, List.append_nil]
    constructor
    · rintro rfl
      exact ⟨rfl, h⟩
    · rintro ⟨rfl, -⟩
      rfl
  | a :: new, cs, r, h => by
    rw [addComps]
    cases hr : a.removable with
    | true =>
      simp only [Bool.not_true, Bool.false_eq_true, if_false]
      rw [addComps_iff new cs r h, List.filter_cons_of_neg (by simp [hr])]
    | false =>
      simp only [Bool.not_false, if_true]
      rw [List.filter_cons_of_pos (by simp [hr]), addComp]
      split_ifs with ha
      · simp only [reduceCtorEq, false_iff, not_and]
        rintro rfl hd
        rw [List.any_eq_true] at ha
        obtain ⟨x, hx, he⟩ := ha
        rw [List.map_append, List.nodup_append] at hd
        exact hd.2.2 x.name (List.mem_map_of_mem hx) a.name (by simp) (by simpa using he)
      · simp only
        have hnew : (List.map (·.name) (cs ++ [a])).Nodup := by
          rw [List.map_append, List.nodup_append]
          refine ⟨h, by simp, ?_⟩
          intro x hx y hy hxy
          obtain ⟨c, hc, rfl⟩ := List.mem_map.mp hx
          simp only [List.map_cons, List.map_nil, List.mem_singleton] at hy
          apply ha
          rw [List.any_eq_true]
          exact ⟨c, hc, by rw [beq_iff_eq, hxy, hy]⟩
        rw [addComps_iff new _ r hnew]
        simp

theorem addParams_ignore : ∀ (new ps : List Named), ∃ r, addParams true ps new = .ok r
  | [], ps => ⟨ps, rfl⟩
  | a :: new, ps => by
    rw [addParams, addParam]
    split_ifs
    · exact addParams_ignore new _
    · simp at *
    · exact addParams_ignore new _

theorem addParams_spec : ∀ (new ps r : List Named), addParams true ps new = .ok r →
    (∃ k, r = ps ++ k ∧ k.Sublist new) ∧ ((ps.map (·.name)).Nodup → (r.map (·.name)).Nodup) ∧
    ∀ n, r.find? (fun p => p.name == n) = (ps ++ new).find? fun p => p.name == n
  | [], ps, r, h => by
    cases h
    exact ⟨⟨[], by simp, by simp⟩, id, by simp⟩
  | a :: new, ps, r, h => by
    rw [addParams, addParam] at h
    split_ifs at h with h1 h2
    · obtain ⟨⟨k, hk, hs⟩, hd, hf⟩ := addParams_spec new _ r h
      refine ⟨⟨a :: k, by rw [hk]; simp, hs.cons_cons a⟩, fun hn => hd ?_, fun n => ?_⟩
      · rw [List.map_append, List.nodup_append]
        refine ⟨hn, by simp, ?_⟩
        intro x hx y hy hxy
        obtain ⟨c, hc, rfl⟩ := List.mem_map.mp hx
        simp only [List.map_cons, List.map_nil, List.mem_singleton] at hy
        simp only [Bool.not_eq_true', List.any_eq_false] at h1
        apply h1 c hc
        rw [beq_iff_eq, hxy, hy]
      · rw [hf n]
        simp
    · obtain ⟨⟨k, hk, hs⟩, hd, hf⟩ := addParams_spec new _ r h
      refine ⟨⟨k, hk, hs.cons a⟩, hd, fun n => ?_⟩
      rw [hf n, List.find?_append, List.find?_append, List.find?_cons]
      simp only [Bool.not_eq_true', Bool.not_eq_false, List.any_eq_true] at h1
      obtain ⟨x, hx, he⟩ := h1
      split
      · rename_i hn
        have : (ps.find? fun p => p.name == n).isSome := by
          rw [List.find?_isSome]
          refine ⟨x, hx, ?_⟩
          rw [beq_iff_eq] at he hn ⊢
          rw [← he, hn]
        obtain ⟨y, hy⟩ := Option.isSome_iff_exists.mp this
        rw [hy]
        simp
      · rfl

theorem addParams_strict : ∀ (new ps r : List Named), addParams false ps new = .ok r → r = ps ++ new
  | [], ps, r, h => by
    cases h
    simp
  | a :: new, ps, r, h => by
    rw [addParams, addParam] at h
    split_ifs at h
    · rw [addParams_strict new _ r h, List.append_assoc, List.singleton_append]
    · simp at *

theorem addParams_ok_iff : ∀ (new ps : List Named), (ps.map (·.name)).Nodup →
    ((∃ r, addParams false ps new = .ok r) ↔ ((ps ++ new).map (·.name)).Nodup)
  | [], ps, h => by
    simpa [addParams] using h
  | a :: new, ps, h => by
    rw [addParams, addParam]
    split_ifs with h1
    · have hnew : ((ps ++ [a]).map (·.name)).Nodup := by
        rw [List.map_append, List.nodup_append]
        refine ⟨h, by simp, ?_⟩
        intro x hx y hy hxy
        obtain ⟨c, hc, rfl⟩ := List.mem_map.mp hx
        simp only [List.map_cons, List.map_nil, List.mem_singleton] at hy
        simp only [Bool.not_eq_true', List.any_eq_false] at h1
        apply h1 c hc
        rw [beq_iff_eq, hxy, hy]
      simp only
      rw [addParams_ok_iff new _ hnew, List.append_assoc, List.singleton_append]
    · refine iff_of_false (by simp) ?_
      intro hd
      simp only [Bool.not_eq_true', Bool.not_eq_false, List.any_eq_true] at h1
      obtain ⟨x, hx, he⟩ := h1
      rw [List.map_append, List.nodup_append] at hd
      exact hd.2.2 x.name (List.mem_map_of_mem hx) a.name (by simp) ((beq_iff_eq.mp he).symm)
    · simp at *

theorem addMeta_eq (ms : List Named) (m : Named) : addMeta ms m = ms.filter (fun x => x.name != m.name) ++ [m] := by
  rw [addMeta]
  split_ifs with h
  · rfl
  · congr 1
    symm
    rw [List.filter_eq_self]
    intro x hx
    by_contra hc
    apply h
    rw [List.any_eq_true]
    exact ⟨x, hx, by simpa using hc⟩

theorem metas_nodup : ∀ (new ms : List Named), (ms.map (·.name)).Nodup → ((new.foldl addMeta ms).map (·.name)).Nodup
  | [], ms, h => h
  | m :: new, ms, h => by
    rw [List.foldl_cons]
    apply metas_nodup
    rw [addMeta_eq, List.map_append, List.nodup_append]
    refine ⟨h.sublist (List.filter_sublist.map _), by simp, ?_⟩
    intro x hx y hy hxy
    obtain ⟨c, hc, rfl⟩ := List.mem_map.mp hx
    simp only [List.map_cons, List.map_nil, List.mem_singleton] at hy
    rw [List.mem_filter] at hc
    simp [hxy, hy] at hc

theorem metas_mem : ∀ (new ms : List Named) (x : Named), x ∈ new.foldl addMeta ms ↔
    (∃ a b, new = a ++ x :: b ∧ ∀ y ∈ b, y.name ≠ x.name) ∨ (x ∈ ms ∧ ∀ y ∈ new, y.name ≠ x.name)
  | [], ms, x => by simp
  | m :: new, ms, x => by
    rw [List.foldl_cons, metas_mem new]
    constructor
    · rintro (⟨a, b, rfl, h⟩ | ⟨h1, h2⟩)
      · exact .inl ⟨m :: a, b, rfl, h⟩
      · rw [addMeta_eq, List.mem_append, List.mem_filter, List.mem_singleton] at h1
        rcases h1 with ⟨h1, h3⟩ | rfl
        · right
          refine ⟨h1, ?_⟩
          intro y hy
          rcases List.mem_cons.mp hy with rfl | hy
          · simp only [bne_iff_ne, ne_eq] at h3
            exact fun e => h3 e.symm
          · exact h2 y hy
        · exact .inl ⟨[], new, rfl, h2⟩
    · rintro (⟨a, b, h, h'⟩ | ⟨h1, h2⟩)
      · cases a with
        | nil =>
          simp only [List.nil_append, List.cons.injEq] at h
          obtain ⟨rfl, rfl⟩ := h
          right
          refine ⟨?_, h'⟩
          rw [addMeta_eq]
          simp
        | cons c a =>
          simp only [List.cons_append, List.cons.injEq] at h
          obtain ⟨rfl, rfl⟩ := h
          exact .inl ⟨a, b, rfl, h'⟩
      · right
        refine ⟨?_, fun y hy => h2 y (List.mem_cons_of_mem _ hy)⟩
        rw [addMeta_eq, List.mem_append, List.mem_filter]
        left
        refine ⟨h1, ?_⟩
        simp only [bne_iff_ne, ne_eq]
        exact fun e => h2 m List.mem_cons_self e.symm

theorem Sections.append_eq (a b : Sections) : a.append b =
    ⟨a.declare ++ b.declare, a.user ++ b.user, a.initialize_ ++ b.initialize_, a.save ++ b.save, a.final ++ b.final⟩ := by
  rw [append]
  congr 1 <;> (split_ifs with h <;> simp_all)

/-- C54: an instrument is included without loss: its components that are not REMOVABLE are appended in order, its parameters
are added unless there are ones with the same name, its metadata take the place of those with the same name, its sections
are appended. It raises exactly if two components would have the same name. -/
theorem include_spec (s i : Instr) (hs : (s.comps.map (·.name)).Nodup) :
    (∀ r, includeInto s i = .ok r →
      r.comps = s.comps ++ i.comps.filter (fun c => !c.removable) ∧
      r.name = s.name ∧ r.included = s.included ++ [i.name] ∧
      r.sec = ⟨s.sec.declare ++ i.sec.declare, s.sec.user ++ i.sec.user, s.sec.initialize_ ++ i.sec.initialize_,
        s.sec.save ++ i.sec.save, s.sec.final ++ i.sec.final⟩ ∧
      (∃ new, r.params = s.params ++ new ∧ new.Sublist i.params) ∧
      ((s.params.map (·.name)).Nodup → (r.params.map (·.name)).Nodup) ∧
      (∀ n, r.params.find? (fun p => p.name == n) = (s.params ++ i.params).find? fun p => p.name == n) ∧
      (∀ m, m ∈ r.metas ↔ (∃ a b, i.metas = a ++ m :: b ∧ ∀ y ∈ b, y.name ≠ m.name) ∨
        (m ∈ s.metas ∧ ∀ y ∈ i.metas, y.name ≠ m.name))) ∧
    (includeInto s i = .error .runtimeError ↔
      ¬ ((s.comps ++ i.comps.filter fun c => !c.removable).map (·.name)).Nodup) ∧
    ((∃ r, includeInto s i = .ok r) ↔ ((s.comps ++ i.comps.filter fun c => !c.removable).map (·.name)).Nodup) := by
  obtain ⟨ps, hps⟩ := addParams_ignore i.params s.params
  have hkey : ∀ cs, addComps s.comps i.comps = .ok cs ↔
      cs = s.comps ++ i.comps.filter (fun c => !c.removable) ∧ (cs.map (·.name)).Nodup := fun cs => addComps_iff _ _ _ hs
  have herr : ∀ (new cs : List Comp) e, addComps cs new = .error e → e = .runtimeError := by
    intro new
    induction new with
    | nil => intro cs e h; cases h
    | cons a new ih =>
      intro cs e h
      rw [addComps, addComp] at h
      split_ifs at h
      · cases h; rfl
      · exact ih _ _ h
      · exact ih _ _ h
  cases hc : addComps s.comps i.comps with
  | error e =>
    have he := herr _ _ _ hc
    subst he
    have hno : ¬ ((s.comps ++ i.comps.filter fun c => !c.removable).map (·.name)).Nodup := by
      intro hn
      have := (hkey _).mpr ⟨rfl, hn⟩
      rw [hc] at this
      cases this
    have hinc : includeInto s i = .error .runtimeError := by
      rw [includeInto, hps]
      simp only [hc]
    rw [hinc]
    refine ⟨?_, iff_of_true rfl hno, iff_of_false ?_ hno⟩
    · intro r h
      cases h
    · rintro ⟨r, h⟩
      cases h
  | ok cs =>
    obtain ⟨h1, h2⟩ := (hkey cs).mp hc
    have hinc : includeInto s i = .ok { s with params := ps, metas := i.metas.foldl addMeta s.metas, comps := cs,
                                               included := s.included ++ [i.name], sec := s.sec.append i.sec } := by
      rw [includeInto, hps]
      simp only [hc]
    rw [hinc]
    rw [h1] at h2
    refine ⟨?_, iff_of_false (by simp) (not_not.mpr h2), iff_of_true ⟨_, rfl⟩ h2⟩
    intro r h
    cases h
    obtain ⟨p1, p2, p3⟩ := addParams_spec _ _ _ hps
    exact ⟨h1, rfl, rfl, Sections.append_eq _ _, p1, p2, p3, metas_mem _ _⟩

/-! ### Whole instruments -/

/-- The components and sections of a TRACE section. -/
theorem readItems_spec (get : String → Except Err Instr) (dest : Bool) (subs : String → Instr)
    (hget : ∀ f i, get f = .ok i → i = subs f) : ∀ (l : List Item) (s r : Instr), (s.comps.map (·.name)).Nodup →
    readItems get dest s l = .ok r →
    (r.comps.map (·.name)).Nodup ∧
    r.comps = s.comps ++ (l.flatMap fun x => match x with
      | .comp c => if dest && c.removable then [] else [c]
      | .incl f => (subs f).comps.filter fun c => !c.removable) ∧
    r.sec.declare = s.sec.declare ++ (l.flatMap fun x => match x with | .comp _ => [] | .incl f => (subs f).sec.declare) ∧
    r.sec.user = s.sec.user ++ (l.flatMap fun x => match x with | .comp _ => [] | .incl f => (subs f).sec.user) ∧
    r.sec.initialize_ = s.sec.initialize_ ++
      (l.flatMap fun x => match x with | .comp _ => [] | .incl f => (subs f).sec.initialize_) ∧
    r.sec.save = s.sec.save ++ (l.flatMap fun x => match x with | .comp _ => [] | .incl f => (subs f).sec.save) ∧
    r.sec.final = s.sec.final ++ (l.flatMap fun x => match x with | .comp _ => [] | .incl f => (subs f).sec.final) ∧
    r.included = s.included ++ (l.flatMap fun x => match x with | .comp _ => [] | .incl f => [(subs f).name]) ∧
    r.name = s.name ∧
    (∀ n, r.params.find? (fun p => p.name == n) = (s.params ++
      (l.flatMap fun x => match x with | .comp _ => [] | .incl f => (subs f).params)).find? fun p => p.name == n)
  | [], s, r, hs, h => by
    cases h
    simp [hs]
  | .comp c :: l, s, r, hs, h => by
    rw [readItems] at h
    split_ifs at h with hd
    · rw [addComp] at h
      split_ifs at h with ha
      have hnew : (List.map (·.name) (s.comps ++ [c])).Nodup := by
        rw [List.map_append, List.nodup_append]
        refine ⟨hs, by simp, ?_⟩
        intro x hx y hy hxy
        obtain ⟨z, hz, rfl⟩ := List.mem_map.mp hx
        simp only [List.map_cons, List.map_nil, List.mem_singleton] at hy
        apply ha
        rw [List.any_eq_true]
        exact ⟨z, hz, by rw [beq_iff_eq, hxy, hy]⟩
      obtain ⟨q0, q1, q2, q3, q4, q5, q6, q7, q8, q9⟩ := readItems_spec get dest subs hget l _ r hnew h
      have hd' : (dest && c.removable) = false := by
        revert hd
        cases dest <;> cases c.removable <;> simp
      simp only [List.flatMap_cons, hd', Bool.false_eq_true, if_false, List.nil_append]
      exact ⟨q0, by rw [q1]; simp, q2, q3, q4, q5, q6, q7, q8, q9⟩
    · obtain ⟨q0, q1, q2, q3, q4, q5, q6, q7, q8, q9⟩ := readItems_spec get dest subs hget l _ r hs h
      have hd' : (dest && c.removable) = true := by
        revert hd
        cases dest <;> cases c.removable <;> simp
      simp only [List.flatMap_cons, hd', if_true, List.nil_append]
      exact ⟨q0, q1, q2, q3, q4, q5, q6, q7, q8, q9⟩
  | .incl f :: l, s, r, hs, h => by
    rw [readItems] at h
    cases hg : get f with
    | error e => simp [hg] at h
    | ok i =>
      rw [hg] at h
      simp only at h
      have hi := hget f i hg
      subst hi
      cases hinc : includeInto s (subs f) with
      | error e => simp [hinc] at h
      | ok s' =>
        rw [hinc] at h
        simp only at h
        obtain ⟨hspec, -, hok⟩ := include_spec s (subs f) hs
        obtain ⟨c1, c2, c3, c4, -, -, c7, -⟩ := hspec s' hinc
        have hn := hok.mp ⟨s', hinc⟩
        rw [← c1] at hn
        obtain ⟨q0, q1, q2, q3, q4, q5, q6, q7, q8, q9⟩ := readItems_spec get dest subs hget l s' r hn h
        simp only [List.flatMap_cons]
        refine ⟨q0, ?_, ?_, ?_, ?_, ?_, ?_, ?_, ?_, ?_⟩
        · rw [q1, c1, List.append_assoc]
        · rw [q2, c4, List.append_assoc]
        · rw [q3, c4, List.append_assoc]
        · rw [q4, c4, List.append_assoc]
        · rw [q5, c4, List.append_assoc]
        · rw [q6, c4, List.append_assoc]
        · rw [q7, c3, List.append_assoc]
        · rw [q8, c2]
        · intro n
          rw [q9 n, List.find?_append, c7 n, ← List.find?_append, List.append_assoc]

/-- C54: what a whole instrument has when it has been read: the components of its TRACE section with those of the included
instruments in their places, its own sections before TRACE first, and its own SAVE and FINALLY last. -/
theorem read_instr (lib : String → Option Def) (depth : Nat) (d : Def) (subs : String → Instr) (r : Instr)
    (hsubs : ∀ f i, getFile lib depth f = .ok i → i = subs f) (h : readInstr lib depth d = .ok r) :
    (r.comps.map (·.name)).Nodup ∧
    r.comps = (d.items.flatMap fun x => match x with
      | .comp c => [c]
      | .incl f => (subs f).comps.filter fun c => !c.removable) ∧
    r.sec.declare = d.declare ++ (d.items.flatMap fun x => match x with | .comp _ => [] | .incl f => (subs f).sec.declare) ∧
    r.sec.user = d.user ++ (d.items.flatMap fun x => match x with | .comp _ => [] | .incl f => (subs f).sec.user) ∧
    r.sec.initialize_ = d.initialize_ ++
      (d.items.flatMap fun x => match x with | .comp _ => [] | .incl f => (subs f).sec.initialize_) ∧
    r.sec.save = (d.items.flatMap fun x => match x with | .comp _ => [] | .incl f => (subs f).sec.save) ++ d.save ∧
    r.sec.final = (d.items.flatMap fun x => match x with | .comp _ => [] | .incl f => (subs f).sec.final) ++ d.final ∧
    r.included = (d.items.flatMap fun x => match x with | .comp _ => [] | .incl f => [(subs f).name]) ∧
    r.name = d.name ∧
    (∀ n, r.params.find? (fun p => p.name == n) = (d.params ++
      (d.items.flatMap fun x => match x with | .comp _ => [] | .incl f => (subs f).params)).find? fun p => p.name == n) := by
  rw [readInstr, readDef] at h
  cases hp : addParams false [] d.params with
  | error e => simp [hp] at h
  | ok ps =>
    rw [hp] at h
    simp only at h
    have hps := addParams_strict _ _ _ hp
    rw [List.nil_append] at hps
    subst hps
    split at h
    · cases h
    · rename_i s hs
      cases h
      obtain ⟨q0, q1, q2, q3, q4, q5, q6, q7, q8, q9⟩ := readItems_spec _ _ subs hsubs _ _ _ (by simp) hs
      simp only [Bool.false_and, Bool.false_eq_true, if_false, List.nil_append] at q1 q2 q3 q4 q5 q6 q7 q8 q9
      refine ⟨q0, ?_, q2, q3, q4, ?_, ?_, q7, q8, q9⟩
      · rw [q1]
      · simp only [q5]
      · simp only [q6]

theorem readItems_ok_iff (get : String → Except Err Instr) (dest : Bool) (subs : String → Instr)
    (hget : ∀ f i, get f = .ok i → i = subs f) : ∀ (l : List Item) (s : Instr), (s.comps.map (·.name)).Nodup →
    ((∃ r, readItems get dest s l = .ok r) ↔
      (∀ f, Item.incl f ∈ l → get f = .ok (subs f)) ∧
      ((s.comps ++ (l.flatMap fun x => match x with
        | .comp c => if dest && c.removable then [] else [c]
        | .incl f => (subs f).comps.filter fun c => !c.removable)).map (·.name)).Nodup)
  | [], s, hs => by
    simpa [readItems] using hs
  | .comp c :: l, s, hs => by
    rw [readItems]
    have hmem : (∀ f, Item.incl f ∈ Item.comp c :: l → get f = .ok (subs f)) ↔ ∀ f, Item.incl f ∈ l → get f = .ok (subs f) := by
      simp
    rw [hmem, List.flatMap_cons]
    cases hd : dest && c.removable with
    | true =>
      have : (!dest || !c.removable) = false := by
        revert hd
        cases dest <;> cases c.removable <;> simp
      simp only [this, hd, Bool.false_eq_true, if_false, if_true, List.nil_append]
      exact readItems_ok_iff get dest subs hget l s hs
    | false =>
      have : (!dest || !c.removable) = true := by
        revert hd
        cases dest <;> cases c.removable <;> simp
      simp only [this, hd, if_true, Bool.false_eq_true, if_false]
      rw [addComp]
      split_ifs with ha
      · refine iff_of_false (by simp) ?_
        rintro ⟨-, hd⟩
        rw [List.any_eq_true] at ha
        obtain ⟨x, hx, he⟩ := ha
        rw [List.map_append, List.nodup_append] at hd
        exact hd.2.2 x.name (List.mem_map_of_mem hx) c.name (by simp) (by simpa using he)
      · have hnew : (List.map (·.name) (s.comps ++ [c])).Nodup := by
          rw [List.map_append, List.nodup_append]
          refine ⟨hs, by simp, ?_⟩
          intro x hx y hy hxy
          obtain ⟨z, hz, rfl⟩ := List.mem_map.mp hx
          simp only [List.map_cons, List.map_nil, List.mem_singleton] at hy
          apply ha
          rw [List.any_eq_true]
          exact ⟨z, hz, by rw [beq_iff_eq, hxy, hy]⟩
        simp only
        rw [readItems_ok_iff get dest subs hget l { s with comps := s.comps ++ [c] } hnew, ← List.append_assoc]
  | .incl f :: l, s, hs => by
    rw [readItems]
    cases hg : get f with
    | error e =>
      refine iff_of_false (by simp) ?_
      rintro ⟨h, -⟩
      have := h f List.mem_cons_self
      rw [hg] at this
      cases this
    | ok i =>
      have hi := hget f i hg
      subst hi
      obtain ⟨hspec, -, hok⟩ := include_spec s (subs f) hs
      simp only
      cases hinc : includeInto s (subs f) with
      | error e =>
        refine iff_of_false (by simp) ?_
        rintro ⟨-, h⟩
        rw [List.flatMap_cons, ← List.append_assoc, List.map_append, List.nodup_append] at h
        obtain ⟨r, hr⟩ := hok.mpr h.1
        rw [hinc] at hr
        cases hr
      | ok s' =>
        simp only
        have c1 := (hspec s' hinc).1
        have hn := hok.mp ⟨s', hinc⟩
        rw [← c1] at hn
        rw [readItems_ok_iff get dest subs hget l s' hn, c1, List.flatMap_cons, ← List.append_assoc]
        apply and_congr_left
        intro _
        constructor
        · intro h g hg'
          rcases List.mem_cons.mp hg' with e | hg'
          · cases e
            exact hg
          · exact h g hg'
        · intro h g hg'
          exact h g (List.mem_cons_of_mem _ hg')

/-- C54: an instrument with includes is refused exactly for repeated parameters of its own, for files that are refused or
missing, and for components with the same name. -/
theorem read_ok_iff (lib : String → Option Def) (depth : Nat) (d : Def) (subs : String → Instr)
    (hsubs : ∀ f i, getFile lib depth f = .ok i → i = subs f) :
    (∃ r, readInstr lib depth d = .ok r) ↔
      (d.params.map (·.name)).Nodup ∧ (∀ f, Item.incl f ∈ d.items → getFile lib depth f = .ok (subs f)) ∧
      ((d.items.flatMap fun x => match x with
        | .comp c => [c]
        | .incl f => (subs f).comps.filter fun c => !c.removable).map (·.name)).Nodup := by
  rw [readInstr, readDef]
  have hp := addParams_ok_iff d.params [] (by simp)
  rw [List.nil_append] at hp
  cases h : addParams false [] d.params with
  | error e =>
    rw [h] at hp
    refine iff_of_false (by simp) ?_
    rintro ⟨hn, -⟩
    obtain ⟨r, hr⟩ := hp.mpr hn
    cases hr
  | ok ps =>
    rw [h] at hp
    have hn := hp.mp ⟨ps, rfl⟩
    simp only [hn, true_and]
    have hk := readItems_ok_iff (getFile lib depth) false subs hsubs d.items
      ⟨d.name, ps, d.metas.foldl addMeta [], [], [], ⟨d.declare, d.user, d.initialize_, [], []⟩⟩ (by simp)
    simp only [Bool.false_and, Bool.false_eq_true, if_false, List.nil_append] at hk
    rw [← hk]
    split
    · rename_i e he
      rw [he]
    · rename_i s hs
      rw [hs]
      simp

/-- C54: components of an included instrument that are REMOVABLE are never in the instrument. -/
theorem removable_left_out (lib : String → Option Def) (depth : Nat) (f : String) (i : Instr)
    (h : getFile lib depth f = .ok i) : ∀ c ∈ i.comps, c.removable = false := by
  cases depth with
  | zero => cases h
  | succ n =>
    rw [getFile] at h
    cases hl : lib f with
    | none => simp [hl] at h
    | some d =>
      rw [hl] at h
      simp only [readDef] at h
      split at h
      · cases h
      · split at h
        · cases h
        · rename_i s hs
          cases h
          have := readItems_spec (getFile lib n) true (fun g => match getFile lib n g with | .ok i => i | .error _ => s)
            (by intro g j hj; simp [hj]) _ _ _ (by simp) hs
          intro c hc
          simp only at hc
          rw [this.2.1, List.nil_append, List.mem_flatMap] at hc
          obtain ⟨x, -, hx⟩ := hc
          cases x with
          | comp c' =>
            simp only [Bool.true_and] at hx
            split_ifs at hx with hr
            · simp at hx
            · rw [List.mem_singleton] at hx
              subst hx
              simpa using hr
          | incl g =>
            simp only [List.mem_filter] at hx
            simpa using hx.2

/-- A library with one file, and an instrument that includes it. -/
def sampleLib : String → Option Def := fun f =>
  if f = "guide" then
    some ⟨"guide", [⟨"lambda", 1⟩, ⟨"m", 2⟩], [], ["double x;"], [], [], [.comp ⟨"origin", true, 0⟩, .comp ⟨"g1", false, 1⟩],
      ["sub save"], []⟩
  else none

def sampleDef : Def :=
  ⟨"top", [⟨"lambda", 4⟩], [], ["int y;"], [], [], [.comp ⟨"src", true, 3⟩, .incl "guide", .comp ⟨"mon", false, 4⟩], ["own save"], []⟩

/-- The REMOVABLE component of the top instrument stays, that of the included one does not; the parameter of the top
instrument wins. -/
example : readInstr sampleLib 3 sampleDef = .ok ⟨"top", [⟨"lambda", 4⟩, ⟨"m", 2⟩], [],
    [⟨"src", true, 3⟩, ⟨"g1", false, 1⟩, ⟨"mon", false, 4⟩], ["guide"],
    ⟨["int y;", "double x;"], [], [], ["sub save", "own save"], []⟩⟩ := by
  decide +kernel

/-- The same file twice is refused. -/
example : readInstr sampleLib 3 { sampleDef with items := [.incl "guide", .incl "guide"] } = .error .runtimeError := by
  decide +kernel

/-- A REMOVABLE component of the including instrument does collide. -/
example : readInstr sampleLib 3 { sampleDef with items := [.comp ⟨"g1", true, 3⟩, .incl "guide"] } = .error .runtimeError := by
  decide +kernel

example : ∃ s i : Instr, (s.comps.map (·.name)).Nodup ∧ s.comps ≠ [] ∧ (∃ c ∈ i.comps, c.removable = true) ∧
    (∃ c ∈ i.comps, c.removable = false) ∧ ∃ r, includeInto s i = .ok r :=
  ⟨⟨"a", [], [], [⟨"x", true, 0⟩], [], ⟨[], [], [], [], []⟩⟩,
   ⟨"b", [], [], [⟨"x", true, 0⟩, ⟨"y", false, 0⟩], [], ⟨[], [], [], [], []⟩⟩, by decide, by decide, ⟨⟨"x", true, 0⟩, by decide⟩,
   ⟨⟨"y", false, 0⟩, by decide⟩, _, rfl⟩

end Verif.Include
