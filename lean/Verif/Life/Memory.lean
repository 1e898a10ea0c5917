import Verif.Life.Props

/-!
C92: the memory of parameters that are lists is allocated when the parameters are set and freed once at the end.
-/

namespace Verif.Life

open Verif.Setpos Verif.Escape

/-! ### One parameter at a time -/

theorem slotAfter_append (isNull : Text → Bool) (i : String) (p : Text) (a b : List Event) (t : Slot) :
    slotAfter isNull i p (a ++ b) t = (slotAfter isNull i p a t).bind (slotAfter isNull i p b) := by
  induction a generalizing t with
  | nil => rfl
  | cons x a ih =>
    cases x with
    | set j q l =>
      rw [List.cons_append, slotAfter, slotAfter]
      split
      · cases setSlot isNull l t with
        | ok t' => exact ih t'
        | error f => rfl
      · exact ih t
    | free j q =>
      rw [List.cons_append, slotAfter, slotAfter]
      split
      · cases freeSlot t with
        | ok t' => exact ih t'
        | error f => rfl
      · exact ih t
    | code c x => exact ih t
    | placed j => exact ih t
    | opened => exact ih t
    | closed => exact ih t
    | announced j => exact ih t
    | mark b => exact ih t

/-- Nothing is done to the parameter. -/
def Quiet (i : String) (p : Text) (es : List Event) : Prop :=
  ∀ x ∈ es, (∀ l, x ≠ .set i p l) ∧ x ≠ .free i p

theorem slotAfter_quiet (isNull : Text → Bool) {i : String} {p : Text} {es : List Event} (h : Quiet i p es) (t : Slot) :
    slotAfter isNull i p es t = .ok t := by
  induction es generalizing t with
  | nil => rfl
  | cons x es ih =>
    have hx := h x List.mem_cons_self
    have ih := ih (fun y hy => h y (List.mem_cons_of_mem _ hy))
    cases x with
    | set j q l =>
      rw [slotAfter, if_neg]
      · exact ih t
      · rintro ⟨rfl, rfl⟩; exact hx.1 l rfl
    | free j q =>
      rw [slotAfter, if_neg]
      · exact ih t
      · rintro ⟨rfl, rfl⟩; exact hx.2 rfl
    | code c x => exact ih t
    | placed j => exact ih t
    | opened => exact ih t
    | closed => exact ih t
    | announced j => exact ih t
    | mark b => exact ih t

theorem quiet_append {i : String} {p : Text} {a b : List Event} (ha : Quiet i p a) (hb : Quiet i p b) : Quiet i p (a ++ b) :=
  fun x hx => (List.mem_append.1 hx).elim (ha x) (hb x)

theorem quiet_code {i : String} {p : Text} (c : Option String) (ts : List String) : Quiet i p (ts.map (.code c)) := by
  intro x hx
  obtain ⟨t, -, rfl⟩ := List.mem_map.1 hx
  exact ⟨fun l h => Event.noConfusion h, fun h => Event.noConfusion h⟩

theorem quiet_flatMap {α : Type} {i : String} {p : Text} {l : List α} {f : α → List Event} (h : ∀ a ∈ l, Quiet i p (f a)) :
    Quiet i p (l.flatMap f) := by
  intro x hx
  obtain ⟨a, ha, hx⟩ := List.mem_flatMap.1 hx
  exact h a ha x hx

/-- Of a list of things with different names only one counts. -/
theorem slotAfter_one {α β : Type} (isNull : Text → Bool) {i : String} {p : Text} {l : List α} {f : α → List Event} (name : α → β)
    (hn : (l.map name).Nodup) {a : α} (ha : a ∈ l) (h : ∀ b ∈ l, name b ≠ name a → Quiet i p (f b)) (t : Slot) :
    slotAfter isNull i p (l.flatMap f) t = slotAfter isNull i p (f a) t := by
  induction l generalizing t with
  | nil => cases ha
  | cons b l ih =>
    rw [List.map_cons, List.nodup_cons] at hn
    rw [List.flatMap_cons, slotAfter_append]
    rcases List.mem_cons.1 ha with rfl | ha
    · have hq : Quiet i p (l.flatMap f) := quiet_flatMap fun b hb => h b (List.mem_cons_of_mem _ hb) fun he =>
        hn.1 (he ▸ List.mem_map_of_mem hb)
      cases slotAfter isNull i p (f a) t with
      | ok t' => exact slotAfter_quiet isNull hq t'
      | error e => rfl
    · have hne : name b ≠ name a := fun he => hn.1 (he ▸ List.mem_map_of_mem ha)
      rw [slotAfter_quiet isNull (h b List.mem_cons_self hne)]
      exact ih hn.2 ha (fun c hc => h c (List.mem_cons_of_mem _ hc)) t

/-! ### The statements for one parameter -/

def slotLines (isNull : Text → Bool) : List Setpos.Line → Slot → Except Fault Slot
  | [], t => .ok t
  | l :: ls, t =>
    match setSlot isNull l t with
    | .ok t' => slotLines isNull ls t'
    | .error f => .error f

theorem slotAfter_lines (isNull : Text → Bool) (i : String) (p : Text) (ls : List Setpos.Line) (t : Slot) :
    slotAfter isNull i p (ls.map fun l => .set i p l) t = slotLines isNull ls t := by
  induction ls generalizing t with
  | nil => rfl
  | cons l ls ih =>
    rw [List.map_cons, slotAfter, if_pos ⟨rfl, rfl⟩, slotLines]
    cases setSlot isNull l t with
    | ok t' => exact ih t'
    | error f => rfl

def frees : Nat → Slot → Except Fault Slot
  | 0, t => .ok t
  | n + 1, t =>
    match freeSlot t with
    | .ok t' => frees n t'
    | .error f => .error f

theorem slotAfter_frees (isNull : Text → Bool) (i : String) (p : Text) (qs : List Par) (t : Slot) :
    slotAfter isNull i p (qs.map fun q => .free i q.name) t = frees (qs.filter fun q => q.name = p).length t := by
  induction qs generalizing t with
  | nil => rfl
  | cons q qs ih =>
    rw [List.map_cons, slotAfter]
    by_cases h : q.name = p
    · rw [if_pos ⟨rfl, h.symm⟩, List.filter_cons_of_pos (by simpa using h), List.length_cons, frees]
      cases freeSlot t with
      | ok t' => exact ih t'
      | error f => rfl
    · rw [if_neg (fun hh => h hh.2.symm), List.filter_cons_of_neg (by simpa using h)]
      exact ih t

/-- How many times a parameter is freed. -/
def freedTimes (c : Inst) (p : Text) : Nat := (c.own.filter fun q => q.value.vectorKnown.isSome && q.name = p).length

/-- The whole run, for a parameter of a component. -/
theorem slot_whole (isNull : Text → Bool) {s : Source} (hn : Named s) {fns : List Fn} (hp : program s = .ok fns) (e : Env)
    {n : Nat} {ei ef : List Event} {saves : List (List Event)} (hi : run e fns (n + 3) "init" none false = some ei)
    (hs : ∀ x ∈ saves, ∃ h, run e fns (n + 2) "save" none h = some x) (hf : run e fns (n + 3) "finally" none false = some ef)
    {c : Inst} (hc : c ∈ s.comps) (p : Text) (t : Slot) :
    slotAfter isNull c.name p (ei ++ saves.flatten ++ ef) t =
      (slotAfter isNull c.name p ((setsOf c c.type.setting).map (fun x => .set c.name x.1 x.2)) t).bind
        (frees (freedTimes c p)) := by
  have hsave : Quiet c.name p saves.flatten := by
    intro x hx
    obtain ⟨l, hl, hx⟩ := List.mem_flatten.1 hx
    obtain ⟨h, hr⟩ := hs l hl
    rw [save_runs hn hp] at hr
    injection hr with hr
    subst hr
    refine (?_ : Quiet c.name p _) x hx
    refine quiet_append (quiet_append (quiet_append ?_ (quiet_code _ _)) (quiet_flatMap fun i _ => quiet_code _ _)) ?_
    · cases h <;> simp [Quiet]
    · cases h <;> simp [Quiet]
  have hcode : ∀ g : Inst → List String, Quiet c.name p (s.comps.flatMap fun i => (g i).map (Event.code (some i.name))) :=
    fun g => quiet_flatMap fun i _ => quiet_code _ _
  rw [initialize_events hn hp] at hi
  rw [finally_runs hn hp] at hf
  injection hi with hi
  injection hf with hf
  subst hi hf
  have hset : ∀ t, slotAfter isNull c.name p (s.comps.flatMap fun i =>
      (setsOf i i.type.setting).map (fun x => Event.set i.name x.1 x.2) ++ [.placed i.name]) t =
      slotAfter isNull c.name p ((setsOf c c.type.setting).map (fun x => .set c.name x.1 x.2)) t := by
    intro t
    rw [slotAfter_one isNull (fun i : Inst => i.name) hn.insts hc]
    · rw [slotAfter_append]
      cases slotAfter isNull c.name p ((setsOf c c.type.setting).map (fun x => .set c.name x.1 x.2)) t <;> rfl
    · intro b _ hb
      refine quiet_append ?_ (by simp [Quiet])
      intro x hx
      obtain ⟨y, -, rfl⟩ := List.mem_map.1 hx
      refine ⟨fun l h => ?_, fun h => Event.noConfusion h⟩
      injection h with h1 _ _
      exact hb h1
  have hfree : ∀ t, slotAfter isNull c.name p (s.comps.flatMap fun i => i.type.final.map (Event.code (some i.name)) ++
        (i.own.filter fun p => p.value.vectorKnown.isSome).map fun p => .free i.name p.name) t = frees (freedTimes c p) t := by
    intro t
    rw [slotAfter_one isNull (fun i : Inst => i.name) hn.insts hc]
    · rw [slotAfter_append, slotAfter_quiet isNull (quiet_code _ _)]
      change slotAfter _ _ _ _ _ = _
      rw [slotAfter_frees, List.filter_filter, freedTimes]
      congr 3
      funext q
      exact Bool.and_comm _ _
    · intro b _ hb
      refine quiet_append (quiet_code _ _) ?_
      intro x hx
      obtain ⟨y, -, rfl⟩ := List.mem_map.1 hx
      refine ⟨fun l h => Event.noConfusion h, fun h => ?_⟩
      injection h with h1 _
      exact hb h1
  have hdisp : Quiet c.name p (if e.trace then [Event.mark true] ++
      s.comps.flatMap (fun i => .announced i.name :: i.type.display.map (.code (some i.name))) ++ [.mark false] else []) := by
    split
    · refine quiet_append (quiet_append (by simp [Quiet]) (quiet_flatMap fun i _ => ?_)) (by simp [Quiet])
      exact quiet_append (a := [_]) (by simp [Quiet]) (quiet_code _ _)
    · simp [Quiet]
  have hopen : ∀ b : Bool, Quiet c.name p (if b then [] else [Event.opened]) := by intro b; cases b <;> simp [Quiet]
  have hclose : ∀ b : Bool, Quiet c.name p (if b then [] else [Event.closed]) := by intro b; cases b <;> simp [Quiet]
  have hpre : Quiet c.name p (([Event.opened] ++ ((if e.file then [] else [.opened]) ++
      s.save.map (.code none) ++ s.comps.flatMap (fun i => i.type.save.map (.code (some i.name))) ++
      if e.file then [] else [.closed])) ++ s.final.map (.code none)) := by
    refine quiet_append (quiet_append (by simp [Quiet]) ?_) (quiet_code _ _)
    exact quiet_append (quiet_append (quiet_append (hopen _) (quiet_code _ _)) (hcode _)) (hclose _)
  rw [slotAfter_append, slotAfter_append, slotAfter_append, slotAfter_append, slotAfter_append,
    slotAfter_quiet isNull (quiet_code _ _)]
  change Except.bind (Except.bind (Except.bind (Except.bind (slotAfter _ _ _ _ _) _) _) _) _ = _
  rw [hset]
  cases slotAfter isNull c.name p ((setsOf c c.type.setting).map (fun x => .set c.name x.1 x.2)) t with
  | error f => rfl
  | ok t' =>
    change Except.bind (Except.bind (Except.bind (slotAfter _ _ _ _ _) _) _) _ = frees _ _
    rw [slotAfter_quiet isNull (hcode _)]
    change Except.bind (Except.bind (slotAfter _ _ _ _ _) _) _ = frees _ _
    rw [slotAfter_quiet isNull hdisp]
    change Except.bind (slotAfter _ _ _ _ _) _ = frees _ _
    rw [slotAfter_quiet isNull hsave]
    change slotAfter _ _ _ _ _ = frees _ _
    rw [slotAfter_append, slotAfter_append, slotAfter_quiet isNull hpre]
    change Except.bind (slotAfter _ _ _ _ _) _ = frees _ _
    rw [hfree]
    cases frees (freedTimes c p) t' <;> rfl

theorem find_setting {ps : List Par} (hn : (ps.map Par.name).Nodup) {d : Par} (hd : d ∈ ps) :
    ps.find? (·.name = d.name) = some d := by
  induction ps with
  | nil => cases hd
  | cons a ps ih =>
    rw [List.map_cons, List.nodup_cons] at hn
    rcases List.mem_cons.1 hd with rfl | hd
    · simp
    · have hne : a.name ≠ d.name := fun h => hn.1 (h ▸ List.mem_map_of_mem hd)
      rw [List.find?_cons_of_neg (by simpa using hne)]
      exact ih hn.2 hd

/-- Only the statements for the parameter count. -/
theorem slot_sets (isNull : Text → Bool) {c : Inst} (hn : (c.type.setting.map Par.name).Nodup) {d : Par}
    (hd : d ∈ c.type.setting) {v : Ex} (hv : given c.own c.type.setting d.name = some v) {ls : List Setpos.Line}
    (hl : parameterLines d.value v = .ok ls) (t : Slot) :
    slotAfter isNull c.name d.name ((setsOf c c.type.setting).map (fun x => .set c.name x.1 x.2)) t = slotLines isNull ls t := by
  rw [setsOf, List.map_flatMap, slotAfter_one isNull Par.name hn hd]
  · simp only [hv, hl, List.map_map]
    exact slotAfter_lines isNull c.name d.name ls t
  · intro b _ hb x hx
    obtain ⟨y, hy, rfl⟩ := List.mem_map.1 hx
    refine ⟨fun l h => ?_, fun h => Event.noConfusion h⟩
    injection h with _ h2 _
    revert hy
    split
    · intro hy; cases hy
    · split
      · intro hy
        obtain ⟨l', -, rfl⟩ := List.mem_map.1 hy
        exact hb h2
      · intro hy; cases hy

theorem slot_sets_missing (isNull : Text → Bool) {c : Inst} {p : Text} (hp : ∀ d ∈ c.type.setting, d.name ≠ p) (t : Slot) :
    slotAfter isNull c.name p ((setsOf c c.type.setting).map (fun x => .set c.name x.1 x.2)) t = .ok t := by
  refine slotAfter_quiet isNull ?_ t
  intro x hx
  obtain ⟨y, hy, rfl⟩ := List.mem_map.1 hx
  refine ⟨fun l h => ?_, fun h => Event.noConfusion h⟩
  injection h with _ h2 _
  obtain ⟨d, hd, hy⟩ := List.mem_flatMap.1 hy
  revert hy
  split
  · intro hy; cases hy
  · split
    · intro hy
      obtain ⟨l', -, rfl⟩ := List.mem_map.1 hy
      exact hp d hd h2
    · intro hy; cases hy

/-- The pointer is null after the parameter has been set to a value that is no list: texts and `NULL` are not assigned to it,
and neither is an operation. -/
def StaysNull (isNull : Text → Bool) (v : Ex) : Prop :=
  v.isStr = true ∨ (v.isId = false ∧ v.hasValue = false) ∨ v.printP = txt "NULL" ∨ isNull v.printP = true

theorem vectorKnown_vector {v : Ex} (h : v.vectorKnown.isSome) : v.isVector = true := by
  revert h
  unfold Ex.vectorKnown
  split
  · intro _; rfl
  · intro h; cases h

theorem slotLines_keep (isNull : Text → Bool) (ls : List Setpos.Line) (t : Slot)
    (h : ∀ l ∈ ls, setSlot isNull l t = .ok t) : slotLines isNull ls t = .ok t := by
  induction ls with
  | nil => rfl
  | cons l ls ih =>
    rw [slotLines, h l List.mem_cons_self]
    exact ih fun x hx => h x (List.mem_cons_of_mem _ hx)

theorem setSlot_elems (isNull : Text → Bool) (ts : List Text) (t : Slot) :
    ∀ l ∈ ts.mapIdx (fun i x => Setpos.Line.elem i x), setSlot isNull l t = .ok t := by
  intro l hl
  obtain ⟨i, hi, rfl⟩ := List.mem_mapIdx.1 hl
  cases t <;> rfl

/-- A text is copied. -/
theorem lines_str {d v : Ex} {ls : List Setpos.Line} (h : parameterLines d v = .ok ls) (hs : (d.isStr || v.isStr) = true)
    (isNull : Text → Bool) (t : Slot) : slotLines isNull ls t = .ok t := by
  have key : ∀ l ∈ ls, setSlot isNull l t = .ok t := by
    simp only [parameterLines, hs, if_true] at h
    split at h
    · injection h with h
      subst h
      intro l hl
      rw [List.mem_singleton.1 hl]
      cases t <;> rfl
    · split at h
      · split at h <;> (injection h with h; subst h; intro l hl; rw [List.mem_singleton.1 hl]; cases t <;> rfl)
      · injection h with h; subst h; intro l hl; rw [List.mem_singleton.1 hl]; cases t <;> rfl
      · injection h with h; subst h; intro l hl; rw [List.mem_singleton.1 hl]; cases t <;> rfl
      · cases h
  exact slotLines_keep isNull ls t key

theorem lines_list {d v : Ex} {ls : List Setpos.Line} (h : parameterLines d v = .ok ls) (hs : (d.isStr || v.isStr) = false)
    (hk : v.vectorKnown.isSome) (isNull : Text → Bool) :
    slotLines isNull ls (.pointer .null false) = .ok (.pointer (.block true) false) := by
  have hv := vectorKnown_vector hk
  obtain ⟨ts, hts⟩ := Option.isSome_iff_exists.1 hk
  simp only [parameterLines, hs, hv, Bool.or_true, if_true, hts, Bool.false_eq_true, if_false] at h
  injection h with h
  subst h
  rw [slotLines]
  exact slotLines_keep isNull _ _ (setSlot_elems isNull ts _)

theorem null_or_other (b : Bool) : (if b = true then Ptr.null else .other) = .null ∨ (if b = true then Ptr.null else .other) = .other := by
  cases b <;> simp

theorem lines_other {d v : Ex} {ls : List Setpos.Line} (h : parameterLines d v = .ok ls) (hs : (d.isStr || v.isStr) = false)
    (hd : d.isVector = true) (hk : v.vectorKnown = none) (isNull : Text → Bool) :
    ∃ q, slotLines isNull ls (.pointer .null false) = .ok (.pointer q false) ∧ (q = .null ∨ q = .other) ∧
      (q = .null ↔ StaysNull isNull v) := by
  have hvs : v.isStr = false := by cases hh : v.isStr <;> simp_all
  have hone : ∀ x : Text, ls = [.assign x] → slotLines isNull ls (.pointer .null false) =
      .ok (.pointer (if x = txt "NULL" || isNull x then .null else .other) false) := by
    rintro x rfl; rfl
  simp only [parameterLines, hs, hd, Bool.true_or, if_true, hk, Bool.false_eq_true, if_false] at h
  split at h
  · rename_i hid
    injection h with h
    refine ⟨_, hone _ h.symm, null_or_other _, ?_⟩
    simp only [StaysNull, hvs, hid, Bool.false_eq_true, false_or, false_and, Bool.true_eq_false]
    split
    · rename_i hx
      simpa using hx
    · rename_i hx
      simpa using hx
  · rename_i hid
    have hid : v.isId = false := by simpa using hid
    injection h with h
    refine ⟨_, hone _ h.symm, null_or_other _, ?_⟩
    by_cases hhv : v.hasValue = true
    · simp only [hhv, if_true, StaysNull, hvs, hid, Bool.false_eq_true, false_or, true_and, Bool.true_eq_false]
      split
      · rename_i hx
        simpa using hx
      · rename_i hx
        simpa using hx
    · have hhv : v.hasValue = false := by simpa using hhv
      simp [StaysNull, hid, hhv]

theorem lines_number {d v : Ex} {ls : List Setpos.Line} (h : parameterLines d v = .ok ls) (hs : (d.isStr || v.isStr) = false)
    (hd : d.isVector = false) (hk : v.vectorKnown = none) (isNull : Text → Bool) :
    slotLines isNull ls .number = .ok .number := by
  have key : ∃ x, ls = [.assign x] := by
    simp only [parameterLines, hs, hd, Bool.false_or, Bool.false_eq_true, if_false, hk] at h
    split at h
    · split at h <;> (injection h with h; exact ⟨_, h.symm⟩)
    · split at h
      · injection h with h; exact ⟨_, h.symm⟩
      · split at h <;> (injection h with h; exact ⟨_, h.symm⟩)
  obtain ⟨x, rfl⟩ := key
  rfl

theorem frees_null (k : Nat) (l : Bool) : frees k (.pointer .null l) = .ok (.pointer .null l) := by
  induction k with
  | zero => rfl
  | succ k ih => rw [frees]; exact ih

theorem frees_one (l : Bool) : frees 1 (.pointer (.block true) l) = .ok (.pointer (.block false) l) := rfl

theorem frees_more (k : Nat) (l : Bool) : frees (k + 2) (.pointer (.block true) l) = .error .freedTwice := rfl

theorem frees_other (k : Nat) (l : Bool) : frees (k + 1) (.pointer .other l) = .error .notAllocated := rfl

theorem freedTimes_pos {c : Inst} {p : Text} (h : freedTimes c p ≠ 0) :
    ∃ q ∈ c.own, q.value.vectorKnown.isSome ∧ q.name = p := by
  obtain ⟨q, hq⟩ := List.exists_mem_of_length_pos (Nat.pos_of_ne_zero h)
  rw [List.mem_filter] at hq
  refine ⟨q, hq.1, ?_⟩
  simpa using hq.2

theorem freedTimes_zero {c : Inst} {p : Text} (h : ∀ q ∈ c.own, q.value.vectorKnown.isSome → q.name ≠ p) :
    freedTimes c p = 0 := by
  by_contra hne
  obtain ⟨q, hq, h1, h2⟩ := freedTimes_pos hne
  exact h q hq h1 h2

/-- What the parameters given may be: a list is no text, and it is given for a setting parameter that is a list. -/
def ListsFit (c : Inst) : Prop :=
  ∀ q ∈ c.own, q.value.vectorKnown.isSome → q.value.isStr = false ∧
    ∃ d ∈ c.type.setting, d.name = q.name ∧ d.value.isStr = false ∧ d.value.isVector = true

/-- The values let through by `set_parameter` for setting parameters (instr/instance.py 115-135) are such, if no list is marked
as a text: reading `{...}` marks all lists as numbers (instr/visitor.py 202-207). -/
theorem compatible_lists_fit (c : Inst) (hset : ∀ d ∈ c.type.setting, d.value.isOp = false)
    (hstr : ∀ d ∈ c.type.setting, d.value.isStr = true → d.value.isVector = false)
    (hown : ∀ q ∈ c.own, ∃ d ∈ c.type.setting, d.name = q.name ∧ compatible d.value q.value = true)
    (hno : ∀ q ∈ c.own, q.value.vectorKnown.isSome → q.value.isStr = false) : ListsFit c := by
  intro q hq hk
  obtain ⟨d, hd, hn, hcomp⟩ := hown q hq
  have hqs := hno q hq hk
  have hqv := vectorKnown_vector hk
  refine ⟨hqs, d, hd, hn, ?_⟩
  have h1 := hset d hd
  have h2 := hstr d hd
  have hv : d.value.isVector = true := by
    revert hcomp h1
    cases d.value with
    | op => intro _ h; cases h
    | val v dt o sh =>
      cases hqe : q.value with
      | op => rw [hqe] at hqv; cases hqv
      | val v' dt' o' sh' =>
        intro hcomp _
        rw [hqe] at hqs hqv
        simp only [compatible, hqs, Bool.false_or, Bool.and_eq_true, decide_eq_true_eq] at hcomp
        exact hcomp.2.trans hqv
  refine ⟨?_, hv⟩
  cases hh : d.value.isStr with
  | false => rfl
  | true => rw [h2 hh] at hv; cases hv

/-- The value used for a setting parameter: the first one given, or else the default. -/
theorem given_cases {c : Inst} (hn : (c.type.setting.map Par.name).Nodup) {d : Par} (hd : d ∈ c.type.setting) :
    (∃ w, c.own.find? (·.name = d.name) = some w ∧ given c.own c.type.setting d.name = some w.value) ∨
    ((∀ q ∈ c.own, q.name ≠ d.name) ∧ given c.own c.type.setting d.name = some d.value) := by
  cases h : c.own.find? (·.name = d.name) with
  | some w => exact .inl ⟨w, rfl, by rw [given, h]⟩
  | none =>
    refine .inr ⟨fun q hq => ?_, ?_⟩
    · have := List.find?_eq_none.1 h q hq
      simpa using this
    · rw [given, h, find_setting hn hd]
      rfl

theorem same_setting {ps : List Par} (hn : (ps.map Par.name).Nodup) {a b : Par} (ha : a ∈ ps) (hb : b ∈ ps)
    (h : a.name = b.name) : a = b := by
  have h1 := find_setting hn ha
  rw [h, find_setting hn hb] at h1
  injection h1 with h1
  exact h1.symm

/-- The parameter at the end of a run. -/
theorem slot_end (isNull : Text → Bool) {s : Source} (hn : Named s) {fns : List Fn} (hp : program s = .ok fns) (e : Env)
    {n : Nat} {ei ef : List Event} {saves : List (List Event)} (hi : run e fns (n + 3) "init" none false = some ei)
    (hs : ∀ x ∈ saves, ∃ h, run e fns (n + 2) "save" none h = some x) (hf : run e fns (n + 3) "finally" none false = some ef)
    {c : Inst} (hc : c ∈ s.comps) (hnd : (c.type.setting.map Par.name).Nodup) (hfit : ListsFit c) {d : Par}
    (hd : d ∈ c.type.setting) :
    ∃ t, slotAfter isNull c.name d.name (ei ++ saves.flatten ++ ef) (declared s c.name d.name) =
        frees (freedTimes c d.name) t ∧
      ((d.value.isStr = true ∧ t = .text ∧ freedTimes c d.name = 0) ∨
       (d.value.isStr = false ∧ d.value.isVector = false ∧ t = .number ∧ freedTimes c d.name = 0) ∨
       (d.value.isStr = false ∧ d.value.isVector = true ∧
        ∃ v, given c.own c.type.setting d.name = some v ∧
          ((v.isStr = true ∧ v.vectorKnown = none ∧ t = .pointer .null false) ∨
           (v.isStr = false ∧ v.vectorKnown.isSome ∧ t = .pointer (.block true) false) ∨
           (v.isStr = false ∧ v.vectorKnown = none ∧ ∃ q, t = .pointer q false ∧ (q = .null ∨ q = .other) ∧
              (q = .null ↔ StaysNull isNull v))))) := by
  have hfind : s.comps.find? (·.name = c.name) = some c := by
    have := hn.insts
    clear hi hs hf hp
    revert this hc
    generalize s.comps = cs
    intro hc this
    induction cs with
    | nil => cases hc
    | cons a cs ih =>
      rw [List.map_cons, List.nodup_cons] at this
      rcases List.mem_cons.1 hc with rfl | hc
      · simp
      · have hne : a.name ≠ c.name := fun h => this.1 (h ▸ List.mem_map_of_mem hc)
        rw [List.find?_cons_of_neg (by simpa using hne)]
        exact ih hc this.2
  have hdec : declared s c.name d.name = if d.value.isStr then .text else if d.value.isVector then .pointer .null false
      else .number := by
    unfold declared
    rw [hfind]
    simp only
    rw [find_setting hnd hd]
  obtain ⟨-, hlines, -⟩ := program_parts hp
  obtain ⟨v, hv⟩ : ∃ v, given c.own c.type.setting d.name = some v := by
    rcases given_cases hnd hd with ⟨w, -, h⟩ | ⟨-, h⟩ <;> exact ⟨_, h⟩
  obtain ⟨ls, hl⟩ := hlines c hc d hd v hv
  rw [slot_whole isNull hn hp e hi hs hf hc, slot_sets isNull hnd hd hv hl, hdec]
  have hnolist : (d.value.isStr = true ∨ d.value.isVector = false) → freedTimes c d.name = 0 := by
    intro h
    refine freedTimes_zero fun q hq hk he => ?_
    obtain ⟨-, d', hd', hn', h1, h2⟩ := hfit q hq hk
    rw [same_setting hnd hd' hd (hn'.trans he)] at h1 h2
    rcases h with h | h
    · rw [h] at h1; cases h1
    · rw [h] at h2; cases h2
  -- a list that is used belongs to a list parameter and is no text
  have hvlist : v.vectorKnown.isSome → d.value.isStr = false → d.value.isVector = true ∧ v.isStr = false := by
    intro hk hs'
    rcases given_cases hnd hd with ⟨w, hw, h⟩ | ⟨-, h⟩
    · rw [hv] at h
      injection h with h
      subst h
      have hwn : w.name = d.name := by simpa using List.find?_some hw
      obtain ⟨h0, d', hd', hn', h1, h2⟩ := hfit w (List.mem_of_find?_eq_some hw) hk
      rw [same_setting hnd hd' hd (hn'.trans hwn)] at h2
      exact ⟨h2, h0⟩
    · rw [hv] at h
      injection h with h
      subst h
      exact ⟨vectorKnown_vector hk, hs'⟩
  cases hds : d.value.isStr with
  | true =>
    rw [if_pos rfl, lines_str hl (by simp [hds])]
    exact ⟨.text, rfl, .inl ⟨rfl, rfl, hnolist (.inl hds)⟩⟩
  | false =>
    rw [if_neg (by simp)]
    cases hdv : d.value.isVector with
    | false =>
      rw [if_neg (by simp)]
      have hk : v.vectorKnown = none := by
        by_contra hne
        have := (hvlist (Option.isSome_iff_ne_none.2 hne) hds).1
        rw [hdv] at this
        cases this
      refine ⟨.number, ?_, .inr (.inl ⟨rfl, rfl, rfl, hnolist (.inr hdv)⟩)⟩
      cases hvs : v.isStr with
      | true => rw [lines_str hl (by simp [hvs])]; rfl
      | false => rw [lines_number hl (by simp [hvs, hds]) hdv hk]; rfl
    | true =>
      rw [if_pos rfl]
      cases hvs : v.isStr with
      | true =>
        refine ⟨.pointer .null false, by rw [lines_str hl (by simp [hvs])]; rfl, .inr (.inr ⟨rfl, rfl, v, hv, .inl ⟨hvs, ?_, rfl⟩⟩)⟩
        by_contra hne
        have := (hvlist (Option.isSome_iff_ne_none.2 hne) hds).2
        rw [hvs] at this
        cases this
      | false =>
        have hss : (d.value.isStr || v.isStr) = false := by simp [hvs, hds]
        by_cases hk : v.vectorKnown.isSome
        · refine ⟨.pointer (.block true) false, by rw [lines_list hl hss hk]; rfl, .inr (.inr ⟨rfl, rfl, v, hv, .inr (.inl ⟨hvs, hk, rfl⟩)⟩)⟩
        · have hk : v.vectorKnown = none := by simpa using hk
          obtain ⟨q, h1, h2, h3⟩ := lines_other hl hss hdv hk isNull
          exact ⟨.pointer q false, by rw [h1]; rfl, .inr (.inr ⟨rfl, rfl, v, hv, .inr (.inr ⟨hvs, hk, q, rfl, h2, h3⟩)⟩)⟩

/-- A parameter that is not there is not touched. -/
theorem slot_missing (isNull : Text → Bool) {s : Source} (hn : Named s) {fns : List Fn} (hp : program s = .ok fns) (e : Env)
    {n : Nat} {ei ef : List Event} {saves : List (List Event)} (hi : run e fns (n + 3) "init" none false = some ei)
    (hs : ∀ x ∈ saves, ∃ h, run e fns (n + 2) "save" none h = some x) (hf : run e fns (n + 3) "finally" none false = some ef)
    (hfit : ∀ c ∈ s.comps, ListsFit c) (i : String) (p : Text) (h : ∀ c ∈ s.comps, c.name = i → ∀ d ∈ c.type.setting, d.name ≠ p) :
    slotAfter isNull i p (ei ++ saves.flatten ++ ef) (declared s i p) = .ok .missing := by
  have hdec : declared s i p = .missing := by
    unfold declared
    split
    · rfl
    · rename_i c hc
      have hcn : c.name = i := by simpa using List.find?_some hc
      have hcm := List.mem_of_find?_eq_some hc
      have : c.type.setting.find? (·.name = p) = none := by
        rw [List.find?_eq_none]
        simpa using h c hcm hcn
      rw [this]
  rw [hdec]
  by_cases hex : ∃ c ∈ s.comps, c.name = i
  · obtain ⟨c, hc, rfl⟩ := hex
    rw [slot_whole isNull hn hp e hi hs hf hc, slot_sets_missing isNull (h c hc rfl)]
    have : freedTimes c p = 0 := freedTimes_zero fun q hq hk he => by
      obtain ⟨-, d, hd, hdn, -⟩ := hfit c hc q hq hk
      exact h c hc rfl d hd (hdn.trans he)
    rw [this]
    rfl
  · refine slotAfter_quiet isNull ?_ _
    rw [initialize_events hn hp] at hi
    rw [finally_runs hn hp] at hf
    injection hi with hi
    injection hf with hf
    subst hi hf
    intro x hx
    refine ⟨?_, ?_⟩
    · rintro l rfl
      simp only [List.mem_append, List.mem_map, List.mem_flatMap, List.mem_flatten] at hx
      rcases hx with (((( ⟨t, -, ht⟩ | ⟨c, hc, ⟨y, -, hy⟩ | hy⟩) | ⟨c, hc, y, -, hy⟩) | hx) | ⟨l', hl', hx⟩) | hx
      · cases ht
      · injection hy with h1; exact hex ⟨c, hc, h1⟩
      · simp at hy
      · cases hy
      · split at hx
        · simp [List.mem_flatMap] at hx
        · cases hx
      · obtain ⟨hh, hr⟩ := hs l' hl'
        rw [save_runs hn hp] at hr
        injection hr with hr
        subst hr
        cases hh <;> simp at hx
      · cases he : e.file <;> simp [he] at hx
    · rintro rfl
      simp only [List.mem_append, List.mem_map, List.mem_flatMap, List.mem_flatten] at hx
      rcases hx with (((( ⟨t, -, ht⟩ | ⟨c, hc, ⟨y, -, hy⟩ | hy⟩) | ⟨c, hc, y, -, hy⟩) | hx) | ⟨l', hl', hx⟩) | hx
      · cases ht
      · cases hy
      · simp at hy
      · cases hy
      · split at hx
        · simp [List.mem_flatMap] at hx
        · cases hx
      · obtain ⟨hh, hr⟩ := hs l' hl'
        rw [save_runs hn hp] at hr
        injection hr with hr
        subst hr
        cases hh <;> simp at hx
      · have : ∃ c ∈ s.comps, c.name = i := by
          cases he : e.file <;> simp [he] at hx <;> (obtain ⟨c, hc, q, hq, h1, h2⟩ := hx; exact ⟨c, hc, h1⟩)
        exact hex this

/-! ### The claims -/

/-- C92, exact: whatever is freed was allocated and is freed once, if and only if no list is given twice for a parameter of a
component, and a list given after another value finds a null pointer. `saves` are the SAVE sections run in between. -/
theorem freed_once_iff (isNull : Text → Bool) {s : Source} (hn : Named s) {fns : List Fn} (hp : program s = .ok fns) (e : Env)
    {n : Nat} {ei ef : List Event} {saves : List (List Event)} (hi : run e fns (n + 3) "init" none false = some ei)
    (hs : ∀ x ∈ saves, ∃ h, run e fns (n + 2) "save" none h = some x) (hf : run e fns (n + 3) "finally" none false = some ef)
    (hnd : ∀ c ∈ s.comps, (c.type.setting.map Par.name).Nodup) (hfit : ∀ c ∈ s.comps, ListsFit c) :
    Valid isNull s (ei ++ saves.flatten ++ ef) ↔
      ∀ c ∈ s.comps, ∀ q ∈ c.own, q.value.vectorKnown.isSome → ∀ w, c.own.find? (·.name = q.name) = some w →
        (w.value.vectorKnown.isSome ∧ (c.own.filter fun r => r.value.vectorKnown.isSome && r.name = q.name).length = 1) ∨
        (w.value.vectorKnown = none ∧ StaysNull isNull w.value) := by
  constructor
  · intro h c hc q hq hk w hw
    obtain ⟨hqs, d, hd, hdn, hds, hdv⟩ := hfit c hc q hq hk
    obtain ⟨t, ht, hcase⟩ := slot_end isNull hn hp e hi hs hf hc (hnd c hc) (hfit c hc) hd
    obtain ⟨t', ht'⟩ := h c.name d.name
    rw [ht] at ht'
    have hpos : freedTimes c d.name ≠ 0 := by
      intro h0
      have : q ∈ c.own.filter fun q => q.value.vectorKnown.isSome && q.name = d.name := by
        rw [List.mem_filter]
        refine ⟨hq, ?_⟩
        simp [hk, hdn]
      rw [freedTimes, List.length_eq_zero_iff] at h0
      rw [h0] at this
      cases this
    have hgw : given c.own c.type.setting d.name = some w.value := by rw [given, hdn, hw]
    rw [← hdn]
    change (_ ∧ freedTimes c d.name = 1) ∨ _
    rcases hcase with ⟨h1, -⟩ | ⟨-, h1, -⟩ | ⟨-, -, v, hv, hcase⟩
    · rw [hds] at h1; cases h1
    · rw [hdv] at h1; cases h1
    · rw [hgw] at hv
      injection hv with hv
      subst hv
      rcases hcase with ⟨h1, h2, -⟩ | ⟨h1, h2, rfl⟩ | ⟨h1, h2, p, rfl, h3, h4⟩
      · exact .inr ⟨h2, .inl h1⟩
      · refine .inl ⟨h2, ?_⟩
        match hft : freedTimes c d.name, hpos with
        | 1, _ => rfl
        | k + 2, _ => rw [hft, frees_more] at ht'; cases ht'
      · refine .inr ⟨h2, ?_⟩
        rcases h3 with h3 | rfl
        · exact h4.1 h3
        · obtain ⟨k, hk'⟩ := Nat.exists_eq_succ_of_ne_zero hpos
          rw [hk', frees_other] at ht'
          cases ht'
  · intro h i p
    by_cases hex : ∃ c ∈ s.comps, c.name = i ∧ ∃ d ∈ c.type.setting, d.name = p
    · obtain ⟨c, hc, rfl, d, hd, rfl⟩ := hex
      obtain ⟨t, ht, hcase⟩ := slot_end isNull hn hp e hi hs hf hc (hnd c hc) (hfit c hc) hd
      rw [ht]
      by_cases h0 : freedTimes c d.name = 0
      · rw [h0]; exact ⟨t, rfl⟩
      obtain ⟨q, hq, hk, hqn⟩ := freedTimes_pos h0
      rcases hcase with ⟨-, -, h1⟩ | ⟨-, -, -, h1⟩ | ⟨-, -, v, hv, hcase⟩
      · exact absurd h1 h0
      · exact absurd h1 h0
      rcases given_cases (hnd c hc) hd with ⟨w, hw, hg⟩ | ⟨hno, -⟩
      · rw [hv] at hg
        injection hg with hg
        subst hg
        have hh := h c hc q hq hk w (by rw [hqn]; exact hw)
        rw [hqn] at hh
        change (_ ∧ freedTimes c d.name = 1) ∨ _ at hh
        rcases hcase with ⟨-, -, rfl⟩ | ⟨h1, h2, rfl⟩ | ⟨h1, h2, p, rfl, h3, h4⟩
        · exact ⟨_, frees_null _ _⟩
        · rcases hh with ⟨-, h1⟩ | ⟨h3, -⟩
          · rw [h1]; exact ⟨_, frees_one _⟩
          · rw [h3] at h2; cases h2
        · rcases hh with ⟨h5, -⟩ | ⟨-, h5⟩
          · rw [h2] at h5; cases h5
          · rw [h4.2 h5]; exact ⟨_, frees_null _ _⟩
      · exact absurd hqn (hno q hq)
    · refine ⟨.missing, slot_missing isNull hn hp e hi hs hf hfit i p ?_⟩
      intro c hc hci d hd hdp
      exact hex ⟨c, hc, hci, d, hd, hdp⟩

/-- C92: nothing is freed twice and nothing else than what was allocated is freed, if no parameter is given twice. -/
theorem freed_once_partial (isNull : Text → Bool) {s : Source} (hn : Named s) {fns : List Fn} (hp : program s = .ok fns) (e : Env)
    {n : Nat} {ei ef : List Event} {saves : List (List Event)} (hi : run e fns (n + 3) "init" none false = some ei)
    (hs : ∀ x ∈ saves, ∃ h, run e fns (n + 2) "save" none h = some x) (hf : run e fns (n + 3) "finally" none false = some ef)
    (hnd : ∀ c ∈ s.comps, (c.type.setting.map Par.name).Nodup) (hfit : ∀ c ∈ s.comps, ListsFit c)
    (honce : ∀ c ∈ s.comps, (c.own.map Par.name).Nodup) : Valid isNull s (ei ++ saves.flatten ++ ef) := by
  rw [freed_once_iff isNull hn hp e hi hs hf hnd hfit]
  intro c hc q hq hk w hw
  have hwq : w = q := by
    have := find_setting (honce c hc) hq
    rw [this] at hw
    injection hw with hw
    exact hw.symm
  subst hwq
  refine .inl ⟨hk, ?_⟩
  have : ∀ l : List Par, (l.map Par.name).Nodup → w ∈ l →
      (l.filter fun r => r.value.vectorKnown.isSome && r.name = w.name) = [w] := by
    intro l hl hm
    induction l with
    | nil => cases hm
    | cons a l ih =>
      rw [List.map_cons, List.nodup_cons] at hl
      rcases List.mem_cons.1 hm with rfl | hm
      · rw [List.filter_cons_of_pos (by simp [hk])]
        congr 1
        rw [List.filter_eq_nil_iff]
        intro b hb hh
        simp only [Bool.and_eq_true, decide_eq_true_eq] at hh
        exact hl.1 (hh.2 ▸ List.mem_map_of_mem hb)
      · have hne : a.name ≠ w.name := fun he => hl.1 (he ▸ List.mem_map_of_mem hm)
        rw [List.filter_cons_of_neg (by simp [hne])]
        exact ih hl.2 hm
  rw [this c.own (honce c hc) hq]
  rfl

/-- C92, exact: the memory of a parameter is never freed just if the parameter is a list by default and the component is given
no value for it: only the lists given are freed. -/
theorem not_freed_iff (isNull : Text → Bool) {s : Source} (hn : Named s) {fns : List Fn} (hp : program s = .ok fns) (e : Env)
    {n : Nat} {ei ef : List Event} {saves : List (List Event)} (hi : run e fns (n + 3) "init" none false = some ei)
    (hs : ∀ x ∈ saves, ∃ h, run e fns (n + 2) "save" none h = some x) (hf : run e fns (n + 3) "finally" none false = some ef)
    (hnd : ∀ c ∈ s.comps, (c.type.setting.map Par.name).Nodup) (hfit : ∀ c ∈ s.comps, ListsFit c) (i : String) (p : Text) :
    Leaks isNull s (ei ++ saves.flatten ++ ef) i p ↔
      ∃ c ∈ s.comps, c.name = i ∧ (∀ q ∈ c.own, q.name ≠ p) ∧
        ∃ d ∈ c.type.setting, d.name = p ∧ d.value.isStr = false ∧ d.value.vectorKnown.isSome := by
  constructor
  · rintro ⟨q, lost, hq, hlive⟩
    by_cases hex : ∃ c ∈ s.comps, c.name = i ∧ ∃ d ∈ c.type.setting, d.name = p
    · obtain ⟨c, hc, rfl, d, hd, rfl⟩ := hex
      obtain ⟨t, ht, hcase⟩ := slot_end isNull hn hp e hi hs hf hc (hnd c hc) (hfit c hc) hd
      rw [ht] at hq
      rcases hcase with ⟨-, rfl, h1⟩ | ⟨-, -, rfl, h1⟩ | ⟨hds, -, v, hv, hcase⟩
      · rw [h1] at hq; cases hq
      · rw [h1] at hq; cases hq
      rcases hcase with ⟨-, -, rfl⟩ | ⟨h1, h2, rfl⟩ | ⟨h1, h2, x, rfl, h3, h4⟩
      · rw [frees_null] at hq
        injection hq with hq
        injection hq with h5 h6
        subst h5 h6
        simp at hlive
      · have h0 : freedTimes c d.name = 0 := by
          match hft : freedTimes c d.name with
          | 0 => rfl
          | 1 =>
            rw [hft, frees_one] at hq
            injection hq with hq
            injection hq with h5 h6
            subst h5 h6
            simp at hlive
          | k + 2 => rw [hft, frees_more] at hq; cases hq
        rcases given_cases (hnd c hc) hd with ⟨w, hw, hg⟩ | ⟨hno, hg⟩
        · rw [hv] at hg
          injection hg with hg
          subst hg
          have hm : w ∈ c.own.filter fun q => q.value.vectorKnown.isSome && q.name = d.name := by
            rw [List.mem_filter]
            refine ⟨List.mem_of_find?_eq_some hw, ?_⟩
            have : w.name = d.name := by simpa using List.find?_some hw
            simp [h2, this]
          rw [freedTimes, List.length_eq_zero_iff] at h0
          rw [h0] at hm
          cases hm
        · rw [hv] at hg
          injection hg with hg
          subst hg
          exact ⟨c, hc, rfl, hno, d, hd, rfl, h1, h2⟩
      · have hxt : q = x ∧ lost = false := by
          rcases h3 with rfl | rfl
          · rw [frees_null] at hq
            injection hq with hq
            injection hq with h5 h6
            exact ⟨h5.symm, h6.symm⟩
          · match hft : freedTimes c d.name with
            | 0 =>
              rw [hft] at hq
              injection hq with hq
              injection hq with h5 h6
              exact ⟨h5.symm, h6.symm⟩
            | k + 1 => rw [hft, frees_other] at hq; cases hq
        obtain ⟨rfl, rfl⟩ := hxt
        rcases h3 with rfl | rfl <;> simp at hlive
    · rw [slot_missing isNull hn hp e hi hs hf hfit i p fun c hc hci d hd hdp => hex ⟨c, hc, hci, d, hd, hdp⟩] at hq
      cases hq
  · rintro ⟨c, hc, rfl, hno, d, hd, rfl, hds, hdk⟩
    obtain ⟨t, ht, hcase⟩ := slot_end isNull hn hp e hi hs hf hc (hnd c hc) (hfit c hc) hd
    have h0 : freedTimes c d.name = 0 := freedTimes_zero fun q hq _ => hno q hq
    rw [h0] at ht
    have hg : given c.own c.type.setting d.name = some d.value := by
      rcases given_cases (hnd c hc) hd with ⟨w, hw, -⟩ | ⟨-, hg⟩
      · exact absurd (by simpa using List.find?_some hw) (hno w (List.mem_of_find?_eq_some hw))
      · exact hg
    rcases hcase with ⟨h1, -⟩ | ⟨-, h1, -⟩ | ⟨-, -, v, hv, hcase⟩
    · rw [hds] at h1; cases h1
    · rw [vectorKnown_vector hdk] at h1; cases h1
    · rw [hg] at hv
      injection hv with hv
      subst hv
      rcases hcase with ⟨h1, -⟩ | ⟨-, -, rfl⟩ | ⟨-, h1, -⟩
      · rw [hds] at h1; cases h1
      · exact ⟨.block true, false, ht, .inl rfl⟩
      · rw [h1] at hdk; cases hdk

/-! ### A list given twice -/

def lst (t : String) : Ex := .val (.list [txt t]) .float .initializerList true

def vec : CType := { name := "V", setting := [⟨txt "v", .val .none .float .value true⟩, ⟨txt "u", lst "7"⟩], init := ["I"], final := ["F"] }

/-- `COMPONENT a = V(v={1}, v={2})`. -/
def twice : Source := { comps := [⟨"a", vec, [⟨txt "v", lst "1"⟩, ⟨txt "v", lst "2"⟩]⟩, ⟨"b", vec, [⟨txt "v", lst "3"⟩]⟩] }

/-- C92, where it fails: an instance keeps all the values given for a parameter (C22), the parameter is set to the first one,
and the memory is freed for each of them. In the same program the default list `u` is never freed. -/
theorem list_given_twice (isNull : Text → Bool) : ∃ fns ei ef, program twice = .ok fns ∧
    run ⟨false, true⟩ fns 3 "init" none false = some ei ∧ run ⟨false, true⟩ fns 3 "finally" none false = some ef ∧
    slotAfter isNull "a" (txt "v") (ei ++ ef) (declared twice "a" (txt "v")) = .error .freedTwice ∧
    slotAfter isNull "b" (txt "v") (ei ++ ef) (declared twice "b" (txt "v")) = .ok (.pointer (.block false) false) ∧
    Leaks isNull twice (ei ++ ef) "b" (txt "u") := by
  refine ⟨_, _, _, rfl, rfl, rfl, ?_, ?_, ?_⟩
  · rfl
  · rfl
  · exact ⟨.block true, false, rfl, .inl rfl⟩

/-- The hypotheses are met. -/
example : Named twice ∧ (∀ c ∈ twice.comps, (c.type.setting.map Par.name).Nodup) ∧ ∀ c ∈ twice.comps, ListsFit c := by
  refine ⟨⟨by decide, by decide⟩, by decide +kernel, ?_⟩
  intro c hc q hq hk
  have hc' : c = ⟨"a", vec, [⟨txt "v", lst "1"⟩, ⟨txt "v", lst "2"⟩]⟩ ∨ c = ⟨"b", vec, [⟨txt "v", lst "3"⟩]⟩ := by
    simpa [twice] using hc
  rcases hc' with rfl | rfl
  · simp only [List.mem_cons, List.not_mem_nil, or_false] at hq
    rcases hq with rfl | rfl <;> exact ⟨rfl, _, List.mem_cons_self, rfl, rfl, rfl⟩
  · simp only [List.mem_cons, List.not_mem_nil, or_false] at hq
    subst hq
    exact ⟨rfl, _, List.mem_cons_self, rfl, rfl, rfl⟩

end Verif.Life
