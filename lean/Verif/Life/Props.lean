import Verif.Life.Lemmas

/-!
C91: the sections of the instrument and of its components are run in order, once for each component.
-/

namespace Verif.Life

open Verif.Setpos Verif.Escape

/-- The statements written for the setting parameters of an instance. -/
def setsOf (i : Inst) (ps : List Par) : List (Text × Setpos.Line) :=
  ps.flatMap fun p =>
    match given i.own i.type.setting p.name with
    | none => []
    | some v =>
      match parameterLines p.value v with
      | .ok ls => ls.map fun l => (p.name, l)
      | .error _ => []

theorem parameterStmts_eq {i : Inst} {ps : List Par} {ls : List Stmt} (h : parameterStmts i ps = .ok ls) :
    ls = (setsOf i ps).map (fun x => Stmt.set i.name x.1 x.2) ∧
      ∀ p ∈ ps, ∀ v, given i.own i.type.setting p.name = some v → ∃ xs, parameterLines p.value v = .ok xs := by
  induction ps generalizing ls with
  | nil =>
    rw [parameterStmts] at h
    injection h with h
    exact ⟨h.symm, fun p hp => absurd hp List.not_mem_nil⟩
  | cons p ps ih =>
    rw [parameterStmts] at h
    cases hg : given i.own i.type.setting p.name with
    | none =>
      rw [hg] at h
      obtain ⟨h1, h2⟩ := ih h
      refine ⟨?_, ?_⟩
      · rw [h1]; simp [setsOf, hg]
      · intro q hq v hv
        rcases List.mem_cons.1 hq with rfl | hq
        · rw [hg] at hv; cases hv
        · exact h2 q hq v hv
    | some v =>
      rw [hg] at h
      simp only at h
      cases hl : parameterLines p.value v with
      | error e => rw [hl] at h; cases h
      | ok xs =>
        rw [hl] at h
        cases hr : parameterStmts i ps with
        | error e => rw [hr] at h; cases h
        | ok rest =>
          rw [hr] at h
          injection h with h
          obtain ⟨h1, h2⟩ := ih hr
          refine ⟨?_, ?_⟩
          · rw [← h, h1]
            simp only [setsOf, List.flatMap_cons, hg, hl, List.map_append, List.map_map]
            rfl
          · intro q hq w hw
            rcases List.mem_cons.1 hq with rfl | hq
            · rw [hg] at hw; injection hw with hw; subst hw; exact ⟨xs, hl⟩
            · exact h2 q hq w hw

theorem setposFns_mem {is : List Inst} {fs : List Fn} (h : setposFns is = .ok fs) {i : Inst} (hi : i ∈ is) :
    (⟨setposName i.name, (setsOf i i.type.setting).map (fun x => Stmt.set i.name x.1 x.2) ++ [.place i.name]⟩ : Fn) ∈ fs ∧
      ∀ p ∈ i.type.setting, ∀ v, given i.own i.type.setting p.name = some v → ∃ xs, parameterLines p.value v = .ok xs := by
  induction is generalizing fs with
  | nil => cases hi
  | cons j is ih =>
    rw [setposFns] at h
    cases hf : setposFn j with
    | error e => rw [hf] at h; cases h
    | ok f =>
      rw [hf] at h
      cases hs : setposFns is with
      | error e => rw [hs] at h; cases h
      | ok fs' =>
        rw [hs] at h
        injection h with h
        subst h
        rcases List.mem_cons.1 hi with rfl | hi
        · unfold setposFn at hf
          cases hp : parameterStmts i i.type.setting with
          | error e => rw [hp] at hf; cases hf
          | ok ls =>
            rw [hp] at hf
            injection hf with hf
            obtain ⟨h1, h2⟩ := parameterStmts_eq hp
            refine ⟨?_, h2⟩
            rw [← hf, h1]
            exact List.mem_cons_self
        · obtain ⟨h1, h2⟩ := ih hs hi
          exact ⟨List.mem_cons_of_mem _ h1, h2⟩

/-- The parts of the program. -/
theorem program_parts {s : Source} {fns : List Fn} (h : program s = .ok fns) :
    (∀ i ∈ s.comps, (⟨setposName i.name, (setsOf i i.type.setting).map (fun x => Stmt.set i.name x.1 x.2) ++
        [.place i.name]⟩ : Fn) ∈ fns) ∧
    (∀ i ∈ s.comps, ∀ p ∈ i.type.setting, ∀ v, given i.own i.type.setting p.name = some v →
        ∃ xs, parameterLines p.value v = .ok xs) ∧
    (∀ f ∈ classFns s (·.init) "initialize" [], f ∈ fns) ∧ initFn s ∈ fns ∧
    (∀ f ∈ classFns s (·.save) "save" [], f ∈ fns) ∧ saveFn s ∈ fns ∧
    (∀ f ∈ classFns s (·.final) "finally" [], f ∈ fns) ∧ finallyFn s ∈ fns ∧
    (∀ f ∈ classFns s (·.display) "display" [.announce none], f ∈ fns) ∧ displayFn s ∈ fns := by
  unfold program at h
  cases hs : setposFns s.comps with
  | error e => rw [hs] at h; cases h
  | ok fs =>
    rw [hs] at h
    injection h with h
    subst h
    refine ⟨fun i hi => ?_, fun i hi => (setposFns_mem hs hi).2, ?_, ?_, ?_, ?_, ?_, ?_, ?_, ?_⟩
    · have := (setposFns_mem hs hi).1
      simp only [List.mem_append]
      tauto
    all_goals first
      | (intro f hf; simp only [List.mem_append]; tauto)
      | (simp only [List.mem_append, List.mem_singleton]; tauto)

/-- DISPLAY: every component is announced once, in order, and its DISPLAY code is run right after. -/
theorem display_runs {s : Source} (hn : Named s) {fns : List Fn} (hp : program s = .ok fns) (e : Env) (n : Nat) (handle : Bool) :
    run e fns (n + 2) "display" none handle = some ([.mark true] ++
      s.comps.flatMap (fun i => .announced i.name :: i.type.display.map (.code (some i.name))) ++ [.mark false]) := by
  have hnd := program_nodup hn hp
  obtain ⟨-, -, -, -, -, -, -, -, hc, hd⟩ := program_parts hp
  have := run_fn (e := e) hnd hd (n + 1) none handle
  rw [show (displayFn s).name = "display" from rfl] at this
  rw [this]
  unfold displayFn
  refine execAll_append _ _ _ _ (execAll_append _ _ _ _ rfl (execAll_flatMap _ _ _ _ _ _ _ fun i hi => ?_)) rfl
  split
  · rename_i hb
    refine execAll_single ?_
    rw [exec, run_class hnd hc hi hb n false (xs := [.announced i.name]) rfl]
    rfl
  · rename_i hb
    have : i.type.display = [] := List.length_eq_zero_iff.1 (not_not.1 hb)
    rw [this]
    rfl

/-- What INITIALIZE does, with the statements setting parameters. -/
theorem initialize_events {s : Source} (hn : Named s) {fns : List Fn} (hp : program s = .ok fns) (e : Env) (n : Nat)
    (handle : Bool) :
    run e fns (n + 3) "init" none handle = some (s.init.map (.code none) ++
      s.comps.flatMap (fun i => (setsOf i i.type.setting).map (fun x => .set i.name x.1 x.2) ++ [.placed i.name]) ++
      s.comps.flatMap (fun i => i.type.init.map (.code (some i.name))) ++
      if e.trace then [.mark true] ++
        s.comps.flatMap (fun i => .announced i.name :: i.type.display.map (.code (some i.name))) ++ [.mark false] else []) := by
  have hnd := program_nodup hn hp
  obtain ⟨hset, -, hc, hf, -⟩ := program_parts hp
  have := run_fn (e := e) hnd hf (n + 2) none handle
  rw [show (initFn s).name = "init" from rfl] at this
  rw [this]
  unfold initFn
  refine execAll_append _ _ _ _ (execAll_append _ _ _ _ (execAll_append _ _ _ _ (execAll_code _ _ _ _ _) ?_) ?_) ?_
  · rw [List.map_eq_flatMap]
    refine execAll_flatMap _ _ _ _ _ _ _ fun i hi => execAll_single ?_
    rw [exec]
    have hr := run_fn (e := e) hnd (hset i hi) (n + 1) none false
    simp only at hr
    rw [hr]
    refine execAll_append _ _ _ _ ?_ rfl
    generalize setsOf i i.type.setting = xs
    induction xs with
    | nil => rfl
    | cons x xs ih => simp [execAll, exec, ih]
  · exact execAll_flatMap _ _ _ _ _ _ _ fun i hi => execAll_classCall hnd hc hi (n + 1) _ _
  · refine execAll_single ?_
    rw [exec]
    split
    · rename_i ht
      rw [display_runs hn hp e n false]
    · rfl

/-- C91, INITIALIZE: first the code of the instrument is run, then for every component, in order, the parameters are set and
the component is placed, then the code of every component is run, in order and with the variable of that component, and last
the geometry is shown if it was asked for. -/
theorem initialize_runs {s : Source} (hn : Named s) {fns : List Fn} (hp : program s = .ok fns) (e : Env) (n : Nat)
    (handle : Bool) :
    ∃ sets : Inst → List (Text × Setpos.Line), run e fns (n + 3) "init" none handle = some (s.init.map (.code none) ++
      s.comps.flatMap (fun i => (sets i).map (fun x => .set i.name x.1 x.2) ++ [.placed i.name]) ++
      s.comps.flatMap (fun i => i.type.init.map (.code (some i.name))) ++
      if e.trace then [.mark true] ++
        s.comps.flatMap (fun i => .announced i.name :: i.type.display.map (.code (some i.name))) ++ [.mark false] else []) :=
  ⟨fun i => setsOf i i.type.setting, initialize_events hn hp e n handle⟩

/-- C91, SAVE: the code of the instrument is run, then that of every component, in order; the information file is opened and
closed around it unless one is given. -/
theorem save_runs {s : Source} (hn : Named s) {fns : List Fn} (hp : program s = .ok fns) (e : Env) (n : Nat) (handle : Bool) :
    run e fns (n + 2) "save" none handle = some ((if handle then [] else [.opened]) ++ s.save.map (.code none) ++
      s.comps.flatMap (fun i => i.type.save.map (.code (some i.name))) ++ if handle then [] else [.closed]) := by
  have hnd := program_nodup hn hp
  obtain ⟨-, -, -, -, hc, hf, -⟩ := program_parts hp
  have := run_fn (e := e) hnd hf (n + 1) none handle
  rw [show (saveFn s).name = "save" from rfl] at this
  rw [this]
  unfold saveFn
  refine execAll_append _ _ _ _ (execAll_append _ _ _ _ (execAll_append _ _ _ _ ?_ (execAll_code _ _ _ _ _)) ?_) ?_
  · cases handle <;> rfl
  · exact execAll_flatMap _ _ _ _ _ _ _ fun i hi => execAll_classCall hnd hc hi n _ _
  · cases handle <;> rfl

/-- C91, FINALLY: what SAVE does is done first, then the code of the instrument is run, then that of every component, in order,
and after the code of a component its lists are freed. -/
theorem finally_runs {s : Source} (hn : Named s) {fns : List Fn} (hp : program s = .ok fns) (e : Env) (n : Nat) (handle : Bool) :
    run e fns (n + 3) "finally" none handle = some (([.opened] ++ ((if e.file then [] else [.opened]) ++
      s.save.map (.code none) ++ s.comps.flatMap (fun i => i.type.save.map (.code (some i.name))) ++
      if e.file then [] else [.closed])) ++ s.final.map (.code none) ++
      s.comps.flatMap (fun i => i.type.final.map (.code (some i.name)) ++
        (i.own.filter fun p => p.value.vectorKnown.isSome).map fun p => .free i.name p.name) ++ [.closed]) := by
  have hnd := program_nodup hn hp
  obtain ⟨-, -, -, -, -, -, hc, hf, -⟩ := program_parts hp
  have := run_fn (e := e) hnd hf (n + 2) none handle
  rw [show (finallyFn s).name = "finally" from rfl] at this
  rw [this]
  unfold finallyFn
  refine execAll_append _ _ _ _ (execAll_append _ _ _ _ (execAll_append _ _ _ _ ?_ (execAll_code _ _ _ _ _)) ?_) rfl
  · refine execAll_append _ _ _ _ (as := [.openInfo false]) (bs := [.saveInfo]) ?_ (execAll_single ?_)
    · cases handle <;> rfl
    · rw [exec, save_runs hn hp e n e.file]
  · refine execAll_flatMap _ _ _ _ _ _ _ fun i hi => execAll_append _ _ _ _ (execAll_classCall hnd hc hi (n + 1) _ _) ?_
    have hl : (fun p : Par => isList p.value) = fun p : Par => p.value.vectorKnown.isSome := by
      funext p
      unfold isList
      cases hv : p.value.vectorKnown with
      | none => simp
      | some ts =>
        have : p.value.isVector = true := by
          revert hv
          unfold Ex.vectorKnown
          split
          · rename_i heq
            intro
            rw [heq]
            rfl
          · intro h; cases h
        simp [this]
    rw [freeStmts, hl]
    generalize (i.own.filter fun p => p.value.vectorKnown.isSome) = xs
    induction xs with
    | nil => rfl
    | cons x xs ih => simp [execAll, exec, ih]

/-! ### An example -/

def monitor : CType :=
  ⟨"Mon", [⟨txt "n", .val (.number (txt "1")) .int .value false⟩], ["alloc"], ["out"], ["free"], []⟩

/-- A source and two monitors of one type. -/
def sample : Source where
  init := ["E = 5;"]
  save := ["S"]
  comps := [⟨"src", ⟨"Src", [], [], [], [], ["circle"]⟩, []⟩, ⟨"m1", monitor, []⟩,
    ⟨"m2", monitor, [⟨txt "n", .val (.number (txt "8")) .int .value false⟩]⟩]

example : Named sample ∧ ∃ fns, program sample = .ok fns ∧ fns.length = 11 ∧
    run ⟨true, true⟩ fns 3 "init" none false = some [.code none "E = 5;", .placed "src",
      .set "m1" (txt "n") (.assign (txt "1")), .placed "m1", .set "m2" (txt "n") (.assign (txt "8")), .placed "m2",
      .code (some "m1") "alloc", .code (some "m2") "alloc", .mark true, .announced "src", .code (some "src") "circle",
      .announced "m1", .announced "m2", .mark false] ∧
    run ⟨true, true⟩ fns 3 "finally" none false = some [.opened, .code none "S", .code (some "m1") "out",
      .code (some "m2") "out", .code (some "m1") "free", .code (some "m2") "free", .closed] :=
  ⟨⟨by decide +kernel, by decide +kernel⟩, _, rfl, rfl, rfl, rfl⟩

/-- Two definitions with one name: the code of the first is run for both, if the program is compiled at all (C89). -/
example : ∃ fns, program { comps := [⟨"a", { name := "T", save := ["1"] }, []⟩, ⟨"b", { name := "T", save := ["2"] }, []⟩] } = .ok fns ∧
    run ⟨false, true⟩ fns 2 "save" none true = some [.code (some "a") "1", .code (some "b") "1"] := ⟨_, rfl, rfl⟩

end Verif.Life
