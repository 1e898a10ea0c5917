import Mathlib.Data.Nat.Init

/-!
Model of the trace loop written by src/mccode_antlr/translators/c_raytrace.py.

What is modelled is the C program that `cogen_raytrace` (1-242) and `cogen_funnel` (245-430) write, run on one particle.
The state of a particle is split into the members `particle_restore` copies
(src/mccode_antlr/translators/c_particle.py 79-91, c_header.py 239-245: position, velocity, spin, time, weight; here `S`),
the bookkeeping members (`_index`, `_absorbed`, `_scattered`, `_restore`, `flag_nocoordschange`, `_logic`), and
everything else (user variables, random numbers; here `U`).

Simplifications. The TRACE and EXTEND code of a component is any function of `S` and `U`: it may set ABSORBED, SCATTERED
and RESTORE, but not the index, the flag or the counters. `ABSORBED` is a truth value, not a counter. Numbers compared
by conditions are integers. The C run-time library is not part of the repository; `mcgenstate` is taken to start a
particle with `_index` 1 and everything else zero.
-/

namespace Verif.Trace
variable {S U : Type}

/-- What the TRACE and EXTEND code leaves. -/
structure Outcome (S U : Type) where
  phys : S
  user : U
  absorbed : Bool
  scattered : Bool
  restore : Bool

/-- A jump; `key` stands for the counter `Jump_{component}_{target}`. -/
structure RJump (S U : Type) where
  iterate : Bool
  key : Nat
  cond : S → U → Int
  target : Int

/-- A component. `skip` is `ok_to_skip[index]`; `change` is what the coordinate transformation does to the particle;
`group` tells, for a member of a group, whether it is the leader, and the number of the last member; `trace` is missing
if there is neither TRACE nor EXTEND code. -/
structure RComp (S U : Type) where
  skip : Bool := false
  change : S → S := id
  group : Option (Bool × Nat) := none
  trace : Option (S → U → Outcome S U) := none
  cond : Option (S → U → Bool) := none
  jumps : List (RJump S U) := []
  split : Option (S → U → Int) := none

@[ext] structure Particle (S U : Type) where
  phys : S
  user : U
  index : Int := 1
  absorbed : Bool := false
  scattered : Bool := false
  restore : Bool := false
  flag : Bool := false
  logic : Nat → Int := fun _ => 0

/-- The state of the loop: the particle, the saved state (`_particle_save`, of which only the physical members are ever
read), and what `DEBUG_COMP` and `DEBUG_STATE` (84-88) have reported: component number and state. -/
@[ext] structure St (S U : Type) where
  p : Particle S U
  save : S
  log : List (Nat × S × U) := []

/-- `particle_restore` (c_header.py 239-245). -/
def Particle.restoreFrom (p : Particle S U) (save : S) : Particle S U :=
  { p with phys := save, absorbed := false, restore := false }

/-- The coordinate transformation, outside of the test of the index (59-70). -/
def coords (c : RComp S U) (st : St S U) : St S U :=
  if c.skip || st.p.flag then st else { st with p := { st.p with phys := c.change st.p.phys } }

/-- 73-83: reset of the flag, the saved state. -/
def saveState (c : RComp S U) (st : St S U) : St S U :=
  let st := { st with p := { st.p with flag := false } }
  match c.group with
  | some (false, _) => { st with save := c.change st.save }
  | _ => if c.skip then st else { st with save := st.p.phys }

/-- 84-88. -/
def report (i : Nat) (c : RComp S U) (st : St S U) : St S U :=
  if c.skip then st else { st with log := st.log ++ [(i, st.p.phys, st.p.user)] }

/-- The call of `class_..._trace` (93-94; the function sets the three marks to zero first, c_trace.py 115). -/
def callTrace (f : S → U → Outcome S U) (p : Particle S U) : Particle S U :=
  let o := f p.phys p.user
  { p with phys := o.phys, user := o.user, absorbed := o.absorbed, scattered := o.scattered, restore := o.restore }

/-- 95-96. -/
def checkRestore (save : S) (p : Particle S U) : Particle S U := if p.restore then p.restoreFrom save else p

/-- WHEN (91-92) guards the call only. -/
def whenTrue (c : RComp S U) (p : Particle S U) : Bool :=
  match c.cond with
  | some w => w p.phys p.user
  | none => true

/-- 89-97. -/
def runTrace (c : RComp S U) (st : St S U) : St S U :=
  match c.trace with
  | none => st
  | some f => { st with p := checkRestore st.save (if whenTrue c st.p then callTrace f st.p else st.p) }

/-- One jump (99-115). -/
def runJump (p : Particle S U) (j : RJump S U) : Particle S U :=
  if j.iterate then
    if p.logic j.key + 1 < j.cond p.phys p.user then
      { p with index := j.target, flag := true, logic := fun k => if k = j.key then p.logic k + 1 else p.logic k }
    else { p with logic := fun k => if k = j.key then 0 else p.logic k }
  else if j.cond p.phys p.user ≠ 0 then { p with index := j.target, flag := true }
  else p

def runJumps (c : RComp S U) (st : St S U) : St S U := { st with p := c.jumps.foldl runJump st.p }

/-- 117-132. -/
def runGroup (i : Nat) (c : RComp S U) (st : St S U) : St S U :=
  match c.group with
  | none => st
  | some (_, lid) =>
    if st.p.scattered then { st with p := { st.p with index := 1 + lid } }
    else if i = lid then { st with p := { st.p with absorbed := true } }
    else { st with p := st.p.restoreFrom st.save }

/-- 134. -/
def advance (st : St S U) : St S U := { st with p := { st.p with index := st.p.index + 1 } }

/-- 72-137: what is done with a particle which is to enter the component number `i` (from 0). -/
def body (i : Nat) (c : RComp S U) (st : St S U) : St S U :=
  advance (runGroup i c (runJumps c (runTrace c (report i c (saveState c st)))))

/-- 57-137. -/
def runComp (i : Nat) (c : RComp S U) (st : St S U) : St S U :=
  if (coords c st).p.absorbed = false ∧ (coords c st).p.index = i + 1 then body i c (coords c st) else coords c st

/-- What the model does not fix: the part of the random state kept from the particle traced last by a SPLIT (50, 52; of
the particle traced last and of the one being split), and the division of the weight (53). -/
structure Env (S U : Type) where
  keepRand : U → U → U
  divide : Nat → S → S

/-- 50-53: a copy of the particle that was split. -/
def splitCopy (env : Env S U) (n : Nat) (orig : Particle S U) (st : St S U) : St S U :=
  { st with p := { orig with user := env.keepRand st.p.user orig.user, phys := env.divide n orig.phys } }

/-- `for (...; N < S; N++)`. -/
def repeated (f : St S U → St S U) : Nat → St S U → St S U
  | 0, st => st
  | n + 1, st => repeated f n (f st)

/-- The body of the main loop, from the component number `i` on (37-148). The loop of a SPLIT contains everything that
follows. -/
def pass (env : Env S U) (i : Nat) : List (RComp S U) → St S U → St S U
  | [], st => st
  | c :: cs, st =>
    match c.split with
    | none => pass env (i + 1) cs (runComp i c st)
    | some count =>
      if st.p.absorbed then st
      else
        let n := (count st.p.phys st.p.user).toNat
        repeated (fun st' => pass env (i + 1) cs (runComp i c (splitCopy env n st.p st'))) n st

/-- 150-155. -/
def checkEnd (n : Nat) (st : St S U) : St S U :=
  if st.p.index > n then { st with p := { st.p with absorbed := true } } else st

/-- The main loop (33-155), for at most `fuel` rounds; `none` if it has not ended by then. -/
def traceLoop (env : Env S U) (cs : List (RComp S U)) : Nat → St S U → Option (St S U)
  | 0, st => if st.p.absorbed then some st else none
  | fuel + 1, st => if st.p.absorbed then some st else traceLoop env cs fuel (checkEnd cs.length (pass env 0 cs st))

/-- A new particle. The contents of `_particle_save` are not set (31). -/
def start (s : S) (u : U) (junk : S) : St S U := { p := { phys := s, user := u }, save := junk }

/-! ### The alternative layout -/

/-- 373-385: the transformation, the saved state; the report is that of the regular loop, to compare. -/
def funnelEnter (i : Nat) (c : RComp S U) (st : St S U) : St S U :=
  if c.skip then st
  else
    { p := { st.p with phys := c.change st.p.phys }, save := c.change st.p.phys,
      log := st.log ++ [(i, c.change st.p.phys, st.p.user)] }

/-- 392-410. -/
def funnelGroup (i : Nat) (c : RComp S U) (st : St S U) : St S U :=
  match c.group with
  | none => st
  | some (_, lid) =>
    if st.p.scattered then { st with p := { st.p with index := lid } }
    else if i = lid then { st with p := { st.p with absorbed := true } }
    else { st with p := { st.p with absorbed := false } }

/-- 369-413: one component of `cogen_funnel`. -/
def funnelComp (i : Nat) (c : RComp S U) (st : St S U) : St S U :=
  if st.p.absorbed = false ∧ st.p.index = i + 1 then advance (funnelGroup i c (runTrace c (funnelEnter i c st))) else st

/-- The components one after the other, for one particle, without SPLIT and without a change between CPU and GPU. -/
def funnel (i : Nat) : List (RComp S U) → St S U → St S U
  | [], st => st
  | c :: cs, st => funnel (i + 1) cs (funnelComp i c st)

end Verif.Trace
