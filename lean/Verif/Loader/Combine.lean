import Verif.Loader.Dat
import Mathlib.Analysis.Real.Sqrt

/-!
Model of the combination of results, src/mccode_antlr/loader/simfile.py 169-216, 285-346 and 409-442, and
src/mccode_antlr/loader/datfile.py 78-85, 124-135, 167-182, 216-233 and 251-299. Numbers are real numbers: rounding is not
modelled. The numbers of `values`, `signal` and `statistics` are those of their texts, as the text written for a float is
read as the same float. Logging is not modelled.
-/

namespace Verif.Loader

noncomputable section

/-- The numbers of `statistics` (304-305). -/
structure Stats where
  x0 : Option ℝ
  dx : Option ℝ
  y0 : Option ℝ
  dy : Option ℝ

/-- `SimFileData` with its numbers; `attr` has the texts other than `Ncount`, `statistics`, `signal` and `values`. The values
`None` of `signal` and `statistics` are `none`. -/
structure Result where
  keywords : List Text
  attr : Text → Option Text
  ncount : Int
  intensity : ℝ
  error : ℝ
  counts : ℝ
  signal : Option (ℝ × ℝ × ℝ)
  stats : Option Stats

def skipped : List Text := [t "Date", t "Ncount", t "statistics", t "signal", t "values"]

/-- `SimFileData.is_repeat` (285-293). -/
def isRepeat (a b : Result) : Prop := ∀ k ∈ a.keywords, k ∉ skipped → a.attr k = b.attr k

instance (a b : Result) : Decidable (isRepeat a b) := inferInstanceAs (Decidable (∀ k ∈ _, _ → _))

/-- The combined mean of the signal or of a position (325, 340). -/
def meanOf (cs co a b : ℝ) : Except Err ℝ := if cs + co = 0 then .error .zeroDivision else .ok ((a * cs + b * co) / (cs + co))

/-- The combined width (342-344). -/
def widthOf (cs co a b : ℝ) : Except Err ℝ :=
  if cs + co = 0 then .error .zeroDivision else .ok (Real.sqrt ((a * cs) * (a * cs) + (b * co) * (b * co)) / (cs + co))

/-- A number that both have (339, 341). -/
def both (f : ℝ → ℝ → Except Err ℝ) : Option ℝ → Option ℝ → Except Err (Option ℝ)
  | some a, some b =>
    match f a b with
    | .error e => .error e
    | .ok x => .ok (some x)
  | _, _ => .ok none

/-- The combined signal (320-326). -/
def combineSignal (cs co : ℝ) : Option (ℝ × ℝ × ℝ) → Option (ℝ × ℝ × ℝ) → Except Err (Option (ℝ × ℝ × ℝ))
  | some (amin, amax, a), some (bmin, bmax, b) =>
    match meanOf cs co a b with
    | .error e => .error e
    | .ok m => .ok (some (min amin bmin, max amax bmax, m))
  | _, _ => .ok none

/-- The combined statistics (331-345). -/
def combineStats (cs co : ℝ) : Option Stats → Option Stats → Except Err (Option Stats)
  | some a, some b =>
    match both (meanOf cs co) a.x0 b.x0 with
    | .error e => .error e
    | .ok x0 =>
      match both (widthOf cs co) a.dx b.dx with
      | .error e => .error e
      | .ok dx =>
        match both (meanOf cs co) a.y0 b.y0 with
        | .error e => .error e
        | .ok y0 =>
          match both (widthOf cs co) a.dy b.dy with
          | .error e => .error e
          | .ok dy => .ok (some ⟨x0, dx, y0, dy⟩)
  | _, _ => .ok none

/-- `SimFileData.combine` (295-346); `sqrt` of a negative number raises. -/
def combine (s o : Result) : Except Err Result :=
  if ¬ isRepeat s o then .error .runtimeError
  else if s.error * s.error + o.error + o.error < 0 then .error .valueError
  else
    match combineSignal s.counts o.counts s.signal o.signal with
    | .error e => .error e
    | .ok signal =>
      match combineStats s.counts o.counts s.stats o.stats with
      | .error e => .error e
      | .ok stats =>
        .ok { s with ncount := s.ncount + o.ncount, intensity := s.intensity + o.intensity,
                     error := Real.sqrt (s.error * s.error + o.error + o.error), counts := s.counts + o.counts, signal, stats }

/-- The key of a result (431, 437). -/
def Result.key (r : Result) : Option Text × Option Text := (r.attr (t "component"), r.attr (t "filename"))

abbrev Results := List ((Option Text × Option Text) × Result)

/-- `d[k] = v`. -/
def putResult (k : Option Text × Option Text) (v : Result) : Results → Results
  | [] => [(k, v)]
  | p :: l => if p.1 = k then (k, v) :: l else p :: putResult k v l

/-- One result of a further file (436-441). -/
def addResult (d : Results) (r : Result) : Except Err Results :=
  match d.lookup r.key with
  | none => .ok (putResult r.key r d)
  | some x =>
    match combine x r with
    | .error e => .error e
    | .ok y => .ok (putResult r.key y d)

def addResults (d : Results) : List Result → Except Err Results
  | [] => .ok d
  | r :: l =>
    match addResult d r with
    | .error e => .error e
    | .ok d => addResults d l

/-- The results of the first file (431). -/
def firstResults (l : List Result) : Results := l.foldl (fun d r => putResult r.key r d) []

/-- The data of `combine_mccode_sims` (409-442). -/
def combineData : List (List Result) → Except Err (List Result)
  | [] => .error .runtimeError
  | l :: ls =>
    match addResults (firstResults l) ls.flatten with
    | .error e => .error e
    | .ok d => .ok (d.map (·.2))

end

/-! ### The simulation -/

/-- `SimFileSimulation.__contains__` (169-175): whether `b in a`. -/
def simIn (b a : Simulation) : Prop :=
  b.name <:+: a.name ∧ b.format <:+: a.format ∧ b.url <:+: a.url ∧ b.creator <:+: a.creator ∧ b.instrument <:+: a.instrument ∧
    b.trace = a.trace ∧ b.gravitation = a.gravitation ∧ b.directory <:+: a.directory ∧ ∀ p ∈ b.params, p ∈ a.params

instance (b a : Simulation) : Decidable (simIn b a) := inferInstanceAs (Decidable (_ ∧ _))

/-- `SimFileSimulation.__eq__` (177-183) of `b == a`, that is of `b.__eq__(a)`. -/
def simEq (b a : Simulation) : Prop :=
  a.name = b.name ∧ a.format = b.format ∧ a.url = b.url ∧ a.creator = b.creator ∧ a.instrument = b.instrument ∧
    a.trace = b.trace ∧ a.gravitation = b.gravitation ∧ a.directory = b.directory ∧ ∀ p ∈ a.params, p ∈ b.params

instance (b a : Simulation) : Decidable (simEq b a) := inferInstanceAs (Decidable (_ ∧ _))

/-- `a if b in a else f'{a} + {b}'` (200-204, 210). -/
def joined (a b : Text) : Text := if b <:+: a then a else a ++ t " + " ++ b

/-- `SimFileSimulation.combine` (185-216) of `a.combine(b)`. -/
def combineSimulation (a b : Simulation) : Simulation :=
  if simEq b a then { a with ncount := a.ncount + b.ncount }
  else if simIn b a then a
  else if simIn a b then b
  else
    { name := joined a.name b.name, format := joined a.format b.format, url := joined a.url b.url,
      creator := joined a.creator b.creator, instrument := joined a.instrument b.instrument,
      ncount := min a.ncount b.ncount, trace := a.trace && b.trace, gravitation := a.gravitation && b.gravitation,
      seed := if a.seed = b.seed then a.seed else -1, directory := joined a.directory b.directory,
      params := (a.params ++ b.params).foldl (fun l p => if p ∈ l then l else l ++ [p]) [] }

/-! ### Data files -/

/-- `combine_scan_data` (279-292). -/
def combineArr {α : Type} [Add α] (a b : Nd α) : Except Err (Nd α) :=
  if a.shape ≠ b.shape then .error .runtimeError
  else
    match a.shape with
    | [n, m] =>
      .ok { shape := [n, m],
            data := a.data.take ((n - 3) * m) ++ List.zipWith (· + ·) (a.data.drop ((n - 3) * m)) (b.data.drop ((n - 3) * m)) }
    | [n, m, l] => .ok { shape := [n, m, l], data := List.zipWith (· + ·) a.data b.data }
    | _ => .error .runtimeError

/-- `any(s in k for s in names)`. -/
def hasAny (names : List Text) (k : Text) : Prop := ∃ s ∈ names, s <:+: k

instance (names : List Text) (k : Text) : Decidable (hasAny names k) := inferInstanceAs (Decidable (∃ s ∈ names, _))

/-- One entry of `combine_scan_dicts` (257-269). The integer of an added entry is kept as its text. -/
def combineEntry (c : List (Text × Text)) (k v : Text) : Except Err (List (Text × Text)) :=
  if hasAny [t "Ncount"] k then
    match c.lookup k with
    | none => .error .keyError
    | some x =>
      match parseInt (strip x) with
      | .error e => .error e
      | .ok i =>
        match parseInt (strip v) with
        | .error e => .error e
        | .ok j => .ok (setKey k (strInt (i + j)) c)
  else if hasAny [t "Directory", t "filename", t "Date", t "Seed"] k then
    match c.lookup k with
    | none => .error .keyError
    | some x => if v <:+: x then .ok c else .ok (setKey k (x ++ t " " ++ v) c)
  else if hasAny [t "signal", t "statistics", t "values"] k then .ok c
  else
    match c.lookup k with
    | none => .error .runtimeError
    | some x => if x ≠ v then .error .runtimeError else .ok c

/-- `combine_scan_dicts` (251-270). -/
def combineDicts (c : List (Text × Text)) : List (Text × Text) → Except Err (List (Text × Text))
  | [] => .ok c
  | p :: b =>
    match combineEntry c p.1 p.2 with
    | .error e => .error e
    | .ok c => combineDicts c b

/-- The entries that have to agree (172-175, 221-226). -/
def agreeing : Kind → List Text
  | .d0 => []
  | .d1 => [t "xlabel", t "xlimits"]
  | .d2 => [t "xlabel", t "ylabel", t "xylimits"]

/-- The class with which another can be combined (125, 168, 217). -/
def partner : Kind → Kind
  | .d0 => .d1
  | .d1 => .d1
  | .d2 => .d2

/-- The class of the result (135, 182, 233). -/
def resultKind : Kind → Kind
  | .d0 => .d1
  | .d1 => .d1
  | .d2 => .d2

/-- The comparison of the entries that have to agree; a missing entry raises. -/
def agree (keys : List Text) (a b : List (Text × Text)) : Except Err Bool :=
  match keys with
  | [] => .ok true
  | k :: keys =>
    match a.lookup k, b.lookup k with
    | some x, some y => if x ≠ y then .ok false else agree keys a b
    | _, _ => .error .keyError

/-- `safe_to_combine` (124-131, 167-178, 216-229). -/
def safe {α : Type} (a b : Kind × Dat α) : Except Err Bool :=
  if b.1 ≠ partner a.1 then .ok false
  else if a.2.vars ≠ b.2.vars then .ok false
  else
    match agree (agreeing a.1) a.2.metadata b.2.metadata with
    | .error e => .error e
    | .ok false => .ok false
    | .ok true => if a.2.data.shape ≠ b.2.data.shape then .ok false else .ok true

/-- `DatFileCommon.__add__` and those of its subclasses (78-85, 133-135, 180-182, 231-233). -/
def addDat {α : Type} [Add α] (a b : Kind × Dat α) : Except Err (Kind × Dat α) :=
  match safe a b with
  | .error e => .error e
  | .ok false => .error .runtimeError
  | .ok true =>
    match combineDicts a.2.metadata b.2.metadata with
    | .error e => .error e
    | .ok metadata =>
      match combineDicts a.2.parameters b.2.parameters with
      | .error e => .error e
      | .ok parameters =>
        if a.2.vars ≠ b.2.vars then .error .runtimeError
        else
          match combineArr a.2.data b.2.data with
          | .error e => .error e
          | .ok data =>
            (postInit (resultKind a.1) { metadata, parameters, vars := a.2.vars, data }).map fun d => (resultKind a.1, d)

/-- `combine_mccode_dats` (295-299). -/
def addDats {α : Type} [Add α] (a : Kind × Dat α) : List (Kind × Dat α) → Except Err (Kind × Dat α)
  | [] => .ok a
  | b :: l =>
    match addDat a b with
    | .error e => .error e
    | .ok c => addDats c l

end Verif.Loader
