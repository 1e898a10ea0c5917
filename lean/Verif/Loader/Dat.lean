import Verif.Loader.Sim

/-!
Model of the reading and writing of data files, src/mccode_antlr/loader/datfile.py 9-249. The file is its text; `Path`,
`__getitem__` and the bin boundaries of `dim_metadata` are in `Verif.Loader.Bins`, and `to_filename` is modelled for a file that does
not exist. Numbers are a type with the text written for them (`str`) and the reading of texts (`float`).
-/

namespace Verif.Loader

/-- The texts of numbers: `str` of a `numpy.float64` and `float`. -/
structure Num (α : Type) where
  str : α → Text
  parse : Text → Option α
  parse_str : ∀ x, parse (str x) = some x
  str_ne : ∀ x, str x ≠ []
  str_chars : ∀ x, ∀ c ∈ str x, isSpace c = false ∧ c ≠ '#'

/-- A numpy array: its shape and its elements in C order. -/
structure Nd (α : Type) where
  shape : List Nat
  data : List α
  deriving DecidableEq, Repr

/-- `a.transpose((1, 0))` of an array of shape `(n, m)`. -/
def Nd.transpose {α : Type} (a : Nd α) (n m : Nat) : Nd α :=
  { shape := [m, n], data := (List.range m).flatMap fun j => (List.range n).filterMap fun i => a.data[i * m + j]? }

/-- The columns `a.transpose((1, 0))`, as lists, of an array of shape `(n, m)`. -/
def Nd.columns {α : Type} (a : Nd α) (n m : Nat) : List (List α) :=
  (List.range m).map fun j => (List.range n).filterMap fun i => a.data[i * m + j]?

/-- `array(rows)`: rows of different lengths are refused (numpy 1.24 and later). -/
def Nd.ofRows {α : Type} : List (List α) → Except Err (Nd α)
  | [] => .ok { shape := [0], data := [] }
  | r :: rows =>
    if rows.all (fun x => decide (x.length = r.length)) then
      .ok { shape := [rows.length + 1, r.length], data := (r :: rows).flatten }
    else .error .valueError

/-- `DatFileCommon` (9-15). -/
structure Dat (α : Type) where
  metadata : List (Text × Text)
  parameters : List (Text × Text)
  vars : List Text
  data : Nd α
  deriving DecidableEq, Repr

/-- `d[k] = v` of a dictionary. -/
def setKey (k v : Text) : List (Text × Text) → List (Text × Text)
  | [] => [(k, v)]
  | p :: l => if p.1 = k then (k, v) :: l else p :: setKey k v l

/-- A dictionary from pairs. -/
def dictOf (l : List (Text × Text)) : List (Text × Text) := l.foldl (fun d p => setKey p.1 p.2 d) []

/-- `readlines`, without the line ends. -/
def fileLines (s : Text) : List Text :=
  let l := lines s
  if l.getLast? = some [] then l.dropLast else l

/-- `x.strip(' #\n')` (28). -/
def stripHash (s : Text) : Text :=
  let f := fun c => c == ' ' || c == '#' || c == '\n'
  ((s.dropWhile f).reverse.dropWhile f).reverse

/-- `s.split()`. -/
def words (s : Text) : List Text := (s.splitOnP isSpace).filter (· ≠ [])

/-- `s.startswith(p)`. -/
def startsWith (p s : Text) : Bool := p.isPrefixOf s

/-- `k, v = s.split(c, 1)` followed by `strip` of both (29-32). -/
def splitPair (c : Char) (s : Text) : Except Err (Text × Text) :=
  if c ∈ s then .ok (strip (partition [c] s).1, strip (partition [c] s).2) else .error .valueError

/-- `s.split(c, 1)[1]`. -/
def afterFirst (c : Char) (s : Text) : Except Err Text :=
  if c ∈ s then .ok (partition [c] s).2 else .error .indexError

def mapE {β γ : Type} (f : β → Except Err γ) : List β → Except Err (List γ)
  | [] => .ok []
  | x :: l =>
    match f x with
    | .error e => .error e
    | .ok y =>
      match mapE f l with
      | .error e => .error e
      | .ok r => .ok (y :: r)

/-- A parameter of the header (31-32). -/
def readParam (x : Text) : Except Err (Text × Text) :=
  match afterFirst ':' x with
  | .error e => .error e
  | .ok s => splitPair '=' s

/-- The numbers of a line (34). -/
def readRow {α : Type} (N : Num α) (l : Text) : Except Err (List α) :=
  mapE (fun w => match N.parse w with | some x => .ok x | none => .error .valueError) (words (strip l))

/-- `DatFileCommon.from_filename` (25-35). -/
def fromText {α : Type} (N : Num α) (s : Text) : Except Err (Dat α) :=
  let header := ((fileLines s).filter fun l => l.head? == some '#').map stripHash
  match mapE (splitPair ':') (header.filter fun x => !startsWith (t "Param") x) with
  | .error e => .error e
  | .ok md =>
    match mapE readParam (header.filter fun x => startsWith (t "Param") x) with
    | .error e => .error e
    | .ok parm =>
      match mapE (readRow N) ((fileLines s).filter fun l => !(l.head? == some '#')) with
      | .error e => .error e
      | .ok rows =>
        match Nd.ofRows rows with
        | .error e => .error e
        | .ok data =>
          .ok { metadata := dictOf md, parameters := dictOf parm,
                vars := (((dictOf md).lookup (t "variables")).getD []).splitOn ' ', data }

/-- The classes of data (100, 139, 186). -/
inductive Kind
  | d0
  | d1
  | d2
  deriving DecidableEq, Repr

/-- The kind declared by `type` (238-247). -/
def kindOf (ty : Text) : Option Kind :=
  if startsWith (t "array_0d") ty then some .d0
  else if startsWith (t "array_1d") ty then some .d1
  else if startsWith (t "array_2d") ty then some .d2
  else none

/-- `s.strip(')')`. -/
def stripParen (s : Text) : Text := ((s.dropWhile (· == ')')).reverse.dropWhile (· == ')')).reverse

/-- The text of the sizes, `metadata['type'].split('(', 1)[1].strip(')')` (141, 188). -/
def sizesText (ty : Text) : Except Err Text :=
  match afterFirst '(' ty with
  | .error e => .error e
  | .ok s => .ok (stripParen s)

/-- `DatFile0D.__post_init__` (101-108) on the data. -/
def shape0 {α : Type} (nv : Nat) (a : Nd α) : Except Err (Nd α) :=
  if a.shape = [nv] then .ok a
  else if a.data.length ≠ nv then .error .runtimeError
  else .ok { shape := [nv], data := a.data }

/-- `DatFile1D.__post_init__` (142-149) on the data. -/
def shape1 {α : Type} (nx : Int) (nv : Nat) (a : Nd α) : Except Err (Nd α) :=
  match a.shape with
  | [n, m] =>
    if (n : Int) = nv ∧ (m : Int) = nx then .ok a
    else if (n : Int) ≠ nx ∨ m ≠ nv then .error .runtimeError
    else .ok (a.transpose n m)
  | [n] => if (n : Int) ≠ nx then .error .runtimeError else .error .indexError
  | _ => .error .valueError

/-- `DatFile2D.__post_init__` (189-195) on the data. -/
def shape2 {α : Type} (nx ny : Int) (nv : Nat) (a : Nd α) : Except Err (Nd α) :=
  match a.shape with
  | [n, m, l] => if (n : Int) = nv ∧ (m : Int) = ny ∧ (l : Int) = nx then .ok a else .error .runtimeError
  | [n, m] =>
    if (n : Int) ≠ ny * nv ∨ (m : Int) ≠ nx then .error .runtimeError
    else .ok { shape := [nv, ny.toNat, nx.toNat], data := a.data }
  | [n] => if (n : Int) ≠ ny * nv then .error .runtimeError else .error .indexError
  | _ => .error .valueError

/-- `__post_init__` of the class of a kind. -/
def postInit {α : Type} (k : Kind) (d : Dat α) : Except Err (Dat α) :=
  match k with
  | .d0 => (shape0 d.vars.length d.data).map fun a => { d with data := a }
  | .d1 =>
    match d.metadata.lookup (t "type") with
    | none => .error .keyError
    | some ty =>
      match sizesText ty with
      | .error e => .error e
      | .ok s =>
        match parseInt (strip s) with
        | .error e => .error e
        | .ok nx => (shape1 nx d.vars.length d.data).map fun a => { d with data := a }
  | .d2 =>
    match d.metadata.lookup (t "type") with
    | none => .error .keyError
    | some ty =>
      match sizesText ty with
      | .error e => .error e
      | .ok s =>
        match mapE (fun x => parseInt (strip x)) (s.splitOn ',') with
        | .error e => .error e
        | .ok [nx, ny] => (shape2 nx ny d.vars.length d.data).map fun a => { d with data := a }
        | .ok _ => .error .valueError

/-- `read_mccode_dat` (236-248): the kind and the data. -/
def readDat {α : Type} (N : Num α) (s : Text) : Except Err (Kind × Dat α) :=
  match fromText N s with
  | .error e => .error e
  | .ok d =>
    match d.metadata.lookup (t "type") with
    | none => .error .keyError
    | some ty =>
      match kindOf ty with
      | none => .error .runtimeError
      | some k => (postInit k d).map fun d => (k, d)

/-! ### Writing -/

/-- The entries before the parameters (119, 162, 204). -/
def firstPart : List Text :=
  [t "Format", t "URL", t "Creator", t "Instrument", t "Ncount", t "Trace", t "Gravitation", t "Seed", t "Directory"]

def middlePart : List Text :=
  [t "Date", t "type", t "Source", t "component", t "position", t "title", t "Ncount", t "filename", t "statistics",
    t "signal", t "values"]

/-- The entries after the parameters (120-121, 163-164, 205-206). -/
def secondPart : Kind → List Text
  | .d0 => middlePart ++ [t "yvar", t "ylabel", t "xlimits", t "variables"]
  | .d1 => middlePart ++ [t "xvar", t "yvar", t "xlabel", t "ylabel", t "xlimits", t "variables"]
  | .d2 => middlePart ++ [t "xvar", t "yvar", t "xlabel", t "ylabel", t "zvar", t "zlabel", t "xylimits", t "variables"]

/-- The line of an entry (51, 55). -/
def entryLine (md : List (Text × Text)) (k : Text) : Except Err Text :=
  match md.lookup k with
  | none => .error .keyError
  | some v => .ok (t "# " ++ k ++ t ": " ++ v)

/-- A line of numbers (114, 157, 214). -/
def rowLine {α : Type} (N : Num α) (l : List α) : Text := [' '].intercalate (l.map N.str)

/-- The rows of one variable of an array of shape `(nv, ny, nx)` (213). -/
def Nd.rowsOf {α : Type} (a : Nd α) (ny nx i : Nat) : List (List α) :=
  (List.range ny).map fun y => (List.range nx).filterMap fun x => a.data[(i * ny + y) * nx + x]?

def labels : List Text := [t "Data", t "Errors", t "Events"]

/-- The block of one variable (212-214). -/
def block2 {α : Type} (N : Num α) (d : Dat α) (ny nx : Nat) (p : Text × Nat) : Except Err (List Text) :=
  match labels[p.2]? with
  | none => .error .indexError
  | some l =>
    match d.metadata.lookup (t "component"), d.metadata.lookup (t "filename") with
    | some c, some f =>
      .ok ((t "# " ++ l ++ t " [" ++ c ++ t "/" ++ f ++ t "] " ++ p.1 ++ t ":") ::
        (d.data.rowsOf ny nx p.2).map (rowLine N))
    | _, _ => .error .keyError

/-- `print_data` (113-114, 155-157, 209-214). -/
def dataLines {α : Type} (N : Num α) (k : Kind) (d : Dat α) : Except Err (List Text) :=
  match k, d.data.shape with
  | .d0, _ => .ok [rowLine N d.data.data]
  | .d1, [n, m] => .ok ((d.data.columns n m).map (rowLine N))
  | .d1, _ => .error .valueError
  | .d2, [_, ny, nx] =>
    match mapE (block2 N d ny nx) d.vars.zipIdx with
    | .error e => .error e
    | .ok bs => .ok bs.flatten
  | .d2, _ => .error .valueError

/-- `to_filename` (44-56). -/
def writeDat {α : Type} (N : Num α) (k : Kind) (d : Dat α) : Except Err Text :=
  match mapE (entryLine d.metadata) firstPart with
  | .error e => .error e
  | .ok a =>
    match mapE (entryLine d.metadata) (secondPart k) with
    | .error e => .error e
    | .ok b =>
      match dataLines N k d with
      | .error e => .error e
      | .ok c => .ok (unlines (a ++ d.parameters.map (fun p => t "# Param: " ++ p.1 ++ t "=" ++ p.2) ++ b ++ c))

end Verif.Loader
