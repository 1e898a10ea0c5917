import Verif.Loader.Text

/-!
Model of the reading and writing of simulation summary files, src/mccode_antlr/loader/simfile.py 6-403 without the
combination of results (see `Combine.lean`). The text is that passed to `SimFile.parse`; the translation of line ends
by `open` is not modelled.
-/

namespace Verif.Loader

/-- `SimFileHeader` (18-22). -/
structure Header where
  description : Text
  date : Text
  program : Text
  deriving DecidableEq, Repr

/-- `SimFileInstrument` (56-64). -/
structure SimInstr where
  name : Text
  file : Text
  source : Text
  parameters : Text
  trace : Bool
  dflt : Bool
  embed : Bool
  deriving DecidableEq, Repr

/-- `SimFileSimulation` (118-130). -/
structure Simulation where
  name : Text
  format : Text
  url : Text
  creator : Text
  instrument : Text
  ncount : Int
  trace : Bool
  gravitation : Bool
  seed : Int
  directory : Text
  params : List Text
  deriving DecidableEq, Repr

/-- `SimFileData` (219-241): the attributes other than `Ncount`, of which some may be `None`. -/
structure Datum where
  keywords : List Text
  ncount : Int
  attr : Text → Option Text

/-- `SimFile` (349-354). -/
structure SimFile where
  header : Header
  instrument : SimInstr
  simulation : Simulation
  data : List Datum

def t (s : String) : Text := s.toList

def yesNo (b : Bool) : Text := if b then t "yes" else t "no"

/-! ### Writing -/

/-- `SimFileHeader.to_file` (34-37). -/
def Header.lines (h : Header) : List Text := [h.description, t "Date: " ++ h.date, t "Program: " ++ h.program]

/-- `SimFileInstrument.to_file` (81-89). -/
def SimInstr.lines (i : SimInstr) : List Text :=
  [t "begin instrument: " ++ i.name, t "  File: " ++ i.file, t "  Source: " ++ i.source, t "  Parameters: " ++ i.parameters,
    t "  Trace_enabled: " ++ yesNo i.trace, t "  Default_main: " ++ yesNo i.dflt,
    t "  Embedded_runtime: " ++ yesNo i.embed, t "end instrument"]

/-- `SimFileSimulation.to_file` (154-167). -/
def Simulation.lines (s : Simulation) : List Text :=
  [t "begin simulation: " ++ s.name, t "  Format: " ++ s.format, t "  URL: " ++ s.url, t "  Creator: " ++ s.creator,
    t "  Instrument: " ++ s.instrument, t "  Ncount: " ++ strInt s.ncount, t "  Trace: " ++ yesNo s.trace,
    t "  Gravitation: " ++ yesNo s.gravitation, t "  Seed: " ++ strInt s.seed, t "  Directory: " ++ s.directory] ++
  s.params.map (fun p => t "  Param: " ++ p) ++ [t "end simulation"]

/-- What is written of an attribute (275-277). -/
def Datum.keyLine (d : Datum) (k : Text) : Option Text :=
  if k = t "Ncount" then some (t "  " ++ k ++ t ": " ++ strInt d.ncount)
  else (d.attr k).map fun v => t "  " ++ k ++ t ": " ++ v

/-- `SimFileData.to_file` (273-278). -/
def Datum.lines (d : Datum) : List Text := [t "begin data"] ++ d.keywords.filterMap d.keyLine ++ [t "end data"]

/-- `SimFile.to_file` (393-402). -/
def SimFile.lines (s : SimFile) : List Text :=
  s.header.lines ++ [[]] ++ s.instrument.lines ++ [[]] ++ s.simulation.lines ++ [[]] ++
    s.data.flatMap fun d => d.lines ++ [[]]

def SimFile.text (s : SimFile) : Text := unlines s.lines

/-! ### Reading -/

/-- The loop of `read_keywords` (11-15). -/
def readEach : List Text → List Text → Except Err (List Text)
  | l :: ls, k :: ks =>
    if strip (partition [':'] l).1 ≠ k then .error .runtimeError
    else
      match readEach ls ks with
      | .error e => .error e
      | .ok r => .ok (strip (partition [':'] l).2 :: r)
  | _, _ => .ok []

/-- `read_keywords` (6-15). -/
def readKeywords (ls ks : List Text) : Except Err (List Text) :=
  if ls.length < ks.length then .error .runtimeError else readEach ls ks

/-- `SimFileHeader.parse` (25-32). -/
def parseHeader (s : Text) : Except Err Header :=
  match lines (strip s) with
  | [l0, l1, l2] =>
    match readKeywords [l1, l2] [t "Date", t "Program"] with
    | .error e => .error e
    | .ok [date, program] => .ok { description := strip l0, date, program }
    | .ok _ => .error .valueError
  | _ => .error .runtimeError

/-- `SimFileInstrument.parse` (67-79). -/
def parseInstr (s : Text) : Except Err SimInstr :=
  match lines (strip s) with
  | [] => .error .runtimeError
  | l0 :: ls =>
    if ls.length ≠ 6 then .error .runtimeError
    else
      match readKeywords ls
          [t "File", t "Source", t "Parameters", t "Trace_enabled", t "Default_main", t "Embedded_runtime"] with
      | .error e => .error e
      | .ok [file, source, parameters, trace, dflt, embed] =>
        .ok { name := strip l0, file, source, parameters, trace := decide (trace = t "yes"),
              dflt := decide (dflt = t "yes"), embed := decide (embed = t "yes") }
      | .ok _ => .error .valueError

/-- `SimFileSimulation.parse` (133-152). -/
def parseSimulation (s : Text) : Except Err Simulation :=
  match lines (strip s) with
  | [] => .error .runtimeError
  | l0 :: ls =>
    if ls.length < 9 then .error .runtimeError
    else
      match readKeywords (ls.take 9) [t "Format", t "URL", t "Creator", t "Instrument", t "Ncount", t "Trace",
          t "Gravitation", t "Seed", t "Directory"] with
      | .error e => .error e
      | .ok [format, url, creator, instrument, ncount, trace, gravitation, seed, directory] =>
        match parseInt ncount with
        | .error e => .error e
        | .ok ncount =>
          match parseInt seed with
          | .error e => .error e
          | .ok seed =>
            .ok { name := strip l0, format, url, creator, instrument, ncount, trace := decide (trace = t "yes"),
                  gravitation := decide (gravitation = t "yes"), seed, directory,
                  params := (ls.drop 9).map fun l => strip (partition [':'] l).2 }
      | .ok _ => .error .valueError

def firstKeywords : List Text := [t "Date", t "type", t "Source", t "component", t "position", t "title", t "Ncount"]

def secondKeywords : List Text := [t "statistics", t "signal", t "values"]

def keywords0 : List Text := firstKeywords ++ secondKeywords ++ [t "xylimits", t "variables"]

def keywords0f : List Text := firstKeywords ++ [t "filename"] ++ secondKeywords ++ [t "xylimits", t "variables"]

def keywords1 : List Text := firstKeywords ++ [t "filename"] ++ secondKeywords ++
  [t "xvar", t "yvar", t "xlabel", t "ylabel", t "xlimits", t "variables"]

def keywords2 : List Text := firstKeywords ++ [t "filename"] ++ secondKeywords ++
  [t "xvar", t "yvar", t "xlabel", t "ylabel", t "zvar", t "zlabel", t "xylimits", t "variables"]

/-- The keywords for a number of lines (250-267). -/
def keywordsFor (n : Nat) : Option (List Text) :=
  if n = 12 then some keywords0
  else if n = 13 then some keywords0f
  else if n = 17 then some keywords1
  else if n = 19 then some keywords2
  else none

/-- `SimFileData.parse` (244-271). -/
def parseDatum (s : Text) : Except Err Datum :=
  match keywordsFor (lines (strip s)).length with
  | none => .error .runtimeError
  | some ks =>
    match readKeywords (lines (strip s)) ks with
    | .error e => .error e
    | .ok values =>
      match (ks.zip values).lookup (t "Ncount") with
      | none => .error .keyError
      | some n =>
        match parseInt n with
        | .error e => .error e
        | .ok ncount =>
          .ok { keywords := ks, ncount, attr := fun k => if k = t "Ncount" then none else (ks.zip values).lookup k }

/-- The loop over the data (380-384). -/
def dataParts : Nat → Text → List Text
  | 0, _ => []
  | n + 1, rest =>
    if rest = [] then []
    else
      let p := partition (t "end data") rest
      let datum := strip (partition (t "begin data") p.1).2
      if datum = [] then dataParts n p.2 else datum :: dataParts n p.2

def mapM (f : Text → Except Err Datum) : List Text → Except Err (List Datum)
  | [] => .ok []
  | s :: l =>
    match f s with
    | .error e => .error e
    | .ok d =>
      match mapM f l with
      | .error e => .error e
      | .ok r => .ok (d :: r)

/-- `SimFile.parse` (373-391). -/
def parse (contents : Text) : Except Err SimFile :=
  let p1 := partition (t "begin instrument: ") contents
  let p2 := partition (t "begin simulation: ") p1.2
  let p3 := partition (t "end simulation") p2.2
  match parseHeader p1.1 with
  | .error e => .error e
  | .ok header =>
    match parseInstr (partition (t "end instrument") p2.1).1 with
    | .error e => .error e
    | .ok instrument =>
      match parseSimulation p3.1 with
      | .error e => .error e
      | .ok simulation =>
        match mapM (fun d => parseDatum (strip d)) (dataParts (p3.2.length + 1) p3.2) with
        | .error e => .error e
        | .ok data => .ok { header, instrument, simulation, data }

end Verif.Loader
