import Mathlib.Data.List.Basic
import Mathlib.Data.List.Infix
import Mathlib.Data.List.Sort
import Mathlib.Data.String.Basic

/-!
Model of the places where components and instruments are looked for: src/mccode_antlr/reader/registry.py and the part of
`Reader` (src/mccode_antlr/reader/reader.py 39-107) which keeps them.

Paths are texts with parts separated by `/`, without empty parts or parts `.`; the files of a directory are given. Glob
patterns are names without special characters. The caches of `pooch` are not modelled: a file that a remote registry lists is
taken to be available.
-/

namespace Verif.Registry

inductive Err
  | runtimeError
  | keyError
  | indexError
  | typeError
  | attributeError
  deriving DecidableEq, Repr

/-! ### Texts and paths -/

/-- `a.endswith(b)`. -/
def endsWith (a b : String) : Bool := b.toList.isSuffixOf a.toList

/-- `a in b`. -/
def isIn (a b : String) : Bool := decide (a.toList <:+: b.toList)

/-- `s.lower()`, for the letters of ASCII. -/
def lower (s : String) : String := String.ofList (s.toList.map Char.toLower)

/-- The parts of a path. -/
def parts (s : String) : List String := (s.toList.splitOn '/').map String.ofList

/-- `Path(s).parts[-1]`. -/
def lastPart (s : String) : String := String.ofList (s.toList.reverse.takeWhile (· ≠ '/')).reverse

/-- `PurePath.suffix` of a last part, reversed: the text from the last dot on, unless the dot is first or last. -/
def suffixRev (rev : List Char) : List Char :=
  let ext := rev.takeWhile (· ≠ '.')
  match rev.dropWhile (· ≠ '.') with
  | '.' :: _ :: _ => if ext.isEmpty then [] else ext ++ ['.']
  | _ => []

/-- `Path(s).suffix`. -/
def suffix (s : String) : String := String.ofList (suffixRev (lastPart s).toList.reverse).reverse

/-- `Path(s).with_suffix('').as_posix()`. -/
def withoutSuffix (s : String) : String := String.ofList (s.toList.take (s.toList.length - (suffix s).toList.length))

/-- `_name_plus_suffix` (registry.py 92-96). -/
def namePlusSuffix (name : String) (ext : Option String) : String :=
  match ext with
  | none => name
  | some e => if suffix name ≠ e then name ++ e else name

/-! ### Registries -/

/-- Where the files of a registry are: listed (`RemoteRegistry`), in a directory (`LocalRegistry`, with the paths
below its root) or in memory (`InMemoryRegistry`). -/
inductive Store
  | remote (baseUrl : String) (files : List String)
  | dir (root : String) (files : List String)
  | memory (components : List (String × String))
  deriving DecidableEq, Repr

structure Registry where
  name : String
  priority : Int
  store : Store
  deriving DecidableEq, Repr

/-- `RemoteRegistry.known` (137-146). -/
def remoteKnown (files : List String) (name : String) (ext : Option String) (strict : Bool) : Bool :=
  if files.any fun x => endsWith x (namePlusSuffix name ext) then true
  else if files.any fun x => endsWith (withoutSuffix x) (namePlusSuffix name ext) then true
  else if strict then false else files.any fun x => isIn name x

/-- `RemoteRegistry.fullname` (151-175) with `exact = True`, which is how readers call it. -/
def remoteFullname (files : List String) (name : String) (ext : Option String) : Except Err String :=
  match files.find? fun x => x = namePlusSuffix name ext with
  | some f => .ok f
  | none =>
    match files.find? fun x => lastPart x = namePlusSuffix name ext with
    | some f => .ok f
    | none =>
      match files.filter fun x => isIn name x with
      | [f] => .ok f
      | _ => .error .runtimeError

/-- `root.glob('**/' + name)`: the paths that end in the parts of the name. -/
def globAny (files : List String) (name : String) : List String := files.filter fun x => (parts name).isSuffixOf (parts x)

/-- `root.glob(name)`. -/
def globExact (files : List String) (name : String) : List String := files.filter fun x => x = name

/-- `LocalRegistry.known` (302-304). -/
def dirKnown (files : List String) (name : String) (ext : Option String) : Bool :=
  0 < (globAny files (namePlusSuffix name ext)).length

/-- `LocalRegistry.fullname` (309-334) with `exact = False`, which is the default. -/
def dirFullname (files : List String) (name : String) (ext : Option String) : Except Err String :=
  match globExact files (namePlusSuffix name ext) with
  | [f] => .ok f
  | _ =>
    match globExact files name with
    | [f] => .ok f
    | _ =>
      match globAny files (namePlusSuffix name ext) with
      | [f] => .ok f
      | _ =>
        match globAny files name with
        | [f] => .ok f
        | _ => .error .runtimeError

/-- `InMemoryRegistry.fullname` (379-381). -/
def memFullname (components : List (String × String)) (name : String) (ext : Option String) : Option String :=
  let full := name ++ ext.getD ""
  if full ∈ components.map (·.1) then some full else none

/-- `InMemoryRegistry.known` (383-387). -/
def memKnown (components : List (String × String)) (name : String) (ext : Option String) : Bool :=
  (memFullname components name ext).isSome

/-- `InMemoryRegistry.contents` (389-393). -/
def memContents (components : List (String × String)) (name : String) (ext : Option String) : Except Err String :=
  match memFullname components name ext with
  | some full => (match components.lookup full with | some t => .ok t | none => .error .keyError)
  | none => .error .keyError

/-- `d[name] = text` of a dictionary in order of insertion. -/
def dictSet (components : List (String × String)) (name text : String) : List (String × String) :=
  if name ∈ components.map (·.1) then components.map fun p => if p.1 = name then (name, text) else p
  else components ++ [(name, text)]

/-- `InMemoryRegistry.add_comp` and `add_instr` (366-374); `ext` is `.comp` or `.instr`. -/
def memAdd (ext : String) (components : List (String × String)) (name text : String) : List (String × String) :=
  dictSet components (if endsWith (lower name) ext then name else name ++ ext) text

/-- `InMemoryRegistry.__init__` (360). -/
def memInit (components : List (String × String)) : List (String × String) :=
  components.foldl (fun acc p => memAdd ".comp" acc p.1 p.2) []

def Registry.known (r : Registry) (name : String) (ext : Option String) (strict : Bool) : Bool :=
  match r.store with
  | .remote _ files => remoteKnown files name ext strict
  | .dir _ files => dirKnown files name ext
  | .memory c => memKnown c name ext

/-- `fullname`, which may be `None`. -/
def Registry.fullname (r : Registry) (name : String) (ext : Option String) : Except Err (Option String) :=
  match r.store with
  | .remote _ files => (remoteFullname files name ext).map some
  | .dir _ files => (dirFullname files name ext).map some
  | .memory c => .ok (memFullname c name ext)

/-- `path`, relative to where the files are; `InMemoryRegistry` has that of `Registry`, which returns `None` (71-72). -/
def Registry.path (r : Registry) (name : String) (ext : Option String) : Except Err (Option String) :=
  match r.store with
  | .memory _ => .ok none
  | _ => r.fullname name ext

/-- `ordered_registries` (396-398): sorted by priority, highest first; the sort of Python is stable, also if
reversed, as insertion is. -/
def ordered (l : List Registry) : List Registry :=
  l.insertionSort fun a b => b.priority ≤ a.priority

/-! ### Readers -/

/-- The registries used for a request (reader.py 69, 78, 89): all, or those whose name is part of the text `which`. -/
def selected (regs : List Registry) (which : Option String) : List Registry :=
  match which with
  | none => regs
  | some w => regs.filter fun r => isIn r.name w

/-- The registry that `locate`, `contents` and `fullname` take (reader.py 68-95). -/
def chosen (regs : List Registry) (name : String) (which ext : Option String) (strict : Bool) : Option Registry :=
  (selected regs which).find? fun r => r.known name ext strict

/-- `Reader.locate` (68-75). -/
def locate (regs : List Registry) (name : String) (which ext : Option String) (strict : Bool) : Except Err (Option String) :=
  match chosen regs name which ext strict with
  | some r => r.path name ext
  | none => .error .runtimeError

/-- `Registry.contents` (87-89), where `read` reads a file of a registry: `path` must not be `None`. -/
def Registry.contents (read : Registry → String → String) (r : Registry) (name : String) (ext : Option String) :
    Except Err String :=
  match r.store with
  | .memory c => memContents c name ext
  | _ =>
    match r.path name ext with
    | .ok (some p) => .ok (read r p)
    | .ok none => .error .attributeError
    | .error e => .error e

/-- `Reader.contents` (77-86). -/
def contents (read : Registry → String → String) (regs : List Registry) (name : String) (which ext : Option String)
    (strict : Bool) : Except Err String :=
  match chosen regs name which ext strict with
  | some r => r.contents read name ext
  | none => .error .runtimeError

/-- reader.py 143-160: the source of an instrument that is not in the working directory. -/
def instrumentSource (read : Registry → String → String) (regs : List Registry) (name : String) : Except Err String :=
  match locate regs (lastPart (namePlusSuffix name (some ".instr"))) none none false with
  | .ok (some p) => contents read regs (lastPart p) none none false
  | .ok none => .error .attributeError
  | .error e => .error e

/-- `Reader.get_component` (138-141) and the keeping of definitions in `add_component` (113-136): `parse` makes a definition of
the contents. -/
def getComponent {Comp : Type} (read : Registry → String → String) (parse : String → Except Err Comp)
    (regs : List Registry) (known : List (String × Comp)) (name : String) : Except Err (Comp × List (String × Comp)) :=
  match known.lookup name with
  | some c => .ok (c, known)
  | none =>
    match contents read regs name none (some ".comp") true with
    | .error e => .error e
    | .ok text =>
      match parse text with
      | .error e => .error e
      | .ok c => .ok (c, known ++ [(name, c)])

/-! ### SEARCH -/

/-- What the file system says about paths. -/
structure FS where
  exist : String → Bool
  isDir : String → Bool
  resolve : String → String
  /-- The paths below a directory. -/
  below : String → List String

/-- `s.split()`. -/
def words (s : String) : List String :=
  ((s.toList.splitOnP Char.isWhitespace).filter (· ≠ [])).map String.ofList

/-- `registry.root`. -/
def Registry.root? (r : Registry) : Option String :=
  match r.store with
  | .dir root _ => some root
  | _ => none

/-- `registry.pooch.base_url`. -/
def Registry.baseUrl? (r : Registry) : Option String :=
  match r.store with
  | .remote url _ => some url
  | _ => none

/-- The word taken for a path (405), and that taken for a URL (408). -/
def pathWord (ws : List String) : Option String := if ws.length = 2 then ws[1]? else ws[0]?

def urlWord (ws : List String) : Option String := if 2 ≤ ws.length then ws[1]? else ws[0]?

/-- `registries_match` (401-411). -/
def matchesSpec (fs : FS) (r : Registry) (spec : String) : Except Err Bool :=
  match pathWord (words spec), urlWord (words spec) with
  | some p, some u =>
    if fs.exist p ∧ r.root? = some (fs.resolve p) then .ok true
    else if r.baseUrl? = some u then .ok true
    else .ok false
  | _, _ => .error .indexError

/-- 441-444: a text without its quotes. -/
def unquote (s : String) : String :=
  if s.toList.head? = some '"' ∧ s.toList.getLast? = some '"' then String.ofList (s.toList.drop 1).dropLast else s

/-- `registry_from_specification` (414-459): `isUrl` is `simple_url_validator`, `remote` makes the other kinds of registry.
-/
def fromSpec (fs : FS) (isUrl : String → Bool) (remote : String → String → String → Option String → Except Err (Option Registry))
    (spec : String) : Except Err (Option Registry) :=
  match words spec with
  | [] => .ok none
  | w :: ws =>
    let p1 := unquote w
    let p2 := unquote (ws.headD w)
    let p3 := ws[1]?.map unquote
    let p4 := ws[2]?.map unquote
    if fs.exist p2 ∧ fs.isDir p2 then
      .ok (some { name := p1, priority := 10, store := .dir (fs.resolve p2) (fs.below (fs.resolve p2)) })
    else if !isUrl p2 then .ok none
    else
      match p3 with
      | none => .error .typeError
      | some p3 => remote p1 p2 p3 p4

/-- `any(registries_match(reg, spec) for reg in registries)`. -/
def anyMatch (fs : FS) (spec : String) : List Registry → Except Err Bool
  | [] => .ok false
  | r :: rs =>
    match matchesSpec fs r spec with
    | .error e => .error e
    | .ok true => .ok true
    | .ok false => anyMatch fs spec rs

/-- `Reader.handle_search_keyword` (57-63). -/
def handleSearch (fs : FS) (isUrl : String → Bool)
    (remote : String → String → String → Option String → Except Err (Option Registry)) (regs : List Registry) (spec : String) :
    Except Err (List Registry) :=
  match anyMatch fs spec regs with
  | .error e => .error e
  | .ok true => .ok regs
  | .ok false =>
    match fromSpec fs isUrl remote spec with
    | .error e => .error e
    | .ok none => .error .runtimeError
    | .ok (some r) => .ok (r :: regs)

/-- `visitSearchPath` (instr/visitor.py 354-355): the literal is passed with its quotes. -/
def searchPath (fs : FS) (isUrl : String → Bool)
    (remote : String → String → String → Option String → Except Err (Option Registry)) (regs : List Registry) (text : String) :
    Except Err (List Registry) :=
  handleSearch fs isUrl remote regs ("\"" ++ text ++ "\"")

/-- `visitSearchShell` (instr/visitor.py 357-362), for what the command has printed. -/
def searchShell (fs : FS) (isUrl : String → Bool)
    (remote : String → String → String → Option String → Except Err (Option Registry)) (regs : List Registry) (out : String) :
    Except Err (List Registry) :=
  ((out.toList.splitOn '\n').map String.ofList).foldlM (handleSearch fs isUrl remote) regs

end Verif.Registry
