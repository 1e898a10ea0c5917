import Mathlib.Data.List.Sort
import Mathlib.Data.String.Basic

/-!
Model of src/mccode_antlr/io/hdf5.py for everything but instruments, instances and groups of instances (see `Instr.lean`) and
remote registries.

Values are Python objects: atoms (numbers, texts, ...), sequences, dictionaries and objects of the classes listed in
`HDF5IO._handlers` (404-453), given by their fields. A file is a tree of groups with attributes. Of numbers only the integers
are told apart, since large ones cannot be stored; that numpy types compare equal to those of Python is taken for granted.
Enumerations are stored by name. Keys of dictionaries with `/` or empty ones, for which h5py makes other groups, are not
modelled.
-/

namespace Verif.Hdf5

inductive Err
  | keyError
  | valueError
  | typeError
  | attributeError
  | runtimeError
  deriving DecidableEq, Repr

/-- A value stored as such. -/
inductive Atom
  | str (s : String)
  | int (z : Int)
  | float (text : String)
  | bool (b : Bool)
  deriving DecidableEq, Repr

/-- `type(x).__name__`. -/
def Atom.type : Atom → String
  | .str _ => "str"
  | .int _ => "int"
  | .float _ => "float"
  | .bool _ => "bool"

/-- Integers that fit into 64 bits, with or without sign, can be stored. -/
def Atom.storable : Atom → Bool
  | .int z => decide (-2 ^ 63 ≤ z ∧ z < 2 ^ 64)
  | _ => true

inductive Val
  | none
  | atom (a : Atom)
  | seq (tuple : Bool) (items : List Val)
  | dict (keys : List String) (values : List Val)
  | obj (cls : String) (names : List String) (values : List Val)

/-- A group of a file. `header` is the version and the type name (`_write_header`, 12-14); the length of a sequence is the
attribute `length`. -/
inductive Node
  | mk (header : Option (String × String)) (attrs : List (String × Atom)) (entry : Option Atom) (names : List String)
      (kids : List Node)

/-! ### Names of the entries of a sequence -/

def digit (n : Nat) : Char := Char.ofNat (48 + n % 10)

/-- `str(n)`. -/
def dec (n : Nat) : List Char :=
  if n < 10 then [digit n] else dec (n / 10) ++ [digit n]

/-- `f't{idx:0{pad}d}'` (`TupleIO.entry_name`, 346-347), also used by `ListIO` (335, 341). -/
def entryName (pad idx : Nat) : String :=
  String.ofList ('t' :: (List.replicate (pad - (dec idx).length) '0' ++ dec idx))

/-- `pad = len(str(len(data)))` (318, 326). -/
def padOf (count : Nat) : Nat := (dec count).length

/-! ### Classes -/

/-- What is stored of a class, and the fields its constructor takes with their defaults. -/
structure Schema where
  attrs : List String := []
  optional : List String := []
  required : List String := []
  fields : List (String × Option Val)

def emptyTuple : Val := .seq true []

def needed (names : List String) : List (String × Option Val) := names.map fun n => (n, .none)

def partNames : List String := ["xx", "xy", "xz", "xt", "yx", "yy", "yz", "yt", "zx", "zy", "zz", "zt"]

def rotationNames : List String := ["xx", "xy", "xz", "yx", "yy", "yz", "zx", "zy", "zz"]

/-- `RotationX`, `RotationY`, `RotationZ`: only `v` is stored (`_seitz_part_io`, 220-237), also the constructor takes `degrees`
(instr/orientation.py 606-609). -/
def rotationPart : Schema where
  required := ["v"]
  fields := [("v", Option.none), ("degrees", some (.atom (.bool true)))]

/-- `HDF5IO._handlers` (404-453) and the fields of the classes: common/parameters.py, common/metadata.py, common/block.py,
comp/comp.py, instr/orientation.py, instr/jump.py, reader/registry.py 279-284, common/expression.py 638-651 and 1023-1025.
The named tuples (240-258) are read like classes all of whose fields are required. -/
def schema : String → Option Schema
  | "InstrumentParameter" => some
    { attrs := ["name", "unit"], required := ["value"], fields := needed ["name", "unit", "value"] }
  | "MetaData" => some
    { attrs := ["name", "mimetype", "value"], required := ["source"],
      fields := needed ["source", "name", "mimetype", "value"] }
  | "DataSource" => some { attrs := ["name", "type_name"], fields := needed ["name", "type_name"] }
  | "RawC" => some
    { attrs := ["filename", "line"], required := ["source"], optional := ["translated"],
      fields := needed ["filename", "line", "source"] ++ [("translated", some .none)] }
  | "LocalRegistry" => some
    { attrs := ["name", "root"], fields := needed ["name", "root"] ++ [("priority", some (.atom (.int 10)))] }
  | "ComponentParameter" => some { attrs := ["name"], required := ["value"], fields := needed ["name", "value"] }
  | "Comp" => some
    { attrs := ["name", "category", "dependency", "acc"],
      optional := ["define", "setting", "output", "metadata", "share", "user", "declare", "initialize", "trace", "save",
        "final", "display"],
      fields := [("name", some .none), ("category", some .none), ("define", some emptyTuple), ("setting", some emptyTuple),
        ("output", some emptyTuple), ("metadata", some emptyTuple), ("dependency", some .none),
        ("acc", some (.atom (.bool true))), ("share", some emptyTuple), ("user", some emptyTuple),
        ("declare", some emptyTuple), ("initialize", some emptyTuple), ("trace", some emptyTuple),
        ("save", some emptyTuple), ("final", some emptyTuple), ("display", some emptyTuple)] }
  | "Orient" => some
    { attrs := ["_degrees"], optional := ["_position", "_rotation"],
      fields := [("_position", some (.obj "Parts" ["_stack"] [emptyTuple])),
        ("_rotation", some (.obj "Parts" ["_stack"] [emptyTuple])), ("_degrees", some (.atom (.bool true)))] }
  | "Parts" => some { optional := ["_stack"], fields := [("_stack", some emptyTuple)] }
  | "Part" => some { optional := ["_axes"], fields := needed ["_axes"] }
  | "RotationX" => some rotationPart
  | "RotationY" => some rotationPart
  | "RotationZ" => some rotationPart
  | "TranslationPart" => some { required := ["v"], fields := needed ["v"] }
  | "Seitz" => some { required := partNames, fields := needed partNames }
  | "Rotation" => some { required := rotationNames, fields := needed rotationNames }
  | "Matrix" => some { required := rotationNames, fields := needed rotationNames }
  | "Vector" => some { required := ["x", "y", "z"], fields := needed ["x", "y", "z"] }
  | "Angles" => some { required := ["x", "y", "z"], fields := needed ["x", "y", "z"] }
  | "Jump" => some
    { attrs := ["target", "relative_target", "iterate", "absolute_target"], required := ["condition"],
      fields := needed ["target", "relative_target", "iterate", "condition"] ++
        [("absolute_target", some (.atom (.int (-1))))] }
  | "Value" => some
    { attrs := ["object_type", "data_type", "shape_type"], optional := ["value"],
      fields := needed ["object_type", "data_type", "shape_type"] ++ [("value", some .none)] }
  | "Expr" => some { optional := ["expr"], fields := needed ["expr"] }
  | "TrinaryOp" => some
    { attrs := ["op", "style", "data_type"], required := ["first", "second", "third"],
      fields := needed ["op", "style", "data_type", "first", "second", "third"] }
  | "BinaryOp" => some
    { attrs := ["op", "style", "data_type"], required := ["left", "right"],
      fields := needed ["op", "style", "data_type", "left", "right"] }
  | "UnaryOp" => some
    { attrs := ["op", "style", "data_type"], required := ["value"],
      fields := needed ["op", "style", "data_type", "value"] }
  | _ => Option.none

/-! ### Saving -/

/-- A group made for a value that has no handler (`HDF5IO.save`, 456-461): nothing is written. -/
def emptyNode : Node := .mk .none [] .none [] []

/-- The attributes that `_standard_save` (45-53) writes: those that are not `None`. -/
def saveAttrs (data : List (String × Val)) : List String → Except Err (List (String × Atom))
  | [] => .ok []
  | n :: l =>
    match data.lookup n with
    | .none => .error .attributeError
    | some .none => saveAttrs data l
    | some (.atom a) =>
      if a.storable then
        match saveAttrs data l with
        | .error e => .error e
        | .ok r => .ok ((n, a) :: r)
      else .error .typeError
    | some _ => .error .typeError

/-- The groups that `_standard_save` makes; `saved` are the groups for the values of the fields. -/
def saveFields (data : List (String × Val × Except Err Node)) : List String → Except Err (List (String × Node))
  | [] => .ok []
  | n :: l =>
    match data.lookup n with
    | .none => .error .attributeError
    | some (.none, _) => saveFields data l
    | some (_, .error e) => .error e
    | some (_, .ok node) =>
      match saveFields data l with
      | .error e => .error e
      | .ok r => .ok ((n, node) :: r)

/-- All results, or the first error. -/
def allOk {α : Type} : List (Except Err α) → Except Err (List α)
  | [] => .ok []
  | .error e :: _ => .error e
  | .ok a :: l =>
    match allOk l with
    | .error e => .error e
    | .ok r => .ok (a :: r)

def seqType (tuple : Bool) : String := if tuple then "tuple" else "list"

/-- `ListIO.save` and `TupleIO.save` (338-341, 355-358). -/
def saveSeq (ver : String) (tuple : Bool) (kids : List (Except Err Node)) : Except Err Node :=
  match allOk kids with
  | .error e => .error e
  | .ok kids =>
    .ok (.mk (some (ver, seqType tuple)) [("length", .int kids.length)] .none
      ((List.range kids.length).map (entryName (padOf kids.length))) kids)

/-- `DictIO.save` (368-371). -/
def saveDict (ver : String) (keys : List String) (kids : List (Except Err Node)) : Except Err Node :=
  match allOk kids with
  | .error e => .error e
  | .ok kids => .ok (.mk (some (ver, "dict")) [] .none keys kids)

/-- `_standard_save` (45-53) for a class with a handler. -/
def saveObj (ver cls : String) (names : List String) (values : List Val) (saved : List (Except Err Node)) :
    Except Err Node :=
  match schema cls with
  | .none => .ok emptyNode
  | some s =>
    match saveAttrs (names.zip values) s.attrs with
    | .error e => .error e
    | .ok attrs =>
      match saveFields (names.zip (values.zip saved)) (s.optional ++ s.required) with
      | .error e => .error e
      | .ok fields => .ok (.mk (some (ver, cls)) attrs .none (fields.map (·.1)) (fields.map (·.2)))

mutual
/-- `HDF5IO.save` (456-461) into a new group. -/
def save (ver : String) : Val → Except Err Node
  | .none => .ok emptyNode
  | .atom a => if a.storable then .ok (.mk (some (ver, a.type)) [] (some a) [] []) else .error .typeError
  | .seq tuple items => saveSeq ver tuple (saveEach ver items)
  | .dict keys values => saveDict ver keys (saveEach ver values)
  | .obj cls names values => saveObj ver cls names values (saveEach ver values)

def saveEach (ver : String) : List Val → List (Except Err Node)
  | [] => []
  | v :: l => save ver v :: saveEach ver l
end

/-! ### Loading -/

/-- The entries of a sequence (334-335, 351-352). -/
def readEntries (found : List (String × Except Err Val)) (pad : Nat) : List Nat → Except Err (List Val)
  | [] => .ok []
  | i :: l =>
    match found.lookup (entryName pad i) with
    | .none => .error .keyError
    | some (.error e) => .error e
    | some (.ok v) =>
      match readEntries found pad l with
      | .error e => .error e
      | .ok r => .ok (v :: r)

/-- `_iterable_read_setup` and the reading of a sequence (314-319, 333-335, 350-352). -/
def loadSeq (tuple : Bool) (attrs : List (String × Atom)) (found : List (String × Except Err Val)) : Except Err Val :=
  match attrs.lookup "length" with
  | some (.int z) =>
    match readEntries found (padOf z.toNat) (List.range z.toNat) with
    | .error e => .error e
    | .ok l => .ok (.seq tuple l)
  | _ => .error .keyError

/-- `DictIO.load` (362-365): the entries of a group come in the order of their names. -/
def loadDict (found : List (String × Except Err Val)) : Except Err Val :=
  let sorted := found.insertionSort fun a b => a.1 ≤ b.1
  match allOk (sorted.map (·.2)) with
  | .error e => .error e
  | .ok l => .ok (.dict (sorted.map (·.1)) l)

/-- The values of `_standard_read` (29-42), without attributes, where `found` are the groups. -/
def readFields (found : List (String × Except Err Val)) (required : Bool) : List String → Except Err (List (String × Val))
  | [] => .ok []
  | n :: l =>
    match found.lookup n with
    | .none => if required then .error .valueError else readFields found required l
    | some (.error e) => .error e
    | some (.ok v) =>
      match readFields found required l with
      | .error e => .error e
      | .ok r => .ok ((n, v) :: r)

/-- `group.attrs.get(name)`. -/
def attrVal (attrs : List (String × Atom)) (n : String) : Val :=
  match attrs.lookup n with
  | .none => .none
  | some a => .atom a

/-- `real_type(**values)`: fields that are not given have their default. -/
def construct (given : List (String × Val)) : List (String × Option Val) → Except Err (List Val)
  | [] => .ok []
  | (n, d) :: l =>
    match (given.lookup n).or d with
    | .none => .error .typeError
    | some v =>
      match construct given l with
      | .error e => .error e
      | .ok r => .ok (v :: r)

/-- `_standard_read` (29-42) and the constructor. A required value that is `None` is an error (40-41). -/
def readObj (s : Schema) (attrs : List (String × Atom)) (found : List (String × Except Err Val)) :
    Except Err (List Val) :=
  match readFields found false s.optional with
  | .error e => .error e
  | .ok opt =>
    match readFields found true s.required with
    | .error e => .error e
    | .ok req =>
      if req.any fun p => match p.2 with | .none => true | _ => false then .error .valueError
      else construct (s.attrs.map (fun n => (n, attrVal attrs n)) ++ opt ++ req) s.fields

/-- Loading of an object. For operations (262-285) the data type is computed again, by `dataType` from the fields, and
compared. -/
def loadObj (dataType : String → List Val → Option Atom) (cls : String) (attrs : List (String × Atom))
    (found : List (String × Except Err Val)) : Except Err Val :=
  match schema cls with
  | .none => .ok .none
  | some s =>
    match readObj s attrs found with
    | .error e => .error e
    | .ok values =>
      if cls = "TrinaryOp" ∨ cls = "BinaryOp" ∨ cls = "UnaryOp" then
        if dataType cls values = attrs.lookup "data_type" then .ok (.obj cls (s.fields.map (·.1)) values)
        else .error .valueError
      else .ok (.obj cls (s.fields.map (·.1)) values)

/-- `HDF5IO.load` (463-469) and `_check_header` (17-26): the version must be the same. -/
def loadNode (ver : String) (dataType : String → List Val → Option Atom) (header : Option (String × String))
    (attrs : List (String × Atom)) (entry : Option Atom) (found : List (String × Except Err Val)) : Except Err Val :=
  match header with
  | .none => .error .keyError
  | some (v, type) =>
    if v ≠ ver then .error .runtimeError
    else if type = "tuple" then loadSeq true attrs found
    else if type = "list" then loadSeq false attrs found
    else if type = "dict" then loadDict found
    else if type = "str" ∨ type = "int" ∨ type = "float" ∨ type = "bool" then
      match entry with
      | .none => .error .keyError
      | some a => .ok (.atom a)
    else loadObj dataType type attrs found

mutual
/-- `HDF5IO.load` (463-469). -/
def load (ver : String) (dataType : String → List Val → Option Atom) : Node → Except Err Val
  | .mk header attrs entry names kids => loadNode ver dataType header attrs entry (names.zip (loadEach ver dataType kids))

def loadEach (ver : String) (dataType : String → List Val → Option Atom) : List Node → List (Except Err Val)
  | [] => []
  | n :: l => load ver dataType n :: loadEach ver dataType l
end

end Verif.Hdf5
