import Verif.Instr.McplModel

/-!
Model of `Assembler.component` (src/mccode_antlr/assembler/assembler.py 24-93). The instrument is that of `Verif.Instr.McplModel`.
The method changes the instrument and may raise afterwards: the changed instrument is returned with the exception.
-/

namespace Verif.Assembler
open Verif.Orient Verif.Instr
variable {E V X : Type}

/-- The reference given with a position or rotation: `None`, a text, an instance (with its orientation), anything else. -/
inductive RefArg (E : Type)
  | none_
  | text (s : String)
  | inst (r : Ref) (o : Orient E)
  | other

/-- The argument `at` or `rotate`: not given, three values, a pair of values and a reference, or anything else. -/
inductive PlaceArg (E V : Type)
  | absent
  | triple (a b c : V)
  | pair (v : List V) (ref : RefArg E)
  | other

/-- What is needed from elsewhere: `Reader.get_component` with the name of the type found, the flags the reader has afterwards and
the parameters of the type; `check_expr`, which may raise for values that are no expressions. -/
structure World (E V X : Type) where
  read : String → Except Err (TypeOf × List (List Char) × CompType V X)
  expr : V → Except Err (Sc E)

/-- `Instr.get_component` (instr.py 152-158). -/
def getComponent (l : List (FInst E X)) (name : String) : Except Err (FInst E X) :=
  if name = "PREVIOUS" then
    match l.getLast? with
    | some c => .ok c
    | none => .error .indexError
  else match l.find? (fun c => c.name == name) with
    | some c => .ok c
    | none => .error .runtimeError

/-- The reference of `_handle_at_rotate` (31-39). -/
def handleRef (l : List (FInst E X)) : RefArg E → Except Err (Option (Ref × Orient E))
  | .none_ => .ok none
  | .inst r o => .ok (some (r, o))
  | .text s =>
    if s.toLower = "absolute" then .ok none
    else match getComponent l s with
      | .ok c => .ok (some (⟨c.name, true⟩, c.place.orientation))
      | .error e => .error e
  | .other => .error .other

/-- The values (40-43). -/
def handleVec (expr : V → Except Err (Sc E)) : List V → Except Err (Vec (Sc E))
  | [a, b, c] => do .ok ⟨← expr a, ← expr b, ← expr c⟩
  | _ => .error .runtimeError

/-- `_handle_at_rotate` (24-43). -/
noncomputable def handle (expr : V → Except Err (Sc E)) (l : List (FInst E X)) :
    PlaceArg E V → Except Err (Vec (Sc E) × Option (Ref × Orient E))
  | .absent => .ok (⟨.lit 0, .lit 0, .lit 0⟩, none)
  | .triple a b c => do .ok (← handleVec expr [a, b, c], none)
  | .pair v ref => do
    let r ← handleRef l ref
    .ok (← handleVec expr v, r)
  | .other => .error .runtimeError

/-- `_handle_at` (45-47) and `_handle_rotate` (49-51) as used by `component` (84-87), and the instance made of them, with the
orientation of `Instance.__post_init__` (instance.py 99-110). -/
noncomputable def place (w : World E V X) (l : List (FInst E X)) (name : String) (at_ rotate : PlaceArg E V) : Except Err (SInst E) := do
  let (v, ref) ← handle w.expr l at_
  let (a, ref') ← handle w.expr l rotate
  let rref := ref'.or ref
  .ok ⟨name, v, ref.map (·.1), a, rref.map (·.1),
    fromDependentOrientations (ref.map (·.2)) v ((rref.map (·.2)).or (ref.map (·.2))) a⟩

/-- `set_parameters` (instance.py 172-174) on the parameters of an instance. -/
def setAll (t : CompType V X) : List (Named X) → List (String × V) → List (Named X) × Option Err
  | ps, [] => (ps, none)
  | ps, (n, v) :: l =>
    match setParameter t ps n v with
    | (ps, some e) => (ps, some e)
    | (ps, none) => setAll t ps l

/-- The flags (80-83). -/
def mergeFlags (flags new : List (List Char)) : List (List Char) :=
  if new = [] then flags else (flags ++ new).foldl (fun acc x => if x ∈ acc then acc else acc ++ [x]) []

/-- `Assembler.component` (53-93). `kwargs` are the other fields of the instance; its type is not used. -/
noncomputable def component (w : World E V X) (i : FInstr E X) (name typeName : String) (at_ rotate : PlaceArg E V)
    (parameters : List (String × V)) (kwargs : Body X) : FInstr E X × Option Err :=
  match w.read typeName with
  | .error e => (i, some e)
  | .ok (t, flags, ct) =>
    if typeName ≠ t.name then (i, some .runtimeError)
    else
      let i := { i with flags := mergeFlags i.flags flags }
      match place w i.components name at_ rotate with
      | .error e => (i, some e)
      | .ok p =>
        if i.components.any (fun x => x.name == name) then (i, some .runtimeError)
        else
          let (ps, err) := setAll ct kwargs.parameters parameters
          ({ i with components := i.components ++
              [⟨p, { kwargs with type := t, cpu := kwargs.cpu || !t.acc, parameters := ps }⟩] }, err)

end Verif.Assembler
