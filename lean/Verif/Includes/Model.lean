import Mathlib.Data.List.Basic
import Mathlib.Data.List.Dedup

/-!
Model of the ordering of the libraries included by generated programs: `CInclude` and `sort_include_hierarchy`
(src/mccode_antlr/translators/c.py 9-71).

`sorted` with a comparison that need not be an order is left open (`sort` below is any function that permutes its
argument); the algorithm of CPython for short lists is modelled separately. The order in which a Python `set` of strings is
traversed is not fixed either: `roots` are the roots in any order.
-/

namespace Verif.Includes

/-- `CInclude` (9-35); `root` is a parameter of the comparison, since all objects have the same. -/
structure CInclude where
  parent : String
  name : String
  order : Nat
  content : String := ""
  deriving DecidableEq, Repr

/-- `CInclude.__lt__` (23-35). -/
def lt (root : String) (a b : CInclude) : Bool :=
  if a.parent = b.parent then b.order < a.order
  else if root ≠ "" ∧ a.parent = root then true
  else if root ≠ "" ∧ b.parent = root then false
  else if a.parent = b.name then false
  else if b.parent = a.name then true
  else a.name < b.name

/-- 50-54: of the sorted includes, the first of each name. -/
def firstOfEach (used : List String) : List CInclude → List CInclude
  | [] => []
  | i :: is => if i.name ∈ used then firstOfEach used is else i :: firstOfEach (used ++ [i.name]) is

/-- 57-64: `[index for index, name in enumerate(order) if name == x][0]` compared, for one include. -/
def contradictsOne (order : List String) (i : CInclude) : Bool :=
  i.parent ∈ order && i.name ∈ order && order.idxOf i.parent < order.idxOf i.name

def contradicts (order : List String) (incs : List CInclude) : Bool := incs.any (contradictsOne order)

/-- One round of the loop over the roots (45-67): the order found, if it is kept. -/
def attempt (sort : String → List CInclude → List CInclude) (incs : List CInclude) (root : String) :
    Option (List CInclude) :=
  let output := firstOfEach [] (sort root incs)
  if contradicts (output.map (·.name)) incs then none else some output

/-- 43: the parents that are not themselves included. -/
def isRoot (incs : List CInclude) (r : String) : Prop := r ∈ incs.map (·.parent) ∧ r ∉ incs.map (·.name)

/-- `sort_include_hierarchy` (38-71): the order of the first root kept; an exception (`none`) if there is none. -/
def sortIncludes (sort : String → List CInclude → List CInclude) (roots : List String) (incs : List CInclude) :
    Option (List CInclude) :=
  if incs.length = 0 then some []
  else (roots.filterMap (attempt sort incs)).head?

/-! ### The sort of CPython -/

/-- Binary search for the place of `x` among the first `r` elements, as `binarysort` in Objects/listobject.c. -/
def insertPos {α : Type} (ltb : α → α → Bool) (x : α) (l : List α) : Nat → Nat → Nat → Nat
  | 0, lo, _ => lo
  | fuel + 1, lo, hi =>
    if lo < hi then
      match l[lo + (hi - lo) / 2]? with
      | some y => if ltb x y then insertPos ltb x l fuel lo (lo + (hi - lo) / 2) else insertPos ltb x l fuel (lo + (hi - lo) / 2 + 1) hi
      | none => lo
    else lo

def insertBin {α : Type} (ltb : α → α → Bool) (l : List α) (x : α) : List α :=
  l.insertIdx (insertPos ltb x l (l.length + 1) 0 l.length) x

/-- The length of the run at the start of a list, after its first element (`count_run`); `down` for strictly descending
runs. -/
def runLength {α : Type} (ltb : α → α → Bool) (down : Bool) : α → List α → Nat
  | _, [] => 0
  | a, b :: l => if ltb b a = down then runLength ltb down b l + 1 else 0

/-- `list.sort` for fewer than 64 elements. -/
def shortSort {α : Type} (ltb : α → α → Bool) : List α → List α
  | a :: b :: l =>
    let down := ltb b a
    let n := 1 + runLength ltb down a (b :: l)
    let run := (a :: b :: l).take n
    ((a :: b :: l).drop n).foldl (insertBin ltb) (if down then run.reverse else run)
  | l => l

/-- `sorted(includes, reverse=True)` with the given root, for fewer than 64 includes. -/
def pySort (root : String) (incs : List CInclude) : List CInclude := (shortSort (lt root) incs.reverse).reverse

end Verif.Includes
