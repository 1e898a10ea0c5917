/-!
Model of `DataType` (src/mccode_antlr/common/expression.py, lines 107-148).
-/

namespace Verif.DT

/-- expression.py 107-111. -/
inductive DataType
  | undefined
  | float
  | int
  | str
  deriving DecidableEq, Repr

/-- expression.py 113-118. -/
def DataType.compatible (a b : DataType) : Bool :=
  if a = .undefined ∨ b = .undefined ∨ a = b then true
  else if (a = .float ∧ b = .int) ∨ (a = .int ∧ b = .float) then true
  else false

/-- expression.py 121-130 (`__add__`; `__sub__` and `__mul__` are the same function, 132-133). -/
def DataType.add (a b : DataType) : DataType :=
  if a = .undefined then b
  else if b = .undefined then a
  else if a = b then a
  else if (a = .float ∧ b = .int) ∨ (a = .int ∧ b = .float) then .float
  else .str

/-- expression.py 135-138: `none` is the `RuntimeError`. -/
def DataType.truediv (a b : DataType) : Option DataType :=
  if a = .str ∨ b = .str then none else some .float

/-- expression.py 140-141. -/
def DataType.floordiv (_ _ : DataType) : DataType := .int

end Verif.DT
