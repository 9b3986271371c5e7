import Mathlib.Algebra.Field.Basic
import Mathlib.Algebra.Order.Field.Basic

/-!
Shared vocabulary of the model: Python exceptions as values, member types and
end-force tuples.
-/

namespace PyCBA

/-- The Python exceptions the modelled code can raise (only the class is kept,
not the message). -/
inductive PyErr where
  | valueError
  | attributeError
  | indexError
  | keyError
  | typeError
  | notImplemented
  | unboundLocal
  | assertion
  | arithmetic
  deriving DecidableEq, Repr

/-- `src/pycba/types.py` 14-36: the four member types, with their integer codes
1, 2, 3, 4. -/
inductive EType where
  | FF
  | FP
  | PF
  | PP
  deriving DecidableEq, Repr

/-- `src/pycba/types.py` 72-76: the named tuple of consistent nodal loads. -/
@[ext] structure CNL (K : Type*) where
  Va : K
  Ma : K
  Vb : K
  Mb : K
  deriving DecidableEq, Repr

end PyCBA
