import Mathlib.Algebra.BigOperators.Group.Finset.Basic
import Mathlib.Algebra.Order.Field.Basic
import Mathlib.Analysis.SpecialFunctions.Trigonometric.Inverse
import Mathlib.Data.Finset.Lattice.Fold
import Mathlib.Data.Nat.Find

/-!
# Python exceptions as values

Source: the `raise` statements in `/repo/src/falwa`, and the exceptions of numpy and f2py where a model mentions them.
-/

namespace Falwa

/-- What a Python call can do besides returning: the exceptions that matter here. -/
inductive PyError where
  | typeError
  | valueError
  | attributeError
  | keyError
  | invalidCallOfSHem
  | indexError
  | assertionError
  | otherError
  deriving DecidableEq, Repr

end Falwa
