import Mathlib.Analysis.Calculus.Deriv.Basic

/-!
# Smooth functions with a known second derivative

Used to state that finite differences approximate derivatives. The definitions do not use anything of the model.
-/

namespace Falwa.Spec

/-- `f'` and `f''` are the first two derivatives of `f`, and `f''` changes by at most `D` per unit. -/
structure Smooth (f f' f'' : ℝ → ℝ) (D : ℝ) : Prop where
  deriv1 : ∀ x, HasDerivAt f (f' x) x
  deriv2 : ∀ x, HasDerivAt f' (f'' x) x
  bound : ∀ x y, |f'' x - f'' y| ≤ D * |x - y|

end Falwa.Spec
