import Mathlib.Algebra.Polynomial.Derivative
import Mathlib.Algebra.BigOperators.Group.Finset.Basic
import Mathlib.Data.Real.Basic

/-!
# What is assumed of `scipy.interpolate.UnivariateSpline`

Source: `/repo/src/falwa/oopinterface.py` lines 258-261: `UnivariateSpline(x=self._plev_to_height, y=t0_s)` and its `derivative()`.

The call leaves `k`, `w` and `s` at their defaults: cubic, weights one, and smoothing factor `s = len(w)`, the number of points. FITPACK
(`fpcurf`) first fits one cubic by least squares, and returns it if the sum of its squared residuals is not larger than `s`. Otherwise it
adds knots, until that sum is within one per mille of `s`. The spline itself is not modelled; this is the contract used for it.
-/

noncomputable section

namespace Falwa

open Finset

/-- Sum of the squared residuals of values `y` from a function at the first `n` nodes `x`. -/
def sqResidual (n : ℕ) (x y : ℕ → ℝ) (f : ℝ → ℝ) : ℝ := ∑ i ∈ range n, (y i - f (x i)) ^ 2

/-- The least squares cubic. -/
structure BestCubic (n : ℕ) (x y : ℕ → ℝ) (p : Polynomial ℝ) : Prop where
  degree : p.natDegree ≤ 3
  best : ∀ q : Polynomial ℝ, q.natDegree ≤ 3 → sqResidual n x y p.eval ≤ sqResidual n x y q.eval

/-- Contract of `UnivariateSpline(x, y)` (`S`) and of its derivative (`S'`): number of points, nodes, values, argument. `close` is the
case of normal termination; FITPACK warns otherwise. -/
structure SmoothingSpline (S S' : ℕ → (ℕ → ℝ) → (ℕ → ℝ) → ℝ → ℝ) : Prop where
  cubic : ∀ (n : ℕ) (x y : ℕ → ℝ) (p : Polynomial ℝ), 4 ≤ n → (∀ i j, i < j → j < n → x i < x j) → BestCubic n x y p →
    sqResidual n x y p.eval ≤ n → ∀ t, S n x y t = p.eval t ∧ S' n x y t = p.derivative.eval t
  close : ∀ (n : ℕ) (x y : ℕ → ℝ), 4 ≤ n → (∀ i j, i < j → j < n → x i < x j) → sqResidual n x y (S n x y) ≤ 1001 / 1000 * n

end Falwa
