import Mathlib.Data.Real.Basic
import Mathlib.Algebra.BigOperators.Group.Finset.Basic
import Mathlib.Data.Int.Interval

/-! # Means, convergences and time integrals on a latitude circle -/

noncomputable section

namespace Falwa.Spec

open Finset

/-- Mean of the `2 n + 1` columns around column `i` of a circle of `N` columns. -/
def runningMean (N n : ℤ) (x : ℤ → ℝ) (i : ℤ) : ℝ := (∑ s ∈ Icc (-n) n, x ((i + s) % N)) / (2 * n + 1)

/-- Convergence of a zonal flux on a circle of radius `rad`: central difference over the two neighbouring columns. -/
def convergence (N : ℤ) (rad dl : ℝ) (F : ℤ → ℝ) (i : ℤ) : ℝ := -((F ((i + 1) % N) - F ((i - 1) % N)) / (2 * dl * rad))

/-- Integral over the time slots from `m0` to `m1` by the trapezoidal rule. -/
def trapezoid (dt : ℝ) (m0 m1 : ℤ) (T : ℤ → ℝ) : ℝ := ∑ m ∈ Ico m0 m1, dt * ((T m + T (m + 1)) / 2)

end Falwa.Spec
