import Mathlib.Analysis.SpecialFunctions.Trigonometric.Basic
import Mathlib.Analysis.Calculus.Deriv.Basic
import Mathlib.MeasureTheory.Integral.IntervalIntegral.Basic

/-!
# Winds and absolute vorticity of one layer on the rotating sphere

Functions of latitude and longitude (radians). Nothing of the model is used.
-/

noncomputable section

namespace Falwa.Spec

open Real

/-- `q` is the absolute vorticity of the winds `U`, `V` on a sphere of radius `a` that rotates with the rate `om`:
`q = 2 om sin φ + (∂V/∂λ - ∂(U cos φ)/∂φ) / (a cos φ)`. -/
structure AbsoluteVorticity (a om : ℝ) (U V q : ℝ → ℝ → ℝ) : Prop where
  curl : ∃ dU dV : ℝ → ℝ → ℝ, (∀ φ l, HasDerivAt (fun x => U x l * cos x) (dU φ l) φ) ∧ (∀ φ l, HasDerivAt (fun x => V φ x) (dV φ l) l) ∧
    (Continuous fun p : ℝ × ℝ => dU p.1 p.2) ∧ (Continuous fun p : ℝ × ℝ => dV p.1 p.2) ∧
    ∀ φ l, -(π / 2) ≤ φ → φ ≤ π / 2 → a * cos φ * (q φ l - 2 * om * sin φ) = dV φ l - dU φ l
  continuous : Continuous fun p : ℝ × ℝ => q p.1 p.2
  wind : Continuous fun p : ℝ × ℝ => U p.1 p.2
  periodic : ∀ φ l, V φ (l + 2 * π) = V φ l

/-- Mean along a circle of latitude. -/
def longitudeMean (f : ℝ → ℝ) : ℝ := (∫ l in (0 : ℝ)..2 * π, f l) / (2 * π)

end Falwa.Spec

end
