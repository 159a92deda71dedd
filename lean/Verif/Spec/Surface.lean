import Mathlib.MeasureTheory.Integral.IntervalIntegral.Basic
import Mathlib.Analysis.SpecialFunctions.Trigonometric.Basic

/-!
# Surface wave activity of a part of the sphere that is colder toward its northern end

`Θ` is the reference potential temperature of latitude `φ`, the part reaches from `s` to `n`.
-/

noncomputable section

namespace Falwa.Spec

/-- Warm air (`Θ < t`) north of `φ` and cold air (`t < Θ`) south of `φ`, weighted with the anomaly and with the length element `a cos x`. -/
def surfaceWaveActivity (a : ℝ) (t : ℝ → ℝ) (Θ s n φ : ℝ) : ℝ :=
  (∫ x in φ..n, max (t x - Θ) 0 * (a * Real.cos x)) + ∫ x in s..φ, max (Θ - t x) 0 * (a * Real.cos x)

end Falwa.Spec
