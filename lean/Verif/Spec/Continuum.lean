import Mathlib.Analysis.SpecialFunctions.Trigonometric.Basic
import Mathlib.MeasureTheory.Integral.IntervalIntegral.Basic

/-!
# Local wave activity as an integral

Huang and Nakamura (2016), equation (13), along one meridian: `q` is the vorticity as a function of latitude (radians), `Q` the
reference value of the latitude `φ`, the analysed latitudes are `φs ≤ x ≤ φn`. The definitions do not use anything of the model.
-/

noncomputable section

namespace Falwa.Spec

/-- Integral of `Q - q` over the latitudes north of `φ` with `q < Q`, plus the integral of `q - Q` over those south of `φ` with `q > Q`,
both weighted with the length element `a cos x`. -/
def meridionalWaveActivity (a : ℝ) (q : ℝ → ℝ) (Q φs φn φ : ℝ) : ℝ :=
  (∫ x in φ..φn, max (Q - q x) 0 * (a * Real.cos x)) + ∫ x in φs..φ, max (q x - Q) 0 * (a * Real.cos x)

/-- `q` changes by at most `L` per radian between the latitudes `φs` and `φn`. -/
def GradientBound (q : ℝ → ℝ) (L φs φn : ℝ) : Prop :=
  ∀ x ∈ Set.Icc φs φn, ∀ y ∈ Set.Icc φs φn, |q x - q y| ≤ L * |x - y|

end Falwa.Spec
