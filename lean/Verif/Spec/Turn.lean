import Mathlib.Analysis.SpecialFunctions.Trigonometric.Basic

/-!
# Rotations of the sphere

A field on the sphere is given by a function of the three coordinates of a point of the unit sphere; the third axis goes through the poles. Nothing of
the model is used.
-/

noncomputable section

namespace Falwa.Spec

open Real

/-- The point at a latitude and a longitude. -/
def spherePoint (φ l : ℝ) : ℝ × ℝ × ℝ := (cos φ * cos l, cos φ * sin l, sin φ)

/-- The field as a function of latitude and longitude. -/
def onSphere (f : ℝ × ℝ × ℝ → ℝ) (φ l : ℝ) : ℝ := f (spherePoint φ l)

/-- Rotation about the axis through the poles. -/
def turnPolar (α : ℝ) (p : ℝ × ℝ × ℝ) : ℝ × ℝ × ℝ := (p.1 * cos α - p.2.1 * sin α, p.1 * sin α + p.2.1 * cos α, p.2.2)

/-- Rotation about an axis through the equator. -/
def turnTilt (β : ℝ) (p : ℝ × ℝ × ℝ) : ℝ × ℝ × ℝ := (p.1, p.2.1 * cos β - p.2.2 * sin β, p.2.1 * sin β + p.2.2 * cos β)

/-- Rotation with the Euler angles `α`, `β`, `γ`. -/
def turn (α β γ : ℝ) (p : ℝ × ℝ × ℝ) : ℝ × ℝ × ℝ := turnPolar α (turnTilt β (turnPolar γ p))

end Falwa.Spec

end
