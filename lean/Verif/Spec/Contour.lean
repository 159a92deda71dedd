import Mathlib.Analysis.SpecialFunctions.Trigonometric.Basic
import Mathlib.Algebra.BigOperators.Group.Finset.Basic
import Mathlib.Data.Finset.Prod

/-!
# Specification of the equivalent-latitude profile

The contour value that belongs to a latitude: the area where the field is below the value is the area of the sphere south
of the latitude, as nearly as the cells permit. The definitions do not use anything of the model.
-/

noncomputable section

namespace Falwa.Spec

open Finset

variable (nlat nlon : ℕ) (q area : ℕ → ℕ → ℝ)

/-- Area of the cells with a value below `v`. -/
def areaBelow (v : ℝ) : ℝ := ∑ r ∈ range nlat, ∑ c ∈ range nlon, if q r c < v then area r c else 0

/-- Area of the cells with a value of at most `v`. -/
def areaUpTo (v : ℝ) : ℝ := ∑ r ∈ range nlat, ∑ c ∈ range nlon, if q r c ≤ v then area r c else 0

/-- Area of a sphere of radius `a` south of latitude `y`, in degrees. -/
def southOf (a y : ℝ) : ℝ := 2 * Real.pi * a ^ 2 * (1 + Real.sin (y * Real.pi / 180))

/-- `v` is the contour value for the area `T`: the area below it is at most `T`, and more than `T` together with the cells that
have this value. -/
def IsContour (T v : ℝ) : Prop := areaBelow nlat nlon q area v ≤ T ∧ T < areaUpTo nlat nlon q area v

end Falwa.Spec
