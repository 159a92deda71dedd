import Mathlib.Analysis.SpecialFunctions.Trigonometric.Basic
import Mathlib.MeasureTheory.Integral.Bochner.Set
import Mathlib.MeasureTheory.Constructions.BorelSpace.Basic
import Mathlib.MeasureTheory.Measure.Lebesgue.Basic
import Verif.Spec.Area

/-!
# The reference value of a latitude, on the sphere

The reference state of Nakamura and Zhu (2010): the value of a latitude is the one whose contour encloses the area of the polar cap.
`q φ l` is the field as a function of latitude and longitude in radians. The definitions do not use anything of the model.
-/

noncomputable section

namespace Falwa.Spec

/-- The latitudes from `s` to `n`, all longitudes. -/
def band (s n : ℝ) : Set (ℝ × ℝ) := Set.Icc s n ×ˢ Set.Icc 0 (2 * Real.pi)

open Classical in
/-- Area of the part of a band where the field is at most `v`, on a sphere of radius `a`. -/
def areaAtMost (a : ℝ) (q : ℝ → ℝ → ℝ) (s n v : ℝ) : ℝ :=
  ∫ p in band s n, if q p.1 p.2 ≤ v then a ^ 2 * Real.cos p.1 else 0

/-- `v` is the value whose contour encloses the area `T`: regions of smaller values are smaller and regions of greater values are
larger. -/
structure Encloses (a : ℝ) (q : ℝ → ℝ → ℝ) (s n T v : ℝ) : Prop where
  below : ∀ w, w < v → areaAtMost a q s n w < T
  above : ∀ w, v < w → T < areaAtMost a q s n w

/-- Area of the sphere south of latitude `φ`. -/
def southCap (a φ : ℝ) : ℝ := 2 * Real.pi * a ^ 2 * (1 + Real.sin φ)

/-- The points from pole to pole where the field is greatest. -/
def highest (q : ℝ → ℝ → ℝ) : Set (ℝ × ℝ) :=
  {p ∈ band (-(Real.pi / 2)) (Real.pi / 2) | ∀ p' ∈ band (-(Real.pi / 2)) (Real.pi / 2), q p'.1 p'.2 ≤ q p.1 p.2}

/-- The points where it is smallest. -/
def lowest (q : ℝ → ℝ → ℝ) : Set (ℝ × ℝ) :=
  {p ∈ band (-(Real.pi / 2)) (Real.pi / 2) | ∀ p' ∈ band (-(Real.pi / 2)) (Real.pi / 2), q p.1 p.2 ≤ q p'.1 p'.2}

/-- Longitude of column `i`. -/
def SphereGrid.longitude (G : SphereGrid) (i : ℤ) : ℝ := 2 * Real.pi / (G.m : ℝ) * ((i : ℝ) - 1)

/-- The values `f` on the grid are those of the field `q`, up to an error `e`. -/
def SphereGrid.Samples (G : SphereGrid) (q : ℝ → ℝ → ℝ) (e : ℝ) (f : ℤ → ℤ → ℝ) : Prop :=
  ∀ i j, G.Mem i j → |f i j - q (G.latitude j) (G.longitude i)| ≤ e

end Falwa.Spec
