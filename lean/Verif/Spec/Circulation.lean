import Verif.Spec.Rearrange

/-!
# Circulation

Kelvin's circulation of the reference state. `q φ l` is the absolute vorticity (or QGPV) as a function of latitude and longitude in radians.
The definitions do not use anything of the model.
-/

noncomputable section

namespace Falwa.Spec

/-- Area of the sphere north of latitude `φ`. -/
def northCap (a φ : ℝ) : ℝ := 2 * Real.pi * a ^ 2 * (1 - Real.sin φ)

open Classical in
/-- Area of the part of the sphere where the field is greater than `v`. -/
def areaAbove (a : ℝ) (q : ℝ → ℝ → ℝ) (v : ℝ) : ℝ :=
  ∫ p in band (-(Real.pi / 2)) (Real.pi / 2), if v < q p.1 p.2 then a ^ 2 * Real.cos p.1 else 0

open Classical in
/-- Integral of the field over the part of the sphere where it is greater than `v`: the circulation around its contour. -/
def circulationAbove (a : ℝ) (q : ℝ → ℝ → ℝ) (v : ℝ) : ℝ :=
  ∫ p in band (-(Real.pi / 2)) (Real.pi / 2), if v < q p.1 p.2 then q p.1 p.2 * (a ^ 2 * Real.cos p.1) else 0

/-- Integral of the field over a region of area `T` that consists of the points with values greater than `v` and of points with the value
`v`: the circulation of the reference state around a polar cap of area `T`. -/
def refCirculation (a : ℝ) (q : ℝ → ℝ → ℝ) (T v : ℝ) : ℝ := circulationAbove a q v + v * (T - areaAbove a q v)

/-- Circulation of a zonal wind `w` at latitude `φ`, as seen from outside of the planet with rotation rate `om`. -/
def kelvin (a om φ w : ℝ) : ℝ := 2 * Real.pi * a * Real.cos φ * (w + om * a * Real.cos φ)

end Falwa.Spec
