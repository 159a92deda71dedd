import Mathlib.Analysis.SpecialFunctions.Trigonometric.Basic
import Mathlib.Data.Int.Interval
import Mathlib.Algebra.BigOperators.Group.Finset.Basic

/-! Area on a latitude-longitude grid, written independently of the Fortran code. -/

noncomputable section

namespace Falwa.Spec

open Real Finset Classical

/-- Grid with `m` longitudes and `n` latitudes from pole to pole, on a sphere of radius `a`. -/
structure SphereGrid where
  /-- number of longitudes -/
  m : ℤ
  /-- number of latitudes, poles included -/
  n : ℤ
  /-- radius -/
  a : ℝ

/-- Latitude of row `j`, counted from the south pole. -/
def SphereGrid.latitude (G : SphereGrid) (j : ℤ) : ℝ := -(π / 2) + π / ((G.n : ℝ) - 1) * ((j : ℝ) - 1)

/-- Area of a cell in row `j`: `a² cos φ dφ dλ`. -/
def SphereGrid.cell (G : SphereGrid) (j : ℤ) : ℝ :=
  G.a ^ 2 * cos (G.latitude j) * (π / ((G.n : ℝ) - 1)) * (2 * π / (G.m : ℝ))

/-- `(i, j)` is a cell of the grid. -/
def SphereGrid.Mem (G : SphereGrid) (i j : ℤ) : Prop := (1 ≤ i ∧ i ≤ G.m) ∧ 1 ≤ j ∧ j ≤ G.n

/-- Area of the cells with property `P`. -/
def SphereGrid.area (G : SphereGrid) (P : ℤ → ℤ → Prop) : ℝ :=
  ∑ j ∈ Icc 1 G.n, ∑ i ∈ Icc 1 G.m, if P i j then G.cell j else 0

/-- Integral of `f` over the cells with property `P`. -/
def SphereGrid.integral (G : SphereGrid) (f : ℤ → ℤ → ℝ) (P : ℤ → ℤ → Prop) : ℝ :=
  ∑ j ∈ Icc 1 G.n, ∑ i ∈ Icc 1 G.m, if P i j then G.cell j * f i j else 0

/-- Area of the part of the sphere north of latitude `φ`. -/
def SphereGrid.polarCap (G : SphereGrid) (φ : ℝ) : ℝ := 2 * π * G.a ^ 2 * (1 - sin φ)

end Falwa.Spec
