import Verif.Model.Legacy

/-!
# The boundary value problem that the legacy solver is meant to solve

Rows `0 .. n + 1` with `n = nlat / 4` are equally spaced in the sine of latitude from equator to pole, levels are
`0 .. kmax - 1`. Stated without the helper arrays of the model: only the arguments, the constants and the interpolation.
-/

noncomputable section

namespace Falwa

open Real

namespace Spec

variable (L : Legacy)

/-- Sine of the latitude of a row. -/
def mu (j : ℕ) : ℝ := (j : ℝ) / ((L.nlat / 4 : ℕ) + 1 : ℝ)

/-- Coriolis parameter of a row. -/
def coriolis (j : ℕ) : ℝ := 2 * 7.29e-5 * mu L j

/-- The value of a meridional profile on a row. -/
def onRow (y : ℕ → ℝ) (j : ℕ) : ℝ := interp1d L.nlat L.ylat y (arcsin (mu L j) * 180 / π)

/-- The source: minus wave activity over Coriolis parameter, zero at the equator and the pole. -/
def source (j k : ℕ) : ℝ :=
  if 1 ≤ j ∧ j ≤ L.nlat / 4 then -onRow L (L.fawa k) j / coriolis L j else 0

/-- Vertical flux between the levels `k` and `k + 1`, times the factor `e`. -/
def vertFlux (w : ℕ → ℕ → ℝ) (e : ℝ) (j k : ℕ) : ℝ := onRow L (L.ephalf2 k) j * e * (w j (k + 1) - w j k)

/-- Meridional and vertical spacing of the grid as one factor. -/
def aspect : ℝ := 1 / ((L.nlat / 4 : ℕ) + 1 : ℝ) / 1000

/-- The balance of mass correction and wave activity at one interior point. -/
def Balance (w : ℕ → ℕ → ℝ) (j k : ℕ) : Prop :=
  (w (j + 1) k - w j k) - (w j k - w (j - 1) k) +
      aspect L ^ 2 * (vertFlux L w (exp (-1 / 14)) j k - vertFlux L w (exp (1 / 14)) j (k - 1)) =
    (source L (j + 1) k - source L j k) - (source L j k - source L (j - 1) k)

/-- The common factor of the boundary conditions. -/
def thermal (j : ℕ) : ℝ := 287 * (1 - mu L j ^ 2) / (coriolis L j ^ 2 * 6378000 * 7000)

/-- Thermal wind at the top: difference over two levels and difference of temperature over two rows. -/
def Top (w : ℕ → ℕ → ℝ) (j : ℕ) : Prop :=
  w j (L.kmax - 1) - w j (L.kmax - 3) =
    -(thermal L j * exp (-(287 / 1004) * ((L.kmax : ℝ) - 2) / 7) *
      (onRow L L.deltaPT (j + 1) - onRow L L.deltaPT (j - 1)) / aspect L)

/-- Second difference over the rows of a surface wave activity. -/
def curvature (y : ℕ → ℝ) (j : ℕ) : ℝ := (onRow L y (j + 1) - onRow L y j) - (onRow L y j - onRow L y (j - 1))

/-- The lower boundary condition. -/
def Bottom (w : ℕ → ℕ → ℝ) (j : ℕ) : Legacy.Lower → Prop
  | .noslip => w j 0 * coriolis L j = onRow L (L.zmum 0) j * √(1 - mu L j ^ 2)
  | .adiabatic => w j 2 - w j 0 =
      -(2 * 1000 * thermal L j / (6378000 * (1 / ((L.nlat / 4 : ℕ) + 1 : ℝ)) ^ 2) *
        (exp (-(287 / 1004) / 7) * curvature L L.b1 j + curvature L L.b0 j))

/-- The boundary value problem. -/
structure Bvp (bc : Legacy.Lower) (w : ℕ → ℕ → ℝ) : Prop where
  equator : ∀ k, k < L.kmax → w 0 k = 0
  pole : ∀ k, k < L.kmax → w (L.nlat / 4 + 1) k = 0
  balance : ∀ j k, 1 ≤ j → j ≤ L.nlat / 4 → 1 ≤ k → k + 1 < L.kmax → Balance L w j k
  top : ∀ j, 1 ≤ j → j ≤ L.nlat / 4 → Top L w j
  bottom : ∀ j, 1 ≤ j → j ≤ L.nlat / 4 → Bottom L w j bc

end Spec

end Falwa
