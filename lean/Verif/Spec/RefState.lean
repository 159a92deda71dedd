import Mathlib.Analysis.SpecialFunctions.Trigonometric.Basic
import Mathlib.Analysis.SpecialFunctions.Exp
import Mathlib.Data.Int.Interval
import Mathlib.Algebra.BigOperators.Group.Finset.Basic

/-! The continuous statements behind the reference state, discretised on a hemispheric grid. Written independently of the
Fortran code. -/

noncomputable section

namespace Falwa.Spec

open Real Finset

/-- Constants of a hemispheric grid. Row `j` has latitude `(j - 1) dphi`, level `k` has height `(k - 1) dz`. -/
structure Planet where
  /-- radius -/
  a : ℝ
  /-- rotation rate -/
  om : ℝ
  /-- scale height -/
  h : ℝ
  /-- gas constant -/
  r : ℝ
  /-- heat capacity at constant pressure -/
  cp : ℝ
  /-- level spacing -/
  dz : ℝ
  /-- latitude spacing -/
  dphi : ℝ

namespace Planet

variable (p : Planet)

/-- Latitude of row `x`; half-integer `x` are allowed. -/
def lat (x : ℝ) : ℝ := (x - 1) * p.dphi

/-- Height of level `x`; half-integer `x` are allowed. -/
def height (x : ℝ) : ℝ := (x - 1) * p.dz

/-- Coriolis parameter of row `j`. -/
def f (j : ℤ) : ℝ := 2 * p.om * sin (p.lat j)

/-- Mean over the rows `lo..hi`, weighted with the cosine of latitude. -/
def rowMean (lo hi : ℤ) (T : ℤ → ℝ) : ℝ :=
  (∑ j ∈ Icc lo hi, cos (p.lat j) * T j) / ∑ j ∈ Icc lo hi, cos (p.lat j)

/-- Thermal-wind balance at row `j` and level `k`: `dT/dφ = - f a (H / R) exp(κ z / H) du/dz`, centred differences. -/
def ThermalWind (U T : ℤ → ℤ → ℝ) (j k : ℤ) : Prop :=
  (T (j + 1) k - T (j - 1) k) / (2 * p.dphi) =
    -(p.f j * p.a * (p.h / p.r) * exp (p.r / p.cp * p.height k / p.h) * ((U j (k + 1) - U j (k - 1)) / (2 * p.dz)))

/-- Density-weighted inverse stability at the half level `x`, relative to the density at level `k`. -/
def stiffness (S : ℝ) (k : ℤ) (x : ℝ) : ℝ := exp (p.height k / p.h) * (exp (-(1 - p.r / p.cp) * p.height x / p.h) / S)

/-- The elliptic equation for `u cos φ` at row `j` and level `k`, with `Q` the reference QGPV divided by the Coriolis
parameter, `S` the static stability, `y` a scaling of the equation:
meridional second difference with the weights `1 / (sin φ cos φ)` at the half rows, plus vertical second difference,
balances the meridional gradient of `Q`. -/
def Elliptic (S : ℤ → ℝ) (Q u : ℤ → ℤ → ℝ) (j k : ℤ) : Prop :=
  (u (j + 1) k - u j k) / (sin (p.lat (j + 1 / 2)) * cos (p.lat (j + 1 / 2))) -
    (u j k - u (j - 1) k) / (sin (p.lat (j - 1 / 2)) * cos (p.lat (j - 1 / 2))) +
    (2 * p.om * p.a * p.dphi / p.dz) ^ 2 * (p.h / p.r) * (sin (p.lat j) / cos (p.lat j)) *
      (p.stiffness ((S (k + 1) + S k) / 2) k (k + 1 / 2) * (u j (k + 1) - u j k) -
        p.stiffness ((S (k - 1) + S k) / 2) k (k - 1 / 2) * (u j k - u j (k - 1))) =
    -(p.om * p.a * p.dphi * (Q (j + 1) k - Q (j - 1) k))

end Planet

end Falwa.Spec
