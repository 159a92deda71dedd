import Verif.Spec.RefState

/-! Thermal-wind balance and the equation for the reference wind on levels that start at the height `base`. Written independently of the
Fortran code. -/

noncomputable section

namespace Falwa.Spec.Planet

open Real

variable (p : Planet) (base : ℝ)

/-- Thermal-wind balance at row `j` and level `k`, whose height is `base + (k - 1) dz`:
`dT/dφ = - f a (H / R) exp(κ z / H) du/dz`, centred differences. -/
def ThermalWindFrom (U T : ℤ → ℤ → ℝ) (j k : ℤ) : Prop :=
  (T (j + 1) k - T (j - 1) k) / (2 * p.dphi) =
    -(p.f j * p.a * (p.h / p.r) * exp (p.r / p.cp * (base + p.height k) / p.h) * ((U j (k + 1) - U j (k - 1)) / (2 * p.dz)))

/-- Density-weighted inverse stability at the half level `x`, relative to the density at level `k`. -/
def stiffnessFrom (S : ℝ) (k : ℤ) (x : ℝ) : ℝ :=
  exp ((base + p.height k) / p.h) * (exp (-(1 - p.r / p.cp) * (base + p.height x) / p.h) / S)

/-- The elliptic equation for `u cos φ` at row `j` and level `k`, as `Planet.Elliptic`, with heights that start at `base`. -/
def EllipticFrom (S : ℤ → ℝ) (Q u : ℤ → ℤ → ℝ) (j k : ℤ) : Prop :=
  (u (j + 1) k - u j k) / (sin (p.lat (j + 1 / 2)) * cos (p.lat (j + 1 / 2))) -
    (u j k - u (j - 1) k) / (sin (p.lat (j - 1 / 2)) * cos (p.lat (j - 1 / 2))) +
    (2 * p.om * p.a * p.dphi / p.dz) ^ 2 * (p.h / p.r) * (sin (p.lat j) / cos (p.lat j)) *
      (p.stiffnessFrom base ((S (k + 1) + S k) / 2) k (k + 1 / 2) * (u j (k + 1) - u j k) -
        p.stiffnessFrom base ((S (k - 1) + S k) / 2) k (k - 1 / 2) * (u j k - u j (k - 1))) =
    -(p.om * p.a * p.dphi * (Q (j + 1) k - Q (j - 1) k))

/-- A gas with another gas constant and heat capacity, both multiplied by `exp(κ base / H)`, that is by `(1000 hPa / p)^κ` with the
pressure `p` at the height `base`. -/
def otherGas : Planet :=
  { p with r := p.r * exp (p.r / p.cp * base / p.h), cp := p.cp * exp (p.r / p.cp * base / p.h) }

end Falwa.Spec.Planet
