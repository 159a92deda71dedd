import Verif.Spec.RefState
import Mathlib.Analysis.Calculus.Deriv.Basic
import Mathlib.Analysis.Calculus.ContDiff.Defs

/-! # The balance equation of the reference state, before it is discretised

The eddy-free wind `u(φ, z)` of Nakamura and Solomon is determined by a linear elliptic equation. The definitions use derivatives,
not differences, and nothing of the model. -/

noncomputable section

namespace Falwa.Spec

open Real

/-- A hemispheric atmosphere between the latitude `south` and the pole and between the ground and the height `top`. Functions of
`(φ, z)`: `u` is the wind, `G` the meridional slope of `u cos φ` divided by `sin φ cos φ`, `Q` the reference QGPV divided by the
Coriolis parameter; `S` is the static stability. -/
structure BalancedState where
  /-- radius -/
  a : ℝ
  /-- rotation rate -/
  om : ℝ
  /-- scale height -/
  h : ℝ
  /-- gas constant -/
  r : ℝ
  /-- heat capacity at constant pressure -/
  cp : ℝ
  /-- southern boundary -/
  south : ℝ
  /-- upper boundary -/
  top : ℝ
  /-- static stability -/
  S : ℝ → ℝ
  /-- wind -/
  u : ℝ × ℝ → ℝ
  /-- slope of `u cos φ` divided by `sin φ cos φ` -/
  G : ℝ × ℝ → ℝ
  /-- reference QGPV divided by the Coriolis parameter -/
  Q : ℝ × ℝ → ℝ

namespace BalancedState

variable (B : BalancedState)

/-- Shear of the wind. -/
def shear (φ z : ℝ) : ℝ := deriv (fun y => B.u (φ, y)) z

/-- Inverse stability, weighted with density. -/
def weight (z : ℝ) : ℝ := exp (-(1 - B.r / B.cp) * z / B.h) / B.S z

/-- `u` solves the balance equation:
`∂/∂φ (1 / (sin φ cos φ) ∂(u cos φ)/∂φ) + (2 Ω a)² (H / R) sin φ exp(z / H) ∂/∂z (exp(-(1 - κ) z / H) / S ∂u/∂z) = -2 Ω a ∂Q/∂φ`,
with no wind at the ground, and is smooth up to the boundaries. -/
structure Solves : Prop where
  a0 : 0 < B.a
  om0 : 0 < B.om
  h0 : 0 < B.h
  r0 : 0 < B.r
  south0 : 0 ≤ B.south
  top0 : 0 < B.top
  smoothS : ContDiff ℝ 2 B.S
  smoothU : ContDiff ℝ 5 B.u
  smoothG : ContDiff ℝ 3 B.G
  smoothQ : ContDiff ℝ 1 B.Q
  stable : ∀ z, 0 < B.S z
  slope : ∀ φ z, B.south ≤ φ → φ ≤ π / 2 → 0 ≤ z → z ≤ B.top →
    deriv (fun x => B.u (x, z) * cos x) φ = sin φ * cos φ * B.G (φ, z)
  balance : ∀ φ z, B.south < φ → φ < π / 2 → 0 < z → z < B.top →
    deriv (fun x => B.G (x, z)) φ +
      (2 * B.om * B.a) ^ 2 * (B.h / B.r) * sin φ * exp (z / B.h) * deriv (fun y => B.weight y * B.shear φ y) z =
      -(2 * B.om * B.a * deriv (fun x => B.Q (x, z)) φ)
  ground : ∀ φ, B.south ≤ φ → φ ≤ π / 2 → B.u (φ, 0) = 0

/-- The rows `j0 .. j1` and the levels `1 .. kmax` of a grid cover the atmosphere: the last row is the pole, the last level is the
upper boundary, the first row is not south of the southern boundary, and the static stability is sampled. -/
structure Grid (p : Planet) (S : ℤ → ℝ) (j0 j1 kmax : ℤ) : Prop where
  a : p.a = B.a
  om : p.om = B.om
  h : p.h = B.h
  r : p.r = B.r
  cp : p.cp = B.cp
  dphi : 0 < p.dphi
  dz : 0 < p.dz
  rows : j0 < j1
  levels : 3 ≤ kmax
  pole : p.lat j1 = π / 2
  first : B.south ≤ p.lat j0
  last : p.height kmax = B.top
  stat : ∀ k, 1 ≤ k → k ≤ kmax → S k = B.S (p.height k)

end BalancedState

end Falwa.Spec
