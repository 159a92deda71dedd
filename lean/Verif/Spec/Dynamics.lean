import Mathlib.Analysis.SpecialFunctions.Trigonometric.Basic
import Mathlib.Analysis.Calculus.Deriv.Basic

/-!
# Motion of the air on one level of the sphere

Functions of time, latitude and longitude (radians). Nothing of the model is used.
-/

noncomputable section

namespace Falwa.Spec

open Real

/-- QGPV `q` with its derivatives in time, latitude and longitude, zonal wind `U` with its derivative in longitude, meridional wind `V`
with the derivative `Vf` of `V cos φ` in latitude, and the source `S` of QGPV. -/
structure Motion where
  q : ℝ → ℝ → ℝ → ℝ
  qt : ℝ → ℝ → ℝ → ℝ
  qf : ℝ → ℝ → ℝ → ℝ
  ql : ℝ → ℝ → ℝ → ℝ
  U : ℝ → ℝ → ℝ → ℝ
  Ul : ℝ → ℝ → ℝ → ℝ
  V : ℝ → ℝ → ℝ → ℝ
  Vf : ℝ → ℝ → ℝ → ℝ
  S : ℝ → ℝ → ℝ → ℝ

/-- Jointly continuous in time, latitude and longitude. -/
def Jointly (f : ℝ → ℝ → ℝ → ℝ) : Prop := Continuous fun p : ℝ × ℝ × ℝ => f p.1 p.2.1 p.2.2

/-- On the sphere of radius `a` the wind has no divergence and QGPV changes following the wind only by its source:
`∂q/∂t + U / (a cos φ) ∂q/∂λ + V / a ∂q/∂φ = S`. -/
structure Motion.Obeys (M : Motion) (a : ℝ) : Prop where
  dt : ∀ t φ l, HasDerivAt (fun s => M.q s φ l) (M.qt t φ l) t
  df : ∀ t φ l, HasDerivAt (fun x => M.q t x l) (M.qf t φ l) φ
  dl : ∀ t φ l, HasDerivAt (fun x => M.q t φ x) (M.ql t φ l) l
  dU : ∀ t φ l, HasDerivAt (fun x => M.U t φ x) (M.Ul t φ l) l
  dV : ∀ t φ l, HasDerivAt (fun x => M.V t x l * cos x) (M.Vf t φ l) φ
  cq : Jointly M.q
  cqt : Jointly M.qt
  cqf : Jointly M.qf
  cql : Jointly M.ql
  cU : Jointly M.U
  cUl : Jointly M.Ul
  cV : Jointly M.V
  cVf : Jointly M.Vf
  cS : Jointly M.S
  mass : ∀ t φ l, -(π / 2) ≤ φ → φ ≤ π / 2 → M.Ul t φ l + M.Vf t φ l = 0
  law : ∀ t φ l, -(π / 2) ≤ φ → φ ≤ π / 2 →
    a * cos φ * M.qt t φ l + M.U t φ l * M.ql t φ l + M.V t φ l * cos φ * M.qf t φ l = a * cos φ * M.S t φ l
  periodicq : ∀ t φ l, M.q t φ (l + 2 * π) = M.q t φ l
  periodicU : ∀ t φ l, M.U t φ (l + 2 * π) = M.U t φ l

/-- Motions on all heights that depend continuously on height, and reference values `v z t` with their rates of change `v' z t`. -/
structure Stacked (M : ℝ → Motion) (v v' : ℝ → ℝ → ℝ) : Prop where
  cq : Continuous fun p : ℝ × ℝ × ℝ × ℝ => (M p.1).q p.2.1 p.2.2.1 p.2.2.2
  cU : Continuous fun p : ℝ × ℝ × ℝ × ℝ => (M p.1).U p.2.1 p.2.2.1 p.2.2.2
  cV : Continuous fun p : ℝ × ℝ × ℝ × ℝ => (M p.1).V p.2.1 p.2.2.1 p.2.2.2
  cS : Continuous fun p : ℝ × ℝ × ℝ × ℝ => (M p.1).S p.2.1 p.2.2.1 p.2.2.2
  cv : Continuous fun p : ℝ × ℝ => v p.1 p.2
  cv' : Continuous fun p : ℝ × ℝ => v' p.1 p.2
  dv : ∀ z t, HasDerivAt (fun s => v z s) (v' z t) t

/-- Northward flux of displaced QGPV out of the region whose wave activity is looked at, at one longitude: `V (q - Q)` through the circle
at `φ`, and what displaced air carries through its ends at `φn` and `φs`. -/
def meridionalOutflow (q V : ℝ → ℝ) (Q φs φn φ : ℝ) : ℝ :=
  V φ * cos φ * (q φ - Q) + V φn * cos φn * max (Q - q φn) 0 - V φs * cos φs * max (q φs - Q) 0

end Falwa.Spec

end
