import Verif.Spec.Smooth
import Mathlib.Analysis.SpecialFunctions.Trigonometric.Basic
import Mathlib.Analysis.SpecialFunctions.Exp
import Mathlib.MeasureTheory.Integral.IntervalIntegral.Basic

/-!
# Winds, temperature and QGPV on the sphere, before they are sampled

Functions of latitude, longitude (radians) and height. Nothing of the model is used.
-/

noncomputable section

namespace Falwa.Spec

open Real

/-- Zonal wind `U`, meridional wind `V` and relative vorticity; `dU` and `ddU` are the first two derivatives of `U cos φ` in latitude,
`dV` and `ddV` those of `V` in longitude; `D` bounds the change of the second derivatives. -/
structure Flow where
  U : ℝ → ℝ → ℝ → ℝ
  V : ℝ → ℝ → ℝ → ℝ
  vort : ℝ → ℝ → ℝ → ℝ
  dU : ℝ → ℝ → ℝ → ℝ
  ddU : ℝ → ℝ → ℝ → ℝ
  dV : ℝ → ℝ → ℝ → ℝ
  ddV : ℝ → ℝ → ℝ → ℝ
  D : ℝ

/-- The winds are smooth up to the height `top`, and the vorticity is their curl on the sphere of radius `a`:
`1 / (a cos φ) (∂V/∂λ - ∂(U cos φ)/∂φ)`, extended continuously to the poles, where it has one value on each level. -/
structure Flow.IsCurl (F : Flow) (a top : ℝ) : Prop where
  zonal : ∀ φ z, 0 ≤ z → z ≤ top → Smooth (fun l => F.V φ l z) (fun l => F.dV φ l z) (fun l => F.ddV φ l z) F.D
  meridional : ∀ l z, 0 ≤ z → z ≤ top → Smooth (fun φ => F.U φ l z * cos φ) (fun φ => F.dU φ l z) (fun φ => F.ddU φ l z) F.D
  periodic : ∀ φ l z, F.V φ (l + 2 * π) z = F.V φ l z
  curl : ∀ φ l z, -(π / 2) < φ → φ < π / 2 → 0 ≤ z → z ≤ top → a * cos φ * F.vort φ l z = F.dV φ l z - F.dU φ l z
  continuous : Continuous fun p : ℝ × ℝ × ℝ => F.vort p.1 p.2.1 p.2.2
  north : ∀ l l' z, F.vort (π / 2) l z = F.vort (π / 2) l' z
  south : ∀ l l' z, F.vort (-(π / 2)) l z = F.vort (-(π / 2)) l' z

/-- Mean potential temperature and static stability of a hemisphere; `g` and `dg` are the first two derivatives in height of
`exp(-z/H) (θ - mean) / stability`; `D` bounds the change of the second one, `M` the anomaly, and `s` the stability from below. -/
structure Layers where
  mean : ℝ → ℝ
  stability : ℝ → ℝ
  g : ℝ → ℝ → ℝ → ℝ
  dg : ℝ → ℝ → ℝ → ℝ
  D : ℝ
  M : ℝ
  s : ℝ

/-- These are properties of the potential temperature `θ` for the scale height `H` up to the height `top`. -/
structure Layers.Of (L : Layers) (θ : ℝ → ℝ → ℝ → ℝ) (H top : ℝ) : Prop where
  smooth : ∀ φ l, Smooth (fun z => exp (-z / H) * ((θ φ l z - L.mean z) / L.stability z)) (fun z => L.g φ l z) (fun z => L.dg φ l z) L.D
  s0 : 0 < L.s
  stable : ∀ z, 0 ≤ z → z ≤ top → L.s ≤ L.stability z
  anomaly : ∀ φ l z, 0 ≤ z → z ≤ top → |θ φ l z - L.mean z| ≤ L.M

/-- QGPV: planetary vorticity, relative vorticity, and the stretching term with the mean state of the hemisphere:
`f + ζ + f exp(z/H) ∂/∂z (exp(-z/H) (θ - mean) / stability)`. -/
def Flow.qgpv (F : Flow) (om H : ℝ) (N S : Layers) (φ l z : ℝ) : ℝ :=
  2 * om * sin φ + F.vort φ l z + 2 * om * sin φ * (exp (z / H) * (if φ ≤ 0 then S.g φ l z else N.g φ l z))

/-- `K` describes a rate of heating `q` the way `L` describes potential temperature: `g` is the derivative in height of
`exp(-z/H) q / stability`. -/
structure Layers.Heated (K L : Layers) (q : ℝ → ℝ → ℝ → ℝ) (H top : ℝ) : Prop where
  mean : ∀ z, K.mean z = 0
  stability : ∀ z, K.stability z = L.stability z
  of : K.Of q H top

/-- Rate of change of QGPV by heating: `f exp(z/H) ∂/∂z (exp(-z/H) q / stability)` with the stability of the hemisphere. -/
def heatingTendency (om H : ℝ) (N S : Layers) (φ l z : ℝ) : ℝ :=
  2 * om * sin φ * (exp (z / H) * (if φ ≤ 0 then S.g φ l z else N.g φ l z))

/-- Mean of the relative vorticity along a circle of latitude. -/
def Flow.zonalVort (F : Flow) (φ z : ℝ) : ℝ := (∫ l in (0 : ℝ)..2 * π, F.vort φ l z) / (2 * π)

/-- The same with the zonal mean of the absolute vorticity in place of `f` in the stretching term. -/
def Flow.qgpvZonal (F : Flow) (om H : ℝ) (L : Layers) (φ l z : ℝ) : ℝ :=
  2 * om * sin φ + F.vort φ l z + (2 * om * sin φ + F.zonalVort φ z) * (exp (z / H) * L.g φ l z)

/-- Mean of a gradient along a circle of latitude. -/
def meanGradient (dθ : ℝ → ℝ → ℝ) (φ : ℝ) : ℝ := (∫ l in (0 : ℝ)..2 * π, dθ φ l) / (2 * π)

/-- Thermal wind shear at height `z` for the gradient `T'` of potential temperature in latitude. -/
def thermalShear (a om H R cp z φ T' : ℝ) : ℝ := -(R * exp (-(R / cp) * z / H) / (2 * om * sin φ * H * a) * T')

/-- Mean over a column from the ground to the height `top`, weighted with the density `exp(-z/H)`. -/
def columnMean (H top : ℝ) (f : ℝ → ℝ) : ℝ := (∫ z in (0 : ℝ)..top, f z * exp (-z / H)) / ∫ z in (0 : ℝ)..top, exp (-z / H)

end Falwa.Spec
