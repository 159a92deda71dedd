import Verif.Lemmas.ColumnSwap
import Verif.Props.FluxFormulas
import Verif.Spec.Column
import Mathlib.Analysis.Calculus.Deriv.Mul
import Mathlib.MeasureTheory.Integral.IntervalIntegral.FundThmCalculus
import Mathlib.MeasureTheory.Integral.DominatedConvergence

/-!
# C183: the flux of QGPV across a latitude is the divergence of the eddy fluxes
-/

noncomputable section

namespace Falwa

namespace Spec

open Real

/-- What is known of the air at one latitude besides its motion, as functions of time, longitude and height (and of latitude where that
comes before longitude): potential temperature `θ` and its derivative in longitude; reference wind `Ur`, reference potential temperature
`Θ` and static stability `σ`; the derivatives `Uf`, `Urf` of `U cos φ`, `Ur cos φ` in latitude, `Vl`, `Vz` of `V` in longitude and height;
the derivative `g` of `exp(-z/H) (θ - Θ) / σ` in height; the derivative `P` of the eddy momentum flux `(U - Ur) V cos² φ` in latitude. -/
structure Eddies where
  θ : ℝ → ℝ → ℝ → ℝ → ℝ
  θl : ℝ → ℝ → ℝ → ℝ
  Ur : ℝ → ℝ → ℝ → ℝ
  Θ : ℝ → ℝ → ℝ → ℝ
  σ : ℝ → ℝ → ℝ
  Uf : ℝ → ℝ → ℝ → ℝ
  Urf : ℝ → ℝ → ℝ
  Vl : ℝ → ℝ → ℝ → ℝ
  Vz : ℝ → ℝ → ℝ → ℝ
  g : ℝ → ℝ → ℝ → ℝ
  P : ℝ → ℝ → ℝ → ℝ → ℝ

/-- These are the derivatives; QGPV less its reference value is that of the winds and temperatures less the reference ones,
`ζ - ζref + f exp(z/H) ∂/∂z (exp(-z/H) (θ - Θ) / σ)`; and wind and temperature are in thermal wind balance,
`f ∂V/∂z = R/H exp(-κ z/H) ∂θ/∂λ / (a cos φ)`. -/
structure Eddies.Balanced (E : Eddies) (M : ℝ → Motion) (v : ℝ → ℝ → ℝ) (a om H R cp top φ : ℝ) : Prop where
  dU : ∀ t l z, HasDerivAt (fun x => (M z).U t x l * cos x) (E.Uf t l z) φ
  dUr : ∀ t z, HasDerivAt (fun x => E.Ur t x z * cos x) (E.Urf t z) φ
  dV : ∀ t l z, HasDerivAt (fun x => (M z).V t φ x) (E.Vl t l z) l
  dVz : ∀ t l z, HasDerivAt (fun s => (M s).V t φ l) (E.Vz t l z) z
  dθ : ∀ t l z, HasDerivAt (fun x => E.θ t φ x z) (E.θl t l z) l
  dg : ∀ t l z, HasDerivAt (fun s => exp (-s / H) * ((E.θ t φ l s - E.Θ t φ s) / E.σ t s)) (E.g t l z) z
  dP : ∀ t y l z, HasDerivAt (fun x => ((M z).U t x l - E.Ur t x z) * cos x ^ 2 * (M z).V t x l) (E.P t y l z) y
  pv : ∀ t l z, 0 ≤ z → z ≤ top → (M z).q t φ l - v z t =
    (E.Vl t l z - (E.Uf t l z - E.Urf t z)) / (a * cos φ) + 2 * om * sin φ * (exp (z / H) * E.g t l z)
  balance : ∀ t l z, 0 ≤ z → z ≤ top → 2 * om * sin φ * E.Vz t l z = R / H * exp (-(R / cp) * z / H) * E.θl t l z / (a * cos φ)
  stable : ∀ t z, E.σ t z ≠ 0
  cθ : Continuous fun p : ℝ × ℝ × ℝ × ℝ => E.θ p.1 p.2.1 p.2.2.1 p.2.2.2
  cθl : Jointly E.θl
  cUr : Jointly E.Ur
  cΘ : Jointly E.Θ
  cσ : Continuous fun p : ℝ × ℝ => E.σ p.1 p.2
  cVl : Jointly E.Vl
  cVz : Jointly E.Vz
  cg : Jointly E.g
  cP : Continuous fun p : ℝ × ℝ × ℝ × ℝ => E.P p.1 p.2.1 p.2.2.1 p.2.2.2
  cUl : Continuous fun p : ℝ × ℝ × ℝ × ℝ => (M p.1).Ul p.2.1 p.2.2.1 p.2.2.2

variable (E : Eddies) (M : ℝ → Motion) (v : ℝ → ℝ → ℝ) (a om H R cp top φs φn φ z t l : ℝ)

/-- Column mean of the eddy energy term. -/
def columnEnergy : ℝ := columnMean H top fun z =>
  eddyEnergyTerm R H (R / cp) z φ (E.σ t z) ((M z).U t φ l) (E.Ur t φ z) ((M z).V t φ l) (E.θ t φ l z) (E.Θ t φ z)

/-- Column mean of the divergence of the eddy momentum flux. -/
def columnMomentum : ℝ := columnMean H top (fun z => E.P t φ l z) / (a * cos φ)

/-- Upward flux of wave activity through the height `z`, over the mass of the column: `f cos φ exp(-z/H) V (θ - Θ) / σ`. -/
def upwardFlux : ℝ := 2 * om * sin φ * cos φ / (∫ z in (0 : ℝ)..top, exp (-z / H)) *
  ((M z).V t φ l * (exp (-z / H) * ((E.θ t φ l z - E.Θ t φ z) / E.σ t z)))

/-- Column mean of the flux of QGPV across the latitude. -/
def columnCrossing : ℝ := columnMean H top fun z => (M z).V t φ l * cos φ * ((M z).q t φ l - v z t)

/-- Column mean of what displaced air carries out of the region between `φs` and `φn` through its ends. -/
def columnEnds : ℝ := columnMean H top fun z => (M z).V t φn l * cos φn * max (v z t - (M z).q t φn l) 0 -
  (M z).V t φs l * cos φs * max ((M z).q t φs l - v z t) 0

end Spec

open MeasureTheory Filter Set Real Spec

variable {E : Eddies} {M : ℝ → Motion} {v v' : ℝ → ℝ → ℝ} {a om H R cp top φ : ℝ}

/-- Derivative of the eddy energy term in longitude. -/
def energyGradient (E : Eddies) (M : ℝ → Motion) (H R cp φ t l z : ℝ) : ℝ :=
  ((M z).V t φ l * E.Vl t l z - ((M z).U t φ l - E.Ur t φ z) * (M z).Ul t φ l -
    R / H * exp (-(R / cp) * z / H) * ((E.θ t φ l z - E.Θ t φ z) * E.θl t l z) / E.σ t z) * cos φ

theorem energy_hasDerivAt (hE : E.Balanced M v a om H R cp top φ) {z : ℝ} (t l : ℝ) (hM : (M z).Obeys a) :
    HasDerivAt (fun x => eddyEnergyTerm R H (R / cp) z φ (E.σ t z) ((M z).U t φ x) (E.Ur t φ z) ((M z).V t φ x) (E.θ t φ x z) (E.Θ t φ z))
      (energyGradient E M H R cp φ t l z) l := by
  have h1 := (hE.dV t l z).pow 2
  have h2 := ((hM.dU t φ l).sub_const (E.Ur t φ z)).pow 2
  have h3 := ((((hE.dθ t l z).sub_const (E.Θ t φ z)).pow 2).const_mul (R / H * exp (-(R / cp) * z / H))).div_const (E.σ t z)
  have h := (((h1.sub h2).sub h3).div_const 2).mul_const (cos φ)
  refine (h.congr_deriv ?_)
  unfold energyGradient
  simp only [Nat.add_one_sub_one, pow_one]
  push_cast
  ring

theorem energyGradient_continuous (hE : E.Balanced M v a om H R cp top φ) (hs : Stacked M v v') :
    Continuous fun p : ℝ × ℝ × ℝ => energyGradient E M H R cp φ p.2.1 p.2.2 p.1 := by
  have cV : Continuous fun p : ℝ × ℝ × ℝ => (M p.1).V p.2.1 φ p.2.2 := hs.cV.comp (f := fun p : ℝ × ℝ × ℝ => (p.1, p.2.1, φ, p.2.2)) (by fun_prop)
  have cU : Continuous fun p : ℝ × ℝ × ℝ => (M p.1).U p.2.1 φ p.2.2 := hs.cU.comp (f := fun p : ℝ × ℝ × ℝ => (p.1, p.2.1, φ, p.2.2)) (by fun_prop)
  have cUl : Continuous fun p : ℝ × ℝ × ℝ => (M p.1).Ul p.2.1 φ p.2.2 := hE.cUl.comp (f := fun p : ℝ × ℝ × ℝ => (p.1, p.2.1, φ, p.2.2)) (by fun_prop)
  have cVl : Continuous fun p : ℝ × ℝ × ℝ => E.Vl p.2.1 p.2.2 p.1 := hE.cVl.comp (f := fun p : ℝ × ℝ × ℝ => (p.2.1, p.2.2, p.1)) (by fun_prop)
  have cθl : Continuous fun p : ℝ × ℝ × ℝ => E.θl p.2.1 p.2.2 p.1 := hE.cθl.comp (f := fun p : ℝ × ℝ × ℝ => (p.2.1, p.2.2, p.1)) (by fun_prop)
  have cθ : Continuous fun p : ℝ × ℝ × ℝ => E.θ p.2.1 φ p.2.2 p.1 := hE.cθ.comp (f := fun p : ℝ × ℝ × ℝ => (p.2.1, φ, p.2.2, p.1)) (by fun_prop)
  have cUr : Continuous fun p : ℝ × ℝ × ℝ => E.Ur p.2.1 φ p.1 := hE.cUr.comp (f := fun p : ℝ × ℝ × ℝ => (p.2.1, φ, p.1)) (by fun_prop)
  have cΘ : Continuous fun p : ℝ × ℝ × ℝ => E.Θ p.2.1 φ p.1 := hE.cΘ.comp (f := fun p : ℝ × ℝ × ℝ => (p.2.1, φ, p.1)) (by fun_prop)
  have cσ : Continuous fun p : ℝ × ℝ × ℝ => E.σ p.2.1 p.1 := hE.cσ.comp (f := fun p : ℝ × ℝ × ℝ => (p.2.1, p.1)) (by fun_prop)
  have ce : Continuous fun p : ℝ × ℝ × ℝ => R / H * exp (-(R / cp) * p.1 / H) := by fun_prop
  unfold energyGradient
  exact (((cV.mul cVl).sub ((cU.sub cUr).mul cUl)).sub ((ce.mul ((cθ.sub cΘ).mul cθl)).div cσ fun p => hE.stable _ _)).mul continuous_const

/-- The flux of QGPV across the latitude at one height. -/
theorem crossing_pointwise (hE : E.Balanced M v a om H R cp top φ) (ha : a ≠ 0) (hc : cos φ ≠ 0) (h1 : -(π / 2) ≤ φ) (h2 : φ ≤ π / 2) {z : ℝ}
    (hM : (M z).Obeys a) (z0 : 0 ≤ z) (z1 : z ≤ top) (t l : ℝ) :
    (M z).V t φ l * cos φ * ((M z).q t φ l - v z t) * exp (-z / H) =
      (energyGradient E M H R cp φ t l z / (a * cos φ) - E.P t φ l z / (a * cos φ)) * exp (-z / H) + 2 * om * sin φ * cos φ *
        (E.Vz t l z * (exp (-z / H) * ((E.θ t φ l z - E.Θ t φ z) / E.σ t z)) + (M z).V t φ l * E.g t l z) := by
  have hP : E.P t φ l z = (E.Uf t l z - E.Urf t z) * ((M z).V t φ l * cos φ) +
      ((M z).U t φ l * cos φ - E.Ur t φ z * cos φ) * (M z).Vf t φ l := by
    have h := ((hE.dU t l z).sub (hE.dUr t z)).mul (hM.dV t φ l)
    refine (hE.dP t φ l z).unique (h.congr_of_eventuallyEq (Eventually.of_forall fun x => ?_))
    show ((M z).U t x l - E.Ur t x z) * cos x ^ 2 * (M z).V t x l =
      ((M z).U t x l * cos x - E.Ur t x z * cos x) * ((M z).V t x l * cos x)
    ring
  have hm : (M z).Vf t φ l = -(M z).Ul t φ l := by linarith [hM.mass t φ l h1 h2]
  have hb := hE.balance t l z z0 z1
  have he : exp (z / H) * exp (-z / H) = 1 := by
    rw [← exp_add, ← add_div, add_neg_cancel, zero_div, exp_zero]
  have hσ := hE.stable t z
  rw [hE.pv t l z z0 z1, hP, hm]
  unfold energyGradient
  set W := (E.θ t φ l z - E.Θ t φ z) with hW
  have e1 : 2 * om * sin φ * cos φ * (E.Vz t l z * (exp (-z / H) * (W / E.σ t z)) + (M z).V t φ l * E.g t l z) =
      (2 * om * sin φ * E.Vz t l z) * cos φ * (exp (-z / H) * (W / E.σ t z)) + 2 * om * sin φ * cos φ * ((M z).V t φ l * E.g t l z) := by ring
  have e2 : (M z).V t φ l * cos φ * ((E.Vl t l z - (E.Uf t l z - E.Urf t z)) / (a * cos φ) + 2 * om * sin φ * (exp (z / H) * E.g t l z)) *
      exp (-z / H) = (M z).V t φ l * cos φ * ((E.Vl t l z - (E.Uf t l z - E.Urf t z)) / (a * cos φ)) * exp (-z / H) +
        2 * om * sin φ * cos φ * ((M z).V t φ l * E.g t l z) * (exp (z / H) * exp (-z / H)) := by ring
  rw [e1, e2, hb, he]
  field_simp
  ring

/-- At one longitude. -/
theorem crossing_column (h : ∀ z, 0 ≤ z → z ≤ top → (M z).Obeys a) (hs : Stacked M v v') (hE : E.Balanced M v a om H R cp top φ) (ha : a ≠ 0)
    (h0 : 0 ≤ top) (hc : cos φ ≠ 0) (h1 : -(π / 2) ≤ φ) (h2 : φ ≤ π / 2) (t l : ℝ) :
    columnCrossing M v H top φ t l = columnMean H top (fun z => energyGradient E M H R cp φ t l z) / (a * cos φ) -
      columnMomentum E a H top φ t l + (upwardFlux E M om H top φ top t l - upwardFlux E M om H top φ 0 t l) := by
  have cD : Continuous fun z => energyGradient E M H R cp φ t l z :=
    (energyGradient_continuous hE hs).comp (f := fun z : ℝ => (z, t, l)) (by fun_prop)
  have cP : Continuous fun z => E.P t φ l z := hE.cP.comp (f := fun z : ℝ => (t, φ, l, z)) (by fun_prop)
  have cV : Continuous fun z => (M z).V t φ l := hs.cV.comp (f := fun z : ℝ => (z, t, φ, l)) (by fun_prop)
  have cVz : Continuous fun z => E.Vz t l z := hE.cVz.comp (f := fun z : ℝ => (t, l, z)) (by fun_prop)
  have cg : Continuous fun z => E.g t l z := hE.cg.comp (f := fun z : ℝ => (t, l, z)) (by fun_prop)
  have cs : Continuous fun z => exp (-z / H) * ((E.θ t φ l z - E.Θ t φ z) / E.σ t z) :=
    continuous_iff_continuousAt.2 fun z => (hE.dg t l z).continuousAt
  have parts : ∫ z in (0 : ℝ)..top, (E.Vz t l z * (exp (-z / H) * ((E.θ t φ l z - E.Θ t φ z) / E.σ t z)) + (M z).V t φ l * E.g t l z) =
      (M top).V t φ l * (exp (-top / H) * ((E.θ t φ l top - E.Θ t φ top) / E.σ t top)) -
        (M 0).V t φ l * (exp (-0 / H) * ((E.θ t φ l 0 - E.Θ t φ 0) / E.σ t 0)) :=
    intervalIntegral.integral_eq_sub_of_hasDerivAt (fun z _ => (hE.dVz t l z).mul (hE.dg t l z))
      (((cVz.mul cs).add (cV.mul cg)).intervalIntegrable _ _)
  unfold columnCrossing columnMomentum upwardFlux
  rw [← columnMean_div_const, ← columnMean_div_const, ← columnMean_sub ((cD.div_const _).intervalIntegrable _ _)
    ((cP.div_const _).intervalIntegrable _ _)]
  unfold columnMean
  rw [← mul_sub, ← parts, div_mul_eq_mul_div, ← add_div]
  congr 1
  rw [← intervalIntegral.integral_const_mul, ← intervalIntegral.integral_add]
  · refine intervalIntegral.integral_congr fun z hz => ?_
    rw [uIcc_of_le h0] at hz
    exact crossing_pointwise hE ha hc h1 h2 (h z hz.1 hz.2) hz.1 hz.2 t l
  · exact (((cD.div_const _).sub (cP.div_const _)).mul (by fun_prop)).intervalIntegrable _ _
  · exact (((cVz.mul cs).add (cV.mul cg)).const_mul _).intervalIntegrable _ _

/-- Column means of continuous functions. -/
theorem columnMean_continuous {Y : Type*} [TopologicalSpace Y] [FirstCountableTopology Y] {G : Y → ℝ → ℝ}
    (hG : Continuous fun p : Y × ℝ => G p.1 p.2) : Continuous fun y => columnMean H top (G y) := by
  unfold columnMean
  exact (intervalIntegral.continuous_parametric_intervalIntegral_of_continuous' (f := fun y z => G y z * exp (-z / H))
    (hG.mul (by fun_prop)) 0 top).div_const _

theorem momentum_continuous (hE : E.Balanced M v a om H R cp top φ) : Continuous fun p : ℝ × ℝ => columnMomentum E a H top φ p.1 p.2 :=
  (columnMean_continuous (G := fun (p : ℝ × ℝ) z => E.P p.1 φ p.2 z)
    (hE.cP.comp (f := fun p : (ℝ × ℝ) × ℝ => (p.1.1, φ, p.1.2, p.2)) (by fun_prop))).div_const _

theorem upward_continuous (hs : Stacked M v v') (hE : E.Balanced M v a om H R cp top φ) (z : ℝ) :
    Continuous fun p : ℝ × ℝ => upwardFlux E M om H top φ z p.1 p.2 := by
  have cV : Continuous fun p : ℝ × ℝ => (M z).V p.1 φ p.2 := hs.cV.comp (f := fun p : ℝ × ℝ => (z, p.1, φ, p.2)) (by fun_prop)
  have cθ : Continuous fun p : ℝ × ℝ => E.θ p.1 φ p.2 z := hE.cθ.comp (f := fun p : ℝ × ℝ => (p.1, φ, p.2, z)) (by fun_prop)
  have cΘ : Continuous fun p : ℝ × ℝ => E.Θ p.1 φ z := hE.cΘ.comp (f := fun p : ℝ × ℝ => (p.1, φ, z)) (by fun_prop)
  have cσ : Continuous fun p : ℝ × ℝ => E.σ p.1 z := hE.cσ.comp (f := fun p : ℝ × ℝ => (p.1, z)) (by fun_prop)
  unfold upwardFlux
  exact continuous_const.mul (cV.mul (continuous_const.mul ((cθ.sub cΘ).div cσ fun p => hE.stable _ _)))

/-- **C183.** Between two longitudes the column mean of the northward flux of QGPV across a latitude is the difference of the column mean of
the eddy energy term at the ends, less the divergence of the eddy momentum flux, plus what leaves through the top, less what comes up
through the ground. -/
theorem C183_crossing (h : ∀ z, 0 ≤ z → z ≤ top → (M z).Obeys a) (hs : Stacked M v v') (hE : E.Balanced M v a om H R cp top φ) (ha : a ≠ 0)
    (h0 : 0 ≤ top) (hc : cos φ ≠ 0) (h1 : -(π / 2) ≤ φ) (h2 : φ ≤ π / 2) (t : ℝ) {l1 l2 : ℝ} (hl : l1 ≤ l2) :
    (∫ l in l1..l2, columnCrossing M v H top φ t l) =
      (columnEnergy E M H R cp top φ t l2 - columnEnergy E M H R cp top φ t l1) / (a * cos φ) -
        (∫ l in l1..l2, columnMomentum E a H top φ t l) +
        ((∫ l in l1..l2, upwardFlux E M om H top φ top t l) - ∫ l in l1..l2, upwardFlux E M om H top φ 0 t l) := by
  have cG : Continuous fun p : ℝ × ℝ => energyGradient E M H R cp φ t p.2 p.1 :=
    (energyGradient_continuous hE hs).comp (f := fun p : ℝ × ℝ => (p.1, t, p.2)) (by fun_prop)
  have iM := ((momentum_continuous hE).comp (f := fun l : ℝ => (t, l)) (by fun_prop)).intervalIntegrable (μ := volume) l1 l2
  have iT := ((upward_continuous hs hE top).comp (f := fun l : ℝ => (t, l)) (by fun_prop)).intervalIntegrable (μ := volume) l1 l2
  have iB := ((upward_continuous hs hE 0).comp (f := fun l : ℝ => (t, l)) (by fun_prop)).intervalIntegrable (μ := volume) l1 l2
  have cD : Continuous fun l => columnMean H top (fun z => energyGradient E M H R cp φ t l z) / (a * cos φ) :=
    (columnMean_continuous (G := fun (l : ℝ) z => energyGradient E M H R cp φ t l z)
      (cG.comp (f := fun p : ℝ × ℝ => (p.2, p.1)) (by fun_prop))).div_const _
  have iD := cD.intervalIntegrable (μ := volume) l1 l2
  simp only [crossing_column h hs hE ha h0 hc h1 h2]
  have e1 := intervalIntegral.integral_add (iD.sub iM) (iT.sub iB)
  have e2 := intervalIntegral.integral_sub iD iM
  have e3 := intervalIntegral.integral_sub iT iB
  simp only [Function.comp_def] at e1 e2 e3
  rw [e1, e2, e3, intervalIntegral.integral_div, ← columnMean_integral h0 (G := fun z l => energyGradient E M H R cp φ t l z) cG hl]
  congr 3
  have cE : ∀ l, Continuous fun z => eddyEnergyTerm R H (R / cp) z φ (E.σ t z) ((M z).U t φ l) (E.Ur t φ z) ((M z).V t φ l) (E.θ t φ l z)
      (E.Θ t φ z) := fun l => by
    have cV : Continuous fun z => (M z).V t φ l := hs.cV.comp (f := fun z : ℝ => (z, t, φ, l)) (by fun_prop)
    have cU : Continuous fun z => (M z).U t φ l := hs.cU.comp (f := fun z : ℝ => (z, t, φ, l)) (by fun_prop)
    have cθ : Continuous fun z => E.θ t φ l z := hE.cθ.comp (f := fun z : ℝ => (t, φ, l, z)) (by fun_prop)
    have cUr : Continuous fun z => E.Ur t φ z := hE.cUr.comp (f := fun z : ℝ => (t, φ, z)) (by fun_prop)
    have cΘ : Continuous fun z => E.Θ t φ z := hE.cΘ.comp (f := fun z : ℝ => (t, φ, z)) (by fun_prop)
    have cσ : Continuous fun z => E.σ t z := hE.cσ.comp (f := fun z : ℝ => (t, z)) (by fun_prop)
    have ce : Continuous fun z : ℝ => R / H * exp (-(R / cp) * z / H) := by fun_prop
    unfold eddyEnergyTerm
    exact ((((cV.pow 2).sub ((cU.sub cUr).pow 2)).sub ((ce.mul ((cθ.sub cΘ).pow 2)).div cσ fun z => hE.stable _ _)).div_const 2).mul continuous_const
  unfold columnEnergy
  rw [← columnMean_sub ((cE l2).intervalIntegrable _ _) ((cE l1).intervalIntegrable _ _)]
  refine columnMean_congr_on h0 fun z z0 z1 => ?_
  exact intervalIntegral.integral_eq_sub_of_hasDerivAt (fun l _ => energy_hasDerivAt hE t l (h z z0 z1))
    ((cG.comp (f := fun l : ℝ => (z, l)) (by fun_prop)).intervalIntegrable _ _)

end Falwa

end
