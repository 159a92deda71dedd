import Verif.Props.ColumnBudget
import Verif.Props.SmoothEddy
import Verif.Props.Taylor

/-!
# C184: all terms that the package returns, as one budget of wave activity
-/

noncomputable section

namespace Falwa

open MeasureTheory Filter Set Real Spec

namespace QGAnalysis

variable {S : QGAnalysis}

/-- The reference wind and temperature that the analysis has by itself. -/
theorem withReference_self (S : QGAnalysis) : S.withReference S.uref S.ptref = S := rfl

/-- Wave activity, F1 + F2 and the contribution of sources do not depend on the reference wind and temperature. -/
theorem withReference_same (hv : S.Valid) (hk : 3 ≤ S.kmax) (U T : ℤ → ℤ → ℝ) (i g : ℤ) (hi : 1 ≤ i ∧ i ≤ S.nlon)
    (hg : S.NorthRow g ∨ S.SouthRow g) :
    (S.withReference U T).lwaBaro i g = S.lwaBaro i g ∧
      (S.withReference U T).advFluxF1 i g + (S.withReference U T).advFluxF2 i g = S.advFluxF1 i g + S.advFluxF2 i g ∧
      (S.withReference U T).ncforceBaro i g = S.ncforceBaro i g := by
  have hv' := hv.withReference U T
  refine ⟨?_, ?_, ?_⟩
  · rw [← ((S.withReference U T).C88_averages i g).2.2.2.1, ← (S.C88_averages i g).2.2.2.1]
    have ev : ∀ f, (S.withReference U T).verticalAverage f = S.verticalAverage f := fun _ => rfl
    have el : ∀ k, (S.withReference U T).layerLwa i g k = S.layerLwa i g k := fun k => by
      rw [C88_lwa hv' i g k, C88_lwa hv i g k, ← C43_lwa hv' i g k, ← C43_lwa hv i g k]
      unfold lwaOfLwaOnly store
      rfl
    rw [ev]
    simp only [el]
  · rcases hg with hg | hg
    · have hg' : (S.withReference U T).NorthRow g := hg
      rw [C83_north hv' hk i g hi hg', C83_north hv hk i g hi hg]
      rfl
    · have hg' : (S.withReference U T).SouthRow g := hg
      rw [C83_south hv' hk i g hi hg', C83_south hv hk i g hi hg]
      rfl
  · have ec : ∀ f, (S.withReference U T).columnMean f = S.columnMean f := fun _ => rfl
    have en : ∀ k, (S.withReference U T).contourNorth i g k = S.contourNorth i g k := fun _ => rfl
    have es : ∀ k, (S.withReference U T).contourSouth i g k = S.contourSouth i g k := fun _ => rfl
    rcases hg with hg | hg
    · have hg' : (S.withReference U T).NorthRow g := hg
      rw [C86_north_partial hv' hk i g hi hg', C86_north_partial hv hk i g hi hg, ec]
      simp only [en]
      rfl
    · have hg' : (S.withReference U T).SouthRow g := hg
      rw [C86_south_partial hv' hk i g hi hg', C86_south_partial hv hk i g hi hg, ec]
      simp only [es]
      rfl

end QGAnalysis

section
variable {E : Eddies} {M : ℝ → Motion} {v v' : ℝ → ℝ → ℝ} {a om H R cp top φs φn φ : ℝ}

/-- The budget of wave activity between all times and longitudes: it changes by the convergence of the total advective flux (with the eddy
energy term) along longitude, by the divergence of the eddy momentum flux, by the flux that comes up through the ground less what leaves
through the top, by what displaced air carries through the ends of the region, and by the source of QGPV less the change of the reference
values. -/
def FullBudget (E : Eddies) (M : ℝ → Motion) (v v' : ℝ → ℝ → ℝ) (a om H R cp top φs φn φ : ℝ) : Prop :=
  ∀ t1 t2 l1 l2 : ℝ, t1 ≤ t2 → l1 ≤ l2 →
    (∫ l in l1..l2, (columnWave M v a H top φs φn φ t2 l - columnWave M v a H top φs φn φ t1 l)) =
      (∫ t in t1..t2, ((columnTransport M v a H top φs φn φ t l1 + columnEnergy E M H R cp top φ t l1) -
          (columnTransport M v a H top φs φn φ t l2 + columnEnergy E M H R cp top φ t l2)) / (a * cos φ)) +
        (∫ t in t1..t2, ∫ l in l1..l2, columnMomentum E a H top φ t l) +
        (∫ t in t1..t2, ∫ l in l1..l2, upwardFlux E M om H top φ 0 t l) -
        (∫ t in t1..t2, ∫ l in l1..l2, upwardFlux E M om H top φ top t l) -
        (∫ t in t1..t2, ∫ l in l1..l2, columnEnds M v H top φs φn t l) +
        ((∫ t in t1..t2, ∫ l in l1..l2, columnSource M v a H top φs φn φ t l fun z t φ l => (M z).S t φ l) -
          ∫ t in t1..t2, ∫ l in l1..l2, columnSource M v a H top φs φn φ t l fun z t _ _ => v' z t)

theorem ends_continuous (hs : Stacked M v v') : Continuous fun p : ℝ × ℝ => columnEnds M v H top φs φn p.1 p.2 := by
  have cq : ∀ x, Continuous fun p : (ℝ × ℝ) × ℝ => (M p.2).q p.1.1 x p.1.2 := fun x =>
    hs.cq.comp (f := fun p : (ℝ × ℝ) × ℝ => (p.2, p.1.1, x, p.1.2)) (by fun_prop)
  have cV : ∀ x, Continuous fun p : (ℝ × ℝ) × ℝ => (M p.2).V p.1.1 x p.1.2 := fun x =>
    hs.cV.comp (f := fun p : (ℝ × ℝ) × ℝ => (p.2, p.1.1, x, p.1.2)) (by fun_prop)
  have cv : Continuous fun p : (ℝ × ℝ) × ℝ => v p.2 p.1.1 := hs.cv.comp (f := fun p : (ℝ × ℝ) × ℝ => (p.2, p.1.1)) (by fun_prop)
  exact columnMean_continuous (G := fun (p : ℝ × ℝ) z => (M z).V p.1 φn p.2 * cos φn * max (v z p.1 - (M z).q p.1 φn p.2) 0 -
    (M z).V p.1 φs p.2 * cos φs * max ((M z).q p.1 φs p.2 - v z p.1) 0)
    ((((cV φn).mul continuous_const).mul ((cv.sub (cq φn)).max continuous_const)).sub
      (((cV φs).mul continuous_const).mul (((cq φs).sub cv).max continuous_const)))

theorem outflow_split (hs : Stacked M v v') (t l : ℝ) :
    columnOutflow M v H top φs φn φ t l = columnCrossing M v H top φ t l + columnEnds M v H top φs φn t l := by
  have cq : ∀ x, Continuous fun z : ℝ => (M z).q t x l := fun x => hs.cq.comp (f := fun z : ℝ => (z, t, x, l)) (by fun_prop)
  have cV : ∀ x, Continuous fun z : ℝ => (M z).V t x l := fun x => hs.cV.comp (f := fun z : ℝ => (z, t, x, l)) (by fun_prop)
  have cv : Continuous fun z : ℝ => v z t := hs.cv.comp (f := fun z : ℝ => (z, t)) (by fun_prop)
  unfold columnOutflow columnCrossing columnEnds
  rw [← columnMean_add]
  · congr 1
    funext z
    unfold meridionalOutflow
    ring
  · exact (((cV φ).mul continuous_const).mul ((cq φ).sub cv)).intervalIntegrable _ _
  · exact ((((cV φn).mul continuous_const).mul ((cv.sub (cq φn)).max continuous_const)).sub
      (((cV φs).mul continuous_const).mul (((cq φs).sub cv).max continuous_const))).intervalIntegrable _ _

theorem energy_continuous (hs : Stacked M v v') (hE : E.Balanced M v a om H R cp top φ) (l : ℝ) :
    Continuous fun t => columnEnergy E M H R cp top φ t l := by
  have cV : Continuous fun p : ℝ × ℝ => (M p.2).V p.1 φ l := hs.cV.comp (f := fun p : ℝ × ℝ => (p.2, p.1, φ, l)) (by fun_prop)
  have cU : Continuous fun p : ℝ × ℝ => (M p.2).U p.1 φ l := hs.cU.comp (f := fun p : ℝ × ℝ => (p.2, p.1, φ, l)) (by fun_prop)
  have cθ : Continuous fun p : ℝ × ℝ => E.θ p.1 φ l p.2 := hE.cθ.comp (f := fun p : ℝ × ℝ => (p.1, φ, l, p.2)) (by fun_prop)
  have cUr : Continuous fun p : ℝ × ℝ => E.Ur p.1 φ p.2 := hE.cUr.comp (f := fun p : ℝ × ℝ => (p.1, φ, p.2)) (by fun_prop)
  have cΘ : Continuous fun p : ℝ × ℝ => E.Θ p.1 φ p.2 := hE.cΘ.comp (f := fun p : ℝ × ℝ => (p.1, φ, p.2)) (by fun_prop)
  have ce : Continuous fun p : ℝ × ℝ => R / H * exp (-(R / cp) * p.2 / H) := by fun_prop
  refine columnMean_continuous (G := fun t z =>
    eddyEnergyTerm R H (R / cp) z φ (E.σ t z) ((M z).U t φ l) (E.Ur t φ z) ((M z).V t φ l) (E.θ t φ l z) (E.Θ t φ z)) ?_
  unfold eddyEnergyTerm
  exact ((((cV.pow 2).sub ((cU.sub cUr).pow 2)).sub ((ce.mul ((cθ.sub cΘ).pow 2)).div hE.cσ fun p => hE.stable _ _)).div_const 2).mul
    continuous_const

theorem transport_continuous (hs : Stacked M v v') (l : ℝ) : Continuous fun t => columnTransport M v a H top φs φn φ t l :=
  columnMean_continuous (G := fun t z =>
      cos φ * meridionalTransport a (fun x => (M z).q t x l) (fun x => (M z).U t x l) (v z t) φs φn φ)
    (continuous_const.mul ((stacked_transport hs a φs φn φ).comp (f := fun p : ℝ × ℝ => (p.2, p.1, l)) (by fun_prop)))

/-- **C184 on the sphere.** -/
theorem C184_column (h : ∀ z, 0 ≤ z → z ≤ top → (M z).Obeys a) (hs : Stacked M v v') (hE : E.Balanced M v a om H R cp top φ) (ha : a ≠ 0)
    (h0 : 0 ≤ top) (hs0 : -(π / 2) ≤ φs) (h1 : φs ≤ φ) (h2 : φ ≤ φn) (hn0 : φn ≤ π / 2) (hc : cos φ ≠ 0) :
    FullBudget E M v v' a om H R cp top φs φn φ := fun t1 t2 l1 l2 ht hl => by
  have line : ∀ {f : ℝ × ℝ → ℝ}, Continuous f → Continuous fun t => ∫ l in l1..l2, f (t, l) := fun {f} hf =>
    intervalIntegral.continuous_parametric_intervalIntegral_of_continuous' (f := fun t l => f (t, l)) hf l1 l2
  have cM := line (momentum_continuous hE)
  have cT := line (upward_continuous hs hE top)
  have cB := line (upward_continuous hs hE 0)
  have cN := line (ends_continuous (H := H) (top := top) (φs := φs) (φn := φn) hs)
  have cE : Continuous fun t => (columnEnergy E M H R cp top φ t l2 - columnEnergy E M H R cp top φ t l1) / (a * cos φ) :=
    ((energy_continuous hs hE l2).sub (energy_continuous hs hE l1)).div_const _
  have cX : Continuous fun t => (columnTransport M v a H top φs φn φ t l1 - columnTransport M v a H top φs φn φ t l2) / (a * cos φ) :=
    ((transport_continuous hs l1).sub (transport_continuous hs l2)).div_const _
  have inner : ∀ t, (∫ l in l1..l2, columnOutflow M v H top φs φn φ t l) =
      (columnEnergy E M H R cp top φ t l2 - columnEnergy E M H R cp top φ t l1) / (a * cos φ) -
        (∫ l in l1..l2, columnMomentum E a H top φ t l) +
        ((∫ l in l1..l2, upwardFlux E M om H top φ top t l) - ∫ l in l1..l2, upwardFlux E M om H top φ 0 t l) +
        ∫ l in l1..l2, columnEnds M v H top φs φn t l := fun t => by
    rw [← C183_crossing h hs hE ha h0 hc (hs0.trans h1) (h2.trans hn0) t hl, ← intervalIntegral.integral_add]
    · exact intervalIntegral.integral_congr fun l _ => outflow_split hs t l
    · have cq : Continuous fun p : ℝ × ℝ => (M p.2).q t φ p.1 := hs.cq.comp (f := fun p : ℝ × ℝ => (p.2, t, φ, p.1)) (by fun_prop)
      have cV : Continuous fun p : ℝ × ℝ => (M p.2).V t φ p.1 := hs.cV.comp (f := fun p : ℝ × ℝ => (p.2, t, φ, p.1)) (by fun_prop)
      have cv : Continuous fun p : ℝ × ℝ => v p.2 t := hs.cv.comp (f := fun p : ℝ × ℝ => (p.2, t)) (by fun_prop)
      exact (columnMean_continuous (G := fun l z => (M z).V t φ l * cos φ * ((M z).q t φ l - v z t))
        ((cV.mul continuous_const).mul (cq.sub cv))).intervalIntegrable _ _
    · exact ((ends_continuous hs).comp (f := fun l : ℝ => (t, l)) (by fun_prop)).intervalIntegrable _ _
  have total : (∫ t in t1..t2, ((columnTransport M v a H top φs φn φ t l1 + columnEnergy E M H R cp top φ t l1) -
          (columnTransport M v a H top φs φn φ t l2 + columnEnergy E M H R cp top φ t l2)) / (a * cos φ)) =
      (∫ t in t1..t2, (columnTransport M v a H top φs φn φ t l1 - columnTransport M v a H top φs φn φ t l2) / (a * cos φ)) -
        ∫ t in t1..t2, (columnEnergy E M H R cp top φ t l2 - columnEnergy E M H R cp top φ t l1) / (a * cos φ) := by
    rw [← intervalIntegral.integral_sub (cX.intervalIntegrable _ _) (cE.intervalIntegrable _ _)]
    refine intervalIntegral.integral_congr fun t _ => ?_
    show _ / _ = _ / _ - _ / _
    rw [← sub_div]
    congr 1
    ring
  have out : (∫ t in t1..t2, ∫ l in l1..l2, columnOutflow M v H top φs φn φ t l) =
      (∫ t in t1..t2, (columnEnergy E M H R cp top φ t l2 - columnEnergy E M H R cp top φ t l1) / (a * cos φ)) -
        (∫ t in t1..t2, ∫ l in l1..l2, columnMomentum E a H top φ t l) +
        ((∫ t in t1..t2, ∫ l in l1..l2, upwardFlux E M om H top φ top t l) -
          ∫ t in t1..t2, ∫ l in l1..l2, upwardFlux E M om H top φ 0 t l) +
        ∫ t in t1..t2, ∫ l in l1..l2, columnEnds M v H top φs φn t l := by
    simp only [inner]
    have e1 := intervalIntegral.integral_add ((((cE.sub cM).add (cT.sub cB))).intervalIntegrable (μ := volume) t1 t2)
      (cN.intervalIntegrable (μ := volume) t1 t2)
    have e2 := intervalIntegral.integral_add ((cE.sub cM).intervalIntegrable (μ := volume) t1 t2)
      ((cT.sub cB).intervalIntegrable (μ := volume) t1 t2)
    have e3 := intervalIntegral.integral_sub (cE.intervalIntegrable (μ := volume) t1 t2) (cM.intervalIntegrable (μ := volume) t1 t2)
    have e4 := intervalIntegral.integral_sub (cT.intervalIntegrable (μ := volume) t1 t2) (cB.intervalIntegrable (μ := volume) t1 t2)
    simp only [Pi.add_apply, Pi.sub_apply] at e1 e2 e3 e4
    rw [e1, e2, e3, e4]
  rw [C181_column h hs ha h0 ht hl hs0 h1 h2 hn0 hc, total, out]
  ring

end

namespace Atmos

variable {E : Eddies} {M : ℝ → Motion} {v v' : ℝ → ℝ → ℝ} {F : ℝ → Flow} {A : ℝ → ℕ → Atmos} {a om H R cp top φ : ℝ} {c : Scheme}

/-- The air is analysed at every time on the grids `A t` as in C181, and winds and potential temperature are those of `M` and `E`. -/
structure Followed (c : Scheme) (M : ℝ → Motion) (E : Eddies) (F : ℝ → Flow) (a om H R cp top : ℝ) (A : ℝ → ℕ → Atmos) : Prop where
  watched : Watched c M F a om H top A
  meridional : ∀ t φ l z, (F t).V φ l z = (M z).V t φ l
  sampled : ∀ t, ∃ (N S : Layers) (ε : ℕ → ℝ), ∀ n, (A t n).Observes (F t) (E.θ t) N S (ε n)
  gas : ∀ t n, (A t n).rr = R
  capacity : ∀ t n, (A t n).cp = cp

/-- At the time `t`, with the reference wind `ur` and potential temperature `pr`, what the flux methods return at points that tend to
longitude `l`: `lwa_baro`, the total advective flux `flux_vector_lambda_baro`, `divergence_eddy_momentum_flux`, `meridional_heat_flux`, and
(if the meridian meets the contours in null sets) `ncforce_baro`. -/
structure FullLimits (c : Scheme) (E : Eddies) (M : ℝ → Motion) (v : ℝ → ℝ → ℝ) (a om H R cp top φs φn φ : ℝ) (A : ℕ → Atmos)
    (ur pr : ℕ → ℤ → ℤ → ℝ) (t l : ℝ) (x g : ℕ → ℤ) : Prop where
  wave : Tendsto (fun n => (((A n).analysis c).withReference (ur n) (pr n)).lwaBaro (x n) (g n)) atTop
    (nhds (columnWave M v a H top φs φn φ t l))
  flux : Tendsto (fun n => (((A n).analysis c).withReference (ur n) (pr n)).zonalFluxSum (x n) (g n)) atTop
    (nhds (columnTransport M v a H top φs φn φ t l + columnEnergy E M H R cp top φ t l))
  momentum : Tendsto (fun n => (((A n).analysis c).withReference (ur n) (pr n)).divEddyMomentumFlux (x n) (g n)) atTop
    (nhds (columnMomentum E a H top φ t l))
  heat : Tendsto (fun n => (((A n).analysis c).withReference (ur n) (pr n)).heatFlux (x n) (g n)) atTop
    (nhds (upwardFlux E M om H top φ 0 t l))
  source : CrossesContours top (fun φ l z => (M z).q t φ l) l (fun z => v z t) →
    Tendsto (fun n => (((A n).analysis c).withReference (ur n) (pr n)).ncforceBaro (x n) (g n)) atTop
      (nhds (columnSource M v a H top φs φn φ t l fun z t φ l => (M z).S t φ l))

theorem FullLimits.of {φs φn : ℝ} {ur pr : ℕ → ℤ → ℤ → ℝ} {t l : ℝ} {x g : ℕ → ℤ} {μ : ℝ → ℝ} (hs : Stacked M v v')
    (hE : E.Balanced M v a om H R cp top φ) (hF : Followed c M E F a om H R cp top A) (hc : cos φ ≠ 0)
    (hcol : ColumnLimits c M v a H top φs φn φ (A t) t l x g) (hP : Toward c (A t) x g l φ) (hin : Inside (A t) g)
    (href : ReferenceTends (A t) g (E.Ur t) (E.Θ t) ur pr) (hst : Stratified c (A t) g top μ (E.σ t)) :
    FullLimits c E M v a om H R cp top φs φn φ (A t) ur pr t l x g := by
  have hS := hF.watched.seen t
  have hA := hS.refines
  obtain ⟨N, S, ε, hO⟩ := hF.sampled t
  have hU := wind_continuous hs hF.watched.wind t
  have hV : Continuous fun p : ℝ × ℝ × ℝ => (F t).V p.1 p.2.1 p.2.2 := by
    simp only [hF.meridional]
    exact hs.cV.comp (f := fun p : ℝ × ℝ × ℝ => (p.2.2, t, p.1, p.2.1)) (by fun_prop)
  have hθ : Continuous fun p : ℝ × ℝ × ℝ => E.θ t p.1 p.2.1 p.2.2 := hE.cθ.comp (f := fun p : ℝ × ℝ × ℝ => (t, p.1, p.2.1, p.2.2)) (by fun_prop)
  have hUr : Continuous fun p : ℝ × ℝ => E.Ur t p.1 p.2 := hE.cUr.comp (f := fun p : ℝ × ℝ => (t, p.1, p.2)) (by fun_prop)
  have hΘ : Continuous fun p : ℝ × ℝ => E.Θ t p.1 p.2 := hE.cΘ.comp (f := fun p : ℝ × ℝ => (t, p.1, p.2)) (by fun_prop)
  have hPc : Continuous fun p : ℝ × ℝ × ℝ => E.P t p.1 p.2.1 p.2.2 := hE.cP.comp (f := fun p : ℝ × ℝ × ℝ => (t, p.1, p.2.1, p.2.2)) (by fun_prop)
  have same := fun n => QGAnalysis.withReference_same ((hA.regular n).valid c) (hA.regular n).kmax3 (ur n) (pr n) (x n) (g n) (hP.col n) (hP.row n)
  have h3 := C182_f3 hO hU hV hθ hUr hΘ hA hS.last (hF.gas t) (hF.capacity t) hP href hst
  have h4 := C182_heat hO hV hθ hΘ hA hS.last hP href hst
  have h5 := C182_divergence (P := E.P t) hO hV hPc (fun y l z => by
    have := hE.dP t y l z
    simp only [← hF.watched.wind, ← hF.meridional] at this
    exact this) hA hS.last hP hin hc href
  simp only [hF.watched.wind, hF.meridional] at h3 h4
  refine ⟨hcol.wave.congr fun n => (same n).1.symm, ?_, h5, ?_, fun hcr => (hcol.source hcr).congr fun n => (same n).2.2.symm⟩
  · refine (hcol.flux.add h3).congr fun n => ?_
    rw [← (same n).2.1]
    rfl
  · have e : upwardFlux E M om H top φ 0 t l = 2 * om * sin φ * cos φ / (∫ z in (0 : ℝ)..top, exp (-z / H)) *
        ((M 0).V t φ l * (E.θ t φ l 0 - E.Θ t φ 0) / E.σ t 0) := by
      unfold upwardFlux
      rw [neg_zero, zero_div, exp_zero, one_mul, mul_div_assoc ((M 0).V t φ l)]
    rw [e]
    exact h4

/-- **C184, Northern Hemisphere.** Air in thermal wind balance whose QGPV changes only by its source is analysed at all times on ever finer
grids; the reference wind and temperature tend to ones whose QGPV is the reference QGPV. The limits of all terms that the package returns
obey the complete budget of wave activity. -/
theorem C184_north (h : ∀ z, 0 ≤ z → z ≤ top → (M z).Obeys a) (hs : Stacked M v v') (hE : E.Balanced M v a om H R cp top φ)
    (hF : Followed c M E F a om H R cp top A) (hW : ∀ t, WaveNorth a top (fun φ l z => (M z).q t φ l) φ fun z => v z t) :
    (∀ t l x g ur pr μ, TowardNorth (A t) x g l φ → Inside (A t) g → ReferenceTends (A t) g (E.Ur t) (E.Θ t) ur pr →
      Stratified c (A t) g top μ (E.σ t) → FullLimits c E M v a om H R cp top 0 (π / 2) φ (A t) ur pr t l x g) ∧
      FullBudget E M v v' a om H R cp top 0 (π / 2) φ := by
  have hpi := pi_pos
  have hr := (hF.watched.seen 0).refines
  have h0 : 0 ≤ top := by
    have := hr.height_mem 0 (k := 1) le_rfl (by have := (hr.regular 0).kmax3; omega)
    exact this.1.trans this.2
  have hc : cos φ ≠ 0 := (cos_pos_of_mem_Ioo ⟨by linarith [(hW 0).north], (hW 0).pole⟩).ne'
  refine ⟨fun t l x g ur pr μ hP hin href hst => ?_, ?_⟩
  · exact FullLimits.of hs hE hF hc ((C181_north h hs hF.watched hW).1 t l x g hP) hP.toward hin href hst
  · exact C184_column h hs hE hr.radius_pos.ne' h0 (by linarith) (hW 0).north (hW 0).pole.le le_rfl hc

/-- **C184, Southern Hemisphere.** -/
theorem C184_south (h : ∀ z, 0 ≤ z → z ≤ top → (M z).Obeys a) (hs : Stacked M v v') (hE : E.Balanced M v a om H R cp top φ)
    (hF : Followed c M E F a om H R cp top A) (hW : ∀ t, WaveSouth a top (fun φ l z => (M z).q t φ l) φ fun z => v z t) :
    (∀ t l x g ur pr μ, TowardSouth (A t) x g l φ → Inside (A t) g → ReferenceTends (A t) g (E.Ur t) (E.Θ t) ur pr →
      Stratified c (A t) g top μ (E.σ t) → FullLimits c E M v a om H R cp top (-(π / 2)) 0 φ (A t) ur pr t l x g) ∧
      FullBudget E M v v' a om H R cp top (-(π / 2)) 0 φ := by
  have hpi := pi_pos
  have hr := (hF.watched.seen 0).refines
  have h0 : 0 ≤ top := by
    have := hr.height_mem 0 (k := 1) le_rfl (by have := (hr.regular 0).kmax3; omega)
    exact this.1.trans this.2
  have hc : cos φ ≠ 0 := (cos_pos_of_mem_Ioo ⟨(hW 0).pole, by linarith [(hW 0).south]⟩).ne'
  refine ⟨fun t l x g ur pr μ hP hin href hst => ?_, ?_⟩
  · exact FullLimits.of hs hE hF hc ((C181_south h hs hF.watched hW).1 t l x g hP) hP.toward hin href hst
  · exact C184_column h hs hE hr.radius_pos.ne' h0 le_rfl (hW 0).pole.le (hW 0).south (by linarith) hc

/-! ### A sample: the wave of C181 with a reference jet and a reference temperature below that of the air -/

/-- At the latitude `φ`. -/
def drivenEddies (κ φ : ℝ) : Eddies where
  θ := fun _ _ _ z => z
  θl := fun _ _ _ => 0
  Ur := fun _ y _ => κ * cos y
  Θ := fun _ _ z => z - 1
  σ := fun _ _ => 1
  Uf := fun t l _ => -((cos φ * cos φ - sin φ * sin φ) * cos (l + t))
  Urf := fun _ _ => -(2 * κ * (sin φ * cos φ))
  Vl := fun t l _ => cos (l + t)
  Vz := fun _ _ _ => 0
  g := fun _ _ z => -exp (-z)
  P := fun t y l _ => ((-(cos y * cos (l + t)) + κ * sin y) * cos y ^ 2 +
    (-(sin y * cos (l + t)) - κ * cos y) * (2 * cos y * -sin y)) * sin (l + t)

theorem drivenEddies_balanced {κ φ v : ℝ} (hc : cos φ ≠ 0) (hκ : v = sin φ + 2 * κ * sin φ + sin φ) :
    (drivenEddies κ φ).Balanced (fun _ => driven) (fun _ _ => v) 1 (1 / 2) 1 1 1 1 φ where
  dU := fun t l z => by
    have h := (((hasDerivAt_sin φ).mul_const (cos (l + t))).neg).mul (hasDerivAt_cos φ)
    refine h.congr_deriv ?_
    show -(cos φ * cos (l + t)) * cos φ + -(sin φ * cos (l + t)) * -sin φ = -((cos φ * cos φ - sin φ * sin φ) * cos (l + t))
    ring
  dUr := fun t z => by
    refine (((hasDerivAt_cos φ).const_mul κ).mul (hasDerivAt_cos φ)).congr_deriv ?_
    show κ * -sin φ * cos φ + κ * cos φ * -sin φ = -(2 * κ * (sin φ * cos φ))
    ring
  dV := fun t l z => (hasDerivAt_sin (l + t)).comp_add_const l t
  dVz := fun t l z => hasDerivAt_const z _
  dθ := fun t l z => hasDerivAt_const l _
  dg := fun t l z => by
    have h1 : HasDerivAt (fun s : ℝ => exp (-s)) (-exp (-z)) z := by
      have := (hasDerivAt_neg z).exp
      rwa [mul_neg_one] at this
    refine h1.congr_of_eventuallyEq (Eventually.of_forall fun s => ?_)
    show exp (-s / 1) * ((s - (s - 1)) / 1) = exp (-s)
    rw [div_one, div_one, sub_sub_cancel, mul_one]
  dP := fun t y l z => by
    have h1 := (((hasDerivAt_sin y).mul_const (cos (l + t))).neg).sub ((hasDerivAt_cos y).const_mul κ)
    have h := (h1.mul ((hasDerivAt_cos y).pow 2)).mul_const (sin (l + t))
    refine h.congr_deriv ?_
    show _ = ((-(cos y * cos (l + t)) + κ * sin y) * cos y ^ 2 +
      (-(sin y * cos (l + t)) - κ * cos y) * (2 * cos y * -sin y)) * sin (l + t)
    simp only [Nat.add_one_sub_one, pow_one, Pi.sub_apply, Pi.neg_apply, Pi.pow_apply]
    push_cast
    ring
  pv := fun t l z _ _ => by
    show sin φ + 2 * (cos φ * cos (l + t)) - v = (cos (l + t) - (-((cos φ * cos φ - sin φ * sin φ) * cos (l + t)) -
      -(2 * κ * (sin φ * cos φ)))) / (1 * cos φ) + 2 * (1 / 2) * sin φ * (exp (z / 1) * -exp (-z))
    have e : exp (z / 1) * -exp (-z) = -1 := by
      rw [div_one, mul_neg, ← exp_add, add_neg_cancel, exp_zero]
    have e2 : sin φ * sin φ = 1 - cos φ * cos φ := by
      have := sin_sq_add_cos_sq φ
      nlinarith
    rw [e, hκ, e2]
    field_simp
    ring
  balance := fun t l z _ _ => by
    show 2 * (1 / 2) * sin φ * 0 = 1 / 1 * exp (-(1 / 1) * z / 1) * 0 / (1 * cos φ)
    simp
  stable := fun _ _ => one_ne_zero
  cθ := by show Continuous fun p : ℝ × ℝ × ℝ × ℝ => p.2.2.2; fun_prop
  cθl := continuous_const
  cUr := by show Continuous fun p : ℝ × ℝ × ℝ => κ * cos p.2.1; fun_prop
  cΘ := by show Continuous fun p : ℝ × ℝ × ℝ => p.2.2 - 1; fun_prop
  cσ := continuous_const
  cVl := by show Continuous fun p : ℝ × ℝ × ℝ => cos (p.2.1 + p.1); fun_prop
  cVz := continuous_const
  cg := by show Continuous fun p : ℝ × ℝ × ℝ => -exp (-p.2.2); fun_prop
  cP := by
    show Continuous fun p : ℝ × ℝ × ℝ × ℝ => ((-(cos p.2.1 * cos (p.2.2.1 + p.1)) + κ * sin p.2.1) * cos p.2.1 ^ 2 +
      (-(sin p.2.1 * cos (p.2.2.1 + p.1)) - κ * cos p.2.1) * (2 * cos p.2.1 * -sin p.2.1)) * sin (p.2.2.1 + p.1)
    fun_prop
  cUl := by show Continuous fun p : ℝ × ℝ × ℝ × ℝ => sin p.2.2.1 * sin (p.2.2.2 + p.2.1); fun_prop

theorem driven_followed (c : Scheme) (κ φ : ℝ) :
    Followed c (fun _ => driven) (drivenEddies κ φ) turned 1 (1 / 2) 1 1 1 1 turnedFine where
  watched := driven_watched c
  meridional := fun _ _ _ _ => rfl
  sampled := fun t => ⟨calmLayers, calmLayers, fun _ => 0, turnedFine_observes t⟩
  gas := fun _ _ => rfl
  capacity := fun _ _ => rfl

/-- Hypotheses of `C184_north` and `C184_south` (and so of `C184_column` and `C183_crossing`), at 45°N and 45°S. -/
example : ∃ v w κ η : ℝ, ∀ c : Scheme,
    ((∀ t, FullLimits c (drivenEddies κ (π / 4)) (fun _ => driven) (fun _ _ => v) 1 (1 / 2) 1 1 1 1 0 (π / 2) (π / 4) (turnedFine t)
        (jetSamples κ t) (coldSamples t) t 0 (fun _ => 1) fun n => (turnedFine t n).nd + (n + 1)) ∧
      FullBudget (drivenEddies κ (π / 4)) (fun _ => driven) (fun _ _ => v) (fun _ _ => 0) 1 (1 / 2) 1 1 1 1 0 (π / 2) (π / 4)) ∧
    ((∀ t, FullLimits c (drivenEddies η (-(π / 4))) (fun _ => driven) (fun _ _ => w) 1 (1 / 2) 1 1 1 1 (-(π / 2)) 0 (-(π / 4)) (turnedFine t)
        (jetSamples η t) (coldSamples t) t 0 (fun _ => 1) fun n => (turnedFine t n).nd - (n + 1)) ∧
      FullBudget (drivenEddies η (-(π / 4))) (fun _ => driven) (fun _ _ => w) (fun _ _ => 0) 1 (1 / 2) 1 1 1 1 (-(π / 2)) 0 (-(π / 4))) := by
  have hpi := pi_pos
  obtain ⟨v, hv⟩ := precession_encloses (φ := π / 4) (by linarith) (by linarith)
  obtain ⟨w, hw⟩ := precession_encloses (φ := -(π / 4)) (by linarith) (by linarith)
  have hN : ∀ t, WaveNorth 1 1 (fun φ l _ => driven.q t φ l) (π / 4) fun _ => v := fun t =>
    ⟨by linarith, by linarith, fun z _ _ => by have := precession_high (2 * t) z; rw [driven_q] at this; exact this,
      fun _ _ _ => driven_encloses hv t⟩
  have hS : ∀ t, WaveSouth 1 1 (fun φ l _ => driven.q t φ l) (-(π / 4)) fun _ => w := fun t =>
    ⟨by linarith, by linarith, fun z _ _ => by have := precession_low (2 * t) z; rw [driven_q] at this; exact this,
      fun _ _ _ => driven_encloses hw t⟩
  have s1 : sin (π / 4) ≠ 0 := (sin_pos_of_pos_of_lt_pi (by linarith) (by linarith)).ne'
  have s2 : sin (-(π / 4)) ≠ 0 := by rw [sin_neg]; exact neg_ne_zero.2 s1
  have c1 : cos (π / 4) ≠ 0 := (cos_pos_of_mem_Ioo ⟨by linarith, by linarith⟩).ne'
  have c2 : cos (-(π / 4)) ≠ 0 := by rw [cos_neg]; exact c1
  refine ⟨v, w, (v - 2 * sin (π / 4)) / (2 * sin (π / 4)), (w - 2 * sin (-(π / 4))) / (2 * sin (-(π / 4))), fun c => ?_⟩
  have n := C184_north (fun _ _ _ => driven_obeys) (driven_stacked v)
    (drivenEddies_balanced (κ := (v - 2 * sin (π / 4)) / (2 * sin (π / 4))) c1 (by field_simp; ring)) (driven_followed c _ _) hN
  have s := C184_south (fun _ _ _ => driven_obeys) (driven_stacked w)
    (drivenEddies_balanced (κ := (w - 2 * sin (-(π / 4))) / (2 * sin (-(π / 4)))) c2 (by field_simp; ring)) (driven_followed c _ _) hS
  exact ⟨⟨fun t => n.1 t 0 _ _ _ _ _ (turnedFine_north t) (turnedFine_insideN t) (turnedFine_reference _ t _) (turnedFine_stratified c t _), n.2⟩,
    ⟨fun t => s.1 t 0 _ _ _ _ _ (turnedFine_south t) (turnedFine_insideS t) (turnedFine_reference _ t _) (turnedFine_stratified c t _), s.2⟩⟩

end Atmos

end Falwa

end
