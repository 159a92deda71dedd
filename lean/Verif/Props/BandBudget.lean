import Verif.Lemmas.Bands
import Verif.Props.FullBudget

/-!
# C185: the budget formed from sums of the package's output over a band of longitudes, and over a whole circle of latitude
-/

noncomputable section

namespace Falwa

open MeasureTheory Filter Set Real Spec

namespace QGAnalysis

variable (S : QGAnalysis)

/-- `convergence_zonal_advective_flux` in column `i` and row `g`, both counted from 1. -/
def convergenceAt (i g : ℤ) : ℝ := S.convergenceZonal (g - 1).toNat (i - 1).toNat

/-- Values of the columns `x1, …, x2 - 1`, times the spacing of the longitudes. -/
def bandSum (X : ℤ → ℝ) (x1 x2 : ℤ) : ℝ := ∑ i ∈ Finset.Ico x1 x2, X i * (2 * π / (S.nlon : ℝ))

variable {S}

theorem convergenceAt_inner {i g : ℤ} (hi : 2 ≤ i ∧ i ≤ S.nlon - 1) (hg : 1 ≤ g) (hc : 1 / 100000 < |cos (S.lat (S.outRow g))|) :
    S.convergenceAt i g = (S.zonalFluxSum (i + 1) g - S.zonalFluxSum (i - 1) g) *
      (-1 / (S.a * cos (S.lat (S.outRow g)) * 2 * (2 * π / (S.nlon : ℝ)))) := by
  have er : (((g - 1).toNat : ℕ) : ℤ) + 1 = g := by omega
  unfold convergenceAt convergenceZonal zonalConvergence
  simp only [er]
  rw [if_pos hc]
  unfold zonalDiff
  have e1 : (((i - 1).toNat + 1 : ℕ) : ℤ) + 1 = i + 1 := by omega
  have e2 : (((i - 1).toNat - 1 : ℕ) : ℤ) + 1 = i - 1 := by omega
  rw [if_neg (by omega), if_neg (by omega)]
  beta_reduce
  rw [e1, e2, er]

theorem flux_telescope (X : ℤ → ℝ) {x1 x2 : ℤ} (h : x1 ≤ x2) :
    ∑ i ∈ Finset.Ico x1 x2, (X (i + 1) - X (i - 1)) = X x2 + X (x2 - 1) - (X x1 + X (x1 - 1)) := by
  induction x2, h using Int.leInduction with
  | base => simp
  | succ j hj ih =>
    have e : Finset.Ico x1 (j + 1) = insert j (Finset.Ico x1 j) := by
      ext i
      simp only [Finset.mem_Ico, Finset.mem_insert]
      omega
    rw [e, Finset.sum_insert (by simp), ih, add_sub_cancel_right]
    ring

/-- The convergence summed over a band is the mean flux at its western end less that at its eastern end. -/
theorem bandSum_convergence {x1 x2 g : ℤ} (h1 : 2 ≤ x1) (h12 : x1 ≤ x2) (h2 : x2 ≤ S.nlon) (hg : 1 ≤ g)
    (hc : 1 / 100000 < |cos (S.lat (S.outRow g))|) :
    S.bandSum (fun i => S.convergenceAt i g) x1 x2 =
      ((S.zonalFluxSum x1 g + S.zonalFluxSum (x1 - 1) g) / 2 - (S.zonalFluxSum x2 g + S.zonalFluxSum (x2 - 1) g) / 2) /
        (S.a * cos (S.lat (S.outRow g))) := by
  have hn : (0 : ℝ) < S.nlon := by exact_mod_cast (by omega : (0 : ℤ) < S.nlon)
  have hd : 2 * π / (S.nlon : ℝ) ≠ 0 := by have := pi_pos; positivity
  have e : ∀ i ∈ Finset.Ico x1 x2, S.convergenceAt i g * (2 * π / (S.nlon : ℝ)) =
      (S.zonalFluxSum (i + 1) g - S.zonalFluxSum (i - 1) g) * (-1 / (2 * (S.a * cos (S.lat (S.outRow g))))) := fun i hi => by
    rw [Finset.mem_Ico] at hi
    rw [convergenceAt_inner (by omega) hg hc, mul_assoc]
    congr 1
    rw [show S.a * cos (S.lat (S.outRow g)) * 2 * (2 * π / (S.nlon : ℝ)) = 2 * (S.a * cos (S.lat (S.outRow g))) * (2 * π / (S.nlon : ℝ)) by ring,
      ← div_div, div_mul_cancel₀ _ hd]
  unfold bandSum
  rw [Finset.sum_congr rfl e, ← Finset.sum_mul, flux_telescope (fun i => S.zonalFluxSum i g) h12]
  rw [show (-1 : ℝ) / (2 * (S.a * cos (S.lat (S.outRow g)))) = -(1 / 2) * (S.a * cos (S.lat (S.outRow g)))⁻¹ by
    rw [div_eq_mul_inv, mul_inv]; ring, div_eq_mul_inv _ (S.a * _)]
  ring

end QGAnalysis

namespace Atmos

variable {E : Eddies} {M : ℝ → Motion} {v v' : ℝ → ℝ → ℝ} {F : ℝ → Flow} {A : ℝ → ℕ → Atmos} {a om H R cp top φ : ℝ} {c : Scheme}

/-- At the time `t`, the sums of the output over the columns from `x1` to `x2`, which tend to the longitudes `l1` and `l2`: `lwa_baro`,
`convergence_zonal_advective_flux`, `divergence_eddy_momentum_flux`, `meridional_heat_flux` and `ncforce_baro`. -/
structure BandLimits (c : Scheme) (E : Eddies) (M : ℝ → Motion) (v : ℝ → ℝ → ℝ) (a om H R cp top φs φn φ : ℝ) (A : ℕ → Atmos)
    (ur pr : ℕ → ℤ → ℤ → ℝ) (t l1 l2 : ℝ) (x1 x2 g : ℕ → ℤ) : Prop where
  wave : Tendsto (fun n => (((A n).analysis c).withReference (ur n) (pr n)).bandSum
      (fun i => (((A n).analysis c).withReference (ur n) (pr n)).lwaBaro i (g n)) (x1 n) (x2 n)) atTop
    (nhds (∫ l in l1..l2, columnWave M v a H top φs φn φ t l))
  convergence : Tendsto (fun n => (((A n).analysis c).withReference (ur n) (pr n)).bandSum
      (fun i => (((A n).analysis c).withReference (ur n) (pr n)).convergenceAt i (g n)) (x1 n) (x2 n)) atTop
    (nhds (((columnTransport M v a H top φs φn φ t l1 + columnEnergy E M H R cp top φ t l1) -
      (columnTransport M v a H top φs φn φ t l2 + columnEnergy E M H R cp top φ t l2)) / (a * cos φ)))
  momentum : Tendsto (fun n => (((A n).analysis c).withReference (ur n) (pr n)).bandSum
      (fun i => (((A n).analysis c).withReference (ur n) (pr n)).divEddyMomentumFlux i (g n)) (x1 n) (x2 n)) atTop
    (nhds (∫ l in l1..l2, columnMomentum E a H top φ t l))
  heat : Tendsto (fun n => (((A n).analysis c).withReference (ur n) (pr n)).bandSum
      (fun i => (((A n).analysis c).withReference (ur n) (pr n)).heatFlux i (g n)) (x1 n) (x2 n)) atTop
    (nhds (∫ l in l1..l2, upwardFlux E M om H top φ 0 t l))
  source : (∀ l, CrossesContours top (fun φ l z => (M z).q t φ l) l (fun z => v z t)) →
    Tendsto (fun n => (((A n).analysis c).withReference (ur n) (pr n)).bandSum
        (fun i => (((A n).analysis c).withReference (ur n) (pr n)).ncforceBaro i (g n)) (x1 n) (x2 n)) atTop
      (nhds (∫ l in l1..l2, columnSource M v a H top φs φn φ t l fun z t φ l => (M z).S t φ l))

theorem Refines.columns {A : ℕ → Atmos} (hA : Refines a om H top A) : (∀ n, 5 ≤ (A n).nlon) ∧ Tendsto (fun n => (A n).nlon) atTop atTop := by
  have h5 : ∀ n, (A n).nlat ≤ (A n).nlon ∧ 5 ≤ (A n).nlat := fun n => by
    have := (hA.regular n).nd3
    have := (hA.regular n).odd
    have := hA.square n
    omega
  exact ⟨fun n => (h5 n).2.trans (h5 n).1, tendsto_atTop_mono (fun n => (h5 n).1) hA.rows⟩

section
variable {A : ℕ → Atmos} {ur pr : ℕ → ℤ → ℤ → ℝ} {φs φn t l1 l2 : ℝ} {x1 x2 g : ℕ → ℤ}

theorem BandLimits.of (hA : Refines a om H top A) (hc : 1 / 100000 < |cos φ|) (hg : ∀ n, 1 ≤ g n)
    (hlat : Tendsto (fun n => (A n).lat ((A n).outRow (g n))) atTop (nhds φ))
    (hlim : ∀ l x, (∀ n, 1 ≤ x n ∧ x n ≤ (A n).nlon) → Tendsto (fun n => (A n).sphere.longitude (x n)) atTop (nhds l) →
      FullLimits c E M v a om H R cp top φs φn φ A ur pr t l x g)
    (h1 : ∀ n, 2 ≤ x1 n) (h12 : ∀ n, x1 n ≤ x2 n) (h2 : ∀ n, x2 n ≤ (A n).nlon)
    (t1 : Tendsto (fun n => (A n).sphere.longitude (x1 n)) atTop (nhds l1))
    (t2 : Tendsto (fun n => (A n).sphere.longitude (x2 n)) atTop (nhds l2)) :
    BandLimits c E M v a om H R cp top φs φn φ A ur pr t l1 l2 x1 x2 g := by
  obtain ⟨n5, hN⟩ := hA.columns
  have hN1 : ∀ n, 1 ≤ (A n).nlon := fun n => by have := n5 n; omega
  have b1 : ∀ n, 1 ≤ x1 n := fun n => by have := h1 n; omega
  have b2 : ∀ n, x2 n ≤ (A n).nlon + 1 := fun n => by have := h2 n; omega
  refine ⟨?_, ?_, ?_, ?_, fun hcr => ?_⟩
  · exact (Bands.Tend.band (N := fun n => (A n).nlon) (f := columnWave M v a H top φs φn φ t) (fun l x hx hl => (hlim l x hx hl).wave) hN1 hN b1 h12 b2 t1 t2)
  · have hcs : Tendsto (fun n => cos ((A n).lat ((A n).outRow (g n)))) atTop (nhds (cos φ)) := (continuous_cos.tendsto φ).comp hlat
    have hev := hcs.abs.eventually (lt_mem_nhds hc)
    have hc0 : a * cos φ ≠ 0 := mul_ne_zero hA.radius_pos.ne' fun h0 => by rw [h0, abs_zero] at hc; norm_num at hc
    have shift : ∀ {x : ℕ → ℤ} {l : ℝ}, Tendsto (fun n => (A n).sphere.longitude (x n)) atTop (nhds l) →
        Tendsto (fun n => (A n).sphere.longitude (x n - 1)) atTop (nhds l) := fun {x l} hx => by
      have := hx.sub (Bands.step_tends hN)
      rw [sub_zero] at this
      refine this.congr fun n => ?_
      have e := Bands.lon_succ (A n).nlon (x n - 1)
      rw [sub_add_cancel] at e
      show Bands.lon (A n).nlon (x n) - _ = Bands.lon (A n).nlon (x n - 1)
      rw [e, add_sub_cancel_right]
    have f1 := (hlim l1 x1 (fun n => ⟨b1 n, (h12 n).trans (h2 n)⟩) t1).flux
    have f1' := (hlim l1 (fun n => x1 n - 1) (fun n => ⟨by have := h1 n; omega, by have := h12 n; have := h2 n; omega⟩) (shift t1)).flux
    have f2 := (hlim l2 x2 (fun n => ⟨(b1 n).trans (h12 n), h2 n⟩) t2).flux
    have f2' := (hlim l2 (fun n => x2 n - 1) (fun n => ⟨by have := h1 n; have := h12 n; omega, by have := h2 n; omega⟩) (shift t2)).flux
    have key := ((((f1.add f1').div_const 2).sub ((f2.add f2').div_const 2)).div (hcs.const_mul a) hc0)
    rw [add_self_div_two, add_self_div_two] at key
    refine key.congr' ?_
    filter_upwards [hev] with n hn
    have hk := QGAnalysis.bandSum_convergence (S := ((A n).analysis c).withReference (ur n) (pr n)) (h1 n) (h12 n) (h2 n) (hg n) hn
    rw [hk, ← hA.radius n]
    rfl
  · exact (Bands.Tend.band (N := fun n => (A n).nlon) (f := columnMomentum E a H top φ t) (fun l x hx hl => (hlim l x hx hl).momentum) hN1 hN b1 h12 b2 t1 t2)
  · exact (Bands.Tend.band (N := fun n => (A n).nlon) (f := upwardFlux E M om H top φ 0 t) (fun l x hx hl => (hlim l x hx hl).heat) hN1 hN b1 h12 b2 t1 t2)
  · exact (Bands.Tend.band (N := fun n => (A n).nlon) (f := fun l => columnSource M v a H top φs φn φ t l fun z t φ l => (M z).S t φ l)
      (fun l x hx hl => (hlim l x hx hl).source (hcr l)) hN1 hN b1 h12 b2 t1 t2)

end

/-- **C185, Northern Hemisphere.** The sums of the output over the columns of a band of longitudes tend to the terms of the budget. -/
theorem C185_north (h : ∀ z, 0 ≤ z → z ≤ top → (M z).Obeys a) (hs : Stacked M v v') (hE : E.Balanced M v a om H R cp top φ)
    (hF : Followed c M E F a om H R cp top A) (hW : ∀ t, WaveNorth a top (fun φ l z => (M z).q t φ l) φ fun z => v z t)
    (hc : 1 / 100000 < cos φ) :
    (∀ t l1 l2 x1 x2 g ur pr μ, TowardNorth (A t) x1 g l1 φ → TowardNorth (A t) x2 g l2 φ → (∀ n, 2 ≤ x1 n ∧ x1 n ≤ x2 n) → Inside (A t) g →
      ReferenceTends (A t) g (E.Ur t) (E.Θ t) ur pr → Stratified c (A t) g top μ (E.σ t) →
      BandLimits c E M v a om H R cp top 0 (π / 2) φ (A t) ur pr t l1 l2 x1 x2 g) ∧
      FullBudget E M v v' a om H R cp top 0 (π / 2) φ := by
  obtain ⟨hlim, hbud⟩ := C184_north h hs hE hF hW
  refine ⟨fun t l1 l2 x1 x2 g ur pr μ hP hQ hx hin href hst => ?_, hbud⟩
  have hA := (hF.watched.seen t).refines
  refine BandLimits.of hA (hc.trans_le (le_abs_self _)) (fun n => ?_) hP.latitude
    (fun l x hxc hl => hlim t l x g ur pr μ ⟨hxc, hP.row, hl, hP.latitude⟩ hin href hst) (fun n => (hx n).1) (fun n => (hx n).2)
    (fun n => (hQ.col n).2) hP.longitude hQ.longitude
  have hr := (hP.row n).1
  have hodd := (hA.regular n).odd
  have := (hA.regular n).nd3
  unfold outRow at hr
  by_cases hb : (A t n).nhOnly = true
  · have e : (A t n).rows = (A t n).nd := by unfold rows; simp [hb]
    omega
  · have e : (A t n).rows = (A t n).nlat := by unfold rows; simp [hb]
    omega

/-- **C185, Southern Hemisphere.** -/
theorem C185_south (h : ∀ z, 0 ≤ z → z ≤ top → (M z).Obeys a) (hs : Stacked M v v') (hE : E.Balanced M v a om H R cp top φ)
    (hF : Followed c M E F a om H R cp top A) (hW : ∀ t, WaveSouth a top (fun φ l z => (M z).q t φ l) φ fun z => v z t)
    (hc : 1 / 100000 < cos φ) :
    (∀ t l1 l2 x1 x2 g ur pr μ, TowardSouth (A t) x1 g l1 φ → TowardSouth (A t) x2 g l2 φ → (∀ n, 2 ≤ x1 n ∧ x1 n ≤ x2 n) → Inside (A t) g →
      ReferenceTends (A t) g (E.Ur t) (E.Θ t) ur pr → Stratified c (A t) g top μ (E.σ t) →
      BandLimits c E M v a om H R cp top (-(π / 2)) 0 φ (A t) ur pr t l1 l2 x1 x2 g) ∧
      FullBudget E M v v' a om H R cp top (-(π / 2)) 0 φ := by
  obtain ⟨hlim, hbud⟩ := C184_south h hs hE hF hW
  refine ⟨fun t l1 l2 x1 x2 g ur pr μ hP hQ hx hin href hst => ?_, hbud⟩
  have hA := (hF.watched.seen t).refines
  exact BandLimits.of hA (hc.trans_le (le_abs_self _)) (fun n => (hP.row n).1.le) (hP.toward (c := c)).latitude
    (fun l x hxc hl => hlim t l x g ur pr μ ⟨hP.globe, hxc, hP.row, hl, hP.latitude⟩ hin href hst) (fun n => (hx n).1) (fun n => (hx n).2)
    (fun n => (hQ.col n).2) hP.longitude hQ.longitude

/-! ### A whole circle of latitude -/

/-- Winds, QGPV and potential temperature return to themselves after 360° of longitude. -/
structure Round (M : ℝ → Motion) (E : Eddies) : Prop where
  q : ∀ z t φ l, (M z).q t φ (l + 2 * π) = (M z).q t φ l
  U : ∀ z t φ l, (M z).U t φ (l + 2 * π) = (M z).U t φ l
  V : ∀ z t φ l, (M z).V t φ (l + 2 * π) = (M z).V t φ l
  θ : ∀ t φ l z, E.θ t φ (l + 2 * π) z = E.θ t φ l z

/-- The sums over all columns: the convergence of the zonal flux leaves nothing, on every grid. -/
structure CircleLimits (c : Scheme) (E : Eddies) (M : ℝ → Motion) (v : ℝ → ℝ → ℝ) (a om H top φs φn φ : ℝ) (A : ℕ → Atmos)
    (ur pr : ℕ → ℤ → ℤ → ℝ) (t : ℝ) (g : ℕ → ℤ) : Prop where
  wave : Tendsto (fun n => (((A n).analysis c).withReference (ur n) (pr n)).bandSum
      (fun i => (((A n).analysis c).withReference (ur n) (pr n)).lwaBaro i (g n)) 1 ((A n).nlon + 1)) atTop
    (nhds (∫ l in (0 : ℝ)..(2 * π), columnWave M v a H top φs φn φ t l))
  convergence : ∀ n, (((A n).analysis c).withReference (ur n) (pr n)).bandSum
      (fun i => (((A n).analysis c).withReference (ur n) (pr n)).convergenceAt i (g n)) 1 ((A n).nlon + 1) = 0
  momentum : Tendsto (fun n => (((A n).analysis c).withReference (ur n) (pr n)).bandSum
      (fun i => (((A n).analysis c).withReference (ur n) (pr n)).divEddyMomentumFlux i (g n)) 1 ((A n).nlon + 1)) atTop
    (nhds (∫ l in (0 : ℝ)..(2 * π), columnMomentum E a H top φ t l))
  heat : Tendsto (fun n => (((A n).analysis c).withReference (ur n) (pr n)).bandSum
      (fun i => (((A n).analysis c).withReference (ur n) (pr n)).heatFlux i (g n)) 1 ((A n).nlon + 1)) atTop
    (nhds (∫ l in (0 : ℝ)..(2 * π), upwardFlux E M om H top φ 0 t l))
  source : (∀ l, CrossesContours top (fun φ l z => (M z).q t φ l) l (fun z => v z t)) →
    Tendsto (fun n => (((A n).analysis c).withReference (ur n) (pr n)).bandSum
        (fun i => (((A n).analysis c).withReference (ur n) (pr n)).ncforceBaro i (g n)) 1 ((A n).nlon + 1)) atTop
      (nhds (∫ l in (0 : ℝ)..(2 * π), columnSource M v a H top φs φn φ t l fun z t φ l => (M z).S t φ l))

/-- The budget of the zonal mean, times 2π: neither advection along the circle nor the eddy energy contributes. -/
def CircleBudget (E : Eddies) (M : ℝ → Motion) (v v' : ℝ → ℝ → ℝ) (a om H top φs φn φ : ℝ) : Prop :=
  ∀ t1 t2 : ℝ, t1 ≤ t2 →
    (∫ l in (0 : ℝ)..(2 * π), (columnWave M v a H top φs φn φ t2 l - columnWave M v a H top φs φn φ t1 l)) =
      (∫ t in t1..t2, ∫ l in (0 : ℝ)..(2 * π), columnMomentum E a H top φ t l) +
        (∫ t in t1..t2, ∫ l in (0 : ℝ)..(2 * π), upwardFlux E M om H top φ 0 t l) -
        (∫ t in t1..t2, ∫ l in (0 : ℝ)..(2 * π), upwardFlux E M om H top φ top t l) -
        (∫ t in t1..t2, ∫ l in (0 : ℝ)..(2 * π), columnEnds M v H top φs φn t l) +
        ((∫ t in t1..t2, ∫ l in (0 : ℝ)..(2 * π), columnSource M v a H top φs φn φ t l fun z t φ l => (M z).S t φ l) -
          ∫ t in t1..t2, ∫ l in (0 : ℝ)..(2 * π), columnSource M v a H top φs φn φ t l fun z t _ _ => v' z t)

theorem CircleBudget.of {φs φn : ℝ} (hR : Round M E) (h : FullBudget E M v v' a om H R cp top φs φn φ) :
    CircleBudget E M v v' a om H top φs φn φ := fun t1 t2 ht => by
  have hb := h t1 t2 0 (2 * π) ht (by have := pi_pos; positivity)
  have eT : ∀ t, columnTransport M v a H top φs φn φ t (2 * π) = columnTransport M v a H top φs φn φ t 0 := fun t => by
    have q := fun z x => hR.q z t x 0
    have u := fun z x => hR.U z t x 0
    simp only [zero_add] at q u
    unfold columnTransport
    simp only [q, u]
  have eE : ∀ t, columnEnergy E M H R cp top φ t (2 * π) = columnEnergy E M H R cp top φ t 0 := fun t => by
    have u := fun z x => hR.U z t x 0
    have w := fun z x => hR.V z t x 0
    have th := fun z x => hR.θ t x 0 z
    simp only [zero_add] at u w th
    unfold columnEnergy
    simp only [u, w, th]
  rw [hb]
  simp only [eT, eE, sub_self, zero_div]
  rw [intervalIntegral.integral_zero, zero_add]

section
variable {A : ℕ → Atmos} {ur pr : ℕ → ℤ → ℤ → ℝ} {φs φn t : ℝ} {g : ℕ → ℤ}

theorem CircleLimits.of (hA : Refines a om H top A)
    (hlim : ∀ l x, (∀ n, 1 ≤ x n ∧ x n ≤ (A n).nlon) → Tendsto (fun n => (A n).sphere.longitude (x n)) atTop (nhds l) →
      FullLimits c E M v a om H R cp top φs φn φ A ur pr t l x g) :
    CircleLimits c E M v a om H top φs φn φ A ur pr t g := by
  obtain ⟨n5, hN⟩ := hA.columns
  have hN1 : ∀ n, 1 ≤ (A n).nlon := fun n => by have := n5 n; omega
  have t1 : Tendsto (fun n => Bands.lon (A n).nlon 1) atTop (nhds 0) := tendsto_const_nhds.congr fun n => by
    unfold Bands.lon
    norm_num
  have t2 : Tendsto (fun n => Bands.lon (A n).nlon ((A n).nlon + 1)) atTop (nhds (2 * π)) := tendsto_const_nhds.congr fun n => by
    have : ((A n).nlon : ℝ) ≠ 0 := by exact_mod_cast (by have := hN1 n; omega : (A n).nlon ≠ 0)
    unfold Bands.lon
    push_cast
    rw [add_sub_cancel_right, div_mul_cancel₀ _ this]
  have b12 : ∀ n, 1 ≤ (A n).nlon + 1 := fun n => by have := hN1 n; omega
  refine ⟨?_, fun n => ?_, ?_, ?_, fun hcr => ?_⟩
  · exact (Bands.Tend.band (N := fun n => (A n).nlon) (f := columnWave M v a H top φs φn φ t) (fun l x hx hl => (hlim l x hx hl).wave) hN1 hN
      (fun _ => le_rfl) b12 (fun _ => le_rfl) t1 t2)
  · have h0 := ((((A n).analysis c).withReference (ur n) (pr n)).C44_convergence (by show 2 ≤ (A n).nlon; have := n5 n; omega) (g n - 1).toNat).1
    unfold QGAnalysis.bandSum QGAnalysis.convergenceAt
    rw [← Finset.sum_mul]
    refine mul_eq_zero_of_left ?_ _
    rw [← h0]
    refine Finset.sum_bij' (fun i _ => (i - 1).toNat) (fun k _ => (k : ℤ) + 1) ?_ ?_ ?_ ?_ ?_
    · intro i hi
      rw [Finset.mem_Ico] at hi
      rw [Finset.mem_range]
      show _ < (A n).nlon.toNat
      omega
    · intro k hk
      rw [Finset.mem_range] at hk
      change k < (A n).nlon.toNat at hk
      rw [Finset.mem_Ico]
      omega
    · intro i hi
      rw [Finset.mem_Ico] at hi
      omega
    · intro k hk
      omega
    · intro i hi
      rfl
  · exact (Bands.Tend.band (N := fun n => (A n).nlon) (f := columnMomentum E a H top φ t) (fun l x hx hl => (hlim l x hx hl).momentum) hN1 hN
      (fun _ => le_rfl) b12 (fun _ => le_rfl) t1 t2)
  · exact (Bands.Tend.band (N := fun n => (A n).nlon) (f := upwardFlux E M om H top φ 0 t) (fun l x hx hl => (hlim l x hx hl).heat) hN1 hN
      (fun _ => le_rfl) b12 (fun _ => le_rfl) t1 t2)
  · exact (Bands.Tend.band (N := fun n => (A n).nlon) (f := fun l => columnSource M v a H top φs φn φ t l fun z t φ l => (M z).S t φ l)
      (fun l x hx hl => (hlim l x hx hl).source (hcr l)) hN1 hN (fun _ => le_rfl) b12 (fun _ => le_rfl) t1 t2)

end

/-- **C186, Northern Hemisphere.** The sums of the output over all columns tend to the terms of the budget of the zonal mean. -/
theorem C186_north (h : ∀ z, 0 ≤ z → z ≤ top → (M z).Obeys a) (hs : Stacked M v v') (hE : E.Balanced M v a om H R cp top φ)
    (hR : Round M E) (hF : Followed c M E F a om H R cp top A) (hW : ∀ t, WaveNorth a top (fun φ l z => (M z).q t φ l) φ fun z => v z t) :
    (∀ t x g l ur pr μ, TowardNorth (A t) x g l φ → Inside (A t) g → ReferenceTends (A t) g (E.Ur t) (E.Θ t) ur pr →
      Stratified c (A t) g top μ (E.σ t) → CircleLimits c E M v a om H top 0 (π / 2) φ (A t) ur pr t g) ∧
      CircleBudget E M v v' a om H top 0 (π / 2) φ := by
  obtain ⟨hlim, hbud⟩ := C184_north h hs hE hF hW
  exact ⟨fun t x g l ur pr μ hP hin href hst => CircleLimits.of (hF.watched.seen t).refines
    fun l x hxc hl => hlim t l x g ur pr μ ⟨hxc, hP.row, hl, hP.latitude⟩ hin href hst, CircleBudget.of hR hbud⟩

/-- **C186, Southern Hemisphere.** -/
theorem C186_south (h : ∀ z, 0 ≤ z → z ≤ top → (M z).Obeys a) (hs : Stacked M v v') (hE : E.Balanced M v a om H R cp top φ)
    (hR : Round M E) (hF : Followed c M E F a om H R cp top A) (hW : ∀ t, WaveSouth a top (fun φ l z => (M z).q t φ l) φ fun z => v z t) :
    (∀ t x g l ur pr μ, TowardSouth (A t) x g l φ → Inside (A t) g → ReferenceTends (A t) g (E.Ur t) (E.Θ t) ur pr →
      Stratified c (A t) g top μ (E.σ t) → CircleLimits c E M v a om H top (-(π / 2)) 0 φ (A t) ur pr t g) ∧
      CircleBudget E M v v' a om H top (-(π / 2)) 0 φ := by
  obtain ⟨hlim, hbud⟩ := C184_south h hs hE hF hW
  exact ⟨fun t x g l ur pr μ hP hin href hst => CircleLimits.of (hF.watched.seen t).refines
    fun l x hxc hl => hlim t l x g ur pr μ ⟨hP.globe, hxc, hP.row, hl, hP.latitude⟩ hin href hst, CircleBudget.of hR hbud⟩

/-! ### The sample of C184 between 0° and 180°, and on the whole circle -/

theorem half_columns {A : ℕ → Atmos} (hA : Refines a om H top A) :
    (∀ n, 2 ≤ (A n).nlat - 1 ∧ (A n).nlat - 1 ≤ (A n).nlon) ∧
      Tendsto (fun n => (A n).sphere.longitude 2) atTop (nhds 0) ∧
      Tendsto (fun n => (A n).sphere.longitude ((A n).nlat - 1)) atTop (nhds π) := by
  have hs := Bands.step_tends hA.columns.2
  have hb : ∀ n, 2 ≤ (A n).nlat - 1 ∧ (A n).nlat - 1 ≤ (A n).nlon := fun n => by
    have := (hA.regular n).nd3
    have := (hA.regular n).odd
    have := hA.square n
    omega
  refine ⟨hb, hs.congr fun n => ?_, ?_⟩
  · show _ = 2 * π / ((A n).nlon : ℝ) * (((2 : ℤ) : ℝ) - 1)
    norm_num
  · have := hs.const_sub π
    rw [sub_zero] at this
    refine this.congr fun n => ?_
    have hne : (((A n).nlat : ℝ) - 1) ≠ 0 := by
      have : (1 : ℝ) < (A n).nlat := by exact_mod_cast (by have := (hb n).1; omega : 1 < (A n).nlat)
      linarith
    show _ = 2 * π / ((A n).nlon : ℝ) * ((((A n).nlat - 1 : ℤ) : ℝ) - 1)
    rw [hA.square n]
    push_cast
    field_simp
    try ring

theorem driven_round (κ φ : ℝ) : Round (fun _ => driven) (drivenEddies κ φ) where
  q := fun z t x l => by
    show sin x + 2 * (cos x * cos (l + 2 * π + t)) = sin x + 2 * (cos x * cos (l + t))
    rw [show l + 2 * π + t = l + t + 2 * π by ring, cos_add_two_pi]
  U := fun z t x l => by
    show -(sin x * cos (l + 2 * π + t)) = -(sin x * cos (l + t))
    rw [show l + 2 * π + t = l + t + 2 * π by ring, cos_add_two_pi]
  V := fun z t x l => by
    show sin (l + 2 * π + t) = sin (l + t)
    rw [show l + 2 * π + t = l + t + 2 * π by ring, sin_add_two_pi]
  θ := fun _ _ _ _ => rfl

/-- Hypotheses of `C185_north`, `C185_south`, `C186_north` and `C186_south`, at 45°N and 45°S. -/
example : ∃ v w κ η : ℝ, ∀ c : Scheme,
    ((∀ t, BandLimits c (drivenEddies κ (π / 4)) (fun _ => driven) (fun _ _ => v) 1 (1 / 2) 1 1 1 1 0 (π / 2) (π / 4) (turnedFine t)
        (jetSamples κ t) (coldSamples t) t 0 π (fun _ => 2) (fun n => (turnedFine t n).nlat - 1) fun n => (turnedFine t n).nd + (n + 1)) ∧
      (∀ t, CircleLimits c (drivenEddies κ (π / 4)) (fun _ => driven) (fun _ _ => v) 1 (1 / 2) 1 1 0 (π / 2) (π / 4) (turnedFine t)
        (jetSamples κ t) (coldSamples t) t fun n => (turnedFine t n).nd + (n + 1)) ∧
      CircleBudget (drivenEddies κ (π / 4)) (fun _ => driven) (fun _ _ => v) (fun _ _ => 0) 1 (1 / 2) 1 1 0 (π / 2) (π / 4)) ∧
    ((∀ t, BandLimits c (drivenEddies η (-(π / 4))) (fun _ => driven) (fun _ _ => w) 1 (1 / 2) 1 1 1 1 (-(π / 2)) 0 (-(π / 4)) (turnedFine t)
        (jetSamples η t) (coldSamples t) t 0 π (fun _ => 2) (fun n => (turnedFine t n).nlat - 1) fun n => (turnedFine t n).nd - (n + 1)) ∧
      (∀ t, CircleLimits c (drivenEddies η (-(π / 4))) (fun _ => driven) (fun _ _ => w) 1 (1 / 2) 1 1 (-(π / 2)) 0 (-(π / 4)) (turnedFine t)
        (jetSamples η t) (coldSamples t) t fun n => (turnedFine t n).nd - (n + 1)) ∧
      CircleBudget (drivenEddies η (-(π / 4))) (fun _ => driven) (fun _ _ => w) (fun _ _ => 0) 1 (1 / 2) 1 1 (-(π / 2)) 0 (-(π / 4))) := by
  have hpi := pi_pos
  obtain ⟨v, hv⟩ := precession_encloses (φ := π / 4) (by linarith) (by linarith)
  obtain ⟨w, hw⟩ := precession_encloses (φ := -(π / 4)) (by linarith) (by linarith)
  have hN : ∀ t, WaveNorth 1 1 (fun φ l _ => driven.q t φ l) (π / 4) fun _ => v := fun t =>
    ⟨by linarith, by linarith, fun z _ _ => by have := precession_high (2 * t) z; rw [driven_q] at this; exact this,
      fun _ _ _ => driven_encloses hv t⟩
  have hS : ∀ t, WaveSouth 1 1 (fun φ l _ => driven.q t φ l) (-(π / 4)) fun _ => w := fun t =>
    ⟨by linarith, by linarith, fun z _ _ => by have := precession_low (2 * t) z; rw [driven_q] at this; exact this,
      fun _ _ _ => driven_encloses hw t⟩
  have s1 : sin (π / 4) ≠ 0 := (sin_pos_of_pos_of_lt_pi (by linarith) (by linarith)).ne'
  have s2 : sin (-(π / 4)) ≠ 0 := by rw [sin_neg]; exact neg_ne_zero.2 s1
  have c0 : 1 / 100000 < cos (π / 4) := by
    rw [cos_pi_div_four]
    have : (1 : ℝ) ≤ √2 := Real.one_le_sqrt.2 (by norm_num)
    linarith
  have c0' : 1 / 100000 < cos (-(π / 4)) := by rw [cos_neg]; exact c0
  have c1 : cos (π / 4) ≠ 0 := (cos_pos_of_mem_Ioo ⟨by linarith, by linarith⟩).ne'
  have c2 : cos (-(π / 4)) ≠ 0 := by rw [cos_neg]; exact c1
  refine ⟨v, w, (v - 2 * sin (π / 4)) / (2 * sin (π / 4)), (w - 2 * sin (-(π / 4))) / (2 * sin (-(π / 4))), fun c => ?_⟩
  have bN := drivenEddies_balanced (κ := (v - 2 * sin (π / 4)) / (2 * sin (π / 4))) (v := v) c1 (by field_simp; ring)
  have bS := drivenEddies_balanced (κ := (w - 2 * sin (-(π / 4))) / (2 * sin (-(π / 4)))) (v := w) c2 (by field_simp; ring)
  have n := C185_north (fun _ _ _ => driven_obeys) (driven_stacked v) bN (driven_followed c _ _) hN c0
  have s := C185_south (fun _ _ _ => driven_obeys) (driven_stacked w) bS (driven_followed c _ _) hS c0'
  have n' := C186_north (fun _ _ _ => driven_obeys) (driven_stacked v) bN (driven_round _ _) (driven_followed c _ _) hN
  have s' := C186_south (fun _ _ _ => driven_obeys) (driven_stacked w) bS (driven_round _ _) (driven_followed c _ _) hS
  have cols := fun t => half_columns ((driven_watched c).seen t).refines
  have x1N : ∀ t, TowardNorth (turnedFine t) (fun _ => 2) (fun n => (turnedFine t n).nd + (n + 1)) 0 (π / 4) := fun t =>
    ⟨fun n => ⟨by norm_num, ((cols t).1 n).1.trans ((cols t).1 n).2⟩, (turnedFine_north t).row, (cols t).2.1, (turnedFine_north t).latitude⟩
  have x2N : ∀ t, TowardNorth (turnedFine t) (fun n => (turnedFine t n).nlat - 1) (fun n => (turnedFine t n).nd + (n + 1)) π (π / 4) := fun t =>
    ⟨fun n => ⟨by have := ((cols t).1 n).1; omega, ((cols t).1 n).2⟩, (turnedFine_north t).row, (cols t).2.2, (turnedFine_north t).latitude⟩
  have x1S : ∀ t, TowardSouth (turnedFine t) (fun _ => 2) (fun n => (turnedFine t n).nd - (n + 1)) 0 (-(π / 4)) := fun t =>
    ⟨(turnedFine_south t).globe, fun n => ⟨by norm_num, ((cols t).1 n).1.trans ((cols t).1 n).2⟩, (turnedFine_south t).row, (cols t).2.1,
      (turnedFine_south t).latitude⟩
  have x2S : ∀ t, TowardSouth (turnedFine t) (fun n => (turnedFine t n).nlat - 1) (fun n => (turnedFine t n).nd - (n + 1)) π (-(π / 4)) := fun t =>
    ⟨(turnedFine_south t).globe, fun n => ⟨by have := ((cols t).1 n).1; omega, ((cols t).1 n).2⟩, (turnedFine_south t).row, (cols t).2.2,
      (turnedFine_south t).latitude⟩
  exact ⟨⟨fun t => n.1 t 0 π _ _ _ _ _ _ (x1N t) (x2N t) (fun m => ⟨le_rfl, ((cols t).1 m).1⟩) (turnedFine_insideN t)
      (turnedFine_reference _ t _) (turnedFine_stratified c t _),
      fun t => n'.1 t _ _ 0 _ _ _ (turnedFine_north t) (turnedFine_insideN t) (turnedFine_reference _ t _) (turnedFine_stratified c t _), n'.2⟩,
    ⟨fun t => s.1 t 0 π _ _ _ _ _ _ (x1S t) (x2S t) (fun m => ⟨le_rfl, ((cols t).1 m).1⟩) (turnedFine_insideS t)
      (turnedFine_reference _ t _) (turnedFine_stratified c t _),
      fun t => s'.1 t _ _ 0 _ _ _ (turnedFine_south t) (turnedFine_insideS t) (turnedFine_reference _ t _) (turnedFine_stratified c t _), s'.2⟩⟩

end Atmos

end Falwa

end
