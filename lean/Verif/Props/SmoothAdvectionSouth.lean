import Verif.Props.SmoothAdvection
import Verif.Props.SmoothWindSouth

/-!
# C175: the two advective fluxes of the Southern Hemisphere, for smooth winds and temperature
-/

noncomputable section

namespace Falwa

open Real Finset Spec MeasureTheory Filter

namespace Atmos

variable {F : Flow} {θ : ℝ → ℝ → ℝ → ℝ} {N S : Layers} {B : BalancedState} {A : ℕ → Atmos} {ε : ℕ → ℝ}
variable {φ l : ℝ} {v w : ℝ → ℝ} {g x : ℕ → ℤ}

/-- The same as `WindWithin` for the rows of the Southern Hemisphere; `B` counts latitudes southwards. -/
def WindWithinSouth (c : Scheme) (B : BalancedState) (A : ℕ → Atmos) (d : ℝ) : Prop :=
  ∀ᶠ n in atTop, ∀ g : ℤ → ℤ, (∀ k, (A n).RefRowSouth (g k)) →
    (A n).dz * ∑ k ∈ Icc 2 ((A n).kmax - 1), exp (-((A n).height k / B.h)) *
      (|(A n).uref c (g k) k - B.u (-(A n).lat ((A n).outRow (g k)), (A n).height k)| *
        cos ((A n).lat ((A n).outRow (g k)))) ^ 2 ≤ d ^ 2

/-- C174 gives `WindWithinSouth`. -/
theorem WindWithinSouth.of {c : Scheme} {C s : ℝ} (hC : 0 ≤ C) (h : ∀ᶠ n in atTop, ∀ g : ℤ → ℤ, (∀ k, (A n).RefRowSouth (g k)) →
    (A n).dz * ∑ k ∈ Icc 2 ((A n).kmax - 1), exp (-((A n).height k / B.h)) *
      (|(A n).uref c (g k) k - B.u (-(A n).lat ((A n).outRow (g k)), (A n).height k)| *
        cos ((A n).lat ((A n).outRow (g k)))) ^ 2 ≤ C * s ^ 2) : WindWithinSouth c B A (√C * s) := by
  refine h.mono fun n hn g hg => ?_
  rw [mul_pow, sq_sqrt hC]
  exact hn g hg

/-- **C175.** Winds and temperature sampled from smooth fields on ever finer grids with equal spacings, Southern Hemisphere (`φ` is
negative). If the stored reference wind is within `d` of the wind `B.u` (C174), then, eventually, `adv_flux_f1` is within `d R` of the
column mean of `B.u` times the wave activity of the flow, and `adv_flux_f2` is within `d R` of the rest of the transport of displaced QGPV
by the wind, where `R` is the root of the mean square of the wave activity over the mass of the column, divided by `cos φ`. -/
theorem C175_fluxes {d : ℝ} (hd : 0 ≤ d) (h : WindWithinSouth .nhn22 B A d) (hu : Continuous B.u)
    (hF : F.IsCurl B.a B.top) (hU : Continuous fun p : ℝ × ℝ × ℝ => F.U p.1 p.2.1 p.2.2) (hN : N.Of θ B.h B.top) (hS : S.Of θ B.h B.top)
    (hNg : Continuous fun p : ℝ × ℝ × ℝ => N.g p.1 p.2.1 p.2.2) (hSg : Continuous fun p : ℝ × ℝ × ℝ => S.g p.1 p.2.1 p.2.2)
    (hA : Refines B.a B.om B.h B.top A) (hlast : ∀ n, (A n).height (A n).kmax = B.top) (hO : ∀ n, (A n).Observes F θ N S (ε n))
    (hεN : ∀ n, 2 * ε n ≤ N.s) (hεS : ∀ n, 2 * ε n ≤ S.s) (hε : Tendsto (fun n => ε n / (A n).dz) atTop (nhds 0))
    (hW : WaveSouth B.a B.top (F.qgpv B.om B.h N S) φ v) (hP : TowardSouth A x g l φ) (hrow : ∀ n, (A n).RefRowSouth (g n))
    (hw : ∀ z, w z = meridionalWaveActivity B.a (fun y => F.qgpv B.om B.h N S y l z) (v z) (-(π / 2)) 0 φ) {δ : ℝ} (hδ : 0 < δ) :
    ∀ᶠ n in atTop,
      |((A n).analysis .nhn22).advFluxF1 (x n) (g n) - columnMean B.h B.top (fun z => B.u (-φ, z) * w z)| ≤
        d * (√(columnMean B.h B.top (fun z => w z ^ 2) / ∫ z in (0 : ℝ)..B.top, exp (-z / B.h)) / cos φ) + δ ∧
      |((A n).analysis .nhn22).advFluxF2 (x n) (g n) - (columnMean B.h B.top (fun z => cos φ *
          meridionalTransport B.a (fun y => F.qgpv B.om B.h N S y l z) (fun y => F.U y l z) (v z) (-(π / 2)) 0 φ) -
            columnMean B.h B.top (fun z => B.u (-φ, z) * w z))| ≤
        d * (√(columnMean B.h B.top (fun z => w z ^ 2) / ∫ z in (0 : ℝ)..B.top, exp (-z / B.h)) / cos φ) + δ := by
  have hT : QgpvTends .nhn22 (F.qgpv B.om B.h N S) A := C168_qgpv hF hN hS hA hO hεN hεS hε
  have hQ := qgpv_continuous (om := B.om) (H := B.h) hF.continuous hNg hSg
  have hφ : 0 < cos φ := cos_pos_of_mem_Ioo ⟨hW.pole, by linarith [hW.south, pi_pos]⟩
  have hout : ∀ n, (A n).outRow (g n) = g n := fun n => by
    unfold outRow rows
    rw [hP.globe n]
    show (A n).nlat - (A n).nlat + g n = g n
    ring
  have hlat : Tendsto (fun n => (A n).lat ((A n).outRow (g n))) atTop (nhds φ) := by
    simp only [hout]
    exact hP.latitude
  have h1 := RowWithin.f1 (c := .nhn22) (x := x) (w := w) (uf := fun n k => B.u (-(A n).lat ((A n).outRow (g n)), (A n).height k))
    (U := fun z => B.u (-φ, z)) hd (h.mono fun n hn => hn (fun _ => g n) fun _ => hrow n)
    (fun f k z hf ht => (hu.tendsto (-φ, z)).comp ((hlat.comp hf).neg.prodMk_nhds ht)) hA hlast (fun n => by have := (hrow n).1; omega) hφ hlat
    (fun f k z hz hf hk ht => by
      rw [hw]
      exact (levels_south hT hQ hA (fun h => nomatch h) hW hP f k z hz hf hk ht).2) (half_pos hδ)
  have h2 := (Metric.tendsto_nhds.1 (flux_south hT hQ hU hO hA hlast (fun h => nomatch h) hW hP)) (δ / 2) (half_pos hδ)
  filter_upwards [h1, h2] with n n1 n2
  rw [Real.dist_eq] at n2
  rw [mul_div_assoc] at n1
  refine ⟨n1.trans (by linarith), ?_⟩
  rw [abs_lt] at n2
  rw [abs_le] at n1 ⊢
  constructor
  · linarith [n1.2, n2.1]
  · linarith [n1.1, n2.2]

/-- **C175, with the reference wind of C174.** Both fluxes approach those of the flow and of a wind in balance with its rearranged QGPV, up
to a constant times the errors `b` of the boundary wind, measured against the circulation of the NORTHERN polar cap, and `t` of the shear
at the top. -/
theorem C175_balanced {D t b : ℝ} {dθ ddθ : ℝ → ℝ → ℝ} {V : ℝ → ℝ} (hsol : B.Solves) (hQ : ContDiff ℝ 3 B.Q) (hs : 0 < B.south)
    (hs' : B.south < π / 2) (hF : F.IsCurl B.a B.top) (hU : Continuous fun p : ℝ × ℝ × ℝ => F.U p.1 p.2.1 p.2.2)
    (hN : N.Of θ B.h B.top) (hS : S.Of θ B.h B.top) (hNg : Continuous fun p : ℝ × ℝ × ℝ => N.g p.1 p.2.1 p.2.2)
    (hSg : Continuous fun p : ℝ × ℝ × ℝ => S.g p.1 p.2.1 p.2.2)
    (hθ : ∀ l, Smooth (fun x => θ x l B.top) (fun x => dθ x l) (fun x => ddθ x l) D)
    (hdθ : Continuous fun p : ℝ × ℝ => dθ p.1 p.2)
    (hqtop : ∀ z, 0 ≤ z → z ≤ B.top → volume (lowest fun x l => F.qgpv B.om B.h N S x l z) = 0)
    (hζtop : ∀ z, 0 ≤ z → z ≤ B.top → volume (highest fun x l => 2 * B.om * sin x + F.vort x l z) = 0)
    (hqE : ∀ z φ, 0 ≤ z → z ≤ B.top → B.south ≤ φ → φ < π / 2 →
      Encloses B.a (fun x l => F.qgpv B.om B.h N S x l z) (-(π / 2)) (π / 2) (southCap B.a (-φ)) (-(2 * B.om * sin φ * B.Q (φ, z))))
    (hζE : ∀ z, 0 ≤ z → z ≤ B.top →
      Encloses B.a (fun x l => 2 * B.om * sin x + F.vort x l z) (-(π / 2)) (π / 2) (southCap B.a B.south) (V z))
    (hb : ∀ z, 0 ≤ z → z ≤ B.top →
      |refCirculation B.a (fun x l => 2 * B.om * sin x + F.vort x l z) (northCap B.a B.south) (V z) / (2 * π * B.a) -
        (B.u (B.south, z) + B.om * B.a) * cos B.south| ≤ b)
    (ht : ∀ φ, B.south ≤ φ → φ ≤ π / 2 →
      |cos φ * (thermalShear B.a B.om B.h B.r B.cp B.top φ (-meanGradient dθ (-(φ - B.south))) - B.shear φ B.top)| ≤ t)
    (hφ : φ ≤ -B.south) (hφ' : -(π / 2) < φ)
    (hw : ∀ z, w z = meridionalWaveActivity B.a (fun y => F.qgpv B.om B.h N S y l z) (2 * B.om * sin φ * B.Q (-φ, z)) (-(π / 2)) 0 φ) :
    ∃ K, 0 ≤ K ∧ ∀ (A : ℕ → Atmos) (ε : ℕ → ℝ) (x g : ℕ → ℤ), Refines B.a B.om B.h B.top A → FollowsSouth B A →
      (∀ n, (A n).Observes F θ N S (ε n)) → (∀ n, 2 * ε n ≤ N.s) → (∀ n, 2 * ε n ≤ S.s) →
      Tendsto (fun n => ε n / (A n).dz) atTop (nhds 0) → TowardSouth A x g l φ → (∀ n, (A n).RefRowSouth (g n)) →
      ∀ δ, 0 < δ → ∀ᶠ n in atTop,
      |((A n).analysis .nhn22).advFluxF1 (x n) (g n) - columnMean B.h B.top (fun z => B.u (-φ, z) * w z)| ≤ K * (b + t + δ) ∧
      |((A n).analysis .nhn22).advFluxF2 (x n) (g n) - (columnMean B.h B.top (fun z => cos φ *
          meridionalTransport B.a (fun y => F.qgpv B.om B.h N S y l z) (fun y => F.U y l z) (2 * B.om * sin φ * B.Q (-φ, z))
            (-(π / 2)) 0 φ) - columnMean B.h B.top (fun z => B.u (-φ, z) * w z))| ≤ K * (b + t + δ) := by
  obtain ⟨C, C0, hC⟩ := C174_wind hsol hQ hs hs' hF hN hS hNg hSg hθ hdθ hqtop hζtop hqE hζE hb ht
  have hb0 : 0 ≤ b := (abs_nonneg _).trans (hb 0 le_rfl hsol.top0.le)
  have ht0 : 0 ≤ t := (abs_nonneg _).trans (ht B.south le_rfl hs'.le)
  have hc : 0 < cos φ := cos_pos_of_mem_Ioo ⟨hφ', by linarith [pi_pos]⟩
  have hR : 0 ≤ √(columnMean B.h B.top (fun z => w z ^ 2) / ∫ z in (0 : ℝ)..B.top, exp (-z / B.h)) / cos φ := div_nonneg (sqrt_nonneg _) hc.le
  refine ⟨√C * (√(columnMean B.h B.top (fun z => w z ^ 2) / ∫ z in (0 : ℝ)..B.top, exp (-z / B.h)) / cos φ) + 1,
    add_nonneg (mul_nonneg (sqrt_nonneg _) hR) zero_le_one, fun A ε x g hA hB hO hεN hεS hε hP hrow δ hδ => ?_⟩
  have h := C175_fluxes (mul_nonneg (sqrt_nonneg C) (by linarith : 0 ≤ b + t + δ)) (WindWithinSouth.of C0 (hC A ε hA hB hO hεN hεS hε δ hδ))
    hsol.smoothU.continuous hF hU hN hS hNg hSg hA hB.last hO hεN hεS hε (v := fun z => 2 * B.om * sin φ * B.Q (-φ, z))
    ⟨by linarith, hφ', hqtop, fun z z0 z1 => by
      have := hqE z (-φ) z0 z1 (by linarith) (by linarith)
      rwa [neg_neg, sin_neg, show -(2 * B.om * -sin φ * B.Q (-φ, z)) = 2 * B.om * sin φ * B.Q (-φ, z) by ring] at this⟩ hP hrow hw hδ
  refine h.mono fun n hn => ?_
  generalize √(columnMean B.h B.top (fun z => w z ^ 2) / ∫ z in (0 : ℝ)..B.top, exp (-z / B.h)) / cos φ = R at hn hR
  have e : √C * (b + t + δ) * R + δ ≤ (√C * R + 1) * (b + t + δ) := by
    have : (√C * R + 1) * (b + t + δ) = √C * (b + t + δ) * R + (b + t + δ) := by ring
    rw [this]
    linarith
  exact ⟨hn.1.trans e, hn.2.trans e⟩

theorem noWind_toward_south : TowardSouth noWind (fun _ => 1) (fun n => (noWind n).jd - 1) 0 (-(π / 4)) where
  globe := fun _ => rfl
  col := fun n => ⟨le_rfl, (noWind_regular n).nlon1⟩
  row := fun n => by
    have e3 : (noWind n).jb = n + 3 := rfl
    rw [noWind_jd, noWind_nd, e3]
    omega
  longitude := by
    unfold SphereGrid.longitude
    simp
  latitude := by
    have e : ∀ n : ℕ, (noWind n).lat ((noWind n).jd - 1) = -(π / 4) - (noWind n).dphi := fun n => by
      rw [← noWind_south n]
      unfold lat jd
      push_cast
      ring
    simp only [e]
    have h : Tendsto (fun n => (noWind n).dphi) atTop (nhds 0) := noWind_refines.spacing
    simpa using h.const_sub (-(π / 4))

theorem noWind_row_south (n : ℕ) : (noWind n).RefRowSouth ((noWind n).jd - 1) := by
  constructor
  · rw [noWind_jd]
    omega
  · exact le_rfl

/-- The hypotheses of `C175_fluxes` can be met: air at rest, next to the boundary at 45 degrees, with the `d` that C174 gives. -/
example {δ : ℝ} (hδ : 0 < δ) : ∃ d, 0 ≤ d ∧ ∀ᶠ n in atTop,
    |((noWind n).analysis .nhn22).advFluxF1 1 ((noWind n).jd - 1) - columnMean 1 1 (fun z => 0 *
        meridionalWaveActivity 1 (fun y => noFlow.qgpv 1 1 flatLayers flatLayers y 0 z) (-(2 * 1 * sin (π / 4))) (-(π / 2)) 0 (-(π / 4)))| ≤
      d * (√(columnMean 1 1 (fun z => meridionalWaveActivity 1 (fun y => noFlow.qgpv 1 1 flatLayers flatLayers y 0 z)
        (-(2 * 1 * sin (π / 4))) (-(π / 2)) 0 (-(π / 4)) ^ 2) / ∫ z in (0 : ℝ)..1, exp (-z / 1)) / cos (-(π / 4))) + δ := by
  have hpi := pi_pos
  obtain ⟨C, C0, hC⟩ := noWind_wind_south
  have hd : WindWithinSouth .nhn22 BalancedState.calm noWind (√C * (1 * 1 * cos (π / 4) * (1 - cos (π / 4)) + 0 + 1)) :=
    WindWithinSouth.of C0 (hC 1 one_pos)
  have hc : 0 ≤ cos (π / 4) := cos_nonneg_of_mem_Icc ⟨by linarith, by linarith⟩
  have hd0 : 0 ≤ √C * (1 * 1 * cos (π / 4) * (1 - cos (π / 4)) + 0 + 1) := mul_nonneg (sqrt_nonneg C) (by nlinarith [cos_le_one (π / 4)])
  have hW : WaveSouth 1 1 (noFlow.qgpv 1 1 flatLayers flatLayers) (-(π / 4)) fun _ => -(2 * 1 * sin (π / 4)) :=
    ⟨by linarith, by linarith, fun z _ _ => by
      rw [noFlow_qgpv]
      exact planetary_lowest, fun z _ _ => by
      rw [noFlow_qgpv]
      exact planetary_encloses_south (by linarith) (by linarith)⟩
  exact ⟨_, hd0, (C175_fluxes (B := BalancedState.calm) (F := noFlow) (N := flatLayers) (S := flatLayers) (θ := fun _ _ z => z) (ε := fun _ => 0)
    (w := fun z => meridionalWaveActivity 1 (fun y => noFlow.qgpv 1 1 flatLayers flatLayers y 0 z) (-(2 * 1 * sin (π / 4))) (-(π / 2)) 0 (-(π / 4)))
    hd0 hd (continuous_const (y := (0 : ℝ))) noFlow_curl
    (continuous_const (y := (0 : ℝ))) flatLayers_of flatLayers_of (continuous_const (y := (0 : ℝ))) (continuous_const (y := (0 : ℝ)))
    noWind_refines noWind_top noWind_observes (fun _ => by show 2 * 0 ≤ (1 : ℝ); norm_num) (fun _ => by show 2 * 0 ≤ (1 : ℝ); norm_num)
    (by simp) hW noWind_toward_south noWind_row_south (fun z => rfl) hδ).mono fun n hn => hn.1⟩

/-- The hypotheses of `C175_balanced` can be met: air at rest, as in C174. -/
example : ∃ K, 0 ≤ K ∧ ∀ δ, 0 < δ → ∀ᶠ n in atTop,
    |((noWind n).analysis .nhn22).advFluxF1 1 ((noWind n).jd - 1) - columnMean 1 1 (fun z => 0 *
      meridionalWaveActivity 1 (fun y => noFlow.qgpv 1 1 flatLayers flatLayers y 0 z) (2 * 1 * sin (-(π / 4)) * 1) (-(π / 2)) 0 (-(π / 4)))| ≤
      K * (1 * 1 * cos (π / 4) * (1 - cos (π / 4)) + 0 + δ) := by
  have hpi := pi_pos
  have h1 : 0 ≤ π / 4 := by positivity
  have h2 : π / 4 < π / 2 := by linarith
  obtain ⟨K, K0, hK⟩ := C175_balanced (B := BalancedState.calm) (F := noFlow) (N := flatLayers) (S := flatLayers) (θ := fun _ _ z => z) (D := 0)
    (φ := -(π / 4)) (l := 0) (w := fun z => meridionalWaveActivity 1 (fun y => noFlow.qgpv 1 1 flatLayers flatLayers y 0 z)
      (2 * 1 * sin (-(π / 4)) * 1) (-(π / 2)) 0 (-(π / 4)))
    (t := 0) (dθ := fun _ _ => 0) (ddθ := fun _ _ => 0) BalancedState.calm_solves
    (contDiff_const (c := (1 : ℝ))) (by show 0 < π / 4; positivity) h2 noFlow_curl (continuous_const (y := (0 : ℝ))) flatLayers_of flatLayers_of
    (continuous_const (y := (0 : ℝ))) (continuous_const (y := (0 : ℝ)))
    (fun _ => ⟨fun x => hasDerivAt_const x _, fun x => hasDerivAt_const x _, fun x y => by simp⟩) continuous_const
    (fun z _ _ => by
      show volume (lowest fun x l => noFlow.qgpv 1 1 flatLayers flatLayers x l z) = 0
      rw [noFlow_qgpv]
      exact planetary_lowest)
    (fun z _ _ => by
      show volume (highest fun x l => 2 * 1 * sin x + noFlow.vort x l z) = 0
      rw [noFlow_vort]
      exact planetary_highest one_pos)
    (fun z φ _ _ f1 f2 => by
      have f1 : π / 4 ≤ φ := f1
      have := planetary_encloses_south (by linarith : (0 : ℝ) ≤ φ) f2
      show Encloses 1 (fun x l => noFlow.qgpv 1 1 flatLayers flatLayers x l z) _ _ _ (-(2 * 1 * sin φ * 1))
      rwa [mul_one (2 * 1 * sin φ), noFlow_qgpv])
    (V := fun _ => 2 * 1 * sin (π / 4)) (fun z _ _ => by
      show Encloses 1 (fun x l => 2 * 1 * sin x + noFlow.vort x l z) _ _ _ _
      rw [noFlow_vort]
      exact planetary_encloses one_pos one_pos h1 h2)
    (b := 1 * 1 * cos (π / 4) * (1 - cos (π / 4))) (fun z _ _ => by
      show |refCirculation 1 (fun x l => 2 * 1 * sin x + noFlow.vort x l z) (northCap 1 (π / 4)) (2 * 1 * sin (π / 4)) / (2 * π * 1) -
        (0 + 1 * 1) * cos (π / 4)| ≤ _
      have hc : 0 ≤ cos (π / 4) := cos_nonneg_of_mem_Icc ⟨by linarith, h2.le⟩
      rw [noFlow_vort, planetary_circulation one_pos h1 h2]
      have e1 : kelvin 1 1 (π / 4) 0 / (2 * π * 1) - (0 + 1 * 1) * cos (π / 4) = -(1 * 1 * cos (π / 4) * (1 - cos (π / 4))) := by
        unfold kelvin
        generalize cos (π / 4) = c
        field_simp
        ring
      rw [e1, abs_neg, abs_of_nonneg (mul_nonneg (by linarith) (by linarith [cos_le_one (π / 4)]))])
    (fun φ _ _ => by
      have s : BalancedState.calm.shear φ BalancedState.calm.top = 0 := by
        show deriv (fun _ : ℝ => (0 : ℝ)) _ = 0
        simp
      rw [s]
      simp [thermalShear, meanGradient]) le_rfl (by linarith) (fun _ => rfl)
  exact ⟨K, K0, fun δ hδ => (hK noWind (fun _ => 0) (fun _ => 1) (fun n => (noWind n).jd - 1) noWind_refines noWind_follows_south
    noWind_observes (fun _ => by show 2 * 0 ≤ (1 : ℝ); norm_num) (fun _ => by show 2 * 0 ≤ (1 : ℝ); norm_num) (by simp) noWind_toward_south
    noWind_row_south δ hδ).mono fun n hn => hn.1⟩

end Atmos

end Falwa
