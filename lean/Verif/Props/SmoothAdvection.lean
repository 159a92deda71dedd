import Verif.Props.SmoothFlux
import Verif.Props.SmoothWind

/-!
# C173: the two advective fluxes one by one, for smooth winds and temperature
-/

noncomputable section

namespace Falwa

open Real Finset Spec MeasureTheory Filter

namespace Atmos

variable {F : Flow} {θ : ℝ → ℝ → ℝ → ℝ} {N S : Layers} {B : BalancedState} {A : ℕ → Atmos} {ε : ℕ → ℝ} {a om H top : ℝ} {c : Scheme}
variable {φ l : ℝ} {v w : ℝ → ℝ} {g x : ℕ → ℤ}

/-- Eventually the density-weighted mean-square error of the stored reference wind, times `cos φ`, is at most `d²`, whatever row is looked
at on each level. The conclusions of C167 and C170 are of this kind. -/
def WindWithin (c : Scheme) (B : BalancedState) (A : ℕ → Atmos) (d : ℝ) : Prop :=
  ∀ᶠ n in atTop, ∀ g : ℤ → ℤ, (∀ k, (A n).RefRow (g k)) →
    (A n).dz * ∑ k ∈ Icc 2 ((A n).kmax - 1), exp (-((A n).height k / B.h)) *
      (|(A n).uref c (g k) k - B.u ((A n).lat ((A n).outRow (g k)), (A n).height k)| *
        cos ((A n).lat ((A n).outRow (g k)))) ^ 2 ≤ d ^ 2

/-- Column averages obey the Cauchy–Schwarz inequality. -/
theorem mean_schwarz (S : QGAnalysis) (hdz : 0 ≤ S.dz) (hp : 0 < S.prefactor) (f g : ℤ → ℝ) :
    S.columnMean (fun k => f k * g k) ^ 2 ≤ S.columnMean (fun k => f k ^ 2) * S.columnMean (fun k => g k ^ 2) := by
  unfold QGAnalysis.columnMean
  refine sum_sq_le_sum_mul_sum_of_sq_le_mul _ (fun k _ => ?_) (fun k _ => ?_) fun k _ => le_of_eq (by ring)
  · positivity
  · positivity

/-- On the rows `g n` the density-weighted mean-square error of the stored reference wind, times `cos φ`, is eventually at most `d²`. -/
def RowWithin (c : Scheme) (H : ℝ) (A : ℕ → Atmos) (g : ℕ → ℤ) (uf : ℕ → ℤ → ℝ) (d : ℝ) : Prop :=
  ∀ᶠ n in atTop, (A n).dz * ∑ k ∈ Icc 2 ((A n).kmax - 1), exp (-((A n).height k / H)) *
    (|(A n).uref c (g n) k - uf n k| * cos ((A n).lat ((A n).outRow (g n)))) ^ 2 ≤ d ^ 2

/-- The mean-square error of the reference wind on one row. -/
theorem RowWithin.mean {d : ℝ} {uf : ℕ → ℤ → ℝ} (h : RowWithin c H A g uf d) (hA : Refines a om H top A)
    (hcos : ∀ᶠ n in atTop, 0 < cos ((A n).lat ((A n).outRow (g n)))) (hpre : ∀ᶠ n in atTop, 0 < ((A n).analysis c).prefactor) :
    ∀ᶠ n in atTop, ((A n).analysis c).columnMean (fun k => ((A n).uref c (g n) k - uf n k) ^ 2) ≤
      d ^ 2 / (((A n).analysis c).prefactor * cos ((A n).lat ((A n).outRow (g n))) ^ 2) := by
  filter_upwards [h, hcos, hpre] with n h1 hc hp
  rw [le_div_iff₀ (by positivity)]
  refine le_trans (le_of_eq ?_) h1
  show (∑ k ∈ Icc 2 ((A n).kmax - 1), _ ^ 2 * exp (-(A n).height k / (A n).h) * ((A n).dz / ((A n).analysis c).prefactor)) * _ = _
  rw [hA.scale n, mul_sum, sum_mul]
  refine sum_congr rfl fun k _ => ?_
  rw [mul_pow, sq_abs, neg_div]
  field_simp

/-- **F1.** If the wave activity has a limit on the levels and the stored reference wind is within `d` of a wind `U`, F1 is eventually within
`d` times the root mean square of the wave activity over the mass of the column and `cos φ` of the column mean of their product. -/
theorem RowWithin.f1 {d : ℝ} {uf : ℕ → ℤ → ℝ} {U : ℝ → ℝ} (hd : 0 ≤ d) (h : RowWithin c H A g uf d)
    (hu : ∀ (f : ℕ → ℕ) (k : ℕ → ℤ) (z : ℝ), Tendsto f atTop atTop → Tendsto (fun n => (A (f n)).height (k n)) atTop (nhds z) →
      Tendsto (fun n => uf (f n) (k n)) atTop (nhds (U z))) (hA : Refines a om H top A)
    (hlast : ∀ n, (A n).height (A n).kmax = top) (hg : ∀ n, 1 ≤ g n) (hφ : 0 < cos φ)
    (hlat : Tendsto (fun n => (A n).lat ((A n).outRow (g n))) atTop (nhds φ))
    (hw : ∀ (f : ℕ → ℕ) (k : ℕ → ℤ) (z : ℝ), z ∈ Set.Icc 0 top → Tendsto f atTop atTop → (∀ n, 2 ≤ k n ∧ k n ≤ (A (f n)).kmax - 1) →
      Tendsto (fun n => (A (f n)).height (k n)) atTop (nhds z) →
      Tendsto (fun n => ((A (f n)).analysis c).lwa (x (f n)) (g (f n)) (k n)) atTop (nhds (w z))) {δ : ℝ} (hδ : 0 < δ) :
    ∀ᶠ n in atTop, |((A n).analysis c).advFluxF1 (x n) (g n) - columnMean H top (fun z => U z * w z)| ≤
      d * √(columnMean H top (fun z => w z ^ 2) / ∫ z in (0 : ℝ)..top, exp (-z / H)) / cos φ + δ := by
  obtain ⟨hp, hp0⟩ := prefactor_limit (c := c) hA hlast
  have hc : Tendsto (fun n => cos ((A n).lat ((A n).outRow (g n)))) atTop (nhds (cos φ)) := (continuous_cos.tendsto φ).comp hlat
  have hcos := hc.eventually (lt_mem_nhds hφ)
  have hpre := hp.eventually (lt_mem_nhds hp0)
  have hrows := h.mean hA hcos hpre
  have h2 := mean_limit (c := c) hA hlast (G := fun n k => ((A n).analysis c).lwa (x n) (g n) k ^ 2) (L := fun z => w z ^ 2)
    fun f k z hz hf hk ht => (hw f k z hz hf hk ht).pow 2
  have h3 := mean_limit (c := c) hA hlast
    (G := fun n k => uf n k * ((A n).analysis c).lwa (x n) (g n) k)
    (L := fun z => U z * w z)
    fun f k z hz hf hk ht => (hu f k z hf ht).mul (hw f k z hz hf hk ht)
  have h4 := (((h2.div hp hp0.ne').sqrt.const_mul d).div hc hφ.ne').eventually (gt_mem_nhds (lt_add_of_pos_right _ (half_pos hδ)))
  have h5 := (Metric.tendsto_nhds.1 h3) (δ / 2) (half_pos hδ)
  filter_upwards [hrows, hcos, hpre, h4, h5] with n r1 r2 r3 r4 r5
  rw [Real.dist_eq] at r5
  have e1 : ((A n).analysis c).advFluxF1 (x n) (g n) =
      ((A n).analysis c).columnMean (fun k => ((A n).uref c (g n) k - uf n k) *
        ((A n).analysis c).lwa (x n) (g n) k) +
      ((A n).analysis c).columnMean (fun k => uf n k *
        ((A n).analysis c).lwa (x n) (g n) k) := by
    rw [QGAnalysis.C44_f1 ((hA.regular n).valid c) _ _ (hg n), QGAnalysis.columnMean_add]
    refine QGAnalysis.average_eq (hA.regular n).kmax3 ?_ fun k _ => ?_
    · show _ * ((A n).analysis c).lwa (x n) (g n) (A n).kmax = 0
      rw [lwa_top (A n) (hA.regular n), mul_zero]
    · show (A n).uref c (g n) k * _ = _
      ring
  have e2 : |((A n).analysis c).columnMean (fun k => ((A n).uref c (g n) k - uf n k) *
        ((A n).analysis c).lwa (x n) (g n) k)| ≤
      d * √(((A n).analysis c).columnMean (fun k => ((A n).analysis c).lwa (x n) (g n) k ^ 2) / ((A n).analysis c).prefactor) /
        cos ((A n).lat ((A n).outRow (g n))) := by
    have hm : 0 ≤ ((A n).analysis c).columnMean (fun k => ((A n).analysis c).lwa (x n) (g n) k ^ 2) :=
      sum_nonneg fun k _ => mul_nonneg (mul_nonneg (sq_nonneg _) (exp_pos _).le) (div_nonneg (hA.dz0 n).le r3.le)
    refine abs_le_of_sq_le_sq ((mean_schwarz _ (hA.dz0 n).le r3 _ _).trans ?_) (by positivity)
    refine (mul_le_mul_of_nonneg_right r1 hm).trans (le_of_eq ?_)
    rw [div_pow, mul_pow, sq_sqrt (by positivity)]
    field_simp
  rw [e1]
  have r4' : d * √(((A n).analysis c).columnMean (fun k => ((A n).analysis c).lwa (x n) (g n) k ^ 2) / ((A n).analysis c).prefactor) /
        cos ((A n).lat ((A n).outRow (g n))) <
      d * √(columnMean H top (fun z => w z ^ 2) / ∫ z in (0 : ℝ)..top, exp (-z / H)) / cos φ + δ / 2 := r4
  rw [add_sub_assoc]
  refine (abs_add_le _ _).trans ?_
  linarith

/-- F1, Northern Hemisphere. -/
theorem WindWithin.f1 {d : ℝ} (hd : 0 ≤ d) (h : WindWithin c B A d) (hu : Continuous B.u) (hA : Refines a om B.h top A)
    (hlast : ∀ n, (A n).height (A n).kmax = top) (hrow : ∀ n, (A n).RefRow (g n)) (hφ : 0 < cos φ)
    (hlat : Tendsto (fun n => (A n).lat ((A n).outRow (g n))) atTop (nhds φ))
    (hw : ∀ (f : ℕ → ℕ) (k : ℕ → ℤ) (z : ℝ), z ∈ Set.Icc 0 top → Tendsto f atTop atTop → (∀ n, 2 ≤ k n ∧ k n ≤ (A (f n)).kmax - 1) →
      Tendsto (fun n => (A (f n)).height (k n)) atTop (nhds z) →
      Tendsto (fun n => ((A (f n)).analysis c).lwa (x (f n)) (g (f n)) (k n)) atTop (nhds (w z))) {δ : ℝ} (hδ : 0 < δ) :
    ∀ᶠ n in atTop, |((A n).analysis c).advFluxF1 (x n) (g n) - columnMean B.h top (fun z => B.u (φ, z) * w z)| ≤
      d * √(columnMean B.h top (fun z => w z ^ 2) / ∫ z in (0 : ℝ)..top, exp (-z / B.h)) / cos φ + δ := by
  refine RowWithin.f1 hd (uf := fun n k => B.u ((A n).lat ((A n).outRow (g n)), (A n).height k)) (h.mono fun n hn => hn (fun _ => g n) fun _ => hrow n)
    (fun f k z hf ht => (hu.tendsto (φ, z)).comp ((hlat.comp hf).prodMk_nhds ht)) hA hlast (fun n => ?_) hφ hlat hw hδ
  have h1 := (hrow n).1
  have h2 := (hA.regular n).odd
  have h3 := (hA.regular n).nd3
  have h4 := (hA.regular n).jb0
  have h5 : (A n).jd = (A n).nd - (A n).jb := rfl
  have h6 : (A n).nd ≤ (A n).rows := by
    unfold rows
    split_ifs <;> omega
  omega

/-- C170 gives `WindWithin`. -/
theorem WindWithin.of {C s : ℝ} (hC : 0 ≤ C) (h : ∀ᶠ n in atTop, ∀ g : ℤ → ℤ, (∀ k, (A n).RefRow (g k)) →
    (A n).dz * ∑ k ∈ Icc 2 ((A n).kmax - 1), exp (-((A n).height k / B.h)) *
      (|(A n).uref c (g k) k - B.u ((A n).lat ((A n).outRow (g k)), (A n).height k)| *
        cos ((A n).lat ((A n).outRow (g k)))) ^ 2 ≤ C * s ^ 2) : WindWithin c B A (√C * s) := by
  refine h.mono fun n hn g hg => ?_
  rw [mul_pow, sq_sqrt hC]
  exact hn g hg

/-- **C173.** Winds and temperature sampled from smooth fields on ever finer grids with equal spacings, Northern Hemisphere. If the stored
reference wind is within `d` of the wind `B.u` (C170), then, eventually, `adv_flux_f1` is within `d R` of the column mean of `B.u` times
the wave activity of the flow, and `adv_flux_f2` is within `d R` of the rest of the transport of displaced QGPV by the wind, where `R` is
the root of the mean square of the wave activity over the mass of the column, divided by `cos φ`. -/
theorem C173_fluxes {d : ℝ} (hd : 0 ≤ d) (h : WindWithin .nhn22 B A d) (hu : Continuous B.u)
    (hF : F.IsCurl B.a B.top) (hU : Continuous fun p : ℝ × ℝ × ℝ => F.U p.1 p.2.1 p.2.2) (hN : N.Of θ B.h B.top) (hS : S.Of θ B.h B.top)
    (hNg : Continuous fun p : ℝ × ℝ × ℝ => N.g p.1 p.2.1 p.2.2) (hSg : Continuous fun p : ℝ × ℝ × ℝ => S.g p.1 p.2.1 p.2.2)
    (hA : Refines B.a B.om B.h B.top A) (hlast : ∀ n, (A n).height (A n).kmax = B.top) (hO : ∀ n, (A n).Observes F θ N S (ε n))
    (hεN : ∀ n, 2 * ε n ≤ N.s) (hεS : ∀ n, 2 * ε n ≤ S.s) (hε : Tendsto (fun n => ε n / (A n).dz) atTop (nhds 0))
    (hW : WaveNorth B.a B.top (F.qgpv B.om B.h N S) φ v) (hP : TowardNorth A x g l φ) (hrow : ∀ n, (A n).RefRow (g n))
    (hw : ∀ z, w z = meridionalWaveActivity B.a (fun y => F.qgpv B.om B.h N S y l z) (v z) 0 (π / 2) φ) {δ : ℝ} (hδ : 0 < δ) :
    ∀ᶠ n in atTop,
      |((A n).analysis .nhn22).advFluxF1 (x n) (g n) - columnMean B.h B.top (fun z => B.u (φ, z) * w z)| ≤
        d * (√(columnMean B.h B.top (fun z => w z ^ 2) / ∫ z in (0 : ℝ)..B.top, exp (-z / B.h)) / cos φ) + δ ∧
      |((A n).analysis .nhn22).advFluxF2 (x n) (g n) - (columnMean B.h B.top (fun z => cos φ *
          meridionalTransport B.a (fun y => F.qgpv B.om B.h N S y l z) (fun y => F.U y l z) (v z) 0 (π / 2) φ) -
            columnMean B.h B.top (fun z => B.u (φ, z) * w z))| ≤
        d * (√(columnMean B.h B.top (fun z => w z ^ 2) / ∫ z in (0 : ℝ)..B.top, exp (-z / B.h)) / cos φ) + δ := by
  have hT : QgpvTends .nhn22 (F.qgpv B.om B.h N S) A := C168_qgpv hF hN hS hA hO hεN hεS hε
  have hQ := qgpv_continuous (om := B.om) (H := B.h) hF.continuous hNg hSg
  have hφ : 0 < cos φ := cos_pos_of_mem_Ioo ⟨by linarith [hW.north, pi_pos], hW.pole⟩
  have h1 := h.f1 hd hu hA hlast hrow hφ hP.latitude (w := w) (x := x) (fun f k z hz hf hk ht => by
    rw [hw]
    exact (levels_north hT hQ hA (fun h => nomatch h) hW hP f k z hz hf hk ht).2) (half_pos hδ)
  have h2 := (Metric.tendsto_nhds.1 (flux_north hT hQ hU hO hA hlast (fun h => nomatch h) hW hP)) (δ / 2) (half_pos hδ)
  filter_upwards [h1, h2] with n n1 n2
  rw [Real.dist_eq] at n2
  rw [mul_div_assoc] at n1
  refine ⟨n1.trans (by linarith), ?_⟩
  rw [abs_lt] at n2
  rw [abs_le] at n1 ⊢
  constructor
  · linarith [n1.2, n2.1]
  · linarith [n1.1, n2.2]

/-- **C173, with the reference wind of C170.** Both fluxes approach those of the flow and of the wind in balance with its rearranged QGPV, up
to a constant times the errors `b` of the boundary wind and `t` of the shear at the top that C170 leaves. -/
theorem C173_balanced {D t b : ℝ} {dθ ddθ : ℝ → ℝ → ℝ} {V : ℝ → ℝ} (hsol : B.Solves) (hQ : ContDiff ℝ 3 B.Q) (hs : 0 < B.south)
    (hs' : B.south < π / 2) (hF : F.IsCurl B.a B.top) (hU : Continuous fun p : ℝ × ℝ × ℝ => F.U p.1 p.2.1 p.2.2)
    (hN : N.Of θ B.h B.top) (hS : S.Of θ B.h B.top) (hNg : Continuous fun p : ℝ × ℝ × ℝ => N.g p.1 p.2.1 p.2.2)
    (hSg : Continuous fun p : ℝ × ℝ × ℝ => S.g p.1 p.2.1 p.2.2)
    (hθ : ∀ l, Smooth (fun x => θ x l B.top) (fun x => dθ x l) (fun x => ddθ x l) D)
    (hdθ : Continuous fun p : ℝ × ℝ => dθ p.1 p.2)
    (hqtop : ∀ z, 0 ≤ z → z ≤ B.top → volume (highest fun x l => F.qgpv B.om B.h N S x l z) = 0)
    (hζtop : ∀ z, 0 ≤ z → z ≤ B.top → volume (highest fun x l => 2 * B.om * sin x + F.vort x l z) = 0)
    (hqE : ∀ z φ, 0 ≤ z → z ≤ B.top → B.south ≤ φ → φ < π / 2 →
      Encloses B.a (fun x l => F.qgpv B.om B.h N S x l z) (-(π / 2)) (π / 2) (southCap B.a φ) (2 * B.om * sin φ * B.Q (φ, z)))
    (hζE : ∀ z, 0 ≤ z → z ≤ B.top →
      Encloses B.a (fun x l => 2 * B.om * sin x + F.vort x l z) (-(π / 2)) (π / 2) (southCap B.a B.south) (V z))
    (hb : ∀ z, 0 ≤ z → z ≤ B.top →
      |refCirculation B.a (fun x l => 2 * B.om * sin x + F.vort x l z) (northCap B.a B.south) (V z) / (2 * π * B.a) -
        (B.u (B.south, z) + B.om * B.a) * cos B.south| ≤ b)
    (ht : ∀ φ, B.south ≤ φ → φ ≤ π / 2 →
      |cos φ * (thermalShear B.a B.om B.h B.r B.cp B.top φ (meanGradient dθ (φ - B.south)) - B.shear φ B.top)| ≤ t)
    (hφ : B.south ≤ φ) (hφ' : φ < π / 2)
    (hw : ∀ z, w z = meridionalWaveActivity B.a (fun y => F.qgpv B.om B.h N S y l z) (2 * B.om * sin φ * B.Q (φ, z)) 0 (π / 2) φ) :
    ∃ K, 0 ≤ K ∧ ∀ (A : ℕ → Atmos) (ε : ℕ → ℝ) (x g : ℕ → ℤ), Refines B.a B.om B.h B.top A → Follows B A →
      (∀ n, (A n).Observes F θ N S (ε n)) → (∀ n, 2 * ε n ≤ N.s) → (∀ n, 2 * ε n ≤ S.s) →
      Tendsto (fun n => ε n / (A n).dz) atTop (nhds 0) → TowardNorth A x g l φ → (∀ n, (A n).RefRow (g n)) → ∀ δ, 0 < δ → ∀ᶠ n in atTop,
      |((A n).analysis .nhn22).advFluxF1 (x n) (g n) - columnMean B.h B.top (fun z => B.u (φ, z) * w z)| ≤ K * (b + t + δ) ∧
      |((A n).analysis .nhn22).advFluxF2 (x n) (g n) - (columnMean B.h B.top (fun z => cos φ *
          meridionalTransport B.a (fun y => F.qgpv B.om B.h N S y l z) (fun y => F.U y l z) (2 * B.om * sin φ * B.Q (φ, z)) 0 (π / 2) φ) -
            columnMean B.h B.top (fun z => B.u (φ, z) * w z))| ≤ K * (b + t + δ) := by
  obtain ⟨C, C0, hC⟩ := C170_wind hsol hQ hs hs' hF hN hS hNg hSg hθ hdθ hqtop hζtop hqE hζE hb ht
  have hb0 : 0 ≤ b := (abs_nonneg _).trans (hb 0 le_rfl hsol.top0.le)
  have ht0 : 0 ≤ t := (abs_nonneg _).trans (ht B.south le_rfl hs'.le)
  have hc : 0 < cos φ := cos_pos_of_mem_Ioo ⟨by linarith [pi_pos], hφ'⟩
  have hR : 0 ≤ √(columnMean B.h B.top (fun z => w z ^ 2) / ∫ z in (0 : ℝ)..B.top, exp (-z / B.h)) / cos φ := div_nonneg (sqrt_nonneg _) hc.le
  refine ⟨√C * (√(columnMean B.h B.top (fun z => w z ^ 2) / ∫ z in (0 : ℝ)..B.top, exp (-z / B.h)) / cos φ) + 1,
    add_nonneg (mul_nonneg (sqrt_nonneg _) hR) zero_le_one, fun A ε x g hA hB hO hεN hεS hε hP hrow δ hδ => ?_⟩
  have h := C173_fluxes (mul_nonneg (sqrt_nonneg C) (by linarith : 0 ≤ b + t + δ)) (WindWithin.of C0 (hC A ε hA hB hO hεN hεS hε δ hδ))
    hsol.smoothU.continuous hF hU hN hS hNg hSg hA hB.last hO hεN hεS hε (v := fun z => 2 * B.om * sin φ * B.Q (φ, z))
    ⟨by linarith, hφ', hqtop, fun z z0 z1 => hqE z φ z0 z1 hφ hφ'⟩ hP hrow hw hδ
  refine h.mono fun n hn => ?_
  generalize √(columnMean B.h B.top (fun z => w z ^ 2) / ∫ z in (0 : ℝ)..B.top, exp (-z / B.h)) / cos φ = R at hn hR
  have e : √C * (b + t + δ) * R + δ ≤ (√C * R + 1) * (b + t + δ) := by
    have : (√C * R + 1) * (b + t + δ) = √C * (b + t + δ) * R + (b + t + δ) := by ring
    rw [this]
    linarith
  exact ⟨hn.1.trans e, hn.2.trans e⟩

theorem noWind_toward : TowardNorth noWind (fun _ => 1) (fun n => (noWind n).nd + (noWind n).jb + 1) 0 (π / 4) where
  col := fun n => ⟨le_rfl, (noWind_regular n).nlon1⟩
  row := fun n => by
    have e : (noWind n).outRow ((noWind n).nd + (noWind n).jb + 1) = (noWind n).nd + (noWind n).jb + 1 := by
      show (noWind n).nlat - (noWind n).nlat + _ = _
      ring
    have e2 : (noWind n).nlat = 4 * n + 13 := rfl
    have e3 : (noWind n).jb = n + 3 := rfl
    rw [e, e2, e3, noWind_nd]
    omega
  longitude := by
    unfold SphereGrid.longitude
    simp
  latitude := by
    have e : ∀ n : ℕ, (noWind n).lat ((noWind n).outRow ((noWind n).nd + (noWind n).jb + 1)) = π / 4 + (noWind n).dphi := fun n => by
      have e1 : (noWind n).outRow ((noWind n).nd + (noWind n).jb + 1) = (noWind n).nd + (noWind n).jb + 1 := by
        show (noWind n).nlat - (noWind n).nlat + _ = _
        ring
      rw [e1, ← noWind_south n]
      unfold lat
      push_cast
      ring
    simp only [e]
    have h : Tendsto (fun n => (noWind n).dphi) atTop (nhds 0) := noWind_refines.spacing
    simpa using h.const_add (π / 4)

theorem noWind_row (n : ℕ) : (noWind n).RefRow ((noWind n).nd + (noWind n).jb + 1) := by
  constructor
  · show (noWind n).nlat - (noWind n).jd + 2 ≤ (noWind n).nd + (noWind n).jb + 1
    rw [noWind_jd, noWind_nd]
    show (4 * n + 13 : ℤ) - (n + 4) + 2 ≤ 2 * n + 7 + (n + 3) + 1
    omega
  · show (noWind n).nd + (noWind n).jb + 1 ≤ (noWind n).nlat - 1
    rw [noWind_nd]
    show (2 * n + 7 + (n + 3) + 1 : ℤ) ≤ 4 * n + 13 - 1
    omega

/-- No wave activity in a state that grows with latitude. -/
theorem zonal_activity : meridionalWaveActivity 1 (fun y => 2 * 1 * sin y) (2 * 1 * sin (π / 4)) 0 (π / 2) (π / 4) = 0 := by
  have hpi := pi_pos
  have hm := strictMonoOn_sin.monotoneOn
  unfold meridionalWaveActivity
  have e1 : (∫ x in π / 4..π / 2, max (2 * 1 * sin (π / 4) - 2 * 1 * sin x) 0 * (1 * cos x)) = ∫ _ in π / 4..π / 2, (0 : ℝ) := by
    refine intervalIntegral.integral_congr fun x hx => ?_
    rw [Set.uIcc_of_le (by linarith)] at hx
    have := hm (a := π / 4) (b := x) ⟨by linarith, by linarith⟩ ⟨by linarith [hx.1], hx.2⟩ hx.1
    rw [max_eq_right (by linarith), zero_mul]
  have e2 : (∫ x in (0 : ℝ)..π / 4, max (2 * 1 * sin x - 2 * 1 * sin (π / 4)) 0 * (1 * cos x)) = ∫ _ in (0 : ℝ)..π / 4, (0 : ℝ) := by
    refine intervalIntegral.integral_congr fun x hx => ?_
    rw [Set.uIcc_of_le (by linarith)] at hx
    have := hm (a := x) (b := π / 4) ⟨by linarith [hx.1], by linarith [hx.2]⟩ ⟨by linarith, by linarith⟩ hx.2
    rw [max_eq_right (by linarith), zero_mul]
  rw [e1, e2]
  simp

/-- The hypotheses of `C173_fluxes` can be met: air at rest, next to the boundary at 45 degrees, with the `d` that C170 gives. -/
example {δ : ℝ} (hδ : 0 < δ) : ∀ᶠ n in atTop,
    |((noWind n).analysis .nhn22).advFluxF1 1 ((noWind n).nd + (noWind n).jb + 1)| ≤ δ ∧
      |((noWind n).analysis .nhn22).advFluxF2 1 ((noWind n).nd + (noWind n).jb + 1)| ≤ δ := by
  have hpi := pi_pos
  obtain ⟨C, C0, hC⟩ := noWind_wind
  have hd : WindWithin .nhn22 BalancedState.calm noWind (√C * (1 * 1 * cos (π / 4) * (1 - cos (π / 4)) + 0 + 1)) :=
    WindWithin.of C0 (hC 1 one_pos)
  have hc : 0 ≤ cos (π / 4) := cos_nonneg_of_mem_Icc ⟨by linarith, by linarith⟩
  have hq : ∀ z, (fun y => noFlow.qgpv 1 1 flatLayers flatLayers y 0 z) = fun y => 2 * 1 * sin y := fun z => by
    funext y
    exact congrFun (congrFun (noFlow_qgpv z) y) 0
  have hW : WaveNorth 1 1 (noFlow.qgpv 1 1 flatLayers flatLayers) (π / 4) fun _ => 2 * 1 * sin (π / 4) :=
    ⟨by linarith, by linarith, fun z _ _ => by
      rw [noFlow_qgpv]
      exact planetary_highest one_pos, fun z _ _ => by
      rw [noFlow_qgpv]
      exact planetary_encloses one_pos one_pos (by linarith) (by linarith)⟩
  have h := C173_fluxes (B := BalancedState.calm) (F := noFlow) (N := flatLayers) (S := flatLayers) (θ := fun _ _ z => z) (ε := fun _ => 0)
    (w := fun z => meridionalWaveActivity 1 (fun y => noFlow.qgpv 1 1 flatLayers flatLayers y 0 z) (2 * 1 * sin (π / 4)) 0 (π / 2) (π / 4))
    (mul_nonneg (sqrt_nonneg C) (by nlinarith [cos_le_one (π / 4)])) hd (continuous_const (y := (0 : ℝ))) noFlow_curl
    (continuous_const (y := (0 : ℝ))) flatLayers_of flatLayers_of (continuous_const (y := (0 : ℝ))) (continuous_const (y := (0 : ℝ)))
    noWind_refines noWind_top noWind_observes (fun _ => by show 2 * 0 ≤ (1 : ℝ); norm_num) (fun _ => by show 2 * 0 ≤ (1 : ℝ); norm_num)
    (by simp) hW noWind_toward noWind_row (fun z => rfl) hδ
  · refine h.mono fun n hn => ?_
    have h0 : ∀ z : ℝ, meridionalWaveActivity 1 (fun y => noFlow.qgpv 1 1 flatLayers flatLayers y 0 z) (2 * 1 * sin (π / 4)) 0 (π / 2) (π / 4) = 0 :=
      fun z => by
        rw [hq]
        exact zonal_activity
    have h2 : ∀ z : ℝ, meridionalTransport BalancedState.calm.a
        (fun y => noFlow.qgpv BalancedState.calm.om BalancedState.calm.h flatLayers flatLayers y 0 z) (fun y => noFlow.U y 0 z)
        (2 * 1 * sin (π / 4)) 0 (π / 2) (π / 4) = 0 := fun z => by
      unfold meridionalTransport
      have e : ∀ y, noFlow.U y 0 z = 0 := fun _ => rfl
      simp [e]
    have h3 : columnMean BalancedState.calm.h BalancedState.calm.top (fun _ => 0) = 0 := by
      unfold columnMean
      simp
    obtain ⟨n1, n2⟩ := hn
    have z2 : (0 : ℝ) ^ 2 = 0 := by norm_num
    simp only [h0, h2, z2, mul_zero, h3, zero_div, sqrt_zero, zero_add, sub_zero] at n1 n2
    exact ⟨n1, n2⟩

/-- The hypotheses of `C173_balanced` can be met: air at rest, as in C170. -/
example : ∃ K, 0 ≤ K ∧ ∀ δ, 0 < δ → ∀ᶠ n in atTop,
    |((noWind n).analysis .nhn22).advFluxF1 1 ((noWind n).nd + (noWind n).jb + 1) - columnMean 1 1 (fun z => 0 *
      meridionalWaveActivity 1 (fun y => noFlow.qgpv 1 1 flatLayers flatLayers y 0 z) (2 * 1 * sin (π / 4) * 1) 0 (π / 2) (π / 4))| ≤
      K * (1 * 1 * cos (π / 4) * (1 - cos (π / 4)) + 0 + δ) := by
  have hpi := pi_pos
  have h1 : 0 ≤ π / 4 := by positivity
  have h2 : π / 4 < π / 2 := by linarith
  obtain ⟨K, K0, hK⟩ := C173_balanced (B := BalancedState.calm) (F := noFlow) (N := flatLayers) (S := flatLayers) (θ := fun _ _ z => z) (D := 0)
    (φ := π / 4) (l := 0) (w := fun z => meridionalWaveActivity 1 (fun y => noFlow.qgpv 1 1 flatLayers flatLayers y 0 z) (2 * 1 * sin (π / 4) * 1) 0 (π / 2) (π / 4))
    (t := 0) (dθ := fun _ _ => 0) (ddθ := fun _ _ => 0) BalancedState.calm_solves
    (contDiff_const (c := (1 : ℝ))) (by show 0 < π / 4; positivity) h2 noFlow_curl (continuous_const (y := (0 : ℝ)))
    flatLayers_of flatLayers_of
    (continuous_const (y := (0 : ℝ))) (continuous_const (y := (0 : ℝ)))
    (fun _ => ⟨fun x => hasDerivAt_const x _, fun x => hasDerivAt_const x _, fun x y => by simp⟩) continuous_const
    (fun z _ _ => by
      show volume (highest fun x l => noFlow.qgpv 1 1 flatLayers flatLayers x l z) = 0
      rw [noFlow_qgpv]
      exact planetary_highest one_pos)
    (fun z _ _ => by
      show volume (highest fun x l => 2 * 1 * sin x + noFlow.vort x l z) = 0
      rw [noFlow_vort]
      exact planetary_highest one_pos)
    (fun z φ _ _ f1 f2 => by
      have f1 : π / 4 ≤ φ := f1
      have := planetary_encloses (a := 1) one_pos one_pos (by linarith : (0 : ℝ) ≤ φ) f2
      show Encloses 1 (fun x l => noFlow.qgpv 1 1 flatLayers flatLayers x l z) _ _ _ (2 * 1 * sin φ * 1)
      rwa [mul_one (2 * 1 * sin φ), noFlow_qgpv])
    (V := fun _ => 2 * 1 * sin (π / 4)) (fun z _ _ => by
      show Encloses 1 (fun x l => 2 * 1 * sin x + noFlow.vort x l z) _ _ _ _
      rw [noFlow_vort]
      exact planetary_encloses one_pos one_pos h1 h2)
    (b := 1 * 1 * cos (π / 4) * (1 - cos (π / 4))) (fun z _ _ => by
      show |refCirculation 1 (fun x l => 2 * 1 * sin x + noFlow.vort x l z) (northCap 1 (π / 4)) (2 * 1 * sin (π / 4)) / (2 * π * 1) -
        (0 + 1 * 1) * cos (π / 4)| ≤ _
      have hc : 0 ≤ cos (π / 4) := cos_nonneg_of_mem_Icc ⟨by linarith, h2.le⟩
      rw [noFlow_vort, planetary_circulation one_pos h1 h2]
      have e1 : kelvin 1 1 (π / 4) 0 / (2 * π * 1) - (0 + 1 * 1) * cos (π / 4) = -(1 * 1 * cos (π / 4) * (1 - cos (π / 4))) := by
        unfold kelvin
        generalize cos (π / 4) = c
        field_simp
        ring
      rw [e1, abs_neg, abs_of_nonneg (mul_nonneg (by linarith) (by linarith [cos_le_one (π / 4)]))])
    (fun φ _ _ => by
      have s : BalancedState.calm.shear φ BalancedState.calm.top = 0 := by
        show deriv (fun _ : ℝ => (0 : ℝ)) _ = 0
        simp
      rw [s]
      simp [thermalShear, meanGradient]) le_rfl h2 (fun _ => rfl)
  exact ⟨K, K0, fun δ hδ => (hK noWind (fun _ => 0) (fun _ => 1) (fun n => (noWind n).nd + (noWind n).jb + 1) noWind_refines noWind_follows
    noWind_observes (fun _ => by show 2 * 0 ≤ (1 : ℝ); norm_num) (fun _ => by show 2 * 0 ≤ (1 : ℝ); norm_num) (by simp) noWind_toward
    noWind_row δ hδ).mono fun n hn => hn.1⟩

end Atmos

end Falwa
