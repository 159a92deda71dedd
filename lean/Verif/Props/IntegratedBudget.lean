import Verif.Lemmas.TimeAxis
import Verif.Props.BandBudget

/-!
# C200: `integrate_budget` of the package's output on ever finer grids and time axes
-/

noncomputable section

namespace Falwa

open MeasureTheory Filter Set Real Spec

namespace Atmos

variable {E : Eddies} {M : ℝ → Motion} {v v' : ℝ → ℝ → ℝ} {F : ℝ → Flow} {A : ℝ → ℕ → Atmos} {a om H R cp top φ : ℝ} {c : Scheme}

/-- `integrate_budget` in one column and row: the output of the analyses at the times `τ 0, …, τ (n - 1)` on the grid number `N`. -/
def pointBudget (c : Scheme) (A : ℝ → ℕ → Atmos) (ur pr : ℝ → ℕ → ℤ → ℤ → ℝ) (n : ℕ) (τ : ℕ → ℝ) (N : ℕ) (i g : ℤ) : Xr.Budget :=
  Xr.integrateBudget n τ
    (fun k => (((A (τ k) N).analysis c).withReference (ur (τ k) N) (pr (τ k) N)).lwaBaro i g)
    (fun k => (((A (τ k) N).analysis c).withReference (ur (τ k) N) (pr (τ k) N)).convergenceAt i g)
    (fun k => (((A (τ k) N).analysis c).withReference (ur (τ k) N) (pr (τ k) N)).divEddyMomentumFlux i g)
    (fun k => (((A (τ k) N).analysis c).withReference (ur (τ k) N) (pr (τ k) N)).heatFlux i g)

/-- Each term of the budgets `b i` of the columns `x1, …, x2 - 1`, summed and multiplied by the spacing of `nl` longitudes. -/
def budgetSum (nl x1 x2 : ℤ) (b : ℤ → Xr.Budget) : Xr.Budget where
  deltaLwa := ∑ i ∈ Finset.Ico x1 x2, (b i).deltaLwa * (2 * π / (nl : ℝ))
  czaf := ∑ i ∈ Finset.Ico x1 x2, (b i).czaf * (2 * π / (nl : ℝ))
  demf := ∑ i ∈ Finset.Ico x1 x2, (b i).demf * (2 * π / (nl : ℝ))
  mhf := ∑ i ∈ Finset.Ico x1 x2, (b i).mhf * (2 * π / (nl : ℝ))
  residual := ∑ i ∈ Finset.Ico x1 x2, (b i).residual * (2 * π / (nl : ℝ))

/-- `integrate_budget` commutes with sums over columns. -/
theorem budgetSum_integrate {n : ℕ} {τ : ℕ → ℝ} {T1 T2 η : ℝ} (h : Xr.TimeAxis n τ T1 T2 η) (nl x1 x2 : ℤ) (w x p g : ℕ → ℤ → ℝ) :
    budgetSum nl x1 x2 (fun i => Xr.integrateBudget n τ (fun k => w k i) (fun k => x k i) (fun k => p k i) fun k => g k i) =
      Xr.integrateBudget n τ (fun k => ∑ i ∈ Finset.Ico x1 x2, w k i * (2 * π / (nl : ℝ)))
        (fun k => ∑ i ∈ Finset.Ico x1 x2, x k i * (2 * π / (nl : ℝ))) (fun k => ∑ i ∈ Finset.Ico x1 x2, p k i * (2 * π / (nl : ℝ)))
        fun k => ∑ i ∈ Finset.Ico x1 x2, g k i * (2 * π / (nl : ℝ)) := by
  have hn := h.some
  have h1 : n - 1 < n := by omega
  have h0 : 0 < n := by omega
  unfold budgetSum Xr.integrateBudget
  simp only [Xr.selTime_eq h.distinct h1, Xr.selTime_eq h.distinct h0, ← Xr.integrate_columns, sub_mul, Finset.sum_sub_distrib]

/-- At the time `t` the grids have `nl` longitudes, the columns `x1` and `x2` tend to `l1` and `l2` and the row `g` to `φ` in the Northern Hemisphere,
and the reference states and the static stability are those of the motion. -/
structure SampledNorth (c : Scheme) (E : Eddies) (A : ℝ → ℕ → Atmos) (top φ l1 l2 : ℝ) (nl x1 x2 g : ℕ → ℤ) (ur pr : ℝ → ℕ → ℤ → ℤ → ℝ)
    (t : ℝ) : Prop where
  columns : ∀ N, (A t N).nlon = nl N
  west : TowardNorth (A t) x1 g l1 φ
  east : TowardNorth (A t) x2 g l2 φ
  order : ∀ N, 2 ≤ x1 N ∧ x1 N ≤ x2 N
  inside : Inside (A t) g
  reference : ReferenceTends (A t) g (E.Ur t) (E.Θ t) (ur t) (pr t)
  stratified : ∃ μ, Stratified c (A t) g top μ (E.σ t)

/-- The same in the Southern Hemisphere. -/
structure SampledSouth (c : Scheme) (E : Eddies) (A : ℝ → ℕ → Atmos) (top φ l1 l2 : ℝ) (nl x1 x2 g : ℕ → ℤ) (ur pr : ℝ → ℕ → ℤ → ℤ → ℝ)
    (t : ℝ) : Prop where
  columns : ∀ N, (A t N).nlon = nl N
  west : TowardSouth (A t) x1 g l1 φ
  east : TowardSouth (A t) x2 g l2 φ
  order : ∀ N, 2 ≤ x1 N ∧ x1 N ≤ x2 N
  inside : Inside (A t) g
  reference : ReferenceTends (A t) g (E.Ur t) (E.Θ t) (ur t) (pr t)
  stratified : ∃ μ, Stratified c (A t) g top μ (E.σ t)

/-- The terms of the budget of the motion over the band and the period: the change of wave activity, the convergence of the total advective
flux, the divergence of the eddy momentum flux, the flux up through the ground; and as residual what the other processes contribute, that is
the source of QGPV less the change of the reference values, less what leaves through the top and what displaced air carries through the ends. -/
def NearTerms (b : Xr.Budget) (δ : ℝ) (E : Eddies) (M : ℝ → Motion) (v v' : ℝ → ℝ → ℝ) (a om H R cp top φs φn φ T1 T2 l1 l2 : ℝ) : Prop :=
  b.Near δ
    (∫ l in l1..l2, (columnWave M v a H top φs φn φ T2 l - columnWave M v a H top φs φn φ T1 l))
    (∫ t in T1..T2, ((columnTransport M v a H top φs φn φ t l1 + columnEnergy E M H R cp top φ t l1) -
      (columnTransport M v a H top φs φn φ t l2 + columnEnergy E M H R cp top φ t l2)) / (a * cos φ))
    (∫ t in T1..T2, ∫ l in l1..l2, columnMomentum E a H top φ t l)
    (∫ t in T1..T2, ∫ l in l1..l2, upwardFlux E M om H top φ 0 t l)
    (((∫ t in T1..T2, ∫ l in l1..l2, columnSource M v a H top φs φn φ t l fun z t φ l => (M z).S t φ l) -
        ∫ t in T1..T2, ∫ l in l1..l2, columnSource M v a H top φs φn φ t l fun z t _ _ => v' z t) -
      (∫ t in T1..T2, ∫ l in l1..l2, upwardFlux E M om H top φ top t l) -
      ∫ t in T1..T2, ∫ l in l1..l2, columnEnds M v H top φs φn t l)

theorem terms_of {φs φn l1 l2 : ℝ} (hs : Stacked M v v') (hE : E.Balanced M v a om H R cp top φ) (hl : l1 ≤ l2)
    (hB : FullBudget E M v v' a om H R cp top φs φn φ) (T1 T2 : ℝ) {δ : ℝ} (hδ : 0 < δ) :
    ∃ η, 0 < η ∧ ∀ n τ, Xr.TimeAxis n τ T1 T2 η → ∀ (nl x1 x2 g : ℕ → ℤ) (ur pr : ℝ → ℕ → ℤ → ℤ → ℝ), (∀ k < n, ∀ N, (A (τ k) N).nlon = nl N) →
      (∀ k < n, BandLimits c E M v a om H R cp top φs φn φ (A (τ k)) (ur (τ k)) (pr (τ k)) (τ k) l1 l2 x1 x2 g) →
      ∀ᶠ N in atTop, NearTerms (budgetSum (nl N) (x1 N) (x2 N) fun i => pointBudget c A ur pr n τ N i (g N)) δ E M v v' a om H R cp top
        φs φn φ T1 T2 l1 l2 := by
  have line : ∀ {f : ℝ × ℝ → ℝ}, Continuous f → Continuous fun t => ∫ l in l1..l2, f (t, l) := fun {f} hf =>
    intervalIntegral.continuous_parametric_intervalIntegral_of_continuous' (f := fun t l => f (t, l)) hf l1 l2
  have cX : Continuous fun t => ((columnTransport M v a H top φs φn φ t l1 + columnEnergy E M H R cp top φ t l1) -
      (columnTransport M v a H top φs φn φ t l2 + columnEnergy E M H R cp top φ t l2)) / (a * cos φ) :=
    (((transport_continuous hs l1).add (energy_continuous hs hE l1)).sub ((transport_continuous hs l2).add (energy_continuous hs hE l2))).div_const _
  have cW : ∀ t, IntervalIntegrable (fun l => columnWave M v a H top φs φn φ t l) volume l1 l2 := fun t =>
    (columnMean_continuous (G := fun l z => meridionalWaveActivity a (fun x => (M z).q t x l) (v z t) φs φn φ)
      ((stacked_wave hs a φs φn φ).comp (f := fun p : ℝ × ℝ => (p.2, t, p.1)) (by fun_prop))).intervalIntegrable _ _
  obtain ⟨η, hη, hb⟩ := Xr.budget_tends (W := fun t => ∫ l in l1..l2, columnWave M v a H top φs φn φ t l) cX (line (momentum_continuous hE))
    (line (upward_continuous hs hE 0)) T1 T2 hδ
  refine ⟨η, hη, fun n τ h nl x1 x2 g ur pr hnl hlim => ?_⟩
  have hT : T1 ≤ T2 := by
    have := h.mem (k := 0) (by have := h.some; omega)
    exact this.1.trans this.2
  have key := hb n τ h
    (fun k N => (((A (τ k) N).analysis c).withReference (ur (τ k) N) (pr (τ k) N)).bandSum
      (fun i => (((A (τ k) N).analysis c).withReference (ur (τ k) N) (pr (τ k) N)).lwaBaro i (g N)) (x1 N) (x2 N))
    (fun k N => (((A (τ k) N).analysis c).withReference (ur (τ k) N) (pr (τ k) N)).bandSum
      (fun i => (((A (τ k) N).analysis c).withReference (ur (τ k) N) (pr (τ k) N)).convergenceAt i (g N)) (x1 N) (x2 N))
    (fun k N => (((A (τ k) N).analysis c).withReference (ur (τ k) N) (pr (τ k) N)).bandSum
      (fun i => (((A (τ k) N).analysis c).withReference (ur (τ k) N) (pr (τ k) N)).divEddyMomentumFlux i (g N)) (x1 N) (x2 N))
    (fun k N => (((A (τ k) N).analysis c).withReference (ur (τ k) N) (pr (τ k) N)).bandSum
      (fun i => (((A (τ k) N).analysis c).withReference (ur (τ k) N) (pr (τ k) N)).heatFlux i (g N)) (x1 N) (x2 N))
    (fun k hk => (hlim k hk).wave) (fun k hk => (hlim k hk).convergence) (fun k hk => (hlim k hk).momentum) (fun k hk => (hlim k hk).heat)
  refine key.mono fun N hN => ?_
  have hbud := hB T1 T2 l1 l2 hT hl
  have eW := intervalIntegral.integral_sub (cW T2) (cW T1)
  unfold NearTerms pointBudget
  rw [budgetSum_integrate h]
  have eres : (∫ l in l1..l2, columnWave M v a H top φs φn φ T2 l) - (∫ l in l1..l2, columnWave M v a H top φs φn φ T1 l) -
      (∫ t in T1..T2, ((columnTransport M v a H top φs φn φ t l1 + columnEnergy E M H R cp top φ t l1) -
        (columnTransport M v a H top φs φn φ t l2 + columnEnergy E M H R cp top φ t l2)) / (a * cos φ)) -
      (∫ t in T1..T2, ∫ l in l1..l2, columnMomentum E a H top φ t l) - (∫ t in T1..T2, ∫ l in l1..l2, upwardFlux E M om H top φ 0 t l) =
      ((∫ t in T1..T2, ∫ l in l1..l2, columnSource M v a H top φs φn φ t l fun z t φ l => (M z).S t φ l) -
        ∫ t in T1..T2, ∫ l in l1..l2, columnSource M v a H top φs φn φ t l fun z t _ _ => v' z t) -
      (∫ t in T1..T2, ∫ l in l1..l2, upwardFlux E M om H top φ top t l) -
      ∫ t in T1..T2, ∫ l in l1..l2, columnEnds M v H top φs φn t l := by
    rw [← eW, hbud]
    ring
  rw [← eres, eW]
  have same : ∀ {y1 y2 : ℕ → ℝ}, (∀ k < n, y1 k = y2 k) → Xr.integrate n τ y1 = Xr.integrate n τ y2 ∧ y1 0 = y2 0 ∧ y1 (n - 1) = y2 (n - 1) :=
    fun {y1 y2} e => by
      have hn := h.some
      refine ⟨Finset.sum_congr rfl fun i hi => ?_, e 0 (by omega), e (n - 1) (by omega)⟩
      have := Finset.mem_range.1 hi
      rw [e i (by omega), e (i + 1) (by omega)]
  have conv : ∀ {w1 w2 y1 y2 p1 p2 g1 g2 : ℕ → ℝ}, (∀ k < n, w1 k = w2 k) → (∀ k < n, y1 k = y2 k) → (∀ k < n, p1 k = p2 k) →
      (∀ k < n, g1 k = g2 k) → Xr.integrateBudget n τ w1 y1 p1 g1 = Xr.integrateBudget n τ w2 y2 p2 g2 :=
    fun {w1 w2 y1 y2 p1 p2 g1 g2} ew ey ep eg => by
      have hn := h.some
      have h1 : n - 1 < n := by omega
      have h0 : 0 < n := by omega
      unfold Xr.integrateBudget
      simp only [Xr.selTime_eq h.distinct h1, Xr.selTime_eq h.distinct h0, (same ew).2.1, (same ew).2.2, (same ey).1, (same ep).1, (same eg).1]
  have e : ∀ k < n, ∀ X : ℤ → ℝ, (((A (τ k) N).analysis c).withReference (ur (τ k) N) (pr (τ k) N)).bandSum X (x1 N) (x2 N) =
      ∑ i ∈ Finset.Ico (x1 N) (x2 N), X i * (2 * π / (nl N : ℝ)) := fun k hk X => by
    rw [← hnl k hk N]
    rfl
  rw [conv (fun k hk => (e k hk _).symm) (fun k hk => (e k hk _).symm) (fun k hk => (e k hk _).symm) fun k hk => (e k hk _).symm]
  exact hN

/-- **C200, Northern Hemisphere.** For every tolerance there is a time step such that on every finer time axis, the terms of `integrate_budget`
summed over a band of longitudes come within the tolerance of those of the motion when the grid is refined. -/
theorem C200_north (h : ∀ z, 0 ≤ z → z ≤ top → (M z).Obeys a) (hs : Stacked M v v') (hE : E.Balanced M v a om H R cp top φ)
    (hF : Followed c M E F a om H R cp top A) (hW : ∀ t, WaveNorth a top (fun φ l z => (M z).q t φ l) φ fun z => v z t)
    (hc : 1 / 100000 < cos φ) {l1 l2 : ℝ} (hl : l1 ≤ l2) (T1 T2 : ℝ) {δ : ℝ} (hδ : 0 < δ) :
    ∃ η, 0 < η ∧ ∀ n τ, Xr.TimeAxis n τ T1 T2 η → ∀ nl x1 x2 g ur pr,
      (∀ k < n, SampledNorth c E A top φ l1 l2 nl x1 x2 g ur pr (τ k)) →
      ∀ᶠ N in atTop, NearTerms (budgetSum (nl N) (x1 N) (x2 N) fun i => pointBudget c A ur pr n τ N i (g N)) δ E M v v' a om H R cp top
        0 (π / 2) φ T1 T2 l1 l2 := by
  obtain ⟨hlim, hB⟩ := C185_north h hs hE hF hW hc
  obtain ⟨η, hη, key⟩ := terms_of (A := A) (c := c) hs hE hl hB T1 T2 hδ
  refine ⟨η, hη, fun n τ hτ nl x1 x2 g ur pr hS => key n τ hτ nl x1 x2 g ur pr (fun k hk => (hS k hk).columns) fun k hk => ?_⟩
  obtain ⟨μ, hμ⟩ := (hS k hk).stratified
  exact hlim (τ k) l1 l2 x1 x2 g (ur (τ k)) (pr (τ k)) μ (hS k hk).west (hS k hk).east (hS k hk).order (hS k hk).inside (hS k hk).reference hμ

/-- **C200, Southern Hemisphere.** -/
theorem C200_south (h : ∀ z, 0 ≤ z → z ≤ top → (M z).Obeys a) (hs : Stacked M v v') (hE : E.Balanced M v a om H R cp top φ)
    (hF : Followed c M E F a om H R cp top A) (hW : ∀ t, WaveSouth a top (fun φ l z => (M z).q t φ l) φ fun z => v z t)
    (hc : 1 / 100000 < cos φ) {l1 l2 : ℝ} (hl : l1 ≤ l2) (T1 T2 : ℝ) {δ : ℝ} (hδ : 0 < δ) :
    ∃ η, 0 < η ∧ ∀ n τ, Xr.TimeAxis n τ T1 T2 η → ∀ nl x1 x2 g ur pr,
      (∀ k < n, SampledSouth c E A top φ l1 l2 nl x1 x2 g ur pr (τ k)) →
      ∀ᶠ N in atTop, NearTerms (budgetSum (nl N) (x1 N) (x2 N) fun i => pointBudget c A ur pr n τ N i (g N)) δ E M v v' a om H R cp top
        (-(π / 2)) 0 φ T1 T2 l1 l2 := by
  obtain ⟨hlim, hB⟩ := C185_south h hs hE hF hW hc
  obtain ⟨η, hη, key⟩ := terms_of (A := A) (c := c) hs hE hl hB T1 T2 hδ
  refine ⟨η, hη, fun n τ hτ nl x1 x2 g ur pr hS => key n τ hτ nl x1 x2 g ur pr (fun k hk => (hS k hk).columns) fun k hk => ?_⟩
  obtain ⟨μ, hμ⟩ := (hS k hk).stratified
  exact hlim (τ k) l1 l2 x1 x2 g (ur (τ k)) (pr (τ k)) μ (hS k hk).west (hS k hk).east (hS k hk).order (hS k hk).inside (hS k hk).reference hμ

/-! ### The sample of C185, from time 0 to time 1 -/

theorem even_axis {η : ℝ} (hη : 0 < η) : ∃ n τ, Xr.TimeAxis n τ 0 1 η := by
  obtain ⟨m, hm⟩ := exists_nat_one_div_lt hη
  have hp : (0 : ℝ) < (m : ℝ) + 1 := by positivity
  refine ⟨m + 2, fun k => k / ((m : ℝ) + 1), by omega, fun k _ => ?_, by simp, ?_, fun k _ => ?_⟩
  · exact div_lt_div_of_pos_right (by push_cast; linarith) hp
  · show (((m + 2 - 1 : ℕ) : ℝ)) / ((m : ℝ) + 1) = 1
    rw [show m + 2 - 1 = m + 1 by omega]
    push_cast
    exact div_self hp.ne'
  · rw [← sub_div]
    push_cast
    rw [add_sub_cancel_left]
    exact hm.le

/-- Hypotheses of `C200_north` and `C200_south`, at 45°N and 45°S. -/
example : ∃ v w κ η : ℝ, ∀ (c : Scheme) (δ : ℝ), 0 < δ →
    (∃ n τ, ∀ᶠ N in atTop, NearTerms (budgetSum (turnedFine 0 N).nlon 2 ((turnedFine 0 N).nlat - 1) fun i =>
      pointBudget c turnedFine (jetSamples κ) coldSamples n τ N i ((turnedFine 0 N).nd + (N + 1))) δ (drivenEddies κ (π / 4)) (fun _ => driven)
      (fun _ _ => v) (fun _ _ => 0) 1 (1 / 2) 1 1 1 1 0 (π / 2) (π / 4) 0 1 0 π) ∧
    (∃ n τ, ∀ᶠ N in atTop, NearTerms (budgetSum (turnedFine 0 N).nlon 2 ((turnedFine 0 N).nlat - 1) fun i =>
      pointBudget c turnedFine (jetSamples η) coldSamples n τ N i ((turnedFine 0 N).nd - (N + 1))) δ (drivenEddies η (-(π / 4))) (fun _ => driven)
      (fun _ _ => w) (fun _ _ => 0) 1 (1 / 2) 1 1 1 1 (-(π / 2)) 0 (-(π / 4)) 0 1 0 π) := by
  have hpi := pi_pos
  obtain ⟨v, hv⟩ := precession_encloses (φ := π / 4) (by linarith) (by linarith)
  obtain ⟨w, hw⟩ := precession_encloses (φ := -(π / 4)) (by linarith) (by linarith)
  have hN : ∀ t, WaveNorth 1 1 (fun φ l _ => driven.q t φ l) (π / 4) fun _ => v := fun t =>
    ⟨by linarith, by linarith, fun z _ _ => by have := precession_high (2 * t) z; rw [driven_q] at this; exact this,
      fun _ _ _ => driven_encloses hv t⟩
  have hS : ∀ t, WaveSouth 1 1 (fun φ l _ => driven.q t φ l) (-(π / 4)) fun _ => w := fun t =>
    ⟨by linarith, by linarith, fun z _ _ => by have := precession_low (2 * t) z; rw [driven_q] at this; exact this,
      fun _ _ _ => driven_encloses hw t⟩
  have s1 : sin (π / 4) ≠ 0 := (sin_pos_of_pos_of_lt_pi (by linarith) (by linarith)).ne'
  have s2 : sin (-(π / 4)) ≠ 0 := by rw [sin_neg]; exact neg_ne_zero.2 s1
  have c0 : 1 / 100000 < cos (π / 4) := by
    rw [cos_pi_div_four]
    have : (1 : ℝ) ≤ √2 := Real.one_le_sqrt.2 (by norm_num)
    linarith
  have c0' : 1 / 100000 < cos (-(π / 4)) := by rw [cos_neg]; exact c0
  have c1 : cos (π / 4) ≠ 0 := (cos_pos_of_mem_Ioo ⟨by linarith, by linarith⟩).ne'
  have c2 : cos (-(π / 4)) ≠ 0 := by rw [cos_neg]; exact c1
  refine ⟨v, w, (v - 2 * sin (π / 4)) / (2 * sin (π / 4)), (w - 2 * sin (-(π / 4))) / (2 * sin (-(π / 4))), fun c δ hδ => ?_⟩
  have bN := drivenEddies_balanced (κ := (v - 2 * sin (π / 4)) / (2 * sin (π / 4))) (v := v) c1 (by field_simp; ring)
  have bS := drivenEddies_balanced (κ := (w - 2 * sin (-(π / 4))) / (2 * sin (-(π / 4)))) (v := w) c2 (by field_simp; ring)
  have cols := fun t => half_columns ((driven_watched c).seen t).refines
  have x1N : ∀ t, TowardNorth (turnedFine t) (fun _ => 2) (fun n => (turnedFine t n).nd + (n + 1)) 0 (π / 4) := fun t =>
    ⟨fun n => ⟨by norm_num, ((cols t).1 n).1.trans ((cols t).1 n).2⟩, (turnedFine_north t).row, (cols t).2.1, (turnedFine_north t).latitude⟩
  have x2N : ∀ t, TowardNorth (turnedFine t) (fun n => (turnedFine t n).nlat - 1) (fun n => (turnedFine t n).nd + (n + 1)) π (π / 4) := fun t =>
    ⟨fun n => ⟨by have := ((cols t).1 n).1; omega, ((cols t).1 n).2⟩, (turnedFine_north t).row, (cols t).2.2, (turnedFine_north t).latitude⟩
  have x1S : ∀ t, TowardSouth (turnedFine t) (fun _ => 2) (fun n => (turnedFine t n).nd - (n + 1)) 0 (-(π / 4)) := fun t =>
    ⟨(turnedFine_south t).globe, fun n => ⟨by norm_num, ((cols t).1 n).1.trans ((cols t).1 n).2⟩, (turnedFine_south t).row, (cols t).2.1,
      (turnedFine_south t).latitude⟩
  have x2S : ∀ t, TowardSouth (turnedFine t) (fun n => (turnedFine t n).nlat - 1) (fun n => (turnedFine t n).nd - (n + 1)) π (-(π / 4)) := fun t =>
    ⟨(turnedFine_south t).globe, fun n => ⟨by have := ((cols t).1 n).1; omega, ((cols t).1 n).2⟩, (turnedFine_south t).row, (cols t).2.2,
      (turnedFine_south t).latitude⟩
  obtain ⟨η1, p1, k1⟩ := C200_north (fun _ _ _ => driven_obeys) (driven_stacked v) bN (driven_followed c _ _) hN c0 hpi.le 0 1 hδ
  obtain ⟨η2, p2, k2⟩ := C200_south (fun _ _ _ => driven_obeys) (driven_stacked w) bS (driven_followed c _ _) hS c0' hpi.le 0 1 hδ
  obtain ⟨n1, τ1, a1⟩ := even_axis p1
  obtain ⟨n2, τ2, a2⟩ := even_axis p2
  refine ⟨⟨n1, τ1, k1 n1 τ1 a1 (fun N => (turnedFine 0 N).nlon) (fun _ => 2) (fun N => (turnedFine 0 N).nlat - 1)
      (fun N => (turnedFine 0 N).nd + (N + 1)) _ _ fun k _ => ?_⟩,
    ⟨n2, τ2, k2 n2 τ2 a2 (fun N => (turnedFine 0 N).nlon) (fun _ => 2) (fun N => (turnedFine 0 N).nlat - 1)
      (fun N => (turnedFine 0 N).nd - (N + 1)) _ _ fun k _ => ?_⟩⟩
  · exact ⟨fun _ => rfl, x1N _, x2N _, fun m => ⟨le_rfl, ((cols (τ1 k)).1 m).1⟩, turnedFine_insideN _, turnedFine_reference _ _ _,
      _, turnedFine_stratified c _ _⟩
  · exact ⟨fun _ => rfl, x1S _, x2S _, fun m => ⟨le_rfl, ((cols (τ2 k)).1 m).1⟩, turnedFine_insideS _, turnedFine_reference _ _ _,
      _, turnedFine_stratified c _ _⟩

end Atmos

end Falwa

end
