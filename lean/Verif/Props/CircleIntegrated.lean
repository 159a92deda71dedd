import Verif.Props.IntegratedBudget

/-!
# C203: `integrate_budget` of the package's output, summed over a whole circle of latitude
-/

noncomputable section

namespace Falwa

open MeasureTheory Filter Set Real Spec

namespace Atmos

variable {E : Eddies} {M : ℝ → Motion} {v v' : ℝ → ℝ → ℝ} {F : ℝ → Flow} {A : ℝ → ℕ → Atmos} {a om H R cp top φ : ℝ} {c : Scheme}

/-- At the time `t` the grids have `nl` longitudes, the row `g` tends to `φ` in the Northern Hemisphere, and the reference states and the static
stability are those of the motion. -/
structure RowNorth (c : Scheme) (E : Eddies) (A : ℝ → ℕ → Atmos) (top φ : ℝ) (nl g : ℕ → ℤ) (ur pr : ℝ → ℕ → ℤ → ℤ → ℝ) (t : ℝ) : Prop where
  columns : ∀ N, (A t N).nlon = nl N
  row : ∃ x l, TowardNorth (A t) x g l φ
  inside : Inside (A t) g
  reference : ReferenceTends (A t) g (E.Ur t) (E.Θ t) (ur t) (pr t)
  stratified : ∃ μ, Stratified c (A t) g top μ (E.σ t)

/-- The same in the Southern Hemisphere. -/
structure RowSouth (c : Scheme) (E : Eddies) (A : ℝ → ℕ → Atmos) (top φ : ℝ) (nl g : ℕ → ℤ) (ur pr : ℝ → ℕ → ℤ → ℤ → ℝ) (t : ℝ) : Prop where
  columns : ∀ N, (A t N).nlon = nl N
  row : ∃ x l, TowardSouth (A t) x g l φ
  inside : Inside (A t) g
  reference : ReferenceTends (A t) g (E.Ur t) (E.Θ t) (ur t) (pr t)
  stratified : ∃ μ, Stratified c (A t) g top μ (E.σ t)

/-- The terms of the budget of the zonal mean over the period, times 2π: the change of wave activity, nothing from the zonal advective flux, the
divergence of the eddy momentum flux, the flux up through the ground; and as residual the source of QGPV less the change of the reference values,
less what leaves through the top and what displaced air carries through the ends. -/
structure CircleTerms (b : Xr.Budget) (δ : ℝ) (E : Eddies) (M : ℝ → Motion) (v v' : ℝ → ℝ → ℝ) (a om H top φs φn φ T1 T2 : ℝ) : Prop where
  change : |b.deltaLwa - ∫ l in (0 : ℝ)..(2 * π), (columnWave M v a H top φs φn φ T2 l - columnWave M v a H top φs φn φ T1 l)| ≤ δ
  zonal : b.czaf = 0
  momentum : |b.demf - ∫ t in T1..T2, ∫ l in (0 : ℝ)..(2 * π), columnMomentum E a H top φ t l| ≤ δ
  heat : |b.mhf - ∫ t in T1..T2, ∫ l in (0 : ℝ)..(2 * π), upwardFlux E M om H top φ 0 t l| ≤ δ
  residual : |b.residual -
      (((∫ t in T1..T2, ∫ l in (0 : ℝ)..(2 * π), columnSource M v a H top φs φn φ t l fun z t φ l => (M z).S t φ l) -
          ∫ t in T1..T2, ∫ l in (0 : ℝ)..(2 * π), columnSource M v a H top φs φn φ t l fun z t _ _ => v' z t) -
        (∫ t in T1..T2, ∫ l in (0 : ℝ)..(2 * π), upwardFlux E M om H top φ top t l) -
        ∫ t in T1..T2, ∫ l in (0 : ℝ)..(2 * π), columnEnds M v H top φs φn t l)| ≤ δ

theorem circleTerms_of {φs φn : ℝ} (hs : Stacked M v v') (hE : E.Balanced M v a om H R cp top φ)
    (hB : CircleBudget E M v v' a om H top φs φn φ) (T1 T2 : ℝ) {δ : ℝ} (hδ : 0 < δ) :
    ∃ η, 0 < η ∧ ∀ n τ, Xr.TimeAxis n τ T1 T2 η → ∀ (nl g : ℕ → ℤ) (ur pr : ℝ → ℕ → ℤ → ℤ → ℝ), (∀ k < n, ∀ N, (A (τ k) N).nlon = nl N) →
      (∀ k < n, CircleLimits c E M v a om H top φs φn φ (A (τ k)) (ur (τ k)) (pr (τ k)) (τ k) g) →
      ∀ᶠ N in atTop, CircleTerms (budgetSum (nl N) 1 (nl N + 1) fun i => pointBudget c A ur pr n τ N i (g N)) δ E M v v' a om H top
        φs φn φ T1 T2 := by
  have line : ∀ {f : ℝ × ℝ → ℝ}, Continuous f → Continuous fun t => ∫ l in (0 : ℝ)..(2 * π), f (t, l) := fun {f} hf =>
    intervalIntegral.continuous_parametric_intervalIntegral_of_continuous' (f := fun t l => f (t, l)) hf 0 (2 * π)
  have cW : ∀ t, IntervalIntegrable (fun l => columnWave M v a H top φs φn φ t l) volume 0 (2 * π) := fun t =>
    (columnMean_continuous (G := fun l z => meridionalWaveActivity a (fun x => (M z).q t x l) (v z t) φs φn φ)
      ((stacked_wave hs a φs φn φ).comp (f := fun p : ℝ × ℝ => (p.2, t, p.1)) (by fun_prop))).intervalIntegrable _ _
  obtain ⟨η, hη, hb⟩ := Xr.budget_tends (W := fun t => ∫ l in (0 : ℝ)..(2 * π), columnWave M v a H top φs φn φ t l)
    (X := fun _ => 0) continuous_const (line (momentum_continuous hE)) (line (upward_continuous hs hE 0)) T1 T2 hδ
  refine ⟨η, hη, fun n τ h nl g ur pr hnl hlim => ?_⟩
  have hT : T1 ≤ T2 := by
    have := h.mem (k := 0) (by have := h.some; omega)
    exact this.1.trans this.2
  have key := hb n τ h
    (fun k N => (((A (τ k) N).analysis c).withReference (ur (τ k) N) (pr (τ k) N)).bandSum
      (fun i => (((A (τ k) N).analysis c).withReference (ur (τ k) N) (pr (τ k) N)).lwaBaro i (g N)) 1 ((A (τ k) N).nlon + 1))
    (fun k N => (((A (τ k) N).analysis c).withReference (ur (τ k) N) (pr (τ k) N)).bandSum
      (fun i => (((A (τ k) N).analysis c).withReference (ur (τ k) N) (pr (τ k) N)).convergenceAt i (g N)) 1 ((A (τ k) N).nlon + 1))
    (fun k N => (((A (τ k) N).analysis c).withReference (ur (τ k) N) (pr (τ k) N)).bandSum
      (fun i => (((A (τ k) N).analysis c).withReference (ur (τ k) N) (pr (τ k) N)).divEddyMomentumFlux i (g N)) 1 ((A (τ k) N).nlon + 1))
    (fun k N => (((A (τ k) N).analysis c).withReference (ur (τ k) N) (pr (τ k) N)).bandSum
      (fun i => (((A (τ k) N).analysis c).withReference (ur (τ k) N) (pr (τ k) N)).heatFlux i (g N)) 1 ((A (τ k) N).nlon + 1))
    (fun k hk => (hlim k hk).wave) (fun k hk => tendsto_const_nhds.congr fun N => ((hlim k hk).convergence N).symm)
    (fun k hk => (hlim k hk).momentum) (fun k hk => (hlim k hk).heat)
  refine key.mono fun N hN => ?_
  have hbud := hB T1 T2 hT
  have eW := intervalIntegral.integral_sub (cW T2) (cW T1)
  have hn := h.some
  have h1 : n - 1 < n := by omega
  have h0 : 0 < n := by omega
  have same : ∀ {y1 y2 : ℕ → ℝ}, (∀ k < n, y1 k = y2 k) → Xr.integrate n τ y1 = Xr.integrate n τ y2 ∧ y1 0 = y2 0 ∧ y1 (n - 1) = y2 (n - 1) :=
    fun {y1 y2} e => by
      refine ⟨Finset.sum_congr rfl fun i hi => ?_, e 0 (by omega), e (n - 1) (by omega)⟩
      have := Finset.mem_range.1 hi
      rw [e i (by omega), e (i + 1) (by omega)]
  have conv : ∀ {w1 w2 y1 y2 p1 p2 g1 g2 : ℕ → ℝ}, (∀ k < n, w1 k = w2 k) → (∀ k < n, y1 k = y2 k) → (∀ k < n, p1 k = p2 k) →
      (∀ k < n, g1 k = g2 k) → Xr.integrateBudget n τ w1 y1 p1 g1 = Xr.integrateBudget n τ w2 y2 p2 g2 :=
    fun {w1 w2 y1 y2 p1 p2 g1 g2} ew ey ep eg => by
      unfold Xr.integrateBudget
      simp only [Xr.selTime_eq h.distinct h1, Xr.selTime_eq h.distinct h0, (same ew).2.1, (same ew).2.2, (same ey).1, (same ep).1, (same eg).1]
  have e : ∀ k < n, ∀ X : ℤ → ℝ, (((A (τ k) N).analysis c).withReference (ur (τ k) N) (pr (τ k) N)).bandSum X 1 ((A (τ k) N).nlon + 1) =
      ∑ i ∈ Finset.Ico 1 (nl N + 1), X i * (2 * π / (nl N : ℝ)) := fun k hk X => by
    rw [← hnl k hk N]
    rfl
  unfold pointBudget
  rw [budgetSum_integrate h, conv (fun k hk => (e k hk _).symm) (fun k hk => ((e k hk _).symm.trans ((hlim k hk).convergence N)))
    (fun k hk => (e k hk _).symm) fun k hk => (e k hk _).symm]
  rw [conv (fun _ _ => rfl) (fun k hk => (hlim k hk).convergence N) (fun _ _ => rfl) (fun _ _ => rfl)] at hN
  have z0 : Xr.integrate n τ (fun _ => 0) = 0 := by
    unfold Xr.integrate
    simp
  refine ⟨?_, z0, hN.momentum, hN.heat, ?_⟩
  · rw [eW]
    exact hN.change
  · have hr := hN.residual
    rw [intervalIntegral.integral_zero] at hr
    have eres : (∫ l in (0 : ℝ)..(2 * π), columnWave M v a H top φs φn φ T2 l) - (∫ l in (0 : ℝ)..(2 * π), columnWave M v a H top φs φn φ T1 l) - 0 -
        (∫ t in T1..T2, ∫ l in (0 : ℝ)..(2 * π), columnMomentum E a H top φ t l) -
        (∫ t in T1..T2, ∫ l in (0 : ℝ)..(2 * π), upwardFlux E M om H top φ 0 t l) =
        ((∫ t in T1..T2, ∫ l in (0 : ℝ)..(2 * π), columnSource M v a H top φs φn φ t l fun z t φ l => (M z).S t φ l) -
          ∫ t in T1..T2, ∫ l in (0 : ℝ)..(2 * π), columnSource M v a H top φs φn φ t l fun z t _ _ => v' z t) -
        (∫ t in T1..T2, ∫ l in (0 : ℝ)..(2 * π), upwardFlux E M om H top φ top t l) -
        ∫ t in T1..T2, ∫ l in (0 : ℝ)..(2 * π), columnEnds M v H top φs φn t l := by
      rw [← eW, hbud]
      ring
    rw [← eres]
    exact hr

/-- **C203, Northern Hemisphere.** For every tolerance there is a time step such that on every finer time axis, the terms of `integrate_budget`
summed over all columns of a row come within the tolerance of those of the budget of the zonal mean when the grid is refined; the convergence of the
zonal advective flux leaves nothing. -/
theorem C203_north (h : ∀ z, 0 ≤ z → z ≤ top → (M z).Obeys a) (hs : Stacked M v v') (hE : E.Balanced M v a om H R cp top φ)
    (hR : Round M E) (hF : Followed c M E F a om H R cp top A) (hW : ∀ t, WaveNorth a top (fun φ l z => (M z).q t φ l) φ fun z => v z t)
    (T1 T2 : ℝ) {δ : ℝ} (hδ : 0 < δ) :
    ∃ η, 0 < η ∧ ∀ n τ, Xr.TimeAxis n τ T1 T2 η → ∀ nl g ur pr, (∀ k < n, RowNorth c E A top φ nl g ur pr (τ k)) →
      ∀ᶠ N in atTop, CircleTerms (budgetSum (nl N) 1 (nl N + 1) fun i => pointBudget c A ur pr n τ N i (g N)) δ E M v v' a om H top
        0 (π / 2) φ T1 T2 := by
  obtain ⟨hlim, hB⟩ := C186_north h hs hE hR hF hW
  obtain ⟨η, hη, key⟩ := circleTerms_of (A := A) (c := c) hs hE hB T1 T2 hδ
  refine ⟨η, hη, fun n τ hτ nl g ur pr hS => key n τ hτ nl g ur pr (fun k hk => (hS k hk).columns) fun k hk => ?_⟩
  obtain ⟨μ, hμ⟩ := (hS k hk).stratified
  obtain ⟨x, l, hx⟩ := (hS k hk).row
  exact hlim (τ k) x g l (ur (τ k)) (pr (τ k)) μ hx (hS k hk).inside (hS k hk).reference hμ

/-- **C203, Southern Hemisphere.** -/
theorem C203_south (h : ∀ z, 0 ≤ z → z ≤ top → (M z).Obeys a) (hs : Stacked M v v') (hE : E.Balanced M v a om H R cp top φ)
    (hR : Round M E) (hF : Followed c M E F a om H R cp top A) (hW : ∀ t, WaveSouth a top (fun φ l z => (M z).q t φ l) φ fun z => v z t)
    (T1 T2 : ℝ) {δ : ℝ} (hδ : 0 < δ) :
    ∃ η, 0 < η ∧ ∀ n τ, Xr.TimeAxis n τ T1 T2 η → ∀ nl g ur pr, (∀ k < n, RowSouth c E A top φ nl g ur pr (τ k)) →
      ∀ᶠ N in atTop, CircleTerms (budgetSum (nl N) 1 (nl N + 1) fun i => pointBudget c A ur pr n τ N i (g N)) δ E M v v' a om H top
        (-(π / 2)) 0 φ T1 T2 := by
  obtain ⟨hlim, hB⟩ := C186_south h hs hE hR hF hW
  obtain ⟨η, hη, key⟩ := circleTerms_of (A := A) (c := c) hs hE hB T1 T2 hδ
  refine ⟨η, hη, fun n τ hτ nl g ur pr hS => key n τ hτ nl g ur pr (fun k hk => (hS k hk).columns) fun k hk => ?_⟩
  obtain ⟨μ, hμ⟩ := (hS k hk).stratified
  obtain ⟨x, l, hx⟩ := (hS k hk).row
  exact hlim (τ k) x g l (ur (τ k)) (pr (τ k)) μ hx (hS k hk).inside (hS k hk).reference hμ

/-- Hypotheses of `C203_north` and `C203_south`: the sample of C186 at 45°N and 45°S, from time 0 to time 1. -/
example : ∃ v w κ η : ℝ, ∀ (c : Scheme) (δ : ℝ), 0 < δ →
    (∃ n τ, ∀ᶠ N in atTop, CircleTerms (budgetSum (turnedFine 0 N).nlon 1 ((turnedFine 0 N).nlon + 1) fun i =>
      pointBudget c turnedFine (jetSamples κ) coldSamples n τ N i ((turnedFine 0 N).nd + (N + 1))) δ (drivenEddies κ (π / 4)) (fun _ => driven)
      (fun _ _ => v) (fun _ _ => 0) 1 (1 / 2) 1 1 0 (π / 2) (π / 4) 0 1) ∧
    (∃ n τ, ∀ᶠ N in atTop, CircleTerms (budgetSum (turnedFine 0 N).nlon 1 ((turnedFine 0 N).nlon + 1) fun i =>
      pointBudget c turnedFine (jetSamples η) coldSamples n τ N i ((turnedFine 0 N).nd - (N + 1))) δ (drivenEddies η (-(π / 4))) (fun _ => driven)
      (fun _ _ => w) (fun _ _ => 0) 1 (1 / 2) 1 1 (-(π / 2)) 0 (-(π / 4)) 0 1) := by
  have hpi := pi_pos
  obtain ⟨v, hv⟩ := precession_encloses (φ := π / 4) (by linarith) (by linarith)
  obtain ⟨w, hw⟩ := precession_encloses (φ := -(π / 4)) (by linarith) (by linarith)
  have hN : ∀ t, WaveNorth 1 1 (fun φ l _ => driven.q t φ l) (π / 4) fun _ => v := fun t =>
    ⟨by linarith, by linarith, fun z _ _ => by have := precession_high (2 * t) z; rw [driven_q] at this; exact this,
      fun _ _ _ => driven_encloses hv t⟩
  have hS : ∀ t, WaveSouth 1 1 (fun φ l _ => driven.q t φ l) (-(π / 4)) fun _ => w := fun t =>
    ⟨by linarith, by linarith, fun z _ _ => by have := precession_low (2 * t) z; rw [driven_q] at this; exact this,
      fun _ _ _ => driven_encloses hw t⟩
  have s1 : sin (π / 4) ≠ 0 := (sin_pos_of_pos_of_lt_pi (by linarith) (by linarith)).ne'
  have s2 : sin (-(π / 4)) ≠ 0 := by rw [sin_neg]; exact neg_ne_zero.2 s1
  have c1 : cos (π / 4) ≠ 0 := (cos_pos_of_mem_Ioo ⟨by linarith, by linarith⟩).ne'
  have c2 : cos (-(π / 4)) ≠ 0 := by rw [cos_neg]; exact c1
  refine ⟨v, w, (v - 2 * sin (π / 4)) / (2 * sin (π / 4)), (w - 2 * sin (-(π / 4))) / (2 * sin (-(π / 4))), fun c δ hδ => ?_⟩
  have bN := drivenEddies_balanced (κ := (v - 2 * sin (π / 4)) / (2 * sin (π / 4))) (v := v) c1 (by field_simp; ring)
  have bS := drivenEddies_balanced (κ := (w - 2 * sin (-(π / 4))) / (2 * sin (-(π / 4)))) (v := w) c2 (by field_simp; ring)
  obtain ⟨η1, p1, k1⟩ := C203_north (fun _ _ _ => driven_obeys) (driven_stacked v) bN (driven_round _ _) (driven_followed c _ _) hN 0 1 hδ
  obtain ⟨η2, p2, k2⟩ := C203_south (fun _ _ _ => driven_obeys) (driven_stacked w) bS (driven_round _ _) (driven_followed c _ _) hS 0 1 hδ
  obtain ⟨n1, τ1, a1⟩ := even_axis p1
  obtain ⟨n2, τ2, a2⟩ := even_axis p2
  refine ⟨⟨n1, τ1, k1 n1 τ1 a1 (fun N => (turnedFine 0 N).nlon) (fun N => (turnedFine 0 N).nd + (N + 1)) _ _ fun k _ => ?_⟩,
    ⟨n2, τ2, k2 n2 τ2 a2 (fun N => (turnedFine 0 N).nlon) (fun N => (turnedFine 0 N).nd - (N + 1)) _ _ fun k _ => ?_⟩⟩
  · exact ⟨fun _ => rfl, ⟨_, _, turnedFine_north _⟩, turnedFine_insideN _, turnedFine_reference _ _ _, _, turnedFine_stratified c _ _⟩
  · exact ⟨fun _ => rfl, ⟨_, _, turnedFine_south _⟩, turnedFine_insideS _, turnedFine_reference _ _ _, _, turnedFine_stratified c _ _⟩

end Atmos

end Falwa

end
