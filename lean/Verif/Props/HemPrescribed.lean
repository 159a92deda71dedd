import Verif.Lemmas.HemRows

/-!
# C199: wave activity about a prescribed reference profile, on ever finer grids
-/

noncomputable section

namespace Falwa

open Finset Spec MeasureTheory Filter

variable {a φ σ l : ℝ} {q : ℝ → ℝ → ℝ} {R : ℝ → ℝ} {nlat nlon : ℕ → ℕ} {S np : ℕ → Option ℕ} {j c : ℕ → ℕ}

/-- A profile given as a function of latitude (in radians), at the rows of a regular grid. -/
def Spec.prescribed (R : ℝ → ℝ) (nlat r : ℕ) : ℝ := R (regularLat nlat r * Real.pi / 180)

/-- **C199 (south).** At rows of the southern part that tend to `φ` the result of `qgpv_input_qref_to_compute_lwa` tends to the wave activity of that
part about the prescribed value at `φ`. -/
theorem C199_south (hq : Continuous fun p : ℝ × ℝ => q p.1 p.2) (hRc : ContinuousAt R φ) (hg : HemGrids nlat nlon S np σ)
    (hr : SouthRows nlat S j σ φ) (hc : Tendsto (fun i => 2 * Real.pi * c i / nlon i) atTop (nhds l)) :
    Tendsto (fun i => (hemOn a q (nlat i) (nlon i) (S i) (np i)).qgpvInputQref (prescribed R (nlat i)) (j i) (c i)) atTop
      (nhds (meridionalWaveActivity a (fun y => q y l) (R φ) (-(Real.pi / 2)) σ φ)) := by
  refine (hr.activity hq hg hc (f := fun i => prescribed R (nlat i)) (hRc.tendsto.comp hr.toward)).congr fun i => ?_
  unfold HemInput.qgpvInputQref HemInput.lwaBoth
  rw [hr.keeps]
  rfl

/-- **C199 (north).** -/
theorem C199_north (hq : Continuous fun p : ℝ × ℝ => q p.1 p.2) (hRc : ContinuousAt R φ) (hg : HemGrids nlat nlon S np σ)
    (hr : NorthRows nlat S j σ φ) (hc : Tendsto (fun i => 2 * Real.pi * c i / nlon i) atTop (nhds l)) :
    Tendsto (fun i => (hemOn a q (nlat i) (nlon i) (S i) (np i)).qgpvInputQref (prescribed R (nlat i)) (j i) (c i)) atTop
      (nhds (meridionalWaveActivity a (fun y => q y l) (R φ) (-σ) (Real.pi / 2) φ)) := by
  refine (hr.activity hq hg hc (Q := fun i => prescribed R (nlat i)) (hRc.tendsto.comp hr.toward)).congr fun i => ?_
  unfold HemInput.qgpvInputQref HemInput.lwaBoth
  rw [hr.writes hg]
  rfl

/-- **C199 (from pole to pole).** `barotropic_input_qref_to_compute_lwa` returns a tuple. Its first component tends to the wave activity of the whole
meridian about the prescribed value. -/
theorem C199_barotropic (hq : Continuous fun p : ℝ × ℝ => q p.1 p.2) (hRc : ContinuousAt R φ) (h1 : ∀ i, 3 ≤ nlat i) (h2 : ∀ i, 1 ≤ nlon i)
    (hlat : Tendsto nlat atTop atTop) (hlon : Tendsto nlon atTop atTop) (hj : ∀ i, j i + 1 < nlat i)
    (hrow : Tendsto (fun i => regularLat (nlat i) (j i) * Real.pi / 180) atTop (nhds φ)) (h3 : -(Real.pi / 2) < φ) (h4 : φ < Real.pi / 2)
    (hc : Tendsto (fun i => 2 * Real.pi * c i / nlon i) atTop (nhds l)) :
    ∃ A : ℕ → ℕ → ℕ → ℝ,
      (∀ i, barotropicInputQref (nlat i) (sampled q (nlat i) (nlon i)) (prescribed R (nlat i)) (regularLength a (nlat i)) = .tuple (A i) none) ∧
      Tendsto (fun i => A i (j i) (c i)) atTop (nhds (meridionalWaveActivity a (fun y => q y l) (R φ) (-(Real.pi / 2)) (Real.pi / 2) φ)) := by
  have hpi := Real.pi_pos
  have hg : HemGrids nlat nlon (fun i => some (nlat i)) (fun _ => none) (Real.pi / 2) := by
    refine ⟨h1, h2, fun i => ?_, fun i => le_rfl, fun i => ?_, hlat, hlon, hlat, by linarith, le_rfl, ?_⟩
    · show 0 < nlat i
      have := h1 i; omega
    · show 2 ≤ nlat i
      have := h1 i; omega
    · show Tendsto (fun i => (nlat i : ℝ) * (Real.pi / ((nlat i - 1 : ℕ) : ℝ))) atTop (nhds (Real.pi / 2 + Real.pi / 2))
      have hN : Tendsto (fun i => Real.pi / ((nlat i - 1 : ℕ) : ℝ)) atTop (nhds 0) :=
        tendsto_const_nhds.div_atTop (tendsto_natCast_atTop_atTop.comp ((tendsto_sub_atTop_nat 1).comp hlat))
      have := hN.const_add Real.pi
      rw [add_zero] at this
      rw [add_halves]
      refine this.congr fun i => ?_
      have h5 : (0 : ℝ) < ((nlat i - 1 : ℕ) : ℝ) := by exact_mod_cast (by have := h1 i; omega : 0 < nlat i - 1)
      have h6 : (nlat i : ℝ) = ((nlat i - 1 : ℕ) : ℝ) + 1 := by exact_mod_cast (by have := h1 i; omega : nlat i = nlat i - 1 + 1)
      rw [h6]
      field_simp
  refine ⟨fun i => lwaTotal (nlat i) (sampled q (nlat i) (nlon i)) (prescribed R (nlat i)) (regularLength a (nlat i)), fun i => rfl, ?_⟩
  exact hg.activity (fun i => hj i) hrow h3 h4 hq hc (f := fun i => prescribed R (nlat i)) (hRc.tendsto.comp hrow)

/-- **C199 (vanishes).** These limits are 0 exactly if along the meridian no air south of `φ` has a value above the prescribed one and no air north of `φ`
a value below it. -/
theorem C199_zero_iff {t : ℝ → ℝ} {Θ s n : ℝ} (ha : 0 < a) (ht : Continuous t) (h1 : -(Real.pi / 2) ≤ s) (hs : s < φ) (hn : φ < n) (h2 : n ≤ Real.pi / 2) :
    meridionalWaveActivity a t Θ s n φ = 0 ↔ (∀ x ∈ Set.Icc φ n, Θ ≤ t x) ∧ ∀ x ∈ Set.Icc s φ, t x ≤ Θ := by
  have hcos : ∀ x ∈ Set.Icc s n, 0 ≤ a * Real.cos x := fun x hx =>
    mul_nonneg ha.le (Real.cos_nonneg_of_neg_pi_div_two_le_of_le (by linarith [hx.1]) (by linarith [hx.2]))
  have hcos' : ∀ x ∈ Set.Ioo s n, 0 < a * Real.cos x := fun x hx =>
    mul_pos ha (Real.cos_pos_of_mem_Ioo ⟨by linarith [hx.1], by linarith [hx.2]⟩)
  have n1 : 0 ≤ ∫ x in φ..n, max (Θ - t x) 0 * (a * Real.cos x) := intervalIntegral.integral_nonneg hn.le fun x hx =>
    mul_nonneg (le_max_right _ _) (hcos x ⟨by linarith [hx.1], hx.2⟩)
  have n2 : 0 ≤ ∫ x in s..φ, max (t x - Θ) 0 * (a * Real.cos x) := intervalIntegral.integral_nonneg hs.le fun x hx =>
    mul_nonneg (le_max_right _ _) (hcos x ⟨hx.1, by linarith [hx.2]⟩)
  unfold meridionalWaveActivity
  constructor
  · intro h0
    constructor
    · have hsub : Set.Ioo φ n ⊆ {x | Θ ≤ t x} := fun x hx => by
        by_contra hlt
        have hlt' : t x < Θ := not_le.1 hlt
        have : 0 < ∫ x in φ..n, max (Θ - t x) 0 * (a * Real.cos x) := intervalIntegral.integral_pos hn
          (by fun_prop : Continuous fun x => max (Θ - t x) 0 * (a * Real.cos x)).continuousOn
          (fun y hy => mul_nonneg (le_max_right _ _) (hcos y ⟨by linarith [hy.1], hy.2⟩))
          ⟨x, ⟨hx.1.le, hx.2.le⟩, mul_pos (lt_max_of_lt_left (by linarith)) (hcos' x ⟨by linarith [hx.1], hx.2⟩)⟩
        linarith
      have := (isClosed_le continuous_const ht).closure_subset_iff.2 hsub
      rw [closure_Ioo hn.ne] at this
      exact fun x hx => this hx
    · have hsub : Set.Ioo s φ ⊆ {x | t x ≤ Θ} := fun x hx => by
        by_contra hlt
        have hlt' : Θ < t x := not_le.1 hlt
        have : 0 < ∫ x in s..φ, max (t x - Θ) 0 * (a * Real.cos x) := intervalIntegral.integral_pos hs
          (by fun_prop : Continuous fun x => max (t x - Θ) 0 * (a * Real.cos x)).continuousOn
          (fun y hy => mul_nonneg (le_max_right _ _) (hcos y ⟨hy.1.le, by linarith [hy.2]⟩))
          ⟨x, ⟨hx.1.le, hx.2.le⟩, mul_pos (lt_max_of_lt_left (by linarith)) (hcos' x ⟨hx.1, by linarith [hx.2]⟩)⟩
        linarith
      have := (isClosed_le ht continuous_const).closure_subset_iff.2 hsub
      rw [closure_Ioo hs.ne] at this
      exact fun x hx => this hx
  · rintro ⟨hN, hS⟩
    rw [intervalIntegral.integral_congr (g := fun _ => 0), intervalIntegral.integral_congr (a := s) (g := fun _ => 0)]
    · simp
    · intro x hx
      rw [Set.uIcc_of_le hs.le] at hx
      show max (t x - Θ) 0 * (a * Real.cos x) = 0
      rw [max_eq_right (by linarith [hS x hx]), zero_mul]
    · intro x hx
      rw [Set.uIcc_of_le hn.le] at hx
      show max (Θ - t x) 0 * (a * Real.cos x) = 0
      rw [max_eq_right (by linarith [hN x hx]), zero_mul]

/-- **C199 (derived profile).** The prescribed profile that gives the wave activity of `qgpv_eqlat_lwa` in the limit is the one that this wrapper derives:
with it both tend to the same limit at northern rows. -/
theorem C199_derived_north {v : ℝ} (ha : 0 < a) (hq : Continuous fun p : ℝ × ℝ => q p.1 p.2) (hRc : ContinuousAt R φ) (hg : HemGrids nlat nlon S np σ)
    (hr : NorthRows nlat S j σ φ) (hc : Tendsto (fun i => 2 * Real.pi * c i / nlon i) atTop (nhds l))
    (hv : Encloses a q (-σ) (Real.pi / 2) (2 * Real.pi * a ^ 2 * (Real.sin φ + Real.sin σ)) v) (hRv : R φ = v)
    {Q : ℕ → ℕ → ℝ} {A : ℕ → ℕ → ℕ → ℝ} (hres : ∀ i, (hemOn a q (nlat i) (nlon i) (S i) (np i)).qgpvEqlatLwa = .ok (Q i, A i)) :
    Tendsto (fun i => A i (j i) (c i) - (hemOn a q (nlat i) (nlon i) (S i) (np i)).qgpvInputQref (prescribed R (nlat i)) (j i) (c i)) atTop (nhds 0) := by
  choose Q' A' C h1 h2 using fun i => C195_exists (q := q) (G := fun _ _ => 0) hg ha i
  have eA : ∀ i, A' i = A i := fun i => by
    have := (h2 i).symm.trans (hres i)
    injection this with this
    injection this
  have hA := (C195_north (G := fun _ _ => 0) ha hq (by fun_prop) hg hr.part hr.toward hr.south hr.north hc hv h1).2.1
  have hB := C199_north (a := a) (c := c) hq hRc hg hr hc
  rw [hRv] at hB
  have := hA.sub hB
  rw [sub_self] at this
  exact this.congr fun i => by rw [eA]

/-- The same at southern rows. -/
theorem C199_derived_south {v : ℝ} (ha : 0 < a) (hq : Continuous fun p : ℝ × ℝ => q p.1 p.2) (hRc : ContinuousAt R φ) (hg : HemGrids nlat nlon S np σ)
    (hr : SouthRows nlat S j σ φ) (hc : Tendsto (fun i => 2 * Real.pi * c i / nlon i) atTop (nhds l))
    (hv : Encloses a q (-(Real.pi / 2)) σ (southCap a φ) v) (hRv : R φ = v)
    {Q : ℕ → ℕ → ℝ} {A : ℕ → ℕ → ℕ → ℝ} (hres : ∀ i, (hemOn a q (nlat i) (nlon i) (S i) (np i)).qgpvEqlatLwa = .ok (Q i, A i)) :
    Tendsto (fun i => A i (j i) (c i) - (hemOn a q (nlat i) (nlon i) (S i) (np i)).qgpvInputQref (prescribed R (nlat i)) (j i) (c i)) atTop (nhds 0) := by
  choose Q' A' C h1 h2 using fun i => C195_exists (q := q) (G := fun _ _ => 0) hg ha i
  have eA : ∀ i, A' i = A i := fun i => by
    have := (h2 i).symm.trans (hres i)
    injection this with this
    injection this
  have hA := (C195_south (G := fun _ _ => 0) ha hq (by fun_prop) hg hr.part hr.toward hr.south hr.north hc hv h1).2.1
  have hB := C199_south (a := a) (c := c) hq hRc hg hr hc
  rw [hRv] at hB
  have := hA.sub hB
  rw [sub_self] at this
  exact this.congr fun i => by rw [eA]

/-! ### Non-vacuity -/

/-- Hypotheses of `C199_north` and `C199_south`, with the profile `sin`. -/
example : ContinuousAt Real.sin (Real.pi / 4) ∧ ContinuousAt Real.sin (-(Real.pi / 4)) ∧
    HemGrids (fun i => 4 * (i + 2) + 1) (fun i => i + 1) (fun _ => none) (fun _ => none) 0 ∧
    NorthRows (fun i => 4 * (i + 2) + 1) (fun _ => none) (fun i => 3 * (i + 2)) 0 (Real.pi / 4) ∧
    SouthRows (fun i => 4 * (i + 2) + 1) (fun _ => none) (fun i => 1 * (i + 2)) 0 (-(Real.pi / 4)) ∧
    Tendsto (fun i : ℕ => 2 * Real.pi * ((0 : ℕ) : ℝ) / ((i + 1 : ℕ) : ℝ)) atTop (nhds 0) :=
  ⟨Real.continuous_sin.continuousAt, Real.continuous_sin.continuousAt, quarter_grids, quarter_north, quarter_south, by simp⟩

/-- Hypotheses of `C199_barotropic`, with a wave about the profile `sin`. -/
example : ∃ A : ℕ → ℕ → ℕ → ℝ, Tendsto (fun i => A i (3 * (i + 2)) 0) atTop
    (nhds (meridionalWaveActivity 1 (fun y => Real.sin y + Real.cos y * Real.cos 0) (Real.sin (Real.pi / 4)) (-(Real.pi / 2)) (Real.pi / 2) (Real.pi / 4))) := by
  have hpi := Real.pi_pos
  obtain ⟨A, -, h⟩ := C199_barotropic (a := 1) (q := fun x y => Real.sin x + Real.cos x * Real.cos y) (R := Real.sin) (φ := Real.pi / 4) (l := 0)
    (nlat := fun i => 4 * (i + 2) + 1) (nlon := fun i => i + 1) (j := fun i => 3 * (i + 2)) (c := fun _ => 0) (by fun_prop)
    Real.continuous_sin.continuousAt (fun i => by omega) (fun i => by omega)
    (tendsto_atTop_mono (fun i => (by omega : i ≤ 4 * (i + 2) + 1)) tendsto_id) (tendsto_add_atTop_nat 1) (fun i => by omega)
    quarter_north.toward (by linarith) (by linarith) (by simp)
  exact ⟨A, h⟩

/-- Hypotheses of `C199_derived_north`: the profile is the constant `v`. -/
example {q : ℝ → ℝ → ℝ} (hq : Continuous fun p : ℝ × ℝ => q p.1 p.2) : ∃ (v : ℝ) (Q : ℕ → ℕ → ℝ) (A : ℕ → ℕ → ℕ → ℝ),
    Encloses 1 q (-0) (Real.pi / 2) (2 * Real.pi * 1 ^ 2 * (Real.sin (Real.pi / 4) + Real.sin 0)) v ∧ (fun _ : ℝ => v) (Real.pi / 4) = v ∧
    ∀ i, (hemOn 1 q (4 * (i + 2) + 1) (i + 1) none none).qgpvEqlatLwa = .ok (Q i, A i) := by
  have hpi := Real.pi_pos
  have hw : 0 < 2 * Real.pi * (1 : ℝ) ^ 2 := by positivity
  have hs : 0 < Real.sin (Real.pi / 4) := Real.sin_pos_of_pos_of_lt_pi (by positivity) (by linarith)
  have hs' : Real.sin (Real.pi / 4) < 1 := by
    rw [← Real.sin_pi_div_two]
    exact Real.sin_lt_sin_of_lt_of_le_pi_div_two (by linarith) le_rfl (by linarith)
  choose Q A C h1 h2 using fun i => C195_exists (a := 1) (q := q) (G := fun _ _ => 0) quarter_grids one_pos i
  obtain ⟨v, hv, _⟩ := C159_reference_exists (a := 1) (s := -0) (n := Real.pi / 2)
    (T := 2 * Real.pi * 1 ^ 2 * (Real.sin (Real.pi / 4) + Real.sin 0)) one_pos
    hq (by linarith) (by linarith) le_rfl (mul_pos hw (by rw [Real.sin_zero]; linarith)) (by
      rw [neg_zero, Real.sin_zero, Real.sin_pi_div_two]
      exact mul_lt_mul_of_pos_left (by linarith) hw)
  exact ⟨v, Q, A, hv, rfl, h2⟩

/-- Hypotheses of `C199_zero_iff`: the profile `sin` is free of wave activity about its own value at 45 degrees, in the Northern Hemisphere. -/
example : meridionalWaveActivity 1 Real.sin (Real.sin (Real.pi / 4)) 0 (Real.pi / 2) (Real.pi / 4) = 0 := by
  have hpi := Real.pi_pos
  refine (C199_zero_iff one_pos Real.continuous_sin (by linarith) (by linarith) (by linarith) le_rfl).2 ⟨fun x hx => ?_, fun x hx => ?_⟩
  · exact Real.sin_le_sin_of_le_of_le_pi_div_two (by linarith) hx.2 hx.1
  · exact Real.sin_le_sin_of_le_of_le_pi_div_two (by linarith [hx.1]) (by linarith) hx.2

end Falwa
