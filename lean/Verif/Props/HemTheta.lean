import Verif.Lemmas.HemRows
import Verif.Spec.Surface

/-!
# C198: the limit of `theta_lwa` on ever finer grids
-/

noncomputable section

namespace Falwa

open Finset Spec MeasureTheory Filter

variable {a φ σ v l : ℝ} {θ : ℝ → ℝ → ℝ} {nlat nlon : ℕ → ℕ} {S np : ℕ → Option ℕ} {j c : ℕ → ℕ} {Q : ℕ → ℕ → ℝ} {A : ℕ → ℕ → ℕ → ℝ}

/-- `Q` and `A` are what `theta_lwa` returns for a temperature on ever finer regular grids. -/
def ThetaResults (a : ℝ) (θ : ℝ → ℝ → ℝ) (nlat nlon : ℕ → ℕ) (S np : ℕ → Option ℕ) (Q : ℕ → ℕ → ℝ) (A : ℕ → ℕ → ℕ → ℝ) : Prop :=
  ∀ i, (hemOn a θ (nlat i) (nlon i) (S i) (np i)).thetaLwa = .ok (Q i, A i)

/-- **C198 (results exist).** -/
theorem C198_exists (hg : HemGrids nlat nlon S np σ) (ha : 0 < a) : ∃ Q A, ThetaResults a θ nlat nlon S np Q A := by
  have h : ∀ i, ∃ Q A, (hemOn a θ (nlat i) (nlon i) (S i) (np i)).thetaLwa = .ok (Q, A) := fun i => by
    obtain ⟨f, hf⟩ := ((hg.sensible ha θ i).south (hemOn a θ (nlat i) (nlon i) (S i) (np i)).vort).ok
    obtain ⟨g, hgg⟩ := ((hg.sensible ha θ i).south (hemOn a θ (nlat i) (nlon i) (S i) (np i)).flipped).ok
    unfold HemInput.thetaLwa HemInput.thetaQref
    rw [hf, hgg]
    exact ⟨_, _, rfl⟩
  choose Q A h using h
  exact ⟨Q, A, h⟩

/-- What the two calls contribute. -/
theorem theta_calls (hg : HemGrids nlat nlon S np σ) (ha : 0 < a) (hR : ThetaResults a θ nlat nlon S np Q A) (i : ℕ) : ∃ f g : ℕ → ℝ,
    ((hemOn a θ (nlat i) (nlon i) (S i) (np i)).southInput (hemOn a θ (nlat i) (nlon i) (S i) (np i)).vort).qref = .ok f ∧
    ((hemOn a θ (nlat i) (nlon i) (S i) (np i)).southInput (hemOn a θ (nlat i) (nlon i) (S i) (np i)).flipped).qref = .ok g ∧
    Q i = (hemOn a θ (nlat i) (nlon i) (S i) (np i)).assemble f (fun r => g ((S i).getD (nlat i / 2) - 1 - r)) ∧
    A i = (hemOn a θ (nlat i) (nlon i) (S i) (np i)).lwaBoth f (Q i) := by
  obtain ⟨f, hf⟩ := ((hg.sensible ha θ i).south (hemOn a θ (nlat i) (nlon i) (S i) (np i)).vort).ok
  obtain ⟨g, hgg⟩ := ((hg.sensible ha θ i).south (hemOn a θ (nlat i) (nlon i) (S i) (np i)).flipped).ok
  have h := hR i
  unfold HemInput.thetaLwa HemInput.thetaQref at h
  rw [hf, hgg] at h
  injection h with h
  injection h with h1 h2
  refine ⟨f, g, hf, hgg, h1.symm, ?_⟩
  rw [← h2, ← h1]

/-- **C198 (south).** The profile tends to the temperature whose contour encloses, around the South Pole, the area south of `φ`; the wave activity tends
to that of cold air displaced toward the equator and of warm air displaced toward the pole. -/
theorem C198_south (hR : ThetaResults a θ nlat nlon S np Q A) (ha : 0 < a) (hθ : Continuous fun p : ℝ × ℝ => θ p.1 p.2)
    (hg : HemGrids nlat nlon S np σ) (hr : SouthRows nlat S j σ φ) (hv : Encloses a θ (-(Real.pi / 2)) σ (southCap a φ) v) :
    Tendsto (fun i => Q i (j i)) atTop (nhds v) ∧
    ∀ l, ∀ c : ℕ → ℕ, Tendsto (fun i => 2 * Real.pi * c i / nlon i) atTop (nhds l) →
      Tendsto (fun i => A i (j i) (c i)) atTop (nhds (meridionalWaveActivity a (fun y => θ y l) v (-(Real.pi / 2)) σ φ)) := by
  choose f g hf _ hQ hA using fun i => theta_calls hg ha hR i
  have hfl : Tendsto (fun i => f i (j i)) atTop (nhds v) := by
    refine hg.profile ha hθ (fun i r _ c => ?_) (fun i => by have := hr.part i; omega) hr.toward hr.north hr.south hv hf
    show sampled θ (nlat i) (nlon i) r c = _
    unfold sampled
    rw [regularLat_step]
    congr 1
    ring
  refine ⟨hfl.congr fun i => ?_, fun l c hc => (hr.activity hθ hg hc hfl).congr fun i => ?_⟩
  · rw [hQ i, hr.keeps]
  · rw [hA i]
    unfold HemInput.lwaBoth
    rw [hr.keeps]
    rfl

/-- **C198 (north, profile).** The profile tends to the temperature whose contour encloses, around the North Pole, the area north of `φ`. -/
theorem C198_north_value (hR : ThetaResults a θ nlat nlon S np Q A) (ha : 0 < a) (hθ : Continuous fun p : ℝ × ℝ => θ p.1 p.2)
    (hg : HemGrids nlat nlon S np σ) (hr : NorthRows nlat S j σ φ)
    (hv : Encloses a θ (-σ) (Real.pi / 2) (2 * Real.pi * a ^ 2 * (1 - Real.sin φ)) v) :
    Tendsto (fun i => Q i (j i)) atTop (nhds v) := by
  have h1 := hr.north
  have h2 := hr.south
  have hj := hr.part
  choose f g hf hgg hQ hA using fun i => theta_calls hg ha hR i
  have hpc : Continuous fun x : ℝ × ℝ => (fun x l => θ (-x) l) x.1 x.2 := hθ.comp (f := fun x : ℝ × ℝ => (-x.1, x.2)) (by fun_prop)
  have hvp : Encloses a (fun x l => θ (-x) l) (-(Real.pi / 2)) σ (southCap a (-φ)) v := by
    refine encloses_turn ?_
    rw [neg_neg, southCap, Real.sin_neg, ← sub_eq_add_neg]
    exact hv
  have hgl : Tendsto (fun i => g i (nlat i - 1 - j i)) atTop (nhds v) := by
    refine hg.profile ha hpc (fun i r hr c => ?_) (j := fun i => nlat i - 1 - j i) (fun i => by have := hg.rows i; omega) ?_
      (by linarith : -φ < σ) (by linarith) hvp hgg
    · have hrn : r < nlat i := lt_of_lt_of_le hr (hg.extent i)
      show sampled θ (nlat i) (nlon i) (nlat i - 1 - r) c = θ (-(-(Real.pi / 2) + r * (Real.pi / ((nlat i - 1 : ℕ) : ℝ)))) (c * (2 * Real.pi / nlon i))
      unfold sampled
      rw [regularLat_opposite (hg.rows i) hrn, ← regularLat_step]
      congr 1 <;> ring
    · refine hr.toward.neg.congr fun i => ?_
      rw [regularLat_opposite (hg.rows i) (by have := hj i; omega)]
      ring
  refine hgl.congr fun i => ?_
  rw [hQ i, hr.writes hg]
  congr 1
  have := hj i
  have := hg.extent i
  omega

theorem C198_north_activity (hR : ThetaResults a θ nlat nlon S np Q A) (ha : 0 < a) (hθ : Continuous fun p : ℝ × ℝ => θ p.1 p.2)
    (hg : HemGrids nlat nlon S np σ) (hr : NorthRows nlat S j σ φ)
    (hv : Encloses a θ (-σ) (Real.pi / 2) (2 * Real.pi * a ^ 2 * (1 - Real.sin φ)) v)
    (hc : Tendsto (fun i => 2 * Real.pi * c i / nlon i) atTop (nhds l)) :
    Tendsto (fun i => A i (j i) (c i)) atTop (nhds (meridionalWaveActivity a (fun y => θ y l) v (-σ) (Real.pi / 2) φ)) := by
  choose f g hf hgg hQ hA using fun i => theta_calls hg ha hR i
  refine (hr.activity hθ hg hc (C198_north_value hR ha hθ hg hr hv)).congr fun i => ?_
  rw [hA i]
  unfold HemInput.lwaBoth
  rw [hr.writes hg]
  rfl

/-- The two kinds of wave activity differ by the anomalies south of `φ` less those north of it. -/
theorem activity_surface {t : ℝ → ℝ} (ht : Continuous t) (Θ s n : ℝ) : meridionalWaveActivity a t Θ s n φ = surfaceWaveActivity a t Θ s n φ +
    ((∫ x in s..φ, (t x - Θ) * (a * Real.cos x)) - ∫ x in φ..n, (t x - Θ) * (a * Real.cos x)) := by
  have key : ∀ y : ℝ, max (-y) 0 = max y 0 - y := fun y => by
    rcases le_total y 0 with h | h
    · rw [max_eq_left (by linarith), max_eq_right h]; ring
    · rw [max_eq_right (by linarith), max_eq_left h]; ring
  have e1 : ∀ u w : ℝ, (∫ x in u..w, max (Θ - t x) 0 * (a * Real.cos x)) =
      (∫ x in u..w, max (t x - Θ) 0 * (a * Real.cos x)) - ∫ x in u..w, (t x - Θ) * (a * Real.cos x) := fun u w => by
    have i1 : IntervalIntegrable (fun x => max (t x - Θ) 0 * (a * Real.cos x)) volume u w :=
      (by fun_prop : Continuous fun x => max (t x - Θ) 0 * (a * Real.cos x)).intervalIntegrable u w
    have i2 : IntervalIntegrable (fun x => (t x - Θ) * (a * Real.cos x)) volume u w :=
      (by fun_prop : Continuous fun x => (t x - Θ) * (a * Real.cos x)).intervalIntegrable u w
    rw [← intervalIntegral.integral_sub i1 i2]
    refine intervalIntegral.integral_congr fun x _ => ?_
    show max (Θ - t x) 0 * (a * Real.cos x) = max (t x - Θ) 0 * (a * Real.cos x) - (t x - Θ) * (a * Real.cos x)
    rw [← neg_sub (t x) Θ, key]
    ring
  unfold meridionalWaveActivity surfaceWaveActivity
  rw [e1 φ (n), e1 s φ]
  ring

/-- **C198 (north, what the code computes).** In the Northern Hemisphere the limit is the surface wave activity plus the temperature anomalies south of
`φ` less those north of it. -/
theorem C198_north_lwa_partial (hR : ThetaResults a θ nlat nlon S np Q A) (ha : 0 < a) (hθ : Continuous fun p : ℝ × ℝ => θ p.1 p.2)
    (hg : HemGrids nlat nlon S np σ) (hr : NorthRows nlat S j σ φ)
    (hv : Encloses a θ (-σ) (Real.pi / 2) (2 * Real.pi * a ^ 2 * (1 - Real.sin φ)) v)
    (hc : Tendsto (fun i => 2 * Real.pi * c i / nlon i) atTop (nhds l)) :
    Tendsto (fun i => A i (j i) (c i)) atTop (nhds (surfaceWaveActivity a (fun y => θ y l) v (-σ) (Real.pi / 2) φ +
      ((∫ x in -σ..φ, (θ x l - v) * (a * Real.cos x)) - ∫ x in φ..Real.pi / 2, (θ x l - v) * (a * Real.cos x)))) := by
  have ht : Continuous fun y => θ y l := hθ.comp (f := fun y : ℝ => (y, l)) (by fun_prop)
  have := C198_north_activity hR ha hθ hg hr hv hc
  rwa [activity_surface ht] at this

/-- **C198 (north, no waves).** For every temperature without waves that falls toward the North Pole the profile tends to the temperature itself, its
surface wave activity is 0, but the result tends to a positive number at every latitude and longitude. -/
theorem C198_wave_free {t : ℝ → ℝ} (hR : ThetaResults a (fun x _ => t x) nlat nlon S np Q A) (ha : 0 < a) (ht : Continuous t)
    (hanti : StrictAntiOn t (Set.Icc (-σ) (Real.pi / 2))) (hg : HemGrids nlat nlon S np σ) (hr : NorthRows nlat S j σ φ)
    (hc : Tendsto (fun i => 2 * Real.pi * c i / nlon i) atTop (nhds l)) :
    Tendsto (fun i => Q i (j i)) atTop (nhds (t φ)) ∧ surfaceWaveActivity a t (t φ) (-σ) (Real.pi / 2) φ = 0 ∧
    ∃ m, 0 < m ∧ Tendsto (fun i => A i (j i) (c i)) atTop (nhds m) := by
  have hpi := Real.pi_pos
  have h1 := hr.south
  have h2 := hr.north
  have h3 := hg.north
  have hq : Continuous fun p : ℝ × ℝ => (fun x _ : ℝ => t x) p.1 p.2 := ht.comp continuous_fst
  have hv := falling_part (a := a) ha ht (by linarith : -(Real.pi / 2) ≤ -σ) le_rfl hanti h1 h2
  rw [Real.sin_pi_div_two] at hv
  have hcos : ∀ x ∈ Set.Icc (-σ) (Real.pi / 2), 0 ≤ a * Real.cos x := fun x hx =>
    mul_nonneg ha.le (Real.cos_nonneg_of_neg_pi_div_two_le_of_le (by linarith [hx.1]) hx.2)
  have hz1 : ∀ x ∈ Set.Icc φ (Real.pi / 2), t x ≤ t φ := fun x hx =>
    hanti.antitoneOn ⟨h1.le, h2.le⟩ ⟨by linarith [hx.1], hx.2⟩ hx.1
  have hz2 : ∀ x ∈ Set.Icc (-σ) φ, t φ ≤ t x := fun x hx =>
    hanti.antitoneOn ⟨hx.1, by linarith [hx.2]⟩ ⟨h1.le, h2.le⟩ hx.2
  have hzero : surfaceWaveActivity a t (t φ) (-σ) (Real.pi / 2) φ = 0 := by
    unfold surfaceWaveActivity
    rw [intervalIntegral.integral_congr (g := fun _ => 0), intervalIntegral.integral_congr (a := -σ) (g := fun _ => 0)]
    · simp
    · intro x hx
      rw [Set.uIcc_of_le h1.le] at hx
      show max (t φ - t x) 0 * (a * Real.cos x) = 0
      rw [max_eq_right (by linarith [hz2 x hx]), zero_mul]
    · intro x hx
      rw [Set.uIcc_of_le h2.le] at hx
      show max (t x - t φ) 0 * (a * Real.cos x) = 0
      rw [max_eq_right (by linarith [hz1 x hx]), zero_mul]
  refine ⟨C198_north_value hR ha hq hg hr hv, hzero, _, ?_, C198_north_activity hR ha hq hg hr hv hc⟩
  refine add_pos_of_nonneg_of_pos (intervalIntegral.integral_nonneg h2.le fun x hx => ?_) ?_
  · exact mul_nonneg (le_max_right _ _) (hcos x ⟨by linarith [hx.1], hx.2⟩)
  · refine intervalIntegral.intervalIntegral_pos_of_pos_on
      ((by fun_prop : Continuous fun x => max (t x - t φ) 0 * (a * Real.cos x)).intervalIntegrable _ _) (fun x hx => ?_) h1
    have := hanti ⟨hx.1.le, by linarith [hx.2]⟩ ⟨h1.le, h2.le⟩ hx.2
    exact mul_pos (lt_max_of_lt_left (by linarith)) (mul_pos ha (Real.cos_pos_of_mem_Ioo ⟨by linarith [hx.1], by linarith [hx.2]⟩))

/-- **C198 (north, as documented).** The wave activity that `theta_lwa` returns in the Northern Hemisphere tends to the surface wave activity. -/
def C198_Statement : Prop :=
  ∀ (a φ σ v l : ℝ) (θ : ℝ → ℝ → ℝ) (nlat nlon : ℕ → ℕ) (S np : ℕ → Option ℕ) (j c : ℕ → ℕ) (Q : ℕ → ℕ → ℝ) (A : ℕ → ℕ → ℕ → ℝ),
    ThetaResults a θ nlat nlon S np Q A → 0 < a → (Continuous fun p : ℝ × ℝ => θ p.1 p.2) → HemGrids nlat nlon S np σ → NorthRows nlat S j σ φ →
    Encloses a θ (-σ) (Real.pi / 2) (2 * Real.pi * a ^ 2 * (1 - Real.sin φ)) v →
    Tendsto (fun i => 2 * Real.pi * c i / nlon i) atTop (nhds l) →
    Tendsto (fun i => A i (j i) (c i)) atTop (nhds (surfaceWaveActivity a (fun y => θ y l) v (-σ) (Real.pi / 2) φ))

theorem cos_falls : StrictAntiOn Real.cos (Set.Icc (-0) (Real.pi / 2)) := by
  rw [neg_zero]
  exact Real.strictAntiOn_cos.mono (Set.Icc_subset_Icc_right (by linarith [Real.pi_pos]))

/-- **C198 is violated** on default arguments, by the temperature `cos x` that is warmest at the equator. -/
theorem C198_refuted : ¬ C198_Statement := by
  intro h
  have hpi := Real.pi_pos
  have hq : Continuous fun p : ℝ × ℝ => (fun x _ : ℝ => Real.cos x) p.1 p.2 := by fun_prop
  obtain ⟨Q, A, hR⟩ := C198_exists (a := 1) (θ := fun x _ => Real.cos x) quarter_grids one_pos
  have hc : Tendsto (fun i : ℕ => 2 * Real.pi * ((0 : ℕ) : ℝ) / ((i + 1 : ℕ) : ℝ)) atTop (nhds 0) := by simp
  have hv := falling_part (a := 1) one_pos Real.continuous_cos (by linarith : -(Real.pi / 2) ≤ -(0 : ℝ)) le_rfl cos_falls quarter_north.south
    quarter_north.north
  rw [Real.sin_pi_div_two] at hv
  obtain ⟨-, h0, m, hm, hA⟩ := C198_wave_free (c := fun _ => 0) hR one_pos Real.continuous_cos cos_falls quarter_grids quarter_north hc
  have := h 1 _ 0 _ 0 _ _ _ _ _ _ (fun _ => 0) Q A hR one_pos hq quarter_grids quarter_north hv hc
  rw [h0] at this
  exact hm.ne (tendsto_nhds_unique this hA)

/-! ### Non-vacuity -/

/-- Hypotheses of `C198_south`: any continuous temperature. -/
example {θ : ℝ → ℝ → ℝ} (hθ : Continuous fun p : ℝ × ℝ => θ p.1 p.2) : ∃ Q A v,
    ThetaResults 1 θ (fun i => 4 * (i + 2) + 1) (fun i => i + 1) (fun _ => none) (fun _ => none) Q A ∧
    SouthRows (fun i => 4 * (i + 2) + 1) (fun _ => none) (fun i => 1 * (i + 2)) 0 (-(Real.pi / 4)) ∧
    Encloses 1 θ (-(Real.pi / 2)) 0 (southCap 1 (-(Real.pi / 4))) v := by
  have hpi := Real.pi_pos
  have hw : 0 < 2 * Real.pi * (1 : ℝ) ^ 2 := by positivity
  have hs : 0 < Real.sin (Real.pi / 4) := Real.sin_pos_of_pos_of_lt_pi (by positivity) (by linarith)
  have hs' : Real.sin (Real.pi / 4) < 1 := by
    rw [← Real.sin_pi_div_two]
    exact Real.sin_lt_sin_of_lt_of_le_pi_div_two (by linarith) le_rfl (by linarith)
  obtain ⟨Q, A, hR⟩ := C198_exists (a := 1) (θ := θ) quarter_grids one_pos
  obtain ⟨v, hv, _⟩ := C159_reference_exists (a := 1) (s := -(Real.pi / 2)) (n := 0) (T := southCap 1 (-(Real.pi / 4))) one_pos hθ le_rfl
    (by linarith) (by positivity) (by unfold southCap; rw [Real.sin_neg]; exact mul_pos hw (by linarith)) (by
      unfold southCap
      rw [Real.sin_zero, Real.sin_neg, Real.sin_neg, Real.sin_pi_div_two]
      exact mul_lt_mul_of_pos_left (by linarith) hw)
  exact ⟨Q, A, v, hR, quarter_south, hv⟩

/-- Hypotheses of `C198_north_value` and `C198_north_lwa_partial`. -/
example {θ : ℝ → ℝ → ℝ} (hθ : Continuous fun p : ℝ × ℝ => θ p.1 p.2) : ∃ Q A v,
    ThetaResults 1 θ (fun i => 4 * (i + 2) + 1) (fun i => i + 1) (fun _ => none) (fun _ => none) Q A ∧
    NorthRows (fun i => 4 * (i + 2) + 1) (fun _ => none) (fun i => 3 * (i + 2)) 0 (Real.pi / 4) ∧
    Encloses 1 θ (-0) (Real.pi / 2) (2 * Real.pi * 1 ^ 2 * (1 - Real.sin (Real.pi / 4))) v := by
  have hpi := Real.pi_pos
  have hw : 0 < 2 * Real.pi * (1 : ℝ) ^ 2 := by positivity
  have hs : 0 < Real.sin (Real.pi / 4) := Real.sin_pos_of_pos_of_lt_pi (by positivity) (by linarith)
  have hs' : Real.sin (Real.pi / 4) < 1 := by
    rw [← Real.sin_pi_div_two]
    exact Real.sin_lt_sin_of_lt_of_le_pi_div_two (by linarith) le_rfl (by linarith)
  obtain ⟨Q, A, hR⟩ := C198_exists (a := 1) (θ := θ) quarter_grids one_pos
  obtain ⟨v, hv, _⟩ := C159_reference_exists (a := 1) (s := -0) (n := Real.pi / 2) (T := 2 * Real.pi * 1 ^ 2 * (1 - Real.sin (Real.pi / 4))) one_pos
    hθ (by linarith) (by linarith) le_rfl (mul_pos hw (by linarith)) (by
      rw [neg_zero, Real.sin_zero, Real.sin_pi_div_two]
      exact mul_lt_mul_of_pos_left (by linarith) hw)
  exact ⟨Q, A, v, hR, quarter_north, hv⟩

/-- Hypotheses of `C198_wave_free`. -/
example : ∃ Q A, ThetaResults 1 (fun x _ => Real.cos x) (fun i => 4 * (i + 2) + 1) (fun i => i + 1) (fun _ => none) (fun _ => none) Q A ∧
    StrictAntiOn Real.cos (Set.Icc (-0) (Real.pi / 2)) := by
  obtain ⟨Q, A, hR⟩ := C198_exists (a := 1) (θ := fun x _ => Real.cos x) quarter_grids one_pos
  exact ⟨Q, A, hR, cos_falls⟩

end Falwa
