import Verif.Props.Tilt

/-!
# C207: wave activity of solid body rotation about a tilted axis
-/

noncomputable section

namespace Falwa

open MeasureTheory Filter Set Real Spec

variable {a φ : ℝ}

theorem encloses_times {q : ℝ → ℝ → ℝ} {s n T v r : ℝ} (hr : 0 < r) (h : Encloses a q s n T v) : Encloses a (fun x l => r * q x l) s n T (r * v) := by
  have e : ∀ w, areaAtMost a (fun x l => r * q x l) s n w = areaAtMost a q s n (w / r) := fun w => by
    unfold areaAtMost
    simp only [le_div_iff₀ hr, mul_comm r]
  refine ⟨fun w hw => ?_, fun w hw => ?_⟩
  · rw [e]
    exact h.below _ (by rwa [div_lt_iff₀ hr, mul_comm])
  · rw [e]
    exact h.above _ (by rwa [lt_div_iff₀ hr, mul_comm])

/-- The winds of a layer that rotates with the rate `r / 2` about an axis tilted by `β`. -/
def leaningU (a r β φ l : ℝ) : ℝ := r * a / 2 * (cos φ * cos β - sin φ * sin l * sin β)

def leaningV (a r β l : ℝ) : ℝ := -(r * a / 2 * (sin β * cos l))

/-- Seen from outside of the planet: without planetary rotation. -/
theorem leaning_vorticity (a r β : ℝ) : AbsoluteVorticity a 0 (leaningU a r β) (fun _ => leaningV a r β) fun x l => r * leaning β x l where
  curl := by
    refine ⟨fun x l => r * a / 2 * (-(2 * sin x * cos x * cos β) - (cos x ^ 2 - sin x ^ 2) * sin l * sin β), fun _ l => r * a / 2 * (sin β * sin l),
      fun x l => ?_, fun x l => ?_, by fun_prop, by fun_prop, fun x l _ _ => ?_⟩
    · have h1 := (((hasDerivAt_cos x).mul_const (cos β)).sub (((hasDerivAt_sin x).mul_const (sin l)).mul_const (sin β))).const_mul (r * a / 2)
      have h2 := h1.mul (hasDerivAt_cos x)
      refine h2.congr_deriv ?_
      simp only [Pi.sub_apply]
      ring
    · exact ((((hasDerivAt_cos l).const_mul (sin β)).const_mul (r * a / 2)).neg).congr_deriv (by ring)
    · rw [leaning_eq]
      linear_combination (r * a / 2 * sin l * sin β) * sin_sq_add_cos_sq x
  continuous := continuous_const.mul (leaning_continuous β)
  wind := by unfold leaningU; fun_prop
  periodic := fun x l => by unfold leaningV; rw [cos_add_two_pi]

theorem leaning_zero (x l : ℝ) : leaning 0 x l = sin x := by
  rw [leaning_eq, cos_zero, sin_zero]
  ring

theorem leaning_conserved (a r β T v : ℝ) :
    refCirculation a (fun x l => r * leaning β x l) T v = refCirculation a (fun x l => r * leaning 0 x l) T v := by
  have e : ∀ t, (tilting a fun p => r * p.2.2).q t = fun x l => r * leaning t x l := fun t => by
    funext x l
    rw [leaning_eq]
    show r * (cos x * sin l * sin t + sin x * cos t) = _
    ring
  have := C193_sphere (tilting_obeys a (by fun_prop : ContDiff ℝ 1 fun p : ℝ × ℝ × ℝ => r * p.2.2)) (fun _ _ _ => rfl) β 0 T v
  rwa [e, e] at this

/-- Mean wave activity of a circle of latitude on the sphere. -/
theorem leaning_activity (ha : 0 < a) {r : ℝ} (hr : 0 < r) (β : ℝ) (h1 : -(π / 2) < φ) (h2 : φ < π / 2) :
    longitudeMean (fun l => meridionalWaveActivity a (fun x => r * leaning β x l) (r * sin φ) (-(π / 2)) (π / 2) φ) =
      r * a / 2 * (1 - cos β) * cos φ ^ 2 := by
  have hpi := pi_pos
  have hcos : 0 < cos φ := cos_pos_of_mem_Ioo ⟨h1, h2⟩
  have mean : ∀ γ, longitudeMean (leaningU a r γ φ) = r * a / 2 * (cos φ * cos γ) := fun γ => by
    unfold longitudeMean leaningU
    have i1 : IntervalIntegrable (fun l => sin φ * sin l * sin γ) volume 0 (2 * π) := (by fun_prop : Continuous fun l => sin φ * sin l * sin γ).intervalIntegrable _ _
    rw [intervalIntegral.integral_const_mul, intervalIntegral.integral_sub intervalIntegrable_const i1, intervalIntegral.integral_const,
      intervalIntegral.integral_mul_const, intervalIntegral.integral_const_mul, integral_sin, cos_two_pi, cos_zero, smul_eq_mul]
    field_simp
    ring
  have calm : longitudeMean (fun l => meridionalWaveActivity a (fun x => r * leaning 0 x l) (r * sin φ) (-(π / 2)) (π / 2) φ) = 0 := by
    have z : ∀ l, meridionalWaveActivity a (fun x => r * leaning 0 x l) (r * sin φ) (-(π / 2)) (π / 2) φ = 0 := fun l => by
      unfold meridionalWaveActivity
      rw [intervalIntegral.integral_congr (g := fun _ => (0 : ℝ)) fun x hx => ?_,
        intervalIntegral.integral_congr (a := -(π / 2)) (g := fun _ => (0 : ℝ)) fun x hx => ?_]
      · simp
      · rw [uIcc_of_le h1.le] at hx
        have := sin_le_sin_of_le_of_le_pi_div_two hx.1 h2.le hx.2
        beta_reduce
        rw [leaning_zero, max_eq_right (by nlinarith), zero_mul]
      · rw [uIcc_of_le h2.le] at hx
        have := sin_le_sin_of_le_of_le_pi_div_two h1.le hx.2 hx.1
        beta_reduce
        rw [leaning_zero, max_eq_right (by nlinarith), zero_mul]
    unfold longitudeMean
    simp only [z, intervalIntegral.integral_zero, zero_div]
  have k1 := C192_sphere (leaning_vorticity a r β) h1 h2 (r * sin φ)
  have k2 := C192_sphere (leaning_vorticity a r 0) h1 h2 (r * sin φ)
  rw [leaning_conserved, ← k2, mean, mean, calm, cos_zero] at k1
  unfold kelvin at k1
  have := mul_left_cancel₀ (by positivity : 2 * π * a * cos φ ≠ 0) k1
  field_simp at this
  linear_combination this / 2

/-- **C207.** The absolute vorticity of a layer that rotates as a solid body about an axis tilted to that of the planet is sampled on ever finer grids.
At rows that tend to the latitude `φ`, `equivalent_latitudes` tends to `r sin φ`, and the zonal mean of `lwa` to `r a (1 - cos β) cos² φ / 2`; at every
longitude `lwa` tends to the wave activity about `r sin φ`. -/
theorem C207_solution (ha : 0 < a) {r : ℝ} (hr : 0 < r) (β : ℝ) {nlat nlon : ℕ → ℕ} {np : ℕ → Option ℕ} {j : ℕ → ℕ} (hG : Finer nlat nlon np j φ)
    {Q : ℕ → ℕ → ℝ} {A : ℕ → ℕ → ℕ → ℝ} (hQ : ∀ i, GivesProfile a (fun x l => r * leaning β x l) (nlat i) (nlon i) (np i) (Q i))
    (hA : ∀ i, GivesLwa a (fun x l => r * leaning β x l) (nlat i) (nlon i) (np i) (A i)) :
    Tendsto (fun i => Q i (j i)) atTop (nhds (r * sin φ)) ∧
      Tendsto (fun i => (∑ c ∈ Finset.range (nlon i), A i (j i) c) / nlon i) atTop (nhds (r * a / 2 * (1 - cos β) * cos φ ^ 2)) ∧
      ∀ l ∈ Icc 0 (2 * π), ∀ c : ℕ → ℕ, (∀ i, c i < nlon i) → Tendsto (fun i => 2 * π * c i / nlon i) atTop (nhds l) →
        Tendsto (fun i => A i (j i) (c i)) atTop
          (nhds (meridionalWaveActivity a (fun x => r * leaning β x l) (r * sin φ) (-(π / 2)) (π / 2) φ)) := by
  have hpi := pi_pos
  have hq := (leaning_vorticity a r β).continuous
  have hv := encloses_times hr (leaning_encloses ha β hG.south hG.north)
  have hg : ∀ l ∈ Icc 0 (2 * π), GradientBound (fun x => r * leaning β x l) (r * 2) (-(π / 2)) (π / 2) := fun l hl x hx y hy => by
    have := leaning_slope β (x, l) ⟨hx, hl⟩ (y, l) ⟨hy, hl⟩
    simp only [sub_self, abs_zero, mul_zero, add_zero] at this
    rw [← mul_sub, abs_mul, abs_of_pos hr, mul_assoc]
    exact mul_le_mul_of_nonneg_left this hr.le
  have unique : ∀ {B : ℕ → ℕ → ℕ → ℝ}, (∀ i, GivesLwa a (fun x l => r * leaning β x l) (nlat i) (nlon i) (np i) (B i)) → B = A := fun {B} hB => by
    funext i
    have := (hB i).symm.trans (hA i)
    simpa using this
  refine ⟨C159_profile ha hq hG.rows hG.columns hG.parts hG.moreRows hG.moreColumns hG.moreParts (fun i => (Nat.lt_succ_self _).trans (hG.row i))
      hG.toward hG.north hG.south hv hQ, ?_, fun l hl c hc hcl => ?_⟩
  · obtain ⟨v, B, -, hu, hB, ht⟩ := lwa_mean_tends ha hq hG (by positivity : (0 : ℝ) ≤ r * 2) hg
    rw [unique hB, ← hu _ hv, leaning_activity ha hr β hG.south hG.north] at ht
    exact ht
  · obtain ⟨v, -, B, ⟨-, hu⟩, -, hB, -, ht⟩ := C159_analysis (q := fun x l => r * leaning β x l) (l := l) ha hq hG.rows hG.columns hG.parts hG.moreRows hG.moreColumns hG.moreParts hG.row hc
      hG.toward hcl hG.north hG.south (by positivity : (0 : ℝ) ≤ r * 2) (hg l hl)
    rw [unique hB, ← hu _ hv] at ht
    exact ht

/-- Hypotheses of `C207_solution`: an axis that lies in the equator, rows at 45°N; the mean of `lwa` tends to 1/2. -/
example : ∃ (Q : ℕ → ℕ → ℝ) (A : ℕ → ℕ → ℕ → ℝ),
    (∀ i, GivesProfile 1 (fun x l => 2 * leaning (π / 2) x l) (4 * (i + 2) + 1) (i + 1) none (Q i)) ∧
    (∀ i, GivesLwa 1 (fun x l => 2 * leaning (π / 2) x l) (4 * (i + 2) + 1) (i + 1) none (A i)) ∧
    Tendsto (fun i => (∑ c ∈ Finset.range (i + 1), A i (3 * (i + 2)) c) / ((i + 1 : ℕ) : ℝ)) atTop (nhds (1 / 2)) := by
  have g : ∀ i : ℕ, ∃ Q, GivesProfile 1 (fun x l => 2 * leaning (π / 2) x l) (4 * (i + 2) + 1) (i + 1) none Q := fun i => by
    obtain ⟨Q, h, -⟩ := barotropic_grid one_pos (by omega : 3 ≤ 4 * (i + 2) + 1) (by omega : 1 ≤ i + 1) none (by show 2 ≤ 4 * (i + 2) + 1; omega)
      (fun x l => 2 * leaning (π / 2) x l)
    exact ⟨Q, h⟩
  choose Q hQ using g
  obtain ⟨-, A, -, -, hA, -⟩ := lwa_mean_tends one_pos (leaning_vorticity 1 2 (π / 2)).continuous quarter_finer (by norm_num : (0 : ℝ) ≤ 2 * 2)
    fun l hl x hx y hy => by
      have := leaning_slope (π / 2) (x, l) ⟨hx, hl⟩ (y, l) ⟨hy, hl⟩
      simp only [sub_self, abs_zero, mul_zero, add_zero] at this
      rw [← mul_sub, abs_mul, abs_two, mul_assoc]
      exact mul_le_mul_of_nonneg_left this zero_le_two
  have h := (C207_solution one_pos two_pos (π / 2) quarter_finer hQ hA).2.1
  refine ⟨Q, A, hQ, hA, ?_⟩
  have e : (2 : ℝ) * 1 / 2 * (1 - cos (π / 2)) * cos (π / 4) ^ 2 = 1 / 2 := by
    rw [cos_pi_div_two, cos_pi_div_four, div_pow, sq_sqrt zero_le_two]
    norm_num
  rw [e] at h
  exact h

end Falwa

end
