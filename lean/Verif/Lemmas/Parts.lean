import Verif.Props.HemBudget

/-!
# A part of the sphere and the whole of it: reference values and wave activity
-/

noncomputable section

namespace Falwa

open MeasureTheory Filter Set Real Spec

variable {a s m n φ v w T : ℝ} {q : ℝ → ℝ → ℝ}

/-- Areas of two adjacent bands add up. -/
theorem areaAtMost_split (hq : Continuous fun p : ℝ × ℝ => q p.1 p.2) (h1 : s ≤ m) (h2 : m ≤ n) (x : ℝ) :
    areaAtMost a q s n x = areaAtMost a q s m x + areaAtMost a q m n x := by
  classical
  have hU : band s n = band s m ∪ band m n := by
    unfold band
    rw [← Set.union_prod, Set.Icc_union_Icc_eq_Icc h1 h2]
  have hd : AEDisjoint volume (band s m) (band m n) := by
    have e : band s m ∩ band m n ⊆ {m} ×ˢ Icc 0 (2 * π) := fun p hp =>
      ⟨le_antisymm hp.1.1.2 hp.2.1.1, hp.1.2⟩
    refine measure_mono_null e ?_
    rw [Measure.volume_eq_prod, Measure.prod_prod, Real.volume_singleton, zero_mul]
  unfold areaAtMost
  rw [hU, setIntegral_union₀ hd (measurableSet_band _ _).nullMeasurableSet (areaAtMost_integrable hq a s m x) (areaAtMost_integrable hq a m n x)]

theorem areaAtMost_nonneg (h1 : -(π / 2) ≤ s) (h2 : n ≤ π / 2) (x : ℝ) : 0 ≤ areaAtMost a q s n x := by
  classical
  refine setIntegral_nonneg (measurableSet_band s n) fun p hp => ?_
  have := band_cos_nonneg h1 h2 hp
  split_ifs
  · positivity
  · exact le_rfl

theorem areaAtMost_le_all (hq : Continuous fun p : ℝ × ℝ => q p.1 p.2) (h1 : -(π / 2) ≤ s) (h2 : n ≤ π / 2) (hsn : s ≤ n) (x : ℝ) :
    areaAtMost a q s n x ≤ 2 * π * a ^ 2 * (sin n - sin s) := by
  classical
  rw [← band_area hsn]
  refine setIntegral_mono_on (areaAtMost_integrable hq a s n x)
    ((by fun_prop : Continuous fun p : ℝ × ℝ => a ^ 2 * cos p.1).continuousOn.integrableOn_compact (isCompact_band s n))
    (measurableSet_band s n) fun p hp => ?_
  have := band_cos_nonneg h1 h2 hp
  split_ifs
  · exact le_rfl
  · positivity

/-- Where no area lies on the contour, the area does not jump. -/
theorem areaAtMost_no_jump (hq : Continuous fun p : ℝ × ℝ => q p.1 p.2) (h0 : volume {p | p ∈ band s n ∧ q p.1 p.2 = v} = 0) {δ : ℝ} (hδ : 0 < δ)
    {η : ℝ} (hη : 0 < η) : ∃ ε, 0 < ε ∧ ε < η ∧ areaAtMost a q s n (v + ε) - areaAtMost a q s n (v - ε) < δ := by
  classical
  have hlim : Tendsto (fun k : ℕ => ∫ p in band s n, ((if q p.1 p.2 ≤ v + 1 / ((k : ℝ) + 1) then a ^ 2 * cos p.1 else 0) -
      if q p.1 p.2 ≤ v - 1 / ((k : ℝ) + 1) then a ^ 2 * cos p.1 else 0)) atTop (nhds (∫ _ in band s n, (0 : ℝ))) := by
    refine tendsto_integral_of_dominated_convergence (fun _ => 2 * a ^ 2) (fun k => ?_) ?_ (fun k => ?_) ?_
    · exact ((areaAtMost_integrable hq a s n _).sub (areaAtMost_integrable hq a s n _)).aestronglyMeasurable
    · exact continuous_const.continuousOn.integrableOn_compact (isCompact_band s n)
    · refine Eventually.of_forall fun p => ?_
      have hc : |a ^ 2 * cos p.1| ≤ a ^ 2 := by
        rw [abs_mul, abs_of_nonneg (sq_nonneg a)]
        exact mul_le_of_le_one_right (sq_nonneg a) (abs_cos_le_one _)
      have ha2 := sq_nonneg a
      rw [Real.norm_eq_abs]
      split_ifs
      · rw [sub_self, abs_zero]; linarith
      · rw [sub_zero]; linarith
      · rw [zero_sub, abs_neg]; linarith
      · rw [sub_self, abs_zero]; linarith
    · have hae : ∀ᵐ p ∂(volume.restrict (band s n)), q p.1 p.2 ≠ v := by
        rw [ae_restrict_iff' (measurableSet_band s n), ae_iff]
        refine measure_mono_null (fun p hp => ?_) h0
        simp only [mem_ofPred_eq, Classical.not_imp, not_not] at hp
        exact hp
      filter_upwards [hae] with p hp
      refine tendsto_const_nhds.congr' ?_
      have hpos : 0 < |q p.1 p.2 - v| := abs_pos.2 (sub_ne_zero.2 hp)
      filter_upwards [(tendsto_one_div_add_atTop_nhds_zero_nat (𝕜 := ℝ)).eventually_lt_const hpos] with k hk
      have hk0 : (0 : ℝ) < 1 / ((k : ℝ) + 1) := by positivity
      rcases lt_or_gt_of_ne hp with h | h
      · rw [abs_of_neg (by linarith)] at hk
        rw [if_pos (by linarith), if_pos (by linarith), sub_self]
      · rw [abs_of_pos (by linarith)] at hk
        rw [if_neg (by linarith), if_neg (by linarith), sub_self]
  rw [integral_zero] at hlim
  obtain ⟨k, hk1, hk2⟩ := ((hlim.eventually_lt_const hδ).and
    ((tendsto_one_div_add_atTop_nhds_zero_nat (𝕜 := ℝ)).eventually_lt_const hη)).exists
  refine ⟨1 / ((k : ℝ) + 1), by positivity, hk2, ?_⟩
  rw [integral_sub (areaAtMost_integrable hq a s n _) (areaAtMost_integrable hq a s n _)] at hk1
  exact hk1

/-- A point of a band with a value above `v` has neighbours inside the band with values above `v`. -/
theorem inside_above (hq : Continuous fun p : ℝ × ℝ => q p.1 p.2) (hsn : s < n) {p : ℝ × ℝ} (hp : p ∈ band s n) (h : v < q p.1 p.2) :
    ∃ p' ∈ interior (band s n), v < q p'.1 p'.2 := by
  have hpi := pi_pos
  have hcl : closure (interior (band s n)) = band s n := by
    rw [band, interior_prod_eq, interior_Icc, interior_Icc, closure_prod_eq, closure_Ioo hsn.ne, closure_Ioo (by positivity : (0 : ℝ) ≠ 2 * π)]
  rw [← hcl] at hp
  obtain ⟨p', h1, h2⟩ := mem_closure_iff.1 hp {x | v < q x.1 x.2} (isOpen_lt continuous_const hq) h
  exact ⟨p', h2, h1⟩

theorem inside_below (hq : Continuous fun p : ℝ × ℝ => q p.1 p.2) (hsn : s < n) {p : ℝ × ℝ} (hp : p ∈ band s n) (h : q p.1 p.2 < v) :
    ∃ p' ∈ interior (band s n), q p'.1 p'.2 < v := by
  obtain ⟨p', h1, h2⟩ := inside_above (q := fun x l => -q x l) (v := -v) hq.neg hsn hp (neg_lt_neg h)
  exact ⟨p', h1, neg_lt_neg_iff.1 h2⟩

/-! ### The part north of `s` -/

/-- The reference value of a northern part is at most that of the sphere. -/
theorem north_value_le (hq : Continuous fun p : ℝ × ℝ => q p.1 p.2) (hs : -(π / 2) ≤ s) (hs' : s ≤ π / 2)
    (hw : Encloses a q s (π / 2) (T - 2 * π * a ^ 2 * (1 + sin s)) w) (hv : Encloses a q (-(π / 2)) (π / 2) T v) : w ≤ v := by
  by_contra h
  push Not at h
  have h1 := hv.above ((v + w) / 2) (by linarith)
  have h2 := hw.below ((v + w) / 2) (by linarith)
  have h3 := areaAtMost_split (a := a) hq hs hs' ((v + w) / 2)
  have h4 := areaAtMost_le_all (a := a) hq le_rfl hs' hs ((v + w) / 2)
  rw [sin_neg, sin_pi_div_two] at h4
  linarith

/-- It is that of the sphere if all values farther south are at most this one. -/
theorem north_value_eq (hq : Continuous fun p : ℝ × ℝ => q p.1 p.2) (hs : -(π / 2) ≤ s) (hs' : s ≤ π / 2)
    (hw : Encloses a q s (π / 2) (T - 2 * π * a ^ 2 * (1 + sin s)) w) (hv : Encloses a q (-(π / 2)) (π / 2) T v)
    (h : ∀ p ∈ band (-(π / 2)) s, q p.1 p.2 ≤ w) : w = v := by
  refine le_antisymm (north_value_le hq hs hs' hw hv) ?_
  by_contra hl
  push Not at hl
  have h1 := hv.below ((v + w) / 2) (by linarith)
  have h2 := hw.above ((v + w) / 2) (by linarith)
  have h3 := areaAtMost_split (a := a) hq hs hs' ((v + w) / 2)
  have h4 : areaAtMost a q (-(π / 2)) s ((v + w) / 2) = _ :=
    areaAtMost_all fun p hp => (h p hp).trans (by linarith)
  rw [band_area hs, sin_neg, sin_pi_div_two] at h4
  linarith

/-- Only then, unless the contour covers an area. -/
theorem north_value_ne (ha : 0 < a) (hq : Continuous fun p : ℝ × ℝ => q p.1 p.2) (hs : -(π / 2) < s) (hs' : s ≤ π / 2)
    (hw : Encloses a q s (π / 2) (T - 2 * π * a ^ 2 * (1 + sin s)) v) (hv : Encloses a q (-(π / 2)) (π / 2) T v)
    (h0 : volume {p | p ∈ band s (π / 2) ∧ q p.1 p.2 = v} = 0) : ∀ p ∈ band (-(π / 2)) s, q p.1 p.2 ≤ v := by
  by_contra hc
  push Not at hc
  obtain ⟨p, hp, hpv⟩ := hc
  obtain ⟨p, hp, hpv⟩ := inside_above hq hs hp hpv
  have hst := areaAtMost_strict ha hq le_rfl hs' (by linarith : (v + q p.1 p.2) / 2 < q p.1 p.2 + 1) hp (by linarith) (by linarith)
  have hall := areaAtMost_le_all (a := a) hq le_rfl hs' hs.le (q p.1 p.2 + 1)
  rw [sin_neg, sin_pi_div_two] at hall
  obtain ⟨ε, e0, e1, e2⟩ := areaAtMost_no_jump (a := a) hq h0
    (by linarith : 0 < 2 * π * a ^ 2 * (1 + sin s) - areaAtMost a q (-(π / 2)) s ((v + q p.1 p.2) / 2)) (by linarith : 0 < (q p.1 p.2 - v) / 2)
  have h1 := hv.above (v + ε) (by linarith)
  have h2 := hw.below (v - ε) (by linarith)
  have h3 := areaAtMost_split (a := a) hq hs.le hs' (v + ε)
  have h4 := areaAtMost_mono (a := a) hq le_rfl hs' (by linarith : v + ε ≤ (v + q p.1 p.2) / 2)
  linarith

/-! ### The part south of `n` -/

/-- The reference value of a southern part is at least that of the sphere. -/
theorem south_value_ge (hq : Continuous fun p : ℝ × ℝ => q p.1 p.2) (hn : -(π / 2) ≤ n) (hn' : n ≤ π / 2)
    (hw : Encloses a q (-(π / 2)) n T w) (hv : Encloses a q (-(π / 2)) (π / 2) T v) : v ≤ w := by
  by_contra h
  push Not at h
  have h1 := hv.below ((v + w) / 2) (by linarith)
  have h2 := hw.above ((v + w) / 2) (by linarith)
  have h3 := areaAtMost_split (a := a) hq hn hn' ((v + w) / 2)
  have h4 := areaAtMost_nonneg (a := a) (q := q) hn le_rfl ((v + w) / 2)
  linarith

/-- It is that of the sphere if all values farther north are at least this one. -/
theorem south_value_eq (hq : Continuous fun p : ℝ × ℝ => q p.1 p.2) (hn : -(π / 2) ≤ n) (hn' : n ≤ π / 2)
    (hw : Encloses a q (-(π / 2)) n T w) (hv : Encloses a q (-(π / 2)) (π / 2) T v)
    (h : ∀ p ∈ band n (π / 2), w ≤ q p.1 p.2) : w = v := by
  refine le_antisymm ?_ (south_value_ge hq hn hn' hw hv)
  by_contra hl
  push Not at hl
  have h1 := hv.above ((v + w) / 2) (by linarith)
  have h2 := hw.below ((v + w) / 2) (by linarith)
  have h3 := areaAtMost_split (a := a) hq hn hn' ((v + w) / 2)
  have h4 : areaAtMost a q n (π / 2) ((v + w) / 2) = 0 := areaAtMost_none fun p hp => lt_of_lt_of_le (by linarith) (h p hp)
  linarith

/-- Only then, unless the contour covers an area. -/
theorem south_value_ne (ha : 0 < a) (hq : Continuous fun p : ℝ × ℝ => q p.1 p.2) (hn : -(π / 2) ≤ n) (hn' : n < π / 2)
    (hw : Encloses a q (-(π / 2)) n T v) (hv : Encloses a q (-(π / 2)) (π / 2) T v)
    (h0 : volume {p | p ∈ band (-(π / 2)) n ∧ q p.1 p.2 = v} = 0) : ∀ p ∈ band n (π / 2), v ≤ q p.1 p.2 := by
  by_contra hc
  push Not at hc
  obtain ⟨p, hp, hpv⟩ := hc
  obtain ⟨p, hp, hpv⟩ := inside_below hq hn' hp hpv
  have hst := areaAtMost_strict ha hq hn le_rfl (by linarith : q p.1 p.2 - 1 < (v + q p.1 p.2) / 2) hp (by linarith) (by linarith)
  have hnone := areaAtMost_nonneg (a := a) (q := q) hn le_rfl (q p.1 p.2 - 1)
  obtain ⟨ε, e0, e1, e2⟩ := areaAtMost_no_jump (a := a) hq h0
    (by linarith : 0 < areaAtMost a q n (π / 2) ((v + q p.1 p.2) / 2)) (by linarith : 0 < (v - q p.1 p.2) / 2)
  have h1 := hv.below (v - ε) (by linarith)
  have h2 := hw.above (v + ε) (by linarith)
  have h3 := areaAtMost_split (a := a) hq hn hn'.le (v - ε)
  have h4 := areaAtMost_mono (a := a) hq hn le_rfl (by linarith : (v + q p.1 p.2) / 2 ≤ v - ε)
  linarith

/-! ### Wave activity -/

theorem piece_integrable {f : ℝ → ℝ} (hf : Continuous f) (v x y : ℝ) :
    IntervalIntegrable (fun x => max (f x - v) 0 * (a * cos x)) volume x y :=
  (((hf.sub continuous_const).max continuous_const).mul (by fun_prop : Continuous fun x : ℝ => a * cos x)).intervalIntegrable _ _

theorem piece_integrable' {f : ℝ → ℝ} (hf : Continuous f) (v x y : ℝ) :
    IntervalIntegrable (fun x => max (v - f x) 0 * (a * cos x)) volume x y :=
  (((continuous_const.sub hf).max continuous_const).mul (by fun_prop : Continuous fun x : ℝ => a * cos x)).intervalIntegrable _ _

/-- Wave activity of the sphere is that of a part plus that of the rest. -/
theorem activity_extend {f : ℝ → ℝ} (hf : Continuous f) (s n s' n' : ℝ) :
    meridionalWaveActivity a f v s' n' φ = meridionalWaveActivity a f v s n φ +
      ((∫ x in n..n', max (v - f x) 0 * (a * cos x)) + ∫ x in s'..s, max (f x - v) 0 * (a * cos x)) := by
  unfold meridionalWaveActivity
  rw [← intervalIntegral.integral_add_adjacent_intervals (piece_integrable' hf v φ n) (piece_integrable' hf v n n'),
    ← intervalIntegral.integral_add_adjacent_intervals (piece_integrable hf v s' s) (piece_integrable hf v s φ)]
  ring

theorem activity_part_le (ha : 0 ≤ a) {f : ℝ → ℝ} (hf : Continuous f) {s n : ℝ} (hs : -(π / 2) ≤ s) (hs' : s ≤ π / 2) (hn : -(π / 2) ≤ n)
    (hn' : n ≤ π / 2) : meridionalWaveActivity a f v s n φ ≤ meridionalWaveActivity a f v (-(π / 2)) (π / 2) φ := by
  rw [activity_extend hf s n (-(π / 2)) (π / 2)]
  refine le_add_of_nonneg_right (add_nonneg ?_ ?_)
  · exact intervalIntegral.integral_nonneg hn' fun x hx => mul_nonneg (le_max_right _ _)
      (mul_nonneg ha (cos_nonneg_of_mem_Icc ⟨hn.trans hx.1, hx.2⟩))
  · exact intervalIntegral.integral_nonneg hs fun x hx => mul_nonneg (le_max_right _ _)
      (mul_nonneg ha (cos_nonneg_of_mem_Icc ⟨hx.1, hx.2.trans hs'⟩))

theorem activity_north_eq {f : ℝ → ℝ} (hf : Continuous f) (hs : -(π / 2) ≤ s) (h : ∀ x ∈ Icc (-(π / 2)) s, f x ≤ v) :
    meridionalWaveActivity a f v (-(π / 2)) (π / 2) φ = meridionalWaveActivity a f v s (π / 2) φ := by
  have e : ∫ x in -(π / 2)..s, max (f x - v) 0 * (a * cos x) = 0 := by
    have g : ∀ x ∈ uIcc (-(π / 2)) s, max (f x - v) 0 * (a * cos x) = 0 := fun x hx => by
      rw [uIcc_of_le hs] at hx
      rw [max_eq_right (sub_nonpos.2 (h x hx)), zero_mul]
    exact (intervalIntegral.integral_congr g).trans intervalIntegral.integral_zero
  rw [activity_extend hf s (π / 2) (-(π / 2)) (π / 2), e, intervalIntegral.integral_same, add_zero, add_zero]

theorem activity_south_eq {f : ℝ → ℝ} (hf : Continuous f) (hn : n ≤ π / 2) (h : ∀ x ∈ Icc n (π / 2), v ≤ f x) :
    meridionalWaveActivity a f v (-(π / 2)) (π / 2) φ = meridionalWaveActivity a f v (-(π / 2)) n φ := by
  have e : ∫ x in n..π / 2, max (v - f x) 0 * (a * cos x) = 0 := by
    have g : ∀ x ∈ uIcc n (π / 2), max (v - f x) 0 * (a * cos x) = 0 := fun x hx => by
      rw [uIcc_of_le hn] at hx
      rw [max_eq_right (sub_nonpos.2 (h x hx)), zero_mul]
    exact (intervalIntegral.integral_congr g).trans intervalIntegral.integral_zero
  rw [activity_extend hf (-(π / 2)) n (-(π / 2)) (π / 2), e, intervalIntegral.integral_same, add_zero, add_zero]

/-- Wave activity from the air below the contour in the whole band. -/
theorem activity_below {f : ℝ → ℝ} (hf : Continuous f) (s n φ c : ℝ) : meridionalWaveActivity a f c s n φ =
    (∫ x in s..n, max (c - f x) 0 * (a * cos x)) - ∫ x in s..φ, (c - f x) * (a * cos x) := by
  have i : IntervalIntegrable (fun x => (c - f x) * (a * cos x)) volume s φ :=
    ((continuous_const.sub hf).mul (by fun_prop : Continuous fun x : ℝ => a * cos x)).intervalIntegrable _ _
  unfold meridionalWaveActivity
  rw [← intervalIntegral.integral_add_adjacent_intervals (piece_integrable' hf c s φ) (piece_integrable' hf c φ n)]
  have e : ∫ x in s..φ, max (f x - c) 0 * (a * cos x) =
      (∫ x in s..φ, max (c - f x) 0 * (a * cos x)) - ∫ x in s..φ, (c - f x) * (a * cos x) := by
    rw [← intervalIntegral.integral_sub (piece_integrable' hf c s φ) i]
    refine intervalIntegral.integral_congr fun x _ => ?_
    show max (f x - c) 0 * (a * cos x) = max (c - f x) 0 * (a * cos x) - (c - f x) * (a * cos x)
    rw [← sub_mul]
    congr 1
    rcases le_total (f x) c with h | h
    · rw [max_eq_right (by linarith), max_eq_left (by linarith), sub_self]
    · rw [max_eq_left (by linarith), max_eq_right (by linarith)]; ring
  rw [e]
  ring

theorem band_swap' {s n : ℝ} (hsn : s ≤ n) {f : ℝ × ℝ → ℝ} (hf : Continuous f) :
    ∫ p in band s n, f p = ∫ l in (0 : ℝ)..2 * π, ∫ φ in s..n, f (φ, l) := by
  have hpi := pi_pos
  have hI : Integrable f ((volume.restrict (Icc s n)).prod (volume.restrict (Icc 0 (2 * π)))) := by
    rw [Measure.prod_restrict]
    exact hf.continuousOn.integrableOn_compact (isCompact_Icc.prod isCompact_Icc)
  rw [band, Measure.volume_eq_prod, ← Measure.prod_restrict, integral_prod_symm _ hI,
    intervalIntegral.integral_of_le (by positivity), integral_Icc_eq_integral_Ioc]
  refine integral_congr_ae (Eventually.of_forall fun l => ?_)
  beta_reduce
  rw [intervalIntegral.integral_of_le hsn, integral_Icc_eq_integral_Ioc]

/-- Mean wave activity relative to two values. -/
theorem activity_difference (hq : Continuous fun p : ℝ × ℝ => q p.1 p.2) (hsn : s ≤ n) (c c' : ℝ) :
    a * ((∫ l in (0 : ℝ)..2 * π, meridionalWaveActivity a (fun x => q x l) c' s n φ) -
      ∫ l in (0 : ℝ)..2 * π, meridionalWaveActivity a (fun x => q x l) c s n φ) =
    (∫ p in band s n, (max (c' - q p.1 p.2) 0 - max (c - q p.1 p.2) 0) * (a ^ 2 * cos p.1)) -
      (c' - c) * (2 * π * a ^ 2 * (sin φ - sin s)) := by
  have hql : ∀ l, Continuous fun x => q x l := fun l => hq.comp (f := fun x : ℝ => (x, l)) (by fun_prop)
  rw [← intervalIntegral.integral_sub ((partActivity_continuous hq φ).intervalIntegrable _ _)
    ((partActivity_continuous hq φ).intervalIntegrable _ _), ← intervalIntegral.integral_const_mul,
    band_swap' hsn (f := fun p => (max (c' - q p.1 p.2) 0 - max (c - q p.1 p.2) 0) * (a ^ 2 * cos p.1))
      ((((continuous_const.sub hq).max continuous_const).sub ((continuous_const.sub hq).max continuous_const)).mul (by fun_prop))]
  have e : ∀ l, a * (meridionalWaveActivity a (fun x => q x l) c' s n φ - meridionalWaveActivity a (fun x => q x l) c s n φ) =
      (∫ x in s..n, (max (c' - q x l) 0 - max (c - q x l) 0) * (a ^ 2 * cos x)) - (c' - c) * (a ^ 2 * (sin φ - sin s)) := fun l => by
    rw [activity_below (hql l), activity_below (hql l)]
    have j1 : ∫ x in s..n, (max (c' - q x l) 0 - max (c - q x l) 0) * (a ^ 2 * cos x) =
        a * ((∫ x in s..n, max (c' - q x l) 0 * (a * cos x)) - ∫ x in s..n, max (c - q x l) 0 * (a * cos x)) := by
      rw [← intervalIntegral.integral_sub (piece_integrable' (hql l) c' s n) (piece_integrable' (hql l) c s n),
        ← intervalIntegral.integral_const_mul]
      refine intervalIntegral.integral_congr fun x _ => ?_
      ring
    have j2 : (c' - c) * (a ^ 2 * (sin φ - sin s)) =
        a * ((∫ x in s..φ, (c' - q x l) * (a * cos x)) - ∫ x in s..φ, (c - q x l) * (a * cos x)) := by
      have i : ∀ c, IntervalIntegrable (fun x => (c - q x l) * (a * cos x)) volume s φ := fun c =>
        ((continuous_const.sub (hql l)).mul (by fun_prop : Continuous fun x : ℝ => a * cos x)).intervalIntegrable _ _
      rw [← intervalIntegral.integral_sub (i c') (i c), intervalIntegral.integral_congr (g := fun x => (c' - c) * a * cos x) fun x _ => by beta_reduce; ring,
        intervalIntegral.integral_const_mul, integral_cos]
      ring
    rw [j1, j2]
    ring
  simp only [e]
  rw [intervalIntegral.integral_sub, intervalIntegral.integral_const]
  · simp only [sub_zero, smul_eq_mul]
    ring
  · have hs : Continuous fun p : ℝ × ℝ => q p.2 p.1 := hq.comp (f := fun p : ℝ × ℝ => (p.2, p.1)) (by fun_prop)
    have hc : Continuous fun p : ℝ × ℝ => (max (c' - q p.2 p.1) 0 - max (c - q p.2 p.1) 0) * (a ^ 2 * cos p.2) :=
      (((continuous_const.sub hs).max continuous_const).sub ((continuous_const.sub hs).max continuous_const)).mul (by fun_prop)
    exact (intervalIntegral.continuous_parametric_intervalIntegral_of_continuous'
      (f := fun l x => (max (c' - q x l) 0 - max (c - q x l) 0) * (a ^ 2 * cos x)) hc s n).intervalIntegrable _ _
  · exact intervalIntegrable_const

/-- The mean wave activity of a part of the sphere is least relative to the value that encloses the area. -/
theorem activity_least (ha : 0 < a) (hq : Continuous fun p : ℝ × ℝ => q p.1 p.2) (hs : -(π / 2) ≤ s) (hn : n ≤ π / 2) (h1 : s ≤ φ) (h2 : φ ≤ n)
    (hv : Encloses a q s n (2 * π * a ^ 2 * (sin φ - sin s)) v) (c : ℝ) :
    ∫ l in (0 : ℝ)..2 * π, meridionalWaveActivity a (fun x => q x l) v s n φ ≤
      ∫ l in (0 : ℝ)..2 * π, meridionalWaveActivity a (fun x => q x l) c s n φ := by
  classical
  have hsn := h1.trans h2
  have hd := activity_difference (a := a) (φ := φ) hq hsn v c
  rw [← sub_nonneg]
  refine nonneg_of_mul_nonneg_right (hd ▸ ?_) ha
  generalize hT : 2 * π * a ^ 2 * (sin φ - sin s) = T at hv ⊢
  have iD : IntegrableOn (fun p : ℝ × ℝ => (max (c - q p.1 p.2) 0 - max (v - q p.1 p.2) 0) * (a ^ 2 * cos p.1)) (band s n) :=
    ((((continuous_const.sub hq).max continuous_const).sub ((continuous_const.sub hq).max continuous_const)).mul
      (by fun_prop : Continuous fun p : ℝ × ℝ => a ^ 2 * cos p.1)).continuousOn.integrableOn_compact (isCompact_band s n)
  have iA : IntegrableOn (fun p : ℝ × ℝ => a ^ 2 * cos p.1) (band s n) :=
    (by fun_prop : Continuous fun p : ℝ × ℝ => a ^ 2 * cos p.1).continuousOn.integrableOn_compact (isCompact_band s n)
  rcases lt_trichotomy v c with h | h | h
  · have key : ∀ x, v < x → x < c → (c - x) * T ≤
        ∫ p in band s n, (max (c - q p.1 p.2) 0 - max (v - q p.1 p.2) 0) * (a ^ 2 * cos p.1) := fun x x1 x2 => by
      refine (mul_le_mul_of_nonneg_left (hv.above x x1).le (by linarith)).trans ?_
      unfold areaAtMost
      rw [← integral_const_mul]
      refine setIntegral_mono_on ((areaAtMost_integrable hq a s n x).const_mul _) iD (measurableSet_band s n) fun p hp => ?_
      have hc := mul_nonneg (sq_nonneg a) (band_cos_nonneg hs hn hp)
      split_ifs with hx
      · refine mul_le_mul_of_nonneg_right ?_ hc
        rcases le_total (q p.1 p.2) v with g | g
        · rw [max_eq_left (by linarith), max_eq_left (by linarith)]; linarith
        · rw [max_eq_left (by linarith), max_eq_right (by linarith)]; linarith
      · rw [mul_zero]
        refine mul_nonneg (sub_nonneg.2 (max_le_max (by linarith) le_rfl)) hc
    have hlim : Tendsto (fun x => (c - x) * T) (nhdsWithin v (Ioi v)) (nhds ((c - v) * T)) :=
      (by fun_prop : Continuous fun x => (c - x) * T).continuousWithinAt
    refine sub_nonneg.2 (le_of_tendsto hlim ?_)
    filter_upwards [Ioo_mem_nhdsGT h] with x hx using key x hx.1 hx.2
  · rw [h]; simp
  · have key : ∀ x, c < x → x < v → -((v - x) * (∫ p in band s n, a ^ 2 * cos p.1) + (x - c) * T) ≤
        ∫ p in band s n, (max (c - q p.1 p.2) 0 - max (v - q p.1 p.2) 0) * (a ^ 2 * cos p.1) := fun x x1 x2 => by
      have hT' := mul_le_mul_of_nonneg_left (hv.below x x2).le (by linarith : 0 ≤ x - c)
      refine (neg_le_neg (add_le_add_right hT' _)).trans ?_
      unfold areaAtMost
      rw [← integral_const_mul, ← integral_const_mul, ← integral_add (iA.const_mul _) ((areaAtMost_integrable hq a s n x).const_mul _), ← integral_neg]
      refine setIntegral_mono_on (((iA.const_mul _).add ((areaAtMost_integrable hq a s n x).const_mul _)).neg) iD (measurableSet_band s n)
        fun p hp => ?_
      have hc := mul_nonneg (sq_nonneg a) (band_cos_nonneg hs hn hp)
      split_ifs with hx
      · rw [← add_mul, ← neg_mul]
        refine mul_le_mul_of_nonneg_right ?_ hc
        rw [max_eq_left (by linarith : 0 ≤ v - q p.1 p.2)]
        have := le_max_left (c - q p.1 p.2) 0
        linarith
      · push Not at hx
        rw [mul_zero, add_zero, ← neg_mul]
        refine mul_le_mul_of_nonneg_right ?_ hc
        rw [max_eq_right (by linarith : c - q p.1 p.2 ≤ 0), zero_sub]
        exact neg_le_neg (max_le (by linarith) (by linarith))
    have hlim : Tendsto (fun x => -((v - x) * (∫ p in band s n, a ^ 2 * cos p.1) + (x - c) * T)) (nhdsWithin v (Iio v))
        (nhds (-((v - v) * (∫ p in band s n, a ^ 2 * cos p.1) + (v - c) * T))) :=
      (by fun_prop : Continuous fun x => -((v - x) * (∫ p in band s n, a ^ 2 * cos p.1) + (x - c) * T)).continuousWithinAt
    refine sub_nonneg.2 ?_
    rw [show (c - v) * T = -((v - v) * (∫ p in band s n, a ^ 2 * cos p.1) + (v - c) * T) by ring]
    refine le_of_tendsto hlim ?_
    filter_upwards [Ioo_mem_nhdsLT h] with x hx using key x hx.1 hx.2

end Falwa
