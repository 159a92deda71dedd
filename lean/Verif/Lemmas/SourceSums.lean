import Verif.Lemmas.RowSums

/-! # Sums of a source over displaced rows tend to integrals over displaced latitudes -/

noncomputable section

namespace Falwa

open Finset Spec MeasureTheory Filter

theorem RowLimit.mul {s t : ℝ} {m : ℕ → ℕ} {F G : ℕ → ℕ → ℝ} {f g : ℝ → ℝ} (hF : RowLimit s t m F f) (hG : RowLimit s t m G g) :
    RowLimit s t m (fun n r => F n r * G n r) fun y => f y * g y where
  continuous := hF.continuous.mul hG.continuous
  bound := by
    obtain ⟨M, hM⟩ := hF.bound
    obtain ⟨B, hB⟩ := hG.bound
    refine ⟨M * B, ?_⟩
    filter_upwards [hM, hB] with n h1 h2 r hr
    rw [abs_mul]
    exact mul_le_mul (h1 r hr) (h2 r hr) (abs_nonneg _) ((abs_nonneg _).trans (h1 r hr))
  limit := fun y hy r hr h => (hF.limit y hy r hr h).mul (hG.limit y hy r hr h)

/-- The weight on the part of a line where a continuous function is below another. -/
theorem part_integrable {f g w : ℝ → ℝ} (hf : Continuous f) (hg : Continuous g) (hw : Continuous w) (x y : ℝ) :
    IntervalIntegrable (fun y => if f y < g y then w y else 0) volume x y := by
  have e : (fun y => if f y < g y then w y else 0) = Set.indicator {y | f y < g y} w := by
    funext y
    rw [Set.indicator_apply]
    rfl
  rw [e, intervalIntegrable_iff]
  exact (intervalIntegrable_iff.1 (hw.intervalIntegrable x y)).indicator (isOpen_lt hf hg).measurableSet

/-- Sums of a weight over rows with the sign `σ`: negative above the row `j` where `q` is below the reference, positive below it where `q`
is above. On rows with the value of the reference the sign may be anything. -/
theorem source_limit {s t φ v : ℝ} (hst : s < t) (hφ : φ ∈ Set.Icc s t) {m j : ℕ → ℕ} (hm : Tendsto m atTop atTop)
    {q W : ℕ → ℕ → ℝ} {Q : ℕ → ℝ} {f w : ℝ → ℝ} (hq : RowLimit s t m q f) (hW : RowLimit s t m W w) (hQ : Tendsto Q atTop (nhds v))
    (hj : Tendsto (fun n => s + j n * ((t - s) / m n)) atTop (nhds φ)) (hnull : volume {y | y ∈ Set.Icc s t ∧ f y = v} = 0)
    {σ : ℕ → ℕ → ℝ} (hσ : ∀ n r, |σ n r| ≤ 1) (hlow : ∀ n r, j n < r → q n r < Q n → σ n r = -1)
    (hlow0 : ∀ n r, j n < r → Q n < q n r → σ n r = 0) (hhigh : ∀ n r, r < j n → Q n < q n r → σ n r = 1)
    (hhigh0 : ∀ n r, r < j n → q n r < Q n → σ n r = 0) :
    Tendsto (fun n => ∑ r ∈ range (m n + 1), σ n r * (W n r * ((t - s) / m n))) atTop
      (nhds ((∫ y in s..φ, if v < f y then w y else 0) - ∫ y in φ..t, if f y < v then w y else 0)) := by
  obtain ⟨B, hB⟩ := hW.bound
  have hfc := hq.continuous
  have hwc := hW.continuous
  have hm1 : ∀ᶠ n in atTop, 0 < m n := hm.eventually_gt_atTop 0
  have hd0 : Tendsto (fun n => (t - s) / (m n : ℝ)) atTop (nhds 0) := tendsto_const_nhds.div_atTop (tendsto_natCast_atTop_atTop.comp hm)
  have hDb : ∀ᶠ n in atTop, ∀ r, r ≤ m n → |σ n r * W n r| ≤ B := by
    filter_upwards [hB] with n h2 r hr
    rw [abs_mul]
    have := mul_le_mul (hσ n r) (h2 r hr) (abs_nonneg _) zero_le_one
    rwa [one_mul] at this
  set L : ℝ → ℝ := fun y => if φ ≤ y then -(if f y < v then w y else 0) else if v < f y then w y else 0 with hL
  have key := step_limit hst hm (F := fun n i => σ n i.toNat * W n i.toNat) (L := L) (M := B) (N := {φ} ∪ {y | y ∈ Set.Icc s t ∧ f y = v})
    (hDb.mono fun n h i i0 i1 => h _ (by omega)) (measure_union_null (by simp) hnull) fun y hy hyN i hi hiy => by
      have hr : ∀ᶠ n in atTop, (i n).toNat ≤ m n := hi.mono fun n h => by omega
      have hpos : Tendsto (fun n => s + ((i n).toNat : ℝ) * ((t - s) / m n)) atTop (nhds y) := by
        refine hiy.congr' (hi.mono fun n h => ?_)
        have : (((i n).toNat : ℤ) : ℝ) = i n := by rw [Int.toNat_of_nonneg h.1]
        rw [← this]
        push_cast
        rfl
      have h1 := (hq.limit y hy _ hr hpos).sub hQ
      have h2 := hW.limit y hy _ hr hpos
      simp only [Set.mem_union, Set.mem_singleton_iff, not_or] at hyN
      have hyne : y ≠ φ := hyN.1
      have hfv : f y ≠ v := fun e => hyN.2 ⟨⟨hy.1.le, hy.2.le⟩, e⟩
      have hgap := hpos.sub hj
      have below : y < φ → ∀ᶠ n in atTop, (i n).toNat < j n := fun hlt => by
        filter_upwards [hgap.eventually (gt_mem_nhds (show y - φ < 0 by linarith)), hm1] with n hn h1
        have hn' : (0 : ℝ) < m n := by exact_mod_cast h1
        have hd : 0 < (t - s) / m n := div_pos (sub_pos.2 hst) hn'
        by_contra hc
        have : (j n : ℝ) ≤ (i n).toNat := by exact_mod_cast (not_lt.1 hc)
        nlinarith
      have above : φ < y → ∀ᶠ n in atTop, j n < (i n).toNat := fun hlt => by
        filter_upwards [hgap.eventually (lt_mem_nhds (show 0 < y - φ by linarith)), hm1] with n hn h1
        have hn' : (0 : ℝ) < m n := by exact_mod_cast h1
        have hd : 0 < (t - s) / m n := div_pos (sub_pos.2 hst) hn'
        by_contra hc
        have : ((i n).toNat : ℝ) ≤ j n := by exact_mod_cast (not_lt.1 hc)
        nlinarith
      have less : f y < v → ∀ᶠ n in atTop, q n (i n).toNat < Q n := fun hlt => by
        filter_upwards [h1.eventually (gt_mem_nhds (show f y - v < 0 by linarith))] with n hn
        linarith
      have more : v < f y → ∀ᶠ n in atTop, Q n < q n (i n).toNat := fun hlt => by
        filter_upwards [h1.eventually (lt_mem_nhds (show 0 < f y - v by linarith))] with n hn
        linarith
      rcases lt_or_gt_of_ne hyne with hlt | hlt
      · rcases lt_or_gt_of_ne hfv with hq' | hq'
        · have e : L y = 0 := by rw [hL]; beta_reduce; rw [if_neg (not_le.2 hlt), if_neg hq'.not_gt]
          rw [e]
          refine tendsto_const_nhds.congr' ?_
          filter_upwards [below hlt, less hq'] with n a b
          rw [hhigh0 n _ a b, zero_mul]
        · have e : L y = w y := by rw [hL]; beta_reduce; rw [if_neg (not_le.2 hlt), if_pos hq']
          rw [e]
          refine h2.congr' ?_
          filter_upwards [below hlt, more hq'] with n a b
          rw [hhigh n _ a b, one_mul]
      · rcases lt_or_gt_of_ne hfv with hq' | hq'
        · have e : L y = -w y := by rw [hL]; beta_reduce; rw [if_pos hlt.le, if_pos hq']
          rw [e]
          refine h2.neg.congr' ?_
          filter_upwards [above hlt, less hq'] with n a b
          rw [hlow n _ a b, neg_one_mul]
        · have e : L y = 0 := by rw [hL]; beta_reduce; rw [if_pos hlt.le, if_neg hq'.not_gt, neg_zero]
          rw [e]
          refine tendsto_const_nhds.congr' ?_
          filter_upwards [above hlt, more hq'] with n a b
          rw [hlow0 n _ a b, zero_mul]
  have hlast : Tendsto (fun n => σ n (m n) * W n (m n) * ((t - s) / m n)) atTop (nhds 0) := by
    have hz : Tendsto (fun n => B * |(t - s) / (m n : ℝ)|) atTop (nhds 0) := by
      have := hd0.abs.const_mul B
      rwa [abs_zero, mul_zero] at this
    refine squeeze_zero_norm' (hDb.mono fun n h => ?_) hz
    rw [Real.norm_eq_abs, abs_mul]
    exact mul_le_mul_of_nonneg_right (h _ le_rfl) (abs_nonneg _)
  have hsplit : ∫ y in s..t, L y = (∫ y in s..φ, if v < f y then w y else 0) - ∫ y in φ..t, if f y < v then w y else 0 := by
    have c1 := part_integrable hfc continuous_const hwc (g := fun _ => v) φ t
    have c2 := part_integrable continuous_const hfc hwc (f := fun _ => v) s φ
    have e1 : ∀ᵐ y, y ∈ Set.uIoc φ t → -(if f y < v then w y else 0) = L y := Eventually.of_forall fun y hy => by
      rw [Set.uIoc_of_le hφ.2] at hy
      rw [hL]
      beta_reduce
      rw [if_pos hy.1.le]
    have e2 : ∀ᵐ y, y ∈ Set.uIoc s φ → (if v < f y then w y else 0) = L y := by
      refine (measure_eq_zero_iff_ae_notMem.1 (show volume ({φ} : Set ℝ) = 0 by simp)).mono fun y hy1 hy => ?_
      rw [Set.uIoc_of_le hφ.1] at hy
      have : y < φ := lt_of_le_of_ne hy.2 hy1
      rw [hL]
      beta_reduce
      rw [if_neg (not_le.2 this)]
    rw [sub_eq_add_neg, ← intervalIntegral.integral_neg, intervalIntegral.integral_congr_ae e1, intervalIntegral.integral_congr_ae e2,
      intervalIntegral.integral_add_adjacent_intervals]
    · exact c2.congr_ae ((ae_restrict_iff' measurableSet_uIoc).2 e2)
    · exact c1.neg.congr_ae ((ae_restrict_iff' measurableSet_uIoc).2 e1)
  rw [← hsplit]
  have := key.add hlast
  rw [add_zero] at this
  refine this.congr fun n => ?_
  rw [sum_range_succ]
  congr 1
  · refine sum_congr rfl fun r _ => ?_
    show σ n ((r : ℤ).toNat) * W n ((r : ℤ).toNat) * _ = _
    rw [Int.toNat_natCast]
    ring
  · ring

end Falwa

end
