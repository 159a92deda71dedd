import Verif.Lemmas.StepSums
import Verif.Props.Continuum

/-! # Sums over displaced rows tend to integrals over displaced latitudes -/

noncomputable section

namespace Falwa

open Finset Spec MeasureTheory Filter

/-- Values that tend to `f` on rows that tend to a latitude between `s` and `t`, and are bounded. -/
structure RowLimit (s t : ℝ) (m : ℕ → ℕ) (F : ℕ → ℕ → ℝ) (f : ℝ → ℝ) : Prop where
  continuous : Continuous f
  bound : ∃ M, ∀ᶠ n in atTop, ∀ r, r ≤ m n → |F n r| ≤ M
  limit : ∀ y ∈ Set.Ioo s t, ∀ r : ℕ → ℕ, (∀ᶠ n in atTop, r n ≤ m n) →
    Tendsto (fun n => s + r n * ((t - s) / m n)) atTop (nhds y) → Tendsto (fun n => F n (r n)) atTop (nhds (f y))

/-- Sums of positive parts over rows with a change of sign at the row `j`. -/
theorem parts_limit {s t φ v : ℝ} (hst : s < t) (hφ : φ ∈ Set.Icc s t) {m j : ℕ → ℕ} (hm : Tendsto m atTop atTop)
    {q W : ℕ → ℕ → ℝ} {Q : ℕ → ℝ} {f w : ℝ → ℝ} (hq : RowLimit s t m q f) (hW : RowLimit s t m W w) (hQ : Tendsto Q atTop (nhds v))
    (hj : Tendsto (fun n => s + j n * ((t - s) / m n)) atTop (nhds φ)) {P : ℕ → ℕ → Prop} [∀ n r, Decidable (P n r)]
    (hP : ∀ n r, (j n < r → P n r) ∧ (r < j n → ¬ P n r)) :
    Tendsto (fun n => ∑ r ∈ range (m n + 1), (if P n r then max (Q n - q n r) 0 else max (q n r - Q n) 0) * (W n r * ((t - s) / m n)))
      atTop (nhds ((∫ y in φ..t, max (v - f y) 0 * w y) + ∫ y in s..φ, max (f y - v) 0 * w y)) := by
  obtain ⟨M, hM⟩ := hq.bound
  obtain ⟨B, hB⟩ := hW.bound
  have hfc := hq.continuous
  have hwc := hW.continuous
  have hm1 : ∀ᶠ n in atTop, 0 < m n := hm.eventually_gt_atTop 0
  have hd0 : Tendsto (fun n => (t - s) / (m n : ℝ)) atTop (nhds 0) := tendsto_const_nhds.div_atTop (tendsto_natCast_atTop_atTop.comp hm)
  have hQ1 : ∀ᶠ n in atTop, |Q n| ≤ |v| + 1 := by
    have := hQ.abs.eventually (gt_mem_nhds (lt_add_one |v|))
    exact this.mono fun n h => h.le
  set D : ℕ → ℕ → ℝ := fun n r => (if P n r then max (Q n - q n r) 0 else max (q n r - Q n) 0) * W n r with hD
  have hDb : ∀ᶠ n in atTop, ∀ r, r ≤ m n → |D n r| ≤ (M + (|v| + 1)) * B := by
    filter_upwards [hM, hB, hQ1] with n h1 h2 h3 r hr
    have hx : |if P n r then max (Q n - q n r) 0 else max (q n r - Q n) 0| ≤ M + (|v| + 1) := by
      have h4 := h1 r hr
      have a1 := abs_le.1 h4
      have a2 := abs_le.1 h3
      have h0 := abs_nonneg v
      have h5 := abs_nonneg (q n r)
      split_ifs
      · rw [abs_of_nonneg (le_max_right _ _)]
        exact max_le (by linarith) (by linarith)
      · rw [abs_of_nonneg (le_max_right _ _)]
        exact max_le (by linarith) (by linarith)
    rw [hD, abs_mul]
    exact mul_le_mul hx (h2 r hr) (abs_nonneg _) ((abs_nonneg _).trans hx)
  set L : ℝ → ℝ := fun y => (if φ ≤ y then max (v - f y) 0 else max (f y - v) 0) * w y with hL
  have key := step_limit hst hm (F := fun n i => D n i.toNat) (L := L) (M := (M + (|v| + 1)) * B) (N := {φ})
    (hDb.mono fun n h i i0 i1 => h _ (by omega)) (by simp) fun y hy hyφ i hi hiy => by
      have hr : ∀ᶠ n in atTop, (i n).toNat ≤ m n := hi.mono fun n h => by omega
      have hpos : Tendsto (fun n => s + ((i n).toNat : ℝ) * ((t - s) / m n)) atTop (nhds y) := by
        refine hiy.congr' (hi.mono fun n h => ?_)
        have : (((i n).toNat : ℤ) : ℝ) = i n := by rw [Int.toNat_of_nonneg h.1]
        rw [← this]
        push_cast
        rfl
      have h1 := hq.limit y hy _ hr hpos
      have h2 := hW.limit y hy _ hr hpos
      have hyne : y ≠ φ := hyφ
      have hgap := hpos.sub hj
      rcases lt_or_gt_of_ne hyne with hlt | hlt
      · have e : L y = max (f y - v) 0 * w y := by rw [hL]; beta_reduce; rw [if_neg (not_le.2 hlt)]
        rw [e]
        refine (((h1.sub hQ).max tendsto_const_nhds).mul h2).congr' ?_
        filter_upwards [hgap.eventually (gt_mem_nhds (show y - φ < 0 by linarith)), hm1] with n hn h1
        have hn' : (0 : ℝ) < m n := by exact_mod_cast h1
        have hd : 0 < (t - s) / m n := div_pos (sub_pos.2 hst) hn'
        have hlt' : (i n).toNat < j n := by
          by_contra hc
          have : (j n : ℝ) ≤ (i n).toNat := by exact_mod_cast (not_lt.1 hc)
          nlinarith
        rw [hD]
        beta_reduce
        rw [if_neg ((hP n _).2 hlt')]
      · have e : L y = max (v - f y) 0 * w y := by rw [hL]; beta_reduce; rw [if_pos hlt.le]
        rw [e]
        refine (((hQ.sub h1).max tendsto_const_nhds).mul h2).congr' ?_
        filter_upwards [hgap.eventually (lt_mem_nhds (show 0 < y - φ by linarith)), hm1] with n hn h1
        have hn' : (0 : ℝ) < m n := by exact_mod_cast h1
        have hd : 0 < (t - s) / m n := div_pos (sub_pos.2 hst) hn'
        have hlt' : j n < (i n).toNat := by
          by_contra hc
          have : ((i n).toNat : ℝ) ≤ j n := by exact_mod_cast (not_lt.1 hc)
          nlinarith
        rw [hD]
        beta_reduce
        rw [if_pos ((hP n _).1 hlt')]
  have hlast : Tendsto (fun n => D n (m n) * ((t - s) / m n)) atTop (nhds 0) := by
    have hz : Tendsto (fun n => (M + (|v| + 1)) * B * |(t - s) / (m n : ℝ)|) atTop (nhds 0) := by
      have := hd0.abs.const_mul ((M + (|v| + 1)) * B)
      rwa [abs_zero, mul_zero] at this
    refine squeeze_zero_norm' (hDb.mono fun n h => ?_) hz
    rw [Real.norm_eq_abs, abs_mul]
    exact mul_le_mul_of_nonneg_right (h _ le_rfl) (abs_nonneg _)
  have hsplit : ∫ y in s..t, L y = (∫ y in φ..t, max (v - f y) 0 * w y) + ∫ y in s..φ, max (f y - v) 0 * w y := by
    have c1 : Continuous fun y => max (v - f y) 0 * w y := by fun_prop
    have c2 : Continuous fun y => max (f y - v) 0 * w y := by fun_prop
    have e1 : ∀ᵐ y, y ∈ Set.uIoc φ t → max (v - f y) 0 * w y = L y := Eventually.of_forall fun y hy => by
      rw [Set.uIoc_of_le hφ.2] at hy
      rw [hL]
      beta_reduce
      rw [if_pos hy.1.le]
    have e2 : ∀ᵐ y, y ∈ Set.uIoc s φ → max (f y - v) 0 * w y = L y := by
      refine (measure_eq_zero_iff_ae_notMem.1 (show volume ({φ} : Set ℝ) = 0 by simp)).mono fun y hy1 hy => ?_
      rw [Set.uIoc_of_le hφ.1] at hy
      have : y < φ := lt_of_le_of_ne hy.2 hy1
      rw [hL]
      beta_reduce
      rw [if_neg (not_le.2 this)]
    rw [intervalIntegral.integral_congr_ae e1, intervalIntegral.integral_congr_ae e2, add_comm, intervalIntegral.integral_add_adjacent_intervals]
    · exact (c2.intervalIntegrable s φ).congr_ae ((ae_restrict_iff' measurableSet_uIoc).2 e2)
    · exact (c1.intervalIntegrable φ t).congr_ae ((ae_restrict_iff' measurableSet_uIoc).2 e1)
  rw [← hsplit]
  have := key.add hlast
  rw [add_zero] at this
  refine this.congr fun n => ?_
  rw [sum_range_succ]
  congr 1
  · refine sum_congr rfl fun r _ => ?_
    show D n ((r : ℤ).toNat) * _ = _
    rw [Int.toNat_natCast, hD]
    ring
  · rw [hD]
    ring

/-- Displaced rows of the Northern Hemisphere. -/
theorem north_rows_limit {s t φ v : ℝ} (hst : s < t) (hφ : φ ∈ Set.Icc s t) {m j : ℕ → ℕ} (hm : Tendsto m atTop atTop) {b : ℕ → ℤ}
    {q W : ℕ → ℤ → ℝ} {Q : ℕ → ℝ} {f w : ℝ → ℝ} (hq : RowLimit s t m (fun n r => q n (b n + r)) f)
    (hW : RowLimit s t m (fun n r => W n (b n + r)) w) (hQ : Tendsto Q atTop (nhds v))
    (hj : Tendsto (fun n => s + j n * ((t - s) / m n)) atTop (nhds φ)) :
    Tendsto (fun n => waveActivityNorth (Icc (b n) (b n + m n)) (q n) (Q n) (fun r => W n r * ((t - s) / m n)) (b n + j n))
      atTop (nhds ((∫ y in φ..t, max (v - f y) 0 * w y) + ∫ y in s..φ, max (f y - v) 0 * w y)) := by
  refine (parts_limit hst hφ hm hq hW hQ hj (P := fun n r => j n ≤ r) fun n r => ⟨fun h => h.le, fun h => by omega⟩).congr fun n => ?_
  rw [QGAnalysis.displacedNorth_sum]

/-- Displaced rows of the Southern Hemisphere. -/
theorem south_rows_limit {s t φ v : ℝ} (hst : s < t) (hφ : φ ∈ Set.Icc s t) {m j : ℕ → ℕ} (hm : Tendsto m atTop atTop) {b : ℕ → ℤ}
    {q W : ℕ → ℤ → ℝ} {Q : ℕ → ℝ} {f w : ℝ → ℝ} (hq : RowLimit s t m (fun n r => q n (b n + r)) f)
    (hW : RowLimit s t m (fun n r => W n (b n + r)) w) (hQ : Tendsto Q atTop (nhds v))
    (hj : Tendsto (fun n => s + j n * ((t - s) / m n)) atTop (nhds φ)) :
    Tendsto (fun n => waveActivitySouth (Icc (b n) (b n + m n)) (q n) (Q n) (fun r => W n r * ((t - s) / m n)) (b n + j n))
      atTop (nhds ((∫ y in φ..t, max (v - f y) 0 * w y) + ∫ y in s..φ, max (f y - v) 0 * w y)) := by
  refine (parts_limit hst hφ hm hq hW hQ hj (P := fun n r => j n < r) fun n r => ⟨fun h => h, fun h => by omega⟩).congr fun n => ?_
  rw [QGAnalysis.displacedSouth_sum]

end Falwa
