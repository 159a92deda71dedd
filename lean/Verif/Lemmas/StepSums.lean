import Mathlib.MeasureTheory.Integral.DominatedConvergence
import Mathlib.MeasureTheory.Integral.IntervalIntegral.Basic
import Mathlib.MeasureTheory.Function.Floor

/-! # Sums over the cells of ever finer grids -/

noncomputable section

namespace Falwa

open Finset MeasureTheory Filter

/-- Cells of width `d` from `s` on: sums over `m` of them are integrals of a step function. -/
theorem step_sum {s d : ℝ} (hd : 0 < d) (F : ℤ → ℝ) (m : ℕ) :
    ∫ y in s..s + m * d, F (⌈(y - s) / d⌉ - 1) = ∑ j ∈ range m, F j * d := by
  have hcell : ∀ j : ℕ, ∀ y ∈ Set.Ioc (s + j * d) (s + (j + 1 : ℕ) * d), F (⌈(y - s) / d⌉ - 1) = F j := by
    intro j y hy
    have : ⌈(y - s) / d⌉ = (j : ℤ) + 1 := by
      rw [Int.ceil_eq_iff]
      push_cast
      constructor
      · rw [lt_div_iff₀ hd]
        linarith [hy.1]
      · rw [div_le_iff₀ hd]
        have := hy.2
        push_cast at this
        linarith
    rw [this, add_sub_cancel_right]
  have hle : ∀ j : ℕ, s + j * d ≤ s + (j + 1 : ℕ) * d := fun j => by push_cast; nlinarith
  have hint : ∀ j : ℕ, IntervalIntegrable (fun y => F (⌈(y - s) / d⌉ - 1)) volume (s + j * d) (s + (j + 1 : ℕ) * d) := by
    intro j
    refine (intervalIntegrable_const (c := F j)).congr fun y hy => ?_
    rw [Set.uIoc_of_le (hle j)] at hy
    exact (hcell j y hy).symm
  have key := intervalIntegral.sum_integral_adjacent_intervals (a := fun j : ℕ => s + j * d) (n := m) (μ := volume)
    (f := fun y => F (⌈(y - s) / d⌉ - 1)) fun j _ => hint j
  simp only [Nat.cast_zero, zero_mul, add_zero] at key
  rw [← key]
  refine sum_congr rfl fun j _ => ?_
  rw [intervalIntegral.integral_congr_ae (g := fun _ => F j) (Eventually.of_forall fun y hy => by
    rw [Set.uIoc_of_le (hle j)] at hy
    exact hcell j y hy), intervalIntegral.integral_const, smul_eq_mul]
  push_cast
  ring

/-- Values on cells that are bounded and have limits along almost all sequences of cells: the sums tend to the integral. -/
theorem step_limit {s t : ℝ} (hst : s < t) {m : ℕ → ℕ} (hm : Tendsto m atTop atTop) {F : ℕ → ℤ → ℝ} {L : ℝ → ℝ} {M : ℝ}
    (hM : ∀ᶠ n in atTop, ∀ j : ℤ, 0 ≤ j → j < m n → |F n j| ≤ M) {N : Set ℝ} (hN : volume N = 0)
    (hF : ∀ y ∈ Set.Ioo s t, y ∉ N → ∀ j : ℕ → ℤ, (∀ᶠ n in atTop, 0 ≤ j n ∧ j n < m n) →
      Tendsto (fun n => s + j n * ((t - s) / m n)) atTop (nhds y) → Tendsto (fun n => F n (j n)) atTop (nhds (L y))) :
    Tendsto (fun n => ∑ j ∈ range (m n), F n j * ((t - s) / m n)) atTop (nhds (∫ y in s..t, L y)) := by
  have hts : 0 < t - s := sub_pos.2 hst
  have hm1 : ∀ᶠ n in atTop, 0 < m n := hm.eventually_gt_atTop 0
  have hcell : ∀ n, 0 < m n → ∀ y ∈ Set.Ioc s t, 0 ≤ ⌈(y - s) / ((t - s) / m n)⌉ - 1 ∧ ⌈(y - s) / ((t - s) / m n)⌉ - 1 < m n := by
    intro n hn y hy
    have hn' : (0 : ℝ) < m n := by exact_mod_cast hn
    have hd : 0 < (t - s) / m n := by positivity
    have h1 : 0 < ⌈(y - s) / ((t - s) / m n)⌉ := Int.ceil_pos.2 (div_pos (by linarith [hy.1]) hd)
    have h2 : ⌈(y - s) / ((t - s) / m n)⌉ ≤ (m n : ℤ) := by
      rw [Int.ceil_le, div_le_iff₀ hd]
      push_cast
      rw [mul_div_cancel₀ _ hn'.ne']
      linarith [hy.2]
    omega
  have key : Tendsto (fun n => ∫ y in s..t, F n (⌈(y - s) / ((t - s) / m n)⌉ - 1)) atTop (nhds (∫ y in s..t, L y)) := by
    refine intervalIntegral.tendsto_integral_filter_of_dominated_convergence (fun _ => M) (Eventually.of_forall fun n => ?_) ?_
      intervalIntegrable_const ?_
    · refine Measurable.aestronglyMeasurable ?_
      exact (measurable_from_top (f := fun j : ℤ => F n (j - 1))).comp (Int.measurable_ceil.comp (by fun_prop : Measurable fun y : ℝ => (y - s) / ((t - s) / m n)))
    · filter_upwards [hM, hm1] with n hn h1
      refine Eventually.of_forall fun y hy => ?_
      rw [Set.uIoc_of_le hst.le] at hy
      obtain ⟨c1, c2⟩ := hcell n h1 y hy
      rw [Real.norm_eq_abs]
      exact hn _ c1 c2
    · have h0 : volume (N ∪ {t}) = 0 := measure_union_null hN (by simp)
      refine (measure_eq_zero_iff_ae_notMem.1 h0).mono fun y hyN hy => ?_
      rw [Set.uIoc_of_le hst.le] at hy
      simp only [Set.mem_union, Set.mem_singleton_iff, not_or] at hyN
      refine hF y ⟨hy.1, lt_of_le_of_ne hy.2 hyN.2⟩ hyN.1 _ (hm1.mono fun n h1 => hcell n h1 y hy) ?_
      have hd0 : Tendsto (fun n => (t - s) / (m n : ℝ)) atTop (nhds 0) :=
        tendsto_const_nhds.div_atTop (tendsto_natCast_atTop_atTop.comp hm)
      have hlow : Tendsto (fun n => y - (t - s) / (m n : ℝ)) atTop (nhds y) := by
        have := (tendsto_const_nhds (x := y)).sub hd0
        rwa [sub_zero] at this
      refine tendsto_of_tendsto_of_tendsto_of_le_of_le' hlow tendsto_const_nhds ?_ ?_
      · filter_upwards [hm1] with n h1
        have hn' : (0 : ℝ) < m n := by exact_mod_cast h1
        have hd : 0 < (t - s) / m n := by positivity
        have h3 := Int.le_ceil ((y - s) / ((t - s) / m n))
        rw [div_le_iff₀ hd] at h3
        push_cast
        linarith
      · filter_upwards [hm1] with n h1
        have hn' : (0 : ℝ) < m n := by exact_mod_cast h1
        have hd : 0 < (t - s) / m n := by positivity
        have h3 := Int.ceil_lt_add_one ((y - s) / ((t - s) / m n))
        have h4 : (⌈(y - s) / ((t - s) / m n)⌉ : ℝ) - 1 < (y - s) / ((t - s) / m n) := by linarith
        rw [lt_div_iff₀ hd] at h4
        push_cast
        linarith
  refine key.congr' ?_
  filter_upwards [hm1] with n h1
  have hn' : (0 : ℝ) < m n := by exact_mod_cast h1
  have hd : 0 < (t - s) / m n := by positivity
  have := step_sum (s := s) hd (F n) (m n)
  rw [mul_div_cancel₀ _ hn'.ne', add_sub_cancel] at this
  exact this

end Falwa
