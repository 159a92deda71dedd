import Verif.Props.Xarray
import Mathlib.MeasureTheory.Integral.IntervalIntegral.Basic
import Mathlib.Topology.UniformSpace.HeineCantor

/-!
# `integrate_budget` on ever finer time axes

Used for C200.
-/

noncomputable section

namespace Falwa.Xr

open MeasureTheory Filter Finset

/-- Times that rise from `T1` to `T2` in steps of at most `η`. -/
structure TimeAxis (n : ℕ) (τ : ℕ → ℝ) (T1 T2 η : ℝ) : Prop where
  some : 1 ≤ n
  rises : ∀ k, k + 1 < n → τ k < τ (k + 1)
  first : τ 0 = T1
  last : τ (n - 1) = T2
  fine : ∀ k, k + 1 < n → τ (k + 1) - τ k ≤ η

variable {n : ℕ} {τ : ℕ → ℝ} {T1 T2 η : ℝ}

theorem TimeAxis.lt (h : TimeAxis n τ T1 T2 η) {i j : ℕ} (hij : i < j) (hj : j < n) : τ i < τ j := by
  induction j, hij using Nat.le_induction with
  | base => exact h.rises i hj
  | succ j hij ih => exact (ih (by omega)).trans (h.rises j hj)

theorem TimeAxis.distinct (h : TimeAxis n τ T1 T2 η) : DistinctTimes n τ := fun i j hi hj e => by
  rcases lt_trichotomy i j with hl | hl | hl
  · exact absurd e (h.lt hl hj).ne
  · exact hl
  · exact absurd e (h.lt hl hi).ne'

theorem TimeAxis.mem (h : TimeAxis n τ T1 T2 η) {k : ℕ} (hk : k < n) : τ k ∈ Set.Icc T1 T2 := by
  constructor
  · rw [← h.first]
    rcases Nat.eq_zero_or_pos k with h0 | h0
    · rw [h0]
    · exact (h.lt h0 hk).le
  · rw [← h.last]
    rcases (by omega : k = n - 1 ∨ k < n - 1) with h0 | h0
    · rw [h0]
    · exact (h.lt h0 (by omega)).le

theorem TimeAxis.mono (h : TimeAxis n τ T1 T2 η) {ζ : ℝ} (hζ : η ≤ ζ) : TimeAxis n τ T1 T2 ζ :=
  ⟨h.some, h.rises, h.first, h.last, fun k hk => (h.fine k hk).trans hζ⟩

/-- The trapezoidal rule tends to the integral, uniformly over all time axes. -/
theorem trapezoid_tends {f : ℝ → ℝ} (hf : Continuous f) (T1 T2 : ℝ) {δ : ℝ} (hδ : 0 < δ) :
    ∃ η, 0 < η ∧ ∀ n τ, TimeAxis n τ T1 T2 η → |integrate n τ (fun k => f (τ k)) - ∫ t in T1..T2, f t| ≤ δ := by
  have hu := (isCompact_Icc (a := T1) (b := T2)).uniformContinuousOn_of_continuous hf.continuousOn
  rw [Metric.uniformContinuousOn_iff] at hu
  have hd : 0 < |T2 - T1| + 1 := by positivity
  obtain ⟨η, hη, hun⟩ := hu (δ / (|T2 - T1| + 1)) (by positivity)
  refine ⟨η / 2, by positivity, fun n τ h => ?_⟩
  have e1 : (∫ t in T1..T2, f t) = ∑ i ∈ range (n - 1), ∫ t in τ i..τ (i + 1), f t := by
    rw [intervalIntegral.sum_integral_adjacent_intervals fun k _ => hf.intervalIntegrable _ _, h.first, h.last]
  unfold integrate
  rw [e1, ← sum_sub_distrib]
  have hstep : ∀ i ∈ range (n - 1), |(τ (i + 1) - τ i) * (0.5 * (f (τ (i + 1)) + f (τ i))) - ∫ t in τ i..τ (i + 1), f t| ≤
      δ / (|T2 - T1| + 1) * (τ (i + 1) - τ i) := fun i hi => by
    have hi' : i + 1 < n := by have := mem_range.1 hi; omega
    have hlt := h.rises i hi'
    have hfine := h.fine i hi'
    have m1 := h.mem (by omega : i < n)
    have m2 := h.mem hi'
    have e2 : (τ (i + 1) - τ i) * (0.5 * (f (τ (i + 1)) + f (τ i))) - (∫ t in τ i..τ (i + 1), f t) =
        ∫ t in τ i..τ (i + 1), (0.5 * (f (τ (i + 1)) + f (τ i)) - f t) := by
      rw [intervalIntegral.integral_sub intervalIntegrable_const (hf.intervalIntegrable _ _), intervalIntegral.integral_const, smul_eq_mul]
    rw [e2, ← abs_of_pos (sub_pos.2 hlt), ← Real.norm_eq_abs]
    refine intervalIntegral.norm_integral_le_of_norm_le_const fun t ht => ?_
    rw [Set.uIoc_of_le hlt.le] at ht
    have mt : t ∈ Set.Icc T1 T2 := ⟨m1.1.trans ht.1.le, ht.2.trans m2.2⟩
    have d1 := hun _ m1 _ mt (by rw [Real.dist_eq, abs_lt]; constructor <;> linarith [ht.1, ht.2])
    have d2 := hun _ m2 _ mt (by rw [Real.dist_eq, abs_lt]; constructor <;> linarith [ht.1, ht.2])
    rw [Real.dist_eq, abs_lt] at d1 d2
    rw [Real.norm_eq_abs, abs_le]
    constructor <;> linarith [d1.1, d1.2, d2.1, d2.2]
  refine (abs_sum_le_sum_abs _ _).trans ((sum_le_sum hstep).trans ?_)
  rw [← mul_sum, sum_range_sub, h.first, h.last, div_mul_eq_mul_div, div_le_iff₀ hd]
  exact mul_le_mul_of_nonneg_left ((le_abs_self _).trans (by linarith)) hδ.le

/-- Sums over columns commute with the time integral. -/
theorem integrate_columns (s : Finset ℤ) (n : ℕ) (τ : ℕ → ℝ) (y : ℕ → ℤ → ℝ) (w : ℝ) :
    ∑ i ∈ s, integrate n τ (fun k => y k i) * w = integrate n τ fun k => ∑ i ∈ s, y k i * w := by
  unfold integrate
  simp only [sum_mul]
  rw [sum_comm]
  refine sum_congr rfl fun k _ => ?_
  rw [← sum_add_distrib, mul_sum, mul_sum]
  refine sum_congr rfl fun i _ => ?_
  ring

theorem integrate_limit {y : ℕ → ℕ → ℝ} {Y : ℕ → ℝ} (h : ∀ k < n, Tendsto (y k) atTop (nhds (Y k))) :
    Tendsto (fun N => integrate n τ fun k => y k N) atTop (nhds (integrate n τ Y)) := by
  unfold integrate
  refine tendsto_finsetSum _ fun i hi => ?_
  have := mem_range.1 hi
  exact (((h (i + 1) (by omega)).add (h i (by omega))).const_mul _).const_mul _

/-- The terms of `integrate_budget` near given numbers. -/
structure Budget.Near (b : Budget) (δ w x p g r : ℝ) : Prop where
  change : |b.deltaLwa - w| ≤ δ
  zonal : |b.czaf - x| ≤ δ
  momentum : |b.demf - p| ≤ δ
  heat : |b.mhf - g| ≤ δ
  residual : |b.residual - r| ≤ δ

/-- Terms that tend to continuous functions of time when the grid is refined: the integrated budget tends to that of these functions when first the grid
and then the time axis is refined. -/
theorem budget_tends {W X P G : ℝ → ℝ} (hX : Continuous X) (hP : Continuous P) (hG : Continuous G) (T1 T2 : ℝ) {δ : ℝ} (hδ : 0 < δ) :
    ∃ η, 0 < η ∧ ∀ n τ, TimeAxis n τ T1 T2 η → ∀ w x p g : ℕ → ℕ → ℝ, (∀ k < n, Tendsto (w k) atTop (nhds (W (τ k)))) →
      (∀ k < n, Tendsto (x k) atTop (nhds (X (τ k)))) → (∀ k < n, Tendsto (p k) atTop (nhds (P (τ k)))) →
      (∀ k < n, Tendsto (g k) atTop (nhds (G (τ k)))) →
      ∀ᶠ N in atTop, (integrateBudget n τ (fun k => w k N) (fun k => x k N) (fun k => p k N) fun k => g k N).Near δ (W T2 - W T1)
        (∫ t in T1..T2, X t) (∫ t in T1..T2, P t) (∫ t in T1..T2, G t)
        (W T2 - W T1 - (∫ t in T1..T2, X t) - (∫ t in T1..T2, P t) - ∫ t in T1..T2, G t) := by
  have h8 : 0 < δ / 8 := by positivity
  obtain ⟨η1, p1, q1⟩ := trapezoid_tends hX T1 T2 h8
  obtain ⟨η2, p2, q2⟩ := trapezoid_tends hP T1 T2 h8
  obtain ⟨η3, p3, q3⟩ := trapezoid_tends hG T1 T2 h8
  refine ⟨min η1 (min η2 η3), lt_min p1 (lt_min p2 p3), fun n τ h w x p g hw hx hp hg => ?_⟩
  have r1 := q1 n τ (h.mono (min_le_left _ _))
  have r2 := q2 n τ (h.mono ((min_le_right _ _).trans (min_le_left _ _)))
  have r3 := q3 n τ (h.mono ((min_le_right _ _).trans (min_le_right _ _)))
  have l1 := integrate_limit (τ := τ) hx
  have l2 := integrate_limit (τ := τ) hp
  have l3 := integrate_limit (τ := τ) hg
  have hn := h.some
  have l4 := (hw (n - 1) (by omega)).sub (hw 0 (by omega))
  rw [h.first, h.last] at l4
  have near : ∀ {u : ℕ → ℝ} {c : ℝ}, Tendsto u atTop (nhds c) → ∀ᶠ N in atTop, |u N - c| < δ / 8 := fun {u c} hu => by
    have := Metric.tendsto_nhds.1 hu (δ / 8) h8
    exact this.mono fun N hN => by rwa [Real.dist_eq] at hN
  filter_upwards [near l1, near l2, near l3, near l4] with N m1 m2 m3 m4
  have ed : (integrateBudget n τ (fun k => w k N) (fun k => x k N) (fun k => p k N) fun k => g k N).deltaLwa = w (n - 1) N - w 0 N := by
    show selTime n τ (fun k => w k N) (τ (n - 1)) - selTime n τ (fun k => w k N) (τ 0) = _
    rw [selTime_eq h.distinct (by omega), selTime_eq h.distinct (by omega)]
  have er : (integrateBudget n τ (fun k => w k N) (fun k => x k N) (fun k => p k N) fun k => g k N).residual =
      (w (n - 1) N - w 0 N) - integrate n τ (fun k => x k N) - integrate n τ (fun k => p k N) - integrate n τ (fun k => g k N) := by
    rw [← ed]
    rfl
  rw [abs_le] at r1 r2 r3
  rw [abs_lt] at m1 m2 m3 m4
  refine ⟨?_, ?_, ?_, ?_, ?_⟩
  · rw [ed, abs_le]
    constructor <;> linarith [m4.1, m4.2]
  · show |integrate n τ (fun k => x k N) - _| ≤ δ
    rw [abs_le]
    constructor <;> linarith [m1.1, m1.2, r1.1, r1.2]
  · show |integrate n τ (fun k => p k N) - _| ≤ δ
    rw [abs_le]
    constructor <;> linarith [m2.1, m2.2, r2.1, r2.2]
  · show |integrate n τ (fun k => g k N) - _| ≤ δ
    rw [abs_le]
    constructor <;> linarith [m3.1, m3.2, r3.1, r3.2]
  · rw [er, abs_le]
    constructor <;> linarith [m1.1, m1.2, r1.1, r1.2, m2.1, m2.2, r2.1, r2.2, m3.1, m3.2, r3.1, r3.2, m4.1, m4.2]

end Falwa.Xr
