import Mathlib.Topology.Algebra.Module.FiniteDimension
import Mathlib.Topology.Algebra.InfiniteSum.Real
import Mathlib.Analysis.Real.Sqrt
import Mathlib.LinearAlgebra.FiniteDimensional.Basic
import Mathlib.Tactic.Linarith
import Mathlib.Tactic.FieldSimp

/-!
# Relaxation of a symmetric system in two colours

General facts about the iteration `x_p := x_p - ω (B x)_p / B_pp` over the points of one colour at a time.
-/

noncomputable section

namespace Falwa.Relaxation

open Finset Filter Topology

variable {ι : Type*} [Fintype ι] (B : ι → ι → ℝ)

/-- Matrix times vector. -/
def app (x : ι → ℝ) (p : ι) : ℝ := ∑ q, B p q * x q

/-- The quadratic form. -/
def energy (x : ι → ℝ) : ℝ := ∑ p, x p * app B x p

/-- One sweep over the points in `act`. -/
def step (act : ι → Prop) [DecidablePred act] (om : ℝ) (x : ι → ℝ) (p : ι) : ℝ :=
  if act p then x p - om * app B x p / B p p else x p

/-- Sum of the squared residuals of the points in `act`, divided by the diagonal. -/
def res (act : ι → Prop) [DecidablePred act] (x : ι → ℝ) : ℝ := ∑ p, if act p then app B x p ^ 2 / B p p else 0

variable {B}

theorem app_add (x y : ι → ℝ) (p : ι) : app B (fun q => x q + y q) p = app B x p + app B y p := by
  unfold app
  rw [← sum_add_distrib]
  exact sum_congr rfl fun q _ => mul_add _ _ _

theorem app_symm (hs : ∀ p q, B p q = B q p) (x y : ι → ℝ) : ∑ p, x p * app B y p = ∑ p, y p * app B x p := by
  unfold app
  simp only [mul_sum]
  rw [sum_comm]
  refine sum_congr rfl fun p _ => sum_congr rfl fun q _ => ?_
  rw [hs q p]
  ring

/-- A sweep lowers the energy by `ω (2 - ω)` times the squared residuals. -/
theorem energy_step (hs : ∀ p q, B p q = B q p) (hd : ∀ p, 0 < B p p) (act : ι → Prop) [DecidablePred act]
    (hact : ∀ p q, act p → act q → p ≠ q → B p q = 0) (om : ℝ) (x : ι → ℝ) :
    energy B (step B act om x) = energy B x - om * (2 - om) * res B act x := by
  set d : ι → ℝ := fun p => if act p then -(om * app B x p / B p p) else 0 with hdd
  have e : step B act om x = fun p => x p + d p := by
    funext p
    simp only [step, hdd]
    split_ifs <;> ring
  have happ : ∀ p, act p → app B d p = B p p * d p := by
    intro p hp
    unfold app
    refine sum_eq_single p (fun q _ hq => ?_) (fun h => absurd (mem_univ p) h)
    by_cases hq' : act q
    · rw [hact p q hp hq' (Ne.symm hq), zero_mul]
    · simp only [hdd, if_neg hq', mul_zero]
  have e1 : energy B (fun p => x p + d p) = energy B x + 2 * ∑ p, d p * app B x p + ∑ p, d p * app B d p := by
    unfold energy
    simp only [app_add, add_mul, mul_add, sum_add_distrib]
    rw [app_symm hs x d]
    ring
  rw [e, e1]
  unfold res
  rw [mul_sum, mul_sum, add_assoc, ← sum_add_distrib, sub_eq_add_neg, ← sum_neg_distrib]
  congr 1
  refine sum_congr rfl fun p _ => ?_
  by_cases hp : act p
  · rw [happ p hp]
    simp only [hdd, if_pos hp]
    have := (hd p).ne'
    field_simp
    ring
  · simp only [hdd, if_neg hp]
    ring

/-- A symmetric matrix with non-positive entries off the diagonal and non-negative row sums has a non-negative form. -/
theorem energy_nonneg (hs : ∀ p q, B p q = B q p) (hoff : ∀ p q, p ≠ q → B p q ≤ 0) (hrow : ∀ p, 0 ≤ ∑ q, B p q)
    (x : ι → ℝ) : 0 ≤ energy B x := by
  have h1 : ∑ p, ∑ q, -B p q * (x p - x q) ^ 2 = 2 * energy B x - 2 * ∑ p, x p ^ 2 * ∑ q, B p q := by
    have a : ∑ p, ∑ q, -B p q * (x p - x q) ^ 2 =
        2 * energy B x - ∑ p, x p ^ 2 * ∑ q, B p q - ∑ p, ∑ q, B p q * x q ^ 2 := by
      unfold energy app
      simp only [mul_sum]
      rw [← sum_sub_distrib, ← sum_sub_distrib]
      refine sum_congr rfl fun p _ => ?_
      rw [← sum_sub_distrib, ← sum_sub_distrib]
      exact sum_congr rfl fun q _ => by ring
    have b : ∑ p, ∑ q, B p q * x q ^ 2 = ∑ p, x p ^ 2 * ∑ q, B p q := by
      rw [sum_comm]
      simp only [mul_sum]
      refine sum_congr rfl fun p _ => sum_congr rfl fun q _ => ?_
      rw [hs q p, mul_comm]
    rw [a, b]
    ring
  have h2 : 0 ≤ ∑ p, ∑ q, -B p q * (x p - x q) ^ 2 := by
    refine sum_nonneg fun p _ => sum_nonneg fun q _ => ?_
    by_cases h : p = q
    · rw [h, sub_self]; simp
    · exact mul_nonneg (neg_nonneg.2 (hoff p q h)) (sq_nonneg _)
  have h3 : 0 ≤ ∑ p, x p ^ 2 * ∑ q, B p q := sum_nonneg fun p _ => mul_nonneg (sq_nonneg _) (hrow p)
  linarith

section Sequence

variable (hs : ∀ p q, B p q = B q p) (hd : ∀ p, 0 < B p p) (hE : ∀ x, 0 ≤ energy B x)
  {act : ℕ → ι → Prop} [∀ n, DecidablePred (act n)]
  (hact : ∀ n p q, act n p → act n q → p ≠ q → B p q = 0)
  {om : ℕ → ℝ} {δ : ℝ} (hδ : 0 < δ) (hom : ∀ n, δ ≤ om n * (2 - om n))
  {x : ℕ → ι → ℝ} (hx : ∀ n, x (n + 1) = step B (act n) (om n) (x n))
include hs hd hE hact hδ hom hx

/-- The squared residuals of the sweeps tend to zero. -/
theorem res_tendsto : Tendsto (fun n => res B (act n) (x n)) atTop (𝓝 0) := by
  have hr : ∀ n, 0 ≤ res B (act n) (x n) := fun n => sum_nonneg fun p _ => by
    split_ifs
    · exact div_nonneg (sq_nonneg _) (hd p).le
    · exact le_rfl
  have htel : ∀ n, δ * ∑ i ∈ range n, res B (act i) (x i) ≤ energy B (x 0) - energy B (x n) := by
    intro n
    induction n with
    | zero => simp
    | succ n ih =>
      rw [sum_range_succ, mul_add, hx n, energy_step hs hd (act n) (hact n)]
      have := mul_le_mul_of_nonneg_right (hom n) (hr n)
      linarith
  have hsum : Summable (fun n => res B (act n) (x n)) := by
    refine summable_of_sum_range_le (c := energy B (x 0) / δ) hr fun n => ?_
    rw [le_div_iff₀ hδ, mul_comm]
    have := htel n
    have := hE (x n)
    linarith
  exact hsum.tendsto_atTop_zero

/-- The residual of a point, in the sweeps that treat the point, tends to zero. -/
theorem active_tendsto (p : ι) : Tendsto (fun n => if act n p then app B (x n) p else 0) atTop (𝓝 0) := by
  have h := res_tendsto hs hd hE hact hδ hom hx
  have hsq : Tendsto (fun n => (if act n p then app B (x n) p else 0) ^ 2) atTop (𝓝 0) := by
    have hB : Tendsto (fun n => B p p * res B (act n) (x n)) atTop (𝓝 0) := by
      have := h.const_mul (B p p)
      rwa [mul_zero] at this
    refine squeeze_zero (fun n => sq_nonneg _) (fun n => ?_) hB
    have hle : (if act n p then app B (x n) p ^ 2 / B p p else 0) ≤ res B (act n) (x n) :=
      single_le_sum (f := fun p => if act n p then app B (x n) p ^ 2 / B p p else 0)
        (fun q _ => by
          split_ifs
          · exact div_nonneg (sq_nonneg _) (hd q).le
          · exact le_rfl) (mem_univ p)
    have hm := mul_le_mul_of_nonneg_left hle (hd p).le
    refine le_trans (le_of_eq ?_) hm
    split_ifs
    · rw [mul_div_cancel₀ _ (hd p).ne']
    · simp
  have habs := (Real.continuous_sqrt.tendsto 0).comp hsq
  rw [Real.sqrt_zero] at habs
  refine (tendsto_zero_iff_abs_tendsto_zero _).2 (habs.congr fun n => ?_)
  simp only [Function.comp]
  rw [Real.sqrt_sq_eq_abs]

variable (hB : ∃ W, ∀ n, |om n| ≤ W) (halt : ∀ n p, act n p ∨ act (n + 1) p)
  (hinj : ∀ y : ι → ℝ, (∀ p, app B y p = 0) → y = 0)
include hB halt

/-- If every point is treated in one of two successive sweeps, all residuals tend to zero. -/
theorem app_tendsto (p : ι) : Tendsto (fun n => app B (x n) p) atTop (𝓝 0) := by
  obtain ⟨W, hW⟩ := hB
  have ha := active_tendsto hs hd hE hact hδ hom hx
  have hinc : ∀ q, Tendsto (fun n => x (n + 1) q - x n q) atTop (𝓝 0) := by
    intro q
    have h := ((ha q).abs).const_mul (W / B q q)
    rw [abs_zero, mul_zero] at h
    refine squeeze_zero_norm (fun n => ?_) h
    rw [hx n]
    unfold step
    by_cases hq : act n q
    · rw [if_pos hq, if_pos hq, Real.norm_eq_abs, show x n q - om n * app B (x n) q / B q q - x n q =
        -(om n * app B (x n) q / B q q) by ring, abs_neg, abs_div, abs_mul, abs_of_pos (hd q), div_mul_eq_mul_div]
      exact div_le_div_of_nonneg_right (mul_le_mul_of_nonneg_right (hW n) (abs_nonneg _)) (hd q).le
    · rw [if_neg hq, if_neg hq, sub_self, norm_zero, abs_zero, mul_zero]
  have hdiff : Tendsto (fun n => app B (x (n + 1)) p - app B (x n) p) atTop (𝓝 0) := by
    have h : Tendsto (fun n => ∑ q, B p q * (x (n + 1) q - x n q)) atTop (𝓝 (∑ q, B p q * 0)) :=
      tendsto_finsetSum _ fun q _ => (hinc q).const_mul _
    simp only [mul_zero, sum_const_zero] at h
    refine h.congr fun n => ?_
    unfold app
    rw [← sum_sub_distrib]
    exact sum_congr rfl fun q _ => by ring
  have h1 := (ha p).abs
  have h2 := ((ha p).comp (tendsto_add_atTop_nat 1)).abs
  have h3 := hdiff.abs
  rw [abs_zero] at h1 h2 h3
  have h := (h1.add h2).add h3
  simp only [add_zero] at h
  refine squeeze_zero_norm (fun n => ?_) h
  rw [Real.norm_eq_abs]
  simp only [Function.comp]
  rcases halt n p with hn | hn
  · rw [if_pos hn]
    have := abs_nonneg (if act (n + 1) p then app B (x (n + 1)) p else 0)
    have := abs_nonneg (app B (x (n + 1)) p - app B (x n) p)
    linarith
  · rw [if_pos hn]
    have h0 := abs_nonneg (if act n p then app B (x n) p else 0)
    have h4 := abs_sub_abs_le_abs_sub (app B (x n) p) (app B (x (n + 1)) p)
    rw [abs_sub_comm] at h4
    linarith

include hinj

/-- If the matrix is injective, the iteration tends to zero. -/
theorem tendsto_zero (p : ι) : Tendsto (fun n => x n p) atTop (𝓝 0) := by
  have happ := app_tendsto hs hd hE hact hδ hom hx hB halt
  let T : (ι → ℝ) →ₗ[ℝ] (ι → ℝ) :=
    { toFun := fun y => app B y
      map_add' := fun y z => funext fun p => app_add y z p
      map_smul' := fun c y => funext fun p => by
        show ∑ q, B p q * (c * y q) = c * ∑ q, B p q * y q
        rw [mul_sum]
        exact sum_congr rfl fun q _ => by ring }
  have hT : Function.Injective T := by
    rw [← LinearMap.ker_eq_bot, LinearMap.ker_eq_bot']
    intro y hy
    exact hinj y fun p => congrFun hy p
  let e := LinearEquiv.ofInjectiveEndo T hT
  have hc : Continuous e.symm := (e.symm : (ι → ℝ) →ₗ[ℝ] (ι → ℝ)).continuous_of_finiteDimensional
  have hlim : Tendsto (fun n => T (x n)) atTop (𝓝 0) := tendsto_pi_nhds.2 fun p => happ p
  have h := (hc.tendsto 0).comp hlim
  rw [map_zero] at h
  have hx' : ∀ n, e.symm (T (x n)) = x n := fun n => e.symm_apply_apply (x n)
  have h' : Tendsto x atTop (𝓝 0) := h.congr hx'
  exact (tendsto_pi_nhds.1 h') p

end Sequence

end Falwa.Relaxation
