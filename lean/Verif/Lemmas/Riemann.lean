import Verif.Spec.Continuum
import Mathlib.Analysis.SpecialFunctions.Trigonometric.Bounds
import Mathlib.Topology.MetricSpace.Lipschitz
import Mathlib.Tactic.Linarith
import Mathlib.Tactic.Ring
import Mathlib.Tactic.Positivity

/-! Riemann sums of Lipschitz functions on an evenly spaced grid. -/

noncomputable section

namespace Falwa

open Finset Spec

theorem Spec.GradientBound.continuousOn {f : ℝ → ℝ} {C s n : ℝ} (h : GradientBound f C s n) : ContinuousOn f (Set.Icc s n) := by
  have : LipschitzOnWith (Real.toNNReal C) f (Set.Icc s n) := by
    refine LipschitzOnWith.of_dist_le_mul fun x hx y hy => ?_
    rw [Real.dist_eq, Real.dist_eq]
    exact (h x hx y hy).trans (mul_le_mul_of_nonneg_right (Real.le_coe_toNNReal C) (abs_nonneg _))
  exact this.continuousOn

theorem Spec.GradientBound.sub {f : ℝ → ℝ} {C s n s' n' : ℝ} (h : GradientBound f C s n) (h1 : s ≤ s') (h2 : n' ≤ n) :
    GradientBound f C s' n' := fun x hx y hy =>
  h x ⟨h1.trans hx.1, hx.2.trans h2⟩ y ⟨h1.trans hy.1, hy.2.trans h2⟩

theorem Spec.GradientBound.intervalIntegrable {f : ℝ → ℝ} {C s n x y : ℝ} (h : GradientBound f C s n) (h1 : s ≤ x) (h2 : x ≤ y)
    (h3 : y ≤ n) : IntervalIntegrable f MeasureTheory.volume x y :=
  ((h.sub h1 h3).continuousOn).intervalIntegrable_of_Icc h2

/-- One cell. -/
theorem cell_error {f : ℝ → ℝ} {C x h ξ : ℝ} (hh : 0 ≤ h) (hC : 0 ≤ C) (hf : GradientBound f C x (x + h))
    (hξ : ξ ∈ Set.Icc x (x + h)) : |f ξ * h - ∫ t in x..x + h, f t| ≤ C * h * h := by
  have hi : IntervalIntegrable f MeasureTheory.volume x (x + h) := hf.intervalIntegrable le_rfl (by linarith) le_rfl
  have e : f ξ * h - ∫ t in x..x + h, f t = ∫ t in x..x + h, (f ξ - f t) := by
    rw [intervalIntegral.integral_sub intervalIntegrable_const hi, intervalIntegral.integral_const, smul_eq_mul]; ring
  rw [e]
  have := intervalIntegral.norm_integral_le_of_norm_le_const (a := x) (b := x + h) (f := fun t => f ξ - f t) (C := C * h)
    (fun t ht => by
      rw [Set.uIoc_of_le (by linarith)] at ht
      rw [Real.norm_eq_abs]
      refine (hf ξ hξ t ⟨ht.1.le, ht.2⟩).trans (mul_le_mul_of_nonneg_left ?_ hC)
      rw [abs_le]; constructor <;> linarith [hξ.1, hξ.2, ht.1, ht.2])
  rw [Real.norm_eq_abs, show x + h - x = h by ring, abs_of_nonneg hh] at this
  exact this

theorem riemann_error {f : ℝ → ℝ} {C x h : ℝ} {n : ℕ} (hh : 0 ≤ h) (hC : 0 ≤ C) (hf : GradientBound f C x (x + n * h))
    (ξ : ℕ → ℝ) (hξ : ∀ r < n, ξ r ∈ Set.Icc (x + r * h) (x + (r + 1) * h)) :
    |∑ r ∈ range n, f (ξ r) * h - ∫ t in x..x + n * h, f t| ≤ C * h * (n * h) := by
  induction n with
  | zero => simp
  | succ n ih =>
    have hn : (0 : ℝ) ≤ n * h := by positivity
    push_cast at hf ⊢
    have hle : x + n * h ≤ x + (n + 1) * h := by linarith
    have h1 := ih (hf.sub le_rfl hle) fun r hr => hξ r (by omega)
    have hc : GradientBound f C (x + n * h) (x + n * h + h) := by
      refine hf.sub (by linarith) (le_of_eq (by ring))
    have h2 := cell_error hh hC hc (ξ := ξ n) (by
      have := hξ n (by omega)
      rwa [show x + ((n : ℝ) + 1) * h = x + n * h + h by ring] at this)
    have e := intervalIntegral.integral_add_adjacent_intervals
      (hf.intervalIntegrable (x := x) (y := x + n * h) le_rfl (by linarith) hle)
      (hf.intervalIntegrable (x := x + n * h) (y := x + (n + 1) * h) (by linarith) hle le_rfl)
    rw [← e, sum_range_succ, show x + ((n : ℝ) + 1) * h = x + n * h + h by ring]
    rw [abs_le] at *
    constructor <;> nlinarith [h1.1, h1.2, h2.1, h2.2]

/-- The sum over all rows of a grid, with one function south of and on row `j` and another one north of it. -/
theorem split_sum_error {F G : ℝ → ℝ} {C B x h : ℝ} {n j : ℕ} (hh : 0 ≤ h) (hC : 0 ≤ C)
    (hF : GradientBound F C x (x + n * h)) (hG : GradientBound G C x (x + n * h)) (hj : j ≤ n)
    (hB : |G (x + j * h)| ≤ B) :
    |∑ r ∈ range (n + 1), (if j < r then F (x + r * h) else G (x + r * h)) * h -
      ((∫ t in x + j * h..x + n * h, F t) + ∫ t in x..x + j * h, G t)| ≤ C * h * (n * h) + B * h := by
  obtain ⟨m, rfl⟩ := Nat.exists_eq_add_of_le hj
  have hx : x + ((j + m : ℕ) : ℝ) * h = x + j * h + m * h := by push_cast; ring
  have hjh : (0 : ℝ) ≤ j * h := by positivity
  have hmh : (0 : ℝ) ≤ m * h := by positivity
  rw [hx] at hF hG ⊢
  have e1 : ∑ r ∈ range (j + m + 1), (if j < r then F (x + r * h) else G (x + r * h)) * h =
      ∑ r ∈ range j, G (x + r * h) * h + G (x + j * h) * h + ∑ r ∈ range m, F (x + j * h + (r + 1) * h) * h := by
    rw [show j + m + 1 = j + 1 + m by ring, sum_range_add, sum_range_succ, if_neg (lt_irrefl j)]
    congr 1
    · congr 1
      exact sum_congr rfl fun r hr => by rw [if_neg (by have := mem_range.1 hr; omega)]
    · refine sum_congr rfl fun r _ => ?_
      rw [if_pos (by omega)]
      congr 2
      push_cast; ring
  have h1 := riemann_error hh hC (hG.sub le_rfl (by linarith)) (fun r => x + r * h)
    (fun r hr => ⟨le_rfl, by linarith⟩) (n := j)
  have h2 := riemann_error hh hC (hF.sub (s' := x + j * h) (n' := x + j * h + m * h) (by linarith) le_rfl)
    (fun r => x + j * h + (r + 1) * h) (fun r hr => ⟨by linarith, le_rfl⟩) (n := m)
  have h3 : |G (x + j * h) * h| ≤ B * h := by
    rw [abs_mul, abs_of_nonneg hh]; exact mul_le_mul_of_nonneg_right hB hh
  rw [e1]
  push_cast
  rw [abs_le] at h1 h2 h3 ⊢
  constructor <;> nlinarith [h1.1, h1.2, h2.1, h2.2, h3.1, h3.2]

/-- The same with row `j` counted north. -/
theorem split_sum_error' {F G : ℝ → ℝ} {C B x h : ℝ} {n j : ℕ} (hh : 0 ≤ h) (hC : 0 ≤ C)
    (hF : GradientBound F C x (x + n * h)) (hG : GradientBound G C x (x + n * h)) (hj : j ≤ n)
    (hB : |F (x + n * h)| ≤ B) :
    |∑ r ∈ range (n + 1), (if j ≤ r then F (x + r * h) else G (x + r * h)) * h -
      ((∫ t in x + j * h..x + n * h, F t) + ∫ t in x..x + j * h, G t)| ≤ C * h * (n * h) + B * h := by
  obtain ⟨m, rfl⟩ := Nat.exists_eq_add_of_le hj
  have hx : x + ((j + m : ℕ) : ℝ) * h = x + j * h + m * h := by push_cast; ring
  have hjh : (0 : ℝ) ≤ j * h := by positivity
  have hmh : (0 : ℝ) ≤ m * h := by positivity
  have e1 : ∑ r ∈ range (j + m + 1), (if j ≤ r then F (x + r * h) else G (x + r * h)) * h =
      ∑ r ∈ range j, G (x + r * h) * h + (∑ r ∈ range m, F (x + j * h + r * h) * h + F (x + (j + m : ℕ) * h) * h) := by
    rw [sum_range_succ, sum_range_add, if_pos (by omega : j ≤ j + m), add_assoc]
    congr 1
    · exact sum_congr rfl fun r hr => by rw [if_neg (by have := mem_range.1 hr; omega)]
    · congr 1
      refine sum_congr rfl fun r _ => ?_
      rw [if_pos (by omega)]
      congr 2
      push_cast; ring
  have h3 : |F (x + (j + m : ℕ) * h) * h| ≤ B * h := by
    rw [abs_mul, abs_of_nonneg hh]; exact mul_le_mul_of_nonneg_right hB hh
  rw [e1]
  rw [hx] at hF hG h3 ⊢
  have h1 := riemann_error hh hC (hG.sub le_rfl (by linarith)) (fun r => x + r * h)
    (fun r hr => ⟨le_rfl, by linarith⟩) (n := j)
  have h2 := riemann_error hh hC (hF.sub (s' := x + j * h) (n' := x + j * h + m * h) (by linarith) le_rfl)
    (fun r => x + j * h + r * h) (fun r hr => ⟨le_rfl, by linarith⟩) (n := m)
  push_cast
  rw [abs_le] at h1 h2 h3 ⊢
  constructor <;> nlinarith [h1.1, h1.2, h2.1, h2.2, h3.1, h3.2]

theorem posPart_sub_le (x y : ℝ) : |max x 0 - max y 0| ≤ |x - y| := by
  have := abs_max_sub_max_le_abs x y 0
  exact this

/-- The weighted positive part of a function with bounded gradient. -/
theorem weighted_bound {q : ℝ → ℝ} {L M a s n : ℝ} (ha : 0 ≤ a) (hq : GradientBound q L s n)
    (hM : ∀ x ∈ Set.Icc s n, |q x| ≤ M) : GradientBound (fun x => max (q x) 0 * (a * Real.cos x)) (a * (L + M)) s n := by
  intro x hx y hy
  have hp : |max (q y) 0| ≤ M := by
    rw [abs_of_nonneg (le_max_right _ _)]
    exact max_le ((le_abs_self _).trans (hM y hy)) ((abs_nonneg _).trans (hM y hy))
  have e : max (q x) 0 * (a * Real.cos x) - max (q y) 0 * (a * Real.cos y) =
      a * ((max (q x) 0 - max (q y) 0) * Real.cos x + max (q y) 0 * (Real.cos x - Real.cos y)) := by ring
  beta_reduce
  rw [e, abs_mul, abs_of_nonneg ha, mul_assoc]
  refine mul_le_mul_of_nonneg_left ((abs_add_le _ _).trans ?_) ha
  rw [abs_mul, abs_mul, add_mul]
  refine add_le_add ?_ ?_
  · calc _ ≤ |max (q x) 0 - max (q y) 0| * 1 := mul_le_mul_of_nonneg_left (Real.abs_cos_le_one x) (abs_nonneg _)
      _ ≤ L * |x - y| := by rw [mul_one]; exact (posPart_sub_le _ _).trans (hq x hx y hy)
  · exact mul_le_mul hp (Real.abs_cos_sub_cos_le x y) (abs_nonneg _) ((abs_nonneg _).trans hp)

theorem weighted_le {q : ℝ → ℝ} {M a x : ℝ} (ha : 0 ≤ a) (hM : |q x| ≤ M) : |max (q x) 0 * (a * Real.cos x)| ≤ a * M := by
  rw [abs_mul, abs_mul, abs_of_nonneg ha, abs_of_nonneg (le_max_right (q x) 0)]
  calc max (q x) 0 * (a * |Real.cos x|) ≤ M * (a * 1) :=
        mul_le_mul (max_le ((le_abs_self _).trans hM) ((abs_nonneg _).trans hM))
          (mul_le_mul_of_nonneg_left (Real.abs_cos_le_one x) ha) (by positivity) ((abs_nonneg _).trans hM)
    _ = a * M := by ring

end Falwa
