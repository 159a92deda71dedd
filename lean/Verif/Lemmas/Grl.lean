import Verif.Model.Grl
import Verif.Lemmas.Fortran
import Mathlib.Algebra.BigOperators.Group.Finset.Sigma
import Mathlib.Algebra.Order.BigOperators.Group.Finset
import Mathlib.Algebra.BigOperators.Field
import Mathlib.Tactic.FieldSimp
import Mathlib.Tactic.Linarith
import Mathlib.Order.Interval.Finset.Basic

/-! # Lemmas about sums over a latitude circle -/

noncomputable section

namespace Falwa

open Finset

/-- A sum over a circle does not depend on where the circle starts. -/
theorem sum_shift {N : ℤ} (hN : 0 < N) (s : ℤ) (f : ℤ → ℝ) :
    ∑ i ∈ Ico 0 N, f ((i + s) % N) = ∑ i ∈ Ico 0 N, f i := by
  refine sum_nbij' (fun i => (i + s) % N) (fun i => (i - s) % N) ?_ ?_ ?_ ?_ ?_
  · intro i _
    exact mem_Ico.2 ⟨Int.emod_nonneg _ hN.ne', Int.emod_lt_of_pos _ hN⟩
  · intro i _
    exact mem_Ico.2 ⟨Int.emod_nonneg _ hN.ne', Int.emod_lt_of_pos _ hN⟩
  · intro i hi
    rw [mem_Ico] at hi
    show ((i + s) % N - s) % N = i
    rw [Int.emod_sub_emod, add_sub_cancel_right, Int.emod_eq_of_lt hi.1 hi.2]
  · intro i hi
    rw [mem_Ico] at hi
    show ((i - s) % N + s) % N = i
    rw [Int.emod_add_emod, sub_add_cancel, Int.emod_eq_of_lt hi.1 hi.2]
  · intro i _
    rfl

/-- Columns on the two sides of a column of a circle, as the scripts write them. -/
theorem ring_neighbours {N i : ℤ} (hN : 2 ≤ N) (h1 : 0 ≤ i) (h2 : i < N) (g : ℤ → ℤ → ℝ) :
    (if i = 0 then g 1 (N - 1) else if i = N - 1 then g 0 (N - 2) else g (i + 1) (i - 1)) = g ((i + 1) % N) ((i - 1) % N) := by
  by_cases e : i = 0
  · rw [if_pos e, e, Int.emod_eq_of_lt (by omega) (by omega)]
    congr 1
    rw [show (0 : ℤ) - 1 = (N - 1) + N * (-1) by ring, Int.add_mul_emod_self_left, Int.emod_eq_of_lt (by omega) (by omega)]
  · rw [if_neg e]
    by_cases e' : i = N - 1
    · rw [if_pos e', e', sub_add_cancel, Int.emod_self, Int.emod_eq_of_lt (by omega) (by omega)]
      congr 1
      ring
    · rw [if_neg e', Int.emod_eq_of_lt (by omega) (by omega), Int.emod_eq_of_lt (by omega) (by omega)]

namespace Grl

variable (I : Grl)

theorem smooth_eq (n : ℤ) (x : ℤ → ℝ) (i : ℤ) :
    I.smooth n x i = ∑ s ∈ Icc (-n) n, x ((i - s) % I.nlon) / ((2 * n + 1 : ℤ) : ℝ) := dosum_eq _ _ _

theorem smooth_add (n : ℤ) (x y : ℤ → ℝ) (i : ℤ) : I.smooth n (fun i => x i + y i) i = I.smooth n x i + I.smooth n y i := by
  rw [smooth_eq, smooth_eq, smooth_eq, ← sum_add_distrib]
  exact sum_congr rfl fun s _ => add_div _ _ _

theorem smooth_sub (n : ℤ) (x y : ℤ → ℝ) (i : ℤ) : I.smooth n (fun i => x i - y i) i = I.smooth n x i - I.smooth n y i := by
  rw [smooth_eq, smooth_eq, smooth_eq, ← sum_sub_distrib]
  exact sum_congr rfl fun s _ => sub_div _ _ _

theorem smooth_mul (n : ℤ) (c : ℝ) (x : ℤ → ℝ) (i : ℤ) : I.smooth n (fun i => c * x i) i = c * I.smooth n x i := by
  rw [smooth_eq, smooth_eq, mul_sum]
  exact sum_congr rfl fun s _ => mul_div_assoc _ _ _

theorem smooth_sum (n : ℤ) {ι : Type*} (S : Finset ι) (x : ι → ℤ → ℝ) (i : ℤ) :
    I.smooth n (fun i => ∑ m ∈ S, x m i) i = ∑ m ∈ S, I.smooth n (x m) i := by
  simp only [smooth_eq]
  rw [sum_comm]
  exact sum_congr rfl fun s _ => sum_div _ _ _

/-- The smoothed value depends on the columns of the circle only. -/
theorem smooth_congr {n : ℤ} {x y : ℤ → ℝ} (hN : 0 < I.nlon) (h : ∀ i, 0 ≤ i → i < I.nlon → x i = y i) (i : ℤ) :
    I.smooth n x i = I.smooth n y i := by
  rw [smooth_eq, smooth_eq]
  exact sum_congr rfl fun s _ => by rw [h _ (Int.emod_nonneg _ hN.ne') (Int.emod_lt_of_pos _ hN)]

/-- Smoothing commutes with a shift along the circle. -/
theorem smooth_shift (n : ℤ) (x : ℤ → ℝ) (t i : ℤ) :
    I.smooth n (fun i => x ((i + t) % I.nlon)) i = I.smooth n x ((i + t) % I.nlon) := by
  rw [smooth_eq, smooth_eq]
  refine sum_congr rfl fun s _ => ?_
  show x (((i - s) % I.nlon + t) % I.nlon) / _ = _
  rw [Int.emod_add_emod, Int.emod_sub_emod, show i - s + t = i + t - s by ring]

/-- Smoothing keeps the sum over the circle. -/
theorem sum_smooth {n : ℤ} (hN : 0 < I.nlon) (hn : 0 ≤ n) (x : ℤ → ℝ) :
    ∑ i ∈ Ico 0 I.nlon, I.smooth n x i = ∑ i ∈ Ico 0 I.nlon, x i := by
  simp only [smooth_eq]
  rw [sum_comm]
  have h : ∀ s ∈ Icc (-n) n, ∑ i ∈ Ico 0 I.nlon, x ((i - s) % I.nlon) / ((2 * n + 1 : ℤ) : ℝ) =
      (∑ i ∈ Ico 0 I.nlon, x i) / ((2 * n + 1 : ℤ) : ℝ) := by
    intro s _
    rw [← sum_div]
    congr 1
    rw [← sum_shift hN (-s) x]
    exact sum_congr rfl fun i _ => by rw [sub_eq_add_neg]
  rw [sum_congr rfl h, sum_const, Int.card_Icc, nsmul_eq_mul]
  have hc : (((n + 1 - -n).toNat : ℕ) : ℝ) = ((2 * n + 1 : ℤ) : ℝ) := by
    have : (((n + 1 - -n).toNat : ℕ) : ℤ) = 2 * n + 1 := by omega
    rw [← this]
    norm_cast
  rw [hc]
  have : ((2 * n + 1 : ℤ) : ℝ) ≠ 0 := by exact_mod_cast (by omega : 2 * n + 1 ≠ 0)
  field_simp

end Grl

end Falwa
