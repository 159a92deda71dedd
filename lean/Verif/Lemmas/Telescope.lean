import Mathlib.Algebra.BigOperators.Group.Finset.Basic
import Mathlib.Data.Int.Interval
import Mathlib.Data.Real.Basic
import Mathlib.Tactic.Ring

/-! Sums of centred differences. -/

namespace Falwa

open Finset

theorem sum_telescope2 (g : ℤ → ℝ) (j1 : ℤ) (n : ℕ) :
    ∑ j ∈ Icc j1 (j1 + n), (g (j - 1) - g (j + 1)) = g (j1 - 1) + g j1 - g (j1 + n) - g (j1 + n + 1) := by
  induction n with
  | zero => simp
  | succ n ih =>
    rw [show Icc j1 (j1 + ((n + 1 : ℕ) : ℤ)) = insert (j1 + n + 1) (Icc j1 (j1 + n)) by
      ext x; simp only [mem_insert, mem_Icc]; push_cast; omega]
    rw [sum_insert (by simp), ih]
    rw [show j1 + (n : ℤ) + 1 - 1 = j1 + n by ring, show j1 + ((n + 1 : ℕ) : ℤ) = j1 + n + 1 by push_cast; ring]
    ring

/-- The same with the upper limit as an integer. -/
theorem sum_centred_diff (g : ℤ → ℝ) {a b : ℤ} (h : a ≤ b) :
    ∑ j ∈ Icc a b, (g (j - 1) - g (j + 1)) = g (a - 1) + g a - g b - g (b + 1) := by
  have := sum_telescope2 g a (b - a).toNat
  rwa [Int.toNat_of_nonneg (by omega), show a + (b - a) = b by ring] at this

end Falwa
