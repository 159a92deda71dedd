import Verif.Model.FluxRounding
import Verif.Lemmas.Fortran
import Mathlib.Tactic.Linarith
import Mathlib.Tactic.Positivity

/-!
# Propagation of rounding errors

`Near r A x y`: the computed `x` stands for the exact `y`; `y` is at most `A`, the error at most `(r - 1) A`.
-/

noncomputable section

namespace Falwa

open Real Finset

/-- Error at most `(r - 1) A`, exact value at most `A`. -/
def Near (r A x y : ℝ) : Prop := |x - y| ≤ (r - 1) * A ∧ |y| ≤ A

namespace Near

variable {r r' A B x y x' y' u c : ℝ}

theorem bound_nonneg (h : Near r A x y) : 0 ≤ A := (abs_nonneg y).trans h.2

theorem refl (x : ℝ) : Near 1 |x| x x := by
  unfold Near
  simp

theorem zero (r : ℝ) : Near r 0 0 0 := by
  unfold Near
  simp

theorem mono (h : Near r A x y) (hr : r ≤ r') : Near r' A x y :=
  ⟨h.1.trans (mul_le_mul_of_nonneg_right (by linarith) h.bound_nonneg), h.2⟩

theorem computed_le (h : Near r A x y) : |x| ≤ r * A := by
  have : |x| ≤ |x - y| + |y| := by simpa using abs_add_le (x - y) y
  linarith [h.1, h.2]

/-- One more relative error. -/
theorem step {z : ℝ} (hu : 0 ≤ u) (hz : |z - x| ≤ u * |x|) (h : Near r A x y) : Near (r * (1 + u)) A z y := by
  refine ⟨?_, h.2⟩
  have h1 : |z - y| ≤ |z - x| + |x - y| := by simpa using abs_add_le (z - x) (x - y)
  have h3 := mul_le_mul_of_nonneg_left h.computed_le hu
  linarith [h.1]

theorem fl {f : ℝ → ℝ} (hf : RelativeError u f) (hu : 0 ≤ u) (h : Near r A x y) : Near (r * (1 + u)) A (f x) y :=
  h.step hu (hf x)

theorem mul (hr : 1 ≤ r) (h : Near r A x y) (h' : Near r' B x' y') : Near (r * r') (A * B) (x * x') (y * y') := by
  have hA := h.bound_nonneg
  have hB := h'.bound_nonneg
  constructor
  · have e : x * x' - y * y' = (x - y) * x' + y * (x' - y') := by ring
    rw [e]
    refine (abs_add_le _ _).trans ?_
    rw [abs_mul, abs_mul]
    have h1 : |x - y| * |x'| ≤ (r - 1) * A * (r' * B) :=
      mul_le_mul h.1 h'.computed_le (abs_nonneg _) (mul_nonneg (by linarith) hA)
    have h2 : |y| * |x' - y'| ≤ A * ((r' - 1) * B) := mul_le_mul h.2 h'.1 (abs_nonneg _) hA
    linarith
  · rw [abs_mul]
    exact mul_le_mul h.2 h'.2 (abs_nonneg _) hA

theorem add (h : Near r A x y) (h' : Near r B x' y') : Near r (A + B) (x + x') (y + y') := by
  constructor
  · rw [show x + x' - (y + y') = (x - y) + (x' - y') by ring]
    refine (abs_add_le _ _).trans ?_
    linarith [h.1, h'.1]
  · exact (abs_add_le _ _).trans (add_le_add h.2 h'.2)

theorem neg (h : Near r A x y) : Near r A (-x) (-y) := by
  constructor
  · rw [show -x - -y = -(x - y) by ring, abs_neg]; exact h.1
  · rw [abs_neg]; exact h.2

theorem enlarge (hr : 1 ≤ r) (h : Near r A x y) (hB : A ≤ B) : Near r B x y :=
  ⟨h.1.trans (mul_le_mul_of_nonneg_left hB (by linarith)), h.2.trans hB⟩

/-- A loop every step of which adds a term and costs a factor `c`. -/
theorem loop {σ : Type*} {lo hi : ℤ} (hlh : lo - 1 ≤ hi) {f : ℤ → σ → σ} (g : σ → ℝ) (v w : ℤ → ℝ) (R : ℝ) (hc : 1 ≤ c) (hR : 0 ≤ R)
    (step : ∀ i t r A S, lo ≤ i → i ≤ hi → R ≤ r → Near r A (g t) S → Near (r * c) (A + w i) (g (f i t)) (S + v i))
    {s : σ} {S : ℝ} (hr : R ≤ r) (h0 : Near r A (g s) S) :
    Near (r * c ^ (hi + 1 - lo).toNat) (A + ∑ i ∈ Icc lo hi, w i) (g (doLoop lo hi f s)) (S + ∑ i ∈ Icc lo hi, v i) := by
  have key : ∀ n : ℕ, (n : ℤ) ≤ hi + 1 - lo →
      Near (r * c ^ n) (A + ∑ i ∈ Icc lo (lo - 1 + n), w i) (g (doLoop lo (lo - 1 + n) f s)) (S + ∑ i ∈ Icc lo (lo - 1 + n), v i) := by
    intro n
    induction n with
    | zero =>
      intro _
      rw [doLoop_empty (by push_cast; omega), Icc_eq_empty (by push_cast; omega), sum_empty, sum_empty, pow_zero, mul_one, add_zero,
        add_zero]
      exact h0
    | succ n ih =>
      intro hn
      push_cast at hn
      have e : lo - 1 + ((n + 1 : ℕ) : ℤ) = lo - 1 + (n : ℤ) + 1 := by push_cast; ring
      have hI : Icc lo (lo - 1 + (n : ℤ) + 1) = insert (lo - 1 + (n : ℤ) + 1) (Icc lo (lo - 1 + (n : ℤ))) := by
        ext x; simp only [mem_Icc, mem_insert]; omega
      rw [e, doLoop_succ (by omega), hI, sum_insert (by simp), sum_insert (by simp)]
      have hp : (1 : ℝ) ≤ c ^ n := one_le_pow₀ hc
      have := step (lo - 1 + (n : ℤ) + 1) _ _ _ _ (by omega) (by omega) (by nlinarith) (ih (by omega))
      rw [pow_succ, ← mul_assoc, add_comm (w _), add_comm (v _), ← add_assoc, ← add_assoc]
      exact this
  have := key (hi + 1 - lo).toNat (by omega)
  rw [show lo - 1 + (((hi + 1 - lo).toNat : ℕ) : ℤ) = hi by omega] at this
  exact this

/-- `exp` of an argument with absolute error `t`. -/
theorem exp {t : ℝ} (h : |x - y| ≤ t) : Near (Real.exp t) (Real.exp y) (Real.exp x) (Real.exp y) := by
  refine ⟨?_, le_of_eq (abs_of_pos (exp_pos y))⟩
  have e : Real.exp x - Real.exp y = (Real.exp (x - y) - 1) * Real.exp y := by
    rw [sub_mul, ← exp_add, sub_add_cancel, one_mul]
  rw [e, abs_mul, abs_of_pos (exp_pos y)]
  refine mul_le_mul_of_nonneg_right ?_ (exp_pos y).le
  have h1 := abs_le.1 h
  rw [abs_le]
  constructor
  · have a := add_one_le_exp (-t)
    have b := exp_le_exp.2 h1.1
    have a' := add_one_le_exp t
    linarith
  · have b := exp_le_exp.2 h1.2
    linarith

end Near

end Falwa

end
