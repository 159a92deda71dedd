import Verif.Spec.Smooth
import Mathlib.Analysis.Calculus.MeanValue
import Mathlib.Analysis.Calculus.Deriv.Add
import Mathlib.Analysis.Calculus.Deriv.Mul
import Mathlib.Analysis.Calculus.Deriv.Comp
import Mathlib.Tactic.Linarith
import Mathlib.Tactic.Ring
import Mathlib.Tactic.FieldSimp

/-! Error of the centred difference. -/

namespace Falwa.Spec

theorem Smooth.nonneg {f f' f'' : ℝ → ℝ} {D : ℝ} (h : Smooth f f' f'' D) : 0 ≤ D := by
  have := (abs_nonneg _).trans (h.bound 1 0)
  simpa using this

/-- Growth of a function with bounded derivative that starts at 0. -/
theorem growth {g g' : ℝ → ℝ} {C t : ℝ} (ht : 0 ≤ t) (hg : ∀ x, HasDerivAt g (g' x) x) (h0 : g 0 = 0)
    (hb : ∀ x, 0 ≤ x → x ≤ t → |g' x| ≤ C) : |g t| ≤ C * t := by
  have := (convex_Icc (0 : ℝ) t).norm_image_sub_le_of_norm_hasDerivWithin_le (f := g) (f' := g') (C := C)
    (fun x _ => (hg x).hasDerivWithinAt) (fun x hx => hb x hx.1 hx.2) (x := 0) (y := t) ⟨le_rfl, ht⟩ ⟨ht, le_rfl⟩
  rw [h0, sub_zero, sub_zero, Real.norm_eq_abs, Real.norm_eq_abs, abs_of_nonneg ht] at this
  exact this

/-- The centred difference has an error of second order. -/
theorem Smooth.central {f f' f'' : ℝ → ℝ} {D : ℝ} (s : Smooth f f' f'' D) (x : ℝ) {h : ℝ} (hh : 0 ≤ h) :
    |f (x + h) - f (x - h) - 2 * h * f' x| ≤ 2 * D * h ^ 3 := by
  have p1 : ∀ t : ℝ, HasDerivAt (fun t => x + t) 1 t := fun t => (hasDerivAt_id t).const_add x
  have p2 : ∀ t : ℝ, HasDerivAt (fun t => x - t) (-1) t := fun t => (hasDerivAt_id t).const_sub x
  have d1 : ∀ t, HasDerivAt (fun t => f' (x + t) + f' (x - t) - 2 * f' x) (f'' (x + t) - f'' (x - t)) t := by
    intro t
    have a := (s.deriv2 (x + t)).comp t (p1 t)
    have b := (s.deriv2 (x - t)).comp t (p2 t)
    have c := (a.add b).sub_const (2 * f' x)
    refine c.congr_deriv ?_
    ring
  have d0 : ∀ t, HasDerivAt (fun t => f (x + t) - f (x - t) - 2 * t * f' x) (f' (x + t) + f' (x - t) - 2 * f' x) t := by
    intro t
    have a := (s.deriv1 (x + t)).comp t (p1 t)
    have b := (s.deriv1 (x - t)).comp t (p2 t)
    have e := (((hasDerivAt_id t).const_mul 2).mul_const (f' x))
    have c := (a.sub b).sub e
    refine c.congr_deriv ?_
    ring
  have b1 : ∀ t, 0 ≤ t → t ≤ h → |f' (x + t) + f' (x - t) - 2 * f' x| ≤ 2 * D * h ^ 2 := by
    intro t ht hth
    have hD := s.nonneg
    have := growth (C := 2 * D * h) ht d1 (by simp; ring) (fun y hy hyt => by
      refine (s.bound (x + y) (x - y)).trans ?_
      rw [show x + y - (x - y) = 2 * y by ring, abs_of_nonneg (by linarith)]
      nlinarith)
    refine this.trans ?_
    nlinarith [mul_nonneg (mul_nonneg hD hh) (sub_nonneg.2 hth)]
  have := growth (C := 2 * D * h ^ 2) hh d0 (by simp) b1
  calc _ ≤ 2 * D * h ^ 2 * h := this
    _ = 2 * D * h ^ 3 := by ring

/-- The quotient with a factor `w` in the denominator. -/
theorem Smooth.quotient {f f' f'' : ℝ → ℝ} {D : ℝ} (s : Smooth f f' f'' D) (x : ℝ) {h w : ℝ} (hh : 0 < h) (hw : w ≠ 0) :
    |(f (x + h) - f (x - h)) / (2 * w * h) - f' x / w| ≤ D * h ^ 2 / |w| := by
  have e : (f (x + h) - f (x - h)) / (2 * w * h) - f' x / w = (f (x + h) - f (x - h) - 2 * h * f' x) / (2 * h * w) := by
    field_simp
  have hw' := abs_pos.2 hw
  rw [e, abs_div, abs_mul, abs_of_pos (by linarith : 0 < 2 * h), div_le_div_iff₀ (by positivity) hw']
  calc _ ≤ 2 * D * h ^ 3 * |w| := mul_le_mul_of_nonneg_right (s.central x hh.le) hw'.le
    _ = D * h ^ 2 * (2 * h * |w|) := by ring

end Falwa.Spec
