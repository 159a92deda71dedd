import Verif.Lemmas.Central
import Mathlib.Analysis.Calculus.ContDiff.Basic
import Mathlib.Analysis.Calculus.ContDiff.Operations
import Mathlib.Analysis.Calculus.ContDiff.Comp
import Mathlib.Topology.Order.Compact

/-! # Partial derivatives of functions of two variables and errors of differences on an interval -/

noncomputable section

namespace Falwa

/-- Derivative in the first variable. -/
def pdx (f : ℝ × ℝ → ℝ) (p : ℝ × ℝ) : ℝ := fderiv ℝ f p (1, 0)

/-- Derivative in the second variable. -/
def pdy (f : ℝ × ℝ → ℝ) (p : ℝ × ℝ) : ℝ := fderiv ℝ f p (0, 1)

theorem contDiff_pdx {f : ℝ × ℝ → ℝ} {n m : WithTop ℕ∞} (hf : ContDiff ℝ n f) (h : m + 1 ≤ n) : ContDiff ℝ m (pdx f) :=
  (hf.fderiv_right h).clm_apply contDiff_const

theorem contDiff_pdy {f : ℝ × ℝ → ℝ} {n m : WithTop ℕ∞} (hf : ContDiff ℝ n f) (h : m + 1 ≤ n) : ContDiff ℝ m (pdy f) :=
  (hf.fderiv_right h).clm_apply contDiff_const

theorem hasDerivAt_pdx {f : ℝ × ℝ → ℝ} {n : WithTop ℕ∞} (hf : ContDiff ℝ n f) (h : n ≠ 0) (x z : ℝ) :
    HasDerivAt (fun x => f (x, z)) (pdx f (x, z)) x := by
  have d := (hf.differentiable h (x, z)).hasFDerivAt
  have g : HasDerivAt (fun x : ℝ => (x, z)) ((1 : ℝ), (0 : ℝ)) x := (hasDerivAt_id x).prodMk (hasDerivAt_const x z)
  exact d.comp_hasDerivAt x g

theorem hasDerivAt_pdy {f : ℝ × ℝ → ℝ} {n : WithTop ℕ∞} (hf : ContDiff ℝ n f) (h : n ≠ 0) (x z : ℝ) :
    HasDerivAt (fun z => f (x, z)) (pdy f (x, z)) z := by
  have d := (hf.differentiable h (x, z)).hasFDerivAt
  have g : HasDerivAt (fun z : ℝ => (x, z)) ((0 : ℝ), (1 : ℝ)) z := (hasDerivAt_const z x).prodMk (hasDerivAt_id z)
  exact d.comp_hasDerivAt z g

/-- A continuous function is bounded on a rectangle. -/
theorem exists_bound {f : ℝ × ℝ → ℝ} (hf : Continuous f) (a b c d : ℝ) :
    ∃ C, 0 ≤ C ∧ ∀ x z, a ≤ x → x ≤ b → c ≤ z → z ≤ d → |f (x, z)| ≤ C := by
  obtain ⟨C, hC⟩ := (isCompact_Icc.prod isCompact_Icc : IsCompact (Set.Icc a b ×ˢ Set.Icc c d)).exists_bound_of_continuousOn
    hf.continuousOn
  refine ⟨max C 0, le_max_right _ _, fun x z x1 x2 z1 z2 => ?_⟩
  exact (hC (x, z) ⟨⟨x1, x2⟩, z1, z2⟩).trans (le_max_left _ _)

/-- A continuous function of one variable is bounded on an interval. -/
theorem exists_bound₁ {f : ℝ → ℝ} (hf : Continuous f) (a b : ℝ) :
    ∃ C, 0 ≤ C ∧ ∀ x, a ≤ x → x ≤ b → |f x| ≤ C := by
  obtain ⟨C, hC⟩ := (isCompact_Icc : IsCompact (Set.Icc a b)).exists_bound_of_continuousOn hf.continuousOn
  exact ⟨max C 0, le_max_right _ _, fun x x1 x2 => (hC x ⟨x1, x2⟩).trans (le_max_left _ _)⟩

/-- Mean value inequality. -/
theorem diff_le {f f' : ℝ → ℝ} {C a b : ℝ} (hab : a ≤ b) (d : ∀ x, HasDerivAt f (f' x) x)
    (hb : ∀ x, a ≤ x → x ≤ b → |f' x| ≤ C) : |f b - f a| ≤ C * (b - a) := by
  have := (convex_Icc a b).norm_image_sub_le_of_norm_hasDerivWithin_le (f := f) (f' := f') (C := C)
    (fun x _ => (d x).hasDerivWithinAt) (fun x hx => hb x hx.1 hx.2) (x := a) (y := b) ⟨le_rfl, hab⟩ ⟨hab, le_rfl⟩
  rw [Real.norm_eq_abs, Real.norm_eq_abs, abs_of_nonneg (sub_nonneg.2 hab)] at this
  exact this

private theorem shift_add (x t : ℝ) : HasDerivAt (fun t => x + t) 1 t := (hasDerivAt_id t).const_add x

private theorem shift_sub (x t : ℝ) : HasDerivAt (fun t => x - t) (-1) t := (hasDerivAt_id t).const_sub x

/-- Second difference. -/
theorem second_le {f f' f'' : ℝ → ℝ} {C x h : ℝ} (hh : 0 ≤ h) (d : ∀ x, HasDerivAt f (f' x) x)
    (d' : ∀ x, HasDerivAt f' (f'' x) x) (hb : ∀ y, x - h ≤ y → y ≤ x + h → |f'' y| ≤ C) :
    |f (x + h) + f (x - h) - 2 * f x| ≤ 2 * C * h ^ 2 := by
  have e : ∀ t, HasDerivAt (fun t => f (x + t) + f (x - t) - 2 * f x) (f' (x + t) - f' (x - t)) t := by
    intro t
    refine ((((d (x + t)).comp t (shift_add x t)).add ((d (x - t)).comp t (shift_sub x t))).sub_const (2 * f x)).congr_deriv ?_
    ring
  have hC : 0 ≤ C := (abs_nonneg _).trans (hb x (by linarith) (by linarith))
  have := Spec.growth (C := 2 * C * h) hh e (by simp; ring) (fun t t0 t1 => by
    have := diff_le (a := x - t) (b := x + t) (by linarith) d' (fun y y1 y2 => hb y (by linarith) (by linarith))
    refine this.trans ?_
    nlinarith)
  refine this.trans (le_of_eq ?_)
  ring

/-- First difference around the midpoint, with a bounded third derivative. -/
theorem midpoint_le {f f' f'' f''' : ℝ → ℝ} {C x h : ℝ} (hh : 0 ≤ h) (d : ∀ x, HasDerivAt f (f' x) x)
    (d' : ∀ x, HasDerivAt f' (f'' x) x) (d'' : ∀ x, HasDerivAt f'' (f''' x) x)
    (hb : ∀ y, x - h ≤ y → y ≤ x + h → |f''' y| ≤ C) :
    |f (x + h) - f (x - h) - 2 * h * f' x| ≤ 2 * C * h ^ 3 := by
  have e : ∀ t, HasDerivAt (fun t => f (x + t) - f (x - t) - 2 * t * f' x) (f' (x + t) + f' (x - t) - 2 * f' x) t := by
    intro t
    have a := (d (x + t)).comp t (shift_add x t)
    have b := (d (x - t)).comp t (shift_sub x t)
    have e := (((hasDerivAt_id t).const_mul 2).mul_const (f' x))
    refine ((a.sub b).sub e).congr_deriv ?_
    ring
  have hC : 0 ≤ C := (abs_nonneg _).trans (hb x (by linarith) (by linarith))
  have := Spec.growth (C := 2 * C * h ^ 2) hh e (by simp) (fun t t0 t1 => by
    refine (second_le t0 d' d'' (fun y y1 y2 => hb y (by linarith) (by linarith))).trans ?_
    have : t ^ 2 ≤ h ^ 2 := pow_le_pow_left₀ t0 t1 2
    nlinarith)
  refine this.trans (le_of_eq ?_)
  ring

/-- First difference around the midpoint, with a bounded second derivative. -/
theorem midpoint_le₂ {f f' f'' : ℝ → ℝ} {C x h : ℝ} (hh : 0 ≤ h) (d : ∀ x, HasDerivAt f (f' x) x)
    (d' : ∀ x, HasDerivAt f' (f'' x) x) (hb : ∀ y, x - h ≤ y → y ≤ x + h → |f'' y| ≤ C) :
    |f (x + h) - f (x - h) - 2 * h * f' x| ≤ 2 * C * h ^ 2 := by
  have e : ∀ t, HasDerivAt (fun t => f (x + t) - f (x - t) - 2 * t * f' x) (f' (x + t) + f' (x - t) - 2 * f' x) t := by
    intro t
    have a := (d (x + t)).comp t (shift_add x t)
    have b := (d (x - t)).comp t (shift_sub x t)
    have e := (((hasDerivAt_id t).const_mul 2).mul_const (f' x))
    refine ((a.sub b).sub e).congr_deriv ?_
    ring
  have hC : 0 ≤ C := (abs_nonneg _).trans (hb x (by linarith) (by linarith))
  have := Spec.growth (C := 2 * C * h) hh e (by simp) (fun t t0 t1 => by
    have u1 := diff_le (a := x) (b := x + t) (by linarith) d' (fun y y1 y2 => hb y (by linarith) (by linarith))
    have u2 := diff_le (a := x - t) (b := x) (by linarith) d' (fun y y1 y2 => hb y (by linarith) (by linarith))
    rw [abs_le] at *
    constructor <;> nlinarith [u1.1, u1.2, u2.1, u2.2])
  refine this.trans (le_of_eq ?_)
  ring

end Falwa
