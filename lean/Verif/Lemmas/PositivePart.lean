import Mathlib.Analysis.SpecialFunctions.Sqrt
import Mathlib.Analysis.Calculus.Deriv.Mul
import Mathlib.MeasureTheory.Integral.IntervalIntegral.FundThmCalculus
import Mathlib.MeasureTheory.Integral.DominatedConvergence
import Mathlib.MeasureTheory.Integral.Prod
import Mathlib.Analysis.Asymptotics.Lemmas

/-!
# Integrals of positive parts of smooth functions
-/

noncomputable section

namespace Falwa

open MeasureTheory Filter Set

theorem hasDerivAt_sq_posPart (x : ℝ) : HasDerivAt (fun y : ℝ => max y 0 ^ 2) (2 * max x 0) x := by
  rcases lt_trichotomy x 0 with h | h | h
  · rw [max_eq_right h.le, mul_zero]
    refine (hasDerivAt_const x (0 : ℝ)).congr_of_eventuallyEq ?_
    filter_upwards [gt_mem_nhds h] with y hy
    rw [max_eq_right (le_of_lt hy)]
    norm_num
  · subst h
    rw [max_self, mul_zero]
    have hO : (fun y : ℝ => max y 0 ^ 2) =O[nhds 0] fun y => ‖y - 0‖ ^ 2 := by
      refine Asymptotics.IsBigO.of_bound 1 (Eventually.of_forall fun y => ?_)
      rw [one_mul, norm_pow, norm_pow, norm_norm, sub_zero, Real.norm_eq_abs, Real.norm_eq_abs]
      refine pow_le_pow_left₀ (abs_nonneg _) ?_ 2
      rw [abs_of_nonneg (le_max_right _ _)]
      exact max_le (le_abs_self y) (abs_nonneg y)
    exact (hO.hasFDerivAt (by norm_num)).hasDerivAt
  · rw [max_eq_left h.le]
    have := (hasDerivAt_pow 2 x).congr_of_eventuallyEq (f₁ := fun y : ℝ => max y 0 ^ 2) (by
      filter_upwards [lt_mem_nhds h] with y hy
      rw [max_eq_left (le_of_lt hy)])
    simpa using this

/-- A smooth function close to the positive part. -/
def softPart (d x : ℝ) : ℝ := Real.sqrt (max x 0 ^ 2 + d ^ 2) - d

/-- Its derivative. -/
def softSlope (d x : ℝ) : ℝ := max x 0 / Real.sqrt (max x 0 ^ 2 + d ^ 2)

theorem softPart_deriv {d : ℝ} (hd : 0 < d) (x : ℝ) : HasDerivAt (softPart d) (softSlope d x) x := by
  have h := (((hasDerivAt_sq_posPart x).add_const (d ^ 2)).sqrt (by positivity)).sub_const d
  have e : softSlope d x = 2 * max x 0 / (2 * Real.sqrt (max x 0 ^ 2 + d ^ 2)) := by
    unfold softSlope
    rw [mul_div_mul_left _ _ two_ne_zero]
  rw [e]
  exact h

theorem softPart_bounds {d : ℝ} (hd : 0 < d) (x : ℝ) : 0 ≤ softPart d x ∧ softPart d x ≤ max x 0 ∧ max x 0 - d ≤ softPart d x := by
  have h0 : 0 ≤ max x 0 := le_max_right _ _
  unfold softPart
  refine ⟨?_, ?_, ?_⟩
  · have : d ≤ Real.sqrt (max x 0 ^ 2 + d ^ 2) := Real.le_sqrt_of_sq_le (by nlinarith)
    linarith
  · have : Real.sqrt (max x 0 ^ 2 + d ^ 2) ≤ max x 0 + d := Real.sqrt_le_iff.2 ⟨by linarith, by nlinarith⟩
    linarith
  · have : max x 0 ≤ Real.sqrt (max x 0 ^ 2 + d ^ 2) := Real.le_sqrt_of_sq_le (by nlinarith)
    linarith

theorem softSlope_bounds {d : ℝ} (hd : 0 < d) (x : ℝ) : 0 ≤ softSlope d x ∧ softSlope d x ≤ 1 := by
  have h0 : 0 ≤ max x 0 := le_max_right _ _
  have hs : 0 < Real.sqrt (max x 0 ^ 2 + d ^ 2) := Real.sqrt_pos.2 (by positivity)
  unfold softSlope
  refine ⟨by positivity, (div_le_one hs).2 (Real.le_sqrt_of_sq_le (by nlinarith))⟩

theorem softSlope_continuous {d : ℝ} (hd : 0 < d) : Continuous (softSlope d) := by
  unfold softSlope
  refine Continuous.div (by fun_prop) (by fun_prop) fun x => (Real.sqrt_pos.2 (by positivity)).ne'

theorem softPart_tendsto (x : ℝ) : Tendsto (fun n : ℕ => softPart (1 / (n + 1)) x) atTop (nhds (max x 0)) := by
  have h := tendsto_one_div_add_atTop_nhds_zero_nat (𝕜 := ℝ)
  have h1 := (tendsto_const_nhds (x := max x 0)).sub h
  rw [sub_zero] at h1
  exact tendsto_of_tendsto_of_tendsto_of_le_of_le h1 tendsto_const_nhds (fun n => (softPart_bounds (by positivity) x).2.2)
    fun n => (softPart_bounds (by positivity) x).2.1

theorem softSlope_tendsto (x : ℝ) : Tendsto (fun n : ℕ => softSlope (1 / (n + 1)) x) atTop (nhds (if 0 < x then 1 else 0)) := by
  have h := tendsto_one_div_add_atTop_nhds_zero_nat (𝕜 := ℝ)
  by_cases hx : 0 < x
  · rw [if_pos hx]
    have h1 : Tendsto (fun n : ℕ => max x 0 / Real.sqrt (max x 0 ^ 2 + (1 / ((n : ℝ) + 1)) ^ 2)) atTop
        (nhds (max x 0 / Real.sqrt (max x 0 ^ 2 + 0 ^ 2))) := by
      refine tendsto_const_nhds.div ?_ ?_
      · exact (Real.continuous_sqrt.tendsto _).comp (tendsto_const_nhds.add (h.pow 2))
      · rw [max_eq_left hx.le]
        exact (Real.sqrt_pos.2 (by positivity)).ne'
    rw [max_eq_left hx.le] at h1
    rw [zero_pow two_ne_zero, add_zero, Real.sqrt_sq hx.le, div_self hx.ne'] at h1
    unfold softSlope
    rwa [max_eq_left hx.le]
  · rw [if_neg hx]
    refine tendsto_const_nhds.congr fun n => ?_
    unfold softSlope
    rw [max_eq_right (not_lt.1 hx), zero_div]

/-- Product rule for the positive part of a smooth function. -/
theorem posPart_integral {f f' g g' : ℝ → ℝ} (hf : ∀ x, HasDerivAt f (f' x) x) (hg : ∀ x, HasDerivAt g (g' x) x)
    (cf : Continuous f') (cg : Continuous g') (a b : ℝ) :
    ∫ x in a..b, ((if 0 < f x then f' x * g x else 0) + max (f x) 0 * g' x) = max (f b) 0 * g b - max (f a) 0 * g a := by
  have cf0 : Continuous f := continuous_iff_continuousAt.2 fun x => (hf x).continuousAt
  have cg0 : Continuous g := continuous_iff_continuousAt.2 fun x => (hg x).continuousAt
  have hd : ∀ n : ℕ, (0 : ℝ) < 1 / (n + 1) := fun n => by positivity
  have cs : ∀ n : ℕ, Continuous fun x => softPart (1 / ((n : ℝ) + 1)) (f x) := fun n => by
    unfold softPart
    fun_prop
  have cd : ∀ n : ℕ, Continuous fun x => softSlope (1 / ((n : ℝ) + 1)) (f x) * f' x * g x + softPart (1 / ((n : ℝ) + 1)) (f x) * g' x := fun n =>
    ((((softSlope_continuous (hd n)).comp cf0).mul cf).mul cg0).add ((cs n).mul cg)
  have hn : ∀ n : ℕ, ∫ x in a..b, (softSlope (1 / ((n : ℝ) + 1)) (f x) * f' x * g x + softPart (1 / ((n : ℝ) + 1)) (f x) * g' x) =
      softPart (1 / ((n : ℝ) + 1)) (f b) * g b - softPart (1 / ((n : ℝ) + 1)) (f a) * g a := fun n =>
    intervalIntegral.integral_eq_sub_of_hasDerivAt (fun x _ => HasDerivAt.mul (HasDerivAt.comp x (softPart_deriv (hd n) (f x)) (hf x)) (hg x))
      ((cd n).intervalIntegrable _ _)
  have hlim : Tendsto (fun n : ℕ => softPart (1 / ((n : ℝ) + 1)) (f b) * g b - softPart (1 / ((n : ℝ) + 1)) (f a) * g a) atTop
      (nhds (max (f b) 0 * g b - max (f a) 0 * g a)) :=
    ((softPart_tendsto _).mul_const _).sub ((softPart_tendsto _).mul_const _)
  refine tendsto_nhds_unique (Tendsto.congr hn ?_) hlim
  refine intervalIntegral.tendsto_integral_filter_of_dominated_convergence (fun x => |f' x| * |g x| + max (f x) 0 * |g' x|) ?_ ?_ ?_ ?_
  · exact Eventually.of_forall fun n => (cd n).aestronglyMeasurable
  · refine Eventually.of_forall fun n => Eventually.of_forall fun x _ => ?_
    rw [Real.norm_eq_abs]
    obtain ⟨s1, s2⟩ := softSlope_bounds (hd n) (f x)
    obtain ⟨p1, p2, -⟩ := softPart_bounds (hd n) (f x)
    refine (abs_add_le _ _).trans (add_le_add ?_ ?_)
    · rw [abs_mul, abs_mul, abs_of_nonneg s1, mul_assoc]
      exact mul_le_of_le_one_left (by positivity) s2
    · rw [abs_mul, abs_of_nonneg p1]
      exact mul_le_mul_of_nonneg_right p2 (abs_nonneg _)
  · refine Continuous.intervalIntegrable ?_ _ _
    fun_prop
  · refine Eventually.of_forall fun x _ => ?_
    have h1 := (((softSlope_tendsto (f x)).mul_const (f' x)).mul_const (g x)).add ((softPart_tendsto (f x)).mul_const (g' x))
    convert h1 using 2
    split_ifs <;> ring

/-- A continuous function cut off outside an open set is integrable over compact sets. -/
theorem cut_integrableOn {X : Type*} [TopologicalSpace X] [MeasurableSpace X] [OpensMeasurableSpace X] [T2Space X] {μ : Measure X}
    [IsFiniteMeasureOnCompacts μ] {f c : X → ℝ} (hf : Continuous f) (hc : Continuous c) {K : Set X} (hK : IsCompact K) :
    IntegrableOn (fun p => if 0 < f p then c p else 0) K μ := by
  have h : (fun p => if 0 < f p then c p else 0) = Set.indicator {p | 0 < f p} c := by
    funext p
    by_cases hp : 0 < f p
    · rw [if_pos hp, Set.indicator_of_mem (show p ∈ {p | 0 < f p} from hp)]
    · rw [if_neg hp, Set.indicator_of_notMem (show p ∉ {p | 0 < f p} from hp)]
  rw [h]
  exact (hc.continuousOn.integrableOn_compact hK).indicator (isOpen_lt continuous_const hf).measurableSet

end Falwa

end
