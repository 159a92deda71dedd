import Verif.Props.Qgpv18Error
import Verif.Spec.Barotropic
import Mathlib.MeasureTheory.Integral.IntervalIntegral.FundThmCalculus

/-!
# C220: total error of the QGPV of `compute_qgpv` with the mean along the circle of latitude
-/

noncomputable section

namespace Falwa

open Real Spec Finset

/-- The mean of a function of bounded slope over the points of a regular grid on the circle. -/
theorem circle_quadrature {f : ℝ → ℝ} {K h : ℝ} {n : ℕ} (hn : 0 < n) (hh : h * n = 2 * π) (hK : ∀ x y, |f x - f y| ≤ K * |x - y|) :
    |(∑ r ∈ range n, f (r * h)) / n - longitudeMean f| ≤ K * h := by
  have hpi := pi_pos
  have hn' : (0 : ℝ) < n := by exact_mod_cast hn
  have h0 : 0 < h := by
    by_contra hc
    have := mul_nonpos_of_nonpos_of_nonneg (not_lt.1 hc) hn'.le
    linarith
  have K0 : 0 ≤ K := by
    have := (abs_nonneg _).trans (hK 1 0)
    simpa using this
  have hf : Continuous f := (LipschitzWith.of_dist_le_mul (K := ⟨K, K0⟩) fun x y => by rw [Real.dist_eq, Real.dist_eq]; exact hK x y).continuous
  have hint : ∫ l in (0 : ℝ)..2 * π, f l = ∑ r ∈ range n, ∫ l in (r : ℝ) * h..((r + 1 : ℕ) : ℝ) * h, f l := by
    rw [intervalIntegral.sum_integral_adjacent_intervals (a := fun r : ℕ => (r : ℝ) * h) fun r _ => hf.intervalIntegrable _ _, mul_comm (n : ℝ), hh]
    norm_num
  have hcell : ∀ r ∈ range n, |f (r * h) * h - ∫ l in (r : ℝ) * h..((r + 1 : ℕ) : ℝ) * h, f l| ≤ K * h * h := by
    intro r _
    have e1 : ((r + 1 : ℕ) : ℝ) * h - (r : ℝ) * h = h := by push_cast; ring
    have e : f (r * h) * h - ∫ l in (r : ℝ) * h..((r + 1 : ℕ) : ℝ) * h, f l = -∫ l in (r : ℝ) * h..((r + 1 : ℕ) : ℝ) * h, (f l - f (r * h)) := by
      rw [intervalIntegral.integral_sub (hf.intervalIntegrable _ _) intervalIntegrable_const, intervalIntegral.integral_const, smul_eq_mul, e1]
      ring
    rw [e, abs_neg, ← Real.norm_eq_abs]
    have := intervalIntegral.norm_integral_le_of_norm_le_const (a := (r : ℝ) * h) (b := ((r + 1 : ℕ) : ℝ) * h) (C := K * h) (f := fun l => f l - f (r * h))
      (fun l hl => by
        rw [Set.uIoc_of_le (by rw [← sub_nonneg, e1]; exact h0.le)] at hl
        have hl1 := hl.1
        have hl2 := hl.2
        rw [Real.norm_eq_abs]
        refine (hK l (r * h)).trans (mul_le_mul_of_nonneg_left ?_ K0)
        rw [abs_of_pos (by linarith)]
        linarith)
    rwa [e1, abs_of_pos h0] at this
  have hmean : (∑ r ∈ range n, f (r * h)) / n - longitudeMean f =
      (∑ r ∈ range n, (f (r * h) * h - ∫ l in (r : ℝ) * h..((r + 1 : ℕ) : ℝ) * h, f l)) / (2 * π) := by
    unfold longitudeMean
    rw [sum_sub_distrib, ← sum_mul, sub_div, ← hint]
    congr 1
    rw [div_eq_div_iff hn'.ne' (by positivity), mul_assoc, hh]
  rw [hmean, abs_div, abs_of_pos (by positivity : 0 < 2 * π), div_le_iff₀ (by positivity)]
  refine (abs_sum_le_sum_abs _ _).trans ((sum_le_sum hcell).trans (le_of_eq ?_))
  rw [sum_const, card_range, nsmul_eq_mul, ← hh]
  ring

namespace QgpvIn

variable {I : QgpvIn} {fl : ℝ → ℝ} {u p W D D' ε η dz Q K : ℝ} {sn cs ex ey t0 stat : ℤ → ℝ} {i j k : ℤ} {U V G G' G'' V' V'' : ℝ → ℝ → ℝ} {g g' g'' : ℝ → ℝ}

theorem flowMean_near (hsq : I.nlon = 2 * (I.nlat - 1)) (ha : 0 < I.a) (h1 : 2 ≤ j) (h2 : j ≤ I.nlat - 1)
    (hK : ∀ l m, |V' (I.phi j) l - G' (I.phi j) l - (V' (I.phi j) m - G' (I.phi j) m)| ≤ K * |l - m|) :
    |I.flowMean G' V' j - longitudeMean fun l => 2 * I.om * sin (I.phi j) + (V' (I.phi j) l - G' (I.phi j) l) / (I.a * cos (I.phi j))| ≤
      K * I.dphi / (I.a * cos (I.phi j)) := by
  have hN : (0 : ℝ) < ((I.nlat - 1 : ℤ) : ℝ) := by exact_mod_cast (by omega : 0 < I.nlat - 1)
  have k0 : 0 < cos (I.phi j) := by
    have := cos_phi_ge (I := I) h1 h2
    by_contra hc
    have := mul_nonpos_of_nonpos_of_nonneg (not_lt.1 hc) hN.le
    linarith
  have c0 : 0 < I.a * cos (I.phi j) := by positivity
  obtain ⟨n, hn⟩ : ∃ n : ℕ, I.nlon = n := ⟨I.nlon.toNat, by omega⟩
  have n0 : 0 < n := by omega
  have hnr : (I.nlon : ℝ) = n := by rw [hn]; simp
  have hh : I.dphi * n = 2 * π := by
    have : (n : ℝ) = 2 * ((I.nlat - 1 : ℤ) : ℝ) := by
      rw [← hnr, hsq]
      push_cast
      ring
    unfold dphi
    rw [this]
    field_simp
  have q := circle_quadrature (f := fun l => 2 * I.om * sin (I.phi j) + (V' (I.phi j) l - G' (I.phi j) l) / (I.a * cos (I.phi j))) (K := K / (I.a * cos (I.phi j))) n0 hh
    (fun x y => by
      rw [add_sub_add_left_eq_sub, ← sub_div, abs_div, abs_of_pos c0, div_mul_eq_mul_div]
      exact div_le_div_of_nonneg_right (hK x y) c0.le)
  have e : I.flowMean G' V' j = (∑ r ∈ range n, (2 * I.om * sin (I.phi j) + (V' (I.phi j) (r * I.dphi) - G' (I.phi j) (r * I.dphi)) / (I.a * cos (I.phi j)))) / n := by
    unfold flowMean
    rw [hnr, hn]
    congr 1
    refine Finset.sum_nbij' (fun i => (i - 1).toNat) (fun r => (r : ℤ) + 1) (fun i hi => ?_) (fun r hr => ?_) (fun i hi => ?_) (fun r hr => ?_) fun i hi => ?_
    · rw [mem_Icc] at hi; rw [mem_range]; omega
    · rw [mem_range] at hr; rw [mem_Icc]; omega
    · rw [mem_Icc] at hi; omega
    · omega
    · rw [mem_Icc] at hi
      have e2 : (((i - 1).toNat : ℕ) : ℝ) = ((i - 1 : ℤ) : ℝ) := by exact_mod_cast Int.toNat_of_nonneg (by omega : 0 ≤ i - 1)
      rw [e2]
      rfl
  rw [e]
  refine q.trans (le_of_eq ?_)
  ring

/-- **C220.** The QGPV that `compute_qgpv` returns between the poles, against the QGPV of the flow with the mean of its absolute vorticity along the circle of latitude in the
stretching term. -/
theorem C220_total (hw : SmoothWind U V G G' G'' V' V'' D) (hh : I.Holds U V k ε) (h : I.Computed u fl p sn cs ex ey) (hU : ∀ i j k, |I.u i j k| ≤ W)
    (hV : ∀ i j k, |I.v i j k| ≤ W) (hz : ∀ k, 1 ≤ k → k < I.kmax → I.height k < I.height (k + 1))
    (hQ : ∀ i, 1 ≤ i → i ≤ I.nlon → |I.flowVorticity G' V' j i| ≤ Q) (hc : I.Column t0 stat i j k g g' g'' D' η dz)
    (hK : ∀ l m, |V' (I.phi j) l - G' (I.phi j) l - (V' (I.phi j) m - G' (I.phi j) m)| ≤ K * |l - m|)
    (hi1 : 1 ≤ i) (hi2 : i ≤ I.nlon) (h1 : 2 ≤ j) (h2 : j ≤ I.nlat - 1) (hk1 : 2 ≤ k) (hk2 : k ≤ I.kmax - 1) :
    |I.flPv18 fl p sn cs ex ey t0 stat i j k - (2 * I.om * sin (I.phi j) +
        (V' (I.phi j) (((i - 1 : ℤ) : ℝ) * I.dphi) - G' (I.phi j) (((i - 1 : ℤ) : ℝ) * I.dphi)) / (I.a * cos (I.phi j)) +
        longitudeMean (fun l => 2 * I.om * sin (I.phi j) + (V' (I.phi j) l - G' (I.phi j) l) / (I.a * cos (I.phi j))) *
          (exp (I.height k / I.h) * g' (I.height k)))| ≤
      (2 * D * I.dphi ^ 2 / (I.a * cos (I.phi j)) + 2 * ε / (I.a * cos (I.phi j) * I.dphi)) *
          (1 + exp (I.height k / I.h) * (|g' (I.height k)| + (D' * dz ^ 2 + η / dz))) +
        Q * (exp (I.height k / I.h) * (D' * dz ^ 2 + η / dz)) +
        K * I.dphi / (I.a * cos (I.phi j)) * (exp (I.height k / I.h) * |g' (I.height k)|) +
      ((1 + 72 * u) * (1 + 21 * u) * (1 + 16 * u) * (1 + 2 * u) * (1 + u) ^ (I.nlon.toNat + 6) - 1) *
        ((2 * |I.om| + 2 * W / (I.a * cos (I.phi j) ^ 2 * I.dphi)) *
          (1 + exp (I.height k / I.h) * ((|I.alt t0 stat i j (k + 1)| + |I.alt t0 stat i j (k - 1)|) / (2 * dz)))) := by
  have t := C218_total hw hh h hU hV hz hQ hc hi1 hi2 h1 h2 hk1 hk2
  have m := flowMean_near (V' := V') (G' := G') hh.square h.radius h1 h2 hK
  have E0 := exp_pos (I.height k / I.h)
  set Mc := longitudeMean (fun l => 2 * I.om * sin (I.phi j) + (V' (I.phi j) l - G' (I.phi j) l) / (I.a * cos (I.phi j))) with hMc
  have b : |(I.flowMean G' V' j - Mc) * (exp (I.height k / I.h) * g' (I.height k))| ≤
      K * I.dphi / (I.a * cos (I.phi j)) * (exp (I.height k / I.h) * |g' (I.height k)|) := by
    rw [abs_mul, abs_mul, abs_of_pos E0]
    exact mul_le_mul_of_nonneg_right m (by positivity)
  have f : 2 * I.om * sin (I.phi j) + (V' (I.phi j) (((i - 1 : ℤ) : ℝ) * I.dphi) - G' (I.phi j) (((i - 1 : ℤ) : ℝ) * I.dphi)) / (I.a * cos (I.phi j)) =
      I.flowVorticity G' V' j i := rfl
  rw [f]
  have tri := abs_add_le (I.flPv18 fl p sn cs ex ey t0 stat i j k - (I.flowVorticity G' V' j i + I.flowMean G' V' j * (exp (I.height k / I.h) * g' (I.height k))))
    ((I.flowMean G' V' j - Mc) * (exp (I.height k / I.h) * g' (I.height k)))
  refine le_trans (le_of_eq (congrArg _ (by ring))) (tri.trans ?_)
  linarith

/-- The slope that C220 asks for, for the wave `wavy`; its other hypotheses are those of C218. -/
example : ∀ l m, |-(10 * sin l) - -(10 * sin (2 * wavy.phi 100)) * sin l - (-(10 * sin m) - -(10 * sin (2 * wavy.phi 100)) * sin m)| ≤ 20 * |l - m| := by
  intro l m
  have s := abs_sin_le_one (2 * wavy.phi 100)
  have e : -(10 * sin l) - -(10 * sin (2 * wavy.phi 100)) * sin l - (-(10 * sin m) - -(10 * sin (2 * wavy.phi 100)) * sin m) =
      (10 * sin (2 * wavy.phi 100) - 10) * (sin l - sin m) := by ring
  rw [e, abs_mul]
  refine mul_le_mul ?_ (abs_sin_sub_sin_le l m) (abs_nonneg _) (by norm_num)
  rw [abs_le] at s ⊢
  constructor <;> linarith [s.1, s.2]

end QgpvIn

end Falwa

end
