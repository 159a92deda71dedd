import Verif.Lemmas.SourceSums
import Verif.Props.Rearrange
import Verif.Props.Defaults
import Verif.Spec.Waves
import Mathlib.MeasureTheory.Measure.Prod
import Mathlib.MeasureTheory.Group.Measure
import Mathlib.MeasureTheory.Measure.Lebesgue.Basic
import Mathlib.MeasureTheory.Measure.Lebesgue.Integral
import Mathlib.MeasureTheory.Measure.Haar.Unique

/-! # Sums over the rows of a part of the sphere whose edge tends to a latitude -/

noncomputable section

namespace Falwa

open Finset Spec MeasureTheory Filter

/-! ### Cells -/

/-- Sums over the cells of a grid of spacing `h` that starts at `s` and ends near `n`. -/
theorem grid_sums {F : ℝ → ℝ → ℝ} (hc : Continuous fun p : ℝ × ℝ => F p.1 p.2) {s n : ℝ} (hsn : s ≤ n) {N M : ℕ → ℕ} {h : ℕ → ℝ}
    (h0 : ∀ i, 0 ≤ h i) (hN : Tendsto N atTop atTop) (hM : Tendsto M atTop atTop)
    (hL : Tendsto (fun i => N i * h i) atTop (nhds (n - s))) :
    Tendsto (fun i => ∑ r ∈ range (N i), ∑ c ∈ range (M i), F (s + r * h i) (c * (2 * Real.pi / M i)) * (h i * (2 * Real.pi / M i)))
      atTop (nhds (∫ p in band s n, F p.1 p.2)) := by
  have hpi := Real.pi_pos
  have key := tendsto_double_sum hc hsn (by positivity : (0 : ℝ) ≤ 2 * Real.pi) hN hM
  simp only [zero_add, sub_zero] at key
  have hK : IsCompact (Set.Icc s (n + 1) ×ˢ Set.Icc 0 (2 * Real.pi)) := isCompact_Icc.prod isCompact_Icc
  obtain ⟨B, hB⟩ := hK.exists_bound_of_continuousOn hc.continuousOn
  have hB0 : 0 ≤ B := (norm_nonneg _).trans (hB (s, 0) ⟨⟨le_rfl, by linarith⟩, ⟨le_rfl, by positivity⟩⟩)
  have huc := hK.uniformContinuousOn_of_continuous (f := fun p : ℝ × ℝ => F p.1 p.2) hc.continuousOn
  rw [Metric.uniformContinuousOn_iff] at huc
  rw [Metric.tendsto_nhds] at key ⊢
  intro ε hε
  have hw : 0 < 2 * Real.pi * (n - s + 1) := mul_pos (by positivity) (by linarith)
  obtain ⟨δ, hδ, hu⟩ := huc (ε / (3 * (2 * Real.pi * (n - s + 1)))) (by positivity)
  set ε1 := ε / (3 * (2 * Real.pi * (n - s + 1))) with hε1
  have e1 : 2 * Real.pi * (ε1 * (n - s + 1)) = ε / 3 := by
    have hne : n - s + 1 ≠ 0 := by linarith
    rw [hε1]
    generalize n - s + 1 = d at hne ⊢
    field_simp
  have hε1p : 0 < ε1 := by positivity
  set η := min (min δ 1) (ε / (3 * (2 * Real.pi * B + 1))) with hη
  have hηp : 0 < η := by positivity
  have hBη : 2 * Real.pi * (B * η) < ε / 3 := by
    have h1 : η ≤ ε / (3 * (2 * Real.pi * B + 1)) := min_le_right _ _
    have h2 : (2 * Real.pi * B + 1) * η ≤ ε / 3 := by
      calc (2 * Real.pi * B + 1) * η ≤ (2 * Real.pi * B + 1) * (ε / (3 * (2 * Real.pi * B + 1))) :=
            mul_le_mul_of_nonneg_left h1 (by positivity)
        _ = ε / 3 := by field_simp
    nlinarith
  filter_upwards [key (ε / 3) (by positivity), Metric.tendsto_nhds.1 hL η hηp, hN.eventually_ge_atTop 1, hM.eventually_ge_atTop 1]
    with i k1 k2 p1 p2
  have n0 : (0 : ℝ) < N i := by exact_mod_cast p1
  have m0 : (0 : ℝ) < M i := by exact_mod_cast p2
  rw [Real.dist_eq] at k1 k2 ⊢
  set D := |(N i : ℝ) * h i - (n - s)| with hD
  have hDη : D < min δ 1 := lt_of_lt_of_le k2 (min_le_left _ _)
  have hdd : |h i - (n - s) / N i| * N i = D := by
    rw [hD, ← abs_of_pos n0, ← abs_mul, abs_of_pos n0]
    congr 1
    field_simp
  have hterm : ∀ r ∈ range (N i), ∀ c ∈ range (M i),
      |F (s + r * h i) (c * (2 * Real.pi / M i)) * (h i * (2 * Real.pi / M i)) -
        F (s + r * ((n - s) / N i)) (c * (2 * Real.pi / M i)) * ((n - s) / N i * (2 * Real.pi / M i))| ≤
        (ε1 * h i + B * |h i - (n - s) / N i|) * (2 * Real.pi / M i) := by
    intro r hr c hcm
    have hr' : (r : ℝ) ≤ N i := by exact_mod_cast (mem_range.1 hr).le
    have hc' : (c : ℝ) ≤ M i := by exact_mod_cast (mem_range.1 hcm).le
    have hd0 : 0 ≤ (n - s) / N i := div_nonneg (by linarith) n0.le
    have hy : (c : ℝ) * (2 * Real.pi / M i) ∈ Set.Icc 0 (2 * Real.pi) := by
      refine ⟨by positivity, ?_⟩
      rw [← mul_div_assoc, div_le_iff₀ m0]
      nlinarith
    have hx1 : s + r * h i ∈ Set.Icc s (n + 1) := by
      have a1 : (r : ℝ) * h i ≤ N i * h i := mul_le_mul_of_nonneg_right hr' (h0 i)
      have a2 : 0 ≤ (r : ℝ) * h i := mul_nonneg (Nat.cast_nonneg _) (h0 i)
      have a3 := (abs_lt.1 (lt_of_lt_of_le hDη (min_le_right _ _))).2
      exact ⟨by linarith, by linarith⟩
    have hx2 : s + r * ((n - s) / N i) ∈ Set.Icc s (n + 1) := by
      have a1 : (r : ℝ) * ((n - s) / N i) ≤ N i * ((n - s) / N i) := mul_le_mul_of_nonneg_right hr' hd0
      rw [mul_div_cancel₀ _ n0.ne'] at a1
      have a2 : 0 ≤ (r : ℝ) * ((n - s) / N i) := by positivity
      exact ⟨by linarith, by linarith⟩
    have hclose : |F (s + r * h i) (c * (2 * Real.pi / M i)) - F (s + r * ((n - s) / N i)) (c * (2 * Real.pi / M i))| ≤ ε1 := by
      have := hu (s + r * h i, c * (2 * Real.pi / M i)) ⟨hx1, hy⟩ (s + r * ((n - s) / N i), c * (2 * Real.pi / M i)) ⟨hx2, hy⟩ (by
        rw [Prod.dist_eq, max_lt_iff, Real.dist_eq, dist_self]
        refine ⟨?_, hδ⟩
        have : s + (r : ℝ) * h i - (s + r * ((n - s) / N i)) = (h i - (n - s) / N i) * r := by ring
        show |s + (r : ℝ) * h i - (s + r * ((n - s) / N i))| < δ
        rw [this, abs_mul, abs_of_nonneg (Nat.cast_nonneg r : (0 : ℝ) ≤ r)]
        calc |h i - (n - s) / N i| * r ≤ |h i - (n - s) / N i| * N i := mul_le_mul_of_nonneg_left hr' (abs_nonneg _)
          _ = D := hdd
          _ < δ := lt_of_lt_of_le hDη (min_le_left _ _))
      rw [Real.dist_eq] at this
      exact this.le
    have hbd : |F (s + r * ((n - s) / N i)) (c * (2 * Real.pi / M i))| ≤ B :=
      hB (s + r * ((n - s) / N i), c * (2 * Real.pi / M i)) ⟨hx2, hy⟩
    have hk : 0 ≤ 2 * Real.pi / (M i : ℝ) := by positivity
    generalize F (s + r * h i) (c * (2 * Real.pi / M i)) = u at hclose ⊢
    generalize F (s + r * ((n - s) / N i)) (c * (2 * Real.pi / M i)) = w at hclose hbd ⊢
    have e : u * (h i * (2 * Real.pi / M i)) - w * ((n - s) / N i * (2 * Real.pi / M i)) =
        ((u - w) * h i + w * (h i - (n - s) / N i)) * (2 * Real.pi / M i) := by ring
    rw [e, abs_mul, abs_of_nonneg hk]
    refine mul_le_mul_of_nonneg_right ((abs_add_le _ _).trans (add_le_add ?_ ?_)) hk
    · rw [abs_mul, abs_of_nonneg (h0 i)]
      exact mul_le_mul_of_nonneg_right hclose (h0 i)
    · rw [abs_mul]
      exact mul_le_mul_of_nonneg_right hbd (abs_nonneg _)
  have hsum : |(∑ r ∈ range (N i), ∑ c ∈ range (M i), F (s + r * h i) (c * (2 * Real.pi / M i)) * (h i * (2 * Real.pi / M i))) -
      ∑ r ∈ range (N i), ∑ c ∈ range (M i), F (s + r * ((n - s) / N i)) (c * (2 * Real.pi / M i)) *
        ((n - s) / N i * (2 * Real.pi / M i))| ≤ 2 * Real.pi * (ε1 * (N i * h i) + B * D) := by
    rw [← sum_sub_distrib]
    refine (abs_sum_le_sum_abs _ _).trans ?_
    calc ∑ r ∈ range (N i), |_| ≤ ∑ r ∈ range (N i), (M i : ℝ) * ((ε1 * h i + B * |h i - (n - s) / N i|) * (2 * Real.pi / M i)) := by
          refine sum_le_sum fun r hr => ?_
          rw [← sum_sub_distrib]
          refine (abs_sum_le_sum_abs _ _).trans ?_
          refine (sum_le_sum fun c hcm => hterm r hr c hcm).trans ?_
          rw [sum_const, card_range, nsmul_eq_mul]
      _ = 2 * Real.pi * (ε1 * (N i * h i) + B * D) := by
          rw [sum_const, card_range, nsmul_eq_mul, ← hdd]
          field_simp
  have hNh : (N i : ℝ) * h i ≤ n - s + 1 := by
    have a3 := (abs_lt.1 (lt_of_lt_of_le hDη (min_le_right _ _))).2
    linarith
  have b1 : 2 * Real.pi * (ε1 * (N i * h i) + B * D) ≤ ε / 3 + 2 * Real.pi * (B * η) := by
    rw [← e1]
    have c1 : ε1 * (N i * h i) ≤ ε1 * (n - s + 1) := mul_le_mul_of_nonneg_left hNh hε1p.le
    have c2 : B * D ≤ B * η := mul_le_mul_of_nonneg_left k2.le hB0
    nlinarith
  have tri := abs_sub_le (∑ r ∈ range (N i), ∑ c ∈ range (M i), F (s + r * h i) (c * (2 * Real.pi / M i)) * (h i * (2 * Real.pi / M i)))
    (∑ r ∈ range (N i), ∑ c ∈ range (M i), F (s + r * ((n - s) / N i)) (c * (2 * Real.pi / M i)) *
        ((n - s) / N i * (2 * Real.pi / M i))) (∫ p in band s n, F p.1 p.2)
  have k1' : |(∑ r ∈ range (N i), ∑ c ∈ range (M i), F (s + r * ((n - s) / N i)) (c * (2 * Real.pi / M i)) *
        ((n - s) / N i * (2 * Real.pi / M i))) - ∫ p in band s n, F p.1 p.2| < ε / 3 := k1
  linarith

/-- Contour values on such grids tend to the value that encloses the limit of the areas. -/
theorem contour_near {a s n T v : ℝ} {q : ℝ → ℝ → ℝ} (hq : Continuous fun p : ℝ × ℝ => q p.1 p.2)
    (h1 : -(Real.pi / 2) ≤ s) (hsn : s ≤ n) (h2 : n ≤ Real.pi / 2) {N M : ℕ → ℕ} {h : ℕ → ℝ}
    (h0 : ∀ i, 0 ≤ h i) (hN : Tendsto N atTop atTop) (hM : Tendsto M atTop atTop)
    (hL : Tendsto (fun i => N i * h i) atTop (nhds (n - s))) (hin : ∀ i, ∀ r < N i, s + r * h i ≤ Real.pi / 2)
    (hv : Encloses a q s n T v) {t : ℕ → ℝ} (ht : Tendsto t atTop (nhds T)) {u : ℕ → ℝ}
    (hu : ∀ᶠ i in atTop, IsContour (N i) (M i) (fun r c => q (s + r * h i) (c * (2 * Real.pi / M i)))
      (fun r _ => a ^ 2 * Real.cos (s + r * h i) * (h i * (2 * Real.pi / M i))) (t i) (u i)) :
    Tendsto u atTop (nhds v) := by
  have hpi := Real.pi_pos
  have hpos : ∀ i, ∀ r ∈ range (N i), 0 ≤ a ^ 2 * Real.cos (s + r * h i) * (h i * (2 * Real.pi / M i)) := by
    intro i r hr
    have hn := hin i r (mem_range.1 hr)
    have hh := h0 i
    have h3 : 0 ≤ (r : ℝ) * h i := by positivity
    have hcos : 0 ≤ Real.cos (s + r * h i) := Real.cos_nonneg_of_mem_Icc ⟨by linarith, hn⟩
    positivity
  have sums : ∀ χ : ℝ → ℝ, Continuous χ → Tendsto (fun i => ∑ r ∈ range (N i), ∑ c ∈ range (M i),
      χ (q (s + r * h i) (c * (2 * Real.pi / M i))) * (a ^ 2 * Real.cos (s + r * h i) * (h i * (2 * Real.pi / M i)))) atTop
      (nhds (∫ p in band s n, χ (q p.1 p.2) * (a ^ 2 * Real.cos p.1))) := by
    intro χ hχ
    have hc : Continuous fun p : ℝ × ℝ => (fun x y => χ (q x y) * (a ^ 2 * Real.cos x)) p.1 p.2 := (hχ.comp hq).mul (by fun_prop)
    refine (grid_sums (F := fun x y => χ (q x y) * (a ^ 2 * Real.cos x)) hc hsn h0 hN hM hL).congr fun i => sum_congr rfl fun r _ => sum_congr rfl fun c _ => by ring
  rw [tendsto_order]
  constructor
  · intro w hw
    set w1 := (w + v) / 2 with hw1
    have hlt : w < w1 := by rw [hw1]; linarith
    have hA : ∫ p in band s n, ramp w w1 (q p.1 p.2) * (a ^ 2 * Real.cos p.1) < T :=
      lt_of_le_of_lt (ramp_between hq h1 h2 hlt).2 (hv.below w1 (by rw [hw1]; linarith))
    obtain ⟨B, hB1, hB2⟩ := exists_between hA
    filter_upwards [hu, (sums _ (ramp_continuous w w1)).eventually (gt_mem_nhds hB1), ht.eventually (lt_mem_nhds hB2)] with i hi hi1 hi2
    by_contra hcon
    push Not at hcon
    have hle : areaUpTo (N i) (M i) (fun r c => q (s + r * h i) (c * (2 * Real.pi / M i)))
        (fun r _ => a ^ 2 * Real.cos (s + r * h i) * (h i * (2 * Real.pi / M i))) (u i) ≤
        ∑ r ∈ range (N i), ∑ c ∈ range (M i), ramp w w1 (q (s + r * h i) (c * (2 * Real.pi / M i))) *
          (a ^ 2 * Real.cos (s + r * h i) * (h i * (2 * Real.pi / M i))) := by
      unfold areaUpTo
      refine sum_le_sum fun r hr => sum_le_sum fun c _ => ?_
      have hp := hpos i r hr
      split_ifs with h3
      · rw [ramp_eq_one hlt (h3.trans hcon), one_mul]
      · exact mul_nonneg (ramp_nonneg _ _ _) hp
    have := hi.2
    linarith
  · intro w hw
    set w1 := (w + v) / 2 with hw1
    have hlt : w1 < w := by rw [hw1]; linarith
    have hA : T < ∫ p in band s n, ramp w1 w (q p.1 p.2) * (a ^ 2 * Real.cos p.1) :=
      lt_of_lt_of_le (hv.above w1 (by rw [hw1]; linarith)) (ramp_between hq h1 h2 hlt).1
    obtain ⟨B, hB1, hB2⟩ := exists_between hA
    filter_upwards [hu, (sums _ (ramp_continuous w1 w)).eventually (lt_mem_nhds hB2), ht.eventually (gt_mem_nhds hB1)] with i hi hi1 hi2
    by_contra hcon
    push Not at hcon
    have hle : ∑ r ∈ range (N i), ∑ c ∈ range (M i), ramp w1 w (q (s + r * h i) (c * (2 * Real.pi / M i))) *
          (a ^ 2 * Real.cos (s + r * h i) * (h i * (2 * Real.pi / M i))) ≤
        areaBelow (N i) (M i) (fun r c => q (s + r * h i) (c * (2 * Real.pi / M i)))
        (fun r _ => a ^ 2 * Real.cos (s + r * h i) * (h i * (2 * Real.pi / M i))) (u i) := by
      unfold areaBelow
      refine sum_le_sum fun r hr => sum_le_sum fun c _ => ?_
      have hp := hpos i r hr
      split_ifs with h3
      · exact mul_le_of_le_one_left hp (ramp_le_one _ _ _)
      · rw [ramp_eq_zero hlt (hcon.trans (not_lt.1 h3)), zero_mul]
    have := hi.1
    linarith

/-- The profile that `eqvlat_fawa` returns for the rows from the South Pole to an edge that tends to `n`. -/
theorem profile_near {a n φ v : ℝ} {q : ℝ → ℝ → ℝ} (ha : 0 < a) (hq : Continuous fun p : ℝ × ℝ => q p.1 p.2)
    (h2 : n ≤ Real.pi / 2) {N M : ℕ → ℕ} {h : ℕ → ℝ}
    (h0 : ∀ i, 0 ≤ h i) (hN : Tendsto N atTop atTop) (hM : Tendsto M atTop atTop)
    (hL : Tendsto (fun i => N i * h i) atTop (nhds (n - -(Real.pi / 2))))
    (hin : ∀ i, ∀ r < N i, -(Real.pi / 2) + r * h i ≤ Real.pi / 2) {I : ℕ → EqvInput} (hI : ∀ i, (I i).Sensible)
    (e1 : ∀ i, (I i).nlat = N i) (e2 : ∀ i, (I i).nlon = M i)
    (e3 : ∀ i, ∀ r < N i, ∀ c < M i, (I i).vort r c = q (-(Real.pi / 2) + r * h i) (c * (2 * Real.pi / M i)))
    (e4 : ∀ i, ∀ r < N i, ∀ c < M i, (I i).area r c = a ^ 2 * Real.cos (-(Real.pi / 2) + r * h i) * (h i * (2 * Real.pi / M i)))
    (e5 : ∀ i, (I i).radius = a) (hp : ∀ i, 2 ≤ (I i).nPoints) (hpt : Tendsto (fun i => (I i).nPoints) atTop atTop) {j : ℕ → ℕ}
    (hy : ∀ i, -90 ≤ (I i).ylat (j i) ∧ (I i).ylat (j i) ≤ 90)
    (hrow : Tendsto (fun i => (I i).ylat (j i) * Real.pi / 180) atTop (nhds φ)) (hφ : φ < n) (hφ' : -(Real.pi / 2) < φ)
    (hv : Encloses a q (-(Real.pi / 2)) n (southCap a φ) v) {Q : ℕ → ℕ → ℝ} (hQ : ∀ i, (I i).qref = .ok (Q i)) :
    Tendsto (fun i => Q i (j i)) atTop (nhds v) := by
  have hpi := Real.pi_pos
  have hs : -(Real.pi / 2) ≤ n := by linarith
  set ar : ℕ → ℕ → ℕ → ℝ := fun i r _ => a ^ 2 * Real.cos (-(Real.pi / 2) + r * h i) * (h i * (2 * Real.pi / M i)) with har
  set f : ℕ → ℕ → ℕ → ℝ := fun i r c => q (-(Real.pi / 2) + r * h i) (c * (2 * Real.pi / M i)) with hf
  set t : ℕ → ℝ := fun i => southCap a ((I i).ylat (j i) * Real.pi / 180) with ht
  have htT : Tendsto t atTop (nhds (southCap a φ)) := by
    have hc : Continuous (southCap a) := by unfold southCap; fun_prop
    exact (hc.tendsto φ).comp hrow
  have hpos : ∀ i, ∀ r < N i, ∀ c < M i, 0 ≤ ar i r c := by
    intro i r hr c _
    have hn := hin i r hr
    have hh := h0 i
    have h3 : 0 ≤ (r : ℝ) * h i := by positivity
    have hcos : 0 ≤ Real.cos (-(Real.pi / 2) + r * h i) := Real.cos_nonneg_of_mem_Icc ⟨by linarith, hn⟩
    simp only [har]
    positivity
  have htot : ∀ᶠ i in atTop, t i < ∑ r ∈ range (N i), ∑ c ∈ range (M i), ar i r c := by
    have hc : Continuous fun p : ℝ × ℝ => (fun x _ : ℝ => a ^ 2 * Real.cos x) p.1 p.2 := by fun_prop
    have lim := grid_sums (F := fun x _ : ℝ => a ^ 2 * Real.cos x) hc hs h0 hN hM hL
    rw [show (∫ p in band (-(Real.pi / 2)) n, (fun x _ : ℝ => a ^ 2 * Real.cos x) p.1 p.2) =
      2 * Real.pi * a ^ 2 * (Real.sin n - Real.sin (-(Real.pi / 2))) from band_area hs] at lim
    have hlt : southCap a φ < 2 * Real.pi * a ^ 2 * (Real.sin n - Real.sin (-(Real.pi / 2))) := by
      have hsin : Real.sin φ < Real.sin n := Real.sin_lt_sin_of_lt_of_le_pi_div_two hφ'.le h2 hφ
      unfold southCap
      rw [Real.sin_neg, Real.sin_pi_div_two]
      have : 0 < 2 * Real.pi * a ^ 2 := by positivity
      nlinarith
    obtain ⟨B, hB1, hB2⟩ := exists_between hlt
    filter_upwards [lim.eventually (lt_mem_nhds hB2), htT.eventually (gt_mem_nhds hB1)] with i hi1 hi2
    exact hi2.trans hi1
  have hex : ∀ i, ∃ u, t i < ∑ r ∈ range (N i), ∑ c ∈ range (M i), ar i r c → IsContour (N i) (M i) (f i) (ar i) (t i) u := by
    intro i
    by_cases hlt : t i < ∑ r ∈ range (N i), ∑ c ∈ range (M i), ar i r c
    · have h0 : 0 ≤ t i := by
        have := Real.neg_one_le_sin ((I i).ylat (j i) * Real.pi / 180)
        simp only [ht, southCap]
        have : 0 ≤ 1 + Real.sin ((I i).ylat (j i) * Real.pi / 180) := by linarith
        positivity
      obtain ⟨u, hu, _⟩ := C115_contour_exists_unique (q := f i) (hpos i) h0 hlt
      exact ⟨u, fun _ => hu⟩
    · exact ⟨0, fun h' => absurd h' hlt⟩
  choose u hu using hex
  have hucont : ∀ᶠ i in atTop, IsContour (N i) (M i) (f i) (ar i) (t i) (u i) := htot.mono fun i hi => hu i hi
  have hulim : Tendsto u atTop (nhds v) := contour_near hq le_rfl hs h2 h0 hN hM hL hin hv htT hucont
  obtain ⟨B, hB⟩ := (isCompact_band (-(Real.pi / 2)) (Real.pi / 2)).exists_bound_of_continuousOn hq.continuousOn
  have hrange : ∀ i, amax (I i).nlat (I i).nlon (I i).vort - amin (I i).nlat (I i).nlon (I i).vort ≤ 2 * B := by
    intro i
    have hne : (cells (I i).nlat (I i).nlon).Nonempty := cells_nonempty (hI i).nlat_pos (hI i).nlon_pos
    have hb : ∀ p ∈ cells (I i).nlat (I i).nlon, |(I i).vort p.1 p.2| ≤ B := by
      intro p hpc
      obtain ⟨hr, hc⟩ := mem_cells.1 hpc
      rw [e1] at hr
      rw [e2] at hc
      have hm : (0 : ℝ) < M i := by exact_mod_cast (by omega : 0 < M i)
      have hh := h0 i
      rw [e3 i _ hr _ hc]
      refine hB (-(Real.pi / 2) + p.1 * h i, p.2 * (2 * Real.pi / M i)) ⟨⟨?_, hin i _ hr⟩, ?_, ?_⟩
      · show -(Real.pi / 2) ≤ -(Real.pi / 2) + p.1 * h i
        have : 0 ≤ (p.1 : ℝ) * h i := by positivity
        linarith
      · positivity
      · show (p.2 : ℝ) * (2 * Real.pi / M i) ≤ 2 * Real.pi
        rw [← mul_div_assoc, div_le_iff₀ hm]
        have : (p.2 : ℝ) ≤ M i := by exact_mod_cast hc.le
        nlinarith
    obtain ⟨p, hp, e1⟩ := exists_amax (vort := (I i).vort) hne
    obtain ⟨p', hp', e2⟩ := exists_amin (vort := (I i).vort) hne
    have b1 := abs_le.1 (hb p hp)
    have b2 := abs_le.1 (hb p' hp')
    rw [e1, e2]
    linarith [b1.2, b2.1]
  have hdiff : Tendsto (fun i => Q i (j i) - u i) atTop (nhds 0) := by
    have hz : Tendsto (fun i => 2 * B / ((((I i).nPoints - 1 : ℕ) : ℕ) : ℝ)) atTop (nhds 0) :=
      tendsto_const_nhds.div_atTop (tendsto_natCast_atTop_atTop.comp ((tendsto_sub_atTop_nat 1).comp hpt))
    refine squeeze_zero_norm' (hucont.mono fun i hi => ?_) hz
    have hc : IsContour (I i).nlat (I i).nlon (I i).vort (I i).area (southOf (I i).radius ((I i).ylat (j i))) (u i) := by
      have s1 : areaBelow (I i).nlat (I i).nlon (I i).vort (I i).area (u i) = areaBelow (N i) (M i) (f i) (ar i) (u i) := by
        unfold areaBelow
        rw [e1, e2]
        refine sum_congr rfl fun r hr => sum_congr rfl fun c hc => ?_
        rw [e3 i r (mem_range.1 hr) c (mem_range.1 hc), e4 i r (mem_range.1 hr) c (mem_range.1 hc)]
      have s2 : areaUpTo (I i).nlat (I i).nlon (I i).vort (I i).area (u i) = areaUpTo (N i) (M i) (f i) (ar i) (u i) := by
        unfold areaUpTo
        rw [e1, e2]
        refine sum_congr rfl fun r hr => sum_congr rfl fun c hc => ?_
        rw [e3 i r (mem_range.1 hr) c (mem_range.1 hc), e4 i r (mem_range.1 hr) c (mem_range.1 hc)]
      rw [e5]
      exact ⟨by rw [s1]; exact hi.1, by rw [s2]; exact hi.2⟩
    obtain ⟨Q', q1, q2⟩ := EqvInput.C115_within_interval (hI i) (hp i) (hy i) hc
    rw [hQ i] at q1
    cases q1
    rw [Real.norm_eq_abs]
    exact q2.trans (div_le_div_of_nonneg_right (hrange i) (Nat.cast_nonneg _))
  have := hdiff.add hulim
  simpa using this

/-! ### Rows -/

theorem near_of_bound {s t : ℝ} {m : ℕ → ℕ} {x : ℕ → ℕ → ℝ} {e : ℕ → ℝ} (he : Tendsto e atTop (nhds 0))
    (hx : ∀ n r, r ≤ m n → |x n r - (s + r * ((t - s) / m n))| ≤ e n) {r : ℕ → ℕ} (hr : ∀ᶠ n in atTop, r n ≤ m n) :
    Tendsto (fun n => x n (r n) - (s + r n * ((t - s) / m n))) atTop (nhds 0) :=
  squeeze_zero_norm' (hr.mono fun n hn => by rw [Real.norm_eq_abs]; exact hx n _ hn) he

/-- A continuous function along rows near the rows of a division of `[s, t]`. -/
theorem rowLimit_near {s t : ℝ} (hst : s ≤ t) {m : ℕ → ℕ} (hm : Tendsto m atTop atTop) {x : ℕ → ℕ → ℝ} {e : ℕ → ℝ}
    (he : Tendsto e atTop (nhds 0)) (hx : ∀ n r, r ≤ m n → |x n r - (s + r * ((t - s) / m n))| ≤ e n) {G : ℝ → ℝ → ℝ}
    (hG : Continuous fun p : ℝ × ℝ => G p.1 p.2) {ln : ℕ → ℝ} {l : ℝ} (hl : Tendsto ln atTop (nhds l)) :
    RowLimit s t m (fun n r => G (x n r) (ln n)) fun y => G y l where
  continuous := hG.comp (f := fun y : ℝ => (y, l)) (by fun_prop)
  bound := by
    have hK : IsCompact (Set.Icc (s - 1) (t + 1) ×ˢ Set.Icc (l - 1) (l + 1)) := isCompact_Icc.prod isCompact_Icc
    obtain ⟨B, hB⟩ := hK.exists_bound_of_continuousOn hG.continuousOn
    refine ⟨B, ?_⟩
    filter_upwards [he.eventually (gt_mem_nhds one_pos), hl.eventually (gt_mem_nhds (lt_add_one l)),
      hl.eventually (lt_mem_nhds (sub_one_lt l)), hm.eventually_ge_atTop 1] with n h1 h2 h3 h4 r hr
    have m0 : (0 : ℝ) < m n := by exact_mod_cast h4
    have hr' : (r : ℝ) ≤ m n := by exact_mod_cast hr
    have hd : 0 ≤ (t - s) / m n := div_nonneg (by linarith) m0.le
    have a1 : (r : ℝ) * ((t - s) / m n) ≤ m n * ((t - s) / m n) := mul_le_mul_of_nonneg_right hr' hd
    rw [mul_div_cancel₀ _ m0.ne'] at a1
    have a2 : 0 ≤ (r : ℝ) * ((t - s) / m n) := by positivity
    have a3 := abs_le.1 (hx n r hr)
    exact hB (x n r, ln n) ⟨⟨by show s - 1 ≤ x n r; linarith [a3.1], by show x n r ≤ t + 1; linarith [a3.2]⟩, ⟨h3.le, h2.le⟩⟩
  limit := fun y _ r hr h => by
    have h1 : Tendsto (fun n => x n (r n)) atTop (nhds y) := by
      have := (near_of_bound he hx hr).add h
      simpa using this
    exact (hG.tendsto (y, l)).comp (h1.prodMk_nhds hl)

/-- The first or the last row may be missing. -/
theorem RowLimit.drop {s t : ℝ} {m : ℕ → ℕ} (hm : Tendsto m atTop atTop) {F : ℕ → ℕ → ℝ} {f : ℝ → ℝ}
    (hF : RowLimit s t m F f) {D : ℕ → ℕ → Prop} [∀ n r, Decidable (D n r)] (hD : ∀ n r, D n r → r = 0 ∨ r = m n) :
    RowLimit s t m (fun n r => if D n r then 0 else F n r) f where
  continuous := hF.continuous
  bound := by
    obtain ⟨B, hB⟩ := hF.bound
    refine ⟨B, hB.mono fun n hn r hr => ?_⟩
    by_cases hd : D n r
    · rw [if_pos hd, abs_zero]
      exact (abs_nonneg _).trans (hn r hr)
    · rw [if_neg hd]
      exact hn r hr
  limit := fun y hy r hr h => by
    refine (hF.limit y hy r hr h).congr' ?_
    filter_upwards [h.eventually (lt_mem_nhds hy.1), h.eventually (gt_mem_nhds hy.2), hm.eventually_ge_atTop 1] with n h1 h2 h3
    have m0 : (m n : ℝ) ≠ 0 := by exact_mod_cast (by omega : m n ≠ 0)
    rw [if_neg]
    intro hd
    rcases hD n _ hd with h4 | h4
    · rw [h4] at h1
      simp at h1
    · rw [h4, mul_div_cancel₀ _ m0] at h2
      linarith

section

variable {a s t φ v l : ℝ} {m j : ℕ → ℕ} {x : ℕ → ℕ → ℝ} {e h ln Q : ℕ → ℝ} {q G : ℝ → ℝ → ℝ}

/-- Rows, their spacing, and the column and row at which results are read. -/
structure NearRows (s t φ l : ℝ) (m j : ℕ → ℕ) (x : ℕ → ℕ → ℝ) (e h ln : ℕ → ℝ) : Prop where
  wide : s < t
  inside : φ ∈ Set.Icc s t
  many : Tendsto m atTop atTop
  small : Tendsto e atTop (nhds 0)
  near : ∀ n r, r ≤ m n → |x n r - (s + r * ((t - s) / m n))| ≤ e n
  whole : Tendsto (fun n => m n * h n) atTop (nhds (t - s))
  column : Tendsto ln atTop (nhds l)
  upper : ∀ n, j n ≤ m n
  row : Tendsto (fun n => x n (j n)) atTop (nhds φ)

theorem NearRows.position (hR : NearRows s t φ l m j x e h ln) : Tendsto (fun n => s + j n * ((t - s) / m n)) atTop (nhds φ) := by
  have := hR.row.sub (near_of_bound hR.small hR.near (Eventually.of_forall hR.upper))
  simpa using this

theorem NearRows.scale (hR : NearRows s t φ l m j x e h ln) : Tendsto (fun n => m n * h n / (t - s)) atTop (nhds 1) := by
  have := hR.whole.div_const (t - s)
  rwa [div_self (sub_ne_zero.2 hR.wide.ne')] at this

theorem NearRows.weight (hR : NearRows s t φ l m j x e h ln) (hG : Continuous fun p : ℝ × ℝ => G p.1 p.2) {D : ℕ → ℕ → Prop}
    [∀ n r, Decidable (D n r)] (hD : ∀ n r, D n r → r = 0 ∨ r = m n) :
    RowLimit s t m (fun n r => if D n r then 0 else G (x n r) (ln n) * (m n * h n / (t - s))) fun y => G y l := by
  have c1 : Continuous fun p : ℝ × ℝ => (fun _ κ : ℝ => κ) p.1 p.2 := by fun_prop
  have := (((rowLimit_near hR.wide.le hR.many hR.small hR.near hG hR.column).mul
    (rowLimit_near (G := fun _ κ => κ) hR.wide.le hR.many hR.small hR.near c1 hR.scale)).drop hR.many hD)
  simpa only [mul_one] using this

theorem NearRows.width (hR : NearRows s t φ l m j x e h ln) : ∀ᶠ n in atTop, ∀ w : ℝ, w * (m n * h n / (t - s)) * ((t - s) / m n) = w * h n := by
  filter_upwards [hR.many.eventually_ge_atTop 1] with n hn w
  have m0 : (m n : ℝ) ≠ 0 := by exact_mod_cast (by omega : m n ≠ 0)
  have := sub_ne_zero.2 hR.wide.ne'
  field_simp

/-- Sums of wave activity. -/
theorem NearRows.activity (hR : NearRows s t φ l m j x e h ln) (hq : Continuous fun p : ℝ × ℝ => q p.1 p.2)
    (hQ : Tendsto Q atTop (nhds v)) {D : ℕ → ℕ → Prop} [∀ n r, Decidable (D n r)] (hD : ∀ n r, D n r → r = 0 ∨ r = m n) :
    Tendsto (fun n => ∑ r ∈ range (m n + 1), (if j n < r then max (Q n - q (x n r) (ln n)) 0 else max (q (x n r) (ln n) - Q n) 0) *
      (if D n r then 0 else a * Real.cos (x n r) * h n)) atTop
      (nhds (meridionalWaveActivity a (fun y => q y l) v s t φ)) := by
  have c1 : Continuous fun p : ℝ × ℝ => (fun y _ : ℝ => a * Real.cos y) p.1 p.2 := by fun_prop
  have main := parts_limit hR.wide hR.inside hR.many (rowLimit_near hR.wide.le hR.many hR.small hR.near hq hR.column)
    (hR.weight (G := fun y _ => a * Real.cos y) c1 hD) hQ hR.position (P := fun n r => j n < r) fun n r => ⟨fun h => h, fun h => by omega⟩
  refine main.congr' ?_
  filter_upwards [hR.width] with n hn
  refine sum_congr rfl fun r _ => ?_
  congr 1
  by_cases hd : D n r
  · rw [if_pos hd, if_pos hd, zero_mul]
  · rw [if_neg hd, if_neg hd, hn]

/-- Sums of a source. -/
theorem NearRows.source (hR : NearRows s t φ l m j x e h ln) (hq : Continuous fun p : ℝ × ℝ => q p.1 p.2)
    (hG : Continuous fun p : ℝ × ℝ => G p.1 p.2) (hQ : Tendsto Q atTop (nhds v))
    (hnull : volume {y | y ∈ Set.Icc s t ∧ q y l = v} = 0) {D : ℕ → ℕ → Prop} [∀ n r, Decidable (D n r)]
    (hD : ∀ n r, D n r → r = 0 ∨ r = m n) :
    Tendsto (fun n => ∑ r ∈ range (m n + 1), (if j n < r then (if q (x n r) (ln n) < Q n then -1 else 0) else
        if Q n < q (x n r) (ln n) then 1 else 0) *
      (if D n r then 0 else a * Real.cos (x n r) * G (x n r) (ln n) * h n)) atTop
      (nhds (meridionalSource a (fun y => q y l) (fun y => G y l) v s t φ)) := by
  have c1 : Continuous fun p : ℝ × ℝ => (fun y l : ℝ => a * Real.cos y * G y l) p.1 p.2 :=
    (by fun_prop : Continuous fun p : ℝ × ℝ => a * Real.cos p.1).mul hG
  have main := source_limit hR.wide hR.inside hR.many (rowLimit_near hR.wide.le hR.many hR.small hR.near hq hR.column)
    (hR.weight (G := fun y l => a * Real.cos y * G y l) c1 hD) hQ hR.position hnull
    (σ := fun n r => if j n < r then (if q (x n r) (ln n) < Q n then -1 else 0) else if Q n < q (x n r) (ln n) then 1 else 0)
    (fun n r => by split_ifs <;> norm_num)
    (fun n r h1 h2 => by rw [if_pos h1, if_pos h2])
    (fun n r h1 h2 => by rw [if_pos h1, if_neg h2.not_gt])
    (fun n r h1 h2 => by rw [if_neg (by omega), if_pos h2])
    (fun n r h1 h2 => by rw [if_neg (by omega), if_neg h2.not_gt])
  refine main.congr' ?_
  filter_upwards [hR.width] with n hn
  refine sum_congr rfl fun r _ => ?_
  congr 1
  by_cases hd : D n r
  · rw [if_pos hd, if_pos hd, zero_mul]
  · rw [if_neg hd, if_neg hd, hn]

end

/-! ### The mirror image -/

open Classical in
theorem areaAtMost_mirror (a : ℝ) (q : ℝ → ℝ → ℝ) (s n w : ℝ) :
    areaAtMost a (fun x l => -q (-x) l) s n w = ∫ p in band (-n) (-s), if -w ≤ q p.1 p.2 then a ^ 2 * Real.cos p.1 else 0 := by
  set e : ℝ × ℝ ≃ᵐ ℝ × ℝ := (MeasurableEquiv.neg ℝ).prodCongr (MeasurableEquiv.refl ℝ) with he
  have hmp : MeasurePreserving e (volume : Measure (ℝ × ℝ)) volume := by
    rw [Measure.volume_eq_prod]
    exact (Measure.measurePreserving_neg (volume : Measure ℝ)).prod (MeasurePreserving.id volume)
  rw [← hmp.setIntegral_preimage_emb e.measurableEmbedding]
  have hset : e ⁻¹' band (-n) (-s) = band s n := by
    ext p
    show ((-n ≤ -p.1 ∧ -p.1 ≤ -s) ∧ (0 ≤ p.2 ∧ p.2 ≤ 2 * Real.pi)) ↔ ((s ≤ p.1 ∧ p.1 ≤ n) ∧ (0 ≤ p.2 ∧ p.2 ≤ 2 * Real.pi))
    constructor
    · rintro ⟨⟨h1, h2⟩, h3⟩
      exact ⟨⟨by linarith, by linarith⟩, h3⟩
    · rintro ⟨⟨h1, h2⟩, h3⟩
      exact ⟨⟨by linarith, by linarith⟩, h3⟩
  rw [hset]
  unfold areaAtMost
  refine setIntegral_congr_fun (measurableSet_band s n) fun p _ => ?_
  show (if -q (-p.1) p.2 ≤ w then a ^ 2 * Real.cos p.1 else 0) = if -w ≤ q (-p.1) p.2 then a ^ 2 * Real.cos (-p.1) else 0
  rw [Real.cos_neg]
  by_cases h : -w ≤ q (-p.1) p.2
  · rw [if_pos h, if_pos (by linarith)]
  · rw [if_neg h, if_neg (by linarith)]

/-- A contour of the mirror image is a contour of the field that encloses the rest of the area. -/
theorem encloses_mirror {a s n T v : ℝ} {q : ℝ → ℝ → ℝ} (hq : Continuous fun p : ℝ × ℝ => q p.1 p.2)
    (h1 : -(Real.pi / 2) ≤ s) (hsn : s ≤ n) (h2 : n ≤ Real.pi / 2) (hv : Encloses a (fun x l => -q (-x) l) s n T v) :
    Encloses a q (-n) (-s) (2 * Real.pi * a ^ 2 * (Real.sin n - Real.sin s) - T) (-v) := by
  classical
  have hB : ∫ p in band (-n) (-s), a ^ 2 * Real.cos p.1 = 2 * Real.pi * a ^ 2 * (Real.sin n - Real.sin s) := by
    rw [band_area (by linarith), Real.sin_neg, Real.sin_neg]
    ring
  have hqn : Continuous fun p : ℝ × ℝ => (fun x l => -q x l) p.1 p.2 := hq.neg
  have i1 : ∀ w, IntegrableOn (fun p : ℝ × ℝ => if q p.1 p.2 ≤ w then a ^ 2 * Real.cos p.1 else 0) (band (-n) (-s)) :=
    fun w => areaAtMost_integrable hq a (-n) (-s) w
  have i2 : ∀ w, IntegrableOn (fun p : ℝ × ℝ => if -w ≤ q p.1 p.2 then a ^ 2 * Real.cos p.1 else 0) (band (-n) (-s)) := fun w => by
    refine (areaAtMost_integrable (q := fun x l => -q x l) hqn a (-n) (-s) w).congr_fun (fun p _ => ?_) (measurableSet_band _ _)
    show (if -q p.1 p.2 ≤ w then a ^ 2 * Real.cos p.1 else 0) = _
    by_cases h : -w ≤ q p.1 p.2
    · rw [if_pos h, if_pos (by linarith)]
    · rw [if_neg h, if_neg (by linarith)]
  have i3 : IntegrableOn (fun p : ℝ × ℝ => a ^ 2 * Real.cos p.1) (band (-n) (-s)) :=
    (by fun_prop : Continuous fun p : ℝ × ℝ => a ^ 2 * Real.cos p.1).continuousOn.integrableOn_compact (isCompact_band _ _)
  have hsum : ∀ w w1, areaAtMost a q (-n) (-s) w + areaAtMost a (fun x l => -q (-x) l) s n w1 =
      ∫ p in band (-n) (-s), ((if q p.1 p.2 ≤ w then a ^ 2 * Real.cos p.1 else 0) +
        if -w1 ≤ q p.1 p.2 then a ^ 2 * Real.cos p.1 else 0) := fun w w1 => by
    rw [areaAtMost_mirror, integral_add (i1 w) (i2 w1)]
    rfl
  have hcos : ∀ p ∈ band (-n) (-s), 0 ≤ a ^ 2 * Real.cos p.1 := fun p hp =>
    mul_nonneg (sq_nonneg _) (band_cos_nonneg (by linarith) (by linarith) hp)
  constructor
  · intro w hw
    have hT := hv.above ((v - w) / 2) (by linarith)
    have hle : areaAtMost a q (-n) (-s) w + areaAtMost a (fun x l => -q (-x) l) s n ((v - w) / 2) ≤
        2 * Real.pi * a ^ 2 * (Real.sin n - Real.sin s) := by
      rw [hsum, ← hB]
      refine setIntegral_mono_on ((i1 w).add (i2 _)) i3 (measurableSet_band _ _) fun p hp => ?_
      have h0 := hcos p hp
      by_cases c1 : q p.1 p.2 ≤ w
      · rw [if_pos c1, if_neg (by linarith), add_zero]
      · rw [if_neg c1, zero_add]
        split_ifs <;> linarith
    linarith
  · intro w hw
    have hT := hv.below ((v - w) / 2) (by linarith)
    have hle : 2 * Real.pi * a ^ 2 * (Real.sin n - Real.sin s) ≤
        areaAtMost a q (-n) (-s) w + areaAtMost a (fun x l => -q (-x) l) s n ((v - w) / 2) := by
      rw [hsum, ← hB]
      refine setIntegral_mono_on i3 ((i1 w).add (i2 _)) (measurableSet_band _ _) fun p hp => ?_
      have h0 := hcos p hp
      by_cases c1 : q p.1 p.2 ≤ w
      · rw [if_pos c1]
        split_ifs <;> linarith
      · rw [if_neg c1, zero_add, if_pos (by linarith)]
    linarith

end Falwa

end
