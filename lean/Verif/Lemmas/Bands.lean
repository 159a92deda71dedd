import Mathlib.Analysis.SpecialFunctions.Trigonometric.Basic
import Mathlib.MeasureTheory.Integral.IntervalIntegral.Basic
import Mathlib.MeasureTheory.Integral.DominatedConvergence
import Mathlib.Topology.Sequences

/-!
# Sums along a circle of latitude of values that tend to a function of longitude
-/

noncomputable section

namespace Falwa.Bands

open Filter Set Real MeasureTheory

/-- Longitude of column `i` of `m` evenly spaced ones. -/
def lon (m i : ℤ) : ℝ := 2 * π / (m : ℝ) * ((i : ℝ) - 1)

/-- Wherever columns tend to a longitude, the values there tend to those of `f`. -/
def Tend (N : ℕ → ℤ) (X : ℕ → ℤ → ℝ) (f : ℝ → ℝ) : Prop :=
  ∀ (l : ℝ) (x : ℕ → ℤ), (∀ n, 1 ≤ x n ∧ x n ≤ N n) → Tendsto (fun n => lon (N n) (x n)) atTop (nhds l) →
    Tendsto (fun n => X n (x n)) atTop (nhds (f l))

theorem lon_mem {m i : ℤ} (hm : 1 ≤ m) (h1 : 1 ≤ i) (h2 : i ≤ m + 1) : lon m i ∈ Icc 0 (2 * π) := by
  have hm' : (0 : ℝ) < m := by exact_mod_cast (by omega : (0 : ℤ) < m)
  have hpi := pi_pos
  have i1 : (0 : ℝ) ≤ (i : ℝ) - 1 := by
    have : (1 : ℝ) ≤ i := by exact_mod_cast h1
    linarith
  have i2 : (i : ℝ) - 1 ≤ m := by
    have : (i : ℝ) ≤ m + 1 := by exact_mod_cast h2
    linarith
  unfold lon
  refine ⟨by positivity, ?_⟩
  rw [div_mul_eq_mul_div, div_le_iff₀ hm']
  exact mul_le_mul_of_nonneg_left i2 (by positivity)

theorem lon_succ (m i : ℤ) : lon m (i + 1) = lon m i + 2 * π / (m : ℝ) := by
  unfold lon
  push_cast
  ring

/-- A column near a longitude. -/
def near (m : ℤ) (l : ℝ) : ℤ := max 1 (min m (⌊l * m / (2 * π)⌋ + 1))

theorem near_mem {m : ℤ} (hm : 1 ≤ m) (l : ℝ) : 1 ≤ near m l ∧ near m l ≤ m := by
  unfold near
  omega

theorem near_dist {m : ℤ} (hm : 1 ≤ m) {l : ℝ} (hl : l ∈ Icc 0 (2 * π)) : |lon m (near m l) - l| ≤ 2 * π / (m : ℝ) := by
  have hm' : (0 : ℝ) < m := by exact_mod_cast (by omega : (0 : ℤ) < m)
  have hpi := pi_pos
  have f0 : 0 ≤ ⌊l * m / (2 * π)⌋ := Int.floor_nonneg.2 (div_nonneg (mul_nonneg hl.1 hm'.le) (by positivity))
  have f1 := Int.floor_le (l * m / (2 * π))
  have f2 := Int.lt_floor_add_one (l * m / (2 * π))
  have e : l = 2 * π / (m : ℝ) * (l * m / (2 * π)) := by field_simp
  have hp : 0 < 2 * π / (m : ℝ) := by positivity
  rcases lt_or_ge ⌊l * m / (2 * π)⌋ m with h | h
  · have en : near m l = ⌊l * m / (2 * π)⌋ + 1 := by unfold near; omega
    rw [en]
    unfold lon
    push_cast
    rw [add_sub_cancel_right]
    nth_rewrite 2 [e]
    rw [← mul_sub, abs_mul, abs_of_pos hp]
    refine mul_le_of_le_one_right hp.le ?_
    rw [abs_le]
    constructor <;> linarith
  · have en : near m l = m := by unfold near; omega
    have h' : (m : ℝ) ≤ ⌊l * m / (2 * π)⌋ := by exact_mod_cast h
    have u : l * m / (2 * π) ≤ m := by
      rw [div_le_iff₀ (by positivity), mul_comm]
      exact mul_le_mul_of_nonneg_left hl.2 hm'.le
    rw [en]
    unfold lon
    nth_rewrite 1 [e]
    rw [← mul_sub, abs_mul, abs_of_pos hp]
    refine mul_le_of_le_one_right hp.le ?_
    rw [abs_le]
    constructor <;> linarith

variable {N : ℕ → ℤ} {X : ℕ → ℤ → ℝ} {f : ℝ → ℝ}

theorem step_tends (hN : Tendsto N atTop atTop) : Tendsto (fun n => 2 * π / (N n : ℝ)) atTop (nhds 0) :=
  (tendsto_intCast_atTop_atTop.comp hN).const_div_atTop _

theorem near_tends (hN1 : ∀ n, 1 ≤ N n) (hN : Tendsto N atTop atTop) {l : ℝ} (hl : l ∈ Icc 0 (2 * π)) :
    Tendsto (fun n => lon (N n) (near (N n) l)) atTop (nhds l) := by
  have h : Tendsto (fun n => lon (N n) (near (N n) l) - l) atTop (nhds 0) :=
    squeeze_zero_norm (fun n => near_dist (hN1 n) hl) (step_tends hN)
  have := h.add_const l
  rw [zero_add] at this
  exact this.congr fun n => by ring

/-- Columns on some of the grids that tend to a longitude, completed to columns on all grids. -/
theorem patch (hN1 : ∀ n, 1 ≤ N n) (hN : Tendsto N atTop atTop) {l : ℝ} (hl : l ∈ Icc 0 (2 * π)) {χ : ℕ → ℕ} (hχ : StrictMono χ)
    {y : ℕ → ℤ} (hy : ∀ m, 1 ≤ y m ∧ y m ≤ N (χ m)) (hyl : Tendsto (fun m => lon (N (χ m)) (y m)) atTop (nhds l)) :
    ∃ x : ℕ → ℤ, (∀ n, 1 ≤ x n ∧ x n ≤ N n) ∧ Tendsto (fun n => lon (N n) (x n)) atTop (nhds l) ∧ ∀ m, x (χ m) = y m := by
  classical
  refine ⟨fun n => if h : ∃ m, χ m = n then y h.choose else near (N n) l, fun n => ?_, ?_, fun m => ?_⟩
  · by_cases h : ∃ m, χ m = n
    · simp only [dif_pos h]
      have := hy h.choose
      rwa [h.choose_spec] at this
    · simp only [dif_neg h]
      exact near_mem (hN1 n) l
  · rw [Metric.tendsto_atTop] at hyl ⊢
    intro ε hε
    obtain ⟨m0, hm0⟩ := hyl ε hε
    obtain ⟨n0, hn0⟩ := (Metric.tendsto_atTop.1 (near_tends hN1 hN hl)) ε hε
    refine ⟨max n0 (χ m0), fun n hn => ?_⟩
    by_cases h : ∃ m, χ m = n
    · simp only [dif_pos h]
      have hs := h.choose_spec
      have hm : m0 ≤ h.choose := by
        rw [← hχ.le_iff_le, hs]
        exact (le_max_right _ _).trans hn
      have := hm0 _ hm
      rwa [hs] at this
    · simp only [dif_neg h]
      exact hn0 n ((le_max_left _ _).trans hn)
  · have h : ∃ k, χ k = χ m := ⟨m, rfl⟩
    simp only [dif_pos h]
    rw [hχ.injective h.choose_spec]

/-- The limit is continuous. -/
theorem Tend.continuousOn (h : Tend N X f) (hN1 : ∀ n, 1 ≤ N n) (hN : Tendsto N atTop atTop) : ContinuousOn f (Icc 0 (2 * π)) := by
  intro l hl
  refine tendsto_of_seq_tendsto fun s hs => ?_
  obtain ⟨hsl, hsm⟩ := tendsto_nhdsWithin_iff.1 hs
  have ev : ∀ m : ℕ, ∀ᶠ k in atTop, s m ∈ Icc 0 (2 * π) → |X k (near (N k) (s m)) - f (s m)| < 1 / ((m : ℝ) + 1) := fun m => by
    by_cases hm : s m ∈ Icc 0 (2 * π)
    · have t := h (s m) (fun k => near (N k) (s m)) (fun k => near_mem (hN1 k) _) (near_tends hN1 hN hm)
      obtain ⟨k0, hk0⟩ := Metric.tendsto_atTop.1 t (1 / ((m : ℝ) + 1)) (by positivity)
      exact eventually_atTop.2 ⟨k0, fun k hk _ => hk0 k hk⟩
    · exact Eventually.of_forall fun _ h' => absurd h' hm
  obtain ⟨χ, hχ, hp⟩ := extraction_forall_of_eventually ev
  have d : Tendsto (fun m => lon (N (χ m)) (near (N (χ m)) (s m)) - s m) atTop (nhds 0) := by
    refine squeeze_zero_norm' ?_ ((step_tends hN).comp hχ.tendsto_atTop)
    filter_upwards [hsm] with m hm
    exact near_dist (hN1 _) hm
  have yl : Tendsto (fun m => lon (N (χ m)) (near (N (χ m)) (s m))) atTop (nhds l) := by
    have := d.add hsl
    rw [zero_add] at this
    exact this.congr fun m => by ring
  obtain ⟨x, hx, hxl, hxy⟩ := patch hN1 hN hl hχ (fun m => near_mem (hN1 _) _) yl
  have t := (h l x hx hxl).comp hχ.tendsto_atTop
  have z : Tendsto (fun m => X (χ m) (x (χ m)) - f (s m)) atTop (nhds 0) := by
    refine squeeze_zero_norm' ?_ tendsto_one_div_add_atTop_nhds_zero_nat
    filter_upwards [hsm] with m hm
    rw [hxy]
    exact (hp m hm).le
  have := t.sub z
  rw [sub_zero] at this
  exact this.congr fun m => by
    show X (χ m) (x (χ m)) - (X (χ m) (x (χ m)) - f (s m)) = f (s m)
    ring

/-- All columns at once. -/
theorem Tend.uniform (h : Tend N X f) (hN1 : ∀ n, 1 ≤ N n) (hN : Tendsto N atTop atTop) {ε : ℝ} (hε : 0 < ε) :
    ∀ᶠ n in atTop, ∀ i, 1 ≤ i → i ≤ N n → |X n i - f (lon (N n) i)| < ε := by
  by_contra hcon
  rw [not_eventually] at hcon
  obtain ⟨ψ, hψ, hbad⟩ := extraction_of_frequently_atTop hcon
  push Not at hbad
  choose i i1 i2 hi using hbad
  obtain ⟨l, hl, χ, hχ, ht⟩ := (isCompact_Icc (a := (0 : ℝ)) (b := 2 * π)).tendsto_subseq
    (x := fun n => lon (N (ψ n)) (i n)) fun n => lon_mem (hN1 _) (i1 n) (by have := i2 n; omega)
  obtain ⟨x, hx, hxl, hxy⟩ := patch hN1 hN hl (hψ.comp hχ) (y := fun m => i (χ m)) (fun m => ⟨i1 _, i2 _⟩) ht
  have t := (h l x hx hxl).comp (hψ.comp hχ).tendsto_atTop
  have tf : Tendsto (fun m => f (lon (N (ψ (χ m))) (i (χ m)))) atTop (nhds (f l)) := by
    refine (h.continuousOn hN1 hN l hl).tendsto.comp (tendsto_nhdsWithin_iff.2 ⟨ht, Eventually.of_forall fun m => ?_⟩)
    exact lon_mem (hN1 _) (i1 _) (by have := i2 (χ m); omega)
  have z := (t.sub tf).abs
  rw [sub_self, abs_zero] at z
  obtain ⟨m, hm⟩ := (z.eventually (gt_mem_nhds hε)).exists
  have e : x (ψ (χ m)) = i (χ m) := hxy m
  have b := hi (χ m)
  change |X (ψ (χ m)) (x (ψ (χ m))) - _| < ε at hm
  rw [e] at hm
  exact absurd hm (not_lt.2 b)

theorem cells {m : ℤ} {Y : ℤ → ℝ} {g : ℝ → ℝ} (hg : Continuous g) {ε : ℝ} {x1 : ℤ} (hm : 1 ≤ m) (h1 : 1 ≤ x1)
    (hY : ∀ i, 1 ≤ i → i ≤ m → ∀ s ∈ Icc (lon m i) (lon m (i + 1)), |Y i - g s| ≤ ε) {x2 : ℤ} (h12 : x1 ≤ x2) (h2 : x2 ≤ m + 1) :
    |(∑ i ∈ Finset.Ico x1 x2, Y i * (2 * π / (m : ℝ))) - ∫ s in lon m x1..lon m x2, g s| ≤ ε * (2 * π / (m : ℝ)) * ((x2 - x1 : ℤ) : ℝ) := by
  have hm' : (0 : ℝ) < m := by exact_mod_cast (by omega : (0 : ℤ) < m)
  have hp : 0 < 2 * π / (m : ℝ) := by have := pi_pos; positivity
  induction x2, h12 using Int.leInduction with
  | base => simp
  | succ j hj ih =>
    have e : Finset.Ico x1 (j + 1) = insert j (Finset.Ico x1 j) := by
      ext i
      simp only [Finset.mem_Ico, Finset.mem_insert]
      omega
    have hs := intervalIntegral.integral_add_adjacent_intervals (hg.intervalIntegrable (μ := volume) (lon m x1) (lon m j))
      (hg.intervalIntegrable (μ := volume) (lon m j) (lon m (j + 1)))
    have hle : lon m j ≤ lon m (j + 1) := by rw [lon_succ]; linarith
    have hc : |Y j * (2 * π / (m : ℝ)) - ∫ s in lon m j..lon m (j + 1), g s| ≤ ε * (2 * π / (m : ℝ)) := by
      have e1 : Y j * (2 * π / (m : ℝ)) - ∫ s in lon m j..lon m (j + 1), g s = ∫ s in lon m j..lon m (j + 1), (Y j - g s) := by
        rw [intervalIntegral.integral_sub (intervalIntegrable_const) (hg.intervalIntegrable _ _), intervalIntegral.integral_const, lon_succ,
          add_sub_cancel_left, smul_eq_mul, mul_comm]
      have b := intervalIntegral.norm_integral_le_of_norm_le_const (a := lon m j) (b := lon m (j + 1)) (C := ε) (f := fun s => Y j - g s) fun s hs => by
        rw [uIoc_of_le hle] at hs
        exact hY j (by omega) (by omega) s ⟨hs.1.le, hs.2⟩
      rw [e1]
      refine b.trans (le_of_eq ?_)
      rw [lon_succ, add_sub_cancel_left, abs_of_pos hp]
    rw [e, Finset.sum_insert (by simp), ← hs]
    have ih' := ih (by omega)
    have e2 : Y j * (2 * π / (m : ℝ)) + ∑ i ∈ Finset.Ico x1 j, Y i * (2 * π / (m : ℝ)) -
        ((∫ s in lon m x1..lon m j, g s) + ∫ s in lon m j..lon m (j + 1), g s) =
        ((∑ i ∈ Finset.Ico x1 j, Y i * (2 * π / (m : ℝ))) - ∫ s in lon m x1..lon m j, g s) +
          (Y j * (2 * π / (m : ℝ)) - ∫ s in lon m j..lon m (j + 1), g s) := by ring
    rw [e2]
    refine (abs_add_le _ _).trans ((add_le_add ih' hc).trans (le_of_eq ?_))
    push_cast
    ring

/-- Sums over the columns between two longitudes, times the spacing, tend to the integral. -/
theorem Tend.band (h : Tend N X f) (hN1 : ∀ n, 1 ≤ N n) (hN : Tendsto N atTop atTop) {x1 x2 : ℕ → ℤ} (h1 : ∀ n, 1 ≤ x1 n)
    (h12 : ∀ n, x1 n ≤ x2 n) (h2 : ∀ n, x2 n ≤ N n + 1) {l1 l2 : ℝ} (t1 : Tendsto (fun n => lon (N n) (x1 n)) atTop (nhds l1))
    (t2 : Tendsto (fun n => lon (N n) (x2 n)) atTop (nhds l2)) :
    Tendsto (fun n => ∑ i ∈ Finset.Ico (x1 n) (x2 n), X n i * (2 * π / (N n : ℝ))) atTop (nhds (∫ s in l1..l2, f s)) := by
  have hpi := pi_pos
  have hcon := h.continuousOn hN1 hN
  have m1 : l1 ∈ Icc 0 (2 * π) := isClosed_Icc.mem_of_tendsto t1 (Eventually.of_forall fun n =>
    lon_mem (hN1 n) (h1 n) ((h12 n).trans (h2 n)))
  have m2 : l2 ∈ Icc 0 (2 * π) := isClosed_Icc.mem_of_tendsto t2 (Eventually.of_forall fun n =>
    lon_mem (hN1 n) ((h1 n).trans (h12 n)) (h2 n))
  set g : ℝ → ℝ := fun s => f (max 0 (min s (2 * π))) with hgdef
  have hgc : Continuous g := by
    refine hcon.comp_continuous (f := fun s : ℝ => max 0 (min s (2 * π))) (by fun_prop) fun s => ⟨le_max_left _ _, ?_⟩
    exact max_le (by positivity) (min_le_right _ _)
  have hgf : ∀ s ∈ Icc (0 : ℝ) (2 * π), g s = f s := fun s hs => by
    show f _ = f s
    rw [min_eq_left hs.2, max_eq_right hs.1]
  have hint : (∫ s in l1..l2, f s) = ∫ s in l1..l2, g s := by
    refine intervalIntegral.integral_congr fun s hs => (hgf s ?_).symm
    exact uIcc_subset_Icc m1 m2 hs
  rw [hint]
  have tint : Tendsto (fun n => ∫ s in lon (N n) (x1 n)..lon (N n) (x2 n), g s) atTop (nhds (∫ s in l1..l2, g s)) := by
    have cp : Continuous fun b => ∫ s in (0 : ℝ)..b, g s := intervalIntegral.continuous_primitive (fun a b => hgc.intervalIntegrable a b) 0
    have e : ∀ a b : ℝ, (∫ s in a..b, g s) = (∫ s in (0 : ℝ)..b, g s) - ∫ s in (0 : ℝ)..a, g s := fun a b =>
      (intervalIntegral.integral_interval_sub_left (hgc.intervalIntegrable _ _) (hgc.intervalIntegrable _ _)).symm
    simp only [fun n => e (lon (N n) (x1 n)) (lon (N n) (x2 n)), e l1 l2]
    exact ((cp.tendsto l2).comp t2).sub ((cp.tendsto l1).comp t1)
  have diff : Tendsto (fun n => (∑ i ∈ Finset.Ico (x1 n) (x2 n), X n i * (2 * π / (N n : ℝ))) -
      ∫ s in lon (N n) (x1 n)..lon (N n) (x2 n), g s) atTop (nhds 0) := by
    rw [Metric.tendsto_atTop]
    intro ε hε
    have hε' : 0 < ε / (4 * π + 1) := by positivity
    obtain ⟨δ, hδ, hu⟩ := Metric.uniformContinuousOn_iff.1 (isCompact_Icc.uniformContinuousOn_of_continuous hcon) _ hε'
    have hstep := (step_tends hN).eventually (gt_mem_nhds hδ)
    obtain ⟨n0, hn0⟩ := eventually_atTop.1 (hstep.and (h.uniform hN1 hN hε'))
    refine ⟨n0, fun n hn => ?_⟩
    obtain ⟨q1, q2⟩ := hn0 n hn
    have hm' : (0 : ℝ) < N n := by exact_mod_cast (by have := hN1 n; omega : (0 : ℤ) < N n)
    rw [Real.dist_eq, sub_zero]
    refine (cells (Y := X n) hgc (ε := 2 * (ε / (4 * π + 1))) (hN1 n) (h1 n) (fun i i1 i2 s hs => ?_) (h12 n) (h2 n)).trans_lt ?_
    · have a1 := lon_mem (hN1 n) i1 (by omega : i ≤ N n + 1)
      have a2 := lon_mem (hN1 n) (by omega : 1 ≤ i + 1) (by omega : i + 1 ≤ N n + 1)
      have hs' : s ∈ Icc (0 : ℝ) (2 * π) := ⟨a1.1.trans hs.1, hs.2.trans a2.2⟩
      rw [hgf s hs']
      have b1 := q2 i i1 i2
      have b2 := hu _ a1 s hs' (by
        rw [Real.dist_eq, abs_sub_comm, abs_of_nonneg (by linarith [hs.1])]
        have := hs.2
        rw [lon_succ] at this
        linarith)
      rw [Real.dist_eq] at b2
      have e : X n i - f s = (X n i - f (lon (N n) i)) + (f (lon (N n) i) - f s) := by ring
      rw [e]
      refine (abs_add_le _ _).trans ?_
      linarith
    · have hw : ((x2 n - x1 n : ℤ) : ℝ) ≤ N n := by exact_mod_cast (by have := h1 n; have := h2 n; omega : x2 n - x1 n ≤ N n)
      have e : 2 * (ε / (4 * π + 1)) * (2 * π / (N n : ℝ)) * (N n : ℝ) = ε * (4 * π / (4 * π + 1)) := by
        field_simp
        ring
      calc _ ≤ 2 * (ε / (4 * π + 1)) * (2 * π / (N n : ℝ)) * (N n : ℝ) := mul_le_mul_of_nonneg_left hw (by positivity)
        _ = ε * (4 * π / (4 * π + 1)) := e
        _ < ε := mul_lt_of_lt_one_right hε (by rw [div_lt_one (by positivity)]; linarith)
  have := diff.add tint
  rw [zero_add] at this
  exact this.congr fun n => by ring

end Falwa.Bands

end
