import Verif.Props.Stability
import Verif.Lemmas.Riemann
import Mathlib.Tactic.FieldSimp
import Mathlib.Topology.Algebra.Order.Field
import Mathlib.Order.Filter.AtTopBot.Archimedean

/-!
# Wave activity on a grid approximates the integral that defines it (C119)

`Spec.meridionalWaveActivity` is the integral of Huang and Nakamura (2016), equation (13). The error bounds are explicit and of first
order in the latitude spacing.
-/

noncomputable section

namespace Falwa

open Finset Spec

theorem sub_const_bound {q : ℝ → ℝ} {L s n : ℝ} (h : GradientBound q L s n) (Q : ℝ) :
    GradientBound (fun x => q x - Q) L s n ∧ GradientBound (fun x => Q - q x) L s n := by
  constructor <;> intro x hx y hy <;> beta_reduce
  · rw [show q x - Q - (q y - Q) = q x - q y by ring]; exact h x hx y hy
  · rw [show Q - q x - (Q - q y) = -(q x - q y) by ring, abs_neg]; exact h x hx y hy

/-- The sums with the row itself on either side. -/
theorem grid_error {q : ℝ → ℝ} {a L M Q x h : ℝ} {n j : ℕ} (ha : 0 ≤ a) (hh : 0 ≤ h) (hL : 0 ≤ L)
    (hq : GradientBound q L x (x + n * h)) (hM : ∀ y ∈ Set.Icc x (x + n * h), |q y - Q| ≤ M) (hj : j ≤ n) :
    |∑ r ∈ range (n + 1), (if j < r then max (Q - q (x + r * h)) 0 * (a * Real.cos (x + r * h)) else
        max (q (x + r * h) - Q) 0 * (a * Real.cos (x + r * h))) * h -
      meridionalWaveActivity a q Q x (x + n * h) (x + j * h)| ≤ a * h * ((L + M) * (n * h) + M) ∧
    |∑ r ∈ range (n + 1), (if j ≤ r then max (Q - q (x + r * h)) 0 * (a * Real.cos (x + r * h)) else
        max (q (x + r * h) - Q) 0 * (a * Real.cos (x + r * h))) * h -
      meridionalWaveActivity a q Q x (x + n * h) (x + j * h)| ≤ a * h * ((L + M) * (n * h) + M) := by
  have hjn : (j : ℝ) * h ≤ n * h := mul_le_mul_of_nonneg_right (by exact_mod_cast hj) hh
  have hj0 : (0 : ℝ) ≤ j * h := by positivity
  have hM' : ∀ y ∈ Set.Icc x (x + n * h), |Q - q y| ≤ M := fun y hy => by rw [abs_sub_comm]; exact hM y hy
  have hM0 : 0 ≤ M := (abs_nonneg _).trans (hM (x + j * h) ⟨by linarith, by linarith⟩)
  have hF := weighted_bound ha (sub_const_bound hq Q).2 hM'
  have hG := weighted_bound ha (sub_const_bound hq Q).1 hM
  have hC : 0 ≤ a * (L + M) := by positivity
  have e : a * h * ((L + M) * (n * h) + M) = a * (L + M) * h * (n * h) + a * M * h := by ring
  rw [e]
  have b1 : |max (q (x + j * h) - Q) 0 * (a * Real.cos (x + j * h))| ≤ a * M :=
    weighted_le (q := fun x => q x - Q) ha (hM _ ⟨by linarith, by linarith⟩)
  have b2 : |max (Q - q (x + n * h)) 0 * (a * Real.cos (x + n * h))| ≤ a * M :=
    weighted_le (q := fun x => Q - q x) ha (hM' _ ⟨by linarith, le_rfl⟩)
  unfold meridionalWaveActivity
  constructor
  · exact split_sum_error (F := fun x => max (Q - q x) 0 * (a * Real.cos x))
      (G := fun x => max (q x - Q) 0 * (a * Real.cos x)) hh hC hF hG hj b1
  · exact split_sum_error' (F := fun x => max (Q - q x) 0 * (a * Real.cos x))
      (G := fun x => max (q x - Q) 0 * (a * Real.cos x)) hh hC hF hG hj b2

/-- Dependence of the integral on the reference value. -/
theorem meridional_reference {q : ℝ → ℝ} {a L s n φ Q Q' : ℝ} (ha : 0 ≤ a) (hq : GradientBound q L s n) (h1 : s ≤ φ) (h2 : φ ≤ n) :
    |meridionalWaveActivity a q Q s n φ - meridionalWaveActivity a q Q' s n φ| ≤ a * |Q - Q'| * (n - s) := by
  have hc := hq.continuousOn
  have part : ∀ (f g : ℝ → ℝ) (x y : ℝ), s ≤ x → x ≤ y → y ≤ n → ContinuousOn f (Set.Icc s n) → ContinuousOn g (Set.Icc s n) →
      (∀ t, |f t - g t| ≤ |Q - Q'|) →
      |(∫ t in x..y, max (f t) 0 * (a * Real.cos t)) - ∫ t in x..y, max (g t) 0 * (a * Real.cos t)| ≤ a * |Q - Q'| * (y - x) := by
    intro f g x y hx hxy hy hf hg hfg
    have sub : Set.Icc x y ⊆ Set.Icc s n := Set.Icc_subset_Icc hx hy
    have cw : ContinuousOn (fun t : ℝ => a * Real.cos t) (Set.Icc x y) :=
      (continuous_const.mul Real.continuous_cos).continuousOn
    have i1 : IntervalIntegrable (fun t => max (f t) 0 * (a * Real.cos t)) MeasureTheory.volume x y :=
      ContinuousOn.intervalIntegrable_of_Icc hxy (((hf.mono sub).sup continuousOn_const).mul cw)
    have i2 : IntervalIntegrable (fun t => max (g t) 0 * (a * Real.cos t)) MeasureTheory.volume x y :=
      ContinuousOn.intervalIntegrable_of_Icc hxy (((hg.mono sub).sup continuousOn_const).mul cw)
    have e := intervalIntegral.integral_sub i1 i2
    have b := intervalIntegral.norm_integral_le_of_norm_le_const (a := x) (b := y)
      (f := fun t => max (f t) 0 * (a * Real.cos t) - max (g t) 0 * (a * Real.cos t)) (C := a * |Q - Q'|)
      (fun t _ => by
        rw [Real.norm_eq_abs, ← sub_mul, abs_mul, abs_mul, abs_of_nonneg ha]
        calc _ ≤ |Q - Q'| * (a * 1) := mul_le_mul ((posPart_sub_le _ _).trans (hfg t))
                (mul_le_mul_of_nonneg_left (Real.abs_cos_le_one t) ha) (by positivity) (abs_nonneg _)
          _ = a * |Q - Q'| := by ring)
    rw [Real.norm_eq_abs, abs_of_nonneg (sub_nonneg.2 hxy)] at b
    have e' : (∫ t in x..y, max (f t) 0 * (a * Real.cos t)) - ∫ t in x..y, max (g t) 0 * (a * Real.cos t) =
        ∫ t in x..y, (max (f t) 0 * (a * Real.cos t) - max (g t) 0 * (a * Real.cos t)) := e.symm
    rw [e']
    exact b
  have b1 := part (fun t => Q - q t) (fun t => Q' - q t) φ n h1 h2 le_rfl (continuousOn_const.sub hc) (continuousOn_const.sub hc)
    (fun t => le_of_eq (by congr 1; ring))
  have b2 := part (fun t => q t - Q) (fun t => q t - Q') s φ le_rfl h1 h2 (hc.sub continuousOn_const) (hc.sub continuousOn_const)
    (fun t => le_of_eq (by rw [show q t - Q - (q t - Q') = -(Q - Q') by ring, abs_neg]))
  unfold meridionalWaveActivity
  rw [abs_le] at b1 b2 ⊢
  constructor <;> nlinarith [b1.1, b1.2, b2.1, b2.2]

/-- Dependence of the integral on the latitude. -/
theorem meridional_latitude {q : ℝ → ℝ} {a L M s n φ φ' Q : ℝ} (ha : 0 ≤ a) (hq : GradientBound q L s n)
    (hM : ∀ x ∈ Set.Icc s n, |q x - Q| ≤ M) (h1 : s ≤ φ) (h2 : φ ≤ φ') (h3 : φ' ≤ n) :
    |meridionalWaveActivity a q Q s n φ - meridionalWaveActivity a q Q s n φ'| ≤ 2 * (a * M) * (φ' - φ) := by
  have hM' : ∀ y ∈ Set.Icc s n, |Q - q y| ≤ M := fun y hy => by rw [abs_sub_comm]; exact hM y hy
  have hF := weighted_bound ha (sub_const_bound hq Q).2 hM'
  have hG := weighted_bound ha (sub_const_bound hq Q).1 hM
  have eF := intervalIntegral.integral_add_adjacent_intervals (hF.intervalIntegrable (x := φ) (y := φ') h1 h2 h3)
    (hF.intervalIntegrable (x := φ') (y := n) (h1.trans h2) h3 le_rfl)
  have eG := intervalIntegral.integral_add_adjacent_intervals (hG.intervalIntegrable (x := s) (y := φ) le_rfl h1 (h2.trans h3))
    (hG.intervalIntegrable (x := φ) (y := φ') h1 h2 h3)
  have bF := intervalIntegral.norm_integral_le_of_norm_le_const (a := φ) (b := φ')
    (f := fun x => max (Q - q x) 0 * (a * Real.cos x)) (C := a * M) (fun t ht => by
      rw [Set.uIoc_of_le h2] at ht
      exact weighted_le (q := fun x => Q - q x) ha (hM' t ⟨h1.trans ht.1.le, ht.2.trans h3⟩))
  have bG := intervalIntegral.norm_integral_le_of_norm_le_const (a := φ) (b := φ')
    (f := fun x => max (q x - Q) 0 * (a * Real.cos x)) (C := a * M) (fun t ht => by
      rw [Set.uIoc_of_le h2] at ht
      exact weighted_le (q := fun x => q x - Q) ha (hM t ⟨h1.trans ht.1.le, ht.2.trans h3⟩))
  rw [Real.norm_eq_abs, abs_of_nonneg (sub_nonneg.2 h2), abs_le] at bF bG
  unfold meridionalWaveActivity
  rw [← eF, ← eG, abs_le]
  constructor <;> linarith [bF.1, bF.2, bG.1, bG.2]

/-! ## `basis.lwa` -/

/-- C119. On an evenly spaced grid of `n + 1` latitudes from `φs` to `φn` with `dmu = a cos φ dφ`, the wave activity that `basis.lwa`
returns on every row but the last differs from the integral by at most a constant times the spacing `h`, plus a constant times the
error of the reference value. `L` bounds the meridional gradient of the field, `M` its distance from the reference value. -/
theorem C119_lwa (q : ℝ → ℝ → ℝ) (lon : ℕ → ℝ) (Qpart : ℕ → ℝ) {a L M Q φs h : ℝ} {n j c : ℕ} (nc : Option (ℕ → ℕ → ℝ))
    (ha : 0 ≤ a) (hh : 0 ≤ h) (hL : 0 ≤ L)
    (hq : GradientBound (fun φ => q φ (lon c)) L φs (φs + n * h))
    (hM : ∀ φ ∈ Set.Icc φs (φs + n * h), |q φ (lon c) - Qpart j| ≤ M) (hj : j < n) :
    ∃ f, (lwa (n + 1) (fun r c => q (φs + r * h) (lon c)) Qpart (fun r => a * Real.cos (φs + r * h) * h) false nc).1 = .total f ∧
      |f j c - meridionalWaveActivity a (fun φ => q φ (lon c)) Q φs (φs + n * h) (φs + j * h)| ≤
        a * h * ((L + M) * (n * h) + M) + a * |Qpart j - Q| * (n * h) := by
  refine ⟨_, rfl, ?_⟩
  have e := (grid_error ha hh hL hq hM hj.le).1
  have hjn : (j : ℝ) * h ≤ n * h := mul_le_mul_of_nonneg_right (by exact_mod_cast hj.le) hh
  have hj0 : (0 : ℝ) ≤ j * h := by positivity
  have r := meridional_reference (Q := Qpart j) (Q' := Q) (φ := φs + j * h) ha hq (by linarith) (by linarith)
  rw [show φs + (n : ℝ) * h - φs = n * h by ring] at r
  have hs : lwaTotal (n + 1) (fun r c => q (φs + r * h) (lon c)) Qpart (fun r => a * Real.cos (φs + r * h) * h) j c =
      ∑ r ∈ range (n + 1), (if j < r then max (Qpart j - q (φs + r * h) (lon c)) 0 * (a * Real.cos (φs + r * h)) else
        max (q (φs + r * h) (lon c) - Qpart j) 0 * (a * Real.cos (φs + r * h))) * h := by
    rw [lwaTotal_eq_spec (by omega), waveActivity_eq_add, deficit_eq, surplus_eq, ← sum_add_distrib]
    refine sum_congr rfl fun r _ => ?_
    by_cases hr : j < r
    · rw [if_pos hr, if_pos hr, if_neg (by omega)]; ring
    · rw [if_neg hr, if_neg hr, if_pos (by omega)]; ring
  change |lwaTotal (n + 1) (fun r c => q (φs + r * h) (lon c)) Qpart (fun r => a * Real.cos (φs + r * h) * h) j c - _| ≤ _
  rw [hs]
  exact (abs_sub_le _ _ _).trans (add_le_add e r)

/-- Hypotheses of `C119_lwa`: a wave on solid-body rotation, from pole to pole in four steps, unit radius. -/
example : GradientBound (fun φ => Real.sin φ + Real.cos φ * Real.sin (3 * 1)) 2 (-(Real.pi / 2)) (-(Real.pi / 2) + (4 : ℕ) * (Real.pi / 4)) ∧
    (∀ φ ∈ Set.Icc (-(Real.pi / 2)) (-(Real.pi / 2) + (4 : ℕ) * (Real.pi / 4)),
      |Real.sin φ + Real.cos φ * Real.sin (3 * 1) - 0| ≤ 2) ∧ (2 : ℕ) < 4 := by
  refine ⟨fun x _ y _ => ?_, fun φ _ => ?_, by norm_num⟩
  · have h1 := Real.abs_sin_sub_sin_le x y
    have h2 := Real.abs_cos_sub_cos_le x y
    have h3 : |(Real.cos x - Real.cos y) * Real.sin (3 * 1)| ≤ |x - y| * 1 := by
      rw [abs_mul]; exact mul_le_mul h2 (Real.abs_sin_le_one _) (abs_nonneg _) (abs_nonneg _)
    calc |Real.sin x + Real.cos x * Real.sin (3 * 1) - (Real.sin y + Real.cos y * Real.sin (3 * 1))|
        = |(Real.sin x - Real.sin y) + (Real.cos x - Real.cos y) * Real.sin (3 * 1)| := by congr 1; ring
      _ ≤ |x - y| + |x - y| * 1 := (abs_add_le _ _).trans (add_le_add h1 h3)
      _ = 2 * |x - y| := by ring
  · rw [sub_zero]
    have h3 : |Real.cos φ * Real.sin (3 * 1)| ≤ 1 * 1 := by
      rw [abs_mul]; exact mul_le_mul (Real.abs_cos_le_one _) (Real.abs_sin_le_one _) (abs_nonneg _) zero_le_one
    exact (abs_add_le _ _).trans (by have := Real.abs_sin_le_one φ; linarith)

/-- C119, limit: on ever finer grids between fixed latitudes, with rows `j m` that tend to a latitude `φ` and reference values that tend
to `Q`, the wave activity tends to the integral. -/
theorem C119_limit (q : ℝ → ℝ → ℝ) (lon : ℕ → ℝ) (Qpart : ℕ → ℕ → ℝ) {a L Q φs φn φ : ℝ} {c : ℕ} (n j : ℕ → ℕ)
    (nc : Option (ℕ → ℕ → ℝ)) (ha : 0 ≤ a) (hφ : φs ≤ φn) (hL : 0 ≤ L)
    (hq : GradientBound (fun φ => q φ (lon c)) L φs φn) (hj : ∀ m, j m < n m)
    (hn : Filter.Tendsto n Filter.atTop Filter.atTop)
    (hrow : Filter.Tendsto (fun m => φs + j m * ((φn - φs) / n m)) Filter.atTop (nhds φ))
    (hQ : Filter.Tendsto (fun m => Qpart m (j m)) Filter.atTop (nhds Q)) :
    ∃ f : ℕ → ℕ → ℕ → ℝ, (∀ m, (lwa (n m + 1) (fun r c => q (φs + r * ((φn - φs) / n m)) (lon c)) (Qpart m)
        (fun r => a * Real.cos (φs + r * ((φn - φs) / n m)) * ((φn - φs) / n m)) false nc).1 = .total (f m)) ∧
      Filter.Tendsto (fun m => f m (j m) c) Filter.atTop
        (nhds (meridionalWaveActivity a (fun φ => q φ (lon c)) Q φs φn φ)) := by
  refine ⟨fun m => lwaTotal (n m + 1) (fun r c => q (φs + r * ((φn - φs) / n m)) (lon c)) (Qpart m)
        (fun r => a * Real.cos (φs + r * ((φn - φs) / n m)) * ((φn - φs) / n m)), fun m => rfl, ?_⟩
  set M : ℕ → ℝ := fun m => L * (φn - φs) + |q φs (lon c) - Qpart m (j m)| with hMdef
  set h : ℕ → ℝ := fun m => (φn - φs) / n m with hh
  have n0 : ∀ m, (0 : ℝ) < n m := fun m => by have := hj m; exact_mod_cast (by omega : 0 < n m)
  have hnh : ∀ m, (n m : ℝ) * h m = φn - φs := fun m => by rw [hh]; exact mul_div_cancel₀ _ (n0 m).ne'
  have hend : ∀ m, φs + (n m : ℝ) * h m = φn := fun m => by rw [hnh]; ring
  have h0 : ∀ m, 0 ≤ h m := fun m => div_nonneg (by linarith) (n0 m).le
  have near : ∀ Q' : ℝ, ∀ x ∈ Set.Icc φs φn, |q x (lon c) - Q'| ≤ L * (φn - φs) + |q φs (lon c) - Q'| := by
    intro Q' x hx
    have e1 := hq x hx φs ⟨le_rfl, hφ⟩
    have e2 : L * |x - φs| ≤ L * (φn - φs) := by
      refine mul_le_mul_of_nonneg_left ?_ hL
      rw [abs_of_nonneg (by linarith [hx.1])]; linarith [hx.2]
    calc |q x (lon c) - Q'| = |(q x (lon c) - q φs (lon c)) + (q φs (lon c) - Q')| := by congr 1; ring
      _ ≤ _ := (abs_add_le _ _).trans (add_le_add (e1.trans e2) le_rfl)
  have bound : ∀ m, |lwaTotal (n m + 1) (fun r c => q (φs + r * h m) (lon c)) (Qpart m)
      (fun r => a * Real.cos (φs + r * h m) * h m) (j m) c -
        meridionalWaveActivity a (fun φ => q φ (lon c)) Q φs φn (φs + j m * h m)| ≤
      a * h m * ((L + M m) * (φn - φs) + M m) + a * |Qpart m (j m) - Q| * (φn - φs) := by
    intro m
    obtain ⟨f, e, hf⟩ := C119_lwa q lon (Qpart m) (Q := Q) (M := M m) nc ha (h0 m) hL (by rw [hend]; exact hq)
      (fun x hx => near _ x (by rwa [hend] at hx)) (hj m)
    cases e
    rw [hend, hnh] at hf
    exact hf
  have rows : ∀ m, φs + j m * h m ∈ Set.Icc φs φn := fun m => by
    have : (j m : ℝ) * h m ≤ n m * h m := mul_le_mul_of_nonneg_right (by exact_mod_cast (hj m).le) (h0 m)
    have : (0 : ℝ) ≤ j m * h m := mul_nonneg (Nat.cast_nonneg _) (h0 m)
    exact ⟨by linarith, by rw [hnh] at *; linarith⟩
  have hφmem : φ ∈ Set.Icc φs φn := isClosed_Icc.mem_of_tendsto hrow (Filter.Eventually.of_forall rows)
  have hM : Filter.Tendsto M Filter.atTop (nhds (L * (φn - φs) + |q φs (lon c) - Q|)) :=
    (tendsto_const_nhds.add ((tendsto_const_nhds.sub hQ).abs))
  have hh0 : Filter.Tendsto h Filter.atTop (nhds 0) :=
    tendsto_const_nhds.div_atTop (tendsto_natCast_atTop_atTop.comp hn)
  have hQ0 : Filter.Tendsto (fun m => |Qpart m (j m) - Q|) Filter.atTop (nhds 0) := by
    have := (hQ.sub_const Q).abs
    simpa using this
  have lim1 : Filter.Tendsto (fun m => a * h m * ((L + M m) * (φn - φs) + M m) + a * |Qpart m (j m) - Q| * (φn - φs))
      Filter.atTop (nhds 0) := by
    have t1 := ((hh0.const_mul a).mul (((hM.const_add L).mul_const (φn - φs)).add hM)).add
      ((hQ0.const_mul a).mul_const (φn - φs))
    simpa using t1
  have lat : ∀ m, |meridionalWaveActivity a (fun φ => q φ (lon c)) Q φs φn (φs + j m * h m) -
      meridionalWaveActivity a (fun φ => q φ (lon c)) Q φs φn φ| ≤
        2 * (a * (L * (φn - φs) + |q φs (lon c) - Q|)) * |φs + j m * h m - φ| := by
    intro m
    rcases le_total (φs + j m * h m) φ with hle | hle
    · rw [abs_sub_comm (φs + j m * h m), abs_of_nonneg (sub_nonneg.2 hle)]
      exact meridional_latitude ha hq (near Q) (rows m).1 hle hφmem.2
    · rw [abs_of_nonneg (sub_nonneg.2 hle), abs_sub_comm]
      exact meridional_latitude ha hq (near Q) hφmem.1 hle (rows m).2
  have lim2 : Filter.Tendsto (fun m => 2 * (a * (L * (φn - φs) + |q φs (lon c) - Q|)) * |φs + j m * h m - φ|)
      Filter.atTop (nhds 0) := by
    have := ((hrow.sub_const φ).abs).const_mul (2 * (a * (L * (φn - φs) + |q φs (lon c) - Q|)))
    simpa using this
  rw [tendsto_iff_dist_tendsto_zero]
  refine squeeze_zero (fun m => dist_nonneg) (fun m => ?_) (by simpa using lim1.add lim2)
  rw [Real.dist_eq]
  exact (abs_sub_le _ _ _).trans (add_le_add (bound m) (lat m))

/-- Hypotheses of `C119_limit`: grids of `2 m + 2` steps from pole to pole, the row at the equator. -/
example : (∀ m : ℕ, m + 1 < 2 * m + 2) ∧ Filter.Tendsto (fun m : ℕ => 2 * m + 2) Filter.atTop Filter.atTop ∧
    Filter.Tendsto (fun m : ℕ => -(Real.pi / 2) + ((m + 1 : ℕ) : ℝ) * ((Real.pi / 2 - -(Real.pi / 2)) / ((2 * m + 2 : ℕ) : ℝ)))
      Filter.atTop (nhds 0) := by
  refine ⟨fun m => by omega, Filter.tendsto_atTop_mono (fun m => (by omega : m ≤ 2 * m + 2)) Filter.tendsto_id, ?_⟩
  refine tendsto_const_nhds.congr fun m => ?_
  have : ((m : ℝ) + 1) ≠ 0 := by positivity
  push_cast
  field_simp
  ring

/-! ## `QGField` -/

namespace QGAnalysis

variable {S : QGAnalysis}

theorem sum_Icc_range (s : ℤ) (n : ℕ) (f : ℤ → ℝ) : ∑ r ∈ Icc s (s + n), f r = ∑ r ∈ range (n + 1), f (s + r) := by
  symm
  refine sum_bij (fun r _ => s + (r : ℤ)) (fun r hr => ?_) (fun a _ b _ h => ?_) (fun r hr => ?_) (fun _ _ => rfl)
  · have := mem_range.1 hr; rw [mem_Icc]; omega
  · have : (a : ℤ) = b := by omega
    exact_mod_cast this
  · rw [mem_Icc] at hr
    exact ⟨(r - s).toNat, mem_range.2 (by omega), by omega⟩

theorem displacedNorth_sum (s : ℤ) (n j : ℕ) (q : ℤ → ℝ) (Q : ℝ) (w : ℤ → ℝ) :
    waveActivityNorth (Icc s (s + n)) q Q w (s + j) =
      ∑ r ∈ range (n + 1), (if j ≤ r then max (Q - q (s + r)) 0 else max (q (s + r) - Q) 0) * w (s + r) := by
  unfold waveActivityNorth
  rw [sum_filter, sum_Icc_range]
  refine sum_congr rfl fun r _ => ?_
  by_cases hj : j ≤ r
  · rw [if_pos hj]
    by_cases hq : q (s + r) < Q
    · rw [if_pos (show DisplacedNorth q Q (s + j) (s + r) from Or.inl ⟨by omega, hq⟩), max_eq_left (by linarith), abs_of_neg (by linarith), neg_sub]
    · rw [if_neg, max_eq_right (by linarith), zero_mul]
      rintro (h | h)
      · exact hq h.2
      · omega
  · rw [if_neg hj]
    by_cases hq : Q < q (s + r)
    · rw [if_pos (show DisplacedNorth q Q (s + j) (s + r) from Or.inr ⟨by omega, hq⟩), max_eq_left (by linarith), abs_of_pos (by linarith)]
    · rw [if_neg, max_eq_right (by linarith), zero_mul]
      rintro (h | h)
      · omega
      · exact hq h.2

theorem displacedSouth_sum (s : ℤ) (n j : ℕ) (q : ℤ → ℝ) (Q : ℝ) (w : ℤ → ℝ) :
    waveActivitySouth (Icc s (s + n)) q Q w (s + j) =
      ∑ r ∈ range (n + 1), (if j < r then max (Q - q (s + r)) 0 else max (q (s + r) - Q) 0) * w (s + r) := by
  unfold waveActivitySouth
  rw [sum_filter, sum_Icc_range]
  refine sum_congr rfl fun r _ => ?_
  by_cases hj : j < r
  · rw [if_pos hj]
    by_cases hq : q (s + r) < Q
    · rw [if_pos (show DisplacedSouth q Q (s + j) (s + r) from Or.inr ⟨by omega, hq⟩), max_eq_left (by linarith), abs_of_neg (by linarith), neg_sub]
    · rw [if_neg, max_eq_right (by linarith), zero_mul]
      rintro (h | h)
      · omega
      · exact hq h.2
  · rw [if_neg hj]
    by_cases hq : Q < q (s + r)
    · rw [if_pos (show DisplacedSouth q Q (s + j) (s + r) from Or.inl ⟨by omega, hq⟩), max_eq_left (by linarith), abs_of_pos (by linarith)]
    · rw [if_neg, max_eq_right (by linarith), zero_mul]
      rintro (h | h)
      · exact hq h.2
      · omega

/-- C119 for `QGField`, Northern Hemisphere, both modes: if the PV on level `k` along longitude `i` is a function `q` of latitude with
gradient at most `L` that stays within `M` of the reference value used, the wave activity returned differs from the integral between
equator and pole with the reference value `Q` by at most a constant times the latitude spacing plus a constant times the error of the
reference value. -/
theorem C119_qg_north (hv : S.Valid) (q : ℝ → ℝ) {L M Q : ℝ} (i g k : ℤ) (hL : 0 ≤ L) (hi : 1 ≤ i ∧ i ≤ S.nlon)
    (hk : 2 ≤ k ∧ k ≤ S.kmax - 1) (hg : S.nd + S.jb ≤ S.outRow g ∧ S.outRow g < S.nlat) (heq : S.nhOnly = true ∨ S.nd < g)
    (hpv : ∀ r, S.nd ≤ r → r ≤ S.nlat → S.qgpv i r k = q (S.lat r))
    (hq : GradientBound q L 0 (Real.pi / 2)) (hM : ∀ x ∈ Set.Icc 0 (Real.pi / 2), |q x - S.qref g k| ≤ M) :
    |S.lwa i g k - meridionalWaveActivity S.a q Q 0 (Real.pi / 2) (S.lat (S.outRow g))| ≤
      S.a * S.dphi * ((L + M) * (Real.pi / 2) + M) + S.a * |S.qref g k - Q| * (Real.pi / 2) := by
  have hodd := hv.odd
  have hjb := hv.jb0
  have hb := hv.jbnd
  obtain ⟨n, hn⟩ : ∃ n : ℕ, S.nlat = S.nd + n := ⟨(S.nd - 1).toNat, by omega⟩
  obtain ⟨j, hj⟩ : ∃ j : ℕ, S.outRow g = S.nd + j := ⟨(S.outRow g - S.nd).toNat, by omega⟩
  have hnn : (S.nlat - 1 : ℤ) = 2 * n := by omega
  have hn0 : (n : ℝ) ≠ 0 := by
    have : 0 < n := by omega
    positivity
  have hd : (n : ℝ) * S.dphi = Real.pi / 2 := by
    unfold dphi; rw [hnn]; push_cast; field_simp
  have hd0 : 0 ≤ S.dphi := by
    unfold dphi; rw [hnn]; push_cast; positivity
  have hlat : ∀ r : ℕ, S.lat (S.nd + r) = 0 + r * S.dphi := fun r => by
    unfold lat; rw [show S.nd + (r : ℤ) - S.nd = r by ring]; push_cast; ring
  have hend : (0 : ℝ) + n * S.dphi = Real.pi / 2 := by rw [hd, zero_add]
  have e := (grid_error (j := j) (n := n) (x := 0) (h := S.dphi) (q := q) (Q := S.qref g k) (M := M) hv.a0 hd0 hL
    (by rw [hend]; exact hq) (by rw [hend]; exact hM) (by omega)).2
  have hjn : (j : ℝ) * S.dphi ≤ n * S.dphi := mul_le_mul_of_nonneg_right (by exact_mod_cast (by omega : j ≤ n)) hd0
  have hj0 : (0 : ℝ) ≤ j * S.dphi := by positivity
  have r := meridional_reference (Q := S.qref g k) (Q' := Q) (φ := 0 + j * S.dphi) hv.a0 hq (by linarith) (by linarith)
  rw [hend, hd] at e
  rw [sub_zero] at r
  rw [C42_north hv i g k hi hk hg heq, hj, hlat j, hn, displacedNorth_sum]
  have hs : ∑ r ∈ range (n + 1), (if j ≤ r then max (S.qref g k - S.qgpv i (S.nd + r) k) 0 else
        max (S.qgpv i (S.nd + r) k - S.qref g k) 0) * (S.a * Real.cos (S.lat (S.nd + r)) * S.dphi) =
      ∑ r ∈ range (n + 1), (if j ≤ r then max (S.qref g k - q (0 + r * S.dphi)) 0 * (S.a * Real.cos (0 + r * S.dphi)) else
        max (q (0 + r * S.dphi) - S.qref g k) 0 * (S.a * Real.cos (0 + r * S.dphi))) * S.dphi := by
    refine sum_congr rfl fun r hr => ?_
    have := mem_range.1 hr
    rw [hpv (S.nd + r) (by omega) (by omega), hlat r]
    by_cases h : j ≤ r
    · rw [if_pos h, if_pos h]; ring
    · rw [if_neg h, if_neg h]; ring
  rw [hs]
  exact (abs_sub_le _ _ _).trans (add_le_add e r)

/-- C119 for `QGField`, Southern Hemisphere: the integral runs from the pole to the equator. -/
theorem C119_qg_south (hv : S.Valid) (hm : S.nhOnly = false) (q : ℝ → ℝ) {L M Q : ℝ} (i g k : ℤ) (hL : 0 ≤ L)
    (hi : 1 ≤ i ∧ i ≤ S.nlon) (hk : 2 ≤ k ∧ k ≤ S.kmax - 1) (hg : 1 < g ∧ g ≤ S.nd - S.jb)
    (hpv : ∀ r, 1 ≤ r → r ≤ S.nd → S.qgpv i r k = q (S.lat r))
    (hq : GradientBound q L (-(Real.pi / 2)) 0) (hM : ∀ x ∈ Set.Icc (-(Real.pi / 2)) 0, |q x - S.qref g k| ≤ M) :
    |S.lwa i g k - meridionalWaveActivity S.a q Q (-(Real.pi / 2)) 0 (S.lat g)| ≤
      S.a * S.dphi * ((L + M) * (Real.pi / 2) + M) + S.a * |S.qref g k - Q| * (Real.pi / 2) := by
  have hodd := hv.odd
  have hjb := hv.jb0
  have hb := hv.jbnd
  obtain ⟨n, hn⟩ : ∃ n : ℕ, S.nd = 1 + n := ⟨(S.nd - 1).toNat, by omega⟩
  obtain ⟨j, hj⟩ : ∃ j : ℕ, g = 1 + j := ⟨(g - 1).toNat, by omega⟩
  have hnn : (S.nlat - 1 : ℤ) = 2 * n := by omega
  have hn0 : (n : ℝ) ≠ 0 := by
    have : 0 < n := by omega
    positivity
  have hd : (n : ℝ) * S.dphi = Real.pi / 2 := by
    unfold dphi; rw [hnn]; push_cast; field_simp
  have hd0 : 0 ≤ S.dphi := by
    unfold dphi; rw [hnn]; push_cast; positivity
  have hlat : ∀ r : ℕ, S.lat (1 + r) = -(Real.pi / 2) + r * S.dphi := fun r => by
    unfold lat; rw [hn, ← hd]; push_cast; ring
  have hend : -(Real.pi / 2) + n * S.dphi = 0 := by rw [hd]; ring
  have e := (grid_error (j := j) (n := n) (x := -(Real.pi / 2)) (h := S.dphi) (q := q) (Q := S.qref g k) (M := M) hv.a0 hd0 hL
    (by rw [hend]; exact hq) (by rw [hend]; exact hM) (by omega)).1
  have hjn : (j : ℝ) * S.dphi ≤ n * S.dphi := mul_le_mul_of_nonneg_right (by exact_mod_cast (by omega : j ≤ n)) hd0
  have hj0 : (0 : ℝ) ≤ j * S.dphi := by positivity
  have r := meridional_reference (Q := S.qref g k) (Q' := Q) (φ := -(Real.pi / 2) + j * S.dphi) hv.a0 hq (by linarith) (by linarith)
  rw [hend, hd] at e
  rw [zero_sub, neg_neg] at r
  rw [C42_south hv hm i g k hi hk hg, hn]
  subst hj
  rw [hlat j, displacedSouth_sum]
  have hs : ∑ r ∈ range (n + 1), (if j < r then max (S.qref (1 + j) k - S.qgpv i (1 + r) k) 0 else
        max (S.qgpv i (1 + r) k - S.qref (1 + j) k) 0) * (S.a * Real.cos (S.lat (1 + r)) * S.dphi) =
      ∑ r ∈ range (n + 1), (if j < r then max (S.qref (1 + j) k - q (-(Real.pi / 2) + r * S.dphi)) 0 *
          (S.a * Real.cos (-(Real.pi / 2) + r * S.dphi)) else
        max (q (-(Real.pi / 2) + r * S.dphi) - S.qref (1 + j) k) 0 * (S.a * Real.cos (-(Real.pi / 2) + r * S.dphi))) * S.dphi := by
    refine sum_congr rfl fun r hr => ?_
    have := mem_range.1 hr
    rw [hpv (1 + r) (by omega) (by omega), hlat r]
    by_cases h : j < r
    · rw [if_pos h, if_pos h]; ring
    · rw [if_neg h, if_neg h]; ring
  rw [hs]
  exact (abs_sub_le _ _ _).trans (add_le_add e r)

/-- An analysis whose PV is the sine of latitude on every level. -/
def smooth : QGAnalysis := { sample with qgpv := fun _ r _ => Real.sin (sample.lat r) }

/-- Hypotheses of `C119_qg_north` and `C119_qg_south`, with `L = M = 1`, row 4 in the north and row 2 in the south. -/
example : smooth.Valid ∧ smooth.nhOnly = false ∧
    (smooth.nd + smooth.jb ≤ smooth.outRow 4 ∧ smooth.outRow 4 < smooth.nlat) ∧ (1 < (2 : ℤ) ∧ (2 : ℤ) ≤ smooth.nd - smooth.jb) ∧
    (∀ r, smooth.qgpv 1 r 2 = Real.sin (smooth.lat r)) ∧ (∀ s n, GradientBound Real.sin 1 s n) ∧
    (∀ x g, |Real.sin x - smooth.qref g 2| ≤ 1) := by
  refine ⟨⟨by rfl, by decide, by decide, by rfl, by norm_num [smooth, sample]⟩, rfl, ⟨by decide, by decide⟩, ⟨by decide, by decide⟩,
    fun r => rfl, fun s n x _ y _ => ?_, fun x g => ?_⟩
  · rw [one_mul]; exact Real.abs_sin_sub_sin_le x y
  · show |Real.sin x - 0| ≤ 1
    rw [sub_zero]; exact Real.abs_sin_le_one x

end QGAnalysis

end Falwa
