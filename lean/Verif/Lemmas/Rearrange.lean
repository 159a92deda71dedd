import Verif.Spec.Rearrange
import Verif.Spec.Continuum
import Mathlib.MeasureTheory.Integral.Prod
import Mathlib.MeasureTheory.Integral.DominatedConvergence
import Mathlib.MeasureTheory.Measure.OpenPos
import Mathlib.Topology.UniformSpace.HeineCantor
import Mathlib.Tactic.Linarith
import Mathlib.Tactic.Ring
import Mathlib.Tactic.Positivity
import Mathlib.Tactic.FieldSimp

/-! Double Riemann sums of continuous functions, and the area enclosed by contours of a continuous field. -/

noncomputable section

namespace Falwa

open Finset Spec MeasureTheory

/-! ### Riemann sums -/

/-- One dimension: `f` varies by at most `ω` within one step. -/
theorem riemann_modulus {f : ℝ → ℝ} (hc : Continuous f) {ω x h : ℝ} {n : ℕ} (hh : 0 ≤ h)
    (hf : ∀ s ∈ Set.Icc x (x + n * h), ∀ t ∈ Set.Icc x (x + n * h), |s - t| ≤ h → |f s - f t| ≤ ω) :
    |∑ r ∈ range n, f (x + r * h) * h - ∫ t in x..x + n * h, f t| ≤ ω * (n * h) := by
  induction n with
  | zero => simp
  | succ n ih =>
    have hn : (0 : ℝ) ≤ n * h := by positivity
    push_cast at hf ⊢
    have hle : x + n * h ≤ x + (n + 1) * h := by linarith
    have h1 := ih fun s hs t ht => hf s ⟨hs.1, hs.2.trans hle⟩ t ⟨ht.1, ht.2.trans hle⟩
    have e := intervalIntegral.integral_add_adjacent_intervals (hc.intervalIntegrable (μ := volume) x (x + n * h))
      (hc.intervalIntegrable (μ := volume) (x + n * h) (x + (n + 1) * h))
    have e2 : f (x + n * h) * h - ∫ t in x + n * h..x + (n + 1) * h, f t =
        ∫ t in x + n * h..x + (n + 1) * h, (f (x + n * h) - f t) := by
      rw [intervalIntegral.integral_sub intervalIntegrable_const (hc.intervalIntegrable _ _), intervalIntegral.integral_const, smul_eq_mul]
      ring
    have h2 := intervalIntegral.norm_integral_le_of_norm_le_const (a := x + n * h) (b := x + (n + 1) * h)
      (f := fun t => f (x + n * h) - f t) (C := ω) (fun t ht => by
        rw [Set.uIoc_of_le hle] at ht
        rw [Real.norm_eq_abs]
        refine hf _ ⟨by linarith, hle⟩ t ⟨by linarith [ht.1], ht.2⟩ ?_
        rw [abs_le]; constructor <;> linarith [ht.1, ht.2])
    rw [Real.norm_eq_abs, ← e2, show x + ((n : ℝ) + 1) * h - (x + n * h) = h by ring, abs_of_nonneg hh] at h2
    rw [← e, sum_range_succ]
    rw [abs_le] at *
    constructor <;> nlinarith [h1.1, h1.2, h2.1, h2.2]

/-- Two dimensions, iterated integral. -/
theorem riemann_modulus₂ {F : ℝ → ℝ → ℝ} (hc : Continuous fun p : ℝ × ℝ => F p.1 p.2) {ω x h y k : ℝ} {n m : ℕ}
    (hh : 0 ≤ h) (hk : 0 ≤ k)
    (hF : ∀ s ∈ Set.Icc x (x + n * h), ∀ s' ∈ Set.Icc x (x + n * h), ∀ t ∈ Set.Icc y (y + m * k), ∀ t' ∈ Set.Icc y (y + m * k),
      |s - s'| ≤ h → |t - t'| ≤ k → |F s t - F s' t'| ≤ ω) :
    |∑ r ∈ range n, ∑ c ∈ range m, F (x + r * h) (y + c * k) * (h * k) -
      ∫ s in x..x + n * h, ∫ t in y..y + m * k, F s t| ≤ 2 * ω * (n * h) * (m * k) := by
  set H : ℝ → ℝ := fun s => ∫ t in y..y + m * k, F s t with hH
  have hmk : (0 : ℝ) ≤ m * k := by positivity
  have hnh : (0 : ℝ) ≤ n * h := by positivity
  have cH : Continuous H := intervalIntegral.continuous_parametric_intervalIntegral_of_continuous' hc y (y + m * k)
  have c1 : ∀ s, Continuous fun t => F s t := fun s => hc.comp (Continuous.prodMk_right s)
  have b1 := riemann_modulus cH (ω := ω * (m * k)) (x := x) (n := n) hh (fun s hs s' hs' hss => by
    have e : H s - H s' = ∫ t in y..y + m * k, (F s t - F s' t) :=
      (intervalIntegral.integral_sub ((c1 s).intervalIntegrable _ _) ((c1 s').intervalIntegrable _ _)).symm
    rw [e]
    have := intervalIntegral.norm_integral_le_of_norm_le_const (a := y) (b := y + m * k)
      (f := fun t => F s t - F s' t) (C := ω) (fun t ht => by
        rw [Set.uIoc_of_le (by linarith)] at ht
        rw [Real.norm_eq_abs]
        exact hF s hs s' hs' t ⟨ht.1.le, ht.2⟩ t ⟨ht.1.le, ht.2⟩ hss (by simpa using hk))
    rwa [Real.norm_eq_abs, show y + (m : ℝ) * k - y = m * k by ring, abs_of_nonneg hmk] at this)
  have b2 : |∑ r ∈ range n, ∑ c ∈ range m, F (x + r * h) (y + c * k) * (h * k) - ∑ r ∈ range n, H (x + r * h) * h| ≤
      ω * (m * k) * (n * h) := by
    rw [← sum_sub_distrib]
    refine (abs_sum_le_sum_abs _ _).trans ?_
    have hrow : ∀ r ∈ range n, |∑ c ∈ range m, F (x + r * h) (y + c * k) * (h * k) - H (x + r * h) * h| ≤ ω * (m * k) * h := by
      intro r hr
      have hrn : (r : ℝ) * h ≤ n * h := mul_le_mul_of_nonneg_right (by exact_mod_cast (mem_range.1 hr).le) hh
      have hr0 : (0 : ℝ) ≤ r * h := by positivity
      have := riemann_modulus (c1 (x + r * h)) (ω := ω) (x := y) (n := m) hk (fun t ht t' ht' htt =>
        hF _ ⟨by linarith, by linarith⟩ _ ⟨by linarith, by linarith⟩ t ht t' ht' (by simpa using hh) htt)
      have e : ∑ c ∈ range m, F (x + r * h) (y + c * k) * (h * k) - H (x + r * h) * h =
          (∑ c ∈ range m, F (x + r * h) (y + c * k) * k - H (x + r * h)) * h := by
        rw [sub_mul, sum_mul]
        congr 1
        exact sum_congr rfl fun c _ => by ring
      rw [e, abs_mul, abs_of_nonneg hh]
      exact mul_le_mul_of_nonneg_right this hh
    refine (sum_le_sum hrow).trans (le_of_eq ?_)
    rw [sum_const, card_range, nsmul_eq_mul]
    ring
  calc _ ≤ _ := abs_sub_le _ (∑ r ∈ range n, H (x + r * h) * h) _
    _ ≤ ω * (m * k) * (n * h) + ω * (m * k) * (n * h) := add_le_add b2 b1
    _ = _ := by ring

/-- The iterated integral is the integral over the rectangle. -/
theorem iterated_eq {F : ℝ → ℝ → ℝ} (hc : Continuous fun p : ℝ × ℝ => F p.1 p.2) {x x' y y' : ℝ} (hx : x ≤ x') (hy : y ≤ y') :
    ∫ s in x..x', ∫ t in y..y', F s t = ∫ p in Set.Icc x x' ×ˢ Set.Icc y y', F p.1 p.2 := by
  have hi : IntegrableOn (fun p : ℝ × ℝ => F p.1 p.2) (Set.Icc x x' ×ˢ Set.Icc y y') (volume.prod volume) := by
    rw [← Measure.volume_eq_prod]
    exact hc.continuousOn.integrableOn_compact (isCompact_Icc.prod isCompact_Icc)
  rw [Measure.volume_eq_prod, setIntegral_prod _ hi, intervalIntegral.integral_of_le hx, ← integral_Icc_eq_integral_Ioc]
  refine setIntegral_congr_fun measurableSet_Icc fun s _ => ?_
  rw [intervalIntegral.integral_of_le hy, ← integral_Icc_eq_integral_Ioc]

/-- Double sums on ever finer grids tend to the integral. -/
theorem tendsto_double_sum {F : ℝ → ℝ → ℝ} (hc : Continuous fun p : ℝ × ℝ => F p.1 p.2) {x x' y y' : ℝ} (hx : x ≤ x') (hy : y ≤ y')
    {n m : ℕ → ℕ} (hn : Filter.Tendsto n Filter.atTop Filter.atTop) (hm : Filter.Tendsto m Filter.atTop Filter.atTop) :
    Filter.Tendsto (fun i => ∑ r ∈ range (n i), ∑ c ∈ range (m i),
        F (x + r * ((x' - x) / n i)) (y + c * ((y' - y) / m i)) * ((x' - x) / n i * ((y' - y) / m i)))
      Filter.atTop (nhds (∫ p in Set.Icc x x' ×ˢ Set.Icc y y', F p.1 p.2)) := by
  rw [Metric.tendsto_atTop]
  intro ε hε
  set A := 2 * (x' - x) * (y' - y) with hA
  have hA0 : 0 ≤ A := mul_nonneg (mul_nonneg zero_le_two (by linarith)) (by linarith)
  have hK : IsCompact (Set.Icc x x' ×ˢ Set.Icc y y') := isCompact_Icc.prod isCompact_Icc
  have huc := hK.uniformContinuousOn_of_continuous (f := fun p : ℝ × ℝ => F p.1 p.2) hc.continuousOn
  rw [Metric.uniformContinuousOn_iff] at huc
  obtain ⟨δ, hδ, hu⟩ := huc (ε / (A + 1)) (by positivity)
  have hh : Filter.Tendsto (fun i => (x' - x) / (n i : ℝ)) Filter.atTop (nhds 0) :=
    tendsto_const_nhds.div_atTop (tendsto_natCast_atTop_atTop.comp hn)
  have hk : Filter.Tendsto (fun i => (y' - y) / (m i : ℝ)) Filter.atTop (nhds 0) :=
    tendsto_const_nhds.div_atTop (tendsto_natCast_atTop_atTop.comp hm)
  have ev := ((hh.eventually (gt_mem_nhds hδ)).and (hk.eventually (gt_mem_nhds hδ))).and
    ((hn.eventually (Filter.eventually_ge_atTop 1)).and (hm.eventually (Filter.eventually_ge_atTop 1)))
  obtain ⟨N, hN⟩ := Filter.eventually_atTop.1 ev
  refine ⟨N, fun i hi => ?_⟩
  obtain ⟨⟨d1, d2⟩, p1, p2⟩ := hN i hi
  have n0 : (0 : ℝ) < n i := by exact_mod_cast p1
  have m0 : (0 : ℝ) < m i := by exact_mod_cast p2
  have en : x + (n i : ℝ) * ((x' - x) / n i) = x' := by rw [mul_div_cancel₀ _ n0.ne']; ring
  have em : y + (m i : ℝ) * ((y' - y) / m i) = y' := by rw [mul_div_cancel₀ _ m0.ne']; ring
  have key := riemann_modulus₂ hc (ω := ε / (A + 1)) (x := x) (h := (x' - x) / n i) (y := y) (k := (y' - y) / m i) (n := n i) (m := m i)
    (div_nonneg (by linarith) n0.le) (div_nonneg (by linarith) m0.le) (by
      rw [en, em]
      intro s hs s' hs' t ht t' ht' hss htt
      have := hu (s, t) ⟨hs, ht⟩ (s', t') ⟨hs', ht'⟩ (by
        rw [Prod.dist_eq, max_lt_iff, Real.dist_eq, Real.dist_eq]
        exact ⟨lt_of_le_of_lt hss d1, lt_of_le_of_lt htt d2⟩)
      rw [Real.dist_eq] at this
      exact this.le)
  rw [en, em, iterated_eq hc hx hy, mul_div_cancel₀ _ n0.ne', mul_div_cancel₀ _ m0.ne'] at key
  rw [Real.dist_eq]
  refine lt_of_le_of_lt key ?_
  have : 2 * (ε / (A + 1)) * (x' - x) * (y' - y) = ε * (A / (A + 1)) := by rw [hA]; ring
  rw [this]
  have hlt : A / (A + 1) < 1 := by rw [div_lt_one (by linarith)]; linarith
  calc ε * (A / (A + 1)) < ε * 1 := mul_lt_mul_of_pos_left hlt hε
    _ = ε := mul_one _

/-! ### Ramps -/

/-- 1 up to `s`, 0 from `t` on, linear between. -/
def ramp (s t x : ℝ) : ℝ := max 0 (min 1 ((t - x) / (t - s)))

theorem ramp_continuous (s t : ℝ) : Continuous (ramp s t) := by
  unfold ramp
  fun_prop

theorem ramp_nonneg (s t x : ℝ) : 0 ≤ ramp s t x := le_max_left _ _

theorem ramp_le_one (s t x : ℝ) : ramp s t x ≤ 1 := max_le zero_le_one (min_le_left _ _)

theorem ramp_eq_one {s t x : ℝ} (h : s < t) (hx : x ≤ s) : ramp s t x = 1 := by
  have : 1 ≤ (t - x) / (t - s) := by rw [le_div_iff₀ (by linarith)]; linarith
  unfold ramp
  rw [min_eq_left this]
  exact max_eq_right zero_le_one

theorem ramp_eq_zero {s t x : ℝ} (h : s < t) (hx : t ≤ x) : ramp s t x = 0 := by
  have : (t - x) / (t - s) ≤ 0 := div_nonpos_of_nonpos_of_nonneg (by linarith) (by linarith)
  unfold ramp
  exact max_eq_left ((min_le_right _ _).trans this)

/-! ### Enclosed areas -/

section Area

variable {a s n : ℝ} {q : ℝ → ℝ → ℝ}

theorem isCompact_band (s n : ℝ) : IsCompact (band s n) := isCompact_Icc.prod isCompact_Icc

theorem measurableSet_band (s n : ℝ) : MeasurableSet (band s n) := (isCompact_band s n).measurableSet

open Classical in
theorem areaAtMost_integrable (hq : Continuous fun p : ℝ × ℝ => q p.1 p.2) (a s n v : ℝ) :
    IntegrableOn (fun p : ℝ × ℝ => if q p.1 p.2 ≤ v then a ^ 2 * Real.cos p.1 else 0) (band s n) := by
  have hS : MeasurableSet {p : ℝ × ℝ | q p.1 p.2 ≤ v} := (isClosed_le hq continuous_const).measurableSet
  have hw : IntegrableOn (fun p : ℝ × ℝ => a ^ 2 * Real.cos p.1) (band s n) :=
    (by fun_prop : Continuous fun p : ℝ × ℝ => a ^ 2 * Real.cos p.1).continuousOn.integrableOn_compact (isCompact_band s n)
  have := hw.indicator hS
  refine this.congr_fun (fun p _ => ?_) (measurableSet_band s n)
  simp only [Set.indicator_apply, Set.mem_ofPred_eq]

theorem band_cos_nonneg (h1 : -(Real.pi / 2) ≤ s) (h2 : n ≤ Real.pi / 2) {p : ℝ × ℝ} (hp : p ∈ band s n) : 0 ≤ Real.cos p.1 :=
  Real.cos_nonneg_of_mem_Icc ⟨h1.trans hp.1.1, hp.1.2.trans h2⟩

theorem areaAtMost_mono (hq : Continuous fun p : ℝ × ℝ => q p.1 p.2) (h1 : -(Real.pi / 2) ≤ s) (h2 : n ≤ Real.pi / 2) {v w : ℝ}
    (h : v ≤ w) : areaAtMost a q s n v ≤ areaAtMost a q s n w := by
  classical
  refine setIntegral_mono_on (areaAtMost_integrable hq a s n v) (areaAtMost_integrable hq a s n w) (measurableSet_band s n) fun p hp => ?_
  have := band_cos_nonneg h1 h2 hp
  by_cases h3 : q p.1 p.2 ≤ v
  · rw [if_pos h3, if_pos (h3.trans h)]
  · rw [if_neg h3]
    split_ifs
    · positivity
    · exact le_rfl

/-- A ramp between `v` and `w` has an integral between the two areas. -/
theorem ramp_between (hq : Continuous fun p : ℝ × ℝ => q p.1 p.2) (h1 : -(Real.pi / 2) ≤ s) (h2 : n ≤ Real.pi / 2) {v w : ℝ}
    (h : v < w) : areaAtMost a q s n v ≤ ∫ p in band s n, ramp v w (q p.1 p.2) * (a ^ 2 * Real.cos p.1) ∧
      ∫ p in band s n, ramp v w (q p.1 p.2) * (a ^ 2 * Real.cos p.1) ≤ areaAtMost a q s n w := by
  classical
  have hr : Continuous fun p : ℝ × ℝ => ramp v w (q p.1 p.2) * (a ^ 2 * Real.cos p.1) :=
    ((ramp_continuous v w).comp hq).mul (by fun_prop)
  have hi : IntegrableOn (fun p : ℝ × ℝ => ramp v w (q p.1 p.2) * (a ^ 2 * Real.cos p.1)) (band s n) :=
    hr.continuousOn.integrableOn_compact (isCompact_band s n)
  constructor
  · refine setIntegral_mono_on (areaAtMost_integrable hq a s n v) hi (measurableSet_band s n) fun p hp => ?_
    have := band_cos_nonneg h1 h2 hp
    by_cases h3 : q p.1 p.2 ≤ v
    · rw [if_pos h3, ramp_eq_one h h3, one_mul]
    · rw [if_neg h3]
      exact mul_nonneg (ramp_nonneg _ _ _) (by positivity)
  · refine setIntegral_mono_on hi (areaAtMost_integrable hq a s n w) (measurableSet_band s n) fun p hp => ?_
    have := band_cos_nonneg h1 h2 hp
    by_cases h3 : q p.1 p.2 ≤ w
    · rw [if_pos h3]
      exact mul_le_of_le_one_left (by positivity) (ramp_le_one _ _ _)
    · rw [if_neg h3, ramp_eq_zero h (not_le.1 h3).le, zero_mul]

/-- Strictly between the extremes of a continuous field the area grows strictly. -/
theorem areaAtMost_strict (ha : 0 < a) (hq : Continuous fun p : ℝ × ℝ => q p.1 p.2) (h1 : -(Real.pi / 2) ≤ s) (h2 : n ≤ Real.pi / 2)
    {v w : ℝ} (h : v < w) {p : ℝ × ℝ} (hp : p ∈ interior (band s n)) (hv : v < q p.1 p.2) (hw : q p.1 p.2 < w) :
    areaAtMost a q s n v < areaAtMost a q s n w := by
  classical
  refine lt_of_le_of_ne (areaAtMost_mono hq h1 h2 h.le) fun e => ?_
  set f : ℝ × ℝ → ℝ := fun p => (if q p.1 p.2 ≤ w then a ^ 2 * Real.cos p.1 else 0) - if q p.1 p.2 ≤ v then a ^ 2 * Real.cos p.1 else 0 with hf
  have hint : IntegrableOn f (band s n) := (areaAtMost_integrable hq a s n w).sub (areaAtMost_integrable hq a s n v)
  have hz : ∫ p in band s n, f p = 0 := by
    rw [hf, integral_sub (areaAtMost_integrable hq a s n w) (areaAtMost_integrable hq a s n v)]
    exact sub_eq_zero.2 e.symm
  have hnn : ∀ p ∈ band s n, 0 ≤ f p := by
    intro p hp
    have := band_cos_nonneg h1 h2 hp
    simp only [hf]
    by_cases h3 : q p.1 p.2 ≤ v
    · rw [if_pos h3, if_pos (h3.trans h.le), sub_self]
    · rw [if_neg h3, sub_zero]
      split_ifs
      · positivity
      · exact le_rfl
  have hae := (setIntegral_eq_zero_iff_of_nonneg_ae ((ae_restrict_iff' (measurableSet_band s n)).2 (Filter.Eventually.of_forall hnn)) hint).1 hz
  rw [Filter.EventuallyEq, ae_restrict_iff' (measurableSet_band s n)] at hae
  set U : Set (ℝ × ℝ) := interior (band s n) ∩ {p | v < q p.1 p.2 ∧ q p.1 p.2 < w} with hU
  have hUo : IsOpen U := isOpen_interior.inter ((isOpen_lt continuous_const hq).inter (isOpen_lt hq continuous_const))
  have hpos := hUo.measure_pos (volume : Measure (ℝ × ℝ)) ⟨p, hp, hv, hw⟩
  have hsub : U ⊆ {p | ¬ (p ∈ band s n → f p = 0)} := by
    rintro x ⟨hx, hxv, hxw⟩ hcon
    have hxb := interior_subset hx
    have hfx := hcon hxb
    have hint' : x.1 ∈ Set.Ioo s n := by
      have : interior (band s n) = Set.Ioo s n ×ˢ Set.Ioo 0 (2 * Real.pi) := by
        rw [band, interior_prod_eq, interior_Icc, interior_Icc]
      rw [this] at hx
      exact hx.1
    have hcos : 0 < Real.cos x.1 := Real.cos_pos_of_mem_Ioo ⟨lt_of_le_of_lt h1 hint'.1, lt_of_lt_of_le hint'.2 h2⟩
    simp only [hf] at hfx
    rw [if_pos hxw.le, if_neg (not_le.2 hxv), sub_zero] at hfx
    have : 0 < a ^ 2 * Real.cos x.1 := by positivity
    linarith
  have : volume U = 0 := measure_mono_null hsub (ae_iff.1 hae)
  rw [this] at hpos
  exact lt_irrefl _ hpos

/-- There is at most one value that encloses an area. -/
theorem Spec.Encloses.unique {T v w : ℝ} (hv : Encloses a q s n T v) (hw : Encloses a q s n T w) : v = w := by
  by_contra h
  rcases lt_or_gt_of_ne h with h | h
  · have h1 := hv.above ((v + w) / 2) (by linarith)
    have h2 := hw.below ((v + w) / 2) (by linarith)
    linarith
  · have h1 := hw.above ((v + w) / 2) (by linarith)
    have h2 := hv.below ((v + w) / 2) (by linarith)
    linarith

end Area

end Falwa
