import Verif.Props.Rearrange
import Verif.Props.ZonalQG

/-!
# C160: The reference QGPV tends to the rearrangement on the sphere
-/

noncomputable section

namespace Falwa

open Finset Spec MeasureTheory

/-- Sums over the cells of ever finer grids. -/
theorem grid_sums_tendsto {a : ℝ} {q : ℝ → ℝ → ℝ} (hq : Continuous fun p : ℝ × ℝ => q p.1 p.2) {χ : ℝ → ℝ} (hχ : Continuous χ)
    {G : ℕ → SphereGrid} (hn : ∀ i, 2 ≤ (G i).n) (hm : ∀ i, 1 ≤ (G i).m) (ha : ∀ i, (G i).a = a)
    (hnt : Filter.Tendsto (fun i => (G i).n) Filter.atTop Filter.atTop) (hmt : Filter.Tendsto (fun i => (G i).m) Filter.atTop Filter.atTop) :
    Filter.Tendsto (fun i => ∑ y ∈ Icc 1 (G i).n, ∑ x ∈ Icc 1 (G i).m, χ (q ((G i).latitude y) ((G i).longitude x)) * (G i).cell y)
      Filter.atTop (nhds (∫ p in band (-(Real.pi / 2)) (Real.pi / 2), χ (q p.1 p.2) * (a ^ 2 * Real.cos p.1))) := by
  have hpi := Real.pi_pos
  set N : ℕ → ℕ := fun i => ((G i).n - 1).toNat with hN
  set M : ℕ → ℕ := fun i => (G i).m.toNat with hM
  have hNe : ∀ i, (G i).n = 1 + (N i : ℤ) := fun i => by have := hn i; simp only [hN]; omega
  have hMe : ∀ i, (G i).m = 1 + ((M i - 1 : ℕ) : ℤ) := fun i => by have := hm i; simp only [hM]; omega
  have hM1 : ∀ i, 1 ≤ M i := fun i => by have := hm i; simp only [hM]; omega
  have hM2 : ∀ i, (G i).m = (M i : ℤ) := fun i => by have := hm i; simp only [hM]; omega
  have hNt : Filter.Tendsto N Filter.atTop Filter.atTop := by
    rw [Filter.tendsto_atTop]
    intro b
    filter_upwards [(Filter.tendsto_atTop.1 hnt) ((b : ℤ) + 1)] with i hi
    simp only [hN]; omega
  have hMt : Filter.Tendsto M Filter.atTop Filter.atTop := by
    rw [Filter.tendsto_atTop]
    intro b
    filter_upwards [(Filter.tendsto_atTop.1 hmt) (b : ℤ)] with i hi
    simp only [hM]; omega
  have key := cell_sums_tendsto (a := a) hq hχ (by linarith : -(Real.pi / 2) ≤ Real.pi / 2) Real.cos_pi_div_two hNt hMt
    (fun i => by have := hn i; simp only [hN]; omega)
  refine key.congr fun i => ?_
  have e0 : ((G i).n : ℝ) - 1 = N i := by rw [hNe i]; push_cast; ring
  have em : ((G i).m : ℝ) = M i := by rw [hM2 i]; push_cast; rfl
  have hlat : ∀ r : ℕ, (G i).latitude (1 + r) = -(Real.pi / 2) + r * ((Real.pi / 2 - -(Real.pi / 2)) / (N i : ℝ)) := by
    intro r
    unfold SphereGrid.latitude
    rw [e0]
    push_cast
    ring
  have hlon : ∀ c : ℕ, (G i).longitude (1 + c) = c * (2 * Real.pi / M i) := by
    intro c
    unfold SphereGrid.longitude
    rw [em]
    push_cast
    ring
  have s1 := QGAnalysis.sum_Icc_range 1 (N i) (fun y => ∑ x ∈ Icc 1 (G i).m, χ (q ((G i).latitude y) ((G i).longitude x)) * (G i).cell y)
  rw [← hNe i] at s1
  rw [s1]
  refine sum_congr rfl fun r _ => ?_
  have s2 := QGAnalysis.sum_Icc_range 1 (M i - 1) (fun x => χ (q ((G i).latitude (1 + r)) ((G i).longitude x)) * (G i).cell (1 + r))
  rw [← hMe i, show M i - 1 + 1 = M i by have := hM1 i; omega] at s2
  rw [s2]
  refine sum_congr rfl fun c _ => ?_
  rw [hlat, hlon]
  congr 1
  unfold SphereGrid.cell
  rw [hlat, ha i, e0, em]
  ring

theorem cell_nonneg {G : SphereGrid} (hn : 2 ≤ G.n) (hm : 1 ≤ G.m) {y : ℤ} (h1 : 1 ≤ y) (h2 : y ≤ G.n) : 0 ≤ G.cell y := by
  have hpi := Real.pi_pos
  have hn' : (0 : ℝ) < (G.n : ℝ) - 1 := by
    have : (2 : ℝ) ≤ G.n := by exact_mod_cast hn
    linarith
  have hm' : (0 : ℝ) < G.m := by exact_mod_cast (by omega : 0 < G.m)
  have h1' : (0 : ℝ) ≤ (y : ℝ) - 1 := by
    have : (1 : ℝ) ≤ y := by exact_mod_cast h1
    linarith
  have h2' : (y : ℝ) - 1 ≤ (G.n : ℝ) - 1 := by
    have : (y : ℝ) ≤ G.n := by exact_mod_cast h2
    linarith
  have hl : Real.pi / ((G.n : ℝ) - 1) * ((y : ℝ) - 1) ≤ Real.pi := by
    rw [div_mul_eq_mul_div, div_le_iff₀ hn']
    nlinarith
  have h0 : 0 ≤ Real.pi / ((G.n : ℝ) - 1) * ((y : ℝ) - 1) := by positivity
  have hc : 0 ≤ Real.cos (G.latitude y) := by
    unfold SphereGrid.latitude
    exact Real.cos_nonneg_of_mem_Icc ⟨by linarith, by linarith⟩
  unfold SphereGrid.cell
  positivity

/-- Area of the sphere. -/
theorem sphere_area (a : ℝ) : ∫ p in band (-(Real.pi / 2)) (Real.pi / 2), a ^ 2 * Real.cos p.1 = 4 * Real.pi * a ^ 2 := by
  have hpi := Real.pi_pos
  rw [band_area (by linarith), Real.sin_neg, Real.sin_pi_div_two]
  ring

/-- Integral of the complement of a ramp. -/
theorem ramp_complement {a v w : ℝ} {q : ℝ → ℝ → ℝ} (hq : Continuous fun p : ℝ × ℝ => q p.1 p.2) :
    ∫ p in band (-(Real.pi / 2)) (Real.pi / 2), (1 - ramp v w (q p.1 p.2)) * (a ^ 2 * Real.cos p.1) =
      4 * Real.pi * a ^ 2 - ∫ p in band (-(Real.pi / 2)) (Real.pi / 2), ramp v w (q p.1 p.2) * (a ^ 2 * Real.cos p.1) := by
  have hr : Continuous fun p : ℝ × ℝ => ramp v w (q p.1 p.2) * (a ^ 2 * Real.cos p.1) :=
    ((ramp_continuous v w).comp hq).mul (by fun_prop)
  have hc : Continuous fun p : ℝ × ℝ => a ^ 2 * Real.cos p.1 := by fun_prop
  have hb := isCompact_band (-(Real.pi / 2)) (Real.pi / 2)
  rw [← sphere_area, ← integral_sub (hc.continuousOn.integrableOn_compact hb) (hr.continuousOn.integrableOn_compact hb)]
  congr 1
  funext p
  ring

/-- A sequence of grids that become finer in both directions. -/
structure Spec.Refining (a : ℝ) (G : ℕ → SphereGrid) : Prop where
  rows : ∀ i, 2 ≤ (G i).n
  cols : ∀ i, 1 ≤ (G i).m
  radius : ∀ i, (G i).a = a
  moreRows : Filter.Tendsto (fun i => (G i).n) Filter.atTop Filter.atTop
  moreCols : Filter.Tendsto (fun i => (G i).m) Filter.atTop Filter.atTop

section

variable {a : ℝ} {q : ℝ → ℝ → ℝ} {G : ℕ → SphereGrid} {f : ℕ → ℤ → ℤ → ℝ} {e : ℕ → ℝ}

/-- The area of large values on fine grids is at most the area on the sphere. -/
theorem area_above_lt (hG : Refining a G) (hq : Continuous fun p : ℝ × ℝ => q p.1 p.2) (hf : ∀ i, (G i).Samples q (e i) (f i))
    (he : Filter.Tendsto e Filter.atTop (nhds 0)) {w w' B : ℝ} (hw : w < w')
    (hB : 4 * Real.pi * a ^ 2 - areaAtMost a q (-(Real.pi / 2)) (Real.pi / 2) w < B) :
    ∀ᶠ i in Filter.atTop, (G i).area (fun x y => w' < f i x y) < B := by
  classical
  obtain ⟨w1, h1, h2⟩ := exists_between hw
  have lim := grid_sums_tendsto (a := a) hq (χ := fun t => 1 - ramp w w1 t) (by have := ramp_continuous w w1; fun_prop)
    hG.rows hG.cols hG.radius hG.moreRows hG.moreCols
  have hlt : ∫ p in band (-(Real.pi / 2)) (Real.pi / 2), (1 - ramp w w1 (q p.1 p.2)) * (a ^ 2 * Real.cos p.1) < B := by
    rw [ramp_complement hq]
    have := (ramp_between (a := a) hq le_rfl le_rfl h1).1
    linarith
  filter_upwards [lim.eventually (gt_mem_nhds hlt), he.eventually (gt_mem_nhds (by linarith : (0 : ℝ) < w' - w1))] with i hi hi2
  refine lt_of_le_of_lt ?_ hi
  unfold SphereGrid.area
  refine sum_le_sum fun y hy => sum_le_sum fun x hx => ?_
  rw [mem_Icc] at hx hy
  have hc := cell_nonneg (hG.rows i) (hG.cols i) hy.1 hy.2
  have hs := abs_le.1 (hf i x y ⟨hx, hy⟩)
  split_ifs with h3
  · rw [ramp_eq_zero h1 (by linarith [hs.2]), sub_zero, one_mul]
  · exact mul_nonneg (by linarith [ramp_le_one w w1 (q ((G i).latitude y) ((G i).longitude x))]) hc

/-- And at least the area on the sphere. -/
theorem lt_area_above (hG : Refining a G) (hq : Continuous fun p : ℝ × ℝ => q p.1 p.2) (hf : ∀ i, (G i).Samples q (e i) (f i))
    (he : Filter.Tendsto e Filter.atTop (nhds 0)) {w w' B : ℝ} (hw : w < w')
    (hB : B < 4 * Real.pi * a ^ 2 - areaAtMost a q (-(Real.pi / 2)) (Real.pi / 2) w') :
    ∀ᶠ i in Filter.atTop, B < (G i).area (fun x y => w < f i x y) := by
  classical
  obtain ⟨w1, h1, h2⟩ := exists_between hw
  have lim := grid_sums_tendsto (a := a) hq (χ := fun t => 1 - ramp w1 w' t) (by have := ramp_continuous w1 w'; fun_prop)
    hG.rows hG.cols hG.radius hG.moreRows hG.moreCols
  have hlt : B < ∫ p in band (-(Real.pi / 2)) (Real.pi / 2), (1 - ramp w1 w' (q p.1 p.2)) * (a ^ 2 * Real.cos p.1) := by
    rw [ramp_complement hq]
    have := (ramp_between (a := a) hq le_rfl le_rfl h2).2
    linarith
  filter_upwards [lim.eventually (lt_mem_nhds hlt), he.eventually (gt_mem_nhds (by linarith : (0 : ℝ) < w1 - w))] with i hi hi2
  refine lt_of_lt_of_le hi ?_
  unfold SphereGrid.area
  refine sum_le_sum fun y hy => sum_le_sum fun x hx => ?_
  rw [mem_Icc] at hx hy
  have hc := cell_nonneg (hG.rows i) (hG.cols i) hy.1 hy.2
  have hs := abs_le.1 (hf i x y ⟨hx, hy⟩)
  split_ifs with h3
  · exact mul_le_of_le_one_left hc (by linarith [ramp_nonneg w1 w' (q ((G i).latitude y) ((G i).longitude x))])
  · rw [ramp_eq_one h2 (by linarith [hs.1]), sub_self, zero_mul]

end

/-- A continuous field exceeds any value below its maximum on a positive area. -/
theorem area_above_pos {a w : ℝ} {q : ℝ → ℝ → ℝ} (ha : 0 < a) (hq : Continuous fun p : ℝ × ℝ => q p.1 p.2) {p : ℝ × ℝ}
    (hp : p ∈ band (-(Real.pi / 2)) (Real.pi / 2)) (hw : w < q p.1 p.2) :
    areaAtMost a q (-(Real.pi / 2)) (Real.pi / 2) w < 4 * Real.pi * a ^ 2 := by
  have hpi := Real.pi_pos
  obtain ⟨B, hB⟩ := (isCompact_band (-(Real.pi / 2)) (Real.pi / 2)).exists_bound_of_continuousOn hq.continuousOn
  have hcl : p ∈ closure (interior (band (-(Real.pi / 2)) (Real.pi / 2))) := by
    unfold band at hp ⊢
    rw [interior_prod_eq, closure_prod_eq, interior_Icc, interior_Icc, closure_Ioo (by linarith), closure_Ioo (by positivity)]
    exact hp
  have hopen : IsOpen {p : ℝ × ℝ | w < q p.1 p.2} := isOpen_lt continuous_const hq
  obtain ⟨p1, h1, h2⟩ := mem_closure_iff.1 hcl _ hopen hw
  have hb := abs_le.1 (hB p1 (interior_subset h2))
  have := areaAtMost_strict (w := B + 1) ha hq le_rfl le_rfl (by
    have : w < q p1.1 p1.2 := h1
    linarith [hb.2]) h2 h1 (by linarith [hb.2])
  rw [areaAtMost_all (v := B + 1) (fun p' hp' => by linarith [(abs_le.1 (hB p' hp')).2]), sphere_area] at this
  exact this

/-- If the field is greatest on a null set, the greatest values occupy an arbitrarily small area. -/
theorem top_small {a η : ℝ} {q : ℝ → ℝ → ℝ} (hq : Continuous fun p : ℝ × ℝ => q p.1 p.2) (h : volume (highest q) = 0) (hη : 0 < η) :
    ∃ w, (∃ p ∈ band (-(Real.pi / 2)) (Real.pi / 2), w < q p.1 p.2) ∧
      4 * Real.pi * a ^ 2 - areaAtMost a q (-(Real.pi / 2)) (Real.pi / 2) w < η := by
  classical
  have hpi := Real.pi_pos
  have hK := isCompact_band (-(Real.pi / 2)) (Real.pi / 2)
  obtain ⟨p, hp, hmax⟩ := hK.exists_isMaxOn ⟨(0, 0), ⟨by constructor <;> simp <;> positivity, by constructor <;> simp; positivity⟩⟩ hq.continuousOn
  have hmax' : ∀ p' ∈ band (-(Real.pi / 2)) (Real.pi / 2), q p'.1 p'.2 ≤ q p.1 p.2 := hmax
  set w : ℕ → ℝ := fun n => q p.1 p.2 - 1 / ((n : ℝ) + 1) with hw
  have hwt : Filter.Tendsto w Filter.atTop (nhds (q p.1 p.2)) := by
    have := (tendsto_one_div_add_atTop_nhds_zero_nat (𝕜 := ℝ)).const_sub (q p.1 p.2)
    rw [sub_zero] at this
    exact this
  have lim : Filter.Tendsto (fun n => areaAtMost a q (-(Real.pi / 2)) (Real.pi / 2) (w n)) Filter.atTop
      (nhds (∫ p in band (-(Real.pi / 2)) (Real.pi / 2), a ^ 2 * Real.cos p.1)) := by
    unfold areaAtMost
    refine tendsto_integral_of_dominated_convergence (fun _ => a ^ 2) (fun n => (areaAtMost_integrable hq a _ _ (w n)).aestronglyMeasurable) ?_ ?_ ?_
    · exact integrableOn_const hK.measure_lt_top.ne
    · intro n
      refine Filter.Eventually.of_forall fun p' => ?_
      rw [Real.norm_eq_abs]
      split_ifs
      · rw [abs_mul, abs_of_nonneg (sq_nonneg a)]
        exact mul_le_of_le_one_right (sq_nonneg a) (Real.abs_cos_le_one _)
      · rw [abs_zero]; exact sq_nonneg a
    · rw [ae_restrict_iff' (measurableSet_band _ _)]
      have hnull : ∀ᵐ p' : ℝ × ℝ, p' ∉ highest q := by
        rw [ae_iff]
        simpa using h
      filter_upwards [hnull] with p' hp' hmem
      have hlt : q p'.1 p'.2 < q p.1 p.2 := by
        refine lt_of_le_of_ne (hmax' p' hmem) fun heq => hp' ⟨hmem, fun p'' h'' => ?_⟩
        rw [heq]; exact hmax' p'' h''
      refine tendsto_const_nhds.congr' ?_
      filter_upwards [hwt.eventually (lt_mem_nhds hlt)] with n hn
      rw [if_pos hn.le]
  rw [sphere_area] at lim
  obtain ⟨n, hn⟩ := (lim.eventually (lt_mem_nhds (by linarith : 4 * Real.pi * a ^ 2 - η < 4 * Real.pi * a ^ 2))).exists
  refine ⟨w n, ⟨p, hp, ?_⟩, by linarith⟩
  simp only [hw]
  have : 0 < 1 / ((n : ℝ) + 1) := by positivity
  linarith

/-! ### The area analysis -/

namespace AreaIn

/-- The values of ever better samples of one field stay within a common range. -/
theorem range_bound {a : ℝ} {q : ℝ → ℝ → ℝ} (hq : Continuous fun p : ℝ × ℝ => q p.1 p.2) {I : ℕ → AreaIn} {e : ℕ → ℝ}
    (hG : Refining a fun i => (I i).grid) (hf : ∀ i, (I i).grid.Samples q (e i) (I i).q) :
    ∃ B, ∀ i, (I i).qmax - (I i).qmin ≤ 2 * (B + e i) ∧ 0 ≤ (I i).qmax - (I i).qmin := by
  have hpi := Real.pi_pos
  obtain ⟨B, hB⟩ := (isCompact_band (-(Real.pi / 2)) (Real.pi / 2)).exists_bound_of_continuousOn hq.continuousOn
  have hval : ∀ i x y, (I i).grid.Mem x y → |(I i).q x y| ≤ B + e i := by
    intro i x y hm
    have hn' : (0 : ℝ) < ((I i).jmax : ℝ) - 1 := by
      have : (2 : ℝ) ≤ (I i).jmax := by exact_mod_cast hG.rows i
      linarith
    have hm' : (0 : ℝ) < (I i).imax := by exact_mod_cast (by have := hG.cols i; exact this : 1 ≤ (I i).imax)
    have y1 : (1 : ℝ) ≤ y := by exact_mod_cast hm.2.1
    have y2 : (y : ℝ) ≤ (I i).jmax := by exact_mod_cast hm.2.2
    have x1 : (1 : ℝ) ≤ x := by exact_mod_cast hm.1.1
    have x2 : (x : ℝ) ≤ (I i).imax := by exact_mod_cast hm.1.2
    have hl : Real.pi / (((I i).jmax : ℝ) - 1) * ((y : ℝ) - 1) ≤ Real.pi := by
      rw [div_mul_eq_mul_div, div_le_iff₀ hn']
      nlinarith
    have hl0 : 0 ≤ Real.pi / (((I i).jmax : ℝ) - 1) * ((y : ℝ) - 1) := mul_nonneg (by positivity) (by linarith)
    have hlo : 2 * Real.pi / ((I i).imax : ℝ) * ((x : ℝ) - 1) ≤ 2 * Real.pi := by
      rw [div_mul_eq_mul_div, div_le_iff₀ hm']
      nlinarith
    have hlo0 : 0 ≤ 2 * Real.pi / ((I i).imax : ℝ) * ((x : ℝ) - 1) := mul_nonneg (by positivity) (by linarith)
    have b := hB ((I i).grid.latitude y, (I i).grid.longitude x) (by
      unfold SphereGrid.latitude SphereGrid.longitude grid
      exact ⟨⟨by show -(Real.pi / 2) ≤ -(Real.pi / 2) + _; linarith, by show -(Real.pi / 2) + _ ≤ Real.pi / 2; linarith⟩, hlo0, hlo⟩)
    rw [Real.norm_eq_abs] at b
    have s := hf i x y hm
    calc |(I i).q x y| = |((I i).q x y - q ((I i).grid.latitude y) ((I i).grid.longitude x)) + q ((I i).grid.latitude y) ((I i).grid.longitude x)| := by
          congr 1; ring
      _ ≤ _ := (abs_add_le _ _).trans (by linarith)
  refine ⟨B, ?_⟩
  intro i
  have m1 : 1 ≤ (I i).imax := hG.cols i
  have m2 : 1 ≤ (I i).jmax := by have : 2 ≤ (I i).jmax := hG.rows i; omega
  obtain ⟨hle, x, y, x1, x2, y1, y2, ex⟩ := maxval_spec (A := (I i).q) m1 m2
  obtain ⟨_, x', y', x1', x2', y1', y2', ex'⟩ := minval_spec (A := (I i).q) m1 m2
  have a1 := (abs_le.1 (hval i x y ⟨⟨x1, x2⟩, y1, y2⟩)).2
  have a2 := (abs_le.1 (hval i x' y' ⟨⟨x1', x2'⟩, y1', y2'⟩)).1
  have a3 := hle x' y' x1' x2' y1' y2'
  unfold qmax qmin
  constructor <;> linarith

/-- The partitions of a sequence of analyses of ever better samples of one field become fine. -/
theorem dq_tendsto {a : ℝ} {q : ℝ → ℝ → ℝ} (hq : Continuous fun p : ℝ × ℝ => q p.1 p.2) {I : ℕ → AreaIn} {e : ℕ → ℝ}
    (hG : Refining a fun i => (I i).grid) (hf : ∀ i, (I i).grid.Samples q (e i) (I i).q) (he : Filter.Tendsto e Filter.atTop (nhds 0))
    (hnp : Filter.Tendsto (fun i => (I i).npart) Filter.atTop Filter.atTop) :
    Filter.Tendsto (fun i => (I i).dq) Filter.atTop (nhds 0) := by
  obtain ⟨B, hr⟩ := range_bound hq hG hf
  have hz : Filter.Tendsto (fun i => 2 * (B + e i) / (((I i).npart - 1 : ℤ) : ℝ)) Filter.atTop (nhds 0) := by
    refine Filter.Tendsto.div_atTop (a := 2 * (B + 0)) ((he.const_add B).const_mul 2) ?_
    exact tendsto_intCast_atTop_atTop.comp (Filter.tendsto_atTop_add_const_right _ (-1) hnp)
  refine squeeze_zero' ?_ ?_ hz
  · filter_upwards [Filter.tendsto_atTop.1 hnp 2] with i hi
    have : (0 : ℝ) ≤ (((I i).npart - 1 : ℤ) : ℝ) := by exact_mod_cast (by omega : 0 ≤ (I i).npart - 1)
    exact div_nonneg (hr i).2 this
  · filter_upwards [Filter.tendsto_atTop.1 hnp 2] with i hi
    have : (0 : ℝ) ≤ (((I i).npart - 1 : ℤ) : ℝ) := by exact_mod_cast (by omega : 0 ≤ (I i).npart - 1)
    exact div_le_div_of_nonneg_right (hr i).1 this

/-- A grid whose large values have a positive area has a large value. -/
theorem exists_above {I : AreaIn} {w : ℝ} (h : 0 < I.grid.area (fun x y => w < I.q x y)) : ∃ x y, I.grid.Mem x y ∧ w < I.q x y := by
  by_contra hcon
  push Not at hcon
  refine absurd h (not_lt.2 (le_of_eq ?_))
  unfold SphereGrid.area
  refine sum_eq_zero fun y hy => sum_eq_zero fun x hx => ?_
  rw [mem_Icc] at hx hy
  exact if_neg (not_lt.2 (hcon x y ⟨hx, hy⟩))

/-- The area of the first partition tends to zero. -/
theorem first_partition {a : ℝ} {q : ℝ → ℝ → ℝ} (ha : 0 < a) (hq : Continuous fun p : ℝ × ℝ => q p.1 p.2) (htop : volume (highest q) = 0)
    {I : ℕ → AreaIn} {e : ℕ → ℝ} (hG : Refining a fun i => (I i).grid) (hf : ∀ i, (I i).grid.Samples q (e i) (I i).q)
    (he : Filter.Tendsto e Filter.atTop (nhds 0)) (hnp : Filter.Tendsto (fun i => (I i).npart) Filter.atTop Filter.atTop) {η : ℝ}
    (hη : 0 < η) : ∀ᶠ i in Filter.atTop, (I i).grid.area (fun x y => (I i).qn 2 < (I i).q x y) < η := by
  classical
  obtain ⟨w, ⟨p, hp, hw⟩, hB⟩ := top_small (a := a) hq htop hη
  obtain ⟨w2, h1, h2⟩ := exists_between hw
  obtain ⟨w1, h3, h4⟩ := exists_between h1
  obtain ⟨w3, h5, h6⟩ := exists_between h2
  have hpos := area_above_pos ha hq hp h6
  filter_upwards [area_above_lt hG hq hf he h3 hB, lt_area_above hG hq hf he h5 (sub_pos.2 hpos),
    (dq_tendsto hq hG hf he hnp).eventually (gt_mem_nhds (by linarith : (0 : ℝ) < w2 - w1))] with i i1 i2 i3
  obtain ⟨x, y, hm, hx⟩ := exists_above i2
  have m1 : 1 ≤ (I i).imax := hG.cols i
  have m2 : 1 ≤ (I i).jmax := by have : 2 ≤ (I i).jmax := hG.rows i; omega
  have hle := (maxval_spec (A := (I i).q) m1 m2).1 x y hm.1.1 hm.1.2 hm.2.1 hm.2.2
  have hq2 : w1 < (I i).qn 2 := by
    unfold qn qmax
    norm_num
    linarith
  refine lt_of_le_of_lt ?_ i1
  unfold SphereGrid.area
  refine sum_le_sum fun y hy => sum_le_sum fun x _ => ?_
  rw [mem_Icc] at hy
  have hc := cell_nonneg (hG.rows i) (hG.cols i) hy.1 hy.2
  by_cases h7 : (I i).qn 2 < (I i).q x y
  · rw [if_pos h7, if_pos (hq2.trans h7)]
  · rw [if_neg h7]
    split_ifs
    · exact hc
    · exact le_rfl

/-- Rows whose latitude tends to one below the pole are not the pole. -/
theorem not_pole_eventually {φ : ℝ} {I : ℕ → AreaIn} (hI : ∀ᶠ i in Filter.atTop, (I i).Valid) {j : ℕ → ℤ}
    (hrow : Filter.Tendsto (fun i => (I i).grid.latitude (j i + (I i).nd - 1)) Filter.atTop (nhds φ)) (hφ : φ < Real.pi / 2) :
    ∀ᶠ i in Filter.atTop, j i ≠ (I i).nd := by
  filter_upwards [hI, hrow.eventually (gt_mem_nhds hφ)] with i hi hlt heq
  rw [heq] at hlt
  have e1 : ((I i).jmax : ℝ) - 1 = 2 * ((I i).nd : ℝ) - 2 := by rw [hi.odd]; push_cast; ring
  have hn : (0 : ℝ) < 2 * ((I i).nd : ℝ) - 2 := by
    have : (2 : ℝ) ≤ (I i).nd := by exact_mod_cast hi.nd2
    linarith
  have : (I i).grid.latitude ((I i).nd + (I i).nd - 1) = Real.pi / 2 := by
    unfold SphereGrid.latitude
    show -(Real.pi / 2) + Real.pi / (((I i).jmax : ℝ) - 1) * ((((I i).nd + (I i).nd - 1 : ℤ) : ℝ) - 1) = _
    rw [e1]
    push_cast
    rw [show ((I i).nd : ℝ) + (I i).nd - 1 - 1 = 2 * ((I i).nd : ℝ) - 2 by ring, div_mul_cancel₀ _ hn.ne']
    ring
  linarith

/-- The polar caps of the rows. -/
theorem caps_tendsto {a φ : ℝ} {I : ℕ → AreaIn} (hG : Refining a fun i => (I i).grid) {j : ℕ → ℤ}
    (hrow : Filter.Tendsto (fun i => (I i).grid.latitude (j i + (I i).nd - 1)) Filter.atTop (nhds φ)) :
    Filter.Tendsto (fun i => (I i).grid.polarCap ((I i).grid.latitude (j i + (I i).nd - 1))) Filter.atTop
      (nhds (2 * Real.pi * a ^ 2 * (1 - Real.sin φ))) := by
  have hc : Continuous fun x => 2 * Real.pi * a ^ 2 * (1 - Real.sin x) := by fun_prop
  refine ((hc.tendsto φ).comp hrow).congr fun i => ?_
  unfold SphereGrid.polarCap
  rw [hG.radius i]
  rfl

/-- On fine grids rows of the hemisphere are assigned. -/
theorem placed_eventually {a φ : ℝ} {q : ℝ → ℝ → ℝ} (ha : 0 < a) (hq : Continuous fun p : ℝ × ℝ => q p.1 p.2)
    (htop : volume (highest q) = 0) {I : ℕ → AreaIn} {e : ℕ → ℝ} (hI : ∀ᶠ i in Filter.atTop, (I i).Valid)
    (hG : Refining a fun i => (I i).grid) (hf : ∀ i, (I i).grid.Samples q (e i) (I i).q) (he : Filter.Tendsto e Filter.atTop (nhds 0))
    (hnp : Filter.Tendsto (fun i => (I i).npart) Filter.atTop Filter.atTop) {j : ℕ → ℤ}
    (hrow : Filter.Tendsto (fun i => (I i).grid.latitude (j i + (I i).nd - 1)) Filter.atTop (nhds φ)) (hφ0 : 0 ≤ φ) (hφ : φ ≤ Real.pi / 2) :
    ∀ᶠ i in Filter.atTop, ((I i).placed (j i)).isSome = true := by
  classical
  have hpi := Real.pi_pos
  have hcap := caps_tendsto hG hrow
  set T := 2 * Real.pi * a ^ 2 * (1 - Real.sin φ) with hT
  have hsin : 0 ≤ Real.sin φ := Real.sin_nonneg_of_mem_Icc ⟨hφ0, by linarith⟩
  have hA0 : 0 < 2 * Real.pi * a ^ 2 := by positivity
  have hTt : T < 4 * Real.pi * a ^ 2 := by rw [hT]; nlinarith
  have lim := grid_sums_tendsto (a := a) (χ := fun _ => 1) hq continuous_const hG.rows hG.cols hG.radius hG.moreRows hG.moreCols
  simp only [one_mul] at lim
  rw [sphere_area] at lim
  obtain ⟨η, hη, hlt⟩ : ∃ η, 0 < η ∧ T + 3 * η < 4 * Real.pi * a ^ 2 := ⟨(4 * Real.pi * a ^ 2 - T) / 4, by linarith, by linarith⟩
  filter_upwards [hI, lim.eventually (lt_mem_nhds (by linarith : 4 * Real.pi * a ^ 2 - η < 4 * Real.pi * a ^ 2)),
    hcap.eventually (gt_mem_nhds (by linarith : T < T + η)), first_partition ha hq htop hG hf he hnp hη] with i hi i1 i2 i3
  rw [(C49_assigned_partial hi (j i)).1]
  have e1 : (I i).grid.area (fun _ _ => True) = ∑ y ∈ Icc 1 (I i).grid.n, ∑ x ∈ Icc 1 (I i).grid.m, (I i).grid.cell y := by
    unfold SphereGrid.area
    simp only [if_true]
  have e2 : (I i).qmax - (I i).dq = (I i).qn 2 := by unfold qn; norm_num
  rw [e1, e2]
  linarith

/-- **C160 (area analysis).** Let the fields of a sequence of area analyses approach a continuous field on the sphere whose greatest
value is attained on a null set, on grids and with partitions that become finer. If the latitude of row `j i` tends to `φ`, on the
hemisphere and not at the pole, its reference value tends to the value whose contour encloses the area south of `φ`. -/
theorem C160_reference_partial {a φ v : ℝ} {q : ℝ → ℝ → ℝ} (ha : 0 < a) (hq : Continuous fun p : ℝ × ℝ => q p.1 p.2)
    (htop : volume (highest q) = 0) {I : ℕ → AreaIn} {e : ℕ → ℝ} (hI : ∀ᶠ i in Filter.atTop, (I i).Valid)
    (hG : Refining a fun i => (I i).grid) (hf : ∀ i, (I i).grid.Samples q (e i) (I i).q) (he : Filter.Tendsto e Filter.atTop (nhds 0))
    (hnp : Filter.Tendsto (fun i => (I i).npart) Filter.atTop Filter.atTop) {j : ℕ → ℤ}
    (hrow : Filter.Tendsto (fun i => (I i).grid.latitude (j i + (I i).nd - 1)) Filter.atTop (nhds φ)) (hφ0 : 0 ≤ φ) (hφ : φ < Real.pi / 2)
    (hv : Encloses a q (-(Real.pi / 2)) (Real.pi / 2) (southCap a φ) v) :
    Filter.Tendsto (fun i => (I i).qref (j i)) Filter.atTop (nhds v) := by
  classical
  have hpi := Real.pi_pos
  set T := 2 * Real.pi * a ^ 2 * (1 - Real.sin φ) with hT
  have hTs : southCap a φ = 4 * Real.pi * a ^ 2 - T := by rw [hT, southCap]; ring
  have hsin : 0 ≤ Real.sin φ := Real.sin_nonneg_of_mem_Icc ⟨hφ0, by linarith⟩
  have hA0 : 0 < 2 * Real.pi * a ^ 2 := by positivity
  have hTt : T < 4 * Real.pi * a ^ 2 := by rw [hT]; nlinarith
  -- the polar caps of the rows
  have hcap : Filter.Tendsto (fun i => (I i).grid.polarCap ((I i).grid.latitude (j i + (I i).nd - 1))) Filter.atTop (nhds T) := by
    have hc : Continuous fun x => 2 * Real.pi * a ^ 2 * (1 - Real.sin x) := by fun_prop
    refine ((hc.tendsto φ).comp hrow).congr fun i => ?_
    unfold SphereGrid.polarCap
    rw [hG.radius i]
    rfl
  have hdq := dq_tendsto hq hG hf he hnp
  have hne := not_pole_eventually hI hrow hφ
  have hplaced := placed_eventually ha hq htop hI hG hf he hnp hrow hφ0 hφ.le
  have hmono : ∀ i, (I i).Valid → ∀ x y : ℝ, x ≤ y →
      (I i).grid.area (fun i' j' => y < (I i).q i' j') ≤ (I i).grid.area (fun i' j' => x < (I i).q i' j') := fun i hi x y hxy =>
    area_mono hi fun _ _ _ h => lt_of_le_of_lt hxy h
  rw [tendsto_order]
  constructor
  · intro w hw
    obtain ⟨w1, h1, h2⟩ := exists_between hw
    have hA := hv.below w1 h2
    rw [hTs] at hA
    obtain ⟨η, hη, hlt⟩ : ∃ η, 0 < η ∧ T + 3 * η < 4 * Real.pi * a ^ 2 - areaAtMost a q (-(Real.pi / 2)) (Real.pi / 2) w1 :=
      ⟨(4 * Real.pi * a ^ 2 - areaAtMost a q (-(Real.pi / 2)) (Real.pi / 2) w1 - T) / 4, by linarith, by linarith⟩
    filter_upwards [hI, hne, hplaced, hcap.eventually (gt_mem_nhds (by linarith : T < T + η)), first_partition ha hq htop hG hf he hnp hη,
      lt_area_above hG hq hf he h1 hlt] with i hi i1 i2 i3 i4 i5
    obtain ⟨n, n1, n2, n3, n4⟩ := qref_of_placed hi i1 i2
    have hb := hi.value_between n3
    rw [← n4] at hb
    by_contra hcon
    push Not at hcon
    have hf1 := n3.1
    rw [aan_area hi n1 (by omega), hi.alat_eq] at hf1
    have := hmono i hi _ _ (hb.1.trans hcon)
    linarith
  · intro w hw
    obtain ⟨w1, h1, h2⟩ := exists_between hw
    obtain ⟨w2, h3, h4⟩ := exists_between h1
    have hA := hv.above w2 h3
    rw [hTs] at hA
    obtain ⟨B, hB1, hB2⟩ := exists_between (by linarith : 4 * Real.pi * a ^ 2 - areaAtMost a q (-(Real.pi / 2)) (Real.pi / 2) w2 < T)
    filter_upwards [hI, hne, hplaced, hcap.eventually (lt_mem_nhds hB2), area_above_lt hG hq hf he h4 hB1,
      hdq.eventually (gt_mem_nhds (by linarith : (0 : ℝ) < (w - w1) / 2))] with i hi i1 i2 i3 i4 i5
    obtain ⟨n, n1, n2, n3, n4⟩ := qref_of_placed hi i1 i2
    have hb := hi.value_between n3
    rw [← n4] at hb
    by_contra hcon
    push Not at hcon
    have hf1 := n3.2
    rw [aan_area hi (by omega) (by omega), hi.alat_eq] at hf1
    have hn : (I i).qn (n + 1 + 1) = (I i).qn n - 2 * (I i).dq := by unfold qn; push_cast; ring
    have := hmono i hi w1 ((I i).qn (n + 1 + 1)) (by rw [hn]; linarith [hb.2])
    have h0 : 0 ≤ (I i).grid.area (fun x y => (I i).qn 2 < (I i).q x y) := by
      unfold SphereGrid.area
      refine sum_nonneg fun y hy => sum_nonneg fun x _ => ?_
      rw [mem_Icc] at hy
      have hc := cell_nonneg (hG.rows i) (hG.cols i) hy.1 hy.2
      split_ifs
      · exact hc
      · exact le_rfl
    linarith

end AreaIn

end Falwa
