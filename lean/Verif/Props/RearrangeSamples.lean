import Verif.Props.RearrangeClasses
import Verif.Props.Qgpv

/-!
# C160: Fields with a plateau, and samples
-/

noncomputable section

namespace Falwa

open Finset Spec MeasureTheory

/-! ### Zonal fields -/

/-- Area of the points where a field that depends on latitude only is at most `w`. -/
theorem areaAtMost_zonal {a w φ : ℝ} {f : ℝ → ℝ} (h1 : -(Real.pi / 2) ≤ φ) (h2 : φ ≤ Real.pi / 2)
    (h : ∀ x ∈ Set.Icc (-(Real.pi / 2)) (Real.pi / 2), f x ≤ w ↔ x ≤ φ) :
    areaAtMost a (fun x _ => f x) (-(Real.pi / 2)) (Real.pi / 2) w = 2 * Real.pi * a ^ 2 * (1 + Real.sin φ) := by
  classical
  have e1 : areaAtMost a (fun x _ => f x) (-(Real.pi / 2)) (Real.pi / 2) w =
      ∫ p in band (-(Real.pi / 2)) (Real.pi / 2), (band (-(Real.pi / 2)) φ).indicator (fun p => a ^ 2 * Real.cos p.1) p := by
    refine setIntegral_congr_fun (measurableSet_band _ _) fun p hp => ?_
    by_cases h3 : p.1 ≤ φ
    · have h4 := (h p.1 hp.1).2 h3
      show (if f p.1 ≤ w then _ else _) = _
      rw [if_pos h4, Set.indicator_of_mem (show p ∈ band (-(Real.pi / 2)) φ from ⟨⟨hp.1.1, h3⟩, hp.2⟩)]
    · have h4 : ¬ f p.1 ≤ w := fun h5 => h3 ((h p.1 hp.1).1 h5)
      show (if f p.1 ≤ w then _ else _) = _
      rw [if_neg h4, Set.indicator_of_notMem (fun h5 : p ∈ band (-(Real.pi / 2)) φ => h3 h5.1.2)]
  have e2 : band (-(Real.pi / 2)) (Real.pi / 2) ∩ band (-(Real.pi / 2)) φ = band (-(Real.pi / 2)) φ :=
    Set.inter_eq_right.2 fun p hp => ⟨⟨hp.1.1, hp.1.2.trans h2⟩, hp.2⟩
  rw [e1, setIntegral_indicator (measurableSet_band _ _), e2, band_area h1, Real.sin_neg, Real.sin_pi_div_two]
  ring

theorem sin_le_iff {x w : ℝ} (hx : x ∈ Set.Icc (-(Real.pi / 2)) (Real.pi / 2)) (h1 : -1 ≤ w) (h2 : w ≤ 1) :
    Real.sin x ≤ w ↔ x ≤ Real.arcsin w := by
  rw [Real.le_arcsin_iff_sin_le hx ⟨h1, h2⟩]

theorem areaAtMost_sin {a w : ℝ} (h1 : -1 ≤ w) (h2 : w ≤ 1) :
    areaAtMost a (fun x _ => Real.sin x) (-(Real.pi / 2)) (Real.pi / 2) w = 2 * Real.pi * a ^ 2 * (1 + w) := by
  rw [areaAtMost_zonal (Real.neg_pi_div_two_le_arcsin w) (Real.arcsin_le_pi_div_two w) (fun x hx => sin_le_iff hx h1 h2),
    Real.sin_arcsin h1 h2]

/-- The planetary vorticity on a unit sphere, cut off at half of its value at the pole. -/
def cutOff (x _ : ℝ) : ℝ := min (Real.sin x) (1 / 2)

theorem cutOff_continuous : Continuous fun p : ℝ × ℝ => cutOff p.1 p.2 := by
  unfold cutOff
  fun_prop

theorem areaAtMost_cutOff {a w : ℝ} (h1 : -1 ≤ w) (h2 : w < 1 / 2) :
    areaAtMost a cutOff (-(Real.pi / 2)) (Real.pi / 2) w = 2 * Real.pi * a ^ 2 * (1 + w) := by
  have := areaAtMost_zonal (a := a) (w := w) (f := fun x => min (Real.sin x) (1 / 2)) (Real.neg_pi_div_two_le_arcsin w)
    (Real.arcsin_le_pi_div_two w) (fun x hx => by
      rw [← sin_le_iff hx h1 (by linarith), min_le_iff]
      exact ⟨fun h => h.resolve_right (by linarith), Or.inl⟩)
  rw [Real.sin_arcsin h1 (by linarith)] at this
  exact this

/-- The value 0 encloses the Southern Hemisphere. -/
theorem cutOff_equator : Encloses 1 cutOff (-(Real.pi / 2)) (Real.pi / 2) (southCap 1 0) 0 where
  below w hw := by
    have hpi := Real.pi_pos
    have h1 : max w (-1) < 0 := max_lt hw (by norm_num)
    have := areaAtMost_mono (a := 1) cutOff_continuous le_rfl le_rfl (le_max_left w (-1))
    rw [areaAtMost_cutOff (le_max_right w (-1)) (by linarith)] at this
    unfold southCap
    rw [Real.sin_zero]
    nlinarith
  above w hw := by
    have hpi := Real.pi_pos
    have h1 : 0 < min w (1 / 4) := lt_min hw (by norm_num)
    have h2 : min w (1 / 4) ≤ 1 / 4 := min_le_right _ _
    have := areaAtMost_mono (a := 1) cutOff_continuous le_rfl le_rfl (min_le_left w (1 / 4))
    rw [areaAtMost_cutOff (by linarith) (by linarith)] at this
    unfold southCap
    rw [Real.sin_zero]
    nlinarith

/-! ### A field with a plateau -/

namespace AreaIn

/-- The claim without the hypothesis on the greatest value. -/
def C160_Statement : Prop :=
  ∀ (a φ v : ℝ) (q : ℝ → ℝ → ℝ) (I : ℕ → AreaIn) (e : ℕ → ℝ) (j : ℕ → ℤ), 0 < a → (Continuous fun p : ℝ × ℝ => q p.1 p.2) →
    (∀ i, (I i).Valid) → Refining a (fun i => (I i).grid) → (∀ i, (I i).grid.Samples q (e i) (I i).q) →
    Filter.Tendsto e Filter.atTop (nhds 0) → Filter.Tendsto (fun i => (I i).npart) Filter.atTop Filter.atTop →
    (∀ i, 1 ≤ j i ∧ j i < (I i).nd) →
    Filter.Tendsto (fun i => (I i).grid.latitude (j i + (I i).nd - 1)) Filter.atTop (nhds φ) → 0 ≤ φ → φ < Real.pi / 2 →
    Encloses a q (-(Real.pi / 2)) (Real.pi / 2) (southCap a φ) v →
    Filter.Tendsto (fun i => (I i).qref (j i)) Filter.atTop (nhds v)

/-- The field that is cut off, on `2 i + 5` latitudes and `i + 1` longitudes, as many partitions as latitudes. -/
def flattened (i : ℕ) : AreaIn where
  imax := i + 1
  jmax := 2 * i + 5
  nd := i + 3
  npart := 2 * i + 5
  q := fun _ y => min (Real.sin (-(Real.pi / 2) + Real.pi / (((2 * i + 5 : ℤ) : ℝ) - 1) * ((y : ℝ) - 1))) (1 / 2)
  a := 1
  dphi := Real.pi / ((2 * i + 5 - 1 : ℤ) : ℝ)
  dlambda := 2 * Real.pi / ((i + 1 : ℤ) : ℝ)

theorem flattened_q (i : ℕ) (x y : ℤ) : (flattened i).q x y = min (Real.sin ((flattened i).grid.latitude y)) (1 / 2) := rfl

theorem flattened_top (i : ℕ) : (flattened i).qmax = 1 / 2 := by
  refine maxval_eq (by show (1 : ℤ) ≤ i + 1; omega) (by show (1 : ℤ) ≤ 2 * i + 5; omega) (fun x y _ _ _ _ => by
    show (flattened i).q x y ≤ 1 / 2
    rw [flattened_q]; exact min_le_right _ _) 1 (2 * i + 5) ⟨le_rfl, by show (1 : ℤ) ≤ i + 1; omega⟩ ⟨by omega, le_rfl⟩ ?_
  rw [flattened_q]
  have : (flattened i).grid.latitude (2 * i + 5) = Real.pi / 2 := by
    show -(Real.pi / 2) + Real.pi / (((2 * i + 5 : ℤ) : ℝ) - 1) * (((2 * i + 5 : ℤ) : ℝ) - 1) = _
    have h0 : (((2 * i + 5 : ℤ) : ℝ) - 1) ≠ 0 := by
      push_cast
      have : (0 : ℝ) ≤ i := Nat.cast_nonneg i
      linarith
    rw [div_mul_cancel₀ _ h0]
    ring
  rw [this, Real.sin_pi_div_two]
  norm_num

theorem flattened_valid (i : ℕ) : (flattened i).Valid where
  imax1 := by show (1 : ℤ) ≤ i + 1; omega
  nd2 := by show (2 : ℤ) ≤ i + 3; omega
  odd := by show (2 * i + 5 : ℤ) = 2 * (i + 3) - 1; ring
  npart2 := by show (2 : ℤ) ≤ 2 * i + 5; omega
  dphiEq := rfl
  dlam := rfl
  a0 := by show (0 : ℝ) < 1; norm_num
  spread := by
    rw [flattened_top]
    have h := (minval_spec (A := (flattened i).q) (by show (1 : ℤ) ≤ i + 1; omega : 1 ≤ (flattened i).imax)
      (by show (1 : ℤ) ≤ 2 * i + 5; omega : 1 ≤ (flattened i).jmax)).1 1 1 le_rfl (by show (1 : ℤ) ≤ i + 1; omega) le_rfl
      (by show (1 : ℤ) ≤ 2 * i + 5; omega)
    rw [flattened_q] at h
    have e1 : (flattened i).grid.latitude 1 = -(Real.pi / 2) := by
      unfold SphereGrid.latitude
      push_cast
      ring
    rw [e1, Real.sin_neg, Real.sin_pi_div_two] at h
    unfold qmin
    have : min (-1 : ℝ) (1 / 2) = -1 := by norm_num
    linarith

theorem flattened_refining : Refining 1 fun i => (flattened i).grid where
  rows i := by show (2 : ℤ) ≤ 2 * i + 5; omega
  cols i := by show (1 : ℤ) ≤ i + 1; omega
  radius _ := rfl
  moreRows := Filter.tendsto_atTop_mono (fun i => by show (i : ℤ) ≤ 2 * i + 5; omega) tendsto_natCast_atTop_atTop
  moreCols := Filter.tendsto_atTop_mono (fun i => by show (i : ℤ) ≤ i + 1; omega) tendsto_natCast_atTop_atTop

theorem flattened_npart : Filter.Tendsto (fun i => (flattened i).npart) Filter.atTop Filter.atTop :=
  Filter.tendsto_atTop_mono (fun i => by show (i : ℤ) ≤ 2 * i + 5; omega) tendsto_natCast_atTop_atTop

theorem flattened_samples (i : ℕ) : (flattened i).grid.Samples cutOff 0 (flattened i).q := fun x y _ => by
  rw [flattened_q]
  unfold cutOff
  rw [sub_self, abs_zero]

theorem flattened_row (i : ℕ) : (flattened i).grid.latitude (1 + (flattened i).nd - 1) = 0 := by
  show -(Real.pi / 2) + Real.pi / (((2 * i + 5 : ℤ) : ℝ) - 1) * (((1 + (i + 3) - 1 : ℤ) : ℝ) - 1) = 0
  push_cast
  have : (2 * (i : ℝ) + 5 - 1) ≠ 0 := by have : (0 : ℝ) ≤ i := Nat.cast_nonneg i; linarith
  field_simp
  ring

/-- The plateau takes up more than 7/10 of a hemisphere's half. -/
theorem flattened_plateau : ∀ᶠ i in Filter.atTop, 7 / 10 * Real.pi < (flattened i).grid.area (fun x y => (flattened i).qn 2 < (flattened i).q x y) := by
  classical
  have hpi := Real.pi_pos
  have hc : Continuous fun p : ℝ × ℝ => (fun x _ : ℝ => Real.sin x) p.1 p.2 := by fun_prop
  have key := lt_area_above (a := 1) (q := fun x _ => Real.sin x) (e := fun _ => 0) (f := fun i _ y => Real.sin ((flattened i).grid.latitude y)) (w := 1 / 2) (w' := 3 / 5)
    (B := 7 / 10 * Real.pi) flattened_refining hc (fun i x y _ => by simp) tendsto_const_nhds (by norm_num) (by
      rw [areaAtMost_sin (by norm_num) (by norm_num)]
      nlinarith)
  filter_upwards [key] with i hi
  refine lt_of_lt_of_le hi (area_mono (flattened_valid i) fun x y _ h => ?_)
  have h2 : (flattened i).qn 2 < 1 / 2 := by
    have := (flattened_valid i).dq_pos
    unfold qn
    rw [flattened_top]
    norm_num
    exact this
  rw [flattened_q, min_eq_right (show (1 : ℝ) / 2 ≤ _ from le_of_lt h)]
  exact h2

/-- At the equator the analysis ends up below -1/20. -/
theorem flattened_equator : ∀ᶠ i in Filter.atTop, (flattened i).qref 1 < -(1 / 20) := by
  classical
  have hpi := Real.pi_pos
  have hdq := dq_tendsto cutOff_continuous flattened_refining flattened_samples tendsto_const_nhds flattened_npart
  have total := grid_sums_tendsto (a := 1) (χ := fun _ => 1) cutOff_continuous continuous_const flattened_refining.rows flattened_refining.cols
    flattened_refining.radius flattened_refining.moreRows flattened_refining.moreCols
  simp only [one_mul] at total
  rw [sphere_area] at total
  have up := area_above_lt (a := 1) (w := 1 / 5) (w' := 1 / 4) (B := 17 / 10 * Real.pi) flattened_refining cutOff_continuous flattened_samples
    tendsto_const_nhds (by norm_num) (by rw [areaAtMost_cutOff (by norm_num) (by norm_num)]; nlinarith)
  have low := area_above_lt (a := 1) (w := -(1 / 4)) (w' := -(1 / 5)) (B := 26 / 10 * Real.pi) flattened_refining cutOff_continuous flattened_samples
    tendsto_const_nhds (by norm_num) (by rw [areaAtMost_cutOff (by norm_num) (by norm_num)]; nlinarith)
  filter_upwards [flattened_plateau, up, low, hdq.eventually (gt_mem_nhds (by norm_num : (0 : ℝ) < 1 / 20)),
    total.eventually (lt_mem_nhds (by linarith : 39 / 10 * Real.pi < 4 * Real.pi * 1 ^ 2))] with i h1 h2 h3 h4 h5
  have hv := flattened_valid i
  have hq2 : 1 / 4 < (flattened i).qn 2 := by
    unfold qn
    rw [flattened_top]
    norm_num
    linarith
  have h6 : (flattened i).grid.area (fun x y => (flattened i).qn 2 < (flattened i).q x y) ≤
      (flattened i).grid.area (fun x y => 1 / 4 < (flattened i).q x y) := area_mono hv fun _ _ _ h => hq2.trans h
  have hcap : (flattened i).grid.polarCap ((flattened i).grid.latitude (1 + (flattened i).nd - 1)) = 2 * Real.pi := by
    rw [flattened_row]
    unfold SphereGrid.polarCap
    rw [Real.sin_zero]
    show 2 * Real.pi * (1 : ℝ) ^ 2 * (1 - 0) = _
    ring
  have hs : ((flattened i).placed 1).isSome = true := by
    rw [(C49_assigned_partial hv 1).1, hcap]
    have e1 : (flattened i).grid.area (fun _ _ => True) =
        ∑ y ∈ Icc 1 (flattened i).grid.n, ∑ x ∈ Icc 1 (flattened i).grid.m, (flattened i).grid.cell y := by
      unfold SphereGrid.area
      simp only [if_true]
    have e2 : (flattened i).qmax - (flattened i).dq = (flattened i).qn 2 := by unfold qn; norm_num
    rw [e1, e2]
    linarith
  obtain ⟨n, n1, n2, n3, n4⟩ := qref_of_placed hv (by show (1 : ℤ) ≠ i + 3; omega) hs
  have hb := hv.value_between n3
  rw [← n4] at hb
  by_contra hcon
  push Not at hcon
  have hf1 := n3.2
  rw [aan_area hv (by omega) (by omega), hv.alat_eq, hcap] at hf1
  have hn : (flattened i).qn (n + 1 + 1) = (flattened i).qn n - 2 * (flattened i).dq := by unfold qn; push_cast; ring
  have h7 : (flattened i).grid.area (fun x y => (flattened i).qn (n + 1 + 1) < (flattened i).q x y) ≤
      (flattened i).grid.area (fun x y => -(1 / 5) < (flattened i).q x y) :=
    area_mono hv fun _ _ _ h => lt_of_le_of_lt (by rw [hn]; linarith [hb.2]) h
  linarith

/-- **C160, refuted.** A field that is greatest on a whole region: the area of the region is dropped, and the profile is displaced by it,
however fine the grid. At the equator the reference value stays below -1/20 although the value 0 encloses the Southern Hemisphere. -/
theorem C160_refuted : ¬ C160_Statement := by
  intro H
  have hpi := Real.pi_pos
  have lim := H 1 0 0 cutOff flattened (fun _ => 0) (fun _ => 1) one_pos cutOff_continuous flattened_valid flattened_refining flattened_samples
    tendsto_const_nhds flattened_npart (fun i => ⟨le_rfl, by show (1 : ℤ) < i + 3; omega⟩)
    (by simp only [flattened_row]; exact tendsto_const_nhds) le_rfl (by linarith) cutOff_equator
  obtain ⟨i, h1, h2⟩ := ((lim.eventually (lt_mem_nhds (by norm_num : -(1 / 20 : ℝ) < 0))).and flattened_equator).exists
  linarith

end AreaIn

/-! ### A sample: air at rest on finer and finer grids -/

namespace Atmos

/-- Air at rest, stably stratified, on `2 i + 5` latitudes and `i + 2` longitudes. -/
def still (i : ℕ) : Atmos :=
  { tinyWave with
    nlon := i + 2
    nlatIn := 2 * i + 5
    nlat := 2 * i + 5
    npart := 2 * i + 5
    om := 1 / 2
    uField := fun _ _ _ => 0
    tField := fun _ _ l => l }

theorem still_nd (i : ℕ) : (still i).nd = i + 3 := by
  show (2 * (i : ℤ) + 5) / 2 + (2 * (i : ℤ) + 5) % 2 = i + 3
  omega

theorem still_regular (i : ℕ) : (still i).Regular where
  nlon1 := by show (1 : ℤ) ≤ i + 2; omega
  odd := by rw [still_nd]; show (2 * i + 5 : ℤ) = _; ring
  jb0 := by show (0 : ℤ) ≤ 0; omega
  jd3 := by unfold jd; rw [still_nd]; show (3 : ℤ) ≤ i + 3 - 0; omega
  kmax3 := by show (3 : ℤ) ≤ 4; omega
  npart2 := by show (2 : ℤ) ≤ 2 * i + 5; omega
  a0 := by show (0 : ℝ) < 1; norm_num
  om0 := by show (1 / 2 : ℝ) ≠ 0; norm_num

theorem still_theta (i : ℕ) (x g l : ℤ) : (still i).theta x g l = l := by
  show (l : ℝ) * Real.exp (1 / 1 * 0 / 1) = l
  norm_num

theorem still_clat (i : ℕ) (s : Finset ℤ) (hs : (still i).nd ∈ s) : 0 < ∑ g ∈ s, (still i).clat g := by
  refine sum_pos' (fun g _ => abs_nonneg _) ⟨_, hs, ?_⟩
  unfold clat lat
  simp

theorem still_rowMean (i : ℕ) (l g : ℤ) : (still i).rowMean l g = l * (still i).clat g := by
  have h0 : (0 : ℝ) < ((still i).nlon : ℝ) := by
    have : (0 : ℤ) < (still i).nlon := by show (0 : ℤ) < i + 2; omega
    exact_mod_cast this
  have hc : ((Icc (1 : ℤ) (still i).nlon).card : ℝ) = (still i).nlon := by
    rw [Int.card_Icc]
    have : (((still i).nlon + 1 - 1).toNat : ℤ) = (still i).nlon := by
      have : (0 : ℤ) < (still i).nlon := by exact_mod_cast h0
      omega
    exact_mod_cast this
  have e1 : ∀ x, (still i).theta0 x g l = l := fun x => still_theta i x g l
  unfold rowMean
  simp only [e1]
  rw [sum_const, nsmul_eq_mul, hc, mul_div_cancel_left₀ _ h0.ne']

theorem still_csm (i : ℕ) : 0 < (still i).csm :=
  still_clat i _ (by rw [mem_Icc]; unfold jd; rw [still_nd]; show (1 : ℤ) ≤ i + 3 ∧ (i + 3 : ℤ) ≤ i + 3 - 0; omega)

theorem still_tn0 (i : ℕ) (k : ℤ) : (still i).tn0 k = k := by
  show (∑ g ∈ Icc ((still i).nlat - (still i).jd + 1) (still i).nlat, (still i).rowMean k g) / (still i).csm = k
  simp only [still_rowMean]
  rw [← mul_sum]
  have hsym : ∑ g ∈ Icc ((still i).nlat - (still i).jd + 1) (still i).nlat, (still i).clat g = (still i).csm := by
    unfold csm
    refine sum_bij' (fun g _ => (still i).nlat + 1 - g) (fun g _ => (still i).nlat + 1 - g) ?_ ?_ ?_ ?_ ?_
    · intro g hg; rw [mem_Icc] at hg ⊢; omega
    · intro g hg; rw [mem_Icc] at hg ⊢; omega
    · intro g _; ring
    · intro g _; ring
    · intro g _
      unfold clat
      rw [lat_neg (still_regular i), Real.cos_neg]
  rw [hsym, mul_div_assoc, div_self (still_csm i).ne', mul_one]

theorem still_ts0 (i : ℕ) (k : ℤ) : (still i).ts0 k = k := by
  show (∑ g ∈ Icc 1 (still i).jd, (still i).rowMean k g) / (still i).csm = k
  simp only [still_rowMean]
  rw [← mul_sum]
  show (k : ℝ) * (still i).csm / (still i).csm = k
  rw [mul_div_assoc, div_self (still_csm i).ne', mul_one]

/-- No stretching. -/
theorem still_stretch (i : ℕ) {t0 : ℤ → ℝ} (h : ∀ k, t0 k = k) (stat : ℤ → ℝ) (c : ℝ) (x y k : ℤ) :
    (still i).qgpvIn.stretch t0 stat c x y k = 0 := by
  have : ∀ k, (still i).qgpvIn.alt t0 stat x y k = 0 := by
    intro k
    unfold QgpvIn.alt
    rw [show (still i).qgpvIn.theta x y k = k from still_theta i x y k, h k, sub_self, mul_zero, zero_div]
  unfold QgpvIn.stretch
  rw [this, this]
  simp

theorem still_qgpv (i : ℕ) (c : Scheme) (x y : ℤ) : (still i).qgpv c x y 2 = (still i).avort x y 2 := by
  have hk : (2 : ℤ) ≤ 2 ∧ (2 : ℤ) ≤ (still i).qgpvIn.kmax - 1 := ⟨le_rfl, by show (2 : ℤ) ≤ 4 - 1; omega⟩
  have h0 : ∀ k, (still i).t0 k = k := by
    intro k
    unfold t0
    rw [still_ts0, still_tn0]
    ring
  cases c
  · show (still i).qgpvIn.pv18 (still i).t0 (still i).stat x y 2 = _
    unfold QgpvIn.pv18
    rw [if_pos hk, still_stretch i h0, add_zero]
    rfl
  · show (still i).qgpvIn.pv22 (still i).nd (still i).ts0 (still i).tn0 (still i).statS (still i).statN x y 2 = _
    unfold QgpvIn.pv22
    rw [if_pos hk, still_stretch i (still_ts0 i), still_stretch i (still_tn0 i), ite_self, add_zero]
    rfl

theorem still_lat (i : ℕ) (y : ℤ) : latitude (still i).nlat y = (still i).lat y := by
  rw [← lat_sphere (still_regular i)]
  unfold latitude SphereGrid.latitude sphere
  push_cast
  ring

theorem still_inner (i : ℕ) (x : ℤ) {y : ℤ} (h1 : 2 ≤ y) (h2 : y ≤ (still i).nlat - 1) :
    (still i).avort x y 2 = Real.sin ((still i).lat y) := by
  rw [C82_rest (still i) (by show (2 : ℤ) ≤ i + 2; omega) (fun _ _ _ => rfl) (fun _ _ _ => rfl) x y 2 h1 h2, still_lat]
  show 2 * (1 / 2 : ℝ) * _ = _
  ring

/-- The rows of the poles have the value of the next row, so the error is at most the spacing. -/
theorem still_samples (i : ℕ) (c : Scheme) :
    (still i).sphere.Samples (fun x _ => Real.sin x) (still i).dphi fun x y => (still i).qgpv c x y 2 := by
  intro x y hm
  have h4 : (4 : ℤ) ≤ (still i).nlat := by show (4 : ℤ) ≤ 2 * i + 5; omega
  have hd : 0 ≤ (still i).dphi := by
    have : (0 : ℝ) ≤ (((still i).nlat - 1 : ℤ) : ℝ) := by exact_mod_cast (by omega : 0 ≤ (still i).nlat - 1)
    have := Real.pi_pos
    unfold Atmos.dphi
    positivity
  have hstep : ∀ r, (still i).lat (r + 1) - (still i).lat r = (still i).dphi := by
    intro r
    unfold lat
    push_cast
    ring
  have hmean : ∀ r, 2 ≤ r → r ≤ (still i).nlat - 1 → circleMean (still i).nlon (fun x => (still i).avort x r 2) = Real.sin ((still i).lat r) := by
    intro r r1 r2
    have h0 : (0 : ℤ) < (still i).nlon := by show (0 : ℤ) < i + 2; omega
    have h0' : (0 : ℝ) < ((still i).nlon : ℝ) := by exact_mod_cast h0
    have hc : ((Icc (1 : ℤ) (still i).nlon).card : ℝ) = (still i).nlon := by
      rw [Int.card_Icc]
      have : (((still i).nlon + 1 - 1).toNat : ℤ) = (still i).nlon := by omega
      exact_mod_cast this
    unfold circleMean
    simp only [still_inner i _ r1 r2]
    rw [sum_const, nsmul_eq_mul, hc, mul_div_cancel_left₀ _ h0'.ne']
  show |(still i).qgpv c x y 2 - Real.sin ((still i).sphere.latitude y)| ≤ _
  rw [still_qgpv, lat_sphere (still_regular i)]
  have hy1 : 1 ≤ y := hm.2.1
  have hy2 : y ≤ (still i).nlat := hm.2.2
  rcases eq_or_lt_of_le hy1 with e1 | e1
  · rw [← e1, (C82_pole_rows (still i) h4 x 2).1, hmean 2 le_rfl (by omega)]
    refine (Real.abs_sin_sub_sin_le _ _).trans ?_
    have := hstep 1
    rw [show (1 : ℤ) + 1 = 2 by norm_num] at this
    rw [this, abs_of_nonneg hd]
  · rcases eq_or_lt_of_le hy2 with e2 | e2
    · rw [e2, (C82_pole_rows (still i) h4 x 2).2, hmean _ (by omega) le_rfl]
      refine (Real.abs_sin_sub_sin_le _ _).trans ?_
      have := hstep ((still i).nlat - 1)
      rw [show (still i).nlat - 1 + 1 = (still i).nlat by ring] at this
      rw [abs_sub_comm, this, abs_of_nonneg hd]
    · rw [still_inner i x (by omega) (by omega), sub_self, abs_zero]
      exact hd

theorem still_dphi : Filter.Tendsto (fun i => (still i).dphi) Filter.atTop (nhds 0) := by
  unfold Atmos.dphi
  refine tendsto_const_nhds.div_atTop (tendsto_intCast_atTop_atTop.comp ?_)
  exact Filter.tendsto_atTop_mono (fun i => by show (i : ℤ) ≤ 2 * i + 5 - 1; omega) tendsto_natCast_atTop_atTop

/-- The QGPV of air at rest approaches the planetary vorticity. -/
theorem still_approaches (c : Scheme) : Approaches c 1 (fun x _ => Real.sin x) still (fun _ => 2) fun i => (still i).dphi where
  regular := still_regular
  level i := ⟨le_rfl, by show (2 : ℤ) ≤ 4 - 1; omega⟩
  radius _ := rfl
  moreRows := Filter.tendsto_atTop_mono (fun i => by show (i : ℤ) ≤ 2 * i + 5; omega) tendsto_natCast_atTop_atTop
  moreCols := Filter.tendsto_atTop_mono (fun i => by show (i : ℤ) ≤ i + 2; omega) tendsto_natCast_atTop_atTop
  moreParts _ := Filter.tendsto_atTop_mono (fun i => by show (i : ℤ) ≤ 2 * i + 5; omega) tendsto_natCast_atTop_atTop
  samples i := still_samples i c
  error := still_dphi

theorem sin_highest : volume (highest fun x _ => Real.sin x) = 0 := by
  have hpi := Real.pi_pos
  refine measure_mono_null (t := ({Real.pi / 2} : Set ℝ) ×ˢ (Set.univ : Set ℝ)) ?_ ?_
  · intro p hp
    obtain ⟨h1, h2⟩ := hp
    have := h2 (Real.pi / 2, 0) ⟨⟨by show -(Real.pi / 2) ≤ Real.pi / 2; linarith, le_rfl⟩, le_rfl, by show (0 : ℝ) ≤ 2 * Real.pi; positivity⟩
    simp only [Real.sin_pi_div_two] at this
    refine ⟨?_, trivial⟩
    have e1 : Real.sin p.1 = Real.sin (Real.pi / 2) := by rw [Real.sin_pi_div_two]; exact le_antisymm (Real.sin_le_one _) this
    exact Real.injOn_sin h1.1 ⟨by linarith, le_rfl⟩ e1
  · rw [Measure.volume_eq_prod, Measure.prod_prod, Real.volume_singleton, zero_mul]

theorem sin_lowest : volume (lowest fun x _ => Real.sin x) = 0 := by
  have hpi := Real.pi_pos
  refine measure_mono_null (t := ({-(Real.pi / 2)} : Set ℝ) ×ˢ (Set.univ : Set ℝ)) ?_ ?_
  · intro p hp
    obtain ⟨h1, h2⟩ := hp
    have := h2 (-(Real.pi / 2), 0) ⟨⟨le_rfl, by show -(Real.pi / 2) ≤ Real.pi / 2; linarith⟩, le_rfl, by show (0 : ℝ) ≤ 2 * Real.pi; positivity⟩
    simp only [Real.sin_neg, Real.sin_pi_div_two] at this
    refine ⟨?_, trivial⟩
    have e1 : Real.sin p.1 = Real.sin (-(Real.pi / 2)) := by
      rw [Real.sin_neg, Real.sin_pi_div_two]; exact le_antisymm this (Real.neg_one_le_sin _)
    exact Real.injOn_sin h1.1 ⟨le_rfl, by linarith⟩ e1
  · rw [Measure.volume_eq_prod, Measure.prod_prod, Real.volume_singleton, zero_mul]

/-- Hypotheses of the four theorems: air at rest, both classes, the rows next to the equator and the first column. -/
example (c : Scheme) : Approaches c 1 (fun x _ => Real.sin x) still (fun _ => 2) (fun i => (still i).dphi) ∧
    (Continuous fun p : ℝ × ℝ => (fun x _ : ℝ => Real.sin x) p.1 p.2) ∧
    volume (highest fun x _ => Real.sin x) = 0 ∧ volume (lowest fun x _ => Real.sin x) = 0 ∧ (∀ i, (still i).nhOnly = false) ∧
    (∀ i : ℕ, (still i).nd < (still i).outRow (i + 4) ∧ (still i).nd + (still i).jb ≤ (still i).outRow (i + 4) ∧
      (still i).outRow (i + 4) < (still i).nlat) ∧
    (∀ i : ℕ, 1 < (i + 2 : ℤ) ∧ (i + 2 : ℤ) < (still i).nd ∧ (i + 2 : ℤ) ≤ (still i).nd - (still i).jb) ∧
    Filter.Tendsto (fun i : ℕ => (still i).lat ((still i).outRow (i + 4))) Filter.atTop (nhds 0) ∧
    Filter.Tendsto (fun i : ℕ => (still i).lat (i + 2)) Filter.atTop (nhds 0) ∧
    Filter.Tendsto (fun i : ℕ => (still i).sphere.longitude 1) Filter.atTop (nhds 0) ∧
    ∃ v, Encloses 1 (fun x _ => Real.sin x) (-(Real.pi / 2)) (Real.pi / 2) (southCap 1 0) v := by
  have hpi := Real.pi_pos
  have hc : Continuous fun p : ℝ × ℝ => (fun x _ : ℝ => Real.sin x) p.1 p.2 := by fun_prop
  have hout : ∀ (i : ℕ), (still i).outRow (i + 4) = i + 4 := by
    intro i
    show (2 * i + 5 : ℤ) - (2 * i + 5) + (i + 4) = i + 4
    ring
  have hn : ∀ i : ℕ, (still i).nlat = 2 * i + 5 := fun _ => rfl
  have hj : ∀ i : ℕ, (still i).jb = 0 := fun _ => rfl
  refine ⟨still_approaches c, hc, sin_highest, sin_lowest, fun _ => rfl, fun i => ?_, fun i => ?_, ?_, ?_, ?_, ?_⟩
  · rw [hout, still_nd, hn, hj]; omega
  · rw [still_nd, hj]; omega
  · refine still_dphi.congr fun i => ?_
    rw [hout]
    unfold lat
    rw [still_nd]
    push_cast
    ring
  · have := still_dphi.neg
    rw [neg_zero] at this
    refine this.congr fun i => ?_
    unfold lat
    rw [still_nd]
    push_cast
    ring
  · unfold SphereGrid.longitude
    simp
  · refine (C159_reference_exists one_pos hc le_rfl (by linarith) le_rfl ?_ ?_).exists
    · unfold southCap
      rw [Real.sin_zero]
      positivity
    · unfold southCap
      rw [Real.sin_neg, Real.sin_pi_div_two, Real.sin_zero]
      nlinarith

end Atmos

end Falwa
