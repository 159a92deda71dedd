import Verif.Spec.Circulation
import Verif.Props.RearrangeClasses
import Verif.Lemmas.QGFawa

/-! # The circulation of the area analysis tends to that of the sphere: C165 -/

noncomputable section

namespace Falwa

open Finset Spec MeasureTheory

/-- The circulation of the reference state with the excess over the reference value. -/
theorem refCirculation_eq {a T v : ℝ} {q : ℝ → ℝ → ℝ} (hq : Continuous fun p : ℝ × ℝ => q p.1 p.2) :
    refCirculation a q T v =
      (∫ p in band (-(Real.pi / 2)) (Real.pi / 2), max (q p.1 p.2 - v) 0 * (a ^ 2 * Real.cos p.1)) + v * T := by
  classical
  have hb := isCompact_band (-(Real.pi / 2)) (Real.pi / 2)
  have hm : MeasurableSet {p : ℝ × ℝ | v < q p.1 p.2} := (isOpen_lt continuous_const hq).measurableSet
  have i1 : IntegrableOn (fun p : ℝ × ℝ => if v < q p.1 p.2 then a ^ 2 * Real.cos p.1 else 0) (band (-(Real.pi / 2)) (Real.pi / 2)) := by
    have hc : Continuous fun p : ℝ × ℝ => a ^ 2 * Real.cos p.1 := by fun_prop
    have := (hc.continuousOn.integrableOn_compact (μ := volume) hb).indicator hm
    refine this.congr (Filter.Eventually.of_forall fun p => ?_)
    rfl
  have i2 : IntegrableOn (fun p : ℝ × ℝ => if v < q p.1 p.2 then q p.1 p.2 * (a ^ 2 * Real.cos p.1) else 0)
      (band (-(Real.pi / 2)) (Real.pi / 2)) := by
    have hc : Continuous fun p : ℝ × ℝ => q p.1 p.2 * (a ^ 2 * Real.cos p.1) := hq.mul (by fun_prop)
    have := (hc.continuousOn.integrableOn_compact (μ := volume) hb).indicator hm
    refine this.congr (Filter.Eventually.of_forall fun p => ?_)
    rfl
  have e : ∀ p : ℝ × ℝ, max (q p.1 p.2 - v) 0 * (a ^ 2 * Real.cos p.1) =
      (if v < q p.1 p.2 then q p.1 p.2 * (a ^ 2 * Real.cos p.1) else 0) - v * (if v < q p.1 p.2 then a ^ 2 * Real.cos p.1 else 0) := by
    intro p
    by_cases h : v < q p.1 p.2
    · rw [if_pos h, if_pos h, max_eq_left (by linarith)]; ring
    · rw [if_neg h, if_neg h, max_eq_right (by linarith [not_lt.1 h])]; ring
  simp only [e]
  rw [integral_sub i2 (i1.const_mul v), integral_const_mul]
  unfold refCirculation circulationAbove areaAbove
  ring

namespace AreaIn

/-- On a grid, the circulation of an assigned row is that of the excess over the reference value, up to one interval on the whole area and
the first partition. -/
theorem cref_close {I : AreaIn} (h : I.Valid) {j : ℤ} (hj : j ≠ I.nd) (hs : (I.placed j).isSome = true) (x : ℝ) :
    |I.cref x j - (I.qref j * I.alat j + ∑ c ∈ I.cells, I.da c.2 * max (I.q c.1 c.2 - I.qref j) 0)| ≤
      I.dq * I.grid.area (fun _ _ => True) + (I.qmax - I.qmin) * I.grid.area (fun i j => I.qn 2 < I.q i j) := by
  classical
  have hn := h.npart2
  obtain ⟨nn, n1, n2, hf, e1, e2⟩ : ∃ nn, 1 ≤ nn ∧ nn ≤ I.npart - 1 ∧ I.Falls j nn ∧ I.qref j = (I.value j nn).1 ∧
      I.cref x j = (I.value j nn).2 := by
    rcases I.placed_spec (by omega) j with ⟨h1, _⟩ | ⟨nn, h1, h2, h3, h4⟩
    · rw [h1] at hs; simp at hs
    · refine ⟨nn, h1, h2, h3, ?_, ?_⟩
      · unfold qref
        rw [if_neg hj, h4]
        rfl
      · unfold cref
        rw [h4]
        rfl
  have hc := h.circ n1 n2 hf
  have hv := h.value_mem n1 n2 hf
  rw [e1, e2]
  have ea : I.grid.area (fun _ _ => True) = ∑ c ∈ I.cells, I.da c.2 := by
    rw [h.area_eq]; simp only [if_true]
  have eb : I.grid.area (fun i j => I.qn 2 < I.q i j) = ∑ c ∈ I.cells, if I.ind c.1 c.2 = 1 then I.da c.2 else 0 := by
    rw [h.area_eq]
    refine sum_congr rfl fun c hc => ?_
    have := h.ind_le_iff hc 1
    rw [I.mem_cells] at hc
    have := (h.ind_spec hc.1 hc.2).1
    by_cases hx : I.ind c.1 c.2 = 1
    · rw [if_pos hx, if_pos (by have : I.ind c.1 c.2 ≤ 1 := hx.le; simp_all)]
    · rw [if_neg hx, if_neg (by intro hy; exact hx (by have : I.ind c.1 c.2 ≤ 1 := by simp_all
                                                       omega))]
  have s : (I.value j nn).2 - ((I.value j nn).1 * I.alat j + ∑ c ∈ I.cells, I.da c.2 * max (I.q c.1 c.2 - (I.value j nn).1) 0) =
      -(∑ c ∈ I.cells, I.da c.2 * (max (I.q c.1 c.2 - (I.value j nn).1) 0 -
        wt nn ((I.alat j - I.aan nn) / (I.aan (nn + 1) - I.aan nn)) (I.ind c.1 c.2) * (I.q c.1 c.2 - (I.value j nn).1))) -
      ∑ c ∈ I.cells, if I.ind c.1 c.2 = 1 then I.da c.2 * (I.q c.1 c.2 - (I.value j nn).1) else 0 := by
    simp only [mul_sub (I.da _)]
    rw [sum_sub_distrib]
    simp only [mul_sub (I.da _)] at hc
    linarith
  rw [s]
  have b1 : 0 ≤ ∑ c ∈ I.cells, I.da c.2 * (max (I.q c.1 c.2 - (I.value j nn).1) 0 -
        wt nn ((I.alat j - I.aan nn) / (I.aan (nn + 1) - I.aan nn)) (I.ind c.1 c.2) * (I.q c.1 c.2 - (I.value j nn).1)) := by
    refine sum_nonneg fun c hc => ?_
    rw [I.mem_cells] at hc
    exact mul_nonneg (h.da_nonneg hc.2.1 hc.2.2) (h.wt_err hf hc.1 hc.2).1
  have b2 : ∑ c ∈ I.cells, I.da c.2 * (max (I.q c.1 c.2 - (I.value j nn).1) 0 -
        wt nn ((I.alat j - I.aan nn) / (I.aan (nn + 1) - I.aan nn)) (I.ind c.1 c.2) * (I.q c.1 c.2 - (I.value j nn).1)) ≤
      I.dq * I.grid.area (fun _ _ => True) := by
    rw [ea, mul_sum]
    refine sum_le_sum fun c hc => ?_
    rw [I.mem_cells] at hc
    rw [mul_comm I.dq]
    exact mul_le_mul_of_nonneg_left (h.wt_err hf hc.1 hc.2).2 (h.da_nonneg hc.2.1 hc.2.2)
  have b3 : |∑ c ∈ I.cells, if I.ind c.1 c.2 = 1 then I.da c.2 * (I.q c.1 c.2 - (I.value j nn).1) else 0| ≤
      (I.qmax - I.qmin) * I.grid.area (fun i j => I.qn 2 < I.q i j) := by
    rw [eb, mul_sum]
    refine (abs_sum_le_sum_abs _ _).trans (sum_le_sum fun c hc => ?_)
    rw [I.mem_cells] at hc
    have hd := h.da_nonneg hc.2.1 hc.2.2
    have hm := h.q_mem hc.1 hc.2
    split_ifs
    · rw [abs_mul, abs_of_nonneg hd, mul_comm]
      exact mul_le_mul_of_nonneg_right (abs_le.2 ⟨by linarith, by linarith⟩) hd
    · rw [abs_zero, mul_zero]
  rw [abs_le] at b3 ⊢
  constructor <;> linarith

/-- **C165 (area analysis).** Let the fields of a sequence of area analyses approach a continuous field on the sphere whose greatest
value is attained on a null set, on grids and with partitions that become finer. If the latitude of row `j i` tends to `φ`, on the
hemisphere and not at the pole, the circulation that is assigned to the row tends to that of the reference state. -/
theorem C165_circulation {a φ v : ℝ} {q : ℝ → ℝ → ℝ} (ha : 0 < a) (hq : Continuous fun p : ℝ × ℝ => q p.1 p.2)
    (htop : volume (highest q) = 0) {I : ℕ → AreaIn} {e : ℕ → ℝ} (hI : ∀ᶠ i in Filter.atTop, (I i).Valid)
    (hG : Refining a fun i => (I i).grid) (hf : ∀ i, (I i).grid.Samples q (e i) (I i).q) (he : Filter.Tendsto e Filter.atTop (nhds 0))
    (hnp : Filter.Tendsto (fun i => (I i).npart) Filter.atTop Filter.atTop) {j : ℕ → ℤ}
    (hrow : Filter.Tendsto (fun i => (I i).grid.latitude (j i + (I i).nd - 1)) Filter.atTop (nhds φ)) (hφ0 : 0 ≤ φ) (hφ : φ < Real.pi / 2)
    (hv : Encloses a q (-(Real.pi / 2)) (Real.pi / 2) (southCap a φ) v) (x : ℕ → ℝ) :
    Filter.Tendsto (fun i => (I i).cref (x i) (j i)) Filter.atTop (nhds (refCirculation a q (northCap a φ) v)) := by
  classical
  have lq := C160_reference_partial ha hq htop hI hG hf he hnp hrow hφ0 hφ hv
  have hdq := dq_tendsto hq hG hf he hnp
  have hcap := caps_tendsto hG hrow
  have harea := grid_sums_tendsto (a := a) (χ := fun _ => 1) hq continuous_const hG.rows hG.cols hG.radius hG.moreRows hG.moreCols
  simp only [one_mul] at harea
  rw [sphere_area] at harea
  have hsum := grid_sums_tendsto (a := a) (χ := fun t => max (t - v) 0) hq (by fun_prop) hG.rows hG.cols hG.radius hG.moreRows hG.moreCols
  rw [refCirculation_eq hq]
  obtain ⟨B, hB⟩ := range_bound hq hG hf
  have lsum : Filter.Tendsto (fun i => ∑ c ∈ (I i).cells, (I i).da c.2 * max ((I i).q c.1 c.2 - (I i).qref (j i)) 0) Filter.atTop
      (nhds (∫ p in band (-(Real.pi / 2)) (Real.pi / 2), max (q p.1 p.2 - v) 0 * (a ^ 2 * Real.cos p.1))) := by
    have hz : Filter.Tendsto (fun i => (e i + |(I i).qref (j i) - v|) *
        ∑ y ∈ Icc 1 (I i).grid.n, ∑ x ∈ Icc 1 (I i).grid.m, (I i).grid.cell y) Filter.atTop (nhds 0) := by
      have h1 : Filter.Tendsto (fun i => |(I i).qref (j i) - v|) Filter.atTop (nhds 0) := by
        have := (lq.sub_const v).abs
        rwa [sub_self, abs_zero] at this
      have := (he.add h1).mul harea
      rwa [add_zero, zero_mul] at this
    have hd : Filter.Tendsto (fun i => ∑ c ∈ (I i).cells, (I i).da c.2 * max ((I i).q c.1 c.2 - (I i).qref (j i)) 0 -
        ∑ y ∈ Icc 1 (I i).grid.n, ∑ x ∈ Icc 1 (I i).grid.m,
          max (q ((I i).grid.latitude y) ((I i).grid.longitude x) - v) 0 * (I i).grid.cell y) Filter.atTop (nhds 0) := by
      refine squeeze_zero_norm' ?_ hz
      filter_upwards [hI] with i hi
      rw [Real.norm_eq_abs]
      have e1 : ∑ c ∈ (I i).cells, (I i).da c.2 * max ((I i).q c.1 c.2 - (I i).qref (j i)) 0 =
          ∑ y ∈ Icc 1 (I i).grid.n, ∑ x ∈ Icc 1 (I i).grid.m, (I i).da y * max ((I i).q x y - (I i).qref (j i)) 0 :=
        ((I i).sum_cells fun x y => (I i).da y * max ((I i).q x y - (I i).qref (j i)) 0).symm
      rw [e1, ← sum_sub_distrib, mul_sum]
      refine (abs_sum_le_sum_abs _ _).trans (sum_le_sum fun y hy => ?_)
      rw [← sum_sub_distrib, mul_sum]
      refine (abs_sum_le_sum_abs _ _).trans (sum_le_sum fun x hx => ?_)
      rw [mem_Icc] at hx hy
      have hc := cell_nonneg (hG.rows i) (hG.cols i) hy.1 hy.2
      have hs := hf i x y ⟨hx, hy⟩
      rw [hi.da_eq, mul_comm ((I i).grid.cell y), ← sub_mul, abs_mul, abs_of_nonneg hc]
      refine mul_le_mul_of_nonneg_right ?_ hc
      refine (abs_max_sub_max_le_abs _ _ _).trans ?_
      rw [show (I i).q x y - (I i).qref (j i) - (q ((I i).grid.latitude y) ((I i).grid.longitude x) - v) =
        ((I i).q x y - q ((I i).grid.latitude y) ((I i).grid.longitude x)) - ((I i).qref (j i) - v) by ring]
      exact (abs_sub _ _).trans (add_le_add hs le_rfl)
    have := hd.add hsum
    rw [zero_add] at this
    exact this.congr fun i => by ring
  have lmain : Filter.Tendsto (fun i => (I i).qref (j i) * (I i).alat (j i) +
      ∑ c ∈ (I i).cells, (I i).da c.2 * max ((I i).q c.1 c.2 - (I i).qref (j i)) 0) Filter.atTop
      (nhds (v * northCap a φ + ∫ p in band (-(Real.pi / 2)) (Real.pi / 2), max (q p.1 p.2 - v) 0 * (a ^ 2 * Real.cos p.1))) := by
    refine Filter.Tendsto.add (lq.mul (hcap.congr' ?_)) lsum
    filter_upwards [hI] with i hi
    exact (hi.alat_eq (j i)).symm
  have lerr : Filter.Tendsto (fun i => (I i).dq * (I i).grid.area (fun _ _ => True) +
      ((I i).qmax - (I i).qmin) * (I i).grid.area (fun x y => (I i).qn 2 < (I i).q x y)) Filter.atTop (nhds 0) := by
    have h1 : Filter.Tendsto (fun i => (I i).dq * (I i).grid.area (fun _ _ => True)) Filter.atTop (nhds 0) := by
      have := hdq.mul harea
      rw [zero_mul] at this
      refine this.congr fun i => ?_
      unfold SphereGrid.area
      simp only [if_true]
    have h2 : Filter.Tendsto (fun i => (I i).grid.area (fun x y => (I i).qn 2 < (I i).q x y)) Filter.atTop (nhds 0) := by
      rw [tendsto_order]
      refine ⟨fun w hw => ?_, fun w hw => first_partition ha hq htop hG hf he hnp hw⟩
      filter_upwards [hI] with i hi
      refine lt_of_lt_of_le hw ?_
      unfold SphereGrid.area
      refine sum_nonneg fun y hy => sum_nonneg fun x _ => ?_
      rw [mem_Icc] at hy
      have hc := cell_nonneg (hG.rows i) (hG.cols i) hy.1 hy.2
      split_ifs
      · exact hc
      · exact le_rfl
    have h3 : Filter.Tendsto (fun i => ((I i).qmax - (I i).qmin) * (I i).grid.area (fun x y => (I i).qn 2 < (I i).q x y))
        Filter.atTop (nhds 0) := by
      have hz := ((he.const_add B).const_mul 2).mul h2
      rw [mul_zero] at hz
      refine squeeze_zero' ?_ ?_ hz
      · filter_upwards [hI] with i hi
        refine mul_nonneg (hB i).2 ?_
        unfold SphereGrid.area
        refine sum_nonneg fun y hy => sum_nonneg fun x _ => ?_
        rw [mem_Icc] at hy
        have hc := cell_nonneg (hG.rows i) (hG.cols i) hy.1 hy.2
        split_ifs
        · exact hc
        · exact le_rfl
      · filter_upwards [hI] with i hi
        refine mul_le_mul_of_nonneg_right (hB i).1 ?_
        unfold SphereGrid.area
        refine sum_nonneg fun y hy => sum_nonneg fun x _ => ?_
        rw [mem_Icc] at hy
        have hc := cell_nonneg (hG.rows i) (hG.cols i) hy.1 hy.2
        split_ifs
        · exact hc
        · exact le_rfl
    have := h1.add h3
    rwa [add_zero] at this
  have hdiff : Filter.Tendsto (fun i => (I i).cref (x i) (j i) - ((I i).qref (j i) * (I i).alat (j i) +
      ∑ c ∈ (I i).cells, (I i).da c.2 * max ((I i).q c.1 c.2 - (I i).qref (j i)) 0)) Filter.atTop (nhds 0) := by
    refine squeeze_zero_norm' ?_ lerr
    filter_upwards [hI, not_pole_eventually hI hrow hφ, placed_eventually ha hq htop hI hG hf he hnp hrow hφ0 hφ.le] with i hi i1 i2
    rw [Real.norm_eq_abs]
    exact cref_close hi i1 i2 (x i)
  have := hdiff.add lmain
  rw [zero_add, add_comm (v * _)] at this
  exact this.congr fun i => by ring

end AreaIn

namespace Atmos

variable {A : ℕ → Atmos} {k : ℕ → ℤ} {e : ℕ → ℝ}

/-- **C165 (class with a boundary).** If the absolute vorticity of a sequence of atmospheres approaches a continuous field on the sphere
that is greatest on a null set only, and the latitude of the equatorward boundary tends to `φ`, the circulation there tends to that of the
reference state, and the boundary value of the wind accordingly. -/
theorem C165_boundary {a om φ v : ℝ} {q : ℝ → ℝ → ℝ} (ha : 0 < a) (hq : Continuous fun p : ℝ × ℝ => q p.1 p.2)
    (htop : volume (highest q) = 0) (hA : ∀ i, (A i).Regular) (hk : ∀ i, 2 ≤ k i ∧ k i ≤ (A i).kmax - 1) (hr : ∀ i, (A i).a = a)
    (hom : ∀ i, (A i).om = om) (hrows : Filter.Tendsto (fun i => (A i).nlat) Filter.atTop Filter.atTop)
    (hcols : Filter.Tendsto (fun i => (A i).nlon) Filter.atTop Filter.atTop)
    (hf : ∀ i, (A i).sphere.Samples q (e i) fun x y => (A i).avort x y (k i)) (he : Filter.Tendsto e Filter.atTop (nhds 0))
    (hb : Filter.Tendsto (fun i => (A i).lat ((A i).nd + (A i).jb)) Filter.atTop (nhds φ)) (hφ0 : 0 ≤ φ) (hφ : φ < Real.pi / 2)
    (hv : Encloses a q (-(Real.pi / 2)) (Real.pi / 2) (southCap a φ) v) :
    Filter.Tendsto (fun i => (A i).nhnN.ckref ((A i).jb + 1) (k i)) Filter.atTop (nhds (refCirculation a q (northCap a φ) v)) ∧
    Filter.Tendsto (fun i => (A i).nhnN.bound (k i)) Filter.atTop
      (nhds (refCirculation a q (northCap a φ) v / (2 * Real.pi * a) - om * a * Real.cos φ)) := by
  have hG : Refining a fun i => (A i).sphere :=
    ⟨fun i => by show 2 ≤ (A i).nlat; have := (hA i).odd; have := (hA i).nd3; omega, fun i => (hA i).nlon1, hr, hrows, hcols⟩
  set I : ℕ → AreaIn := fun i => (A i).nhnN.area (A i).nhnN.vort (k i) with hI
  have hgrid : ∀ i, (I i).grid = (A i).sphere := fun _ => rfl
  have hV : ∀ᶠ i in Filter.atTop, (I i).Valid := by
    filter_upwards [AreaIn.spread_eventually ha hq htop (I := I) (e := e) hG hf he] with i hs
    have hn := (hA i).nd3
    have hodd := (hA i).odd
    exact ⟨(hA i).nlon1, by show 2 ≤ (A i).nd; omega, hodd, by show 2 ≤ (A i).nlat; omega, rfl, rfl, (hA i).a0, hs⟩
  have key := AreaIn.C165_circulation ha hq htop (I := I) (e := e) hV hG hf he hrows (j := fun i => (A i).jb + 1) (φ := φ) (v := v)
    (hb.congr fun i => by
      rw [hgrid, lat_sphere (hA i)]
      congr 1
      show (A i).nd + (A i).jb = (A i).jb + 1 + (A i).nd - 1
      ring) hφ0 hφ hv (fun _ => 0)
  have hck : ∀ i, (A i).nhnN.ckref ((A i).jb + 1) (k i) = (I i).cref 0 ((A i).jb + 1) := by
    intro i
    unfold NhnIn.ckref
    rw [if_pos (show 2 ≤ k i ∧ k i ≤ (A i).nhnN.kmax - 1 from hk i)]
    rfl
  have k1 : Filter.Tendsto (fun i => (A i).nhnN.ckref ((A i).jb + 1) (k i)) Filter.atTop (nhds (refCirculation a q (northCap a φ) v)) :=
    key.congr fun i => (hck i).symm
  refine ⟨k1, ?_⟩
  have hcos := ((Real.continuous_cos.tendsto φ).comp hb).const_mul (om * a)
  refine ((k1.div_const (2 * Real.pi * a)).sub hcos).congr fun i => ?_
  show _ = (A i).nhnN.ckref ((A i).jb + 1) (k i) / (2 * Real.pi * (A i).a) - (A i).om * (A i).a * Real.cos ((A i).nhnN.dp * ((A i).jb : ℝ))
  rw [hr i, hom i]
  have hl : (A i).lat ((A i).nd + (A i).jb) = (A i).nhnN.dp * ((A i).jb : ℝ) := by
    unfold lat
    rw [add_sub_cancel_left]
    rfl
  rw [← hl]
  rfl

end Atmos

end Falwa
