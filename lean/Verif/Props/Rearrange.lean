import Verif.Lemmas.Rearrange
import Verif.Props.Continuum
import Verif.Props.Minimal

/-!
# C159: The computed reference state tends to the rearrangement on the sphere
-/

noncomputable section

namespace Falwa

open Finset Spec MeasureTheory

theorem band_area {a s n : ℝ} (h : s ≤ n) : ∫ p in band s n, a ^ 2 * Real.cos p.1 = 2 * Real.pi * a ^ 2 * (Real.sin n - Real.sin s) := by
  have hpi := Real.pi_pos
  have hc : Continuous fun p : ℝ × ℝ => (fun x _ : ℝ => a ^ 2 * Real.cos x) p.1 p.2 := by fun_prop
  have e := iterated_eq (F := fun x _ => a ^ 2 * Real.cos x) hc h (by positivity : (0 : ℝ) ≤ 2 * Real.pi)
  rw [band, ← e]
  simp only [intervalIntegral.integral_const, sub_zero, smul_eq_mul]
  rw [intervalIntegral.integral_const_mul, intervalIntegral.integral_const_mul, integral_cos]
  ring

theorem areaAtMost_all {a s n v : ℝ} {q : ℝ → ℝ → ℝ} (h : ∀ p ∈ band s n, q p.1 p.2 ≤ v) :
    areaAtMost a q s n v = ∫ p in band s n, a ^ 2 * Real.cos p.1 :=
  setIntegral_congr_fun (measurableSet_band s n) fun p hp => if_pos (h p hp)

theorem areaAtMost_none {a s n v : ℝ} {q : ℝ → ℝ → ℝ} (h : ∀ p ∈ band s n, v < q p.1 p.2) : areaAtMost a q s n v = 0 := by
  have : areaAtMost a q s n v = ∫ p in band s n, (0 : ℝ) :=
    setIntegral_congr_fun (measurableSet_band s n) fun p hp => if_neg (not_le.2 (h p hp))
  rw [this, integral_zero]

/-- **C159, specification.** For a continuous field and an area less than that of the band there is exactly one value whose contour
encloses the area. -/
theorem C159_reference_exists {a s n T : ℝ} {q : ℝ → ℝ → ℝ} (ha : 0 < a) (hq : Continuous fun p : ℝ × ℝ => q p.1 p.2)
    (h1 : -(Real.pi / 2) ≤ s) (hsn : s < n) (h2 : n ≤ Real.pi / 2) (h0 : 0 < T)
    (hT : T < 2 * Real.pi * a ^ 2 * (Real.sin n - Real.sin s)) : ∃! v, Encloses a q s n T v := by
  have hpi := Real.pi_pos
  rw [← band_area hsn.le] at hT
  have hint : interior (band s n) = Set.Ioo s n ×ˢ Set.Ioo 0 (2 * Real.pi) := by
    rw [band, interior_prod_eq, interior_Icc, interior_Icc]
  have hcl : closure (interior (band s n)) = band s n := by
    rw [hint, closure_prod_eq, closure_Ioo hsn.ne, closure_Ioo (by positivity : (0 : ℝ) ≠ 2 * Real.pi)]
    rfl
  have hne : (band s n).Nonempty := ⟨(s, 0), ⟨le_rfl, hsn.le⟩, ⟨le_rfl, by positivity⟩⟩
  have hconn : IsPreconnected (interior (band s n)) := by
    rw [hint]
    exact isPreconnected_Ioo.prod isPreconnected_Ioo
  obtain ⟨pm, hpm, hmin⟩ := (isCompact_band s n).exists_isMinOn hne hq.continuousOn
  obtain ⟨pM, hpM, hmax⟩ := (isCompact_band s n).exists_isMaxOn hne hq.continuousOn
  have hmin' : ∀ p ∈ band s n, q pm.1 pm.2 ≤ q p.1 p.2 := fun p hp => hmin hp
  have hmax' : ∀ p ∈ band s n, q p.1 p.2 ≤ q pM.1 pM.2 := fun p hp => hmax hp
  have low : ∀ w, w < q pm.1 pm.2 → areaAtMost a q s n w = 0 := fun w hw => areaAtMost_none fun p hp => hw.trans_le (hmin' p hp)
  have high : ∀ w, q pM.1 pM.2 ≤ w → T < areaAtMost a q s n w := fun w hw => by
    rw [areaAtMost_all fun p hp => (hmax' p hp).trans hw]; exact hT
  set S : Set ℝ := {w | areaAtMost a q s n w < T} with hS
  have hSne : S.Nonempty := ⟨q pm.1 pm.2 - 1, by
    show areaAtMost a q s n _ < T
    rw [low _ (by linarith)]; exact h0⟩
  have hSb : BddAbove S := ⟨q pM.1 pM.2, fun w hw => by
    by_contra hcon
    have h3 : areaAtMost a q s n w < T := hw
    have := high w (not_le.1 hcon).le
    linarith⟩
  suffices henc : Encloses a q s n T (sSup S) from ⟨_, henc, fun w hw => hw.unique henc⟩
  refine ⟨fun w hw => ?_, fun w hw => ?_⟩
  · obtain ⟨w', hw', hlt⟩ := exists_lt_of_lt_csSup hSne hw
    exact lt_of_le_of_lt (areaAtMost_mono hq h1 h2 hlt.le) hw'
  · set w' := (sSup S + w) / 2 with hw'
    have hlt : sSup S < w' := by rw [hw']; linarith
    have hww : w' < w := by rw [hw']; linarith
    have hge : T ≤ areaAtMost a q s n w' := by
      by_contra hcon
      exact absurd (le_csSup hSb (not_le.1 hcon)) (not_le.2 hlt)
    by_cases hM : q pM.1 pM.2 ≤ w'
    · exact high w (hM.trans hww.le)
    · push Not at hM
      have hm : q pm.1 pm.2 ≤ w' := by
        by_contra hcon
        rw [low w' (not_le.1 hcon)] at hge
        linarith
      refine lt_of_le_of_lt hge ?_
      have o1 : ∃ p ∈ interior (band s n), w' < q p.1 p.2 := by
        have := hcl.symm ▸ hpM
        rw [mem_closure_iff] at this
        obtain ⟨p, hp1, hp2⟩ := this {p | w' < q p.1 p.2} (isOpen_lt continuous_const hq) hM
        exact ⟨p, hp2, hp1⟩
      have o2 : ∃ p ∈ interior (band s n), q p.1 p.2 < w := by
        have := hcl.symm ▸ hpm
        rw [mem_closure_iff] at this
        obtain ⟨p, hp1, hp2⟩ := this {p | q p.1 p.2 < w} (isOpen_lt hq continuous_const) (lt_of_le_of_lt hm hww)
        exact ⟨p, hp2, hp1⟩
      obtain ⟨p1, hp1, hv1⟩ := o1
      obtain ⟨p2, hp2, hv2⟩ := o2
      by_cases c1 : q p1.1 p1.2 < w
      · exact areaAtMost_strict ha hq h1 h2 hww hp1 hv1 c1
      by_cases c2 : w' < q p2.1 p2.2
      · exact areaAtMost_strict ha hq h1 h2 hww hp2 c2 hv2
      obtain ⟨p, hp, hpe⟩ := hconn.intermediate_value hp2 hp1 hq.continuousOn
        (show (w' + w) / 2 ∈ Set.Icc (q p2.1 p2.2) (q p1.1 p1.2) from ⟨by linarith, by linarith⟩)
      have hpe' : q p.1 p.2 = (w' + w) / 2 := hpe
      exact areaAtMost_strict ha hq h1 h2 hww hp (by linarith) (by linarith)

/-! ### From grids to the sphere -/

/-- Sums of a continuous function of the field over the rows from `s` to the pole and all columns, weighted with the areas of the
cells. -/
theorem cell_sums_tendsto {a s n : ℝ} {q : ℝ → ℝ → ℝ} (hq : Continuous fun p : ℝ × ℝ => q p.1 p.2) {χ : ℝ → ℝ} (hχ : Continuous χ)
    (hsn : s ≤ n) (hn : Real.cos n = 0) {N M : ℕ → ℕ} (hN : Filter.Tendsto N Filter.atTop Filter.atTop)
    (hM : Filter.Tendsto M Filter.atTop Filter.atTop) (hN0 : ∀ i, N i ≠ 0) :
    Filter.Tendsto (fun i => ∑ r ∈ range (N i + 1), ∑ c ∈ range (M i),
        χ (q (s + r * ((n - s) / N i)) (c * (2 * Real.pi / M i))) *
          (a ^ 2 * Real.cos (s + r * ((n - s) / N i)) * ((n - s) / N i * (2 * Real.pi / M i))))
      Filter.atTop (nhds (∫ p in band s n, χ (q p.1 p.2) * (a ^ 2 * Real.cos p.1))) := by
  have hpi := Real.pi_pos
  have hc : Continuous fun p : ℝ × ℝ => χ (q p.1 p.2) * (a ^ 2 * Real.cos p.1) := (hχ.comp hq).mul (by fun_prop)
  have key := tendsto_double_sum (F := fun x y => χ (q x y) * (a ^ 2 * Real.cos x)) hc hsn (by positivity : (0 : ℝ) ≤ 2 * Real.pi) hN hM
  refine key.congr fun i => ?_
  have hN' : (N i : ℝ) ≠ 0 := by exact_mod_cast hN0 i
  rw [sum_range_succ]
  have hend : s + (N i : ℝ) * ((n - s) / N i) = n := by rw [mul_div_cancel₀ _ hN']; ring
  rw [hend, hn]
  simp only [mul_zero, zero_mul, sum_const_zero, add_zero, zero_add, sub_zero]
  exact sum_congr rfl fun r _ => sum_congr rfl fun c _ => by ring

/-- Contour values on ever finer grids tend to the value that encloses the limit of the areas. -/
theorem contour_tendsto {a s n T v : ℝ} {q : ℝ → ℝ → ℝ} (hq : Continuous fun p : ℝ × ℝ => q p.1 p.2)
    (h1 : -(Real.pi / 2) ≤ s) (hsn : s ≤ n) (h2 : n ≤ Real.pi / 2) (hn : Real.cos n = 0) {N M : ℕ → ℕ}
    (hN : Filter.Tendsto N Filter.atTop Filter.atTop) (hM : Filter.Tendsto M Filter.atTop Filter.atTop) (hN0 : ∀ i, N i ≠ 0)
    (hv : Encloses a q s n T v) {t : ℕ → ℝ} (ht : Filter.Tendsto t Filter.atTop (nhds T)) {u : ℕ → ℝ}
    (hu : ∀ᶠ i in Filter.atTop, IsContour (N i + 1) (M i) (fun r c => q (s + r * ((n - s) / N i)) (c * (2 * Real.pi / M i)))
      (fun r _ => a ^ 2 * Real.cos (s + r * ((n - s) / N i)) * ((n - s) / N i * (2 * Real.pi / M i))) (t i) (u i)) :
    Filter.Tendsto u Filter.atTop (nhds v) := by
  have hpi := Real.pi_pos
  have hpos : ∀ i, ∀ r ∈ range (N i + 1),
      0 ≤ a ^ 2 * Real.cos (s + r * ((n - s) / N i)) * ((n - s) / N i * (2 * Real.pi / M i)) := by
    intro i r hr
    have hN' : (0 : ℝ) < N i := by exact_mod_cast Nat.pos_of_ne_zero (hN0 i)
    have hrN : (r : ℝ) ≤ N i := by exact_mod_cast Nat.lt_succ_iff.1 (mem_range.1 hr)
    have hd : 0 ≤ (n - s) / N i := div_nonneg (by linarith) hN'.le
    have hle : (r : ℝ) * ((n - s) / N i) ≤ n - s := by
      calc (r : ℝ) * ((n - s) / N i) ≤ N i * ((n - s) / N i) := mul_le_mul_of_nonneg_right hrN hd
        _ = n - s := mul_div_cancel₀ _ hN'.ne'
    have h0 : 0 ≤ (r : ℝ) * ((n - s) / N i) := by positivity
    have hcos : 0 ≤ Real.cos (s + r * ((n - s) / N i)) := Real.cos_nonneg_of_mem_Icc ⟨by linarith, by linarith⟩
    positivity
  rw [tendsto_order]
  constructor
  · intro w hw
    set w1 := (w + v) / 2 with hw1
    have hlt : w < w1 := by rw [hw1]; linarith
    have hA : ∫ p in band s n, ramp w w1 (q p.1 p.2) * (a ^ 2 * Real.cos p.1) < T :=
      lt_of_le_of_lt (ramp_between hq h1 h2 hlt).2 (hv.below w1 (by rw [hw1]; linarith))
    obtain ⟨B, hB1, hB2⟩ := exists_between hA
    have lim := cell_sums_tendsto (a := a) hq (ramp_continuous w w1) hsn hn hN hM hN0
    filter_upwards [hu, lim.eventually (gt_mem_nhds hB1), ht.eventually (lt_mem_nhds hB2)] with i hi hi1 hi2
    by_contra hcon
    push Not at hcon
    have hle : areaUpTo (N i + 1) (M i) (fun r c => q (s + r * ((n - s) / N i)) (c * (2 * Real.pi / M i)))
        (fun r _ => a ^ 2 * Real.cos (s + r * ((n - s) / N i)) * ((n - s) / N i * (2 * Real.pi / M i))) (u i) ≤
        ∑ r ∈ range (N i + 1), ∑ c ∈ range (M i), ramp w w1 (q (s + r * ((n - s) / N i)) (c * (2 * Real.pi / M i))) *
          (a ^ 2 * Real.cos (s + r * ((n - s) / N i)) * ((n - s) / N i * (2 * Real.pi / M i))) := by
      unfold areaUpTo
      refine sum_le_sum fun r hr => sum_le_sum fun c _ => ?_
      have hp := hpos i r hr
      split_ifs with h3
      · rw [ramp_eq_one hlt (h3.trans hcon), one_mul]
      · exact mul_nonneg (ramp_nonneg _ _ _) hp
    have := hi.2
    linarith
  · intro w hw
    set w1 := (w + v) / 2 with hw1
    have hlt : w1 < w := by rw [hw1]; linarith
    have hA : T < ∫ p in band s n, ramp w1 w (q p.1 p.2) * (a ^ 2 * Real.cos p.1) :=
      lt_of_lt_of_le (hv.above w1 (by rw [hw1]; linarith)) (ramp_between hq h1 h2 hlt).1
    obtain ⟨B, hB1, hB2⟩ := exists_between hA
    have lim := cell_sums_tendsto (a := a) hq (ramp_continuous w1 w) hsn hn hN hM hN0
    filter_upwards [hu, lim.eventually (lt_mem_nhds hB2), ht.eventually (gt_mem_nhds hB1)] with i hi hi1 hi2
    by_contra hcon
    push Not at hcon
    have hle : ∑ r ∈ range (N i + 1), ∑ c ∈ range (M i), ramp w1 w (q (s + r * ((n - s) / N i)) (c * (2 * Real.pi / M i))) *
          (a ^ 2 * Real.cos (s + r * ((n - s) / N i)) * ((n - s) / N i * (2 * Real.pi / M i))) ≤
        areaBelow (N i + 1) (M i) (fun r c => q (s + r * ((n - s) / N i)) (c * (2 * Real.pi / M i)))
        (fun r _ => a ^ 2 * Real.cos (s + r * ((n - s) / N i)) * ((n - s) / N i * (2 * Real.pi / M i))) (u i) := by
      unfold areaBelow
      refine sum_le_sum fun r hr => sum_le_sum fun c _ => ?_
      have hp := hpos i r hr
      split_ifs with h3
      · exact mul_le_of_le_one_left hp (ramp_le_one _ _ _)
      · rw [ramp_eq_zero hlt (hcon.trans (not_lt.1 h3)), zero_mul]
    have := hi.1
    linarith

/-! ### `BarotropicField` -/

/-- The values of a field at the points of a regular grid from pole to pole. -/
def Spec.sampled (q : ℝ → ℝ → ℝ) (nlat nlon : ℕ) (r c : ℕ) : ℝ := q (regularLat nlat r * Real.pi / 180) (2 * Real.pi * c / nlon)

theorem regularLat_rad {nlat : ℕ} (r : ℕ) :
    regularLat nlat r * Real.pi / 180 = -(Real.pi / 2) + r * ((Real.pi / 2 - -(Real.pi / 2)) / ((nlat - 1 : ℕ) : ℝ)) := by
  unfold regularLat
  rw [show Real.pi / 2 - -(Real.pi / 2) = Real.pi by ring]
  ring

theorem sampled_eq (q : ℝ → ℝ → ℝ) (nlat nlon : ℕ) : sampled q nlat nlon = fun r c : ℕ =>
    q (-(Real.pi / 2) + r * ((Real.pi / 2 - -(Real.pi / 2)) / ((nlat - 1 : ℕ) : ℝ))) (c * (2 * Real.pi / nlon)) := by
  funext r c
  unfold sampled
  rw [regularLat_rad, show 2 * Real.pi * (c : ℝ) / nlon = c * (2 * Real.pi / nlon) by ring]

/-- Everything about one grid that the limit needs. -/
theorem barotropic_grid {nlat nlon : ℕ} {a : ℝ} (ha : 0 < a) (h1 : 3 ≤ nlat) (h2 : 1 ≤ nlon) (np : Option ℕ) (hnp : 2 ≤ np.getD nlat)
    (q : ℝ → ℝ → ℝ) : ∃ Q : ℕ → ℝ,
      (baroStep (baroInit nlat nlon (regularLat nlat) a false none none np) (baroFresh (sampled q nlat nlon)) .readEqv).2 = .eqv (.ok Q) ∧
      (baroStep (baroInit nlat nlon (regularLat nlat) a false none none np) (baroFresh (sampled q nlat nlon)) .readLwa).2 =
        .lwa (.ok (.total (lwaTotal nlat (sampled q nlat nlon) Q (lengthElement a (regularLat nlat) (poleToPole nlat))))) ∧
      ∀ j < nlat, ∀ v, IsContour nlat nlon (sampled q nlat nlon)
        (fun r _ => a ^ 2 * Real.cos (-(Real.pi / 2) + r * ((Real.pi / 2 - -(Real.pi / 2)) / ((nlat - 1 : ℕ) : ℝ))) *
          ((Real.pi / 2 - -(Real.pi / 2)) / ((nlat - 1 : ℕ) : ℝ) * (2 * Real.pi / nlon))) (southCap a (regularLat nlat j * Real.pi / 180)) v →
        |Q j - v| ≤ (amax nlat nlon (sampled q nlat nlon) - amin nlat nlon (sampled q nlat nlon)) / ((np.getD nlat - 1 : ℕ) : ℝ) := by
  have hn0 : (0 : ℝ) < ((nlat - 1 : ℕ) : ℝ) := by exact_mod_cast (by omega : 0 < nlat - 1)
  obtain ⟨c1, c2, c3⟩ := C12_default_areas_fit nlat nlon a h1 h2 ha false np (by rintro rfl; simp at hnp) (sampled q nlat nlon)
  set C := baroInit nlat nlon (regularLat nlat) a false none none np with hC
  set I := C.eqvInput (sampled q nlat nlon) with hIdef
  have hI : I.Sensible :=
    { nlat_pos := show 0 < nlat by omega
      nlon_pos := show 0 < nlon by omega
      nPoints_pos := show 0 < np.getD nlat by omega
      radius_ne := ha.ne'
      area_nonneg := c1
      area_fits := c2 }
  obtain ⟨Q, hQ⟩ := c3
  obtain ⟨r1, r2⟩ := C25_read_values C (sampled q nlat nlon)
  refine ⟨Q, ?_, ?_, fun j hj v hv => ?_⟩
  · rw [r1, show (C.eqvInput (sampled q nlat nlon)).qref = .ok Q from hQ]
  · rw [r2, show (C.eqvInput (sampled q nlat nlon)).qref = .ok Q from hQ]
    rfl
  · have hy : -90 ≤ regularLat nlat j ∧ regularLat nlat j ≤ 90 := by
      unfold regularLat
      have hle : (j : ℝ) ≤ ((nlat - 1 : ℕ) : ℝ) := by exact_mod_cast (by omega : j ≤ nlat - 1)
      constructor
      · have : 0 ≤ 180 * (j : ℝ) / ((nlat - 1 : ℕ) : ℝ) := by positivity
        linarith
      · have : 180 * (j : ℝ) / ((nlat - 1 : ℕ) : ℝ) ≤ 180 := by rw [div_le_iff₀ hn0]; linarith
        linarith
    have harea : I.area = fun (r _ : ℕ) => a ^ 2 * Real.cos (-(Real.pi / 2) + r * ((Real.pi / 2 - -(Real.pi / 2)) / ((nlat - 1 : ℕ) : ℝ))) *
          ((Real.pi / 2 - -(Real.pi / 2)) / ((nlat - 1 : ℕ) : ℝ) * (2 * Real.pi / nlon)) := by
      funext r c
      show 2 * Real.pi * a ^ 2 * (Real.cos (regularLat nlat r * Real.pi / 180) * (Real.pi / ((nlat - 1 : ℕ) : ℝ))) / nlon = _
      rw [regularLat_rad, show Real.pi / 2 - -(Real.pi / 2) = Real.pi by ring]
      ring
    have hv' : IsContour I.nlat I.nlon I.vort I.area (southOf I.radius (I.ylat j)) v := by
      rw [harea]
      exact hv
    obtain ⟨f, hf, hb⟩ := EqvInput.C115_within_interval hI (show 2 ≤ np.getD nlat from hnp) hy hv'
    rw [hQ] at hf
    cases hf
    exact hb

/-- **C159 (reference state).** Let a continuous field on the sphere be sampled on regular grids that become finer in both directions,
with more and more partitions (by default as many as latitudes). If the latitude of row `j i` tends to `φ`, strictly between the
poles, the value of `equivalent_latitudes` at that row tends to the value whose contour encloses the area south of `φ`. -/
theorem C159_profile {a φ v : ℝ} {q : ℝ → ℝ → ℝ} (ha : 0 < a) (hq : Continuous fun p : ℝ × ℝ => q p.1 p.2) {nlat nlon : ℕ → ℕ}
    {np : ℕ → Option ℕ} (h1 : ∀ i, 3 ≤ nlat i) (h2 : ∀ i, 1 ≤ nlon i) (h3 : ∀ i, 2 ≤ (np i).getD (nlat i))
    (hlat : Filter.Tendsto nlat Filter.atTop Filter.atTop) (hlon : Filter.Tendsto nlon Filter.atTop Filter.atTop)
    (hnp : Filter.Tendsto (fun i => (np i).getD (nlat i)) Filter.atTop Filter.atTop) {j : ℕ → ℕ} (hj : ∀ i, j i < nlat i)
    (hrow : Filter.Tendsto (fun i => regularLat (nlat i) (j i) * Real.pi / 180) Filter.atTop (nhds φ))
    (hφ : φ < Real.pi / 2) (hφ' : -(Real.pi / 2) < φ) (hv : Encloses a q (-(Real.pi / 2)) (Real.pi / 2) (southCap a φ) v)
    {Q : ℕ → ℕ → ℝ} (hQ : ∀ i, (baroStep (baroInit (nlat i) (nlon i) (regularLat (nlat i)) a false none none (np i))
      (baroFresh (sampled q (nlat i) (nlon i))) .readEqv).2 = .eqv (.ok (Q i))) :
    Filter.Tendsto (fun i => Q i (j i)) Filter.atTop (nhds v) := by
  have hpi := Real.pi_pos
  set N : ℕ → ℕ := fun i => nlat i - 1 with hN
  have hN1 : ∀ i, nlat i = N i + 1 := fun i => by have := h1 i; simp only [hN]; omega
  have hN0 : ∀ i, N i ≠ 0 := fun i => by have := h1 i; simp only [hN]; omega
  have hNt : Filter.Tendsto N Filter.atTop Filter.atTop := (Filter.tendsto_sub_atTop_nat 1).comp hlat
  set ar : ℕ → ℕ → ℕ → ℝ := fun i r _ => a ^ 2 * Real.cos (-(Real.pi / 2) + r * ((Real.pi / 2 - -(Real.pi / 2)) / (N i : ℝ))) *
          ((Real.pi / 2 - -(Real.pi / 2)) / (N i : ℝ) * (2 * Real.pi / nlon i)) with har
  set t : ℕ → ℝ := fun i => southCap a (regularLat (nlat i) (j i) * Real.pi / 180) with ht
  have htT : Filter.Tendsto t Filter.atTop (nhds (southCap a φ)) := by
    have hc : Continuous (southCap a) := by unfold southCap; fun_prop
    exact (hc.tendsto φ).comp hrow
  have hs : -(Real.pi / 2) ≤ Real.pi / 2 := by linarith
  have hpos : ∀ i, ∀ r < nlat i, ∀ c < nlon i, 0 ≤ ar i r c := by
    intro i r hr c _
    have hN' : (0 : ℝ) < N i := by exact_mod_cast Nat.pos_of_ne_zero (hN0 i)
    have hrN : (r : ℝ) ≤ N i := by exact_mod_cast (by have := hN1 i; omega : r ≤ N i)
    have hle : (r : ℝ) * ((Real.pi / 2 - -(Real.pi / 2)) / N i) ≤ Real.pi := by
      rw [show Real.pi / 2 - -(Real.pi / 2) = Real.pi by ring, ← mul_div_assoc, div_le_iff₀ hN']
      nlinarith
    have h0 : 0 ≤ (r : ℝ) * ((Real.pi / 2 - -(Real.pi / 2)) / N i) := by
      rw [show Real.pi / 2 - -(Real.pi / 2) = Real.pi by ring]; positivity
    have hcos : 0 ≤ Real.cos (-(Real.pi / 2) + r * ((Real.pi / 2 - -(Real.pi / 2)) / (N i : ℝ))) :=
      Real.cos_nonneg_of_mem_Icc ⟨by linarith, by linarith⟩
    have hd : 0 ≤ (Real.pi / 2 - -(Real.pi / 2)) / (N i : ℝ) := by
      rw [show Real.pi / 2 - -(Real.pi / 2) = Real.pi by ring]; positivity
    simp only [har]
    positivity
  have htot : ∀ᶠ i in Filter.atTop, t i < ∑ r ∈ range (nlat i), ∑ c ∈ range (nlon i), ar i r c := by
    have lim := cell_sums_tendsto (a := a) (χ := fun _ => 1) hq continuous_const hs Real.cos_pi_div_two hNt hlon hN0
    simp only [one_mul] at lim
    rw [band_area hs] at lim
    have hlt : southCap a φ < 2 * Real.pi * a ^ 2 * (Real.sin (Real.pi / 2) - Real.sin (-(Real.pi / 2))) := by
      have hsin : Real.sin φ < 1 := by
        rw [← Real.sin_pi_div_two]
        exact Real.sin_lt_sin_of_lt_of_le_pi_div_two hφ'.le le_rfl hφ
      unfold southCap
      rw [Real.sin_neg, Real.sin_pi_div_two]
      have : 0 < 2 * Real.pi * a ^ 2 := by positivity
      nlinarith
    obtain ⟨B, hB1, hB2⟩ := exists_between hlt
    filter_upwards [lim.eventually (lt_mem_nhds hB2), htT.eventually (gt_mem_nhds hB1)] with i hi1 hi2
    rw [hN1 i]
    exact hi2.trans hi1
  have hex : ∀ i, ∃ u, t i < ∑ r ∈ range (nlat i), ∑ c ∈ range (nlon i), ar i r c →
      IsContour (nlat i) (nlon i) (sampled q (nlat i) (nlon i)) (ar i) (t i) u := by
    intro i
    by_cases h : t i < ∑ r ∈ range (nlat i), ∑ c ∈ range (nlon i), ar i r c
    · have h0 : 0 ≤ t i := by
        have := Real.neg_one_le_sin (regularLat (nlat i) (j i) * Real.pi / 180)
        simp only [ht, southCap]
        have : 0 ≤ 1 + Real.sin (regularLat (nlat i) (j i) * Real.pi / 180) := by linarith
        positivity
      obtain ⟨u, hu, _⟩ := C115_contour_exists_unique (q := sampled q (nlat i) (nlon i)) (hpos i) h0 h
      exact ⟨u, fun _ => hu⟩
    · exact ⟨0, fun h' => absurd h' h⟩
  choose u hu using hex
  have hucont : ∀ᶠ i in Filter.atTop, IsContour (nlat i) (nlon i) (sampled q (nlat i) (nlon i)) (ar i) (t i) (u i) :=
    htot.mono fun i hi => hu i hi
  have hulim : Filter.Tendsto u Filter.atTop (nhds v) := by
    refine contour_tendsto hq le_rfl hs le_rfl Real.cos_pi_div_two hNt hlon hN0 hv htT (hucont.mono fun i hi => ?_)
    rw [sampled_eq] at hi
    rw [hN1 i] at hi
    exact hi
  obtain ⟨B, hB⟩ := (isCompact_band (-(Real.pi / 2)) (Real.pi / 2)).exists_bound_of_continuousOn hq.continuousOn
  have hrange : ∀ i, amax (nlat i) (nlon i) (sampled q (nlat i) (nlon i)) - amin (nlat i) (nlon i) (sampled q (nlat i) (nlon i)) ≤ 2 * B := by
    intro i
    have hne : (cells (nlat i) (nlon i)).Nonempty := ⟨(0, 0), mem_cells.2 ⟨by have := h1 i; omega, by have := h2 i; omega⟩⟩
    have hb : ∀ p ∈ cells (nlat i) (nlon i), |sampled q (nlat i) (nlon i) p.1 p.2| ≤ B := by
      intro p hp
      obtain ⟨hr, hc⟩ := mem_cells.1 hp
      have hN' : (0 : ℝ) < N i := by exact_mod_cast Nat.pos_of_ne_zero (hN0 i)
      have hrN : (p.1 : ℝ) ≤ N i := by exact_mod_cast (by have := hN1 i; omega : p.1 ≤ N i)
      have hl : (0 : ℝ) < nlon i := by exact_mod_cast h2 i
      refine hB (regularLat (nlat i) p.1 * Real.pi / 180, 2 * Real.pi * p.2 / nlon i) ⟨⟨?_, ?_⟩, ?_, ?_⟩
      · rw [regularLat_rad, show Real.pi / 2 - -(Real.pi / 2) = Real.pi by ring]
        have : 0 ≤ (p.1 : ℝ) * (Real.pi / N i) := by positivity
        show -(Real.pi / 2) ≤ -(Real.pi / 2) + (p.1 : ℝ) * (Real.pi / N i)
        linarith
      · rw [regularLat_rad, show Real.pi / 2 - -(Real.pi / 2) = Real.pi by ring]
        have : (p.1 : ℝ) * (Real.pi / N i) ≤ Real.pi := by
          rw [← mul_div_assoc, div_le_iff₀ hN']; nlinarith
        show -(Real.pi / 2) + (p.1 : ℝ) * (Real.pi / N i) ≤ Real.pi / 2
        linarith
      · positivity
      · show 2 * Real.pi * (p.2 : ℝ) / nlon i ≤ 2 * Real.pi
        rw [div_le_iff₀ hl]
        have : (p.2 : ℝ) ≤ nlon i := by exact_mod_cast hc.le
        nlinarith
    obtain ⟨p, hp, e1⟩ := exists_amax (vort := sampled q (nlat i) (nlon i)) hne
    obtain ⟨p', hp', e2⟩ := exists_amin (vort := sampled q (nlat i) (nlon i)) hne
    have b1 := abs_le.1 (hb p hp)
    have b2 := abs_le.1 (hb p' hp')
    rw [e1, e2]
    linarith [b1.2, b2.1]
  have hdiff : Filter.Tendsto (fun i => Q i (j i) - u i) Filter.atTop (nhds 0) := by
    have hz : Filter.Tendsto (fun i => 2 * B / ((((np i).getD (nlat i) - 1 : ℕ) : ℕ) : ℝ)) Filter.atTop (nhds 0) :=
      tendsto_const_nhds.div_atTop (tendsto_natCast_atTop_atTop.comp ((Filter.tendsto_sub_atTop_nat 1).comp hnp))
    refine squeeze_zero_norm' (hucont.mono fun i hi => ?_) hz
    obtain ⟨Q', e1, _, e3⟩ := barotropic_grid ha (h1 i) (h2 i) (np i) (h3 i) q
    rw [hQ i] at e1
    cases e1
    rw [Real.norm_eq_abs]
    exact (e3 (j i) (hj i) (u i) hi).trans (div_le_div_of_nonneg_right (hrange i) (Nat.cast_nonneg _))
  have := hdiff.add hulim
  simpa using this

theorem lengthElement_regular {nlat : ℕ} (h1 : 3 ≤ nlat) (a : ℝ) {r : ℕ} (hr : r < nlat) :
    lengthElement a (regularLat nlat) (poleToPole nlat) r =
      a * Real.cos (-(Real.pi / 2) + r * ((Real.pi / 2 - -(Real.pi / 2)) / ((nlat - 1 : ℕ) : ℝ))) *
        ((Real.pi / 2 - -(Real.pi / 2)) / ((nlat - 1 : ℕ) : ℝ)) := by
  have hpi := Real.pi_pos
  have hn0 : (0 : ℝ) < ((nlat - 1 : ℕ) : ℝ) := by exact_mod_cast (by omega : 0 < nlat - 1)
  have hle : (r : ℝ) ≤ ((nlat - 1 : ℕ) : ℝ) := by exact_mod_cast (by omega : r ≤ nlat - 1)
  have hcos : 0 ≤ Real.cos (regularLat nlat r * Real.pi / 180) := by
    rw [regularLat_rad, show Real.pi / 2 - -(Real.pi / 2) = Real.pi by ring]
    have : (r : ℝ) * (Real.pi / ((nlat - 1 : ℕ) : ℝ)) ≤ Real.pi := by
      rw [← mul_div_assoc, div_le_iff₀ hn0]; nlinarith
    have : 0 ≤ (r : ℝ) * (Real.pi / ((nlat - 1 : ℕ) : ℝ)) := by positivity
    exact Real.cos_nonneg_of_mem_Icc ⟨by linarith, by linarith⟩
  unfold lengthElement poleToPole
  rw [abs_of_nonneg hcos, regularLat_rad, show Real.pi / 2 - -(Real.pi / 2) = Real.pi by ring]

/-- The wave activity of a row does not change when the length elements are written differently. -/
theorem lwaTotal_congr_dmu {nlat : ℕ} {pv : ℕ → ℕ → ℝ} {Q d d' : ℕ → ℝ} (h : ∀ r < nlat, d r = d' r) {j : ℕ} (hj : j + 1 < nlat)
    (c : ℕ) : lwaTotal nlat pv Q d j c = lwaTotal nlat pv Q d' j c := by
  rw [lwaTotal_eq_spec hj, lwaTotal_eq_spec hj, waveActivity_eq_add, waveActivity_eq_add, deficit_eq, surplus_eq, deficit_eq, surplus_eq]
  congr 1 <;> exact sum_congr rfl fun r hr => by rw [h r (mem_range.1 hr)]

/-- **C159 (the whole analysis).** Let a continuous field on the sphere be sampled on regular grids that become finer in both directions,
with more and more partitions. If row `j i` and column `c i` tend to the point `(φ, l)`, strictly between the poles, and the field
has a bounded gradient along the meridian `l`, then there is exactly one value `v` whose contour encloses the area south of `φ`, the
reference value of the row tends to `v`, and the local wave activity of the cell tends to the integral that defines it. -/
theorem C159_analysis {a φ l L : ℝ} {q : ℝ → ℝ → ℝ} (ha : 0 < a) (hq : Continuous fun p : ℝ × ℝ => q p.1 p.2) {nlat nlon : ℕ → ℕ}
    {np : ℕ → Option ℕ} (h1 : ∀ i, 3 ≤ nlat i) (h2 : ∀ i, 1 ≤ nlon i) (h3 : ∀ i, 2 ≤ (np i).getD (nlat i))
    (hlat : Filter.Tendsto nlat Filter.atTop Filter.atTop) (hlon : Filter.Tendsto nlon Filter.atTop Filter.atTop)
    (hnp : Filter.Tendsto (fun i => (np i).getD (nlat i)) Filter.atTop Filter.atTop) {j c : ℕ → ℕ} (hj : ∀ i, j i + 1 < nlat i)
    (hc : ∀ i, c i < nlon i)
    (hrow : Filter.Tendsto (fun i => regularLat (nlat i) (j i) * Real.pi / 180) Filter.atTop (nhds φ))
    (hcol : Filter.Tendsto (fun i => 2 * Real.pi * c i / nlon i) Filter.atTop (nhds l))
    (hφ : φ < Real.pi / 2) (hφ' : -(Real.pi / 2) < φ) (hL : 0 ≤ L)
    (hg : GradientBound (fun x => q x l) L (-(Real.pi / 2)) (Real.pi / 2)) :
    ∃ (v : ℝ) (Q : ℕ → ℕ → ℝ) (A : ℕ → ℕ → ℕ → ℝ),
      (Encloses a q (-(Real.pi / 2)) (Real.pi / 2) (southCap a φ) v ∧
        ∀ w, Encloses a q (-(Real.pi / 2)) (Real.pi / 2) (southCap a φ) w → w = v) ∧
      (∀ i, (baroStep (baroInit (nlat i) (nlon i) (regularLat (nlat i)) a false none none (np i))
        (baroFresh (sampled q (nlat i) (nlon i))) .readEqv).2 = .eqv (.ok (Q i))) ∧
      (∀ i, (baroStep (baroInit (nlat i) (nlon i) (regularLat (nlat i)) a false none none (np i))
        (baroFresh (sampled q (nlat i) (nlon i))) .readLwa).2 = .lwa (.ok (.total (A i)))) ∧
      Filter.Tendsto (fun i => Q i (j i)) Filter.atTop (nhds v) ∧
      Filter.Tendsto (fun i => A i (j i) (c i)) Filter.atTop
        (nhds (meridionalWaveActivity a (fun x => q x l) v (-(Real.pi / 2)) (Real.pi / 2) φ)) := by
  have hpi := Real.pi_pos
  have hs : -(Real.pi / 2) < Real.pi / 2 := by linarith
  have hlt : -1 < Real.sin φ ∧ Real.sin φ < 1 := by
    constructor
    · rw [← Real.sin_pi_div_two, ← Real.sin_neg]
      exact Real.sin_lt_sin_of_lt_of_le_pi_div_two le_rfl hφ.le hφ'
    · rw [← Real.sin_pi_div_two]
      exact Real.sin_lt_sin_of_lt_of_le_pi_div_two hφ'.le le_rfl hφ
  have hA0 : 0 < 2 * Real.pi * a ^ 2 := by positivity
  obtain ⟨v, hv, huniq⟩ := C159_reference_exists (T := southCap a φ) ha hq le_rfl hs le_rfl
    (by unfold southCap; exact mul_pos hA0 (by linarith))
    (by unfold southCap; rw [Real.sin_neg, Real.sin_pi_div_two]; exact mul_lt_mul_of_pos_left (by linarith) hA0)
  choose Q hQ hA _ using fun i => barotropic_grid ha (h1 i) (h2 i) (np i) (h3 i) q
  have hQlim := C159_profile ha hq h1 h2 h3 hlat hlon hnp (fun i => (Nat.lt_succ_self _).trans (hj i)) hrow hφ hφ' hv hQ
  refine ⟨v, Q, _, ⟨hv, huniq⟩, hQ, hA, hQlim, ?_⟩
  set N : ℕ → ℕ := fun i => nlat i - 1 with hN
  have hN1 : ∀ i, nlat i = N i + 1 := fun i => by have := h1 i; simp only [hN]; omega
  have hNt : Filter.Tendsto N Filter.atTop Filter.atTop := (Filter.tendsto_sub_atTop_nat 1).comp hlat
  set d : ℕ → ℕ → ℝ := fun i r => a * Real.cos (-(Real.pi / 2) + r * ((Real.pi / 2 - -(Real.pi / 2)) / (N i : ℝ))) *
        ((Real.pi / 2 - -(Real.pi / 2)) / (N i : ℝ)) with hd
  have hdl : ∀ i, ∀ r < nlat i, lengthElement a (regularLat (nlat i)) (poleToPole (nlat i)) r = d i r := fun i r hr =>
    lengthElement_regular (h1 i) a hr
  have hd0 : ∀ i, ∀ r < nlat i, 0 ≤ d i r := by
    intro i r hr
    rw [← hdl i r hr]
    unfold lengthElement poleToPole
    positivity
  obtain ⟨f, hf, hflim⟩ := C119_limit q (fun _ => l) Q (c := 0) N j none ha.le hs.le hL hg
    (fun i => by have := hj i; have := hN1 i; omega) hNt
    (hrow.congr fun i => by rw [regularLat_rad]) hQlim
  have hlmem : l ∈ Set.Icc 0 (2 * Real.pi) := by
    refine isClosed_Icc.mem_of_tendsto hcol (Filter.Eventually.of_forall fun i => ⟨by positivity, ?_⟩)
    have h0 : (0 : ℝ) < nlon i := by exact_mod_cast h2 i
    have : (c i : ℝ) ≤ nlon i := by exact_mod_cast (hc i).le
    rw [div_le_iff₀ h0]
    nlinarith
  have hdiff : Filter.Tendsto (fun i => lwaTotal (nlat i) (sampled q (nlat i) (nlon i)) (Q i)
      (lengthElement a (regularLat (nlat i)) (poleToPole (nlat i))) (j i) (c i) - f i (j i) 0) Filter.atTop (nhds 0) := by
    rw [Metric.tendsto_atTop]
    intro ε hε
    have hK : IsCompact (band (-(Real.pi / 2)) (Real.pi / 2)) := isCompact_band _ _
    have huc := hK.uniformContinuousOn_of_continuous (f := fun p : ℝ × ℝ => q p.1 p.2) hq.continuousOn
    rw [Metric.uniformContinuousOn_iff] at huc
    set W := a * (2 * Real.pi) with hW
    have hW0 : 0 < W := by positivity
    obtain ⟨δ, hδ, hu⟩ := huc (ε / (2 * W)) (by positivity)
    obtain ⟨I, hI⟩ := (Metric.tendsto_atTop.1 hcol) δ hδ
    refine ⟨I, fun i hi => ?_⟩
    have hnear := hI i hi
    have hn0 : (0 : ℝ) < N i := by
      have := h1 i
      have := hN1 i
      exact_mod_cast (by omega : 0 < N i)
    have hl0 : (0 : ℝ) < nlon i := by exact_mod_cast h2 i
    have hcle : (c i : ℝ) ≤ nlon i := by exact_mod_cast (hc i).le
    have hclose : ∀ r < nlat i, |sampled q (nlat i) (nlon i) r (c i) -
        q (-(Real.pi / 2) + r * ((Real.pi / 2 - -(Real.pi / 2)) / (N i : ℝ))) l| ≤ ε / (2 * W) := by
      intro r hr
      have hrN : (r : ℝ) ≤ N i := by exact_mod_cast (by have := hN1 i; omega : r ≤ N i)
      have hx : -(Real.pi / 2) + r * ((Real.pi / 2 - -(Real.pi / 2)) / (N i : ℝ)) ∈ Set.Icc (-(Real.pi / 2)) (Real.pi / 2) := by
        rw [show Real.pi / 2 - -(Real.pi / 2) = Real.pi by ring]
        have h5 : (r : ℝ) * (Real.pi / N i) ≤ Real.pi := by
          rw [← mul_div_assoc, div_le_iff₀ hn0]; nlinarith
        have h6 : 0 ≤ (r : ℝ) * (Real.pi / N i) := by positivity
        exact ⟨by linarith, by linarith⟩
      have := hu (-(Real.pi / 2) + r * ((Real.pi / 2 - -(Real.pi / 2)) / (N i : ℝ)), 2 * Real.pi * c i / nlon i)
        ⟨hx, by positivity, by
          show 2 * Real.pi * (c i : ℝ) / nlon i ≤ 2 * Real.pi
          rw [div_le_iff₀ hl0]; nlinarith⟩
        (-(Real.pi / 2) + r * ((Real.pi / 2 - -(Real.pi / 2)) / (N i : ℝ)), l) ⟨hx, hlmem⟩ (by
          rw [Prod.dist_eq, dist_self]
          exact max_lt hδ hnear)
      rw [Real.dist_eq] at this
      unfold sampled
      rw [regularLat_rad]
      exact this.le
    obtain ⟨_, _, f1, _, _, f2, _, e1, _, e2, _, _, hb⟩ := C114_lipschitz (nlat i) (sampled q (nlat i) (nlon i))
      (fun r _ => q (-(Real.pi / 2) + r * ((Real.pi / 2 - -(Real.pi / 2)) / (N i : ℝ))) l) (Q i) (Q i) (d i) none (hd0 i) (j i) (c i)
    cases e1
    cases e2
    have hfi : f i (j i) 0 = lwaTotal (nlat i)
        (fun r _ => q (-(Real.pi / 2) + r * ((Real.pi / 2 - -(Real.pi / 2)) / (N i : ℝ))) l) (Q i) (d i) (j i) (c i) := by
      have := hf i
      injection this with this
      rw [← this, hN1 i]
      rfl
    rw [lwaTotal_congr_dmu (hdl i) (hj i), hfi, Real.dist_eq, sub_zero]
    refine lt_of_le_of_lt hb ?_
    have hsum : ∑ r ∈ range (nlat i), (|sampled q (nlat i) (nlon i) r (c i) -
        q (-(Real.pi / 2) + r * ((Real.pi / 2 - -(Real.pi / 2)) / (N i : ℝ))) l| + |Q i (j i) - Q i (j i)|) * d i r ≤
        ∑ r ∈ range (nlat i), ε / (2 * W) * (a * (Real.pi / N i)) := by
      refine sum_le_sum fun r hr => ?_
      rw [sub_self, abs_zero, add_zero]
      refine mul_le_mul (hclose r (mem_range.1 hr)) ?_ (hd0 i r (mem_range.1 hr)) (by positivity)
      simp only [hd]
      rw [show Real.pi / 2 - -(Real.pi / 2) = Real.pi by ring]
      have h5 : 0 ≤ a * (Real.pi / N i) := by positivity
      have h6 := Real.cos_le_one (-(Real.pi / 2) + r * (Real.pi / (N i : ℝ)))
      nlinarith
    refine lt_of_le_of_lt hsum ?_
    rw [sum_const, card_range, nsmul_eq_mul, hN1 i]
    push_cast
    have hN2 : (1 : ℝ) < N i := by
      have := h1 i
      have := hN1 i
      exact_mod_cast (by omega : 1 < N i)
    have h7 : ((N i : ℝ) + 1) * (a * (Real.pi / N i)) < W := by
      rw [hW, show ((N i : ℝ) + 1) * (a * (Real.pi / N i)) = a * Real.pi * ((N i + 1) / N i) by ring]
      have : ((N i : ℝ) + 1) / N i < 2 := by rw [div_lt_iff₀ hn0]; linarith
      have h8 : 0 < a * Real.pi := by positivity
      nlinarith
    calc ((N i : ℝ) + 1) * (ε / (2 * W) * (a * (Real.pi / N i))) = ε / (2 * W) * (((N i : ℝ) + 1) * (a * (Real.pi / N i))) := by ring
      _ < ε / (2 * W) * W := mul_lt_mul_of_pos_left h7 (by positivity)
      _ = ε / 2 := by field_simp
      _ < ε := by linarith
  have := hdiff.add hflim
  simpa using this

/-- Hypotheses of `C159_analysis`: a wave on solid-body rotation, on grids of `2 i + 3` latitudes and `i + 1` longitudes, default
partitions, at the equator and longitude 0. -/
example : (Continuous fun p : ℝ × ℝ => Real.sin p.1 + Real.cos p.1 * Real.sin (3 * p.2)) ∧
    Filter.Tendsto (fun i : ℕ => 2 * i + 3) Filter.atTop Filter.atTop ∧
    Filter.Tendsto (fun i : ℕ => (none : Option ℕ).getD (2 * i + 3)) Filter.atTop Filter.atTop ∧
    (∀ i : ℕ, i + 1 + 1 < 2 * i + 3) ∧
    Filter.Tendsto (fun i : ℕ => regularLat (2 * i + 3) (i + 1) * Real.pi / 180) Filter.atTop (nhds 0) ∧
    Filter.Tendsto (fun i : ℕ => 2 * Real.pi * (0 : ℕ) / ((i + 1 : ℕ) : ℝ)) Filter.atTop (nhds 0) ∧
    GradientBound (fun x => Real.sin x + Real.cos x * Real.sin (3 * 0)) 1 (-(Real.pi / 2)) (Real.pi / 2) := by
  have ht : Filter.Tendsto (fun i : ℕ => 2 * i + 3) Filter.atTop Filter.atTop :=
    Filter.tendsto_atTop_mono (fun i => (by omega : i ≤ 2 * i + 3)) Filter.tendsto_id
  refine ⟨by fun_prop, ht, ht, fun i => by omega, ?_, by simp, fun x _ y _ => ?_⟩
  · refine tendsto_const_nhds.congr fun i => ?_
    unfold regularLat
    rw [show 2 * i + 3 - 1 = 2 * (i + 1) by omega]
    push_cast
    have : ((i : ℝ) + 1) ≠ 0 := by positivity
    field_simp
    ring
  · simpa using Real.abs_sin_sub_sin_le x y

/-- `C159_reference_exists` applies to the same wave and the southern half of the unit sphere. -/
example : ∃! v, Encloses 1 (fun x y => Real.sin x + Real.cos x * Real.sin (3 * y)) (-(Real.pi / 2)) (Real.pi / 2) (southCap 1 0) v := by
  have hpi := Real.pi_pos
  refine C159_reference_exists one_pos (by fun_prop) le_rfl (by linarith) le_rfl ?_ ?_
  · unfold southCap
    rw [Real.sin_zero]
    positivity
  · unfold southCap
    rw [Real.sin_neg, Real.sin_pi_div_two, Real.sin_zero]
    nlinarith

end Falwa
