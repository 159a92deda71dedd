import Verif.Lemmas.Minimal
import Verif.Props.Stability
import Verif.Props.Defaults
import Verif.Lemmas.Riemann
import Mathlib.Analysis.SpecialFunctions.Integrals.Basic

/-!
# C127: the reference state has the least wave activity

The wave activity of a row, summed over all longitudes, is a convex function of the contour value. It is smallest exactly for the
values whose contour encloses the area of the rows on the southern side. The value that the code finds is nearly optimal.
-/

namespace Falwa

open Finset

/-! ### `basis.lwa` -/

section Basis

variable {K : Type*} [Field K] [LinearOrder K] [IsStrictOrderedRing K]

/-- The wave activity of a row, summed over the longitudes. -/
theorem sum_lwaTotal {nlat nlon : ℕ} {q : ℕ → ℕ → K} {Q dmu : ℕ → K} {j : ℕ} (hj : j + 1 < nlat) :
    ∑ c ∈ range nlon, lwaTotal nlat q Q dmu j c =
      crossing (range nlat ×ˢ range nlon) (fun p => dmu p.1) (fun p => q p.1 p.2) (fun p => p.1 ≤ j) (Q j) := by
  unfold crossing
  rw [sum_product_right]
  refine sum_congr rfl fun c _ => ?_
  rw [lwaTotal_eq_spec hj, waveActivity_eq_add, deficit_eq, surplus_eq, ← sum_add_distrib]
  refine sum_congr rfl fun r _ => ?_
  dsimp only
  rcases lt_or_ge j r with h | h
  · rw [if_pos h, if_neg (not_le.2 h), if_neg (not_le.2 h), zero_mul, add_zero]
  · rw [if_neg (not_lt.2 h), if_pos h, if_pos h, zero_mul, zero_add]

/-- C127, characterisation: no other profile gives less wave activity in row `j`, summed over the longitudes, exactly if the cells
with a lower value weigh at most as much as the rows up to `j`, and those at most as much as the cells with values up to `Q j`. -/
theorem C127_minimal_iff (nlat nlon : ℕ) (q : ℕ → ℕ → K) (Q dmu : ℕ → K) (nc : Option (ℕ → ℕ → K))
    (hd : ∀ r < nlat, 0 ≤ dmu r) (j : ℕ) (hj : j + 1 < nlat) :
    (∀ Q' : ℕ → K, ∃ f f', (lwa nlat q Q dmu false nc).1 = .total f ∧ (lwa nlat q Q' dmu false nc).1 = .total f' ∧
      ∑ c ∈ range nlon, f j c ≤ ∑ c ∈ range nlon, f' j c) ↔
    ∑ r ∈ range nlat, ∑ c ∈ range nlon, (if q r c < Q j then dmu r else 0) ≤ nlon * ∑ r ∈ range (j + 1), dmu r ∧
    nlon * ∑ r ∈ range (j + 1), dmu r ≤ ∑ r ∈ range nlat, ∑ c ∈ range nlon, if q r c ≤ Q j then dmu r else 0 := by
  have hw : ∀ p ∈ range nlat ×ˢ range nlon, 0 ≤ (fun p : ℕ × ℕ => dmu p.1) p := fun p hp =>
    hd p.1 (mem_range.1 (mem_product.1 hp).1)
  have hB : ∑ p ∈ range nlat ×ˢ range nlon, (if p.1 ≤ j then dmu p.1 else 0) = nlon * ∑ r ∈ range (j + 1), dmu r := by
    rw [sum_product]
    simp only [sum_const, card_range, nsmul_eq_mul]
    rw [← mul_sum, ← sum_filter]
    congr 2
    ext r
    simp only [mem_filter, mem_range]
    omega
  have key := crossing_min_iff (s := range nlat ×ˢ range nlon) (w := fun p => dmu p.1) (q := fun p => q p.1 p.2)
    (B := fun p => p.1 ≤ j) (v := Q j) hw
  rw [hB, sum_product, sum_product] at key
  rw [← key]
  constructor
  · intro h c
    obtain ⟨f, f', e, e', h'⟩ := h fun _ => c
    cases e
    cases e'
    change ∑ c ∈ range nlon, lwaTotal nlat q Q dmu j c ≤ ∑ c' ∈ range nlon, lwaTotal nlat q (fun _ => c) dmu j c' at h'
    rwa [sum_lwaTotal hj, sum_lwaTotal hj] at h'
  · intro h Q'
    refine ⟨_, _, rfl, rfl, ?_⟩
    change ∑ c ∈ range nlon, lwaTotal nlat q Q dmu j c ≤ ∑ c ∈ range nlon, lwaTotal nlat q Q' dmu j c
    rw [sum_lwaTotal hj, sum_lwaTotal hj]
    exact h (Q' j)

/-- Two rows of two cells; the contour 2 is optimal for the first row, and has wave activity. -/
example : ((∀ r < 2, (0 : ℚ) ≤ (fun _ : ℕ => (1 : ℚ)) r) ∧ 0 + 1 < 2) ∧
    lwaTotal 2 (fun r c => if r = c then (3 : ℚ) else 1) (fun _ => 2) (fun _ => 1) 0 0 = 2 := by
  refine ⟨⟨fun r _ => by norm_num, by norm_num⟩, ?_⟩
  norm_num [lwaTotal, lwaAnticyclonic, lwaCyclonic, vortE, anticyclonicMask, cyclonicMask, sum_range_succ]

end Basis

/-! ### The profile that the code finds -/

noncomputable section

namespace EqvInput

open Spec

variable {I : EqvInput}

/-- C127 for the computed profile: if the cell areas are a multiple `m` of the weights `dmu`, no profile gives less wave activity in
row `j`, summed over the longitudes, than the computed one minus the range of the field times two mismatches of area: between the
rows up to `j` and the exact area south of the latitude, and one part in `nPoints - 1` of the total. -/
theorem C127_computed_profile (hI : I.Sensible) (hn : 2 ≤ I.nPoints) {m : ℝ} {dmu : ℕ → ℝ}
    (ha : ∀ r < I.nlat, ∀ c < I.nlon, I.area r c = m * dmu r) {j : ℕ} (hj : j + 1 < I.nlat)
    (hy : -90 ≤ I.ylat j ∧ I.ylat j ≤ 90) (nc : Option (ℕ → ℕ → ℝ)) :
    ∃ Q f, I.qref = .ok Q ∧ (lwa I.nlat I.vort Q dmu false nc).1 = .total f ∧ ∀ Q' f', (lwa I.nlat I.vort Q' dmu false nc).1 = .total f' →
      m * ∑ c ∈ range I.nlon, f j c ≤ m * ∑ c ∈ range I.nlon, f' j c +
        (|southOf I.radius (I.ylat j) - m * (I.nlon * ∑ r ∈ range (j + 1), dmu r)| +
          (∑ r ∈ range I.nlat, ∑ c ∈ range I.nlon, I.area r c) / ((I.nPoints - 1 : ℕ) : ℝ)) *
        (amax I.nlat I.nlon I.vort - amin I.nlat I.nlon I.vort) := by
  set s := range I.nlat ×ˢ range I.nlon with hs
  set w : ℕ × ℕ → ℝ := fun p => I.area p.1 p.2 with hwdef
  set q : ℕ × ℕ → ℝ := fun p => I.vort p.1 p.2 with hqdef
  have hw : ∀ p ∈ s, 0 ≤ w p := fun p hp =>
    hI.nonneg p.1 (mem_range.1 (mem_product.1 hp).1) p.2 (mem_range.1 (mem_product.1 hp).2)
  have hF : ∀ Q' : ℕ → ℝ, m * ∑ c ∈ range I.nlon, lwaTotal I.nlat I.vort Q' dmu j c = crossing s w q (fun p => p.1 ≤ j) (Q' j) := by
    intro Q'
    rw [sum_lwaTotal hj]
    unfold crossing
    rw [mul_sum]
    refine sum_congr rfl fun p hp => ?_
    have := ha p.1 (mem_range.1 (mem_product.1 hp).1) p.2 (mem_range.1 (mem_product.1 hp).2)
    simp only [hwdef, this]
    ring
  have hB : ∑ p ∈ s, (if p.1 ≤ j then w p else 0) = m * (I.nlon * ∑ r ∈ range (j + 1), dmu r) := by
    rw [hs, sum_product]
    have e : ∀ r ∈ range I.nlat, ∑ c ∈ range I.nlon, (if r ≤ j then I.area r c else 0) =
        I.nlon * (m * if r ≤ j then dmu r else 0) := by
      intro r hr
      rw [← nsmul_eq_mul, ← card_range I.nlon, ← sum_const]
      simp only [card_range]
      refine sum_congr rfl fun c hc => ?_
      rw [ha r (mem_range.1 hr) c (mem_range.1 hc)]
      split_ifs <;> simp
    rw [sum_congr rfl e, ← mul_sum, ← mul_sum, ← sum_filter, mul_left_comm]
    congr 3
    ext r
    simp only [mem_filter, mem_range]
    omega
  have hW : ∑ p ∈ s, w p = ∑ r ∈ range I.nlat, ∑ c ∈ range I.nlon, I.area r c := by rw [hs, sum_product]
  have hbelow : ∀ v, ∑ p ∈ s, (if q p < v then w p else 0) = areaBelow I.nlat I.nlon I.vort I.area v := fun v => by
    rw [hs, sum_product]; rfl
  have hupto : ∀ v, ∑ p ∈ s, (if q p ≤ v then w p else 0) = areaUpTo I.nlat I.nlon I.vort I.area v := fun v => by
    rw [hs, sum_product]; rfl
  set S := m * (I.nlon * ∑ r ∈ range (j + 1), dmu r) with hS
  set T := southOf I.radius (I.ylat j) with hT
  set W := ∑ r ∈ range I.nlat, ∑ c ∈ range I.nlon, I.area r c with hWdef
  set lo := amin I.nlat I.nlon I.vort with hlo
  set hi := amax I.nlat I.nlon I.vort with hhi
  have hlh : lo ≤ hi := amin_le_amax
  have hrange : ∀ p ∈ s, lo ≤ q p ∧ q p ≤ hi := fun p hp => ⟨amin_le hp, le_amax hp⟩
  have hSW : S ≤ W := by
    rw [← hB, ← hW]
    refine sum_le_sum fun p hp => ?_
    split_ifs
    · exact le_rfl
    · exact hw p hp
  have hW0 : 0 ≤ W := by rw [← hW]; exact sum_nonneg hw
  have ha1 := le_abs_self (T - S)
  have ha2 := neg_abs_le (T - S)
  -- there is a value `v` in the range, close to the computed one, whose areas match up to the first mismatch
  have main : ∃ Q v, I.qref = .ok Q ∧ lo ≤ v ∧ v ≤ hi ∧ |Q j - v| ≤ (hi - lo) / ((I.nPoints - 1 : ℕ) : ℝ) ∧
      ∑ p ∈ s, (if q p < v then w p else 0) ≤ S + |T - S| ∧ S - |T - S| ≤ ∑ p ∈ s, (if q p ≤ v then w p else 0) := by
    rcases lt_or_ge T W with h | h
    · obtain ⟨v, hv, -⟩ := C115_contour_exists_unique (q := I.vort) hI.nonneg (southOf_nonneg I.radius (I.ylat j)) h
      obtain ⟨Q, hQ, hb⟩ := C115_within_interval hI hn hy hv
      obtain ⟨r, hr, c, hc, e⟩ := hv.attained
      have hp := hrange (r, c) (mem_product.2 ⟨mem_range.2 hr, mem_range.2 hc⟩)
      simp only [hqdef, e] at hp
      refine ⟨Q, v, hQ, hp.1, hp.2, hb, ?_, ?_⟩
      · rw [hbelow]; linarith [hv.1]
      · rw [hupto]; linarith [hv.2]
    · obtain ⟨Q, hQ, e⟩ := C115_beyond_total hI hn hy h
      refine ⟨Q, hi, hQ, hlh, le_rfl, ?_, ?_, ?_⟩
      · rw [e, sub_self, abs_zero]
        exact div_nonneg (sub_nonneg.2 hlh) (Nat.cast_nonneg _)
      · have : ∑ p ∈ s, (if q p < hi then w p else 0) ≤ W := by
          rw [← hW]
          refine sum_le_sum fun p hp => ?_
          split_ifs
          · exact le_rfl
          · exact hw p hp
        linarith
      · have : ∑ p ∈ s, (if q p ≤ hi then w p else 0) = W := by
          rw [← hW]
          exact sum_congr rfl fun p hp => if_pos (hrange p hp).2
        rw [this]
        linarith [abs_nonneg (T - S)]
  obtain ⟨Q, v, hQ, hv1, hv2, hv3, hv4, hv5⟩ := main
  refine ⟨Q, _, hQ, rfl, fun Q' f' hf' => ?_⟩
  cases hf'
  change m * ∑ c ∈ range I.nlon, lwaTotal I.nlat I.vort Q dmu j c ≤
    m * ∑ c ∈ range I.nlon, lwaTotal I.nlat I.vort Q' dmu j c + _
  rw [hF, hF]
  obtain ⟨d, hd1, hd2, hd3⟩ := crossing_clip (B := fun p : ℕ × ℕ => p.1 ≤ j) hw hrange hlh (Q' j)
  have h1 := crossing_lipschitz (q := q) (B := fun p : ℕ × ℕ => p.1 ≤ j) hw (Q j) v
  have h2 := crossing_near (q := q) (B := fun p : ℕ × ℕ => p.1 ≤ j) (v := v) (e := |T - S|) hw (by rw [hB]; exact hv4)
    (by rw [hB]; exact hv5) d
  have h3 : |d - v| ≤ hi - lo := by rw [abs_le]; constructor <;> linarith
  have h4 := mul_le_mul_of_nonneg_left h3 (abs_nonneg (T - S))
  rw [hW] at h1
  have h5 := mul_le_mul_of_nonneg_right hv3 hW0
  have e : (hi - lo) / ((I.nPoints - 1 : ℕ) : ℝ) * W = W / ((I.nPoints - 1 : ℕ) : ℝ) * (hi - lo) := by ring
  rw [e] at h5
  rw [add_mul]
  linarith

/-- The sample has cell areas proportional to weights, and a row inside. -/
example : sampleInput.Sensible ∧ 2 ≤ sampleInput.nPoints ∧
    (∀ r < sampleInput.nlat, ∀ c < sampleInput.nlon, sampleInput.area r c = 2 * (fun _ => 1 / 2) r) ∧ 1 + 1 < sampleInput.nlat ∧
    (-90 ≤ sampleInput.ylat 1 ∧ sampleInput.ylat 1 ≤ 90) :=
  ⟨sampleInput_sensible, by norm_num [sampleInput], fun _ _ _ _ => by norm_num [sampleInput], by norm_num [sampleInput],
    by norm_num [sampleInput]⟩

end EqvInput

/-! ### `BarotropicField` -/

/-- The rows up to `j` of a regular grid have the area south of row `j` up to the grid spacing. -/
theorem regular_area_error {n j : ℕ} (hn : 0 < n) (hj : j ≤ n) :
    |∑ r ∈ range (j + 1), Real.cos (-(Real.pi / 2) + r * (Real.pi / n)) * (Real.pi / n) -
      (1 + Real.sin (-(Real.pi / 2) + j * (Real.pi / n)))| ≤ Real.pi * (Real.pi / n) := by
  have hpi := Real.pi_pos
  have hn0 : (0 : ℝ) < n := by exact_mod_cast hn
  set h : ℝ := Real.pi / n with hh
  have hpos : 0 < h := by positivity
  have hjh : j * h ≤ Real.pi := by
    have : (j : ℝ) ≤ n := by exact_mod_cast hj
    have e : (n : ℝ) * h = Real.pi := by rw [hh]; field_simp
    nlinarith
  have hb : Spec.GradientBound Real.cos 1 (-(Real.pi / 2)) (-(Real.pi / 2) + j * h) := fun x _ y _ => by
    rw [one_mul]; exact Real.abs_cos_sub_cos_le x y
  have key := riemann_error (n := j) hpos.le zero_le_one hb (fun r => -(Real.pi / 2) + (r + 1) * h) (fun r _ =>
    ⟨by nlinarith, le_rfl⟩)
  rw [integral_cos, Real.sin_neg, Real.sin_pi_div_two] at key
  rw [sum_range_succ']
  have e0 : Real.cos (-(Real.pi / 2) + ((0 : ℕ) : ℝ) * h) * h = 0 := by
    rw [Nat.cast_zero, zero_mul, add_zero, Real.cos_neg, Real.cos_pi_div_two, zero_mul]
  rw [e0, add_zero]
  have e1 : ∑ r ∈ range j, Real.cos (-(Real.pi / 2) + ((r + 1 : ℕ) : ℝ) * h) * h =
      ∑ r ∈ range j, Real.cos (-(Real.pi / 2) + (r + 1) * h) * h := sum_congr rfl fun r _ => by push_cast; rfl
  rw [e1, show (1 : ℝ) + Real.sin (-(Real.pi / 2) + j * h) = Real.sin (-(Real.pi / 2) + j * h) - -1 by ring]
  refine key.trans ?_
  nlinarith

/-- C127 for `BarotropicField` with default areas on a regular grid: the zonal-mean wave activity of each row is the smallest that
any reference profile gives, up to the planet radius times the range of the field times `π²/(nlat-1) + 2/(n_partitions-1)`. -/
theorem C127_barotropic (nlat nlon : ℕ) (radius : ℝ) (h1 : 3 ≤ nlat) (h2 : 1 ≤ nlon) (hr : 0 < radius) (np : Option ℕ)
    (hnp : 2 ≤ np.getD nlat) (pv : ℕ → ℕ → ℝ) :
    ∃ q l, (baroStep (baroInit nlat nlon (regularLat nlat) radius false none none np) (baroFresh pv) .readEqv).2 = .eqv (.ok q) ∧
      (baroStep (baroInit nlat nlon (regularLat nlat) radius false none none np) (baroFresh pv) .readLwa).2 = .lwa (.ok (.total l)) ∧
      ∀ j, j + 1 < nlat → ∀ Q' : ℕ → ℝ,
        (∑ c ∈ range nlon, l j c) / nlon ≤ (∑ c ∈ range nlon, Spec.waveActivity nlat pv Q'
          (Spec.lengthElement radius (regularLat nlat) (Spec.poleToPole nlat)) j c) / nlon +
          radius * (Real.pi ^ 2 / ((nlat - 1 : ℕ) : ℝ) + 2 / ((np.getD nlat - 1 : ℕ) : ℝ)) * (amax nlat nlon pv - amin nlat nlon pv) := by
  have hpi := Real.pi_pos
  have hn0 : (0 : ℝ) < ((nlat - 1 : ℕ) : ℝ) := by exact_mod_cast (by omega : 0 < nlat - 1)
  have hl0 : (0 : ℝ) < nlon := by exact_mod_cast (by omega : 0 < nlon)
  obtain ⟨c1, c2, c3⟩ := C12_default_areas_fit nlat nlon radius h1 h2 hr false np (by rintro rfl; simp at hnp) pv
  set C := baroInit nlat nlon (regularLat nlat) radius false none none np with hC
  set I := C.eqvInput pv with hIdef
  have hI : I.Sensible :=
    { nlat_pos := show 0 < nlat by omega
      nlon_pos := show 0 < nlon by omega
      nPoints_pos := show 0 < np.getD nlat by omega
      radius_ne := hr.ne'
      area_nonneg := c1
      area_fits := c2 }
  obtain ⟨q, hq⟩ := c3
  set dmu := Spec.lengthElement radius (regularLat nlat) (Spec.poleToPole nlat) with hdmu
  have elat : ∀ r : ℕ, regularLat nlat r * Real.pi / 180 = -(Real.pi / 2) + r * (Real.pi / ((nlat - 1 : ℕ) : ℝ)) := fun r => by
    unfold regularLat
    field_simp
    ring
  have hcos : ∀ r < nlat, 0 ≤ Real.cos (regularLat nlat r * Real.pi / 180) := fun r hrn => by
    rw [elat]
    have hle : (r : ℝ) ≤ ((nlat - 1 : ℕ) : ℝ) := by exact_mod_cast (by omega : r ≤ nlat - 1)
    have : (r : ℝ) * (Real.pi / ((nlat - 1 : ℕ) : ℝ)) ≤ Real.pi := by
      rw [← mul_div_assoc, div_le_iff₀ hn0]; nlinarith
    have : 0 ≤ (r : ℝ) * (Real.pi / ((nlat - 1 : ℕ) : ℝ)) := by positivity
    exact Real.cos_nonneg_of_mem_Icc ⟨by linarith, by linarith⟩
  have hd : ∀ r < nlat, dmu r = radius * Real.cos (regularLat nlat r * Real.pi / 180) * (Real.pi / ((nlat - 1 : ℕ) : ℝ)) :=
    fun r hrn => by rw [hdmu]; unfold Spec.lengthElement Spec.poleToPole; rw [abs_of_nonneg (hcos r hrn)]
  have harea : ∀ r < nlat, ∀ c < nlon, I.area r c = (2 * Real.pi * radius / nlon) * dmu r := fun r hrn c _ => by
    rw [hd r hrn]
    show 2 * Real.pi * radius ^ 2 * (Real.cos (regularLat nlat r * Real.pi / 180) *
      (Real.pi / ((nlat - 1 : ℕ) : ℝ))) / nlon = _
    ring
  obtain ⟨r1, r2⟩ := C25_read_values C pv
  have hlwa : (baroStep C (baroFresh pv) .readLwa).2 = .lwa (.ok (.total (lwaTotal nlat pv q dmu))) := by
    rw [r2, show (C.eqvInput pv).qref = .ok q from hq]
    rfl
  refine ⟨q, _, ?_, hlwa, fun j hj Q' => ?_⟩
  · rw [r1, show (C.eqvInput pv).qref = .ok q from hq]
  have hy : -90 ≤ regularLat nlat j ∧ regularLat nlat j ≤ 90 := by
    unfold regularLat
    have hle : (j : ℝ) ≤ ((nlat - 1 : ℕ) : ℝ) := by exact_mod_cast (by omega : j ≤ nlat - 1)
    constructor
    · have : 0 ≤ 180 * (j : ℝ) / ((nlat - 1 : ℕ) : ℝ) := by positivity
      linarith
    · have : 180 * (j : ℝ) / ((nlat - 1 : ℕ) : ℝ) ≤ 180 := by rw [div_le_iff₀ hn0]; linarith
      linarith
  obtain ⟨Q, f, e1, e2, e3⟩ := EqvInput.C127_computed_profile (I := I) hI (show 2 ≤ np.getD nlat from hnp) (dmu := dmu) harea
    (show j + 1 < nlat from hj) hy none
  have eQ : Q = q := by rw [hq] at e1; injection e1 with e1; exact e1.symm
  subst eQ
  cases e2
  have key := e3 Q' _ rfl
  change 2 * Real.pi * radius / nlon * ∑ c ∈ range nlon, lwaTotal nlat pv Q dmu j c ≤
    2 * Real.pi * radius / nlon * ∑ c ∈ range nlon, lwaTotal nlat pv Q' dmu j c +
      (|Spec.southOf radius (regularLat nlat j) - 2 * Real.pi * radius / nlon * (nlon * ∑ r ∈ range (j + 1), dmu r)| +
        (∑ r ∈ range nlat, ∑ c ∈ range nlon, I.area r c) / ((np.getD nlat - 1 : ℕ) : ℝ)) *
        (amax nlat nlon pv - amin nlat nlon pv) at key
  simp only [lwaTotal_eq_spec hj] at key ⊢
  have hrange : 0 ≤ amax nlat nlon pv - amin nlat nlon pv := sub_nonneg.2 amin_le_amax
  have hT : |Spec.southOf radius (regularLat nlat j) - 2 * Real.pi * radius / nlon * (nlon * ∑ r ∈ range (j + 1), dmu r)| ≤
      2 * Real.pi * radius ^ 2 * (Real.pi * (Real.pi / ((nlat - 1 : ℕ) : ℝ))) := by
    have e := regular_area_error (n := nlat - 1) (j := j) (by omega) (by omega)
    have es : ∑ r ∈ range (j + 1), dmu r =
        radius * ∑ r ∈ range (j + 1), Real.cos (-(Real.pi / 2) + r * (Real.pi / ((nlat - 1 : ℕ) : ℝ))) * (Real.pi / ((nlat - 1 : ℕ) : ℝ)) := by
      rw [mul_sum]
      refine sum_congr rfl fun r hrj => ?_
      have := mem_range.1 hrj
      rw [hd r (by omega), elat]
      ring
    rw [es]
    unfold Spec.southOf
    rw [elat]
    have hc : 0 ≤ 2 * Real.pi * radius ^ 2 := by positivity
    have := mul_le_mul_of_nonneg_left e hc
    refine le_trans (le_of_eq ?_) this
    rw [← abs_of_nonneg hc, ← abs_mul, abs_of_nonneg hc, abs_sub_comm]
    congr 1
    field_simp
  have hW : (∑ r ∈ range nlat, ∑ c ∈ range nlon, I.area r c) / ((np.getD nlat - 1 : ℕ) : ℝ) ≤
      4 * Real.pi * radius ^ 2 / ((np.getD nlat - 1 : ℕ) : ℝ) := by
    refine div_le_div_of_nonneg_right ?_ (Nat.cast_nonneg _)
    rw [← sum_product']
    exact c2
  have h5 := mul_le_mul_of_nonneg_right (add_le_add hT hW) hrange
  have h6 : (2 * Real.pi * radius) * ((∑ c ∈ range nlon, Spec.waveActivity nlat pv Q dmu j c) / nlon) ≤
      (2 * Real.pi * radius) * ((∑ c ∈ range nlon, Spec.waveActivity nlat pv Q' dmu j c) / nlon +
        radius * (Real.pi ^ 2 / ((nlat - 1 : ℕ) : ℝ) + 2 / ((np.getD nlat - 1 : ℕ) : ℝ)) * (amax nlat nlon pv - amin nlat nlon pv)) := by
    have e7 : 2 * Real.pi * radius / nlon * ∑ c ∈ range nlon, Spec.waveActivity nlat pv Q dmu j c =
        (2 * Real.pi * radius) * ((∑ c ∈ range nlon, Spec.waveActivity nlat pv Q dmu j c) / nlon) := by ring
    have e8 : 2 * Real.pi * radius / nlon * ∑ c ∈ range nlon, Spec.waveActivity nlat pv Q' dmu j c =
        (2 * Real.pi * radius) * ((∑ c ∈ range nlon, Spec.waveActivity nlat pv Q' dmu j c) / nlon) := by ring
    have e9 : (2 * Real.pi * radius ^ 2 * (Real.pi * (Real.pi / ((nlat - 1 : ℕ) : ℝ))) + 4 * Real.pi * radius ^ 2 / ((np.getD nlat - 1 : ℕ) : ℝ)) *
        (amax nlat nlon pv - amin nlat nlon pv) = (2 * Real.pi * radius) * (radius * (Real.pi ^ 2 / ((nlat - 1 : ℕ) : ℝ) +
          2 / ((np.getD nlat - 1 : ℕ) : ℝ)) * (amax nlat nlon pv - amin nlat nlon pv)) := by ring
    rw [e7, e8] at key
    rw [e9] at h5
    rw [mul_add]
    linarith
  exact le_of_mul_le_mul_left h6 (by positivity)

/-- A grid of five latitudes meets the hypotheses. -/
example : 3 ≤ 5 ∧ 1 ≤ 8 ∧ (0 : ℝ) < 6378000 ∧ 2 ≤ (none : Option ℕ).getD 5 := ⟨by norm_num, by norm_num, by norm_num, by simp⟩

/-! ### `QGField` -/

namespace QGAnalysis

open Spec

theorem sum_waveActivityNorth (H L : Finset ℤ) (q : ℤ → ℤ → ℝ) (v : ℝ) (w : ℤ → ℝ) (g : ℤ) :
    ∑ i ∈ L, waveActivityNorth H (q i) v w g =
      crossing (H ×ˢ L) (fun p => w p.1) (fun p => q p.2 p.1) (fun p => p.1 < g) v := by
  unfold crossing waveActivityNorth
  rw [sum_product_right]
  refine sum_congr rfl fun i _ => ?_
  rw [sum_filter]
  refine sum_congr rfl fun r _ => ?_
  dsimp only
  by_cases hg : r < g
  · rw [if_pos hg]
    by_cases hq : v < q i r
    · rw [if_pos (show DisplacedNorth (q i) v g r from Or.inr ⟨hg, hq⟩), abs_of_pos (by linarith), max_eq_left (by linarith)]
    · rw [if_neg, max_eq_right (by linarith), zero_mul]
      rintro (⟨h, _⟩ | ⟨_, h⟩)
      · omega
      · exact hq h
  · rw [if_neg hg]
    by_cases hq : q i r < v
    · rw [if_pos (show DisplacedNorth (q i) v g r from Or.inl ⟨by omega, hq⟩), abs_of_neg (by linarith), max_eq_left (by linarith)]
      ring
    · rw [if_neg, max_eq_right (by linarith), zero_mul]
      rintro (⟨_, h⟩ | ⟨h, _⟩)
      · exact hq h
      · exact hg h

theorem sum_waveActivitySouth (H L : Finset ℤ) (q : ℤ → ℤ → ℝ) (v : ℝ) (w : ℤ → ℝ) (g : ℤ) :
    ∑ i ∈ L, waveActivitySouth H (q i) v w g =
      crossing (H ×ˢ L) (fun p => w p.1) (fun p => q p.2 p.1) (fun p => p.1 ≤ g) v := by
  unfold crossing waveActivitySouth
  rw [sum_product_right]
  refine sum_congr rfl fun i _ => ?_
  rw [sum_filter]
  refine sum_congr rfl fun r _ => ?_
  dsimp only
  by_cases hg : r ≤ g
  · rw [if_pos hg]
    by_cases hq : v < q i r
    · rw [if_pos (show DisplacedSouth (q i) v g r from Or.inl ⟨hg, hq⟩), abs_of_pos (by linarith), max_eq_left (by linarith)]
    · rw [if_neg, max_eq_right (by linarith), zero_mul]
      rintro (⟨_, h⟩ | ⟨h, _⟩)
      · exact hq h
      · omega
  · rw [if_neg hg]
    by_cases hq : q i r < v
    · rw [if_pos (show DisplacedSouth (q i) v g r from Or.inr ⟨by omega, hq⟩), abs_of_neg (by linarith), max_eq_left (by linarith)]
      ring
    · rw [if_neg, max_eq_right (by linarith), zero_mul]
      rintro (⟨h, _⟩ | ⟨_, h⟩)
      · exact hg h
      · exact hq h

variable {S : QGAnalysis}

/-- C127 for `QGField`, Northern Hemisphere: on interior levels and analysed rows no other reference PV gives less wave activity,
summed over the longitudes, exactly if the cells of the hemisphere with lower PV have at most the area of the rows equatorward of
`g`, and those at most the area of the cells with PV up to the reference value. -/
theorem C127_qg_north (hv : S.Valid) (g k : ℤ) (hk : 2 ≤ k ∧ k ≤ S.kmax - 1)
    (hg : S.nd + S.jb ≤ S.outRow g ∧ S.outRow g < S.nlat) (heq : S.nhOnly = true ∨ S.nd < g) :
    (∀ Q' : ℤ → ℤ → ℝ, ∑ i ∈ Icc 1 S.nlon, S.lwa i g k ≤ ∑ i ∈ Icc 1 S.nlon, (S.withPv S.qgpv Q').lwa i g k) ↔
    ∑ r ∈ Icc S.nd S.nlat, ∑ i ∈ Icc 1 S.nlon, (if S.qgpv i r k < S.qref g k then S.rowWeight r else 0) ≤
      ∑ r ∈ Icc S.nd S.nlat, ∑ _i ∈ Icc 1 S.nlon, (if r < S.outRow g then S.rowWeight r else 0) ∧
    ∑ r ∈ Icc S.nd S.nlat, ∑ _i ∈ Icc 1 S.nlon, (if r < S.outRow g then S.rowWeight r else 0) ≤
      ∑ r ∈ Icc S.nd S.nlat, ∑ i ∈ Icc 1 S.nlon, (if S.qgpv i r k ≤ S.qref g k then S.rowWeight r else 0) := by
  have hodd := hv.odd
  have hj := hv.jb0
  have hj' := hv.jbnd
  have hv' : ∀ q Q, (S.withPv q Q).Valid := fun q Q => ⟨hv.odd, hv.jb0, hv.jbnd, hv.jdEq, hv.a0⟩
  have hw : ∀ p ∈ Icc S.nd S.nlat ×ˢ Icc 1 S.nlon, 0 ≤ (fun p : ℤ × ℤ => S.rowWeight p.1) p := fun p hp => by
    have := mem_Icc.1 (mem_product.1 hp).1
    exact hv.rowWeight_nonneg (by omega) this.2
  have hF : ∀ Q : ℤ → ℤ → ℝ, ∑ i ∈ Icc 1 S.nlon, (S.withPv S.qgpv Q).lwa i g k =
      crossing (Icc S.nd S.nlat ×ˢ Icc 1 S.nlon) (fun p => S.rowWeight p.1) (fun p => S.qgpv p.2 p.1 k)
        (fun p => p.1 < S.outRow g) (Q g k) := fun Q => by
    rw [← sum_waveActivityNorth (Icc S.nd S.nlat) (Icc 1 S.nlon) (fun i r => S.qgpv i r k)]
    exact sum_congr rfl fun i hi => C42_north (hv' S.qgpv Q) i g k (mem_Icc.1 hi) hk hg heq
  have key := crossing_min_iff (B := fun p : ℤ × ℤ => p.1 < S.outRow g) (q := fun p : ℤ × ℤ => S.qgpv p.2 p.1 k) (v := S.qref g k) hw
  rw [sum_product, sum_product, sum_product] at key
  rw [← key]
  have e0 := hF S.qref
  rw [show S.withPv S.qgpv S.qref = S from rfl] at e0
  rw [e0]
  constructor
  · intro h c
    have := h fun _ _ => c
    rwa [hF] at this
  · intro h Q'
    rw [hF]
    exact h _

/-- C127 for `QGField`, Southern Hemisphere. -/
theorem C127_qg_south (hv : S.Valid) (hm : S.nhOnly = false) (g k : ℤ) (hk : 2 ≤ k ∧ k ≤ S.kmax - 1)
    (hg : 1 < g ∧ g ≤ S.nd - S.jb) :
    (∀ Q' : ℤ → ℤ → ℝ, ∑ i ∈ Icc 1 S.nlon, S.lwa i g k ≤ ∑ i ∈ Icc 1 S.nlon, (S.withPv S.qgpv Q').lwa i g k) ↔
    ∑ r ∈ Icc 1 S.nd, ∑ i ∈ Icc 1 S.nlon, (if S.qgpv i r k < S.qref g k then S.rowWeight r else 0) ≤
      ∑ r ∈ Icc 1 S.nd, ∑ _i ∈ Icc 1 S.nlon, (if r ≤ g then S.rowWeight r else 0) ∧
    ∑ r ∈ Icc 1 S.nd, ∑ _i ∈ Icc 1 S.nlon, (if r ≤ g then S.rowWeight r else 0) ≤
      ∑ r ∈ Icc 1 S.nd, ∑ i ∈ Icc 1 S.nlon, (if S.qgpv i r k ≤ S.qref g k then S.rowWeight r else 0) := by
  have hodd := hv.odd
  have hj := hv.jb0
  have hj' := hv.jbnd
  have hv' : ∀ q Q, (S.withPv q Q).Valid := fun q Q => ⟨hv.odd, hv.jb0, hv.jbnd, hv.jdEq, hv.a0⟩
  have hw : ∀ p ∈ Icc 1 S.nd ×ˢ Icc 1 S.nlon, 0 ≤ (fun p : ℤ × ℤ => S.rowWeight p.1) p := fun p hp => by
    have := mem_Icc.1 (mem_product.1 hp).1
    exact hv.rowWeight_nonneg this.1 (by omega)
  have hF : ∀ Q : ℤ → ℤ → ℝ, ∑ i ∈ Icc 1 S.nlon, (S.withPv S.qgpv Q).lwa i g k =
      crossing (Icc 1 S.nd ×ˢ Icc 1 S.nlon) (fun p => S.rowWeight p.1) (fun p => S.qgpv p.2 p.1 k)
        (fun p => p.1 ≤ g) (Q g k) := fun Q => by
    rw [← sum_waveActivitySouth (Icc 1 S.nd) (Icc 1 S.nlon) (fun i r => S.qgpv i r k)]
    exact sum_congr rfl fun i hi => C42_south (hv' S.qgpv Q) hm i g k (mem_Icc.1 hi) hk hg
  have key := crossing_min_iff (B := fun p : ℤ × ℤ => p.1 ≤ g) (q := fun p : ℤ × ℤ => S.qgpv p.2 p.1 k) (v := S.qref g k) hw
  rw [sum_product, sum_product, sum_product] at key
  rw [← key]
  have e0 := hF S.qref
  rw [show S.withPv S.qgpv S.qref = S from rfl] at e0
  rw [e0]
  constructor
  · intro h c
    have := h fun _ _ => c
    rwa [hF] at this
  · intro h Q'
    rw [hF]
    exact h _

example : sample.Valid ∧ (2 ≤ (2 : ℤ) ∧ (2 : ℤ) ≤ sample.kmax - 1) ∧
    (sample.nd + sample.jb ≤ sample.outRow 4 ∧ sample.outRow 4 < sample.nlat) ∧ sample.nd < 4 ∧
    sample.nhOnly = false ∧ (1 < (2 : ℤ) ∧ (2 : ℤ) ≤ sample.nd - sample.jb) ∧ 0 < sample.lwa 1 4 2 :=
  ⟨sample_valid, by decide, by decide, by decide, rfl, by decide, sample_lwa⟩

end QGAnalysis

end

end Falwa
