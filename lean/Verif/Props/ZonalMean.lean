import Verif.Props.Minimal
import Verif.Props.Fawa
import Verif.Props.Defaults

/-!
# C129: FAWA is the zonal mean of the local wave activity

`eqvlat_fawa` finds the finite-amplitude wave activity of a latitude from two circulations, `lwa` finds the local wave activity by
adding displaced cells. The zonal mean of the second is the first, if the integral of the field over the sphere vanishes, as it does
for absolute vorticity, up to errors of the grid.
-/

noncomputable section

namespace Falwa

open Finset Spec

/-- All interpolations to one latitude have the same weights. -/
theorem npInterp_weights {n : ℕ} (hn : 0 < n) {xp : ℕ → ℝ} {x : ℝ} (h0 : xp 0 ≤ x) :
    ∃ i k, ∃ t : ℝ, i ≤ k ∧ k < n ∧ k ≤ i + 1 ∧ 0 ≤ t ∧ t ≤ 1 ∧ xp i ≤ x ∧ (k = i + 1 ∧ x < xp k ∨ k = i ∧ i = n - 1) ∧
      ∀ fp : ℕ → ℝ, npInterp n xp fp x = (1 - t) * fp i + t * fp k := by
  obtain ⟨h1, h2, h3⟩ := npInterp_index (xp := xp) h0 hn
  set j := Nat.findGreatest (fun j => xp j ≤ x) (n - 1) with hj
  by_cases hjn : j = n - 1
  · refine ⟨j, j, 0, le_rfl, h1, by omega, le_rfl, zero_le_one, h2, Or.inr ⟨rfl, hjn⟩, fun fp => ?_⟩
    unfold npInterp
    rw [if_neg (not_lt.2 h0)]
    simp only [← hj, if_pos hjn]
    rw [hjn]; ring
  · have h4 := h3 (j + 1) (by omega) (by omega)
    have h5 : 0 < xp (j + 1) - xp j := by linarith
    refine ⟨j, j + 1, (x - xp j) / (xp (j + 1) - xp j), by omega, by omega, le_rfl, div_nonneg (by linarith) h5.le,
      (div_le_one h5).2 (by linarith), h2, Or.inl ⟨rfl, h4⟩, fun fp => ?_⟩
    unfold npInterp
    rw [if_neg (not_lt.2 h0)]
    simp only [← hj, if_neg hjn]
    ring

namespace EqvInput

variable {I : EqvInput}

theorem aq_below (hn : 0 < I.nPoints) {i : ℕ} (hi : i < I.nPoints) :
    I.aq i = ∑ p ∈ cells I.nlat I.nlon, if I.vort p.1 p.2 < I.bins i then I.area p.1 p.2 else 0 := by
  rw [aq_eq hn, sum_filter]
  refine sum_congr rfl fun p _ => ?_
  exact if_congr (digitize_le_iff I.bins_mono hi) rfl rfl

theorem cq_below (hn : 0 < I.nPoints) {i : ℕ} (hi : i < I.nPoints) :
    I.cq i = ∑ p ∈ cells I.nlat I.nlon, if I.vort p.1 p.2 < I.bins i then I.area p.1 p.2 * I.vort p.1 p.2 else 0 := by
  unfold cq
  rw [cumsum_guard hn, cumsum_binSum, sum_filter]
  refine sum_congr rfl fun p _ => ?_
  exact if_congr (digitize_le_iff I.bins_mono hi) rfl rfl

/-- The circulation of the rows poleward of row `j` by the trapezoidal rule. -/
theorem cbarFromTop_eq (I : EqvInput) {d : ℕ} (hd : d + 1 ≤ I.nlat) :
    I.cbarFromTop d = ∑ r ∈ Ico (I.nlat - d) I.nlat, I.qbar r * I.rowArea r +
      (I.qbar (I.nlat - 1 - d) * I.rowArea (I.nlat - 1 - d) - I.qbar (I.nlat - 1) * I.rowArea (I.nlat - 1)) / 2 := by
  induction d with
  | zero => simp [cbarFromTop]
  | succ d ih =>
    rw [cbarFromTop, ih (by omega)]
    have e : Ico (I.nlat - (d + 1)) I.nlat = insert (I.nlat - 1 - d) (Ico (I.nlat - d) I.nlat) := by
      ext x; simp only [mem_Ico, mem_insert]; omega
    rw [e, sum_insert (by simp only [mem_Ico]; omega), show I.nlat - 2 - d = I.nlat - 1 - (d + 1) by omega]
    ring

/-- The sum over one row of area times field. -/
theorem qbar_rowArea {m : ℝ} {dmu : ℕ → ℝ} (h2 : 0 < I.nlon) {r : ℕ} (ha : ∀ c < I.nlon, I.area r c = m * dmu r) :
    I.qbar r * I.rowArea r = ∑ c ∈ range I.nlon, I.area r c * I.vort r c := by
  have e : I.rowArea r = I.nlon * (m * dmu r) := by
    unfold rowArea
    rw [sum_congr rfl fun c hc => ha c (mem_range.1 hc), sum_const, card_range, nsmul_eq_mul]
  have e' : ∑ c ∈ range I.nlon, I.area r c * I.vort r c = m * dmu r * ∑ c ∈ range I.nlon, I.vort r c := by
    rw [mul_sum]
    exact sum_congr rfl fun c hc => by rw [ha c (mem_range.1 hc)]
  have h0 : (I.nlon : ℝ) ≠ 0 := by exact_mod_cast h2.ne'
  unfold qbar
  rw [e, e']
  field_simp

/-- Circulation below the interpolated contour, against the sum of the deficits. -/
theorem deficit_interp (hn : 0 < I.nPoints) (ha : ∀ p ∈ cells I.nlat I.nlon, 0 ≤ I.area p.1 p.2) {i k : ℕ} {t δ β : ℝ}
    (hik : i ≤ k) (hk : k < I.nPoints) (ht0 : 0 ≤ t) (ht1 : t ≤ 1) (hd : I.bins k ≤ I.bins i + δ)
    (hβ : areaUpTo I.nlat I.nlon I.vort I.area (I.bins i + δ) - areaBelow I.nlat I.nlon I.vort I.area (I.bins i) ≤ β) :
    |∑ p ∈ cells I.nlat I.nlon, max ((1 - t) * I.bins i + t * I.bins k - I.vort p.1 p.2) 0 * I.area p.1 p.2 -
      (((1 - t) * I.bins i + t * I.bins k) * ((1 - t) * I.aq i + t * I.aq k) - ((1 - t) * I.cq i + t * I.cq k))| ≤ δ * β := by
  set Q := (1 - t) * I.bins i + t * I.bins k with hQ
  have hbik := I.bins_mono hik
  have hQ1 : I.bins i ≤ Q := by rw [hQ]; nlinarith
  have hQ2 : Q ≤ I.bins k := by rw [hQ]; nlinarith
  have hδ : 0 ≤ δ := by linarith
  have hb : ∑ p ∈ cells I.nlat I.nlon, (if I.vort p.1 p.2 ≤ I.bins i + δ then I.area p.1 p.2 else 0) -
      ∑ p ∈ cells I.nlat I.nlon, (if I.vort p.1 p.2 < I.bins i then I.area p.1 p.2 else 0) ≤ β := by
    unfold cells
    rw [sum_product, sum_product]
    exact hβ
  rw [← sum_sub_distrib] at hb
  rw [aq_below hn (by omega : i < I.nPoints), aq_below hn hk, cq_below hn (by omega : i < I.nPoints), cq_below hn hk]
  rw [mul_sum, mul_sum, mul_sum, mul_sum, ← sum_add_distrib, ← sum_add_distrib, mul_sum, ← sum_sub_distrib, ← sum_sub_distrib]
  refine (abs_sum_le_sum_abs _ _).trans ?_
  refine le_trans (sum_le_sum fun p hp => ?_) (le_trans (le_of_eq (mul_sum _ _ _).symm) (mul_le_mul_of_nonneg_left hb hδ))
  have hw := ha p hp
  set q := I.vort p.1 p.2
  set w := I.area p.1 p.2
  rcases lt_or_ge q (I.bins i) with h | h
  · rw [if_pos h, if_pos h, if_pos (h.trans_le hbik), if_pos (h.trans_le hbik), if_pos (by linarith), max_eq_left (by linarith)]
    rw [show (Q - q) * w - (Q * ((1 - t) * w + t * w) - ((1 - t) * (w * q) + t * (w * q))) = 0 by ring, abs_zero, sub_self, mul_zero]
  · rw [if_neg (not_lt.2 h), if_neg (not_lt.2 h)]
    rcases lt_or_ge q (I.bins k) with h' | h'
    · rw [if_pos h', if_pos h', if_pos (by linarith), sub_zero]
      rcases le_total q Q with hq | hq
      · rw [max_eq_left (by linarith),
          show (Q - q) * w - (Q * ((1 - t) * 0 + t * w) - ((1 - t) * 0 + t * (w * q))) = ((1 - t) * (Q - q)) * w by ring,
          abs_of_nonneg (mul_nonneg (mul_nonneg (by linarith) (by linarith)) hw)]
        refine mul_le_mul_of_nonneg_right ?_ hw
        nlinarith
      · rw [max_eq_right (by linarith),
          show 0 * w - (Q * ((1 - t) * 0 + t * w) - ((1 - t) * 0 + t * (w * q))) = (t * (q - Q)) * w by ring,
          abs_of_nonneg (mul_nonneg (mul_nonneg ht0 (by linarith)) hw)]
        refine mul_le_mul_of_nonneg_right ?_ hw
        nlinarith
    · rw [if_neg (not_lt.2 h'), if_neg (not_lt.2 h'), max_eq_right (by linarith)]
      rw [show (0 : ℝ) * w - (Q * ((1 - t) * 0 + t * 0) - ((1 - t) * 0 + t * 0)) = 0 by ring, abs_zero]
      refine mul_nonneg hδ ?_
      split_ifs <;> linarith

end EqvInput

/-- Wave activity as deficits of all items and differences of the items that should be below. -/
theorem crossing_eq {ι : Type*} (s : Finset ι) (w q : ι → ℝ) (B : ι → Prop) [DecidablePred B] (v : ℝ) :
    crossing s w q B v = ∑ n ∈ s, max (v - q n) 0 * w n - v * ∑ n ∈ s, (if B n then w n else 0) +
      ∑ n ∈ s, (if B n then w n * q n else 0) := by
  unfold crossing
  rw [mul_sum, ← sum_sub_distrib, ← sum_add_distrib]
  refine sum_congr rfl fun n _ => ?_
  by_cases hB : B n
  · rw [if_pos hB, if_pos hB, if_pos hB]
    rcases le_total v (q n) with h | h
    · rw [max_eq_left (by linarith), max_eq_right (by linarith)]; ring
    · rw [max_eq_right (by linarith), max_eq_left (by linarith)]; ring
  · rw [if_neg hB, if_neg hB, if_neg hB]; ring

namespace EqvInput

variable {I : EqvInput}

/-- C129: entry `j` of FAWA belongs to row `j + 1`. The cell areas are a multiple `m` of the weights `dmu`, and `β` bounds the area
between any two contours that are one contour interval apart. -/
theorem C129_zonal_mean (hI : I.Sensible) (hn : 2 ≤ I.nPoints) {m β : ℝ} {dmu : ℕ → ℝ}
    (ha : ∀ r < I.nlat, ∀ c < I.nlon, I.area r c = m * dmu r) {j : ℕ} (hj : j + 2 < I.nlat)
    (hy : -90 ≤ I.ylat (j + 1) ∧ I.ylat (j + 1) ≤ 90)
    (hβ : ∀ v, areaUpTo I.nlat I.nlon I.vort I.area (v + (amax I.nlat I.nlon I.vort - amin I.nlat I.nlon I.vort) / ((I.nPoints - 1 : ℕ) : ℝ)) -
      areaBelow I.nlat I.nlon I.vort I.area v ≤ β) (nc : Option (ℕ → ℕ → ℝ)) :
    ∃ Q F f, I.qref = .ok Q ∧ I.fawa = .ok F ∧ (lwa I.nlat I.vort Q dmu false nc).1 = .total f ∧
      |m * ∑ c ∈ range I.nlon, f (j + 1) c - 2 * Real.pi * I.radius * F j| ≤
        |∑ r ∈ range I.nlat, ∑ c ∈ range I.nlon, I.area r c * I.vort r c| +
        |Q (j + 1)| * (|southOf I.radius (I.ylat (j + 1)) - m * (I.nlon * ∑ r ∈ range (j + 2), dmu r)| + β) +
        (amax I.nlat I.nlon I.vort - amin I.nlat I.nlon I.vort) / ((I.nPoints - 1 : ℕ) : ℝ) * β +
        |∑ c ∈ range I.nlon, I.area (j + 1) c * I.vort (j + 1) c -
          ∑ c ∈ range I.nlon, I.area (I.nlat - 1) c * I.vort (I.nlat - 1) c| / 2 := by
  have hpi := Real.pi_pos
  have hw : ∀ p ∈ cells I.nlat I.nlon, 0 ≤ I.area p.1 p.2 := hI.area_nonneg
  set δ := (amax I.nlat I.nlon I.vort - amin I.nlat I.nlon I.vort) / ((I.nPoints - 1 : ℕ) : ℝ) with hδ
  set T := southOf I.radius (I.ylat (j + 1)) with hT
  set S := m * (I.nlon * ∑ r ∈ range (j + 2), dmu r) with hS
  set xp : ℕ → ℝ := fun i => (I.eqvLatitude I.aq i).getD 0 with hxp
  have hx0 : xp 0 ≤ I.ylat (j + 1) := by rw [hxp]; simp only [I.eqvLat_zero]; exact hy.1
  obtain ⟨i, k, t, hik, hk, hki, ht0, ht1, hxi, hcase, hint⟩ := npInterp_weights (n := I.nPoints) (by omega) hx0
  have hQ := interpToYlat_ok hI.nlat_pos hI.nlon_pos hI.nPoints_pos hI.radius_ne hI.area_nonneg hI.area_fits (fp := I.bins)
  refine ⟨_, _, _, hQ, I.fawa_ok hI, rfl, ?_⟩
  change |m * ∑ c ∈ range I.nlon, lwaTotal I.nlat I.vort (fun j => npInterp I.nPoints xp I.bins (I.ylat j)) dmu (j + 1) c -
    2 * Real.pi * I.radius * (-(I.cbar (j + 1) + npInterp I.nPoints xp I.cq (I.ylat (j + 1))) / (2 * Real.pi * I.radius))| ≤ _
  have hrn : 2 * Real.pi * I.radius ≠ 0 := mul_ne_zero (by positivity) hI.radius_ne
  rw [mul_div_cancel₀ _ hrn]
  -- the rows
  set R : ℕ → ℝ := fun r => ∑ c ∈ range I.nlon, I.area r c * I.vort r c with hR
  have hRe : ∀ r < I.nlat, I.qbar r * I.rowArea r = R r := fun r hr => qbar_rowArea hI.nlon_pos (ha r hr)
  have hcbar : I.cbar (j + 1) = ∑ r ∈ Ico (j + 2) I.nlat, R r + (R (j + 1) - R (I.nlat - 1)) / 2 := by
    unfold cbar
    rw [if_pos (by omega), cbarFromTop_eq I (by omega), show I.nlat - (I.nlat - 1 - (j + 1)) = j + 2 by omega,
      show I.nlat - 1 - (I.nlat - 1 - (j + 1)) = j + 1 by omega, hRe _ (by omega), hRe _ (by omega)]
    rw [sum_congr rfl fun r hr => hRe r (mem_Ico.1 hr).2]
  have htot : ∑ r ∈ range I.nlat, R r = ∑ r ∈ range (j + 2), R r + ∑ r ∈ Ico (j + 2) I.nlat, R r :=
    (sum_range_add_sum_Ico _ (by omega)).symm
  -- wave activity
  have hcr : m * ∑ c ∈ range I.nlon, lwaTotal I.nlat I.vort (fun j => npInterp I.nPoints xp I.bins (I.ylat j)) dmu (j + 1) c =
      crossing (cells I.nlat I.nlon) (fun p => I.area p.1 p.2) (fun p => I.vort p.1 p.2) (fun p => p.1 ≤ j + 1)
        ((1 - t) * I.bins i + t * I.bins k) := by
    rw [sum_lwaTotal (by omega)]
    unfold crossing
    rw [mul_sum, ← hint]
    refine sum_congr rfl fun p hp => ?_
    have hp' := mem_cells.1 hp
    simp only [ha p.1 hp'.1 p.2 hp'.2]
    ring
  have hB : ∑ p ∈ cells I.nlat I.nlon, (if p.1 ≤ j + 1 then I.area p.1 p.2 else 0) = S := by
    unfold cells
    rw [sum_product]
    have e : ∀ r ∈ range I.nlat, ∑ c ∈ range I.nlon, (if r ≤ j + 1 then I.area r c else 0) =
        I.nlon * (m * if r ≤ j + 1 then dmu r else 0) := by
      intro r hr
      rw [← nsmul_eq_mul, ← card_range I.nlon, ← sum_const]
      simp only [card_range]
      refine sum_congr rfl fun c hc => ?_
      rw [ha r (mem_range.1 hr) c (mem_range.1 hc)]
      split_ifs <;> simp
    rw [sum_congr rfl e, ← mul_sum, ← mul_sum, ← sum_filter, mul_left_comm, hS]
    congr 3
    ext r
    simp only [mem_filter, mem_range]
    omega
  have hC : ∑ p ∈ cells I.nlat I.nlon, (if p.1 ≤ j + 1 then I.area p.1 p.2 * I.vort p.1 p.2 else 0) = ∑ r ∈ range (j + 2), R r := by
    unfold cells
    rw [sum_product]
    have e : ∀ r ∈ range I.nlat, ∑ c ∈ range I.nlon, (if r ≤ j + 1 then I.area r c * I.vort r c else 0) =
        if r ≤ j + 1 then R r else 0 := by
      intro r _
      split_ifs
      · rfl
      · exact sum_const_zero
    rw [sum_congr rfl e, ← sum_filter]
    congr 1
    ext r
    simp only [mem_filter, mem_range]
    omega
  rw [hcr, crossing_eq, hB, hC, hint I.cq, hint I.bins]
  -- the contour
  have hbins : ∀ n, I.bins (n + 1) = I.bins n + δ := fun n => by
    unfold bins linspace
    rw [hδ]; push_cast; ring
  have hδ0 : 0 ≤ δ := div_nonneg (sub_nonneg.2 amin_le_amax) (Nat.cast_nonneg _)
  have hkd : I.bins k ≤ I.bins i + δ := by
    rcases Nat.lt_or_ge i k with h | h
    · rw [show k = i + 1 by omega, hbins]
    · rw [show k = i by omega]; linarith
  have hdef := deficit_interp (by omega) hw hik hk ht0 ht1 hkd (hβ (I.bins i))
  set A := (1 - t) * I.aq i + t * I.aq k with hA
  set v := (1 - t) * I.bins i + t * I.bins k with hv
  set g := ∑ p ∈ cells I.nlat I.nlon, max (v - I.vort p.1 p.2) 0 * I.area p.1 p.2 with hg
  set cc := (1 - t) * I.cq i + t * I.cq k with hcc
  -- area
  have hup : ∀ u, areaUpTo I.nlat I.nlon I.vort I.area u =
      ∑ p ∈ cells I.nlat I.nlon, if I.vort p.1 p.2 ≤ u then I.area p.1 p.2 else 0 := fun u => by
    unfold cells; rw [sum_product]; rfl
  have hlow := hβ (I.bins i)
  rw [← hI.aq_eq_below hn (by omega), hup] at hlow
  have hiT : I.aq i ≤ T := (hI.eqvLatitude_le_iff hy i).1 hxi
  have hAS : |A - S| ≤ |T - S| + β := by
    have a1 := le_abs_self (T - S)
    have a2 := neg_abs_le (T - S)
    rcases hcase with ⟨hk1, hlt⟩ | ⟨hk1, hi1⟩
    · have hkT : T < I.aq k := not_le.1 fun h => not_lt.2 ((hI.eqvLatitude_le_iff hy k).2 h) hlt
      have hak : I.aq k ≤ ∑ p ∈ cells I.nlat I.nlon, if I.vort p.1 p.2 ≤ I.bins i + δ then I.area p.1 p.2 else 0 := by
        rw [aq_below (by omega) hk]
        refine sum_le_sum fun p hp => ?_
        have := hw p hp
        split_ifs <;> first | exact le_rfl | exact this | (exfalso; linarith)
      have b1 : I.aq i ≤ A := by rw [hA]; nlinarith
      have b2 : A ≤ I.aq k := by rw [hA]; nlinarith
      rw [abs_le]; constructor <;> linarith
    · have hAi : A = I.aq i := by rw [hA, hk1]; ring
      have hall : ∀ p ∈ cells I.nlat I.nlon, I.vort p.1 p.2 ≤ I.bins i + δ := fun p hp => by
        have h1 := le_amax (vort := I.vort) hp
        have h2 : I.bins i = amax I.nlat I.nlon I.vort := by rw [hi1]; exact linspace_last _ _ hn
        linarith
      rw [sum_congr rfl fun p hp => if_pos (hall p hp)] at hlow
      have hSW : S ≤ ∑ p ∈ cells I.nlat I.nlon, I.area p.1 p.2 := by
        rw [← hB]
        refine sum_le_sum fun p hp => ?_
        split_ifs
        · exact le_rfl
        · exact hw p hp
      have hAW := aq_le_total hI.nPoints_pos hI.area_nonneg i
      rw [hAi, abs_le]; constructor <;> linarith
  have e : g - v * S + ∑ r ∈ range (j + 2), R r - -(I.cbar (j + 1) + cc) =
      ∑ r ∈ range I.nlat, R r + v * (A - S) + (g - (v * A - cc)) + (R (j + 1) - R (I.nlat - 1)) / 2 := by
    rw [hcbar, htot]; ring
  rw [e]
  refine (abs_add_le _ _).trans (add_le_add ((abs_add_le _ _).trans (add_le_add ((abs_add_le _ _).trans (add_le_add le_rfl ?_)) hdef)) ?_)
  · rw [abs_mul]
    exact mul_le_mul_of_nonneg_left hAS (abs_nonneg _)
  · rw [abs_div, abs_of_pos (by norm_num : (0 : ℝ) < 2)]

end EqvInput

/-- The sample has cell areas proportional to weights, an inner row, and no more area between contours than in all. -/
example : sampleInput.Sensible ∧ 2 ≤ sampleInput.nPoints ∧
    (∀ r < sampleInput.nlat, ∀ c < sampleInput.nlon, sampleInput.area r c = 2 * (fun _ => 1 / 2) r) ∧
    (-90 ≤ sampleInput.ylat (0 + 1) ∧ sampleInput.ylat (0 + 1) ≤ 90) ∧
    (∀ v, areaUpTo sampleInput.nlat sampleInput.nlon sampleInput.vort sampleInput.area
        (v + (amax sampleInput.nlat sampleInput.nlon sampleInput.vort - amin sampleInput.nlat sampleInput.nlon sampleInput.vort) /
          ((sampleInput.nPoints - 1 : ℕ) : ℝ)) -
      areaBelow sampleInput.nlat sampleInput.nlon sampleInput.vort sampleInput.area v ≤
        ∑ r ∈ range sampleInput.nlat, ∑ c ∈ range sampleInput.nlon, sampleInput.area r c) := by
  have hw : ∀ r c, 0 ≤ sampleInput.area r c := fun _ _ => by norm_num [sampleInput]
  refine ⟨sampleInput_sensible, by norm_num [sampleInput], fun _ _ _ _ => by norm_num [sampleInput], by norm_num [sampleInput], fun v => ?_⟩
  unfold areaUpTo areaBelow
  rw [← sum_sub_distrib]
  refine sum_le_sum fun r _ => ?_
  rw [← sum_sub_distrib]
  refine sum_le_sum fun c _ => ?_
  have := hw r c
  split_ifs <;> linarith

/-! ### Regular grids with the areas of `BarotropicField` -/

/-- The default areas and weights on a regular grid. -/
theorem regular_grid_facts (nlat nlon : ℕ) (radius : ℝ) (h1 : 3 ≤ nlat) (h2 : 1 ≤ nlon) (hr : 0 < radius) (np : Option ℕ)
    (hnp : 2 ≤ np.getD nlat) (pv : ℕ → ℕ → ℝ) :
    ((baroInit nlat nlon (regularLat nlat) radius false none none np).eqvInput pv).Sensible ∧
    (∀ r < nlat, ∀ c < nlon, ((baroInit nlat nlon (regularLat nlat) radius false none none np).eqvInput pv).area r c =
      (2 * Real.pi * radius / nlon) * Spec.lengthElement radius (regularLat nlat) (Spec.poleToPole nlat) r) ∧
    (∀ r < nlat, 0 ≤ Spec.lengthElement radius (regularLat nlat) (Spec.poleToPole nlat) r ∧
      Spec.lengthElement radius (regularLat nlat) (Spec.poleToPole nlat) r ≤ radius * (Real.pi / ((nlat - 1 : ℕ) : ℝ))) ∧
    Spec.lengthElement radius (regularLat nlat) (Spec.poleToPole nlat) (nlat - 1) = 0 ∧
    ∀ j < nlat, (-90 ≤ regularLat nlat j ∧ regularLat nlat j ≤ 90) ∧
      |Spec.southOf radius (regularLat nlat j) - 2 * Real.pi * radius / nlon *
        (nlon * ∑ r ∈ range (j + 1), Spec.lengthElement radius (regularLat nlat) (Spec.poleToPole nlat) r)| ≤
      2 * Real.pi * radius ^ 2 * (Real.pi * (Real.pi / ((nlat - 1 : ℕ) : ℝ))) := by
  have hpi := Real.pi_pos
  have hn0 : (0 : ℝ) < ((nlat - 1 : ℕ) : ℝ) := by exact_mod_cast (by omega : 0 < nlat - 1)
  have hl0 : (0 : ℝ) < nlon := by exact_mod_cast (by omega : 0 < nlon)
  obtain ⟨c1, c2, -⟩ := C12_default_areas_fit nlat nlon radius h1 h2 hr false np (by rintro rfl; simp at hnp) pv
  set dmu := Spec.lengthElement radius (regularLat nlat) (Spec.poleToPole nlat) with hdmu
  have elat : ∀ r : ℕ, regularLat nlat r * Real.pi / 180 = -(Real.pi / 2) + r * (Real.pi / ((nlat - 1 : ℕ) : ℝ)) := fun r => by
    unfold regularLat
    field_simp
    ring
  have hcos : ∀ r < nlat, 0 ≤ Real.cos (regularLat nlat r * Real.pi / 180) := fun r hrn => by
    rw [elat]
    have hle : (r : ℝ) ≤ ((nlat - 1 : ℕ) : ℝ) := by exact_mod_cast (by omega : r ≤ nlat - 1)
    have : (r : ℝ) * (Real.pi / ((nlat - 1 : ℕ) : ℝ)) ≤ Real.pi := by
      rw [← mul_div_assoc, div_le_iff₀ hn0]; nlinarith
    have : 0 ≤ (r : ℝ) * (Real.pi / ((nlat - 1 : ℕ) : ℝ)) := by positivity
    exact Real.cos_nonneg_of_mem_Icc ⟨by linarith, by linarith⟩
  have hd : ∀ r < nlat, dmu r = radius * Real.cos (regularLat nlat r * Real.pi / 180) * (Real.pi / ((nlat - 1 : ℕ) : ℝ)) :=
    fun r hrn => by rw [hdmu]; unfold Spec.lengthElement Spec.poleToPole; rw [abs_of_nonneg (hcos r hrn)]
  refine ⟨⟨show 0 < nlat by omega, show 0 < nlon by omega, show 0 < np.getD nlat by omega, hr.ne', c1, c2⟩, fun r hrn c _ => ?_,
    fun r hrn => ?_, ?_, fun j hj => ⟨?_, ?_⟩⟩
  · rw [hd r hrn]
    show 2 * Real.pi * radius ^ 2 * (Real.cos (regularLat nlat r * Real.pi / 180) *
      (Real.pi / ((nlat - 1 : ℕ) : ℝ))) / nlon = _
    ring
  · rw [hd r hrn]
    have h0 := hcos r hrn
    have h1 := Real.cos_le_one (regularLat nlat r * Real.pi / 180)
    have h3 : 0 ≤ Real.pi / ((nlat - 1 : ℕ) : ℝ) := by positivity
    exact ⟨by positivity, mul_le_mul_of_nonneg_right (by nlinarith) h3⟩
  · rw [hd _ (by omega), elat, mul_div_cancel₀ _ hn0.ne', show -(Real.pi / 2) + Real.pi = Real.pi / 2 by ring, Real.cos_pi_div_two]
    ring
  · unfold regularLat
    have hle : (j : ℝ) ≤ ((nlat - 1 : ℕ) : ℝ) := by exact_mod_cast (by omega : j ≤ nlat - 1)
    constructor
    · have : 0 ≤ 180 * (j : ℝ) / ((nlat - 1 : ℕ) : ℝ) := by positivity
      linarith
    · have : 180 * (j : ℝ) / ((nlat - 1 : ℕ) : ℝ) ≤ 180 := by rw [div_le_iff₀ hn0]; linarith
      linarith
  · have e := regular_area_error (n := nlat - 1) (j := j) (by omega) (by omega)
    have es : ∑ r ∈ range (j + 1), dmu r =
        radius * ∑ r ∈ range (j + 1), Real.cos (-(Real.pi / 2) + r * (Real.pi / ((nlat - 1 : ℕ) : ℝ))) * (Real.pi / ((nlat - 1 : ℕ) : ℝ)) := by
      rw [mul_sum]
      refine sum_congr rfl fun r hrj => ?_
      have := mem_range.1 hrj
      rw [hd r (by omega), elat]
      ring
    rw [es]
    unfold Spec.southOf
    rw [elat]
    have hc : 0 ≤ 2 * Real.pi * radius ^ 2 := by positivity
    have := mul_le_mul_of_nonneg_left e hc
    refine le_trans (le_of_eq ?_) this
    rw [← abs_of_nonneg hc, ← abs_mul, abs_of_nonneg hc, abs_sub_comm]
    congr 1
    field_simp

/-- C129 on a regular grid with the default areas: for values up to `M`, FAWA and the zonal mean of the wave activity of its row
differ by the total circulation over the circumference, by `M` times the grid spacing, and by `M` times the area between two
contours one contour interval apart. -/
theorem C129_regular (nlat nlon : ℕ) (radius : ℝ) (h1 : 3 ≤ nlat) (h2 : 1 ≤ nlon) (hr : 0 < radius) (np : Option ℕ)
    (hnp : 2 ≤ np.getD nlat) (pv : ℕ → ℕ → ℝ) {M β : ℝ} (hM : ∀ r < nlat, ∀ c < nlon, |pv r c| ≤ M)
    (hβ : ∀ v, areaUpTo nlat nlon pv (baroInit nlat nlon (regularLat nlat) radius false none none np).area
        (v + (amax nlat nlon pv - amin nlat nlon pv) / ((np.getD nlat - 1 : ℕ) : ℝ)) -
      areaBelow nlat nlon pv (baroInit nlat nlon (regularLat nlat) radius false none none np).area v ≤ β) :
    ∃ F l, ((baroInit nlat nlon (regularLat nlat) radius false none none np).eqvInput pv).fawa = .ok F ∧
      (baroStep (baroInit nlat nlon (regularLat nlat) radius false none none np) (baroFresh pv) .readLwa).2 = .lwa (.ok (.total l)) ∧
      ∀ j, j + 2 < nlat → |(∑ c ∈ range nlon, l (j + 1) c) / nlon - F j| ≤
        |∑ r ∈ range nlat, ∑ c ∈ range nlon,
          (baroInit nlat nlon (regularLat nlat) radius false none none np).area r c * pv r c| / (2 * Real.pi * radius) +
        M * radius * ((Real.pi ^ 2 + Real.pi / 2) / ((nlat - 1 : ℕ) : ℝ)) + 3 * M * (β / (2 * Real.pi * radius)) := by
  have hpi := Real.pi_pos
  have hn0 : (0 : ℝ) < ((nlat - 1 : ℕ) : ℝ) := by exact_mod_cast (by omega : 0 < nlat - 1)
  have hl0 : (0 : ℝ) < nlon := by exact_mod_cast (by omega : 0 < nlon)
  have hp1 : (1 : ℝ) ≤ ((np.getD nlat - 1 : ℕ) : ℝ) := by exact_mod_cast (by omega : 1 ≤ np.getD nlat - 1)
  obtain ⟨hI, harea, hdm, hlast, hrow⟩ := regular_grid_facts nlat nlon radius h1 h2 hr np hnp pv
  set C := baroInit nlat nlon (regularLat nlat) radius false none none np with hC
  set I := C.eqvInput pv with hIdef
  set dmu := Spec.lengthElement radius (regularLat nlat) (Spec.poleToPole nlat) with hdmu
  have hM0 : 0 ≤ M := (abs_nonneg _).trans (hM 0 (by omega) 0 (by omega))
  have hβ0 : 0 ≤ β := by
    refine le_trans (sub_nonneg.2 ?_) (hβ 0)
    unfold areaUpTo areaBelow
    refine sum_le_sum fun r hr' => sum_le_sum fun c hc => ?_
    have ha : 0 ≤ C.area r c := hI.area_nonneg (r, c) (mem_cells.2 ⟨mem_range.1 hr', mem_range.1 hc⟩)
    have hδ0 : 0 ≤ (amax nlat nlon pv - amin nlat nlon pv) / ((np.getD nlat - 1 : ℕ) : ℝ) :=
      div_nonneg (sub_nonneg.2 amin_le_amax) (by linarith)
    split_ifs <;> linarith
  have hne : (cells nlat nlon).Nonempty := ⟨(0, 0), mem_cells.2 ⟨by omega, by omega⟩⟩
  have hδ : (amax nlat nlon pv - amin nlat nlon pv) / ((np.getD nlat - 1 : ℕ) : ℝ) ≤ 2 * M := by
    obtain ⟨p, hp, ep⟩ := exists_amax (vort := pv) hne
    obtain ⟨q, hq, eq⟩ := exists_amin (vort := pv) hne
    have a1 := (abs_le.1 (hM p.1 (mem_cells.1 hp).1 p.2 (mem_cells.1 hp).2)).2
    have a2 := (abs_le.1 (hM q.1 (mem_cells.1 hq).1 q.2 (mem_cells.1 hq).2)).1
    rw [div_le_iff₀ (by linarith)]
    nlinarith
  obtain ⟨Q, hQ⟩ : ∃ Q, I.qref = .ok Q :=
    ⟨_, EqvInput.interpToYlat_ok hI.nlat_pos hI.nlon_pos hI.nPoints_pos hI.radius_ne hI.area_nonneg hI.area_fits _⟩
  obtain ⟨r1, r2⟩ := C25_read_values C pv
  have hlwa : (baroStep C (baroFresh pv) .readLwa).2 = .lwa (.ok (.total (lwaTotal nlat pv Q dmu))) := by
    rw [r2, show (C.eqvInput pv).qref = .ok Q from hQ]
    rfl
  obtain ⟨F, hF⟩ : ∃ F, I.fawa = .ok F := ⟨_, I.fawa_ok hI⟩
  refine ⟨F, _, hF, hlwa, fun j hj => ?_⟩
  obtain ⟨hy, hT⟩ := hrow (j + 1) (by omega)
  obtain ⟨Q', F', f, e1, e2, e3, key⟩ := EqvInput.C129_zonal_mean (I := I) hI (show 2 ≤ np.getD nlat from hnp) (dmu := dmu) harea
    (show j + 2 < nlat from hj) hy hβ none
  have eQ : Q' = Q := by rw [hQ] at e1; injection e1 with e1; exact e1.symm
  subst eQ
  have eF : F' = F := by rw [hF] at e2; injection e2 with e2; exact e2.symm
  subst eF
  cases e3
  have hQM : |Q' (j + 1)| ≤ M := abs_le.2 (qref_bounds hI hQ (fun r hr' c hc => abs_le.1 (hM r hr' c hc)) (j + 1))
  have hcirc : |∑ c ∈ range nlon, I.area (j + 1) c * pv (j + 1) c - ∑ c ∈ range nlon, I.area (nlat - 1) c * pv (nlat - 1) c| ≤
      2 * Real.pi * radius * (radius * (Real.pi / ((nlat - 1 : ℕ) : ℝ))) * M := by
    have z : ∑ c ∈ range nlon, I.area (nlat - 1) c * pv (nlat - 1) c = 0 := sum_eq_zero fun c hc => by
      rw [harea _ (by omega) c (mem_range.1 hc), hlast]; ring
    rw [z, sub_zero]
    refine (abs_sum_le_sum_abs _ _).trans ?_
    have : ∀ c ∈ range nlon, |I.area (j + 1) c * pv (j + 1) c| ≤
        2 * Real.pi * radius / nlon * (radius * (Real.pi / ((nlat - 1 : ℕ) : ℝ))) * M := fun c hc => by
      obtain ⟨d0, d1⟩ := hdm (j + 1) (by omega)
      rw [abs_mul, harea _ (by omega) c (mem_range.1 hc)]
      have hm : 0 ≤ 2 * Real.pi * radius / nlon := by positivity
      rw [abs_of_nonneg (mul_nonneg hm d0)]
      exact mul_le_mul (mul_le_mul_of_nonneg_left d1 hm) (hM _ (by omega) c (mem_range.1 hc)) (abs_nonneg _)
        (mul_nonneg hm (d0.trans d1))
    refine (sum_le_sum this).trans (le_of_eq ?_)
    rw [sum_const, card_range, nsmul_eq_mul]
    field_simp
  change |2 * Real.pi * radius / nlon * ∑ c ∈ range nlon, lwaTotal nlat pv Q' dmu (j + 1) c - 2 * Real.pi * radius * F' j| ≤
    |∑ r ∈ range nlat, ∑ c ∈ range nlon, C.area r c * pv r c| +
    |Q' (j + 1)| * (|Spec.southOf radius (regularLat nlat (j + 1)) -
      2 * Real.pi * radius / nlon * (nlon * ∑ r ∈ range (j + 2), dmu r)| + β) +
    (amax nlat nlon pv - amin nlat nlon pv) / ((np.getD nlat - 1 : ℕ) : ℝ) * β +
    |∑ c ∈ range nlon, I.area (j + 1) c * pv (j + 1) c - ∑ c ∈ range nlon, I.area (nlat - 1) c * pv (nlat - 1) c| / 2 at key
  have hc0 : 0 < 2 * Real.pi * radius := by positivity
  have k1 : |Q' (j + 1)| * (|Spec.southOf radius (regularLat nlat (j + 1)) -
      2 * Real.pi * radius / nlon * (nlon * ∑ r ∈ range (j + 2), dmu r)| + β) ≤
      M * (2 * Real.pi * radius ^ 2 * (Real.pi * (Real.pi / ((nlat - 1 : ℕ) : ℝ))) + β) :=
    mul_le_mul hQM (by linarith) (by positivity) hM0
  have k2 := mul_le_mul_of_nonneg_right hδ hβ0
  have e7 : 2 * Real.pi * radius / nlon * ∑ c ∈ range nlon, lwaTotal nlat pv Q' dmu (j + 1) c - 2 * Real.pi * radius * F' j =
      2 * Real.pi * radius * ((∑ c ∈ range nlon, lwaTotal nlat pv Q' dmu (j + 1) c) / nlon - F' j) := by ring
  rw [e7, abs_mul, abs_of_pos hc0] at key
  refine le_of_mul_le_mul_left (key.trans ((add_le_add (add_le_add (add_le_add le_rfl k1) k2)
    (div_le_div_of_nonneg_right hcirc (by norm_num))).trans (le_of_eq ?_))) hc0
  field_simp
  ring

/-- Rows of vorticity -2, …, 2 on a grid of five latitudes and four longitudes: values up to 2, and no more area between contours
than in all. -/
example : (∀ r < 5, ∀ c < 4, |(fun r _ => (r : ℝ) - 2 : ℕ → ℕ → ℝ) r c| ≤ 2) ∧
    ∀ v, areaUpTo 5 4 (fun r _ => (r : ℝ) - 2) (baroInit 5 4 (regularLat 5) 6371000 false none none (some 20)).area
        (v + (amax 5 4 (fun r _ => (r : ℝ) - 2) - amin 5 4 (fun r _ => (r : ℝ) - 2)) / (((some 20).getD 5 - 1 : ℕ) : ℝ)) -
      areaBelow 5 4 (fun r _ => (r : ℝ) - 2) (baroInit 5 4 (regularLat 5) 6371000 false none none (some 20)).area v ≤
      ∑ r ∈ range 5, ∑ c ∈ range 4, (baroInit 5 4 (regularLat 5) 6371000 false none none (some 20)).area r c := by
  obtain ⟨hI, -⟩ := regular_grid_facts 5 4 6371000 (by norm_num) (by norm_num) (by norm_num) (some 20) (by norm_num)
    (fun r _ => (r : ℝ) - 2)
  refine ⟨fun r hr c _ => ?_, fun v => ?_⟩
  · interval_cases r <;> norm_num
  · unfold areaUpTo areaBelow
    rw [← sum_sub_distrib]
    refine sum_le_sum fun r hr => ?_
    rw [← sum_sub_distrib]
    refine sum_le_sum fun c hc => ?_
    have ha := hI.area_nonneg (r, c) (mem_cells.2 ⟨mem_range.1 hr, mem_range.1 hc⟩)
    change 0 ≤ (baroInit 5 4 (regularLat 5) 6371000 false none none (some 20)).area r c at ha
    split_ifs <;> linarith

end Falwa
