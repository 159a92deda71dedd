import Verif.Lemmas.Fawa
import Verif.Props.Eqvlat
import Mathlib.Algebra.BigOperators.Intervals

/-!
# Properties of the bracket average of `eqvlat_vgrad` (C104) and of the wave activity of `eqvlat_fawa` (C105, C106)
-/

namespace Falwa

open Finset

/-! ## C104 -/

/-- C104, linearity: the bracket average of `a u + b v` is `a` times the one of `u` plus `b` times the one
of `v`; the call succeeds for every sensible input. -/
theorem C104_linear (I : EqvInput) (hI : I.Sensible) (u v : ℕ → ℕ → ℝ) (a b : ℝ) :
    ∃ f g h, I.bracReturn u = .ok f ∧ I.bracReturn v = .ok g ∧
      I.bracReturn (fun r c => a * u r c + b * v r c) = .ok h ∧ ∀ j, h j = a * f j + b * g j := by
  have ok := EqvInput.bracReturn_ok hI.nlat_pos hI.nlon_pos hI.nPoints_pos hI.radius_ne hI.area_nonneg
    hI.area_fits
  refine ⟨_, _, _, ok u, ok v, ok _, fun j => ?_⟩
  rw [← npInterp_linear]
  congr 1
  funext i
  exact I.brac_linear u v a b i

example : sampleInput.Sensible := sampleInput_sensible

/-- C104 as users expect it: an average lies between the bounds of what is averaged. -/
def C104_Statement : Prop :=
  ∀ (I : EqvInput) (w : ℕ → ℕ → ℝ) (m M : ℝ), I.Sensible →
    (∀ p ∈ cells I.nlat I.nlon, 0 < I.area p.1 p.2) →
    (∀ r < I.nlat, ∀ c < I.nlon, m ≤ w r c ∧ w r c ≤ M) →
    ∃ f, I.bracReturn w = .ok f ∧ ∀ j < I.nlat, m ≤ f j ∧ f j ≤ M

/-- C104, what holds everywhere: the bounds hold after 0 has been included among the values. -/
theorem C104_bounded_partial (I : EqvInput) (hI : I.Sensible) (w : ℕ → ℕ → ℝ) (m M : ℝ)
    (hw : ∀ r < I.nlat, ∀ c < I.nlon, m ≤ w r c ∧ w r c ≤ M) :
    ∃ f, I.bracReturn w = .ok f ∧ ∀ j, min m 0 ≤ f j ∧ f j ≤ max M 0 := by
  refine ⟨_, EqvInput.bracReturn_ok hI.nlat_pos hI.nlon_pos hI.nPoints_pos hI.radius_ne hI.area_nonneg
    hI.area_fits w, fun j => ?_⟩
  refine npInterp_within hI.nPoints_pos (fun i _ => ?_) _
  exact EqvInput.brac_within hI.area_nonneg (min_le_right m 0) (le_max_right M 0)
    (fun r hr c hc => ⟨(min_le_left m 0).trans (hw r hr c hc).1, (hw r hr c hc).2.trans (le_max_left M 0)⟩) i

/-- C104, what holds away from the poles: if no bin is empty, the bounds hold at every latitude between the
equivalent latitude of the third bin edge and the one of the last but one. In particular the bracket
average of a constant is that constant there. -/
theorem C104_interior_partial (I : EqvInput) (hI : I.Sensible) (w : ℕ → ℕ → ℝ) (m M : ℝ)
    (hw : ∀ r < I.nlat, ∀ c < I.nlon, m ≤ w r c ∧ w r c ≤ M)
    (hfull : ∀ i, 1 ≤ i → i < I.nPoints → I.binSum I.area i ≠ 0) :
    ∃ f, I.bracReturn w = .ok f ∧ ∀ j,
      (I.eqvLatitude I.aq 2).getD 0 ≤ I.ylat j → I.ylat j < (I.eqvLatitude I.aq (I.nPoints - 2)).getD 0 →
      m ≤ f j ∧ f j ≤ M := by
  refine ⟨_, EqvInput.bracReturn_ok hI.nlat_pos hI.nlon_pos hI.nPoints_pos hI.radius_ne hI.area_nonneg
    hI.area_fits w, fun j h1 h2 => ?_⟩
  have mono := EqvInput.eqvLatitude_mono hI.nPoints_pos hI.radius_ne hI.area_nonneg hI.area_fits
  have hb : ∀ i, 2 ≤ i → i + 1 < I.nPoints → m ≤ I.brac w i ∧ I.brac w i ≤ M := by
    intro i hi1 hi2
    have a1 := EqvInput.dp_within hI.area_nonneg hw (hfull (i - 1) (by omega) (by omega))
    have a2 := EqvInput.dp_within hI.area_nonneg hw (hfull (i + 1) (by omega) hi2)
    unfold EqvInput.brac
    rw [if_pos ⟨by omega, hi2⟩]
    constructor <;> linarith [a1.1, a1.2, a2.1, a2.2]
  rcases npInterp_cases (xp := fun i => (I.eqvLatitude I.aq i).getD 0) (fp := I.brac w)
    hI.nPoints_pos (I.ylat j) with ⟨h, _⟩ | ⟨k, hk, k1, k2, h⟩ | ⟨h, _, _⟩
  · exact absurd (lt_of_le_of_lt (mono (Nat.zero_le 2)) (lt_of_le_of_lt h1 h)) (lt_irrefl _)
  · have hk2 : 2 ≤ k := by
      by_contra hc
      exact absurd (lt_of_lt_of_le k2 ((mono (show k + 1 ≤ 2 by omega)).trans h1)) (lt_irrefl _)
    have hk3 : k < I.nPoints - 2 := by
      by_contra hc
      exact absurd (lt_of_le_of_lt (mono (show I.nPoints - 2 ≤ k by omega)) (lt_of_le_of_lt k1 h2)) (lt_irrefl _)
    obtain ⟨a1, a2⟩ := hb k hk2 (by omega)
    obtain ⟨b1, b2⟩ := hb (k + 1) (by omega) (by omega)
    rw [h]
    rcases le_total (I.brac w k) (I.brac w (k + 1)) with hc | hc
    · obtain ⟨h3, h4⟩ := interp_segment_bounds k1 k2 hc
      exact ⟨a1.trans h3, h4.trans b2⟩
    · obtain ⟨h3, h4⟩ := interp_segment_bounds (f := -I.brac w k) (g := -I.brac w (k + 1)) k1 k2 (by linarith)
      have hab : 0 < (I.eqvLatitude I.aq (k + 1)).getD 0 - (I.eqvLatitude I.aq k).getD 0 := by linarith
      rw [show (-I.brac w (k + 1) - -I.brac w k) = -(I.brac w (k + 1) - I.brac w k) by ring, neg_div,
        neg_mul] at h3 h4
      constructor <;> linarith
  · exact absurd (lt_of_le_of_lt (mono (show I.nPoints - 2 ≤ I.nPoints - 1 by omega))
      (lt_of_le_of_lt h h2)) (lt_irrefl _)

/-- Six rows with values 0, 1, ..., 5 on a full sphere, six bin edges: no bin is empty. -/
noncomputable def stairsInput : EqvInput where
  nlat := 6
  nlon := 1
  ylat := fun j => 36 * j - 90
  vort := fun r _ => r
  area := fun _ _ => 4 * Real.pi / 6
  nPoints := 6
  radius := 1

theorem stairsInput_sensible : stairsInput.Sensible where
  nlat_pos := by norm_num [stairsInput]
  nlon_pos := by norm_num [stairsInput]
  nPoints_pos := by norm_num [stairsInput]
  radius_ne := by norm_num [stairsInput]
  area_nonneg := fun _ _ => by
    have := Real.pi_pos
    simp only [stairsInput]; positivity
  area_fits := by
    simp only [stairsInput, cells, sum_const, card_product, card_range]
    norm_num
    linarith [Real.pi_pos]

theorem stairs_bins (i : ℕ) : stairsInput.bins i = i := by
  have h1 : amin 6 1 stairsInput.vort = 0 := by
    apply le_antisymm
    · have := amin_le (nlat := 6) (nlon := 1) (vort := stairsInput.vort) (p := (0, 0)) (by simp [mem_cells])
      simpa [stairsInput] using this
    · obtain ⟨p, _, e⟩ := exists_amin (vort := stairsInput.vort)
        (cells_nonempty (nlat := 6) (nlon := 1) (by norm_num) (by norm_num))
      rw [e]; simp [stairsInput]
  have h2 : amax 6 1 stairsInput.vort = 5 := by
    apply le_antisymm
    · obtain ⟨p, hp, e⟩ := exists_amax (vort := stairsInput.vort)
        (cells_nonempty (nlat := 6) (nlon := 1) (by norm_num) (by norm_num))
      rw [e]
      rw [mem_cells] at hp
      have : (p.1 : ℝ) ≤ 5 := by exact_mod_cast (by omega : p.1 ≤ 5)
      simpa [stairsInput] using this
    · have := le_amax (nlat := 6) (nlon := 1) (vort := stairsInput.vort) (p := (5, 0)) (by simp [mem_cells])
      simpa [stairsInput] using this
  show linspace (amin 6 1 stairsInput.vort) (amax 6 1 stairsInput.vort) 6 i = i
  rw [h1, h2]
  unfold linspace
  norm_num

theorem stairs_ind (r : ℕ) (hr : r < 5) : stairsInput.ind (r, 0) = r + 1 := by
  have h1 : stairsInput.ind (r, 0) ≤ r + 1 := by
    refine (digitize_le_iff stairsInput.bins_mono (show r + 1 < 6 by omega)).2 ?_
    rw [stairs_bins]
    show (r : ℝ) < ((r + 1 : ℕ) : ℝ)
    exact_mod_cast Nat.lt_succ_self r
  have h2 : ¬ stairsInput.ind (r, 0) ≤ r := by
    intro h
    have := (digitize_le_iff stairsInput.bins_mono (show r < 6 by omega)).1 h
    rw [stairs_bins] at this
    exact lt_irrefl _ this
  omega

theorem stairs_full (i : ℕ) (h1 : 1 ≤ i) (h2 : i < stairsInput.nPoints) :
    0 < stairsInput.binSum stairsInput.area i := by
  have h2' : i < 6 := h2
  refine sum_pos (fun p _ => ?_) ⟨(i - 1, 0), mem_filter.2 ⟨?_, ?_⟩⟩
  · have := Real.pi_pos
    simp only [stairsInput]; positivity
  · rw [mem_cells]; simp only [stairsInput]; omega
  · rw [stairs_ind _ (by omega)]; omega

/-- The hypotheses of the interior statement hold for the staircase, and there are latitudes in the range. -/
example : stairsInput.Sensible ∧ (∀ i, 1 ≤ i → i < stairsInput.nPoints →
    stairsInput.binSum stairsInput.area i ≠ 0) ∧
    (stairsInput.eqvLatitude stairsInput.aq 2).getD 0 <
      (stairsInput.eqvLatitude stairsInput.aq (stairsInput.nPoints - 2)).getD 0 := by
  have h := stairsInput_sensible
  refine ⟨h, fun i h1 h2 => (stairs_full i h1 h2).ne', ?_⟩
  have s := fun i (hi : 0 < stairsInput.binSum stairsInput.area (i + 1)) =>
    EqvInput.eqvLat_lt h.nPoints_pos h.radius_ne h.area_nonneg h.area_fits hi
  exact (s 2 (stairs_full 3 (by norm_num) (by norm_num [stairsInput]))).trans
    (s 3 (stairs_full 4 (by norm_num) (by norm_num [stairsInput])))

/-- C104, the exception at the south pole: for every field that is not constant the returned average is 0
there, whatever is averaged. -/
theorem C104_zero_at_pole (I : EqvInput) (hI : I.Sensible) (w : ℕ → ℕ → ℝ) (hn : 2 ≤ I.nPoints)
    (ha : ∀ p ∈ cells I.nlat I.nlon, 0 < I.area p.1 p.2)
    (hq : ∃ p ∈ cells I.nlat I.nlon, ∃ q ∈ cells I.nlat I.nlon, I.vort p.1 p.2 < I.vort q.1 q.2) :
    ∃ f, I.bracReturn w = .ok f ∧ ∀ j, I.ylat j = -90 → f j = 0 := by
  refine ⟨_, EqvInput.bracReturn_ok hI.nlat_pos hI.nlon_pos hI.nPoints_pos hI.radius_ne hI.area_nonneg
    hI.area_fits w, fun j hj => ?_⟩
  obtain ⟨p, hp, q, hq, hpq⟩ := hq
  have b1 := EqvInput.bin_one_pos hn ha hp hq hpq
  have lt1 := EqvInput.eqvLat_lt hI.nPoints_pos hI.radius_ne hI.area_nonneg hI.area_fits b1
  have mono := EqvInput.eqvLatitude_mono hI.nPoints_pos hI.radius_ne hI.area_nonneg hI.area_fits
  have h0 := I.eqvLat_zero
  rw [hj]
  have z : I.brac w 0 = 0 := by unfold EqvInput.brac; rw [if_neg (by omega)]
  rcases npInterp_cases (xp := fun i => (I.eqvLatitude I.aq i).getD 0) (fp := I.brac w)
    hI.nPoints_pos (-90) with ⟨_, h⟩ | ⟨k, hk, k1, k2, h⟩ | ⟨_, _, h⟩
  · rw [h, z]
  · have hk0 : k = 0 := by
      by_contra hc
      have : (I.eqvLatitude I.aq 1).getD 0 ≤ (I.eqvLatitude I.aq k).getD 0 := mono (show 1 ≤ k by omega)
      rw [h0] at lt1
      have e : (I.eqvLatitude I.aq (0 + 1)).getD 0 = (I.eqvLatitude I.aq 1).getD 0 := rfl
      rw [e] at lt1
      linarith
    subst hk0
    rw [h, z]
    rw [h0]; ring
  · rw [h]
    unfold EqvInput.brac
    rw [if_neg (by omega)]

theorem stairs_nonconstant : ∃ p ∈ cells stairsInput.nlat stairsInput.nlon,
    ∃ q ∈ cells stairsInput.nlat stairsInput.nlon,
      stairsInput.vort p.1 p.2 < stairsInput.vort q.1 q.2 :=
  ⟨(0, 0), by simp [mem_cells, stairsInput], (1, 0), by simp [mem_cells, stairsInput], by simp [stairsInput]⟩

theorem stairs_area_pos : ∀ p ∈ cells stairsInput.nlat stairsInput.nlon, 0 < stairsInput.area p.1 p.2 := by
  intro p _
  have := Real.pi_pos
  simp only [stairsInput]; positivity

example : stairsInput.Sensible ∧ 2 ≤ stairsInput.nPoints ∧ stairsInput.ylat 0 = -90 :=
  ⟨stairsInput_sensible, by norm_num [stairsInput], by norm_num [stairsInput]⟩

/-- C104 fails: the average of the constant 1 is 0 at the south pole. -/
theorem C104_refuted : ¬ C104_Statement := by
  intro h
  obtain ⟨f, hf, hb⟩ := h stairsInput (fun _ _ => 1) 1 1 stairsInput_sensible stairs_area_pos
    (fun _ _ _ _ => ⟨le_rfl, le_rfl⟩)
  obtain ⟨g, hg, hz⟩ := C104_zero_at_pole stairsInput stairsInput_sensible (fun _ _ => 1)
    (by norm_num [stairsInput]) stairs_area_pos stairs_nonconstant
  have : f = g := by
    rw [hf] at hg
    injection hg
  have h0 := hz 0 (by norm_num [stairsInput])
  have h1 := (hb 0 (by norm_num [stairsInput])).1
  rw [this, h0] at h1
  norm_num at h1

/-! ## C105, C106 -/

theorem EqvInput.fawa_ok (I : EqvInput) (hI : I.Sensible) :
    I.fawa = .ok (fun j => -(I.cbar (j + 1) +
      npInterp I.nPoints (fun i => (I.eqvLatitude I.aq i).getD 0) I.cq (I.ylat (j + 1))) /
        (2 * Real.pi * I.radius)) := by
  unfold EqvInput.fawa
  rw [EqvInput.interpToYlat_ok hI.nlat_pos hI.nlon_pos hI.nPoints_pos hI.radius_ne hI.area_nonneg
    hI.area_fits]
  rfl

theorem EqvInput.affine_sensible (I : EqvInput) (hI : I.Sensible) (t b : ℝ) : (I.affine t b).Sensible :=
  ⟨hI.nlat_pos, hI.nlon_pos, hI.nPoints_pos, hI.radius_ne, hI.area_nonneg, hI.area_fits⟩

/-- Spec: the area poleward of row `j` by the trapezoidal rule over rows, with `rowArea` the area of a row. -/
noncomputable def trapezoidCap (I : EqvInput) (j : ℕ) : ℝ :=
  ∑ k ∈ Ico j (I.nlat - 1), ((∑ c ∈ range I.nlon, I.area k c) + ∑ c ∈ range I.nlon, I.area (k + 1) c) / 2

theorem trapezoidCap_eq (I : EqvInput) {j : ℕ} (hj : j < I.nlat) :
    ∑ m ∈ range (I.nlat - 1 - j), (I.rowArea (I.nlat - 1 - m) + I.rowArea (I.nlat - 2 - m)) / 2 =
      trapezoidCap I j := by
  unfold trapezoidCap
  rw [sum_Ico_eq_sum_range, ← sum_range_reflect]
  refine sum_congr rfl fun m hm => ?_
  rw [mem_range] at hm
  unfold EqvInput.rowArea
  rw [show I.nlat - 1 - (I.nlat - 1 - j - 1 - m) = j + m + 1 by omega,
    show I.nlat - 2 - (I.nlat - 1 - j - 1 - m) = j + m by omega, add_comm]

theorem EqvInput.cbar_affine (I : EqvInput) (t b : ℝ) (h2 : 0 < I.nlon) {j : ℕ} (h1 : 1 ≤ j) (hj : j < I.nlat) :
    (I.affine t b).cbar j = t * I.cbar j + b * trapezoidCap I j := by
  have e : (I.affine t b).nlat = I.nlat := rfl
  unfold EqvInput.cbar
  rw [e, if_pos ⟨h1, hj⟩, if_pos ⟨h1, hj⟩, EqvInput.cbarFromTop_affine I t b h2, trapezoidCap_eq I hj]

/-- Affine law of FAWA behind C105 and C106. -/
theorem EqvInput.fawa_affine (I : EqvInput) (hI : I.Sensible) (t b : ℝ) (ht : 0 < t) :
    ∃ f g A, I.fawa = .ok f ∧ (I.affine t b).fawa = .ok g ∧ I.interpToYlat I.aq I.aq = .ok A ∧
      ∀ j, j + 1 < I.nlat →
        g j = t * f j - b * (trapezoidCap I (j + 1) + A (j + 1)) / (2 * Real.pi * I.radius) := by
  refine ⟨_, _, _, I.fawa_ok hI, (I.affine t b).fawa_ok (I.affine_sensible hI t b),
    EqvInput.interpToYlat_ok hI.nlat_pos hI.nlon_pos hI.nPoints_pos hI.radius_ne hI.area_nonneg
      hI.area_fits _, fun j hj => ?_⟩
  have e1 : (I.affine t b).nPoints = I.nPoints := rfl
  have e2 : (I.affine t b).ylat = I.ylat := rfl
  have e3 : (I.affine t b).radius = I.radius := rfl
  have e4 : (I.affine t b).eqvLatitude (I.affine t b).aq = I.eqvLatitude I.aq := by
    rw [EqvInput.aq_affine I t b ht hI.nlat_pos hI.nlon_pos]; rfl
  have e5 : (I.affine t b).cq = fun i => t * I.cq i + b * I.aq i :=
    funext fun i => EqvInput.cq_affine I t b ht hI.nlat_pos hI.nlon_pos i
  rw [I.cbar_affine t b hI.nlon_pos (by omega) hj, e1, e2, e3, e4, e5, npInterp_linear]
  ring

/-- C105 as users expect it: adding a constant to the vorticity displaces no contour and so changes no wave
activity. -/
def C105_Statement : Prop :=
  ∀ (I : EqvInput) (b : ℝ), I.Sensible →
    ∃ f g, I.fawa = .ok f ∧ ({ I with vort := fun r c => I.vort r c + b } : EqvInput).fawa = .ok g ∧
      ∀ j, j + 1 < I.nlat → g j = f j

theorem affine_one (I : EqvInput) (b : ℝ) :
    ({ I with vort := fun r c => I.vort r c + b } : EqvInput) = I.affine 1 b := by
  unfold EqvInput.affine; simp only [one_mul]

/-- C105, the exact effect: the constant times the area between the latitude and the pole plus the area
inside the reference contour, divided by the length `2 π a`. `A` is the area below the contour that
belongs to the latitude, interpolated as the profile is. -/
theorem C105_offset_partial (I : EqvInput) (hI : I.Sensible) (b : ℝ) :
    ∃ f g A, I.fawa = .ok f ∧ ({ I with vort := fun r c => I.vort r c + b } : EqvInput).fawa = .ok g ∧
      I.interpToYlat I.aq I.aq = .ok A ∧
      ∀ j, j + 1 < I.nlat →
        g j = f j - b * (trapezoidCap I (j + 1) + A (j + 1)) / (2 * Real.pi * I.radius) := by
  obtain ⟨f, g, A, h1, h2, h3, h⟩ := I.fawa_affine hI 1 b one_pos
  exact ⟨f, g, A, h1, (affine_one I b) ▸ h2, h3, fun j hj => by rw [h j hj, one_mul]⟩

/-- C105, how far the expectation fails: with positive cell areas a non-zero constant changes the value at
every row except the first and the last. -/
theorem C105_always_changes (I : EqvInput) (hI : I.Sensible) (b : ℝ) (hb : b ≠ 0)
    (ha : ∀ p ∈ cells I.nlat I.nlon, 0 < I.area p.1 p.2) :
    ∃ f g, I.fawa = .ok f ∧ ({ I with vort := fun r c => I.vort r c + b } : EqvInput).fawa = .ok g ∧
      ∀ j, j + 2 < I.nlat → g j ≠ f j := by
  obtain ⟨f, g, A, h1, h2, h3, h⟩ := C105_offset_partial I hI b
  refine ⟨f, g, h1, h2, fun j hj e => ?_⟩
  rw [EqvInput.interpToYlat_ok hI.nlat_pos hI.nlon_pos hI.nPoints_pos hI.radius_ne hI.area_nonneg
    hI.area_fits] at h3
  have hA : 0 ≤ A (j + 1) := by
    injection h3 with h3
    rw [← h3]
    exact (npInterp_within hI.nPoints_pos
      (fun i _ => ⟨EqvInput.aq_nonneg hI.nPoints_pos hI.area_nonneg i,
        EqvInput.aq_le_total hI.nPoints_pos hI.area_nonneg i⟩) _).1
  have hcap : 0 < trapezoidCap I (j + 1) := by
    unfold trapezoidCap
    refine sum_pos (fun k hk => ?_) ⟨j + 1, by rw [mem_Ico]; omega⟩
    rw [mem_Ico] at hk
    have p1 : 0 < ∑ c ∈ range I.nlon, I.area k c :=
      sum_pos (fun c hc => ha (k, c) (mem_cells.2 ⟨by omega, mem_range.1 hc⟩)) ⟨0, mem_range.2 hI.nlon_pos⟩
    have p2 : 0 < ∑ c ∈ range I.nlon, I.area (k + 1) c :=
      sum_pos (fun c hc => ha (k + 1, c) (mem_cells.2 ⟨by omega, mem_range.1 hc⟩)) ⟨0, mem_range.2 hI.nlon_pos⟩
    linarith
  have := h j (by omega)
  rw [e] at this
  have z : b * (trapezoidCap I (j + 1) + A (j + 1)) / (2 * Real.pi * I.radius) ≠ 0 := by
    refine div_ne_zero (mul_ne_zero hb (by linarith)) ?_
    have := Real.pi_ne_zero
    have := hI.radius_ne
    positivity
  exact z (by linarith)

example : stairsInput.Sensible ∧ (2 : ℝ) ≠ 0 ∧
    (∀ p ∈ cells stairsInput.nlat stairsInput.nlon, 0 < stairsInput.area p.1 p.2) ∧ 0 + 2 < stairsInput.nlat :=
  ⟨stairsInput_sensible, two_ne_zero, stairs_area_pos, by norm_num [stairsInput]⟩

/-- C105 fails. -/
theorem C105_refuted : ¬ C105_Statement := by
  intro h
  obtain ⟨f, g, h1, h2, h3⟩ := h stairsInput 1 stairsInput_sensible
  obtain ⟨f', g', h1', h2', h3'⟩ := C105_always_changes stairsInput stairsInput_sensible 1 one_ne_zero stairs_area_pos
  have e1 : f = f' := by rw [h1] at h1'; injection h1'
  have e2 : g = g' := by rw [h2] at h2'; injection h2'
  exact h3' 0 (by norm_num [stairsInput]) (by rw [← e1, ← e2]; exact h3 0 (by norm_num [stairsInput]))

/-- C105 for a state without any wave: a constant field has wave activity unless it is zero. -/
theorem C105_uniform_field (I : EqvInput) (hI : I.Sensible) (hn : 2 ≤ I.nPoints) (q : ℝ)
    (hq : ∀ r c, I.vort r c = q) :
    ∃ f, I.fawa = .ok f ∧ ∀ j, j + 1 < I.nlat →
      f j = -(q * trapezoidCap I (j + 1)) / (2 * Real.pi * I.radius) := by
  refine ⟨_, I.fawa_ok hI, fun j hj => ?_⟩
  have hcq : ∀ i < I.nPoints, I.cq i = 0 := by
    intro i hi
    unfold EqvInput.cq cumsum
    refine sum_eq_zero fun m hm => ?_
    split_ifs with h0
    · rfl
    · unfold EqvInput.binSum
      rw [filter_false_of_mem, sum_empty]
      intro p hp e
      have : I.ind p = I.nPoints := by
        rw [EqvInput.ind_eq_last_iff hn hp]
        obtain ⟨o, _, e'⟩ := exists_amax (vort := I.vort) ⟨p, hp⟩
        rw [e', hq, hq]
      rw [mem_range] at hm
      omega
  have hz : npInterp I.nPoints (fun i => (I.eqvLatitude I.aq i).getD 0) I.cq (I.ylat (j + 1)) = 0 := by
    have := npInterp_within (xp := fun i => (I.eqvLatitude I.aq i).getD 0) hI.nPoints_pos
      (fun i hi => ⟨(hcq i hi).ge, (hcq i hi).le⟩) (I.ylat (j + 1))
    exact le_antisymm this.2 this.1
  have hc : I.cbar (j + 1) = q * trapezoidCap I (j + 1) := by
    have hqb : ∀ k, I.qbar k = q := by
      intro k
      unfold EqvInput.qbar
      have : (I.nlon : ℝ) ≠ 0 := by exact_mod_cast hI.nlon_pos.ne'
      simp only [hq, sum_const, card_range, nsmul_eq_mul]
      field_simp
    have hd : ∀ d, I.cbarFromTop d =
        q * ∑ m ∈ range d, (I.rowArea (I.nlat - 1 - m) + I.rowArea (I.nlat - 2 - m)) / 2 := by
      intro d
      induction d with
      | zero => simp [EqvInput.cbarFromTop]
      | succ d ih =>
        unfold EqvInput.cbarFromTop
        rw [ih, hqb, hqb, sum_range_succ]
        ring
    unfold EqvInput.cbar
    rw [if_pos ⟨by omega, hj⟩, hd, trapezoidCap_eq I hj]
  rw [hz, hc, add_zero]

/-- A constant field on the sample grid. -/
example : ∃ I : EqvInput, I.Sensible ∧ 2 ≤ I.nPoints ∧ (∀ r c, I.vort r c = 3) :=
  ⟨{ sampleInput with vort := fun _ _ => 3 },
    ⟨sampleInput_sensible.nlat_pos, sampleInput_sensible.nlon_pos, sampleInput_sensible.nPoints_pos,
      sampleInput_sensible.radius_ne, sampleInput_sensible.area_nonneg, sampleInput_sensible.area_fits⟩,
    by norm_num [sampleInput], fun _ _ => rfl⟩

/-- C106, amplitude: FAWA of `t q` is `t` times FAWA of `q`, for `t > 0`. -/
theorem C106_scale_field (I : EqvInput) (hI : I.Sensible) (t : ℝ) (ht : 0 < t) :
    ∃ f g, I.fawa = .ok f ∧ ({ I with vort := fun r c => t * I.vort r c } : EqvInput).fawa = .ok g ∧
      ∀ j, j + 1 < I.nlat → g j = t * f j := by
  obtain ⟨f, g, A, h1, h2, _, h⟩ := I.fawa_affine hI t 0 ht
  have e : ({ I with vort := fun r c => t * I.vort r c } : EqvInput) = I.affine t 0 := by
    unfold EqvInput.affine; simp only [add_zero]
  exact ⟨f, g, h1, e ▸ h2, fun j hj => by rw [h j hj]; ring⟩

/-- C106, unit of length: with the radius `s` times and the areas `s²` times as large, FAWA is `s` times as
large. -/
theorem C106_scale_length (I : EqvInput) (hr : I.radius ≠ 0) (s : ℝ) (hs : s ≠ 0) :
    ({ I with radius := s * I.radius, area := fun r c => s ^ 2 * I.area r c } : EqvInput).fawa =
      I.fawa.map (fun f j => s * f j) := by
  set J : EqvInput := { I with radius := s * I.radius, area := fun r c => s ^ 2 * I.area r c } with hJ
  have hsum : ∀ w w' : ℕ → ℕ → ℝ, (∀ r c, w' r c = s ^ 2 * w r c) → ∀ i,
      cumsum (fun m => if m = 0 then 0 else J.binSum w' m) i =
        s ^ 2 * cumsum (fun m => if m = 0 then 0 else I.binSum w m) i := by
    intro w w' hw i
    unfold cumsum
    rw [mul_sum]
    refine sum_congr rfl fun m _ => ?_
    beta_reduce
    split_ifs
    · rw [mul_zero]
    · unfold EqvInput.binSum
      rw [mul_sum]
      exact sum_congr rfl fun p _ => hw _ _
  have hl : J.eqvLatitude J.aq = I.eqvLatitude I.aq := by
    funext i
    unfold EqvInput.eqvLatitude EqvInput.gaussianGrid
    have : J.aq i = s ^ 2 * I.aq i := hsum I.area J.area (fun _ _ => rfl) i
    rw [this]
    congr 2
    show s ^ 2 * I.aq i / (2 * Real.pi * (s * I.radius) ^ 2) = _
    rw [mul_pow, show 2 * Real.pi * (s ^ 2 * I.radius ^ 2) = s ^ 2 * (2 * Real.pi * I.radius ^ 2) by ring,
      mul_div_mul_left _ _ (pow_ne_zero 2 hs)]
  have hcq : J.cq = fun i => s ^ 2 * I.cq i + 0 := by
    funext i
    rw [add_zero]
    exact hsum _ _ (fun r c => by show s ^ 2 * I.area r c * I.vort r c = _; ring) i
  have hrow : ∀ k, J.rowArea k = s ^ 2 * I.rowArea k := fun k => by
    unfold EqvInput.rowArea; rw [mul_sum]
  have hd : ∀ d, J.cbarFromTop d = s ^ 2 * I.cbarFromTop d := by
    intro d
    induction d with
    | zero => simp [EqvInput.cbarFromTop]
    | succ d ih =>
      have q : J.qbar = I.qbar := rfl
      have n : J.nlat = I.nlat := rfl
      unfold EqvInput.cbarFromTop
      rw [ih, hrow, hrow, q, n]
      ring
  have hc : ∀ k, J.cbar k = s ^ 2 * I.cbar k := by
    intro k
    have n : J.nlat = I.nlat := rfl
    unfold EqvInput.cbar
    rw [n]
    split_ifs
    · exact hd _
    · rw [mul_zero]
  unfold EqvInput.fawa EqvInput.interpToYlat
  have e1 : J.nlat = I.nlat := rfl
  have e2 : J.nlon = I.nlon := rfl
  have e3 : J.nPoints = I.nPoints := rfl
  have e4 : J.ylat = I.ylat := rfl
  have e5 : J.radius = s * I.radius := rfl
  rw [hl, hcq, e1, e2, e3, e4, e5]
  split_ifs
  · rfl
  · simp only [Outcome.map, Outcome.ok.injEq]
    funext j
    rw [npInterp_affine, hc]
    have := Real.pi_ne_zero
    field_simp
    ring
  · rfl

/-- C106, rotation: with areas that do not depend on longitude, each circle of latitude may be rotated by its own
amount without any effect on FAWA. -/
theorem C106_rotate_circles (I : EqvInput) (s : ℕ → ℕ) (harea : ∀ r c c', I.area r c = I.area r c') :
    ({ I with vort := fun r c => I.vort r ((c + s r) % I.nlon) } : EqvInput).fawa = I.fawa := by
  set J : EqvInput := { I with vort := fun r c => I.vort r ((c + s r) % I.nlon) } with hJ
  have hinj : Set.InjOn (fun p : ℕ × ℕ => (p.1, (p.2 + s p.1) % I.nlon)) (cells I.nlat I.nlon) := by
    rintro ⟨r, c⟩ h ⟨r', c'⟩ h' e
    simp only [mem_coe, mem_cells] at h h'
    simp only [Prod.mk.injEq] at e
    obtain ⟨rfl, e⟩ := e
    have : c ≡ c' [MOD I.nlon] := Nat.ModEq.add_right_cancel' (s r) e
    rw [Nat.ModEq, Nat.mod_eq_of_lt h.2, Nat.mod_eq_of_lt h'.2] at this
    rw [this]
  have himg : (cells I.nlat I.nlon).image (fun p : ℕ × ℕ => (p.1, (p.2 + s p.1) % I.nlon)) =
      cells I.nlat I.nlon := by
    apply eq_of_subset_of_card_le
    · intro p hp
      obtain ⟨q, hq, rfl⟩ := mem_image.1 hp
      rw [mem_cells] at hq ⊢
      exact ⟨hq.1, Nat.mod_lt _ (by omega)⟩
    · rw [card_image_of_injOn hinj]
  have hpairs : J.pairs = I.pairs := by
    show Multiset.map _ (cells I.nlat I.nlon).val = Multiset.map _ (cells I.nlat I.nlon).val
    conv_rhs => rw [← himg, Finset.image_val_of_injOn hinj, Multiset.map_map]
    refine Multiset.map_congr rfl fun p _ => ?_
    simp only [Function.comp]
    rw [harea p.1 ((p.2 + s p.1) % I.nlon) p.2]
  have haq : J.aq = I.aq := by
    funext i
    unfold EqvInput.aq cumsum
    refine sum_congr rfl fun m _ => ?_
    beta_reduce
    rw [EqvInput.binSum_of_pairs hpairs rfl]
  have hcq : J.cq = I.cq := by
    funext i
    unfold EqvInput.cq cumsum
    refine sum_congr rfl fun m _ => ?_
    beta_reduce
    rw [EqvInput.binSum_mul_of_pairs hpairs rfl]
  have hq : J.qbar = I.qbar := by
    funext r
    unfold EqvInput.qbar
    show (∑ c ∈ range I.nlon, I.vort r ((c + s r) % I.nlon)) / (I.nlon : ℝ) = _
    congr 1
    refine sum_bij (fun c _ => (c + s r) % I.nlon) (fun c hc => ?_) (fun c hc c' hc' e => ?_)
      (fun c hc => ?_) (fun c hc => rfl)
    · rw [mem_range] at hc ⊢; exact Nat.mod_lt _ (by omega)
    · rw [mem_range] at hc hc'
      have : c ≡ c' [MOD I.nlon] := Nat.ModEq.add_right_cancel' (s r) e
      rwa [Nat.ModEq, Nat.mod_eq_of_lt hc, Nat.mod_eq_of_lt hc'] at this
    · rw [mem_range] at hc
      refine ⟨(c + (I.nlon - s r % I.nlon)) % I.nlon, mem_range.2 (Nat.mod_lt _ (by omega)), ?_⟩
      have hlt := Nat.mod_lt (s r) (show I.nlon > 0 by omega)
      rw [Nat.mod_add_mod, ← Nat.add_mod_mod,
        show c + (I.nlon - s r % I.nlon) + s r % I.nlon = c + I.nlon by omega, Nat.add_mod_right,
        Nat.mod_eq_of_lt hc]
  have hd : ∀ d, J.cbarFromTop d = I.cbarFromTop d := by
    intro d
    induction d with
    | zero => rfl
    | succ d ih =>
      have ra : J.rowArea = I.rowArea := rfl
      have n : J.nlat = I.nlat := rfl
      unfold EqvInput.cbarFromTop
      rw [ih, hq, ra, n]
  have hc : J.cbar = I.cbar := by
    funext k
    have n : J.nlat = I.nlat := rfl
    unfold EqvInput.cbar
    rw [n, hd]
  have hl : J.interpToYlat J.aq J.cq = I.interpToYlat I.aq I.cq := by rw [haq, hcq]; rfl
  unfold EqvInput.fawa
  rw [hl, hc]

/-- The sample field with area that does not depend on longitude. -/
example : sampleInput.Sensible ∧ (0 : ℝ) < 2 ∧ (1000 : ℝ) ≠ 0 ∧
    ∀ r c c', sampleInput.area r c = sampleInput.area r c' :=
  ⟨sampleInput_sensible, two_pos, by norm_num, fun _ _ _ => rfl⟩

end Falwa
