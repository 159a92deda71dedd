import Verif.Lemmas.Eqvlat
import Verif.Lemmas.Lwa
import Mathlib.Tactic.NormNum
import Mathlib.Tactic.IntervalCases
import Mathlib.Analysis.Real.Pi.Bounds

/-!
# Properties of the equivalent-latitude analysis (C08-C11, C13)
-/

namespace Falwa

open Finset

/-- Assumptions of a sensible call: non-empty grid, at least one bin, non-negative cell areas that fit
on the sphere. -/
structure EqvInput.Sensible (I : EqvInput) : Prop where
  nlat_pos : 0 < I.nlat
  nlon_pos : 0 < I.nlon
  nPoints_pos : 0 < I.nPoints
  radius_ne : I.radius ≠ 0
  area_nonneg : ∀ p ∈ cells I.nlat I.nlon, 0 ≤ I.area p.1 p.2
  area_fits : ∑ p ∈ cells I.nlat I.nlon, I.area p.1 p.2 ≤ 4 * Real.pi * I.radius ^ 2

/-- A concrete input: 3 latitudes, 2 longitudes, values 0, 0 / 5, 1 / 2, 2, unit areas. -/
noncomputable def sampleInput : EqvInput where
  nlat := 3
  nlon := 2
  ylat := fun j => 45 * j - 45
  vort := fun r c => if r = 0 then 0 else if r = 1 then (if c = 0 then 5 else 1) else 2
  area := fun _ _ => 1
  nPoints := 4
  radius := 1

theorem sampleInput_sensible : sampleInput.Sensible where
  nlat_pos := by norm_num [sampleInput]
  nlon_pos := by norm_num [sampleInput]
  nPoints_pos := by norm_num [sampleInput]
  radius_ne := by norm_num [sampleInput]
  area_nonneg := fun _ _ => by norm_num [sampleInput]
  area_fits := by
    have := Real.pi_gt_three
    simp only [sampleInput, cells, sum_const, card_product, card_range]
    norm_num
    linarith

/-! ## C08 -/

/-- C08. The analysis succeeds, the profile is non-decreasing along ascending latitudes, and it stays
between any lower and any upper bound of the field. -/
theorem C08_qref_monotone_bounded (I : EqvInput) (hI : I.Sensible)
    (hy : ∀ j k, j ≤ k → k < I.nlat → I.ylat j ≤ I.ylat k) :
    ∃ f, I.qref = .ok f ∧
      (∀ j k, j ≤ k → k < I.nlat → f j ≤ f k) ∧
      (∀ m, (∀ r < I.nlat, ∀ c < I.nlon, m ≤ I.vort r c) → ∀ j, m ≤ f j) ∧
      (∀ m, (∀ r < I.nlat, ∀ c < I.nlon, I.vort r c ≤ m) → ∀ j, f j ≤ m) := by
  refine ⟨_, EqvInput.interpToYlat_ok hI.nlat_pos hI.nlon_pos hI.nPoints_pos hI.radius_ne
    hI.area_nonneg hI.area_fits _, ?_, ?_, ?_⟩
  · intro j k hjk hk
    exact npInterp_mono hI.nPoints_pos
      (fun a b hab _ => EqvInput.eqvLatitude_mono hI.nPoints_pos hI.radius_ne hI.area_nonneg hI.area_fits hab)
      (fun a b hab _ => I.bins_mono hab) (hy j k hjk hk)
  · intro m hm j
    refine le_trans ?_ (npInterp_bounds hI.nPoints_pos (fun a b hab _ => I.bins_mono hab) _).1
    rw [I.bins_zero]
    obtain ⟨p, hp, e⟩ := exists_amin (vort := I.vort) (cells_nonempty hI.nlat_pos hI.nlon_pos)
    rw [e]; rw [mem_cells] at hp; exact hm _ hp.1 _ hp.2
  · intro m hm j
    refine le_trans (npInterp_bounds hI.nPoints_pos (fun a b hab _ => I.bins_mono hab) _).2 ?_
    refine le_trans (linspace_le_hi amin_le_amax (by have := hI.nPoints_pos; omega)) ?_
    obtain ⟨p, hp, e⟩ := exists_amax (vort := I.vort) (cells_nonempty hI.nlat_pos hI.nlon_pos)
    rw [e]; rw [mem_cells] at hp; exact hm _ hp.1 _ hp.2

example : sampleInput.Sensible ∧ ∀ j k, j ≤ k → k < sampleInput.nlat → sampleInput.ylat j ≤ sampleInput.ylat k :=
  ⟨sampleInput_sensible, fun j k h _ => by
    have : (j : ℝ) ≤ k := by exact_mod_cast h
    simp only [sampleInput]; linarith⟩

/-! ## C09 -/

/-- C09. Two inputs with the same multiset of (value, area) pairs, the same latitudes, resolution and radius
have the same reference profile. The grids may even have different shapes. -/
theorem C09_qref_of_distribution (I J : EqvInput)
    (hpairs : (cells I.nlat I.nlon).val.map (fun p => (I.vort p.1 p.2, I.area p.1 p.2)) =
      (cells J.nlat J.nlon).val.map (fun p => (J.vort p.1 p.2, J.area p.1 p.2)))
    (hy : I.ylat = J.ylat) (hn : I.nPoints = J.nPoints) (hr : I.radius = J.radius) :
    I.qref = J.qref := by
  have hb := EqvInput.bins_of_pairs (I := I) (J := J) hpairs hn
  have ha : I.aq = J.aq := by
    funext i
    unfold EqvInput.aq cumsum
    refine sum_congr rfl fun m _ => ?_
    beta_reduce
    rw [EqvInput.binSum_of_pairs (I := I) (J := J) hpairs hn]
  have he : (I.nlat = 0 ∨ I.nlon = 0 ∨ I.nPoints = 0) ↔ (J.nlat = 0 ∨ J.nlon = 0 ∨ J.nPoints = 0) := by
    rw [← or_assoc, ← or_assoc, EqvInput.empty_iff, EqvInput.empty_iff, hn]
    have : (cells I.nlat I.nlon).Nonempty ↔ (cells J.nlat J.nlon).Nonempty :=
      ⟨EqvInput.nonempty_of_pairs hpairs, EqvInput.nonempty_of_pairs hpairs.symm⟩
    rw [this]
  have hl : I.eqvLatitude I.aq = J.eqvLatitude J.aq := by
    funext i
    unfold EqvInput.eqvLatitude EqvInput.gaussianGrid
    rw [ha, hr]
  unfold EqvInput.qref EqvInput.interpToYlat
  rw [hl, hb, hn, hy]
  by_cases h : (J.nlat = 0 ∨ J.nlon = 0 ∨ J.nPoints = 0)
  · rw [if_pos h, if_pos (hn ▸ he.2 h)]
  · rw [if_neg h, if_neg (hn ▸ fun h' => h (he.1 h'))]

/-- C09, in the form of a rearrangement: moving the cells (with their areas) by any bijection of the grid
leaves the profile unchanged. -/
theorem C09_qref_rearrangement (I : EqvInput) (σ : Equiv.Perm (ℕ × ℕ))
    (hσ : ∀ p, σ p ∈ cells I.nlat I.nlon ↔ p ∈ cells I.nlat I.nlon) :
    ({ I with vort := fun r c => I.vort (σ (r, c)).1 (σ (r, c)).2,
              area := fun r c => I.area (σ (r, c)).1 (σ (r, c)).2 } : EqvInput).qref = I.qref := by
  apply C09_qref_of_distribution
  · show Multiset.map _ (cells I.nlat I.nlon).val = Multiset.map _ (cells I.nlat I.nlon).val
    have : (cells I.nlat I.nlon).val = ((cells I.nlat I.nlon).map σ.toEmbedding).val := by
      congr 1
      ext p
      rw [mem_map_equiv]
      have := hσ (σ.symm p)
      rw [Equiv.apply_symm_apply] at this
      exact this
    conv_rhs => rw [this, Finset.map_val, Multiset.map_map]
    rfl
  · rfl
  · rfl
  · rfl

/-- C09, rotation: with an area table that does not depend on longitude, rotating the field in longitude by `s`
leaves the profile unchanged. -/
theorem C09_qref_rotation (I : EqvInput) (s : ℕ) (harea : ∀ r c c', I.area r c = I.area r c') :
    ({ I with vort := fun r c => I.vort r ((c + s) % I.nlon) } : EqvInput).qref = I.qref := by
  apply C09_qref_of_distribution
  · show Multiset.map _ (cells I.nlat I.nlon).val = Multiset.map _ (cells I.nlat I.nlon).val
    have hinj : Set.InjOn (fun p : ℕ × ℕ => (p.1, (p.2 + s) % I.nlon)) (cells I.nlat I.nlon) := by
      rintro ⟨r, c⟩ h ⟨r', c'⟩ h' e
      simp only [mem_coe, mem_cells] at h h'
      simp only [Prod.mk.injEq] at e
      obtain ⟨rfl, e⟩ := e
      have : c ≡ c' [MOD I.nlon] := Nat.ModEq.add_right_cancel' s e
      rw [Nat.ModEq, Nat.mod_eq_of_lt h.2, Nat.mod_eq_of_lt h'.2] at this
      rw [this]
    have himg : (cells I.nlat I.nlon).image (fun p : ℕ × ℕ => (p.1, (p.2 + s) % I.nlon)) =
        cells I.nlat I.nlon := by
      apply eq_of_subset_of_card_le
      · intro p hp
        obtain ⟨q, hq, rfl⟩ := mem_image.1 hp
        rw [mem_cells] at hq ⊢
        exact ⟨hq.1, Nat.mod_lt _ (by omega)⟩
      · rw [card_image_of_injOn hinj]
    conv_rhs => rw [← himg, Finset.image_val_of_injOn hinj, Multiset.map_map]
    refine Multiset.map_congr rfl fun p _ => ?_
    simp only [Function.comp]
    rw [harea p.1 p.2 ((p.2 + s) % I.nlon)]
  · rfl
  · rfl
  · rfl

/-- Swapping two cells of the sample grid is such a bijection, and so is a rotation of its field. -/
example : (∀ p, Equiv.swap ((0, 0) : ℕ × ℕ) (1, 1) p ∈ cells sampleInput.nlat sampleInput.nlon ↔
    p ∈ cells sampleInput.nlat sampleInput.nlon) ∧
    (∀ r c c', sampleInput.area r c = sampleInput.area r c') := by
  refine ⟨fun p => ?_, fun _ _ _ => rfl⟩
  by_cases h1 : p = (0, 0)
  · subst h1; simp [mem_cells, sampleInput]
  · by_cases h2 : p = (1, 1)
    · subst h2; simp [mem_cells, sampleInput]
    · rw [Equiv.swap_apply_of_ne_of_ne h1 h2]

/-! ## C10 -/

/-- C10. `eqvlat_vgrad` and `eqvlat_fawa` give the same profile on every input (including the error cases). -/
theorem C10_same_profile (I : EqvInput) : I.qrefVgrad = I.qref := by
  unfold EqvInput.qrefVgrad EqvInput.qref
  by_cases hn : 0 < I.nPoints
  · rw [EqvInput.aq_eq_aqVgrad hn]
  · unfold EqvInput.interpToYlat
    rw [if_pos (by omega), if_pos (by omega)]

example : ∃ f, sampleInput.qrefVgrad = .ok f := by
  rw [C10_same_profile]
  exact ⟨_, EqvInput.interpToYlat_ok sampleInput_sensible.nlat_pos sampleInput_sensible.nlon_pos
    sampleInput_sensible.nPoints_pos sampleInput_sensible.radius_ne sampleInput_sensible.area_nonneg
    sampleInput_sensible.area_fits _⟩

/-! ## C11 -/

/-- C11, bookkeeping: the cumulative area starts at 0, never decreases, and the last entry plus the area of
the cells attaining the maximum is the total area. Entry `i` is the area of the cells below bin edge `i`. -/
theorem C11_area_bookkeeping (I : EqvInput) (hn : 2 ≤ I.nPoints)
    (ha : ∀ p ∈ cells I.nlat I.nlon, 0 ≤ I.area p.1 p.2) :
    I.aq 0 = 0 ∧ Monotone I.aq ∧
    (∀ i < I.nPoints, I.aq i =
      ∑ p ∈ (cells I.nlat I.nlon).filter (fun p => I.vort p.1 p.2 < I.bins i), I.area p.1 p.2) ∧
    I.aq (I.nPoints - 1) + ∑ p ∈ (cells I.nlat I.nlon).filter
        (fun p => ∀ q ∈ cells I.nlat I.nlon, I.vort q.1 q.2 ≤ I.vort p.1 p.2), I.area p.1 p.2 =
      ∑ p ∈ cells I.nlat I.nlon, I.area p.1 p.2 := by
  have key : ∀ i < I.nPoints, I.aq i =
      ∑ p ∈ (cells I.nlat I.nlon).filter (fun p => I.vort p.1 p.2 < I.bins i), I.area p.1 p.2 := by
    intro i hi
    rw [EqvInput.aq_eq (by omega)]
    refine sum_congr (filter_congr fun p _ => ?_) fun _ _ => rfl
    exact digitize_le_iff I.bins_mono hi
  refine ⟨I.aq_zero, EqvInput.aq_mono (by omega) ha, key, ?_⟩
  rw [key _ (by omega), ← sum_filter_add_sum_filter_not (cells I.nlat I.nlon)
    (fun p => I.vort p.1 p.2 < I.bins (I.nPoints - 1))]
  congr 1
  refine sum_congr (filter_congr fun p hp => ?_) fun _ _ => rfl
  have hl : I.bins (I.nPoints - 1) = amax I.nlat I.nlon I.vort := linspace_last _ _ hn
  rw [hl, not_lt]
  constructor
  · intro h
    obtain ⟨q, hq, e⟩ := exists_amax (vort := I.vort) ⟨p, hp⟩
    rw [e]; exact h q hq
  · intro h q hq; exact (le_amax hq).trans h

/-- C11, no NaN: for a sensible call every argument of `arcsin` lies in `[-1, 1]`, the first one is `-1`
and the arguments do not decrease. -/
theorem C11_arcsin_defined (I : EqvInput) (hI : I.Sensible) :
    I.gaussianGrid I.aq 0 = -1 ∧ Monotone (I.gaussianGrid I.aq) ∧
    ∀ i, -1 ≤ I.gaussianGrid I.aq i ∧ I.gaussianGrid I.aq i ≤ 1 := by
  refine ⟨by simp [EqvInput.gaussianGrid, I.aq_zero], ?_,
    EqvInput.gaussianGrid_mem hI.nPoints_pos hI.radius_ne hI.area_nonneg hI.area_fits⟩
  intro i j hij
  unfold EqvInput.gaussianGrid
  have hpos : 0 < 2 * Real.pi * I.radius ^ 2 := by
    have := Real.pi_pos
    have := hI.radius_ne
    positivity
  have := div_le_div_of_nonneg_right (EqvInput.aq_mono hI.nPoints_pos hI.area_nonneg hij) hpos.le
  linarith

/-- C11, the bound on the areas is needed: if the area below the top bin exceeds the sphere, NaN arises. -/
theorem C11_nan_if_too_large (I : EqvInput) (h1 : 0 < I.nlat) (h2 : 0 < I.nlon) (hn : 0 < I.nPoints)
    (hr : I.radius ≠ 0) (hbig : 4 * Real.pi * I.radius ^ 2 < I.aq (I.nPoints - 1)) : I.qref = .nan := by
  unfold EqvInput.qref EqvInput.interpToYlat
  rw [if_neg (by omega), if_neg]
  intro h
  have := (EqvInput.arcsinDeg_isSome_iff _).1 (h (I.nPoints - 1) (by omega))
  have hpos : 0 < 2 * Real.pi * I.radius ^ 2 := by
    have := Real.pi_pos
    positivity
  unfold EqvInput.gaussianGrid at this
  have h3 : I.aq (I.nPoints - 1) / (2 * Real.pi * I.radius ^ 2) ≤ 2 := by linarith [this.2]
  rw [div_le_iff₀ hpos] at h3
  linarith

example : 2 ≤ sampleInput.nPoints ∧ sampleInput.Sensible := ⟨by norm_num [sampleInput], sampleInput_sensible⟩

/-- An input with too much area: one cell of area 100 on the unit sphere below a cell with the maximum. -/
noncomputable def tooLargeInput : EqvInput where
  nlat := 2
  nlon := 1
  ylat := fun j => j
  vort := fun r _ => r
  area := fun _ _ => 100
  nPoints := 2
  radius := 1

example : 4 * Real.pi * tooLargeInput.radius ^ 2 < tooLargeInput.aq (tooLargeInput.nPoints - 1) := by
  set I := tooLargeInput with hI
  have h := (C11_area_bookkeeping I (by norm_num [I, tooLargeInput]) (fun _ _ => by norm_num [I, tooLargeInput])).2.2.1 1 (by norm_num [I, tooLargeInput])
  have hl : I.bins 1 = amax 2 1 I.vort := linspace_last _ _ (by norm_num [I, tooLargeInput])
  have hmax : (1 : ℝ) ≤ amax 2 1 I.vort := by
    have := le_amax (nlat := 2) (nlon := 1) (vort := I.vort) (p := (1, 0)) (by simp [mem_cells])
    simpa [I, tooLargeInput] using this
  have h0 : ((0, 0) : ℕ × ℕ) ∈ (cells I.nlat I.nlon).filter (fun p => I.vort p.1 p.2 < I.bins 1) := by
    rw [mem_filter, hl, mem_cells]
    refine ⟨by simp [I, tooLargeInput], ?_⟩
    simp only [I, tooLargeInput, Nat.cast_zero]
    exact lt_of_lt_of_le one_pos hmax
  have : (100 : ℝ) ≤ I.aq 1 := by
    rw [h]
    exact single_le_sum (f := fun p : ℕ × ℕ => I.area p.1 p.2) (fun p _ => by norm_num [I, tooLargeInput]) h0
  have hpi := Real.pi_lt_four
  show 4 * Real.pi * (1 : ℝ) ^ 2 < I.aq 1
  linarith

/-! ## C13 -/

/-- C13, affine changes of the field: `q ↦ t q + b` with `t > 0` changes the profile in the same way. -/
theorem C13_affine_field (I : EqvInput) (t b : ℝ) (ht : 0 < t) :
    ({ I with vort := fun r c => t * I.vort r c + b } : EqvInput).qref =
      I.qref.map (fun f j => t * f j + b) := by
  by_cases he : I.nlat = 0 ∨ I.nlon = 0 ∨ I.nPoints = 0
  · unfold EqvInput.qref EqvInput.interpToYlat
    rw [if_pos he, if_pos he]; rfl
  · set J : EqvInput := { I with vort := fun r c => t * I.vort r c + b } with hJ
    have hne : (cells I.nlat I.nlon).Nonempty := cells_nonempty (by omega) (by omega)
    have hb : J.bins = fun i => t * I.bins i + b := by
      funext i
      show linspace (amin I.nlat I.nlon (fun r c => t * I.vort r c + b))
        (amax I.nlat I.nlon (fun r c => t * I.vort r c + b)) I.nPoints i = _
      rw [amin_affine ht b hne, amax_affine ht b hne, linspace_affine]; rfl
    have hi : J.ind = I.ind := by
      funext p
      unfold EqvInput.ind
      rw [hb]
      refine digitize_congr fun i _ => ?_
      show t * I.bins i + b ≤ t * I.vort p.1 p.2 + b ↔ _
      rw [add_le_add_iff_right, mul_le_mul_iff_right₀ ht]
    have ha : J.aq = I.aq := by
      funext i
      unfold EqvInput.aq EqvInput.binSum
      rw [hi]
    have hl : J.eqvLatitude J.aq = I.eqvLatitude I.aq := by rw [ha]; rfl
    unfold EqvInput.qref EqvInput.interpToYlat
    rw [hl, hb]
    have e1 : J.nlat = I.nlat := rfl
    have e2 : J.nlon = I.nlon := rfl
    have e3 : J.nPoints = I.nPoints := rfl
    have e4 : J.ylat = I.ylat := rfl
    rw [e1, e2, e3, e4, if_neg he, if_neg he]
    split_ifs
    · simp only [Outcome.map, npInterp_affine]
    · rfl

/-- C13, change of length unit: scaling the radius by `s ≠ 0` and the areas by `s²` changes nothing. -/
theorem C13_scale_length (I : EqvInput) (s : ℝ) (hs : s ≠ 0) :
    ({ I with radius := s * I.radius, area := fun r c => s ^ 2 * I.area r c } : EqvInput).qref = I.qref := by
  set J : EqvInput := { I with radius := s * I.radius, area := fun r c => s ^ 2 * I.area r c } with hJ
  have hl : J.eqvLatitude J.aq = I.eqvLatitude I.aq := by
    funext i
    unfold EqvInput.eqvLatitude EqvInput.gaussianGrid
    have : J.aq i = s ^ 2 * I.aq i := by
      unfold EqvInput.aq cumsum EqvInput.binSum
      rw [mul_sum]
      refine sum_congr rfl fun m _ => ?_
      beta_reduce
      split_ifs
      · rw [mul_zero]
      · rw [mul_sum]; rfl
    rw [this]
    congr 2
    show s ^ 2 * I.aq i / (2 * Real.pi * (s * I.radius) ^ 2) = _
    rw [mul_pow, show 2 * Real.pi * (s ^ 2 * I.radius ^ 2) = s ^ 2 * (2 * Real.pi * I.radius ^ 2) by ring,
      mul_div_mul_left _ _ (pow_ne_zero 2 hs)]
  have hb : J.bins = I.bins := rfl
  unfold EqvInput.qref EqvInput.interpToYlat
  rw [hl, hb]

/-- Doubling the sample field and adding 3, and changing metres to kilometres. -/
example : (0 : ℝ) < 2 ∧ (1000 : ℝ) ≠ 0 ∧ sampleInput.Sensible :=
  ⟨by norm_num, by norm_num, sampleInput_sensible⟩

/-! ## C02, last row, for the derived profile -/

/-- With the profile of `eqvlat_fawa`, and a last latitude at or beyond the last equivalent latitude (as it is
for a grid that ends at the pole), the last row of `lwa` also equals the displaced-contour integral. -/
theorem C02_last_row_derived_profile (I : EqvInput) (hI : I.Sensible) (hn : 2 ≤ I.nPoints)
    (hpole : 90 ≤ I.ylat (I.nlat - 1)) (dmu : ℕ → ℝ) (c : ℕ) (hc : c < I.nlon) :
    ∃ f, I.qref = .ok f ∧ lwaTotal I.nlat I.vort f dmu (I.nlat - 1) c =
      Spec.waveActivity I.nlat I.vort f dmu (I.nlat - 1) c := by
  refine ⟨_, EqvInput.interpToYlat_ok hI.nlat_pos hI.nlon_pos hI.nPoints_pos hI.radius_ne
    hI.area_nonneg hI.area_fits _, ?_⟩
  have hlat : (I.eqvLatitude I.aq (I.nPoints - 1)).getD 0 ≤ 90 := by
    unfold EqvInput.eqvLatitude
    rw [EqvInput.arcsinDeg_getD (EqvInput.gaussianGrid_mem hI.nPoints_pos hI.radius_ne
      hI.area_nonneg hI.area_fits _)]
    have h := Real.arcsin_le_pi_div_two (I.gaussianGrid I.aq (I.nPoints - 1))
    unfold rad2deg
    rw [div_le_iff₀ Real.pi_pos]
    linarith
  have hq : ∀ r < I.nlat, I.vort r c ≤ npInterp I.nPoints (fun i => (I.eqvLatitude I.aq i).getD 0) I.bins
      (I.ylat (I.nlat - 1)) := by
    intro r hr
    have hmax : I.vort r c ≤ I.bins (I.nPoints - 1) := by
      have : I.bins (I.nPoints - 1) = amax I.nlat I.nlon I.vort := linspace_last _ _ hn
      rw [this]; exact le_amax (p := (r, c)) (mem_cells.2 ⟨hr, hc⟩)
    have hmono := EqvInput.eqvLatitude_mono hI.nPoints_pos hI.radius_ne hI.area_nonneg hI.area_fits
    rcases npInterp_cases (xp := fun i => (I.eqvLatitude I.aq i).getD 0) (fp := I.bins) hI.nPoints_pos
      (I.ylat (I.nlat - 1)) with ⟨h, _⟩ | ⟨j, hj, _, h, _⟩ | ⟨_, _, h⟩
    · exact absurd (hmono (Nat.zero_le (I.nPoints - 1))) (not_le.2 (lt_of_le_of_lt (hlat.trans hpole) h))
    · exact absurd (hmono (show j + 1 ≤ I.nPoints - 1 by omega))
        (not_le.2 (lt_of_le_of_lt (hlat.trans hpole) h))
    · rw [h]; exact hmax
  rw [lwaTotal_eq_of_ge (by omega), waveActivity_eq_zero]
  rintro r hr (⟨h1, _⟩ | ⟨_, h2⟩)
  · omega
  · exact absurd (hq r hr) (not_le.2 h2)

example : ({ sampleInput with ylat := fun j => 90 * j - 90 } : EqvInput).Sensible ∧
    (90 : ℝ) ≤ ({ sampleInput with ylat := fun j => 90 * j - 90 } : EqvInput).ylat (3 - 1) := by
  refine ⟨⟨by norm_num [sampleInput], by norm_num [sampleInput], by norm_num [sampleInput],
    by norm_num [sampleInput], sampleInput_sensible.area_nonneg, sampleInput_sensible.area_fits⟩, ?_⟩
  norm_num

end Falwa
