import Verif.Model.Wrapper
import Verif.Props.Eqvlat

/-! Helper lemmas for the wrapper functions. -/

namespace Falwa

open Finset

theorem Outcome.map2_ok {α β γ : Type*} {f : α → β → γ} {x : Outcome α} {y : Outcome β} {z : γ}
    (h : Outcome.map2 f x y = .ok z) : ∃ a b, x = .ok a ∧ y = .ok b ∧ f a b = z := by
  cases x <;> cases y <;> simp [Outcome.map2] at h ⊢
  exact h

theorem Outcome.map_ok {α β : Type*} {f : α → β} {x : Outcome α} {z : β}
    (h : Outcome.map f x = .ok z) : ∃ a, x = .ok a ∧ f a = z := by
  cases x <;> simp [Outcome.map] at h ⊢
  exact h

/-- The profile only depends on the values of the field inside the grid. -/
theorem EqvInput.qref_congr (I : EqvInput) (f : ℕ → ℕ → ℝ)
    (h : ∀ r < I.nlat, ∀ c < I.nlon, f r c = I.vort r c) : ({ I with vort := f } : EqvInput).qref = I.qref := by
  apply C09_qref_of_distribution
  · refine Multiset.map_congr rfl fun p hp => ?_
    have hp' : p ∈ cells I.nlat I.nlon := hp
    rw [mem_cells] at hp'
    show (f p.1 p.2, I.area p.1 p.2) = _
    rw [h p.1 hp'.1 p.2 hp'.2]
  · rfl
  · rfl
  · rfl

/-- Where the last equivalent latitude is at or below the grid latitude, the profile is the maximum. -/
theorem EqvInput.qref_eq_max (I : EqvInput) (hI : I.Sensible) (hn : 2 ≤ I.nPoints) {f : ℕ → ℝ}
    (hf : I.qref = .ok f) {j : ℕ}
    (hj : rad2deg (Real.arcsin (I.gaussianGrid I.aq (I.nPoints - 1))) ≤ I.ylat j) :
    f j = amax I.nlat I.nlon I.vort := by
  have h := EqvInput.interpToYlat_ok hI.nlat_pos hI.nlon_pos hI.nPoints_pos hI.radius_ne
    hI.area_nonneg hI.area_fits I.bins
  rw [EqvInput.qref, h] at hf
  injection hf with hf
  rw [← hf]
  have hmono := EqvInput.eqvLatitude_mono hI.nPoints_pos hI.radius_ne hI.area_nonneg hI.area_fits
  have hlast : (I.eqvLatitude I.aq (I.nPoints - 1)).getD 0 ≤ I.ylat j := by
    unfold EqvInput.eqvLatitude
    rw [EqvInput.arcsinDeg_getD (EqvInput.gaussianGrid_mem hI.nPoints_pos hI.radius_ne
      hI.area_nonneg hI.area_fits _)]
    exact hj
  have hb : I.bins (I.nPoints - 1) = amax I.nlat I.nlon I.vort := linspace_last _ _ hn
  rcases npInterp_cases (xp := fun i => (I.eqvLatitude I.aq i).getD 0) (fp := I.bins) hI.nPoints_pos
    (I.ylat j) with ⟨h, _⟩ | ⟨k, hk, _, h, _⟩ | ⟨_, _, h⟩
  · exact absurd (hmono (Nat.zero_le (I.nPoints - 1))) (not_le.2 (lt_of_le_of_lt hlast h))
  · exact absurd (hmono (show k + 1 ≤ I.nPoints - 1 by omega)) (not_le.2 (lt_of_le_of_lt hlast h))
  · beta_reduce; rw [h, hb]

/-- A simple sufficient condition for the previous lemma: the total area is at most a quarter of the
sphere and the latitude is at least 30 degrees south. -/
theorem EqvInput.qref_eq_max_of_small (I : EqvInput) (hI : I.Sensible) (hn : 2 ≤ I.nPoints) {f : ℕ → ℝ}
    (hf : I.qref = .ok f) {j : ℕ} (hj : -30 ≤ I.ylat j)
    (hsmall : ∑ p ∈ cells I.nlat I.nlon, I.area p.1 p.2 ≤ Real.pi * I.radius ^ 2) :
    f j = amax I.nlat I.nlon I.vort := by
  apply I.qref_eq_max hI hn hf
  refine le_trans ?_ hj
  have hpos : 0 < Real.pi * I.radius ^ 2 := by
    have := Real.pi_pos
    have := hI.radius_ne
    positivity
  have hx : I.gaussianGrid I.aq (I.nPoints - 1) ≤ -(1 / 2) := by
    unfold EqvInput.gaussianGrid
    have : I.aq (I.nPoints - 1) / (2 * Real.pi * I.radius ^ 2) ≤ 1 / 2 := by
      rw [div_le_iff₀ (by linarith)]
      have := (EqvInput.aq_le_total hI.nPoints_pos hI.area_nonneg (I.nPoints - 1)).trans hsmall
      linarith
    linarith
  have hs : Real.arcsin (-(1 / 2)) = -(Real.pi / 6) := by
    rw [Real.arcsin_neg, ← Real.sin_pi_div_six, Real.arcsin_sin] <;> linarith [Real.pi_pos]
  have h1 : Real.arcsin (I.gaussianGrid I.aq (I.nPoints - 1)) ≤ -(Real.pi / 6) := by
    rw [← hs]; exact Real.monotone_arcsin hx
  calc rad2deg _ ≤ rad2deg (-(Real.pi / 6)) := EqvInput.rad2deg_mono h1
    _ = -30 := by
      unfold rad2deg
      have := Real.pi_ne_zero
      field_simp; norm_num

/-- At 90 degrees south the profile is the minimum, if some cell is below the first bin edge. -/
theorem EqvInput.qref_eq_min (I : EqvInput) (hI : I.Sensible) (hn : 2 ≤ I.nPoints) {f : ℕ → ℝ}
    (hf : I.qref = .ok f) {j : ℕ} (hj : I.ylat j = -90) (h1 : 0 < I.aq 1) :
    f j = amin I.nlat I.nlon I.vort := by
  have h := EqvInput.interpToYlat_ok hI.nlat_pos hI.nlon_pos hI.nPoints_pos hI.radius_ne
    hI.area_nonneg hI.area_fits I.bins
  rw [EqvInput.qref, h] at hf
  injection hf with hf
  rw [← hf]
  have hmono := EqvInput.eqvLatitude_mono hI.nPoints_pos hI.radius_ne hI.area_nonneg hI.area_fits
  have hget : ∀ i, (I.eqvLatitude I.aq i).getD 0 = rad2deg (Real.arcsin (I.gaussianGrid I.aq i)) := fun i => by
    unfold EqvInput.eqvLatitude
    exact EqvInput.arcsinDeg_getD (EqvInput.gaussianGrid_mem hI.nPoints_pos hI.radius_ne
      hI.area_nonneg hI.area_fits _)
  have h90 : rad2deg (-(Real.pi / 2)) = -90 := by
    unfold rad2deg
    have := Real.pi_ne_zero
    field_simp; norm_num
  have hpos : 0 < 2 * Real.pi * I.radius ^ 2 := by
    have := Real.pi_pos
    have := hI.radius_ne
    positivity
  have hx1 : -90 < (I.eqvLatitude I.aq 1).getD 0 := by
    rw [hget, ← h90]
    have : -(Real.pi / 2) < Real.arcsin (I.gaussianGrid I.aq 1) := by
      rw [Real.neg_pi_div_two_lt_arcsin]
      unfold EqvInput.gaussianGrid
      have := div_pos h1 hpos
      linarith
    unfold rad2deg
    have hp := Real.pi_pos
    gcongr
  have hx0 : (I.eqvLatitude I.aq 0).getD 0 = -90 := by
    rw [hget, ← h90]
    congr 1
    unfold EqvInput.gaussianGrid
    rw [I.aq_zero, zero_div, zero_sub, Real.arcsin_neg, Real.arcsin_one]
  rcases npInterp_cases (xp := fun i => (I.eqvLatitude I.aq i).getD 0) (fp := I.bins) hI.nPoints_pos
    (I.ylat j) with ⟨h, _⟩ | ⟨k, hk, hk1, _, h⟩ | ⟨h, _, _⟩
  · rw [hj, hx0] at h; exact absurd h (lt_irrefl _)
  · have hk0 : k = 0 := by
      by_contra hne
      have := hmono (show 1 ≤ k by omega)
      beta_reduce at this hk1
      rw [hj] at hk1
      linarith
    subst hk0
    beta_reduce at h ⊢
    rw [h, hj, hx0, sub_self, mul_zero, add_zero, I.bins_zero]
  · have := hmono (show 1 ≤ I.nPoints - 1 by omega)
    beta_reduce at this h
    rw [hj] at h
    linarith

/-- The wave activity of the mirrored column. -/
theorem lwaTotal_mirror {K : Type*} [Field K] [LinearOrder K] [IsStrictOrderedRing K]
    (n : ℕ) (f : ℕ → ℕ → K) (Q dmu : ℕ → K) (j c : ℕ) (h1 : 1 ≤ j) (h2 : j + 1 < n) :
    lwaTotal n (fun r c => - f (n - 1 - r) c) (fun r => - Q (n - 1 - r)) (fun r => dmu (n - 1 - r)) (n - 1 - j) c =
      lwaTotal n f Q dmu j c + (Q j - f j c) * dmu j := by
  rw [lwaTotal_eq_spec (by omega), lwaTotal_eq_spec h2, waveActivity_eq_add, waveActivity_eq_add]
  unfold Spec.deficitPoleward Spec.surplusEquatorward
  simp only [sum_filter]
  rw [← sum_add_distrib, ← sum_add_distrib, ← sum_range_reflect]
  have hsplit : (Q j - f j c) * dmu j = ∑ r ∈ range n, if r = j then (Q r - f r c) * dmu r else 0 := by
    rw [sum_ite_eq', if_pos (mem_range.2 (by omega))]
  rw [hsplit, ← sum_add_distrib]
  refine sum_congr rfl fun r hr => ?_
  rw [mem_range] at hr
  have e1 : n - 1 - (n - 1 - r) = r := by omega
  have e2 : n - 1 - (n - 1 - j) = j := by omega
  rw [e1, e2]
  simp only [neg_lt_neg_iff]
  by_cases hrj : r = j
  · subst hrj
    simp only [lt_irrefl, false_and, le_refl, true_and, if_true, if_false]
    rcases lt_trichotomy (f r c) (Q r) with hlt | heq | hgt
    · rw [if_pos hlt, if_neg (not_lt.2 hlt.le)]; ring
    · rw [heq]; simp
    · rw [if_neg (not_lt.2 hgt.le), if_pos hgt]; ring
  · rw [if_neg hrj]
    by_cases hlt : r < j
    · have a1 : n - 1 - j < n - 1 - r := by omega
      have a2 : ¬ (n - 1 - r ≤ n - 1 - j) := by omega
      have a3 : ¬ j < r := by omega
      have a4 : r ≤ j := by omega
      simp only [a1, a2, a3, a4, true_and, false_and, if_false]
      split_ifs <;> ring
    · have a1 : ¬ n - 1 - j < n - 1 - r := by omega
      have a2 : n - 1 - r ≤ n - 1 - j := by omega
      have a3 : j < r := by omega
      have a4 : ¬ r ≤ j := by omega
      simp only [a1, a2, a3, a4, true_and, false_and, if_false]
      split_ifs <;> ring

end Falwa
