import Verif.Props.RefState
import Verif.Props.DirectInv

/-! # Rows and levels of the reference state that the inversion does not determine (C117) -/

noncomputable section

namespace Falwa

open Real Finset Spec

namespace RefIn

variable {I : RefIn}

/-- C117 for QGFieldNH18, wind: the equatorial row is the zonal mean wind on the equator, and the polar row continues the two rows
next to it linearly. -/
theorem C117_wind_nh18 (h : I.Geometry) (k : ℤ) :
    I.uref 1 k = (∑ i ∈ Icc 1 I.nlon, I.uu i I.jd k) / (I.nlon : ℝ) ∧
    I.uref I.jd k - I.uref (I.jd - 1) k = I.uref (I.jd - 1) k - I.uref (I.jd - 2) k := by
  have hj := h.jd3
  constructor
  · unfold uref windRows
    rw [if_neg (by omega), if_pos rfl]
    unfold ubar zmean
    rw [dosum_eq, ← sum_div, show 1 + (I.jd - 1) = I.jd by ring]
  · unfold uref
    rw [if_pos rfl, if_neg (by omega), if_neg (by omega)]
    ring

/-- C117 for QGFieldNH18, QGPV: away from the equator the stored value times the Coriolis parameter is the reference value of the
area analysis; the equatorial value continues the two rows next to it linearly; the lowest and the highest level are zero. -/
theorem C117_qgpv_nh18 (h : I.Geometry) (hom : I.om ≠ 0) :
    (∀ j k, 2 ≤ j → j ≤ I.jd → 2 ≤ k → k ≤ I.kmax - 1 → I.qref j k * I.planet.f j = (I.area k).qref j) ∧
    (∀ k, 2 ≤ k → k ≤ I.kmax - 1 → I.qref 2 k - I.qref 1 k = I.qref 3 k - I.qref 2 k) ∧
    (∀ j, 1 ≤ j → j ≤ I.jd → I.qref j 1 = 0 ∧ I.qref j I.kmax = 0) := by
  have hj := h.jd3
  have hd := h.dphi_pos
  have hm := h.dphi_mul
  refine ⟨fun j k j1 j2 k1 k2 => ?_, fun k k1 k2 => ?_, fun j j1 j2 => ?_⟩
  · have hs : 0 < sin (I.phi j) := by
      have a1 : (2 : ℝ) ≤ j := by exact_mod_cast j1
      have a2 : (j : ℝ) ≤ I.jd := by exact_mod_cast j2
      have e : I.phi j = I.dphi * ((j : ℝ) - 1) := by unfold phi; push_cast; ring
      rw [e]
      refine sin_pos_of_pos_of_lt_pi (mul_pos hd (by linarith)) ?_
      have := mul_le_mul_of_nonneg_left (by linarith : (j : ℝ) - 1 ≤ (I.jd : ℝ) - 1) hd.le
      have := pi_pos
      linarith
    have hf : I.planet.f j = I.cor j := by
      unfold Planet.f cor
      rw [phi_eq_lat]; rfl
    have hc : I.cor j ≠ 0 := mul_ne_zero (mul_ne_zero two_ne_zero hom) hs.ne'
    unfold qref qrefNorm qrefRaw
    rw [if_neg (by omega), if_pos ⟨k1, k2⟩, hf, div_mul_cancel₀ _ hc]
  · unfold qref
    simp only [if_neg (show ¬ (2 : ℤ) = 1 by norm_num), if_neg (show ¬ (3 : ℤ) = 1 by norm_num), if_pos (And.intro k1 k2), if_true]
    ring
  · have hk := h.kmax3
    unfold qref qrefNorm qrefRaw
    simp only [if_neg (show ¬ (2 ≤ (1 : ℤ) ∧ 1 ≤ I.kmax - 1) by omega),
      if_neg (show ¬ (2 ≤ I.kmax ∧ I.kmax ≤ I.kmax - 1) by omega), zero_div, ite_self, and_self]

/-- C117 for QGFieldNH18, temperature: between two rows the lowest level has the difference of the level above it, and the highest
level that of the level below it. -/
theorem C117_temperature_nh18 (h : I.Geometry) (i j : ℤ) :
    I.tref i 1 - I.tref j 1 = I.tref i 2 - I.tref j 2 ∧
    I.tref i I.kmax - I.tref j I.kmax = I.tref i (I.kmax - 1) - I.tref j (I.kmax - 1) := by
  have hk := h.kmax3
  unfold tref
  rw [if_neg (by omega), if_pos rfl, if_neg (by omega), if_pos rfl, if_neg (by omega), if_neg (by norm_num), if_neg (by omega),
    if_neg (by norm_num), if_pos rfl, if_pos rfl, if_neg (by omega), if_neg (by omega), if_neg (by omega), if_neg (by omega)]
  constructor <;> ring

example : sample.Geometry ∧ sample.om ≠ 0 := ⟨sample_geometry, by show (1 : ℝ) ≠ 0; norm_num⟩

end RefIn

namespace NhnIn

variable {I : NhnIn}

/-- C117 for QGFieldNHN22, wind: the polar row continues the two rows next to it linearly. The equatorward row is `C78`. -/
theorem C117_wind_nhn22 (k : ℤ) :
    I.uref I.jd k - I.uref (I.jd - 1) k = I.uref (I.jd - 1) k - I.uref (I.jd - 2) k := by
  unfold uref
  rw [if_pos rfl, if_neg (by omega), if_neg (by omega)]
  ring

/-- C117 for QGFieldNHN22, QGPV. -/
theorem C117_qgpv_nhn22 (h : I.Geometry) (hom : I.om ≠ 0) :
    (∀ j k, 2 ≤ j → j ≤ I.nd → 2 ≤ k → k ≤ I.kmax - 1 → I.qrefOut j k * I.planet.f j = (I.area I.pv k).qref j) ∧
    (∀ k, 2 ≤ k → k ≤ I.kmax - 1 → I.qrefOut 2 k - I.qrefOut 1 k = I.qrefOut 3 k - I.qrefOut 2 k) ∧
    (∀ j, 1 ≤ j → j ≤ I.nd → I.qrefOut j 1 = 0 ∧ I.qrefOut j I.kmax = 0) := by
  have hj := h.nd3
  have hd := h.dphi_pos
  have hm := h.dphi_mul
  refine ⟨fun j k j1 j2 k1 k2 => ?_, fun k k1 k2 => ?_, fun j j1 j2 => ?_⟩
  · have hs : 0 < sin (I.dphi * ((j - 1 : ℤ) : ℝ)) := by
      have a1 : (2 : ℝ) ≤ j := by exact_mod_cast j1
      have a2 : (j : ℝ) ≤ I.nd := by exact_mod_cast j2
      push_cast
      refine sin_pos_of_pos_of_lt_pi (mul_pos hd (by linarith)) ?_
      have := mul_le_mul_of_nonneg_left (by linarith : (j : ℝ) - 1 ≤ (I.nd : ℝ) - 1) hd.le
      have := pi_pos
      linarith
    have hf : I.planet.f j = 2 * I.om * sin (I.dphi * ((j - 1 : ℤ) : ℝ)) := by
      unfold Planet.f Planet.lat
      show 2 * I.om * sin (((j : ℝ) - 1) * I.dphi) = _
      push_cast
      rw [mul_comm I.dphi]
    unfold qrefOut qref qrefNorm qrefRaw
    rw [if_neg (by omega), if_pos ⟨k1, k2⟩, hf]
    field_simp
  · unfold qrefOut qref
    simp only [if_neg (show ¬ (2 : ℤ) = 1 by norm_num), if_neg (show ¬ (3 : ℤ) = 1 by norm_num), if_pos (And.intro k1 k2), if_true]
    ring
  · have hk := h.kmax3
    unfold qrefOut qref qrefNorm qrefRaw
    simp only [if_neg (show ¬ (2 ≤ (1 : ℤ) ∧ 1 ≤ I.kmax - 1) by omega),
      if_neg (show ¬ (2 ≤ I.kmax ∧ I.kmax ≤ I.kmax - 1) by omega), zero_div, ite_self, and_self]

/-- C117 for QGFieldNHN22, temperature. -/
theorem C117_temperature_nhn22 (h : I.Geometry) (i j : ℤ) :
    I.tref i 1 - I.tref j 1 = I.tref i 2 - I.tref j 2 ∧
    I.tref i I.kmax - I.tref j I.kmax = I.tref i (I.kmax - 1) - I.tref j (I.kmax - 1) := by
  have hk := h.kmax3
  unfold tref
  rw [if_neg (by omega), if_pos rfl, if_neg (by omega), if_pos rfl, if_neg (by omega), if_neg (by norm_num), if_neg (by omega),
    if_neg (by norm_num), if_pos rfl, if_pos rfl, if_neg (by omega), if_neg (by omega), if_neg (by omega), if_neg (by omega)]
  constructor <;> ring

example : (sample 1).Geometry ∧ (sample 1).om ≠ 0 := ⟨sample_geometry 1, by show (1 : ℝ) ≠ 0; norm_num⟩

end NhnIn

end Falwa
