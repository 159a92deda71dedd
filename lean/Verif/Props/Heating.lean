import Verif.Model.Interp
import Verif.Props.Qgpv

/-!
# Mean profiles (C96) and forcing from a heating rate (C98)
-/

noncomputable section

namespace Falwa

open Real Finset Spec

namespace Atmos

variable {A : Atmos}

/-! ### C96 -/

/-- Rows of the mean profiles: `jd` rows next to each pole. -/
def capRow (A : Atmos) (north : Bool) (g : ℤ) : Prop :=
  if north then A.nlat - A.jd + 1 ≤ g ∧ g ≤ A.nlat else 1 ≤ g ∧ g ≤ A.jd

/-- The mean potential temperature of the hemisphere on a level of the data. -/
def capMean (A : Atmos) (north : Bool) (l : ℤ) : ℝ := if north then A.meanN l else A.meanS l

theorem clat_mirror (hodd : A.nlat = 2 * A.nd - 1) (g : ℤ) : A.clat (A.nlat + 1 - g) = A.clat g := by
  unfold clat lat
  rw [show A.nlat + 1 - g - A.nd = -(g - A.nd) by omega]
  push_cast
  rw [show A.dphi * -((g : ℝ) - A.nd) = -(A.dphi * (g - A.nd)) by ring, cos_neg]

theorem sum_mirror (hodd : A.nlat = 2 * A.nd - 1) :
    ∑ g ∈ Icc (A.nlat - A.jd + 1) A.nlat, A.clat g = A.csm := by
  unfold csm
  refine sum_bij (fun g _ => A.nlat + 1 - g) (fun g hg => ?_) (fun g _ g' _ h => by omega) (fun g hg => ?_) (fun g hg => ?_)
  · rw [mem_Icc] at hg ⊢; omega
  · refine ⟨A.nlat + 1 - g, ?_, by omega⟩
    rw [mem_Icc] at hg ⊢; omega
  · exact (clat_mirror hodd g).symm

theorem csm_pos (hodd : A.nlat = 2 * A.nd - 1) (hjb : 0 ≤ A.jb) (hjd : 2 ≤ A.jd) : 0 < A.csm := by
  unfold csm
  refine lt_of_lt_of_le ?_ (single_le_sum (f := A.clat) (fun g _ => abs_nonneg _) (mem_Icc.2 ⟨show (1 : ℤ) ≤ 2 by decide, hjd⟩))
  have hnd : 2 ≤ A.nd := by unfold jd at hjd; omega
  have hL : (0 : ℝ) < ((A.nlat - 1 : ℤ) : ℝ) := by exact_mod_cast (by omega : (0 : ℤ) < A.nlat - 1)
  refine abs_pos.2 (cos_pos_of_mem_Ioo ⟨?_, ?_⟩).ne'
  · unfold lat dphi
    have h2 : -((A.nlat - 1 : ℤ) : ℝ) < 2 * ((2 - A.nd : ℤ) : ℝ) := by
      rw [hodd]; push_cast; linarith
    rw [div_mul_eq_mul_div, lt_div_iff₀ hL]
    nlinarith [pi_pos]
  · unfold lat dphi
    have h2 : ((2 - A.nd : ℤ) : ℝ) ≤ 0 := by exact_mod_cast (by omega : 2 - A.nd ≤ 0)
    rw [div_mul_eq_mul_div, div_lt_iff₀ hL]
    nlinarith [pi_pos, mul_nonneg pi_pos.le (neg_nonneg.2 h2)]

theorem rowMean_bounds (hn : 0 < A.nlon) {lo hi : ℝ} (l g : ℤ)
    (h : ∀ i, 1 ≤ i → i ≤ A.nlon → lo ≤ A.theta0 i g l ∧ A.theta0 i g l ≤ hi) :
    lo * A.clat g ≤ A.rowMean l g ∧ A.rowMean l g ≤ hi * A.clat g := by
  have hN : (0 : ℝ) < (A.nlon : ℝ) := by exact_mod_cast hn
  have hc : 0 ≤ A.clat g := abs_nonneg _
  have hcard : ((Icc 1 A.nlon).card : ℝ) = (A.nlon : ℝ) := by
    have : ((Icc 1 A.nlon).card : ℤ) = A.nlon := by rw [Int.card_Icc]; omega
    exact_mod_cast this
  unfold rowMean
  rw [le_div_iff₀ hN, div_le_iff₀ hN]
  constructor
  · calc lo * A.clat g * (A.nlon : ℝ) = ∑ _i ∈ Icc 1 A.nlon, lo * A.clat g := by rw [sum_const, nsmul_eq_mul, hcard]; ring
      _ ≤ _ := sum_le_sum fun i hi => mul_le_mul_of_nonneg_right (h i (mem_Icc.1 hi).1 (mem_Icc.1 hi).2).1 hc
  · calc _ ≤ ∑ _i ∈ Icc 1 A.nlon, hi * A.clat g :=
          sum_le_sum fun i hi => mul_le_mul_of_nonneg_right (h i (mem_Icc.1 hi).1 (mem_Icc.1 hi).2).2 hc
      _ = hi * A.clat g * (A.nlon : ℝ) := by rw [sum_const, nsmul_eq_mul, hcard]; ring

/-- C96: the mean potential temperature of a hemisphere lies within the range of the field on the rows of its cap. -/
theorem C96_range (hodd : A.nlat = 2 * A.nd - 1) (hjb : 0 ≤ A.jb) (hjd : 2 ≤ A.jd) (hn : 0 < A.nlon) (north : Bool) (l : ℤ)
    (lo hi : ℝ) (h : ∀ i g, 1 ≤ i → i ≤ A.nlon → A.capRow north g → lo ≤ A.theta0 i g l ∧ A.theta0 i g l ≤ hi) :
    lo ≤ A.capMean north l ∧ A.capMean north l ≤ hi := by
  have hp := csm_pos hodd hjb hjd
  cases north
  · show lo ≤ A.meanS l ∧ A.meanS l ≤ hi
    have hb := fun g (hg : g ∈ Icc 1 A.jd) => rowMean_bounds hn (lo := lo) (hi := hi) l g fun i h1 h2 => h i g h1 h2 (mem_Icc.1 hg)
    unfold meanS
    rw [le_div_iff₀ hp, div_le_iff₀ hp]
    unfold csm
    rw [mul_sum, mul_sum]
    exact ⟨sum_le_sum fun g hg => (hb g hg).1, sum_le_sum fun g hg => (hb g hg).2⟩
  · show lo ≤ A.meanN l ∧ A.meanN l ≤ hi
    have hb := fun g (hg : g ∈ Icc (A.nlat - A.jd + 1) A.nlat) =>
      rowMean_bounds hn (lo := lo) (hi := hi) l g fun i h1 h2 => h i g h1 h2 (mem_Icc.1 hg)
    unfold meanN
    rw [le_div_iff₀ hp, div_le_iff₀ hp, ← sum_mirror hodd, mul_sum, mul_sum]
    exact ⟨sum_le_sum fun g hg => (hb g hg).1, sum_le_sum fun g hg => (hb g hg).2⟩

/-- C96: a uniform potential temperature is its own mean. -/
theorem C96_uniform (hodd : A.nlat = 2 * A.nd - 1) (hjb : 0 ≤ A.jb) (hjd : 2 ≤ A.jd) (hn : 0 < A.nlon) (north : Bool) (l : ℤ) (c : ℝ)
    (h : ∀ i g, 1 ≤ i → i ≤ A.nlon → A.capRow north g → A.theta0 i g l = c) : A.capMean north l = c := by
  have := C96_range hodd hjb hjd hn north l c c fun i g h1 h2 hg => ⟨(h i g h1 h2 hg).ge, (h i g h1 h2 hg).le⟩
  exact le_antisymm this.2 this.1

/-- C96: the mean of a hemisphere is the area mean over its cap. -/
theorem C96_area_mean (hodd : A.nlat = 2 * A.nd - 1) (hn : 0 < A.nlon) (l : ℤ) :
    A.meanN l = (∑ g ∈ Icc (A.nlat - A.jd + 1) A.nlat, ∑ i ∈ Icc 1 A.nlon, A.theta0 i g l * A.clat g) /
      ∑ g ∈ Icc (A.nlat - A.jd + 1) A.nlat, ∑ _i ∈ Icc 1 A.nlon, A.clat g ∧
    A.meanS l = (∑ g ∈ Icc 1 A.jd, ∑ i ∈ Icc 1 A.nlon, A.theta0 i g l * A.clat g) /
      ∑ g ∈ Icc 1 A.jd, ∑ _i ∈ Icc 1 A.nlon, A.clat g := by
  have hN : (A.nlon : ℝ) ≠ 0 := by exact_mod_cast (by omega : A.nlon ≠ 0)
  have hcard : ((Icc 1 A.nlon).card : ℝ) = (A.nlon : ℝ) := by
    have : ((Icc 1 A.nlon).card : ℤ) = A.nlon := by rw [Int.card_Icc]; omega
    exact_mod_cast this
  have key : ∀ s : Finset ℤ, (∑ g ∈ s, A.rowMean l g) / ∑ g ∈ s, A.clat g =
      (∑ g ∈ s, ∑ i ∈ Icc 1 A.nlon, A.theta0 i g l * A.clat g) / ∑ g ∈ s, ∑ _i ∈ Icc 1 A.nlon, A.clat g := by
    intro s
    unfold rowMean
    simp only [sum_const, nsmul_eq_mul, hcard]
    rw [← sum_div, ← mul_sum, div_div]
  constructor
  · rw [← key, sum_mirror hodd]; rfl
  · rw [← key]; rfl

/-! ### C98 -/

/-- C98: a heating rate changes QGPV at the rate of its forcing, as long as wind and mean profiles stay the same. -/
def C98_Statement : Prop :=
  ∀ (A : Atmos) (s : Scheme) (q : ℤ → ℤ → ℤ → ℝ) (e : ℝ), 1 ≤ A.nlon → 3 ≤ A.nlat → A.nlat = 2 * A.nd - 1 → 0 < A.dz →
    ∀ i j k, 1 ≤ i → i ≤ A.nlon → 1 ≤ j → j ≤ A.nlat → 2 ≤ k → k ≤ A.kmax - 1 →
      A.qgpvFor s (fun i j k => A.theta i j k + e * A.heating q i j k) i j k - A.qgpvFor s A.theta i j k =
        e * A.heatingForce s q i j k

/-- `f exp(z/H) d/dz (exp(-z/H) x / stability)` in centred differences. -/
def centredStretch (A : Atmos) (c : ℝ) (x stab : ℤ → ℝ) (k : ℤ) : ℝ :=
  c * exp (A.height k / A.h) * ((exp (-A.height (k + 1) / A.h) * x (k + 1) / stab (k + 1) -
    exp (-A.height (k - 1) / A.h) * x (k - 1) / stab (k - 1)) / (2 * A.dz))

/-- The stability that the forcing uses in row `j`. -/
def forceStability (A : Atmos) (s : Scheme) (j k : ℤ) : ℝ :=
  if j < A.nd then A.storedStatS s k else if j = A.nd then (A.storedStatS s k + A.storedStatN s k) / 2 else A.storedStatN s k

theorem heatingForce_eq (s : Scheme) (q : ℤ → ℤ → ℤ → ℝ) (hl : 3 ≤ A.nlat) (hodd : A.nlat = 2 * A.nd - 1) {i j k : ℤ} (hi : 1 ≤ i)
    (hj1 : 1 ≤ j) (hj2 : j ≤ A.nlat) (hk1 : 2 ≤ k) (hk2 : k ≤ A.kmax - 1) :
    A.heatingForce s q i j k =
      A.centredStretch (2 * A.om * sin (A.lat j)) (fun k => A.heating q i j k) (A.forceStability s j) k := by
  have ei : (((i - 1).toNat : ℕ) : ℤ) + 1 = i := by omega
  have ej : (((j - 1).toNat : ℕ) : ℤ) + 1 = j := by omega
  have ek : (((k - 1).toNat : ℕ) : ℤ) + 1 = k := by omega
  have ekp : (((k - 1).toNat + 1 : ℕ) : ℤ) + 1 = k + 1 := by push_cast; omega
  have ekm : (((k - 1).toNat - 1 : ℕ) : ℤ) + 1 = k - 1 := by omega
  have hw : statTableWidth A.nd.toNat ≠ 1 := by unfold statTableWidth; omega
  have hb : ∀ m : ℕ, bcast A.nlat.toNat m = m := fun m => by unfold bcast; rw [if_neg (by omega)]
  have hb2 : ∀ m : ℕ, bcast (statTableWidth A.nd.toNat) m = m := fun m => by unfold bcast; rw [if_neg hw]
  have hs : ∀ (m : ℕ), statTable A.nd.toNat (fun k => A.storedStatS s ((k : ℤ) + 1)) (fun k => A.storedStatN s ((k : ℤ) + 1)) m
      (j - 1).toNat = A.forceStability s j ((m : ℤ) + 1) := by
    intro m
    unfold statTable forceStability
    by_cases c1 : j < A.nd
    · rw [if_pos c1, if_pos (by omega)]
    · rw [if_neg c1, if_neg (by omega)]
      by_cases c2 : j = A.nd
      · rw [if_pos c2, if_pos (by omega)]; ring
      · rw [if_neg c2, if_neg (by omega)]
  unfold heatingForce zDer toBeDiff
  simp only [hb, hb2, hs]
  rw [if_neg (by omega), if_neg (by omega), ei, ej, ek, ekp, ekm]
  unfold centredStretch
  ring

theorem height_gap (k : ℤ) : A.height (k + 1) - A.height (k - 1) = 2 * A.dz := by
  unfold height; push_cast; ring

theorem phi_lat (hl : 3 ≤ A.nlat) (hodd : A.nlat = 2 * A.nd - 1) (th : ℤ → ℤ → ℤ → ℝ) (j : ℤ) :
    (A.qgpvInFor th).phi j = A.lat j := by
  show -(0.5 * π) + π * ((j - 1 : ℤ) : ℝ) / ((A.nlat - 1 : ℤ) : ℝ) = π / ((A.nlat - 1 : ℤ) : ℝ) * ((j - A.nd : ℤ) : ℝ)
  have hL : ((A.nlat - 1 : ℤ) : ℝ) ≠ 0 := by exact_mod_cast (by omega : A.nlat - 1 ≠ 0)
  have e : ((A.nlat - 1 : ℤ) : ℝ) = 2 * ((A.nd : ℝ) - 1) := by rw [hodd]; push_cast; ring
  rw [e] at hL ⊢
  have h1 : (A.nd : ℝ) - 1 ≠ 0 := fun h => hL (by rw [h]; ring)
  push_cast
  field_simp
  ring

theorem stretch_diff (th q : ℤ → ℤ → ℤ → ℝ) (e : ℝ) (t0 stab : ℤ → ℝ) (c : ℝ) (i j k : ℤ) :
    (A.qgpvInFor (fun i j k => th i j k + e * q i j k)).stretch t0 stab c i j k - (A.qgpvInFor th).stretch t0 stab c i j k =
      e * A.centredStretch c (fun k => q i j k) stab k := by
  unfold QgpvIn.stretch QgpvIn.alt centredStretch
  show exp (A.height k / A.h) * (_ / (A.height (k + 1) - A.height (k - 1))) -
    exp (A.height k / A.h) * (_ / (A.height (k + 1) - A.height (k - 1))) = _
  rw [height_gap]
  show exp (A.height k / A.h) * ((exp (-A.height (k + 1) / A.h) * (th i j (k + 1) + e * q i j (k + 1) - t0 (k + 1)) / stab (k + 1) -
      exp (-A.height (k - 1) / A.h) * (th i j (k - 1) + e * q i j (k - 1) - t0 (k - 1)) / stab (k - 1)) * c / (2 * A.dz)) -
    exp (A.height k / A.h) * ((exp (-A.height (k + 1) / A.h) * (th i j (k + 1) - t0 (k + 1)) / stab (k + 1) -
      exp (-A.height (k - 1) / A.h) * (th i j (k - 1) - t0 (k - 1)) / stab (k - 1)) * c / (2 * A.dz)) = _
  ring

theorem qgpvFor22_eq (th : ℤ → ℤ → ℤ → ℝ) (hl : 3 ≤ A.nlat) (hodd : A.nlat = 2 * A.nd - 1) (i j : ℤ) {k : ℤ} (hk1 : 2 ≤ k)
    (hk2 : k ≤ A.kmax - 1) :
    A.qgpvFor .nhn22 th i j k = A.avort i j k +
      (if j ≤ A.nd then (A.qgpvInFor th).stretch A.ts0 A.statS (2 * A.om * sin (A.lat j)) i j k
        else (A.qgpvInFor th).stretch A.tn0 A.statN (2 * A.om * sin (A.lat j)) i j k) := by
  have hc : (A.qgpvInFor th).cor j = 2 * A.om * sin (A.lat j) := by
    show 2 * A.om * sin ((A.qgpvInFor th).phi j) = _
    rw [phi_lat hl hodd]
  have hk : 2 ≤ k ∧ k ≤ (A.qgpvInFor th).kmax - 1 := ⟨hk1, hk2⟩
  show (A.qgpvInFor th).pv22 A.nd A.ts0 A.tn0 A.statS A.statN i j k = _
  unfold QgpvIn.pv22
  rw [if_pos hk, hc]
  rfl

theorem qgpvFor18_eq (th : ℤ → ℤ → ℤ → ℝ) (i j : ℤ) {k : ℤ} (hk1 : 2 ≤ k) (hk2 : k ≤ A.kmax - 1) :
    A.qgpvFor .nh18 th i j k = A.avort i j k +
      (A.qgpvInFor th).stretch A.t0 A.stat (circleMean A.nlon (fun i => A.avort i j k)) i j k := by
  have hz : (A.qgpvInFor th).zmean (A.qgpvInFor th).avort j k = circleMean A.nlon (fun i => A.avort i j k) := by
    unfold QgpvIn.zmean circleMean
    rw [dosum_eq, ← sum_div]
    rfl
  have hk : 2 ≤ k ∧ k ≤ (A.qgpvInFor th).kmax - 1 := ⟨hk1, hk2⟩
  show (A.qgpvInFor th).pv18 A.t0 A.stat i j k = _
  unfold QgpvIn.pv18
  rw [if_pos hk, hz]
  rfl

/-- C98 for `QGFieldNHN22`, on every interior level and row. -/
theorem C98_nhn22_partial (A : Atmos) (q : ℤ → ℤ → ℤ → ℝ) (e : ℝ) (hl : 3 ≤ A.nlat) (hodd : A.nlat = 2 * A.nd - 1)
    (i j k : ℤ) (hi : 1 ≤ i) (hj1 : 1 ≤ j) (hj2 : j ≤ A.nlat) (hk1 : 2 ≤ k) (hk2 : k ≤ A.kmax - 1) :
    A.qgpvFor .nhn22 (fun i j k => A.theta i j k + e * A.heating q i j k) i j k - A.qgpvFor .nhn22 A.theta i j k =
      e * A.heatingForce .nhn22 q i j k := by
  rw [heatingForce_eq .nhn22 q hl hodd hi hj1 hj2 hk1 hk2, qgpvFor22_eq _ hl hodd i j hk1 hk2, qgpvFor22_eq _ hl hodd i j hk1 hk2,
    add_sub_add_left_eq_sub]
  by_cases c : j ≤ A.nd
  · rw [if_pos c, if_pos c, stretch_diff]
    by_cases c1 : j < A.nd
    · have : A.forceStability .nhn22 j = A.statS := funext fun k => by unfold forceStability; rw [if_pos c1]; rfl
      rw [this]
    · have : A.lat j = 0 := by unfold lat; rw [show j - A.nd = 0 by omega]; simp
      rw [this, sin_zero, mul_zero]
      unfold centredStretch
      ring
  · rw [if_neg c, if_neg c, stretch_diff]
    have : A.forceStability .nhn22 j = A.statN := funext fun k => by
      unfold forceStability; rw [if_neg (by omega), if_neg (by omega)]; rfl
    rw [this]

/-- C98 for `QGFieldNH18`: the QGPV changes at the rate of the forcing times the ratio of zonal mean absolute vorticity and f. -/
theorem C98_nh18_partial (A : Atmos) (q : ℤ → ℤ → ℤ → ℝ) (e : ℝ) (hl : 3 ≤ A.nlat) (hodd : A.nlat = 2 * A.nd - 1)
    (i j k : ℤ) (hi : 1 ≤ i) (hj1 : 1 ≤ j) (hj2 : j ≤ A.nlat) (hk1 : 2 ≤ k) (hk2 : k ≤ A.kmax - 1) :
    2 * A.om * sin (A.lat j) *
      (A.qgpvFor .nh18 (fun i j k => A.theta i j k + e * A.heating q i j k) i j k - A.qgpvFor .nh18 A.theta i j k) =
      circleMean A.nlon (fun i => A.avort i j k) * (e * A.heatingForce .nh18 q i j k) := by
  rw [heatingForce_eq .nh18 q hl hodd hi hj1 hj2 hk1 hk2, qgpvFor18_eq _ i j hk1 hk2, qgpvFor18_eq _ i j hk1 hk2,
    add_sub_add_left_eq_sub, stretch_diff]
  have hs : A.forceStability .nh18 j = A.stat := funext fun k => by
    unfold forceStability storedStatS storedStatN
    dsimp only
    split_ifs <;> ring
  rw [hs]
  unfold centredStretch
  ring

example : (3 : ℤ) ≤ tinyWave.nlat ∧ tinyWave.nlat = 2 * tinyWave.nd - 1 ∧ (2 : ℤ) ≤ tinyWave.kmax - 1 ∧ tinyWave.om ≠ 0 ∧ 0 ≤ tinyWave.jb ∧
    2 ≤ tinyWave.jd ∧ 0 < tinyWave.nlon := ⟨by decide, by decide, by decide, by norm_num [tinyWave], by decide, by decide, by decide⟩

/-- C98 fails in `QGFieldNH18`: at the equator heating changes the QGPV although its forcing is zero. -/
theorem C98_refuted : ¬ C98_Statement := by
  intro h
  have h0 := h tinyWave .nh18 (fun _ _ l => if l = 3 then 1 else 0) 1 (by decide) (by decide) (by decide) (by norm_num [tinyWave])
    1 3 2 (by decide) (by decide) (by decide) (by decide) (by decide) (by decide)
  rw [heatingForce_eq .nh18 _ (by decide) (by decide) (by decide) (by decide) (by decide) (by decide) (by decide),
    qgpvFor18_eq _ 1 3 (by decide) (by decide), qgpvFor18_eq _ 1 3 (by decide) (by decide), add_sub_add_left_eq_sub, stretch_diff,
    one_mul, one_mul] at h0
  have hl : tinyWave.lat 3 = 0 := by unfold lat; rw [show (3 : ℤ) - tinyWave.nd = 0 by decide]; simp
  have hz : circleMean tinyWave.nlon (fun i => tinyWave.avort i 3 2) < 0 := by
    unfold circleMean
    exact div_neg_of_neg_of_pos (sum_neg (fun i _ => tinyWave_avort i 2) ⟨1, by decide⟩) (by norm_num [tinyWave])
  have hs : ∀ k, tinyWave.stat k = 1 := fun k => by
    show (0.5 : ℝ) * (1 + 1) = 1
    norm_num
  have h3 : tinyWave.heating (fun _ _ l => if l = 3 then 1 else 0) 1 3 (2 + 1) = 1 := by
    show (if (2 + 1 : ℤ) = 3 then (1 : ℝ) else 0) = 1
    norm_num
  have h1 : tinyWave.heating (fun _ _ l => if l = 3 then 1 else 0) 1 3 (2 - 1) = 0 := by
    show (if (2 - 1 : ℤ) = 3 then (1 : ℝ) else 0) = 0
    norm_num
  unfold centredStretch at h0
  beta_reduce at h0
  rw [h3, h1, hl, hs, hs, sin_zero] at h0
  have hd : tinyWave.dz = 1 := rfl
  rw [hd] at h0
  simp [hz.ne, (exp_pos _).ne'] at h0

end Atmos

end Falwa
