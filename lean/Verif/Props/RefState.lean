import Verif.Lemmas.RefState
import Verif.Spec.RefState
import Verif.Lemmas.Elliptic
import Verif.Props.AreaAnalysis
import Mathlib.Tactic.LinearCombination

/-! # Properties of `compute_reference_states` (QGFieldNH18): C52, C53, C55, C77 -/

noncomputable section

set_option linter.unusedSectionVars false
set_option linter.unusedSimpArgs false

namespace Falwa.RefIn

open Real Finset Spec

variable {I : RefIn}

/-- The constants of the input. -/
def planet (I : RefIn) : Planet where
  a := I.a
  om := I.om
  h := I.h
  r := I.r
  cp := I.cp
  dz := I.dz
  dphi := I.dphi

/-- An odd grid from pole to pole with at least three rows per hemisphere and three levels. -/
structure Geometry (I : RefIn) : Prop where
  nlon1 : 1 ≤ I.nlon
  jd3 : 3 ≤ I.jd
  kmax3 : 3 ≤ I.kmax
  odd : I.nlat = 2 * I.jd - 1
  dphiEq : I.dphi = π / ((I.nlat : ℝ) - 1)

theorem phi_eq_lat (j : ℤ) : I.phi j = I.planet.lat j := by
  unfold phi Planet.lat planet
  push_cast
  ring

theorem z_eq_height (k : ℤ) : I.z k = I.planet.height k := by
  unfold z Planet.height planet
  push_cast
  ring

namespace Geometry

theorem dphi_mul (h : I.Geometry) : I.dphi * ((I.jd : ℝ) - 1) = π / 2 := by
  have hj : (3 : ℝ) ≤ I.jd := by exact_mod_cast h.jd3
  rw [h.dphiEq, h.odd]
  push_cast
  have h1 : (I.jd : ℝ) - 1 ≠ 0 := by linarith
  rw [show 2 * (I.jd : ℝ) - 1 - 1 = 2 * ((I.jd : ℝ) - 1) by ring]
  field_simp

theorem dphi_pos (h : I.Geometry) : 0 < I.dphi := by
  have hj : (3 : ℝ) ≤ I.jd := by exact_mod_cast h.jd3
  have := h.dphi_mul
  have hp := pi_pos
  by_contra hc
  nlinarith [mul_nonneg (sub_nonneg.2 (not_lt.1 hc)) (by linarith : (0:ℝ) ≤ (I.jd : ℝ) - 1)]

theorem phi_mem (h : I.Geometry) {j : ℤ} (h1 : 1 ≤ j) (h2 : j ≤ I.jd) : 0 ≤ I.phi j ∧ I.phi j ≤ π / 2 := by
  have a1 : (1 : ℝ) ≤ j := by exact_mod_cast h1
  have a2 : (j : ℝ) ≤ I.jd := by exact_mod_cast h2
  have hd := h.dphi_pos
  have hm := h.dphi_mul
  unfold phi
  push_cast
  exact ⟨by nlinarith, by nlinarith⟩

theorem cos_nonneg (h : I.Geometry) {j : ℤ} (h1 : 1 ≤ j) (h2 : j ≤ I.jd) : 0 ≤ cos (I.phi j) := by
  have := h.phi_mem h1 h2
  exact cos_nonneg_of_mem_Icc ⟨by linarith [pi_pos], this.2⟩

theorem wt_pos (h : I.Geometry) : 0 < ∑ j ∈ Icc 1 I.jd, cos (I.phi j) := by
  have hj := h.jd3
  refine sum_pos' (fun j hj => ?_) ⟨1, by simp; omega, ?_⟩
  · rw [mem_Icc] at hj; exact h.cos_nonneg hj.1 hj.2
  · unfold phi; norm_num

theorem phiN_eq (h : I.Geometry) (j : ℤ) : I.phiN (j + (I.jd - 1)) = I.phi j := by
  have hm := h.dphi_mul
  unfold phiN phi
  push_cast
  linear_combination hm

end Geometry

theorem sum_shift (lo hi d : ℤ) (f : ℤ → ℝ) : ∑ j ∈ Icc (lo + d) (hi + d), f j = ∑ j ∈ Icc lo hi, f (j + d) := by
  refine sum_bij' (fun j _ => j - d) (fun j _ => j + d) ?_ ?_ ?_ ?_ ?_
  · intro j hj; simp only [mem_Icc] at hj ⊢; omega
  · intro j hj; simp only [mem_Icc] at hj ⊢; omega
  · intro j _; simp
  · intro j _; simp
  · intro j _; simp

theorem tb_eq (h : I.Geometry) (k : ℤ) : I.tb k = I.planet.rowMean 1 I.jd (fun j => I.tbar j k) := by
  have hodd := h.odd
  unfold tb Planet.rowMean
  rw [dosum_eq, dosum_eq]
  have e1 : I.jd = 1 + (I.jd - 1) := by omega
  have e2 : I.nlat = I.jd + (I.jd - 1) := by omega
  have key : ∀ f : ℤ → ℝ, ∑ j ∈ Icc I.jd I.nlat, f j = ∑ j ∈ Icc 1 I.jd, f (j + (I.jd - 1)) := by
    intro f
    rw [← sum_shift, ← e1, ← e2]
  rw [key, key]
  simp only [h.phiN_eq, phi_eq_lat, add_sub_cancel_right]

/-! ### C52 -/

/-- Area mean of potential temperature over the northern hemisphere at level `k`. -/
def northMean (I : RefIn) (k : ℤ) : ℝ :=
  (∑ j ∈ Icc 1 I.jd, ∑ i ∈ Icc 1 I.nlon, cos (I.planet.lat j) * I.pt i (j + (I.jd - 1)) k) /
    ∑ j ∈ Icc 1 I.jd, ∑ _i ∈ Icc 1 I.nlon, cos (I.planet.lat j)

theorem tb_northMean (h : I.Geometry) (k : ℤ) : I.tb k = I.northMean k := by
  rw [tb_eq h]
  have hn : (0 : ℝ) < I.nlon := by exact_mod_cast (by have := h.nlon1; omega : 0 < I.nlon)
  have hc : ((Icc 1 I.nlon).card : ℝ) = I.nlon := by
    rw [Int.card_Icc]
    have : ((I.nlon + 1 - 1).toNat : ℤ) = I.nlon := by have := h.nlon1; omega
    exact_mod_cast this
  unfold northMean Planet.rowMean
  have e1 : ∑ j ∈ Icc 1 I.jd, ∑ i ∈ Icc 1 I.nlon, cos (I.planet.lat j) * I.pt i (j + (I.jd - 1)) k =
      (I.nlon : ℝ) * ∑ j ∈ Icc 1 I.jd, cos (I.planet.lat j) * I.tbar j k := by
    rw [mul_sum]
    refine sum_congr rfl fun j _ => ?_
    unfold tbar zmean
    rw [dosum_eq, ← mul_sum, ← sum_div]
    field_simp
  have e2 : ∑ j ∈ Icc 1 I.jd, ∑ _i ∈ Icc 1 I.nlon, cos (I.planet.lat j) =
      (I.nlon : ℝ) * ∑ j ∈ Icc 1 I.jd, cos (I.planet.lat j) := by
    rw [mul_sum]
    refine sum_congr rfl fun j _ => ?_
    rw [sum_const, nsmul_eq_mul, hc]
  rw [e1, e2, mul_div_mul_left _ _ hn.ne']

theorem rowMean_add_const (h : I.Geometry) (T : ℤ → ℝ) (c : ℝ) :
    I.planet.rowMean 1 I.jd (fun j => T j + c) = I.planet.rowMean 1 I.jd T + c := by
  have hw := h.wt_pos
  simp only [phi_eq_lat] at hw
  unfold Planet.rowMean
  simp only [mul_add, sum_add_distrib, ← sum_mul]
  field_simp

theorem trefMid_mean (h : I.Geometry) (k : ℤ) : I.planet.rowMean 1 I.jd (fun j => I.trefMid j k) = I.tb k := by
  unfold trefMid
  rw [rowMean_add_const h]
  have : I.tg k = I.planet.rowMean 1 I.jd (I.trefRaw k) := by
    unfold tg Planet.rowMean
    rw [dosum_eq, dosum_eq]
    simp only [phi_eq_lat]
  rw [this]
  ring

/-- C52 for QGFieldNH18: on every level, top and bottom included, the mean of the reference temperature is the mean potential
temperature of the hemisphere. -/
theorem C52_mean_nh18 (h : I.Geometry) (k : ℤ) :
    I.planet.rowMean 1 I.jd (fun j => I.tref j k) = I.northMean k := by
  have hk := h.kmax3
  rw [← tb_northMean h]
  unfold tref
  by_cases h1 : k = I.kmax
  · simp only [if_pos h1]
    have := rowMean_add_const h (fun j => I.trefMid j (I.kmax - 1)) (I.tb I.kmax - I.tb (I.kmax - 1))
    rw [trefMid_mean h] at this
    rw [h1]
    refine Eq.trans (congrArg _ (funext fun j => ?_)) (this.trans (by ring))
    ring
  · simp only [if_neg h1]
    by_cases h2 : k = 1
    · simp only [if_pos h2]
      have := rowMean_add_const h (fun j => I.trefMid j 2) (I.tb 1 - I.tb 2)
      rw [trefMid_mean h] at this
      rw [h2]
      refine Eq.trans (congrArg _ (funext fun j => ?_)) (this.trans (by ring))
      ring
    · simp only [if_neg h2]
      exact trefMid_mean h k

/-! ### C53 -/

/-- C53 for QGFieldNH18. -/
theorem C53_balance_nh18 (h : I.Geometry) {j k : ℤ} (j1 : 2 ≤ j) (j2 : j ≤ I.jd - 1) (k1 : 2 ≤ k) (k2 : k ≤ I.kmax - 1) :
    I.planet.ThermalWind I.uref I.tref j k := by
  have hd := h.dphi_pos
  have hr := (trefRaw_spec h.jd3 k).2.2 j j1 j2
  unfold Planet.ThermalWind
  have e : ∀ j', I.tref j' k = I.trefMid j' k := fun j' => by
    unfold tref; rw [if_neg (by omega), if_neg (by omega)]
  rw [e, e]
  unfold trefMid
  rw [hr]
  unfold ty cor
  rw [phi_eq_lat, z_eq_height]
  show _ / (2 * I.dphi) = _
  unfold Planet.f
  show (_ : ℝ) = -(2 * I.om * sin (I.planet.lat j) * I.a * (I.h / I.r) * exp (I.rkappa * I.planet.height k / I.h) *
    ((I.uref j (k + 1) - I.uref j (k - 1)) / (2 * I.dz)))
  field_simp
  ring

/-! ### C55: fixed points -/

/-- The discretised problem with its boundary conditions, for `u cos φ`. -/
structure Solves (I : RefIn) (u : ℤ → ℤ → ℝ) : Prop where
  /-- the equation in the interior -/
  eqn : ∀ j k, 2 ≤ j → j ≤ I.jd - 1 → 2 ≤ k → k ≤ I.kmax - 1 → I.planet.Elliptic I.stat I.qref u j k
  /-- equatorward boundary -/
  south : ∀ k, 1 ≤ k → k ≤ I.kmax → u 1 k = I.bound k
  /-- pole -/
  north : ∀ k, 1 ≤ k → k ≤ I.kmax → u I.jd k = 0
  /-- no slip at the lowest level -/
  bottom : ∀ j, 2 ≤ j → j ≤ I.jd - 1 → u j 1 = 0
  /-- thermal wind at the top -/
  top : ∀ j, 2 ≤ j → j ≤ I.jd - 1 → (u j I.kmax - u j (I.kmax - 2)) / (2 * I.dz) =
    -(I.r * cos (I.planet.lat j) * exp (-(I.r / I.cp) * I.planet.height ((I.kmax : ℝ) - 1) / I.h) *
      ((I.tbar (j + 1) (I.kmax - 1) - I.tbar (j - 1) (I.kmax - 1)) / (2 * I.dphi))) / (I.planet.f j * I.h * I.a)

theorem resid_zero_iff (u : ℤ → ℤ → ℝ) (j k : ℤ) : I.resid u j k = 0 ↔ I.planet.Elliptic I.stat I.qref u j k := by
  have hp : ((j : ℝ) - 0.5) * I.dphi = I.planet.lat (j + 1 / 2) := by unfold Planet.lat planet; norm_num; left; ring
  have hm : ((j : ℝ) - 1.5) * I.dphi = I.planet.lat (j - 1 / 2) := by unfold Planet.lat planet; norm_num; left; ring
  have hA : ∀ p : ℤ, p = 1 ∨ p = -1 → I.amp p j k = (2 * I.om * I.a * I.dphi / I.dz) ^ 2 * (I.h / I.r) *
      (sin (I.planet.lat j) / cos (I.planet.lat j)) * I.planet.stiffness ((I.stat (k + p) + I.stat k) / 2) k (k + p / 2) := by
    intro p _
    unfold amp
    simp only [phi_eq_lat]
    have hz : 0.5 * (I.z (k + p) + I.z k) = I.planet.height (k + p / 2) := by
      unfold z Planet.height planet
      push_cast
      norm_num
      ring
    rw [hz]
    unfold Planet.stiffness
    rw [show exp (-(1 - I.planet.r / I.planet.cp) * I.planet.height (k + p / 2) / I.planet.h) =
      exp (-I.planet.height (k + p / 2) / I.h) * exp (I.rkappa * I.planet.height (k + p / 2) / I.h) by
        rw [← exp_add]; congr 1; show -(1 - I.r / I.cp) * _ / I.h = _; unfold rkappa; ring]
    rw [show I.planet.h = I.h from rfl, ← z_eq_height]
    rw [show (0.5 : ℝ) * (I.stat (k + p) + I.stat k) = (I.stat (k + p) + I.stat k) / 2 by ring]
    ring
  have hA1 := hA 1 (Or.inl rfl)
  have hA2 := hA (-1) (Or.inr rfl)
  unfold resid Planet.Elliptic ejk cjk djk ajk bjk
  rw [hp, hm, hA1, hA2]
  show _ ↔ _ = -(I.om * I.a * I.dphi * (I.qref (j + 1) k - I.qref (j - 1) k))
  unfold fjk
  rw [show k + -1 = k - 1 by ring]
  push_cast
  rw [show (k : ℝ) + -1 / 2 = k - 1 / 2 by ring]
  show _ ↔ _ + (2 * I.om * I.a * I.dphi / I.dz) ^ 2 * (I.h / I.r) * _ * _ = _
  constructor
  · intro h
    linear_combination h
  · intro h
    linear_combination h

theorem top_iff (u : ℤ → ℤ → ℝ) (hdz : I.dz ≠ 0) (j : ℤ) :
    (u j I.kmax - u j (I.kmax - 2)) / (2 * I.dz) =
    -(I.r * cos (I.planet.lat j) * exp (-(I.r / I.cp) * I.planet.height ((I.kmax : ℝ) - 1) / I.h) *
      ((I.tbar (j + 1) (I.kmax - 1) - I.tbar (j - 1) (I.kmax - 1)) / (2 * I.dphi))) / (I.planet.f j * I.h * I.a) ↔
    u j I.kmax = u j (I.kmax - 2) - I.uz j := by
  have : -(I.r * cos (I.planet.lat j) * exp (-(I.r / I.cp) * I.planet.height ((I.kmax : ℝ) - 1) / I.h) *
      ((I.tbar (j + 1) (I.kmax - 1) - I.tbar (j - 1) (I.kmax - 1)) / (2 * I.dphi))) / (I.planet.f j * I.h * I.a) =
      -I.uz j / (2 * I.dz) := by
    unfold uz
    rw [phi_eq_lat, z_eq_height]
    rw [show ((I.kmax - 1 : ℤ) : ℝ) = (I.kmax : ℝ) - 1 by push_cast; ring]
    rw [show -I.planet.height ((I.kmax : ℝ) - 1) * I.rkappa / I.h =
      -(I.r / I.cp) * I.planet.height ((I.kmax : ℝ) - 1) / I.h by unfold rkappa; ring]
    unfold Planet.f
    rw [show I.planet.om = I.om from rfl]
    field_simp
  rw [this]
  have h2 : (2 * I.dz) ≠ 0 := mul_ne_zero two_ne_zero hdz
  rw [div_left_inj' h2]
  constructor <;> intro h <;> linarith

/-- Point of the array. -/
def Dom (I : RefIn) (j k : ℤ) : Prop := (1 ≤ j ∧ j ≤ I.jd) ∧ 1 ≤ k ∧ k ≤ I.kmax

theorem active_succ {n j k : ℤ} (hk : 2 ≤ k ∧ k ≤ I.kmax - 1) : I.Active (n + 1) j k ↔ ¬ I.Active n j k := by
  unfold Active
  simp only [hk, true_and]
  omega

theorem sweep_interior (h : I.Geometry) {n : ℤ} {om : ℝ} {u : ℤ → ℤ → ℝ} {j k : ℤ} (j1 : 2 ≤ j) (j2 : j ≤ I.jd - 1)
    (k1 : 2 ≤ k) (k2 : k ≤ I.kmax - 1) :
    (I.sweep n om u).u j k = if I.Active n j k then I.relax om u j k else u j k := by
  rw [(sweep_spec h.kmax3 h.jd3 n om u).1, if_neg (by omega), if_neg (by omega), if_pos ⟨j1, j2⟩]
  unfold newRow midRow
  rw [if_neg (by omega), if_neg (by omega)]

theorem sweep_bottom (h : I.Geometry) {n : ℤ} {om : ℝ} {u : ℤ → ℤ → ℝ} {j : ℤ} (j1 : 2 ≤ j) (j2 : j ≤ I.jd - 1) :
    (I.sweep n om u).u j 1 = 0 := by
  have := h.kmax3
  rw [(sweep_spec h.kmax3 h.jd3 n om u).1, if_neg (by omega), if_neg (by omega), if_pos ⟨j1, j2⟩]
  unfold newRow midRow
  rw [if_neg (by omega), if_pos rfl]

theorem sweep_top (h : I.Geometry) {n : ℤ} {om : ℝ} {u : ℤ → ℤ → ℝ} {j : ℤ} (j1 : 2 ≤ j) (j2 : j ≤ I.jd - 1) :
    (I.sweep n om u).u j I.kmax = (I.sweep n om u).u j (I.kmax - 2) - I.uz j := by
  have := h.kmax3
  rw [(sweep_spec h.kmax3 h.jd3 n om u).1, (sweep_spec h.kmax3 h.jd3 n om u).1, if_neg (by omega), if_neg (by omega),
    if_pos ⟨j1, j2⟩, if_neg (by omega), if_neg (by omega), if_pos ⟨j1, j2⟩]
  unfold newRow
  rw [if_pos rfl, if_neg (by omega)]

theorem sweep_south (h : I.Geometry) {n : ℤ} {om : ℝ} {u : ℤ → ℤ → ℝ} (k : ℤ) : (I.sweep n om u).u 1 k = I.bound k := by
  rw [(sweep_spec h.kmax3 h.jd3 n om u).1, if_pos rfl]

theorem sweep_north (h : I.Geometry) {n : ℤ} {om : ℝ} {u : ℤ → ℤ → ℝ} (k : ℤ) : (I.sweep n om u).u I.jd k = 0 := by
  have := h.jd3
  rw [(sweep_spec h.kmax3 h.jd3 n om u).1, if_neg (by omega), if_pos rfl]

/-- A solution is not changed by a sweep. -/
theorem sweep_of_solves (h : I.Geometry) (hdz : I.dz ≠ 0) {u : ℤ → ℤ → ℝ} (hs : I.Solves u)
    (he : ∀ j k, 2 ≤ j → j ≤ I.jd - 1 → 2 ≤ k → k ≤ I.kmax - 1 → I.ejk j k ≠ 0) (n : ℤ) (om : ℝ) :
    ∀ j k, I.Dom j k → (I.sweep n om u).u j k = u j k := by
  have hkm := h.kmax3
  rintro j k ⟨⟨j1, j2⟩, k1, k2⟩
  by_cases e1 : j = 1
  · rw [e1, sweep_south h, hs.south k k1 k2]
  by_cases e2 : j = I.jd
  · rw [e2, sweep_north h, hs.north k k1 k2]
  have a1 : 2 ≤ j := by omega
  have a2 : j ≤ I.jd - 1 := by omega
  have hin : ∀ k, 2 ≤ k → k ≤ I.kmax - 1 → (I.sweep n om u).u j k = u j k := by
    intro k b1 b2
    rw [sweep_interior h a1 a2 b1 b2]
    split_ifs
    · unfold relax
      rw [if_pos (he j k a1 a2 b1 b2), (resid_zero_iff u j k).2 (hs.eqn j k a1 a2 b1 b2)]
      ring
    · rfl
  by_cases e3 : k = 1
  · rw [e3, sweep_bottom h a1 a2, hs.bottom j a1 a2]
  by_cases e4 : k = I.kmax
  · rw [e4, sweep_top h a1 a2, (top_iff u hdz j).1 (hs.top j a1 a2)]
    by_cases e5 : I.kmax - 2 = 1
    · rw [e5, sweep_bottom h a1 a2, hs.bottom j a1 a2]
    · rw [hin _ (by omega) (by omega)]
  exact hin k (by omega) (by omega)

theorem solves_congr (h : I.Geometry) {u v : ℤ → ℤ → ℝ} (e : ∀ j k, I.Dom j k → u j k = v j k) (hs : I.Solves u) :
    I.Solves v := by
  have hk := h.kmax3
  have hj := h.jd3
  refine ⟨fun j k j1 j2 k1 k2 => ?_, fun k k1 k2 => ?_, fun k k1 k2 => ?_, fun j j1 j2 => ?_, fun j j1 j2 => ?_⟩
  · rw [← resid_zero_iff]
    have := (resid_zero_iff u j k).2 (hs.eqn j k j1 j2 k1 k2)
    rw [← this]
    refine resid_congr ?_ ?_ ?_ ?_ ?_ <;> refine (e _ _ ⟨?_, ?_⟩).symm <;> constructor <;> omega
  · rw [← e 1 k ⟨⟨le_rfl, by omega⟩, k1, k2⟩, hs.south k k1 k2]
  · rw [← e I.jd k ⟨⟨by omega, le_rfl⟩, k1, k2⟩, hs.north k k1 k2]
  · rw [← e j 1 ⟨⟨by omega, by omega⟩, le_rfl, by omega⟩, hs.bottom j j1 j2]
  · rw [← e j I.kmax ⟨⟨by omega, by omega⟩, by omega, le_rfl⟩, ← e j (I.kmax - 2) ⟨⟨by omega, by omega⟩, by omega, by omega⟩,
      hs.top j j1 j2]

/-- C55, fixed points: a wind is left unchanged by two successive sweeps exactly if it solves the discretised problem. -/
theorem C55_fixed_points (h : I.Geometry) (hdz : I.dz ≠ 0)
    (he : ∀ j k, 2 ≤ j → j ≤ I.jd - 1 → 2 ≤ k → k ≤ I.kmax - 1 → I.ejk j k ≠ 0)
    (n : ℤ) {om om' : ℝ} (hom : om ≠ 0) (hom' : om' ≠ 0) (u : ℤ → ℤ → ℝ) :
    (∀ j k, I.Dom j k → (I.sweep (n + 1) om' (I.sweep n om u).u).u j k = u j k) ↔ I.Solves u := by
  have hkm := h.kmax3
  have hjm := h.jd3
  constructor
  swap
  · intro hs j k hjk
    have e := sweep_of_solves h hdz hs he n om
    rw [sweep_of_solves h hdz (solves_congr h (fun j k hd => (e j k hd).symm) hs) he (n + 1) om' j k hjk, e j k hjk]
  intro hfix
  set v := (I.sweep n om u).u with hv
  set w := (I.sweep (n + 1) om' v).u with hw
  -- the first sweep changes nothing
  have hin : ∀ j k, 2 ≤ j → j ≤ I.jd - 1 → 2 ≤ k → k ≤ I.kmax - 1 → v j k = u j k := by
    intro j k j1 j2 k1 k2
    by_cases ha : I.Active n j k
    · have : w j k = v j k := by
        rw [hw, sweep_interior h j1 j2 k1 k2, if_neg (fun x => (active_succ ⟨k1, k2⟩).1 x ha)]
      rw [← this]
      exact hfix j k ⟨⟨by omega, by omega⟩, by omega, by omega⟩
    · rw [hv, sweep_interior h j1 j2 k1 k2, if_neg ha]
  have hvu : ∀ j k, I.Dom j k → v j k = u j k := by
    rintro j k hd
    have hd' := hd
    obtain ⟨⟨j1, j2⟩, k1, k2⟩ := hd
    by_cases e1 : j = 1
    · rw [← hfix j k hd', e1, hv, hw, sweep_south h, sweep_south h]
    by_cases e2 : j = I.jd
    · rw [← hfix j k hd', e2, hv, hw, sweep_north h, sweep_north h]
    have a1 : 2 ≤ j := by omega
    have a2 : j ≤ I.jd - 1 := by omega
    by_cases e3 : k = 1
    · rw [← hfix j k hd', e3, hv, hw, sweep_bottom h a1 a2, sweep_bottom h a1 a2]
    by_cases e4 : k = I.kmax
    · rw [← hfix j k hd', e4]
      have t1 : v j I.kmax = v j (I.kmax - 2) - I.uz j := sweep_top h a1 a2
      have t2 : w j I.kmax = w j (I.kmax - 2) - I.uz j := sweep_top h a1 a2
      rw [t1, t2]
      by_cases e5 : I.kmax - 2 = 1
      · rw [e5, hv, hw, sweep_bottom h a1 a2, sweep_bottom h a1 a2]
      · rw [hin j _ a1 a2 (by omega) (by omega), hfix j (I.kmax - 2) ⟨⟨j1, j2⟩, by omega, by omega⟩]
    exact hin j k a1 a2 (by omega) (by omega)
  have hres : ∀ (om : ℝ) (x : ℤ → ℤ → ℝ) (j k : ℤ), om ≠ 0 → I.ejk j k ≠ 0 → I.relax om x j k = x j k → I.resid x j k = 0 := by
    intro om x j k h0 he hr
    unfold relax at hr
    rw [if_pos he] at hr
    have : om * I.resid x j k / I.ejk j k = 0 := by linarith
    rcases div_eq_zero_iff.1 this with h1 | h1
    · exact (mul_eq_zero.1 h1).resolve_left h0
    · exact absurd h1 he
  refine ⟨fun j k j1 j2 k1 k2 => ?_, fun k k1 k2 => ?_, fun k k1 k2 => ?_, fun j j1 j2 => ?_, fun j j1 j2 => ?_⟩
  · rw [← resid_zero_iff]
    by_cases ha : I.Active n j k
    · refine hres om u j k hom (he j k j1 j2 k1 k2) ?_
      have := hin j k j1 j2 k1 k2
      rwa [hv, sweep_interior h j1 j2 k1 k2, if_pos ha] at this
    · have hr : I.resid v j k = 0 := by
        refine hres om' v j k hom' (he j k j1 j2 k1 k2) ?_
        have := hfix j k ⟨⟨by omega, by omega⟩, by omega, by omega⟩
        rw [hw, sweep_interior h j1 j2 k1 k2, if_pos ((active_succ ⟨k1, k2⟩).2 ha)] at this
        rw [this, hin j k j1 j2 k1 k2]
      rw [← hr]
      refine resid_congr ?_ ?_ ?_ ?_ ?_ <;> refine (hvu _ _ ⟨?_, ?_⟩).symm <;> constructor <;> omega
  · rw [← hvu 1 k ⟨⟨le_rfl, by omega⟩, k1, k2⟩, hv, sweep_south h]
  · rw [← hvu I.jd k ⟨⟨by omega, le_rfl⟩, k1, k2⟩, hv, sweep_north h]
  · rw [← hvu j 1 ⟨⟨by omega, by omega⟩, le_rfl, by omega⟩, hv, sweep_bottom h j1 j2]
  · rw [top_iff u hdz j, ← hvu j I.kmax ⟨⟨by omega, by omega⟩, by omega, le_rfl⟩,
      ← hvu j (I.kmax - 2) ⟨⟨by omega, by omega⟩, by omega, by omega⟩, hv, sweep_top h j1 j2]

/-! ### C55: iteration count and failure -/

/-- Relaxation factor and wind after `n` sweeps. -/
def trajectory (I : RefIn) : ℕ → ℝ × (ℤ → ℤ → ℝ)
  | 0 => (1, fun _ _ => 0)
  | n + 1 => (I.omegaNext ((n + 1 : ℕ) : ℤ) (I.trajectory n).1,
      (I.sweep ((n + 1 : ℕ) : ℤ) (I.trajectory n).1 (I.trajectory n).2).u)

/-- The stopping criterion in sweep `n`: the residuals of the points treated in the sweep (half of the interior points, in
chequerboard order) add up to less than `eps` times the sum of the right-hand sides. -/
def Stop (I : RefIn) (n : ℕ) : Prop :=
  2 ≤ n ∧ (∑ j ∈ Icc 2 (I.jd - 1), ∑ k ∈ Icc 2 (I.kmax - 1),
      if (j + k) % 2 = (n : ℤ) % 2 then |I.resid (I.trajectory (n - 1)).2 j k| else 0) <
    I.eps * ∑ j ∈ Icc 2 (I.jd - 1), ∑ k ∈ Icc 2 (I.kmax - 1), |I.fjk j k|

theorem stop_iff (h : I.Geometry) (n : ℕ) : I.Stop (n + 1) ↔
    (1 < ((n + 1 : ℕ) : ℤ) ∧ (I.sweep ((n + 1 : ℕ) : ℤ) (I.trajectory n).1 (I.trajectory n).2).anorm < I.eps * I.anormf) := by
  unfold Stop
  rw [(sweep_spec h.kmax3 h.jd3 _ _ _).2]
  unfold anormf
  rw [dosum_eq]
  simp only [dosum_eq]
  rw [Nat.add_sub_cancel]
  have e : ∀ j, (∑ k ∈ Icc 2 (I.kmax - 1), if (j + k) % 2 = ((n + 1 : ℕ) : ℤ) % 2 then |I.resid (I.trajectory n).2 j k| else 0) =
      ∑ k ∈ Icc 2 (I.kmax - 1), if I.Active ((n + 1 : ℕ) : ℤ) j k then |I.resid (I.trajectory n).2 j k| else 0 := by
    intro j
    refine sum_congr rfl fun k hk => ?_
    rw [mem_Icc] at hk
    by_cases hp : (j + k) % 2 = ((n + 1 : ℕ) : ℤ) % 2
    · rw [if_pos hp, if_pos (show I.Active _ j k from ⟨hk, hp⟩)]
    · rw [if_neg hp, if_neg (fun x : I.Active _ j k => hp x.2)]
  simp only [e]
  refine and_congr_left fun _ => ?_
  push_cast
  omega

theorem sorLoop_spec (h : I.Geometry) : ∀ (fuel n : ℕ),
    (∃ m, n < m ∧ m ≤ n + fuel ∧ I.Stop m ∧ (∀ l, n < l → l < m → ¬ I.Stop l) ∧
      I.sorLoop fuel ((n + 1 : ℕ) : ℤ) (I.trajectory n).1 (I.trajectory n).2 = ((I.trajectory m).2, (m : ℤ))) ∨
    ((∀ m, n < m → m ≤ n + fuel → ¬ I.Stop m) ∧
      I.sorLoop fuel ((n + 1 : ℕ) : ℤ) (I.trajectory n).1 (I.trajectory n).2 = (fun _ _ => 0, ((n + fuel + 1 : ℕ) : ℤ))) := by
  intro fuel
  induction fuel with
  | zero =>
    intro n
    right
    exact ⟨fun m h1 h2 => by omega, rfl⟩
  | succ fuel ih =>
    intro n
    by_cases hs : I.Stop (n + 1)
    · left
      refine ⟨n + 1, by omega, by omega, hs, fun l h1 h2 => by omega, ?_⟩
      have := (stop_iff h n).1 hs
      unfold sorLoop
      simp only
      rw [if_pos this]
      rfl
    · have hn : ¬ _ := fun x => hs ((stop_iff h n).2 x)
      have step : I.sorLoop (fuel + 1) ((n + 1 : ℕ) : ℤ) (I.trajectory n).1 (I.trajectory n).2 =
          I.sorLoop fuel ((n + 1 + 1 : ℕ) : ℤ) (I.trajectory (n + 1)).1 (I.trajectory (n + 1)).2 := by
        conv_lhs => unfold sorLoop
        simp only
        rw [if_neg hn]
        rfl
      rw [step]
      rcases ih (n + 1) with ⟨m, m1, m2, m3, m4, m5⟩ | ⟨m1, m2⟩
      · left
        refine ⟨m, by omega, by omega, m3, fun l l1 l2 => ?_, m5⟩
        by_cases hl : l = n + 1
        · rw [hl]; exact hs
        · exact m4 l (by omega) l2
      · right
        refine ⟨fun m l1 l2 => ?_, ?_⟩
        · by_cases hl : m = n + 1
          · rw [hl]; exact hs
          · exact m1 m (by omega) (by omega)
        · rw [m2]
          congr 2
          omega

theorem sor_spec (h : I.Geometry) :
    (∃ m, 1 ≤ m ∧ m ≤ I.maxits ∧ I.Stop m ∧ (∀ l, 1 ≤ l → l < m → ¬ I.Stop l) ∧ I.sor = ((I.trajectory m).2, (m : ℤ))) ∨
    ((∀ m, 1 ≤ m → m ≤ I.maxits → ¬ I.Stop m) ∧ I.sor = (fun _ _ => 0, (I.maxits : ℤ) + 1)) := by
  rcases sorLoop_spec h I.maxits 0 with ⟨m, m1, m2, m3, m4, m5⟩ | ⟨m1, m2⟩
  · left
    exact ⟨m, m1, by omega, m3, fun l l1 l2 => m4 l l1 l2, m5⟩
  · right
    refine ⟨fun m h1 h2 => m1 m h1 (by omega), ?_⟩
    have : I.sor = I.sorLoop I.maxits ((0 + 1 : ℕ) : ℤ) (I.trajectory 0).1 (I.trajectory 0).2 := rfl
    rw [this, m2]
    congr 1
    push_cast
    ring

/-- C55, iteration count: `num_of_iter` is the first sweep that meets the stopping criterion, and then the wind is the wind after
that sweep; if no sweep up to `maxits` meets it, the count is `maxits + 1`. In particular the count is at most `maxits` exactly
if the criterion was met. -/
theorem C55_count (h : I.Geometry) :
    (I.numOfIter ≤ I.maxits ↔ ∃ n, n ≤ I.maxits ∧ I.Stop n) ∧
    I.numOfIter ≤ I.maxits + 1 ∧
    (∀ n : ℕ, n ≤ I.maxits → I.Stop n → (∀ l, l < n → ¬ I.Stop l) →
      I.numOfIter = n ∧ ∀ j k, 2 ≤ j → j ≤ I.jd - 1 → I.uref j k * cos (I.planet.lat j) = (I.trajectory n).2 j k) ∧
    (I.numOfIter = I.maxits + 1 ↔ ∀ n, n ≤ I.maxits → ¬ I.Stop n) := by
  have h2 : ∀ n, I.Stop n → 1 ≤ n := fun n hn => by have := hn.1; omega
  rcases sor_spec h with ⟨m, m1, m2, m3, m4, m5⟩ | ⟨m1, m2⟩
  · have hn : I.numOfIter = m := by unfold numOfIter; rw [m5]
    refine ⟨⟨fun _ => ⟨m, m2, m3⟩, fun _ => by rw [hn]; exact_mod_cast m2⟩, by rw [hn]; omega, ?_, ?_⟩
    · intro n n1 n2 n3
      have : n = m := by
        rcases lt_trichotomy n m with hl | hl | hl
        · exact absurd n2 (m4 n (h2 n n2) hl)
        · exact hl
        · exact absurd m3 (n3 m hl)
      rw [this, hn]
      refine ⟨rfl, fun j k j1 j2 => ?_⟩
      have hc : cos (I.phi j) ≠ 0 := by
        have hlt : I.phi j < π / 2 := by
          have hd := h.dphi_pos
          have hm := h.dphi_mul
          have : (j : ℝ) ≤ I.jd - 1 := by exact_mod_cast j2
          unfold phi
          push_cast
          nlinarith
        have hge := (h.phi_mem (by omega : 1 ≤ j) (by omega)).1
        exact (cos_pos_of_mem_Ioo ⟨by linarith [pi_pos], hlt⟩).ne'
      unfold uref windRows
      rw [if_neg (by omega), if_neg (by omega), if_pos ⟨j1, j2⟩, m5, ← phi_eq_lat]
      exact div_mul_cancel₀ _ hc
    · rw [hn]
      constructor
      · intro e; omega
      · intro e; exact absurd m3 (e m m2)
  · have hn : I.numOfIter = I.maxits + 1 := by unfold numOfIter; rw [m2]
    refine ⟨⟨fun e => by omega, ?_⟩, by omega, ?_, ⟨fun _ n n1 n2 => m1 n (h2 n n2) n1 n2, fun _ => hn⟩⟩
    · rintro ⟨n, n1, n2⟩; exact absurd n2 (m1 n (h2 n n2) n1)
    · intro n n1 n2; exact absurd n2 (m1 n (h2 n n2) n1)

/-- C55, failure, as stated: if the criterion is never met, the wind returned is zero at all points. -/
def C55_Statement : Prop :=
  ∀ I : RefIn, I.Geometry → (∀ n, n ≤ I.maxits → ¬ I.Stop n) → ∀ j k, I.Dom j k → I.uref j k = 0

/-- C55, failure, what holds: the wind is zero on all rows but the first, where it is the zonal-mean wind of the data. -/
theorem C55_failure_partial (h : I.Geometry) (h4 : 4 ≤ I.jd) (hs : ∀ n, n ≤ I.maxits → ¬ I.Stop n) (j k : ℤ) (hd : I.Dom j k) :
    I.uref j k = if j = 1 then (∑ i ∈ Icc 1 I.nlon, I.uu i I.jd k) / I.nlon else 0 := by
  have hz : I.sor.1 = fun _ _ => 0 := by
    rcases sor_spec h with ⟨m, m1, m2, m3, m4, m5⟩ | ⟨m1, m2⟩
    · exact absurd m3 (hs m m2)
    · rw [m2]
  have hw : ∀ j, 2 ≤ j → I.windRows I.sor.1 j k = 0 := by
    intro j j1
    unfold windRows
    rw [if_neg (by omega), hz]
    split_ifs <;> simp
  unfold uref
  by_cases e1 : j = 1
  · rw [if_pos e1, if_neg (by omega)]
    unfold windRows
    rw [if_pos e1]
    unfold ubar zmean
    rw [dosum_eq, ← sum_div, show 1 + (I.jd - 1) = I.jd by ring]
  · rw [if_neg e1]
    have := hd.1
    split_ifs
    · rw [hw _ (by omega), hw _ (by omega)]; ring
    · rw [hw _ (by omega)]

/-- A sample input: 4 x 7 x 3 points, uniform wind, QGPV `2 j`. At most one sweep. -/
def sample : RefIn where
  nlon := 4
  nlat := 7
  kmax := 3
  jd := 4
  npart := 5
  maxits := 1
  pv := fun _ j _ => 2 * (j : ℝ)
  uu := fun _ _ _ => 1
  pt := fun _ _ k => (k : ℝ)
  stat := fun _ => 1
  a := 1
  om := 1
  dz := 1
  eps := 1
  h := 1
  dphi := π / 6
  dlambda := π / 2
  r := 1
  cp := 1
  rjac := 1
  unset := fun _ _ => 0

theorem sample_geometry : sample.Geometry where
  nlon1 := by decide
  jd3 := by decide
  kmax3 := by decide
  odd := by decide
  dphiEq := by show π / 6 = π / (((7 : ℤ) : ℝ) - 1); norm_num

theorem sample_never : ∀ n, n ≤ sample.maxits → ¬ sample.Stop n := by
  intro n h1 h2
  have := h2.1
  have : n ≤ 1 := h1
  omega

/-- C55 fails as stated: the equatorward row keeps the wind of the data. -/
theorem C55_refuted : ¬ C55_Statement := by
  intro h
  have h1 := h sample sample_geometry sample_never 1 1 ⟨⟨le_rfl, by decide⟩, le_rfl, by decide⟩
  rw [C55_failure_partial sample_geometry (by decide) sample_never 1 1 ⟨⟨le_rfl, by decide⟩, le_rfl, by decide⟩, if_pos rfl] at h1
  have : ∑ i ∈ Icc (1 : ℤ) sample.nlon, sample.uu i sample.jd 1 = 4 := by
    show ∑ i ∈ Icc (1 : ℤ) 4, (1 : ℝ) = 4
    simp
  rw [this] at h1
  have e : (sample.nlon : ℝ) = 4 := by show ((4 : ℤ) : ℝ) = 4; norm_num
  rw [e] at h1
  norm_num at h1

example : sample.Geometry ∧ (4 : ℤ) ≤ sample.jd ∧ ∀ n, n ≤ sample.maxits → ¬ sample.Stop n :=
  ⟨sample_geometry, by decide, sample_never⟩

/-- For physical constants the diagonal coefficient is negative at all interior points. -/
theorem ejk_neg (h : I.Geometry) (hom : I.om ≠ 0) (ha : I.a ≠ 0) (hh : 0 < I.h) (hr : 0 < I.r) (hdz : I.dz ≠ 0)
    (hS : ∀ k, 1 ≤ k → k ≤ I.kmax → 0 < I.stat k) {j k : ℤ} (j1 : 2 ≤ j) (j2 : j ≤ I.jd - 1) (k1 : 2 ≤ k)
    (k2 : k ≤ I.kmax - 1) : I.ejk j k < 0 := by
  have hd := h.dphi_pos
  have hm := h.dphi_mul
  have a1 : (2 : ℝ) ≤ j := by exact_mod_cast j1
  have a2 : (j : ℝ) ≤ I.jd - 1 := by exact_mod_cast j2
  have sc : ∀ x : ℝ, 0 < x → x < π / 2 → 0 < sin x ∧ 0 < cos x := fun x x1 x2 =>
    ⟨sin_pos_of_pos_of_lt_pi x1 (by linarith [pi_pos]), cos_pos_of_mem_Ioo ⟨by linarith [pi_pos], x2⟩⟩
  have sp := sc (((j : ℝ) - 0.5) * I.dphi) (by apply mul_pos _ hd; linarith) (by nlinarith)
  have sm := sc (((j : ℝ) - 1.5) * I.dphi) (by apply mul_pos _ hd; linarith) (by nlinarith)
  have s0 := sc (I.phi j) (by unfold phi; push_cast; apply mul_pos hd; linarith) (by unfold phi; push_cast; nlinarith)
  have hamp : ∀ p : ℤ, 1 ≤ k + p → k + p ≤ I.kmax → 0 < I.amp p j k := by
    intro p p1 p2
    have q1 := hS (k + p) p1 p2
    have q2 := hS k (by omega) (by omega)
    have hs := s0.1
    have hc := s0.2
    have ho := sq_pos_of_ne_zero hom
    have ha2 := sq_pos_of_ne_zero ha
    have hz2 := sq_pos_of_ne_zero hdz
    unfold amp
    have : 4 * I.om * I.om * I.h * I.a * I.a * sin (I.phi j) * I.dphi * I.dphi / (I.dz * I.dz * I.r * cos (I.phi j)) =
      4 * I.om ^ 2 * I.h * I.a ^ 2 * sin (I.phi j) * I.dphi ^ 2 / (I.dz ^ 2 * I.r * cos (I.phi j)) := by ring
    simp only [this]
    positivity
  have c1 : 0 < I.cjk j k := hamp 1 (by omega) (by omega)
  have c2 : 0 < I.djk j k := hamp (-1) (by omega) (by omega)
  have c3 : 0 < I.ajk j := by unfold ajk; have := sp.1; have := sp.2; positivity
  have c4 : 0 < I.bjk j := by unfold bjk; have := sm.1; have := sm.2; positivity
  unfold ejk
  linarith

/-- Coefficient of the vertical differences in the spec. -/
def vert (I : RefIn) (j : ℤ) : ℝ :=
  (2 * I.om * I.a * I.dphi / I.dz) ^ 2 * (I.h / I.r) * (sin (I.planet.lat j) / cos (I.planet.lat j))

theorem spec_coeff_pos (h : I.Geometry) (hom : I.om ≠ 0) (ha : I.a ≠ 0) (hh : 0 < I.h) (hr : 0 < I.r) (hdz : I.dz ≠ 0)
    (hS : ∀ k, 1 ≤ k → k ≤ I.kmax → 0 < I.stat k) (j k : ℤ) (a : 1 < j) (b : j < I.jd) (c : 1 < k) (d : k < I.kmax) :
    0 < 1 / (sin (I.planet.lat (j + 1 / 2)) * cos (I.planet.lat (j + 1 / 2))) ∧
    0 < 1 / (sin (I.planet.lat (j - 1 / 2)) * cos (I.planet.lat (j - 1 / 2))) ∧
    0 < I.vert j * I.planet.stiffness ((I.stat (k + 1) + I.stat k) / 2) k (k + 1 / 2) ∧
    0 < I.vert j * I.planet.stiffness ((I.stat (k - 1) + I.stat k) / 2) k (k - 1 / 2) := by
  have hd := h.dphi_pos
  have hm := h.dphi_mul
  have sc : ∀ x : ℝ, 1 < x → x < I.jd → 0 < sin (I.planet.lat x) ∧ 0 < cos (I.planet.lat x) := by
    intro x x1 x2
    have e : I.planet.lat x = (x - 1) * I.dphi := rfl
    have l1 : 0 < I.planet.lat x := by rw [e]; exact mul_pos (by linarith) hd
    have l2 : I.planet.lat x < π / 2 := by rw [e]; nlinarith
    exact ⟨sin_pos_of_pos_of_lt_pi l1 (by linarith [pi_pos]), cos_pos_of_mem_Ioo ⟨by linarith [pi_pos], l2⟩⟩
  have a1 : (2 : ℝ) ≤ j := by exact_mod_cast (by omega : 2 ≤ j)
  have a2 : (j : ℝ) ≤ I.jd - 1 := by exact_mod_cast (by omega : j ≤ I.jd - 1)
  obtain ⟨p1, p2⟩ := sc (j + 1 / 2) (by linarith) (by linarith)
  obtain ⟨p3, p4⟩ := sc (j - 1 / 2) (by linarith) (by linarith)
  obtain ⟨p5, p6⟩ := sc j (by linarith) (by linarith)
  have q0 := hS k (by omega) (by omega)
  have q1 := hS (k + 1) (by omega) (by omega)
  have q2 := hS (k - 1) (by omega) (by omega)
  have hsq : 0 < (2 * I.om * I.a * I.dphi / I.dz) ^ 2 := by
    apply sq_pos_of_ne_zero
    have := hd.ne'
    positivity
  have hFp : 0 < I.vert j := by unfold vert; positivity
  refine ⟨by positivity, by positivity, ?_, ?_⟩
  · unfold Planet.stiffness; positivity
  · unfold Planet.stiffness; positivity

/-- C55, uniqueness: for physical constants the problem has at most one solution, so the iteration has at most one fixed point. -/
theorem C55_unique (h : I.Geometry) (hom : I.om ≠ 0) (ha : I.a ≠ 0) (hh : 0 < I.h) (hr : 0 < I.r) (hdz : I.dz ≠ 0)
    (hS : ∀ k, 1 ≤ k → k ≤ I.kmax → 0 < I.stat k) {u v : ℤ → ℤ → ℝ} (hu : I.Solves u) (hv : I.Solves v) :
    ∀ j k, I.Dom j k → u j k = v j k := by
  have hkm := h.kmax3
  have key : ∀ V V' : ℤ → ℤ → ℝ, I.Solves V → I.Solves V' →
      ∀ j k, 2 ≤ j → j ≤ I.jd - 1 → 2 ≤ k → k ≤ I.kmax - 1 → V j k ≤ V' j k := by
    intro V V' hV hV' j k j1 j2 k1 k2
    have := max_principle (j0 := 1) (j1 := I.jd) (kmax := I.kmax)
      (a := fun j _ => 1 / (sin (I.planet.lat (j + 1 / 2)) * cos (I.planet.lat (j + 1 / 2))))
      (b := fun j _ => 1 / (sin (I.planet.lat (j - 1 / 2)) * cos (I.planet.lat (j - 1 / 2))))
      (c := fun j k => I.vert j * I.planet.stiffness ((I.stat (k + 1) + I.stat k) / 2) k (k + 1 / 2))
      (d := fun j k => I.vert j * I.planet.stiffness ((I.stat (k - 1) + I.stat k) / 2) k (k - 1 / 2))
      (w := fun j k => V j k - V' j k)
      (spec_coeff_pos h hom ha hh hr hdz hS)
      (fun j k a b c d => by
        have e1 := hV.eqn j k (by omega) (by omega) (by omega) (by omega)
        have e2 := hV'.eqn j k (by omega) (by omega) (by omega) (by omega)
        unfold Planet.Elliptic at e1 e2
        change _ + (2 * I.om * I.a * I.dphi / I.dz) ^ 2 * (I.h / I.r) * _ * _ = _ at e1
        change _ + (2 * I.om * I.a * I.dphi / I.dz) ^ 2 * (I.h / I.r) * _ * _ = _ at e2
        unfold vert
        linear_combination e1 - e2)
      (fun k a b => by rw [hV.south k (by omega) (by omega), hV'.south k (by omega) (by omega)]; ring)
      (fun k a b => by rw [hV.north k (by omega) (by omega), hV'.north k (by omega) (by omega)]; ring)
      (fun j a b => by rw [hV.bottom j (by omega) (by omega), hV'.bottom j (by omega) (by omega)]; ring)
      (fun j a b => ⟨I.kmax - 2, by omega, by omega, by
        have e1 := hV.top j (by omega) (by omega)
        have e2 := hV'.top j (by omega) (by omega)
        rw [← e2, div_left_inj' (mul_ne_zero two_ne_zero hdz)] at e1
        linarith⟩) j k (by omega) (by omega) (by omega) (by omega)
    linarith
  have inner : ∀ j k, 2 ≤ j → j ≤ I.jd - 1 → 2 ≤ k → k ≤ I.kmax - 1 → u j k = v j k := fun j k j1 j2 k1 k2 =>
    le_antisymm (key u v hu hv j k j1 j2 k1 k2) (key v u hv hu j k j1 j2 k1 k2)
  have low : ∀ j k, 2 ≤ j → j ≤ I.jd - 1 → 1 ≤ k → k ≤ I.kmax - 1 → u j k = v j k := by
    intro j k j1 j2 k1 k2
    by_cases c : k = 1
    · rw [c, hu.bottom j j1 j2, hv.bottom j j1 j2]
    · exact inner j k j1 j2 (by omega) k2
  intro j k ⟨⟨j1, j2⟩, k1, k2⟩
  by_cases c1 : j = 1
  · rw [c1, hu.south k k1 k2, hv.south k k1 k2]
  by_cases c2 : j = I.jd
  · rw [c2, hu.north k k1 k2, hv.north k k1 k2]
  by_cases c3 : k = I.kmax
  · have e1 := hu.top j (by omega) (by omega)
    have e2 := hv.top j (by omega) (by omega)
    rw [← e2, div_left_inj' (mul_ne_zero two_ne_zero hdz), low j (I.kmax - 2) (by omega) (by omega) (by omega) (by omega)] at e1
    rw [c3]
    linarith
  · exact low j k (by omega) (by omega) k1 (by omega)

/-- C55, existence: for physical constants the problem has a solution, so the iteration has a fixed point. -/
theorem C55_exists (h : I.Geometry) (hom : I.om ≠ 0) (ha : I.a ≠ 0) (hh : 0 < I.h) (hr : 0 < I.r) (hdz : I.dz ≠ 0)
    (hS : ∀ k, 1 ≤ k → k ≤ I.kmax → 0 < I.stat k) : ∃ u, I.Solves u := by
  have hkm := h.kmax3
  have hjm := h.jd3
  obtain ⟨w, w1, w2, w3, w4, w5⟩ := exists_solution (j0 := 1) (j1 := I.jd) (kmax := I.kmax) (kt := I.kmax - 2) (by omega) (by omega)
    (spec_coeff_pos h hom ha hh hr hdz hS) (by omega) (by omega)
    (fun j k => -(I.om * I.a * I.dphi * (I.qref (j + 1) k - I.qref (j - 1) k))) I.bound (fun _ => 0)
    (fun j => 2 * I.dz * (-(I.r * cos (I.planet.lat j) * exp (-(I.r / I.cp) * I.planet.height ((I.kmax : ℝ) - 1) / I.h) *
      ((I.tbar (j + 1) (I.kmax - 1) - I.tbar (j - 1) (I.kmax - 1)) / (2 * I.dphi))) / (I.planet.f j * I.h * I.a)))
  refine ⟨w, ⟨fun j k j1 j2 k1 k2 => ?_, fun k _ _ => w2 k, fun k _ _ => w3 k, fun j j1 j2 => w4 j (by omega) (by omega),
    fun j j1 j2 => ?_⟩⟩
  · have := w1 j k (by omega) (by omega) (by omega) (by omega)
    unfold fivePoint vert at this
    unfold Planet.Elliptic
    show _ + (2 * I.om * I.a * I.dphi / I.dz) ^ 2 * (I.h / I.r) * _ * _ = -(I.om * I.a * I.dphi * (I.qref (j + 1) k - I.qref (j - 1) k))
    linear_combination this
  · rw [w5 j (by omega) (by omega), add_sub_cancel_left, mul_div_cancel_left₀ _ (mul_ne_zero two_ne_zero hdz)]

example : sample.Geometry ∧ sample.dz ≠ 0 ∧
    ∀ j k, 2 ≤ j → j ≤ sample.jd - 1 → 2 ≤ k → k ≤ sample.kmax - 1 → sample.ejk j k ≠ 0 :=
  ⟨sample_geometry, by norm_num [sample], fun j k j1 j2 k1 k2 =>
    (ejk_neg sample_geometry (by norm_num [sample]) (by norm_num [sample]) (by norm_num [sample]) (by norm_num [sample])
      (by norm_num [sample]) (fun k _ _ => by norm_num [sample]) j1 j2 k1 k2).ne⟩

/-- The hypotheses of `C55_unique` can be met. -/
example : ∃ u, sample.Solves u :=
  C55_exists sample_geometry (by norm_num [sample]) (by norm_num [sample]) (by norm_num [sample]) (by norm_num [sample])
    (by norm_num [sample]) (fun k _ _ => by norm_num [sample])

/-! ### C77: results do not depend on memory that was never assigned -/

/-- The same input with other contents of the unassigned memory. -/
def withUnset (I : RefIn) (g : ℤ → ℤ → ℝ) : RefIn := { I with unset := g }

/-- C77: wind, temperature and iteration count do not depend on the contents of memory that the routine never assigns. -/
def C77_Statement : Prop :=
  ∀ (I : RefIn) (g : ℤ → ℤ → ℝ), I.Geometry → (∀ k, 2 ≤ k → k ≤ I.kmax - 1 → (I.area k).Valid) →
    (I.withUnset g).numOfIter = I.numOfIter ∧
    ∀ j k, I.Dom j k → (I.withUnset g).uref j k = I.uref j k ∧ (I.withUnset g).tref j k = I.tref j k

/-- Agreement away from the two corners of the equatorward row, whose boundary values are never assigned. -/
def Agree (I : RefIn) (u v : ℤ → ℤ → ℝ) : Prop := ∀ j k, I.Dom j k → (j = 1 → 2 ≤ k ∧ k ≤ I.kmax - 1) → u j k = v j k

theorem agree_resid {u v : ℤ → ℤ → ℝ} (e : I.Agree u v) {j k : ℤ} (j1 : 2 ≤ j) (j2 : j ≤ I.jd - 1)
    (k1 : 2 ≤ k) (k2 : k ≤ I.kmax - 1) : I.resid u j k = I.resid v j k := by
  refine resid_congr ?_ ?_ ?_ ?_ ?_ <;> refine e _ _ ⟨⟨?_, ?_⟩, ?_, ?_⟩ (fun _ => ⟨?_, ?_⟩) <;> omega

theorem agree_sweep (h : I.Geometry) (g : ℤ → ℤ → ℝ)
    (hp : ∀ k, 2 ≤ k → k ≤ I.kmax - 1 → ((I.area k).placed 1).isSome = true) (n : ℤ) (om : ℝ) {u v : ℤ → ℤ → ℝ}
    (e : I.Agree u v) :
    I.Agree ((I.withUnset g).sweep n om u).u (I.sweep n om v).u ∧
      ((I.withUnset g).sweep n om u).anorm = (I.sweep n om v).anorm := by
  have hkm := h.kmax3
  have hjm := h.jd3
  have hg : (I.withUnset g).Geometry := ⟨h.nlon1, h.jd3, h.kmax3, h.odd, h.dphiEq⟩
  constructor
  · have hin : ∀ j k, 2 ≤ j → j ≤ I.jd - 1 → 2 ≤ k → k ≤ I.kmax - 1 →
        ((I.withUnset g).sweep n om u).u j k = (I.sweep n om v).u j k := by
      intro j k j1 j2 k1 k2
      rw [sweep_interior h j1 j2 k1 k2, sweep_interior hg j1 j2 k1 k2]
      have e1 : (I.withUnset g).relax om u j k = I.relax om v j k :=
        relax_congr (agree_resid e j1 j2 k1 k2) (e j k ⟨⟨by omega, by omega⟩, by omega, by omega⟩ (fun _ => ⟨k1, k2⟩))
      rw [e1, e j k ⟨⟨by omega, by omega⟩, by omega, by omega⟩ (fun _ => ⟨k1, k2⟩)]
      rfl
    rintro j k ⟨⟨j1, j2⟩, k1, k2⟩ hc
    by_cases e1 : j = 1
    · obtain ⟨c1, c2⟩ := hc e1
      rw [e1, sweep_south h, sweep_south hg]
      have hs := hp k c1 c2
      have : ∀ x y, (I.area k).cref x 1 = (I.area k).cref y 1 := by
        intro x y
        unfold AreaIn.cref
        obtain ⟨z, hz⟩ := Option.isSome_iff_exists.1 hs
        rw [hz]
        rfl
      show I.ubar 1 k + (if 2 ≤ k ∧ k ≤ I.kmax - 1 then (I.area k).cref (g 1 k) 1 - I.cbar k 1 else g 1 k) / (2 * π * I.a) =
        I.ubar 1 k + (if 2 ≤ k ∧ k ≤ I.kmax - 1 then (I.area k).cref (I.unset 1 k) 1 - I.cbar k 1 else I.unset 1 k) / (2 * π * I.a)
      rw [if_pos ⟨c1, c2⟩, if_pos ⟨c1, c2⟩, this (g 1 k) (I.unset 1 k)]
    by_cases e2 : j = I.jd
    · rw [e2, sweep_north h]
      exact sweep_north hg k
    have a1 : 2 ≤ j := by omega
    have a2 : j ≤ I.jd - 1 := by omega
    by_cases e3 : k = 1
    · rw [e3, sweep_bottom h a1 a2, sweep_bottom hg a1 a2]
    by_cases e4 : k = I.kmax
    · have t1 := sweep_top h (n := n) (om := om) (u := v) a1 a2
      have t2 : ((I.withUnset g).sweep n om u).u j I.kmax = ((I.withUnset g).sweep n om u).u j (I.kmax - 2) - I.uz j :=
        sweep_top hg a1 a2
      rw [e4, t1, t2]
      by_cases e5 : I.kmax - 2 = 1
      · rw [e5, sweep_bottom h a1 a2, sweep_bottom hg a1 a2]
      · rw [hin j _ a1 a2 (by omega) (by omega)]
    exact hin j k a1 a2 (by omega) (by omega)
  · rw [(sweep_spec h.kmax3 h.jd3 n om v).2]
    refine ((sweep_spec hg.kmax3 hg.jd3 n om u).2).trans ?_
    refine sum_congr rfl fun j hj => sum_congr rfl fun k hk => ?_
    rw [mem_Icc] at hj hk
    have : (I.withUnset g).resid u j k = I.resid v j k := agree_resid e hj.1 hj.2 hk.1 hk.2
    rw [this]
    rfl

theorem agree_sorLoop (h : I.Geometry) (g : ℤ → ℤ → ℝ)
    (hp : ∀ k, 2 ≤ k → k ≤ I.kmax - 1 → ((I.area k).placed 1).isSome = true) : ∀ (fuel : ℕ) (n : ℤ) (om : ℝ) (u v : ℤ → ℤ → ℝ),
    I.Agree u v → I.Agree ((I.withUnset g).sorLoop fuel n om u).1 (I.sorLoop fuel n om v).1 ∧
      ((I.withUnset g).sorLoop fuel n om u).2 = (I.sorLoop fuel n om v).2 := by
  intro fuel
  induction fuel with
  | zero => intro n om u v _; exact ⟨fun _ _ _ _ => rfl, rfl⟩
  | succ fuel ih =>
    intro n om u v e
    obtain ⟨e1, e2⟩ := agree_sweep h g hp n om e
    unfold sorLoop
    simp only
    have ea : (I.withUnset g).anormf = I.anormf := rfl
    have ee : (I.withUnset g).eps = I.eps := rfl
    rw [e2, ea, ee]
    by_cases hs : 1 < n ∧ (I.sweep n om v).anorm < I.eps * I.anormf
    · rw [if_pos hs, if_pos hs]
      exact ⟨e1, rfl⟩
    · rw [if_neg hs, if_neg hs]
      exact ih _ _ _ _ e1

/-- C77 holds if on every interior level the area analysis assigns the equatorward row. -/
theorem C77_assigned_partial (h : I.Geometry) (g : ℤ → ℤ → ℝ)
    (hp : ∀ k, 2 ≤ k → k ≤ I.kmax - 1 → ((I.area k).placed 1).isSome = true) :
    (I.withUnset g).numOfIter = I.numOfIter ∧
    ∀ j k, I.Dom j k → (I.withUnset g).uref j k = I.uref j k ∧ (I.withUnset g).tref j k = I.tref j k := by
  have hkm := h.kmax3
  have hjm := h.jd3
  obtain ⟨e1, e2⟩ := agree_sorLoop h g hp I.maxits 1 1 (fun _ _ => 0) (fun _ _ => 0) (fun _ _ _ _ => rfl)
  have hu : ∀ j k, I.Dom j k → (I.withUnset g).uref j k = I.uref j k := by
    have hw : ∀ j k, I.Dom j k → (I.withUnset g).windRows (I.withUnset g).sor.1 j k = I.windRows I.sor.1 j k := by
      intro j k hd
      show (if j = 1 then I.ubar 1 k else if 2 ≤ j ∧ j ≤ I.jd - 1 then (I.withUnset g).sor.1 j k / cos (I.phi j) else
        (I.withUnset g).sor.1 j k) = if j = 1 then I.ubar 1 k else if 2 ≤ j ∧ j ≤ I.jd - 1 then I.sor.1 j k / cos (I.phi j) else
        I.sor.1 j k
      by_cases hj : j = 1
      · rw [if_pos hj, if_pos hj]
      · have : (I.withUnset g).sor.1 j k = I.sor.1 j k := e1 j k hd (fun x => absurd x hj)
        rw [this]
    intro j k hd
    show (if j = I.jd then 2 * (I.withUnset g).windRows (I.withUnset g).sor.1 (I.jd - 1) k -
      (I.withUnset g).windRows (I.withUnset g).sor.1 (I.jd - 2) k else (I.withUnset g).windRows (I.withUnset g).sor.1 j k) = _
    unfold uref
    rw [hw j k hd, hw (I.jd - 1) k ⟨⟨by omega, by omega⟩, hd.2⟩, hw (I.jd - 2) k ⟨⟨by omega, by omega⟩, hd.2⟩]
  refine ⟨e2, fun j k hd => ⟨hu j k hd, ?_⟩⟩
  have hraw : ∀ k, 2 ≤ k → k ≤ I.kmax - 1 → (I.withUnset g).trefRaw k = I.trefRaw k := by
    intro k k1 k2
    unfold trefRaw
    refine doLoop_congr _ fun j t j1 j2 => ?_
    have : (I.withUnset g).ty j k = I.ty j k := by
      show -I.cor j * (((I.withUnset g).uref j (k + 1) - (I.withUnset g).uref j (k - 1)) / (2 * I.dz)) * I.a * I.h *
        exp (I.rkappa * I.z k / I.h) / I.r = _
      have j2' : j ≤ I.jd - 1 := j2
      rw [hu j (k + 1) ⟨⟨by omega, by omega⟩, by omega, by omega⟩, hu j (k - 1) ⟨⟨by omega, by omega⟩, by omega, by omega⟩]
      rfl
    rw [this]
    rfl
  have hmid : ∀ j k, 2 ≤ k → k ≤ I.kmax - 1 → (I.withUnset g).trefMid j k = I.trefMid j k := by
    intro j k k1 k2
    unfold trefMid tg
    rw [hraw k k1 k2]
    rfl
  show (if k = I.kmax then (I.withUnset g).trefMid j (I.kmax - 1) - I.tb (I.kmax - 1) + I.tb I.kmax
    else if k = 1 then (I.withUnset g).trefMid j 2 - I.tb 2 + I.tb 1 else (I.withUnset g).trefMid j k) = _
  unfold tref
  obtain ⟨_, k1, k2⟩ := hd
  rw [hmid j (I.kmax - 1) (by omega) (by omega), hmid j 2 (by omega) (by omega)]
  by_cases c1 : k = I.kmax
  · rw [if_pos c1, if_pos c1]
  · rw [if_neg c1, if_neg c1]
    by_cases c2 : k = 1
    · rw [if_pos c2, if_pos c2]
    · rw [if_neg c2, if_neg c2, hmid j k (by omega) (by omega)]

/-- A sample in which the area analysis assigns all rows. -/
def smooth : RefIn where
  nlon := 4
  nlat := 5
  kmax := 4
  jd := 3
  npart := 5
  maxits := 100
  pv := fun _ j _ => 2 * (j : ℝ)
  uu := fun _ j k => (j : ℝ) + k
  pt := fun _ j k => (k : ℝ) - j
  stat := fun _ => 1
  a := 1
  om := 1
  dz := 1
  eps := 1
  h := 1
  dphi := π / 4
  dlambda := π / 2
  r := 1
  cp := 3
  rjac := 1 / 2
  unset := fun _ _ => 0

theorem smooth_geometry : smooth.Geometry where
  nlon1 := by decide
  jd3 := by decide
  kmax3 := by decide
  odd := by decide
  dphiEq := by show π / 4 = π / (((5 : ℤ) : ℝ) - 1); norm_num

example : smooth.Geometry ∧ ∀ k, 2 ≤ k → k ≤ smooth.kmax - 1 → ((smooth.area k).placed 1).isSome = true :=
  ⟨smooth_geometry, fun k _ _ => AreaIn.ramp_placed_all 1 le_rfl (by decide)⟩

example : smooth.Geometry ∧ (2 : ℤ) ≤ smooth.jd - 1 ∧ (3 : ℤ) ≤ smooth.kmax - 1 := ⟨smooth_geometry, by decide, by decide⟩

/-- The smallest grid (three rows, three levels) with nearly all of the sphere at the largest value; tolerance `E`. -/
def thin (E : ℝ) : RefIn where
  nlon := 4
  nlat := 5
  kmax := 3
  jd := 3
  npart := 5
  maxits := 2
  pv := fun _ j _ => if j = 1 then 1 else 2
  uu := fun _ _ _ => 0
  pt := fun _ _ k => (k : ℝ)
  stat := fun _ => 1
  a := 1
  om := 1
  dz := 1
  eps := E
  h := 1
  dphi := π / 4
  dlambda := π / 2
  r := 1
  cp := 1
  rjac := 0
  unset := fun _ _ => 0

theorem thin_geometry (E : ℝ) : (thin E).Geometry where
  nlon1 := by show (1 : ℤ) ≤ 4; decide
  jd3 := by show (3 : ℤ) ≤ 3; decide
  kmax3 := by show (3 : ℤ) ≤ 3; decide
  odd := rfl
  dphiEq := by show π / 4 = π / (((5 : ℤ) : ℝ) - 1); norm_num

theorem thin_area (E : ℝ) (k : ℤ) : (thin E).area k = AreaIn.plateau := rfl

theorem thin_withUnset_geometry (E : ℝ) (g : ℤ → ℤ → ℝ) : ((thin E).withUnset g).Geometry :=
  ⟨(thin_geometry E).1, (thin_geometry E).2, (thin_geometry E).3, (thin_geometry E).4, (thin_geometry E).5⟩

theorem thin_fjk (E : ℝ) : (thin E).fjk 2 2 = -(π / 2) := by
  have q3 : (thin E).qrefNorm 3 2 = 1 := by
    unfold qrefNorm qrefRaw cor phi
    rw [if_pos ⟨le_rfl, le_rfl⟩, thin_area]
    have : AreaIn.plateau.qref 3 = 2 := by
      unfold AreaIn.qref
      rw [if_pos (show (3 : ℤ) = AreaIn.plateau.nd from rfl), AreaIn.plateau_qmax]
    rw [this]
    show 2 / (2 * 1 * sin (π / 4 * ((3 - 1 : ℤ) : ℝ))) = 1
    rw [show π / 4 * ((3 - 1 : ℤ) : ℝ) = π / 2 by push_cast; ring, sin_pi_div_two]
    norm_num
  have q2 : (thin E).qrefNorm 2 2 = 0 := by
    unfold qrefNorm qrefRaw
    rw [if_pos ⟨le_rfl, le_rfl⟩, thin_area, AreaIn.C49_out_of_range.1, zero_div]
  unfold fjk qref
  rw [show (2 : ℤ) + 1 = 3 by rfl, show (2 : ℤ) - 1 = 1 by rfl]
  rw [if_neg (by decide), if_pos rfl, if_pos ⟨le_rfl, le_rfl⟩, q3, q2]
  show -1 * 1 * (π / 4) * (1 - (2 * 0 - 1)) = -(π / 2)
  ring

/-- The first two sweeps of the thin sample. -/
theorem thin_resid (E : ℝ) (g : ℤ → ℤ → ℝ) :
    (∀ j k, (j = 2 ∧ k = 2) → ((thin E).withUnset g).resid (((thin E).withUnset g).trajectory 1).2 j k =
      (thin E).bjk 2 * ((thin E).withUnset g).bound 2 + π / 2) ∧
    (((thin E).withUnset g).trajectory 1).2 2 2 = 0 := by
  have hg := thin_withUnset_geometry E g
  have hs : ∀ j k, (((thin E).withUnset g).trajectory 1).2 j k =
      (((thin E).withUnset g).sweep 1 1 (fun _ _ => 0)).u j k := fun _ _ => rfl
  have c2 : (((thin E).withUnset g).trajectory 1).2 2 2 = 0 := by
    rw [hs, sweep_interior hg le_rfl (by show (2 : ℤ) ≤ 3 - 1; decide) le_rfl (by show (2 : ℤ) ≤ 3 - 1; decide), if_neg]
    rintro ⟨_, x⟩
    revert x
    decide
  refine ⟨?_, c2⟩
  rintro j k ⟨rfl, rfl⟩
  have c1 : (((thin E).withUnset g).trajectory 1).2 1 2 = ((thin E).withUnset g).bound 2 := by rw [hs, sweep_south hg]
  have c3 : (((thin E).withUnset g).trajectory 1).2 3 2 = 0 := by rw [hs]; exact sweep_north hg 2
  have c4 : (((thin E).withUnset g).trajectory 1).2 2 1 = 0 := by
    rw [hs, sweep_bottom hg le_rfl (by show (2 : ℤ) ≤ 3 - 1; decide)]
  have huz : ((thin E).withUnset g).uz 2 = 0 := by
    have ht : ∀ j k, ((thin E).withUnset g).tbar j k = (k : ℝ) := by
      intro j k
      unfold tbar zmean
      rw [dosum_eq]
      show ∑ i ∈ Icc (1 : ℤ) 4, (k : ℝ) / ((4 : ℤ) : ℝ) = k
      simp
      ring
    unfold uz
    rw [ht, ht]
    simp
  have c5 : (((thin E).withUnset g).trajectory 1).2 2 3 = 0 := by
    have := sweep_top hg (n := 1) (om := 1) (u := fun _ _ => 0) (j := 2) le_rfl (by show (2 : ℤ) ≤ 3 - 1; decide)
    rw [huz, sub_zero] at this
    rw [hs]
    refine this.trans ?_
    exact sweep_bottom hg le_rfl (by show (2 : ℤ) ≤ 3 - 1; decide)
  unfold resid
  norm_num only [Int.reduceAdd, Int.reduceSub]
  rw [c1, c2, c3, c4, c5, show ((thin E).withUnset g).fjk 2 2 = (thin E).fjk 2 2 from rfl, thin_fjk]
  rw [show ((thin E).withUnset g).bjk 2 = (thin E).bjk 2 from rfl]
  ring

theorem thin_stop (E : ℝ) (g : ℤ → ℤ → ℝ)
    (hE : |(thin E).bjk 2 * ((thin E).withUnset g).bound 2 + π / 2| < E * (π / 2)) : ((thin E).withUnset g).Stop 2 := by
  refine ⟨le_rfl, ?_⟩
  have e1 : Icc (2 : ℤ) (((thin E).withUnset g).jd - 1) = {2} := by show Icc (2 : ℤ) (3 - 1) = {2}; decide
  have e2 : Icc (2 : ℤ) (((thin E).withUnset g).kmax - 1) = {2} := by show Icc (2 : ℤ) (3 - 1) = {2}; decide
  rw [e1, e2]
  simp only [sum_singleton]
  rw [if_pos (by decide), (thin_resid E g).1 2 2 ⟨rfl, rfl⟩, show ((thin E).withUnset g).fjk 2 2 = (thin E).fjk 2 2 from rfl, thin_fjk,
    abs_neg, abs_of_pos (by have := pi_pos; positivity : 0 < π / 2)]
  exact hE

theorem thin_uref (E : ℝ) (g : ℤ → ℤ → ℝ)
    (hE : |(thin E).bjk 2 * ((thin E).withUnset g).bound 2 + π / 2| < E * (π / 2)) :
    ((thin E).withUnset g).uref 2 2 * cos ((thin E).planet.lat 2) =
      -((thin E).bjk 2 * ((thin E).withUnset g).bound 2 + π / 2) / (thin E).ejk 2 2 := by
  have hg := thin_withUnset_geometry E g
  have hst := thin_stop E g hE
  have he : ((thin E).withUnset g).ejk 2 2 ≠ 0 :=
    (ejk_neg hg (by norm_num [thin, withUnset]) (by norm_num [thin, withUnset]) (by norm_num [thin, withUnset])
      (by norm_num [thin, withUnset]) (by norm_num [thin, withUnset]) (fun k _ _ => by norm_num [thin, withUnset]) le_rfl
      (by show (2 : ℤ) ≤ 3 - 1; decide) le_rfl (by show (2 : ℤ) ≤ 3 - 1; decide)).ne
  have := ((C55_count hg).2.2.1 2 le_rfl hst (fun l hl x => by have := x.1; omega)).2 2 2 le_rfl
    (by show (2 : ℤ) ≤ 3 - 1; decide)
  refine Eq.trans this ?_
  show (((thin E).withUnset g).sweep 2 (((thin E).withUnset g).trajectory 1).1 (((thin E).withUnset g).trajectory 1).2).u 2 2 = _
  rw [sweep_interior hg le_rfl (by show (2 : ℤ) ≤ 3 - 1; decide) le_rfl (by show (2 : ℤ) ≤ 3 - 1; decide),
    if_pos ⟨⟨le_rfl, by show (2 : ℤ) ≤ 3 - 1; decide⟩, by decide⟩]
  unfold relax
  rw [if_pos he, (thin_resid E g).1 2 2 ⟨rfl, rfl⟩, (thin_resid E g).2]
  have hom : (((thin E).withUnset g).trajectory 1).1 = 1 := by
    show ((thin E).withUnset g).omegaNext ((0 + 1 : ℕ) : ℤ) 1 = 1
    unfold omegaNext
    rw [if_pos (by norm_num)]
    show 1 / (1 - 0.5 * (0 : ℝ) ^ 2) = 1
    norm_num
  rw [hom, show ((thin E).withUnset g).ejk 2 2 = (thin E).ejk 2 2 from rfl]
  ring

/-- C77 fails: in the thin sample the wind depends on the contents of unassigned memory. -/
theorem C77_refuted : ¬ C77_Statement := by
  intro hS
  have plateau_not : AreaIn.plateau.placed 1 = none := by
    have hnot : ¬ (AreaIn.plateau.placed 1).isSome = true := by
      rw [AreaIn.plateau_valid.placed_iff, AreaIn.plateau_aan]
      exact not_lt.2 (AreaIn.plateau_valid.alat_nonneg 1)
    simpa using hnot
  have hb : ∀ (E : ℝ) (g : ℤ → ℤ → ℝ), ((thin E).withUnset g).bound 2 = ((thin 0).withUnset (fun _ _ => 0)).bound 2 + g 1 2 / (2 * π) := by
    intro E g
    unfold bound
    rw [if_pos ⟨le_rfl, le_rfl⟩, if_pos ⟨le_rfl, le_rfl⟩]
    have e1 : ∀ (E : ℝ) (g : ℤ → ℤ → ℝ) (x : ℝ), (((thin E).withUnset g).area 2).cref x 1 = x := by
      intro E g x
      show AreaIn.plateau.cref x 1 = x
      unfold AreaIn.cref
      rw [plateau_not]
      rfl
    rw [e1, e1]
    show (thin 0).ubar 1 2 + (g 1 2 - (thin 0).cbar 2 1) / (2 * π * 1) =
      (thin 0).ubar 1 2 + (0 - (thin 0).cbar 2 1) / (2 * π * 1) + g 1 2 / (2 * π)
    ring
  set B := ((thin 0).withUnset (fun _ _ => 0)).bound 2 with hB
  set b := (thin 0).bjk 2 with hbj
  have hpi := pi_pos
  obtain ⟨E, hE0, hE1⟩ : ∃ E : ℝ, |b * B + π / 2| < E * (π / 2) ∧ |b * (B + 1 / (2 * π)) + π / 2| < E * (π / 2) := by
    refine ⟨(|b * B + π / 2| + |b * (B + 1 / (2 * π)) + π / 2| + 1) / (π / 2), ?_, ?_⟩ <;>
      rw [div_mul_cancel₀ _ (by positivity)] <;>
      linarith [abs_nonneg (b * B + π / 2), abs_nonneg (b * (B + 1 / (2 * π)) + π / 2)]
  have u0 := thin_uref E (fun _ _ => 0) (by
    rw [hb, show (thin E).bjk 2 = b from rfl, zero_div, add_zero]; exact hE0)
  have u1 := thin_uref E (fun _ _ => 1) (by rw [hb]; exact hE1)
  have h1 := (hS (thin E) (fun _ _ => 0) (thin_geometry E) (fun k _ _ => by rw [thin_area]; exact AreaIn.plateau_valid)).2 2 2
    ⟨⟨by norm_num, by show (2 : ℤ) ≤ 3; decide⟩, by norm_num, by show (2 : ℤ) ≤ 3; decide⟩
  have h2 := (hS (thin E) (fun _ _ => 1) (thin_geometry E) (fun k _ _ => by rw [thin_area]; exact AreaIn.plateau_valid)).2 2 2
    ⟨⟨by norm_num, by show (2 : ℤ) ≤ 3; decide⟩, by norm_num, by show (2 : ℤ) ≤ 3; decide⟩
  rw [h1.1, hb] at u0
  rw [h2.1, hb] at u1
  rw [u0] at u1
  have he : (thin E).ejk 2 2 < 0 :=
    ejk_neg (thin_geometry E) (by norm_num [thin]) (by norm_num [thin]) (by norm_num [thin]) (by norm_num [thin])
      (by norm_num [thin]) (fun k _ _ => by norm_num [thin]) le_rfl (by show (2 : ℤ) ≤ 3 - 1; decide) le_rfl
      (by show (2 : ℤ) ≤ 3 - 1; decide)
  have hbE : (thin E).bjk 2 = b := rfl
  have hbpos : b ≠ 0 := by
    rw [hbj]
    unfold bjk
    show 1 / (sin ((((2 : ℤ) : ℝ) - 1.5) * (π / 4)) * cos ((((2 : ℤ) : ℝ) - 1.5) * (π / 4))) ≠ 0
    rw [show (((2 : ℤ) : ℝ) - 1.5) * (π / 4) = π / 8 by push_cast; ring]
    have s1 : 0 < sin (π / 8) := sin_pos_of_pos_of_lt_pi (by positivity) (by linarith)
    have s2 : 0 < cos (π / 8) := cos_pos_of_mem_Ioo ⟨by linarith, by linarith⟩
    positivity
  rw [hbE, div_left_inj' he.ne] at u1
  rw [zero_div] at u1
  have : b * (1 / (2 * π)) = 0 := by linear_combination u1
  rcases mul_eq_zero.1 this with hz | hz
  · exact hbpos hz
  · have : (0 : ℝ) < 1 / (2 * π) := by positivity
    linarith

end Falwa.RefIn
