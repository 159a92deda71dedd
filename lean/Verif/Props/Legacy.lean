import Verif.Lemmas.Legacy
import Verif.Props.Interp

/-!
# The legacy reference state solver (C99 – C103)
-/

noncomputable section

namespace Falwa

open Finset Real

namespace Legacy

variable {L : Legacy}

/-! ### The grid -/

theorem mu_eq_gl2 (L : Legacy) (j : ℕ) : Spec.mu L j = L.gl2 j := by
  unfold Spec.mu gl2 dm jmax
  rw [div_eq_mul_one_div]

theorem gl_eq (L : Legacy) (j : ℕ) : L.gl j = Spec.mu L (j + 1) := by
  rw [mu_eq_gl2]
  unfold gl gl2
  push_cast
  ring

theorem cor_eq (L : Legacy) (j : ℕ) : L.cor j = Spec.coriolis L (j + 1) := by
  unfold cor Spec.coriolis om
  rw [gl_eq]

theorem mu_pos (L : Legacy) {j : ℕ} (hj : 1 ≤ j) : 0 < Spec.mu L j := by
  unfold Spec.mu
  have : (0 : ℝ) < j := by exact_mod_cast hj
  positivity

theorem mu_lt_one (L : Legacy) {j : ℕ} (hj : j ≤ L.jmax) : Spec.mu L j < 1 := by
  unfold Spec.mu
  rw [div_lt_one (by positivity)]
  have : j < L.nlat / 4 + 1 := by unfold jmax at hj; omega
  exact_mod_cast this

theorem mu_strictMono (L : Legacy) : StrictMono (Spec.mu L) := by
  intro i j h
  unfold Spec.mu
  have : (i : ℝ) < j := by exact_mod_cast h
  exact div_lt_div_of_pos_right this (by positivity)

theorem mu_zero (L : Legacy) : Spec.mu L 0 = 0 := by simp [Spec.mu]

theorem mu_pole (L : Legacy) : Spec.mu L (L.jmax + 1) = 1 := by
  unfold Spec.mu jmax
  rw [Nat.cast_add, Nat.cast_one]
  exact div_self (by positivity)

theorem mu_mem (L : Legacy) {j : ℕ} (hj : j ≤ L.jmax + 1) : Spec.mu L j ∈ Set.Icc (-1 : ℝ) 1 := by
  have h1 : Spec.mu L 0 ≤ Spec.mu L j := (mu_strictMono L).monotone (Nat.zero_le _)
  have h2 : Spec.mu L j ≤ Spec.mu L (L.jmax + 1) := (mu_strictMono L).monotone hj
  rw [mu_zero] at h1
  rw [mu_pole] at h2
  exact ⟨by linarith, h2⟩

theorem cosl_sq (L : Legacy) {j : ℕ} (hj : j < L.jmax) : L.cosl j ^ 2 = 1 - Spec.mu L (j + 1) ^ 2 := by
  unfold cosl
  rw [gl_eq, sq_sqrt]
  have h1 := mu_pos L (j := j + 1) (by omega)
  have h2 := mu_lt_one L (j := j + 1) (by omega)
  nlinarith

theorem cosl_pos (L : Legacy) {j : ℕ} (hj : j < L.jmax) : 0 < L.cosl j := by
  unfold cosl
  rw [gl_eq]
  apply sqrt_pos.2
  have h1 := mu_pos L (j := j + 1) (by omega)
  have h2 := mu_lt_one L (j := j + 1) (by omega)
  nlinarith

theorem cor_pos (L : Legacy) (j : ℕ) : 0 < L.cor j := by
  unfold cor om
  rw [gl_eq]
  have h1 := mu_pos L (j := j + 1) (by omega)
  positivity

theorem toGauss_eq (L : Legacy) (y : ℕ → ℕ → ℝ) (j k : ℕ) : L.toGauss y j k = Spec.onRow L (y k) (j + 1) := by
  unfold toGauss Spec.onRow alat
  rw [gl_eq]

theorem toGauss2_eq (L : Legacy) (y : ℕ → ℝ) (j : ℕ) : L.toGauss2 y j = Spec.onRow L y j := by
  unfold toGauss2 Spec.onRow alat2
  rw [mu_eq_gl2]

theorem dmdz_eq (L : Legacy) : L.dmdz = Spec.aspect L := rfl

theorem cC_eq (L : Legacy) (j k : ℕ) :
    L.cC j k = Spec.aspect L ^ 2 * (Spec.onRow L (L.ephalf2 k) (j + 1) * exp (-1 / 14)) := by
  unfold cC dz hh
  rw [dmdz_eq, toGauss_eq, show (-1000 / (2 * 7000) : ℝ) = -1 / 14 by norm_num]
  ring

theorem cD_eq (L : Legacy) (j k : ℕ) :
    L.cD j k = Spec.aspect L ^ 2 * (Spec.onRow L (L.ephalf2 (k - 1)) (j + 1) * exp (1 / 14)) := by
  unfold cD dz hh
  rw [dmdz_eq, toGauss_eq, show (1000 / (2 * 7000) : ℝ) = 1 / 14 by norm_num]
  ring

theorem qxx_eq (L : Legacy) {j : ℕ} (hj : j < L.jmax) (k : ℕ) : L.qxx j k = Spec.source L (j + 1) k := by
  unfold qxx Spec.source
  have h : 1 ≤ j + 1 ∧ j + 1 ≤ L.nlat / 4 := ⟨by omega, hj⟩
  rw [if_pos h, toGauss_eq, cor_eq]

theorem source_zero (L : Legacy) (k : ℕ) : Spec.source L 0 k = 0 := by
  unfold Spec.source; rw [if_neg (by omega)]

theorem source_pole (L : Legacy) (k : ℕ) : Spec.source L (L.jmax + 1) k = 0 := by
  unfold Spec.source jmax; rw [if_neg (by omega)]

theorem cF_eq (L : Legacy) (h2 : 2 ≤ L.jmax) {j : ℕ} (hj : j < L.jmax) (k : ℕ) :
    L.cF j k = (Spec.source L (j + 2) k - Spec.source L (j + 1) k) - (Spec.source L (j + 1) k - Spec.source L j k) := by
  unfold cF
  by_cases c : j = 0
  · subst c
    rw [if_pos rfl, qxx_eq L (by omega), qxx_eq L (by omega), source_zero]
    ring
  · obtain ⟨m, rfl⟩ : ∃ m, j = m + 1 := ⟨j - 1, by omega⟩
    rw [if_neg c]
    by_cases c2 : m + 1 = L.jmax - 1
    · have e : m + 1 + 2 = L.jmax + 1 := by omega
      have e2 : L.jmax - 2 = m := by omega
      rw [if_pos c2, ← c2, e2, qxx_eq L (by omega), qxx_eq L hj, e, source_pole]
      ring
    · rw [if_neg c2, Nat.add_sub_cancel, qxx_eq L (by omega), qxx_eq L (by omega), qxx_eq L hj]
      ring

theorem uz2_eq (L : Legacy) {j : ℕ} (hj : j < L.jmax) :
    L.uz2 j = -(Spec.thermal L (j + 1) * exp (-(287 / 1004) * ((L.kmax : ℝ) - 2) / 7) *
      (Spec.onRow L L.deltaPT (j + 1 + 1) - Spec.onRow L L.deltaPT (j + 1 - 1)) / Spec.aspect L) := by
  have hc := (cor_pos L j).ne'
  have ha : Spec.aspect L ≠ 0 := by unfold Spec.aspect; positivity
  unfold uz2 Spec.thermal r0 rkappa aa hh r0
  rw [cosl_sq L hj, toGauss2_eq, toGauss2_eq, dmdz_eq, ← cor_eq, Nat.add_sub_cancel]
  generalize exp _ = e
  field_simp

theorem uz1_eq (L : Legacy) {j : ℕ} (hj : j < L.jmax) :
    L.uz1 j = -(2 * 1000 * Spec.thermal L (j + 1) / (6378000 * (1 / ((L.nlat / 4 : ℕ) + 1 : ℝ)) ^ 2) *
        (exp (-(287 / 1004) / 7) * Spec.curvature L L.b1 (j + 1) + Spec.curvature L L.b0 (j + 1))) := by
  have hc := (cor_pos L j).ne'
  have e1 : L.dm = 1 / ((L.nlat / 4 : ℕ) + 1 : ℝ) := rfl
  have hd : L.dm ≠ 0 := by rw [e1]; positivity
  have hs : ∀ y, L.secondDiff y j = Spec.curvature L y (j + 1) := by
    intro y
    unfold secondDiff Spec.curvature
    rw [toGauss2_eq, toGauss2_eq, toGauss2_eq, Nat.add_sub_cancel]
    ring
  unfold uz1 Spec.thermal r0 aa hh dz rkappa r0
  rw [cosl_sq L hj, hs, hs, ← cor_eq, ← e1, mul_zero, zero_div, exp_zero, mul_one]
  generalize exp _ = e
  field_simp
  ring

theorem lowerValue_iff (L : Legacy) (bc : Lower) (w : ℕ → ℕ → ℝ) {j : ℕ} (hj : j < L.jmax) :
    lowerLhs w (j + 1) bc = L.lowerValue bc j ↔ Spec.Bottom L w (j + 1) bc := by
  cases bc with
  | noslip =>
    show w (j + 1) 0 = L.toGauss L.zmum j 0 * L.cosl j / L.cor j ↔
      w (j + 1) 0 * Spec.coriolis L (j + 1) = Spec.onRow L (L.zmum 0) (j + 1) * √(1 - Spec.mu L (j + 1) ^ 2)
    rw [eq_div_iff (cor_pos L j).ne', toGauss_eq, cor_eq]
    unfold cosl
    rw [gl_eq]
  | adiabatic =>
    show w (j + 1) 2 - w (j + 1) 0 = L.uz1 j ↔ _
    rw [uz1_eq L hj]
    rfl

/-! ## C99 -/

/-- C99. For both lower boundary conditions, the sparse system that is handed to the solver says exactly that the unknowns,
completed by zeros at equator and pole, solve the boundary value problem. -/
theorem C99_system (L : Legacy) (hn : 8 ≤ L.nlat) (hk : 3 ≤ L.kmax) (bc : Lower) (u : ℕ → ℝ) :
    L.Solves bc u ↔ Spec.Bvp L bc (L.pad u) := by
  have h2 : 2 ≤ L.jmax := by unfold jmax; omega
  rw [solves_iff bc u hk]
  have hbal : ∀ j k, j < L.jmax → 1 ≤ k →
      (L.pad u (j + 2) k + L.pad u j k + L.cC j k * L.pad u (j + 1) (k + 1) + L.cD j k * L.pad u (j + 1) (k - 1) +
          L.cE j k * L.pad u (j + 1) k = L.cF j k ↔ Spec.Balance L (L.pad u) (j + 1) k) := by
    intro j k hj h1
    unfold Spec.Balance Spec.vertFlux cE
    rw [cF_eq L h2 hj, cC_eq, cD_eq, Nat.add_sub_cancel, Nat.sub_add_cancel h1]
    constructor
    · intro h; linear_combination h
    · intro h; linear_combination h
  constructor
  · rintro ⟨a, b, c⟩
    refine ⟨fun k _ => pad_zero u k, fun k _ => pad_pole u k, ?_, ?_, ?_⟩
    · intro j k j1 j2 k1 k2
      obtain ⟨m, rfl⟩ : ∃ m, j = m + 1 := ⟨j - 1, by omega⟩
      exact (hbal m k j2 k1).1 (c m k j2 k1 k2)
    · intro j j1 j2
      obtain ⟨m, rfl⟩ : ∃ m, j = m + 1 := ⟨j - 1, by omega⟩
      unfold Spec.Top
      rw [← uz2_eq L j2]
      exact b m j2
    · intro j j1 j2
      obtain ⟨m, rfl⟩ : ∃ m, j = m + 1 := ⟨j - 1, by omega⟩
      exact (lowerValue_iff L bc _ j2).1 (a m j2)
  · rintro ⟨_, _, c, b, a⟩
    refine ⟨fun j hj => (lowerValue_iff L bc _ hj).2 (a (j + 1) (by omega) hj), fun j hj => ?_, fun j k hj k1 k2 => ?_⟩
    · have := b (j + 1) (by omega) hj
      unfold Spec.Top at this
      rw [← uz2_eq L hj] at this
      exact this
    · exact (hbal j k hj k1).2 (c (j + 1) k (by omega) hj k1 k2)

/-! ## C100 -/

/-- Arguments that make sense: at least eight latitudes in ascending order that reach from the equator or further south
to the last Gaussian latitude, at least three levels, and a non-negative vertical coefficient. -/
structure Sensible (L : Legacy) : Prop where
  nlat : 8 ≤ L.nlat
  kmax : 3 ≤ L.kmax
  ascending : Ascending L.nlat L.ylat
  south : L.ylat 0 ≤ 0
  north : arcsin (Spec.mu L L.jmax) * 180 / π ≤ L.ylat (L.nlat - 1)
  coefficient : ∀ k r, k < L.kmax → r < L.nlat → 0 ≤ L.ephalf2 k r

theorem Sensible.jmax (hL : L.Sensible) : 2 ≤ L.jmax := by
  have := hL.nlat
  unfold Legacy.jmax; omega

/-- Interpolation to a Gaussian latitude does not make negative values of non-negative ones. -/
theorem Sensible.onRow_nonneg (hL : L.Sensible) {y : ℕ → ℝ} (hy : ∀ r, r < L.nlat → 0 ≤ y r) {j : ℕ} (hj : j ≤ L.jmax) :
    0 ≤ Spec.onRow L y j := by
  have hn := hL.nlat
  have h0 : L.ylat 0 ≤ arcsin (Spec.mu L j) * 180 / π := by
    have : 0 ≤ arcsin (Spec.mu L j) := by
      rw [arcsin_nonneg]
      have := (mu_strictMono L).monotone (Nat.zero_le j)
      rwa [mu_zero] at this
    have h2 : 0 ≤ arcsin (Spec.mu L j) * 180 / π := by positivity
    exact hL.south.trans h2
  have h1 : arcsin (Spec.mu L j) * 180 / π ≤ L.ylat (L.nlat - 1) := by
    refine le_trans ?_ hL.north
    have : arcsin (Spec.mu L j) ≤ arcsin (Spec.mu L L.jmax) := monotone_arcsin ((mu_strictMono L).monotone hj)
    exact div_le_div_of_nonneg_right (by linarith) pi_pos.le
  obtain ⟨m, hm, b0, b1⟩ := bracket (by omega) h0 h1
  unfold Spec.onRow
  rw [interp1d_inside hL.ascending y hm b0 b1]
  exact (line_between (hi := max (y m) (y (m + 1))) (hL.ascending m (m + 1) (by omega) hm) b0 b1 (hy m (by omega)) (hy (m + 1) hm)
    (le_max_left _ _) (le_max_right _ _)).1

theorem Sensible.cC_nonneg (hL : L.Sensible) {j k : ℕ} (hj : j < L.jmax) (hk : k < L.kmax) : 0 ≤ L.cC j k := by
  rw [cC_eq]
  have := hL.onRow_nonneg (hL.coefficient k · hk) (j := j + 1) hj
  positivity

theorem Sensible.cD_nonneg (hL : L.Sensible) {j k : ℕ} (hj : j < L.jmax) (hk : k < L.kmax) : 0 ≤ L.cD j k := by
  rw [cD_eq]
  have := hL.onRow_nonneg (hL.coefficient (k - 1) · (by omega)) (j := j + 1) hj
  positivity

/-- The homogeneous system has only the zero solution. -/
theorem Sensible.homogeneous (hL : L.Sensible) (bc : Lower) (hbc : bc = .adiabatic → 4 ≤ L.kmax) {u : ℕ → ℝ}
    (hu : ∀ i, i < L.jmax * L.kmax → (L.mat bc).mul u i = 0) : ∀ i, i < L.jmax * L.kmax → u i = 0 := by
  have hk3 := hL.kmax
  have hb : ∀ j, 1 ≤ j → j ≤ L.jmax → lowerLhs (L.pad u) j bc = 0 := by
    intro j j1 j2
    obtain ⟨m, rfl⟩ : ∃ m, j = m + 1 := ⟨j - 1, by omega⟩
    have := hu _ (ind_lt j2 (show 0 < L.kmax by omega))
    rwa [mat_mul bc u hk3 j2 (by omega), if_pos rfl] at this
  have ht : ∀ j, 1 ≤ j → j ≤ L.jmax → L.pad u j (L.kmax - 1) = L.pad u j (L.kmax - 3) := by
    intro j j1 j2
    obtain ⟨m, rfl⟩ : ∃ m, j = m + 1 := ⟨j - 1, by omega⟩
    have := hu _ (ind_lt j2 (show L.kmax - 1 < L.kmax by omega))
    have c : ¬ L.kmax - 1 = 0 := by omega
    rw [mat_mul bc u hk3 j2 (by omega), if_neg c, if_pos rfl] at this
    linarith
  have hi : ∀ j k, 1 ≤ j → j ≤ L.jmax → 1 ≤ k → k + 1 < L.kmax →
      L.pad u (j + 1) k + L.pad u (j - 1) k + L.cC (j - 1) k * L.pad u j (k + 1) + L.cD (j - 1) k * L.pad u j (k - 1) =
        (1 + 1 + L.cC (j - 1) k + L.cD (j - 1) k) * L.pad u j k := by
    intro j k j1 j2 k1 k2
    obtain ⟨m, rfl⟩ : ∃ m, j = m + 1 := ⟨j - 1, by omega⟩
    have := hu _ (ind_lt j2 (show k < L.kmax by omega))
    have c : ¬ k = 0 := by omega
    have c2 : ¬ k = L.kmax - 1 := by omega
    rw [mat_mul bc u hk3 j2 (by omega), if_neg c, if_neg c2] at this
    unfold cE at this
    rw [Nat.add_sub_cancel]
    linear_combination this
  have hc : ∀ j k, 1 ≤ j → j ≤ L.jmax → 1 ≤ k → k + 1 < L.kmax → 0 ≤ L.cC (j - 1) k := fun j k j1 j2 _ k2 =>
    hL.cC_nonneg (by omega) (by omega)
  have hd : ∀ j k, 1 ≤ j → j ≤ L.jmax → 1 ≤ k → k + 1 < L.kmax → 0 ≤ L.cD (j - 1) k := fun j k j1 j2 _ k2 =>
    hL.cD_nonneg (by omega) (by omega)
  have le := homogeneous_le hk3 (c := fun j k => L.cC (j - 1) k) (d := fun j k => L.cD (j - 1) k) bc hbc hc hd
    (pad_zero u) (pad_pole u) hb ht hi
  have ge := homogeneous_le hk3 (c := fun j k => L.cC (j - 1) k) (d := fun j k => L.cD (j - 1) k)
    (w := fun j k => -L.pad u j k) bc hbc hc hd (fun k => by rw [pad_zero, neg_zero]) (fun k => by rw [pad_pole, neg_zero])
    (fun j j1 j2 => by
      have := hb j j1 j2
      cases bc
      · show -L.pad u j 0 = 0
        rw [show L.pad u j 0 = 0 from this, neg_zero]
      · show -L.pad u j 2 - -L.pad u j 0 = 0
        have : L.pad u j 2 - L.pad u j 0 = 0 := this
        linarith)
    (fun j j1 j2 => by rw [ht j j1 j2])
    (fun j k j1 j2 k1 k2 => by linear_combination -hi j k j1 j2 k1 k2)
  intro i hi'
  obtain ⟨j, k, hj, hk, rfl⟩ := exists_ind hi'
  rw [← pad_row u k hj]
  have a := le (j + 1) k (by omega) hk
  have b := ge (j + 1) k (by omega) hk
  linarith

theorem mul_sub' (es : Triplets) (u v : ℕ → ℝ) (i : ℕ) :
    es.mul (fun n => u n - v n) i = es.mul u i - es.mul v i := by
  induction es with
  | nil => simp [Triplets.mul]
  | cons e es ih =>
    rw [Triplets.mul_cons, Triplets.mul_cons, Triplets.mul_cons, ih]
    split_ifs <;> ring

theorem mul_lin (es : Triplets) (u v : ℕ → ℝ) (a b : ℝ) (i : ℕ) :
    es.mul (fun n => a * u n + b * v n) i = a * es.mul u i + b * es.mul v i := by
  induction es with
  | nil => simp [Triplets.mul]
  | cons e es ih =>
    rw [Triplets.mul_cons, Triplets.mul_cons, Triplets.mul_cons, ih]
    split_ifs <;> ring

/-- C100, full statement: whatever the sensible arguments, each of the two systems has exactly one solution. -/
def C100_Statement : Prop :=
  ∀ L : Legacy, L.Sensible → ∀ bc, ∃ u, L.Solves bc u ∧ ∀ v, L.Solves bc v → ∀ i, i < L.jmax * L.kmax → v i = u i

/-- C100, uniqueness: with a no-slip boundary always, with an adiabatic one from four levels on. -/
theorem C100_unique_partial (hL : L.Sensible) (bc : Lower) (hbc : bc = .adiabatic → 4 ≤ L.kmax) {u v : ℕ → ℝ}
    (hu : L.Solves bc u) (hv : L.Solves bc v) : ∀ i, i < L.jmax * L.kmax → v i = u i := by
  intro i hi
  have h := hL.homogeneous bc hbc (u := fun n => v n - u n) (fun i hi => by
    rw [mul_sub', hu i hi, hv i hi, sub_self]) i hi
  exact sub_eq_zero.1 h

/-- A vector of finite length as a function on all indices. -/
def extend (n : ℕ) (u : Fin n → ℝ) (i : ℕ) : ℝ := if h : i < n then u ⟨i, h⟩ else 0

/-- C100, partial: each system has exactly one solution, with a no-slip boundary always, with an adiabatic one from four
levels on. Missing: three levels, where the upper and the adiabatic lower condition are about the same two levels. -/
theorem C100_unique_solution_partial (hL : L.Sensible) (bc : Lower) (hbc : bc = .adiabatic → 4 ≤ L.kmax) :
    ∃ u, L.Solves bc u ∧ ∀ v, L.Solves bc v → ∀ i, i < L.jmax * L.kmax → v i = u i := by
  set n := L.jmax * L.kmax with hn
  let f : (Fin n → ℝ) →ₗ[ℝ] (Fin n → ℝ) :=
    { toFun := fun u i => (L.mat bc).mul (extend n u) i
      map_add' := by
        intro u v
        funext i
        have e : extend n (u + v) = fun m => 1 * extend n u m + 1 * extend n v m := by
          funext m; unfold extend; split_ifs <;> simp
        show (L.mat bc).mul (extend n (u + v)) i = (L.mat bc).mul (extend n u) i + (L.mat bc).mul (extend n v) i
        rw [e, mul_lin]; ring
      map_smul' := by
        intro a u
        funext i
        have e : extend n (a • u) = fun m => a * extend n u m + 0 * extend n u m := by
          funext m; unfold extend; split_ifs <;> simp
        show (L.mat bc).mul (extend n (a • u)) i = a * (L.mat bc).mul (extend n u) i
        rw [e, mul_lin]; ring }
  have hinj : Function.Injective f := by
    rw [injective_iff_map_eq_zero]
    intro u hu
    funext i
    have := hL.homogeneous bc hbc (u := extend n u) (fun m hm => by
      have := congrFun hu ⟨m, hm⟩
      exact this) i i.2
    unfold extend at this
    rw [dif_pos i.2] at this
    exact this
  obtain ⟨u, hu⟩ := (LinearMap.injective_iff_surjective.1 hinj) (fun i => L.rhs bc i)
  have hs : L.Solves bc (extend n u) := fun i hi => congrFun hu ⟨i, hi⟩
  exact ⟨extend n u, hs, fun v hv => C100_unique_partial hL bc hbc hs hv⟩

/-! ### A test input -/

/-- `n` latitudes from pole to pole, `kmax` levels, vertical coefficient 1, given wave activity and wind. -/
def test (n kmax : ℕ) (fawa zmum : ℕ → ℕ → ℝ) : Legacy where
  nlat := n
  kmax := kmax
  ylat r := -90 + 180 * r / ((n - 1 : ℕ) : ℝ)
  zmum := zmum
  fawa := fawa
  ephalf2 _ _ := 1
  deltaPT _ := 0
  zmPT _ _ := 300
  b0 _ := 0
  b1 _ := 0

theorem test_sensible {n kmax : ℕ} (hn : 8 ≤ n) (hk : 3 ≤ kmax) (fawa zmum : ℕ → ℕ → ℝ) : (test n kmax fawa zmum).Sensible where
  nlat := hn
  kmax := hk
  ascending := by
    intro i j h _
    show -90 + 180 * (i : ℝ) / ((n - 1 : ℕ) : ℝ) < -90 + 180 * (j : ℝ) / ((n - 1 : ℕ) : ℝ)
    have h1 : (i : ℝ) < j := by exact_mod_cast h
    have h2 : (0 : ℝ) < ((n - 1 : ℕ) : ℝ) := by exact_mod_cast (show 0 < n - 1 by omega)
    have := div_lt_div_of_pos_right (show 180 * (i : ℝ) < 180 * j by linarith) h2
    linarith
  south := by
    show -90 + 180 * ((0 : ℕ) : ℝ) / ((n - 1 : ℕ) : ℝ) ≤ 0
    simp
  north := by
    show _ ≤ -90 + 180 * ((n - 1 : ℕ) : ℝ) / ((n - 1 : ℕ) : ℝ)
    have h2 : (0 : ℝ) < ((n - 1 : ℕ) : ℝ) := by exact_mod_cast (show 0 < n - 1 by omega)
    rw [mul_div_cancel_right₀ _ h2.ne', div_le_iff₀ pi_pos]
    have := arcsin_le_pi_div_two (Spec.mu (test n kmax fawa zmum) (test n kmax fawa zmum).jmax)
    linarith
  coefficient := fun _ _ _ _ => zero_le_one

example : (test 121 49 (fun _ _ => 10) (fun _ r => r)).Sensible ∧
    ∃ u, (test 121 49 (fun _ _ => 10) (fun _ r => r)).Solves .adiabatic u :=
  ⟨test_sensible (by norm_num) (by norm_num) _ _,
    (C100_unique_solution_partial (test_sensible (by norm_num) (by norm_num) _ _) .adiabatic
      (fun _ => show 4 ≤ 49 by norm_num)).imp fun _ h => h.1⟩

theorem onRow_const (hL : L.Sensible) {y : ℕ → ℝ} {c : ℝ} (hy : ∀ r, r < L.nlat → y r = c) (j : ℕ) : Spec.onRow L y j = c := by
  have hn := hL.nlat
  have := interp1d_affine hL.ascending (by omega) c 0 (y := y) (fun i hi => by rw [hy i hi]; ring) (arcsin (Spec.mu L j) * 180 / π)
  unfold Spec.onRow
  rw [this]; ring

/-- The test input with a temperature difference at the top that grows with latitude. -/
def threeLevels : Legacy := { test 9 3 (fun _ _ => 0) (fun _ _ => 0) with deltaPT := fun r => -90 + 180 * (r : ℝ) / ((9 - 1 : ℕ) : ℝ) }

theorem threeLevels_sensible : threeLevels.Sensible :=
  have h := test_sensible (n := 9) (kmax := 3) (by norm_num) le_rfl (fun _ _ => 0) (fun _ _ => 0)
  ⟨h.nlat, h.kmax, h.ascending, h.south, h.north, h.coefficient⟩

/-- C100 fails with three levels and an adiabatic boundary: both boundary conditions fix the difference between the same two
levels, and there is no solution if they disagree. -/
theorem C100_refuted : ¬ C100_Statement := by
  intro h
  have hS := threeLevels_sensible
  obtain ⟨u, hu, _⟩ := h threeLevels hS .adiabatic
  obtain ⟨_, _, _, ht, hb⟩ := (C99_system threeLevels hS.nlat hS.kmax .adiabatic u).1 hu
  have j2 : (1 : ℕ) ≤ threeLevels.nlat / 4 := show 1 ≤ 9 / 4 by norm_num
  have t := ht 1 le_rfl j2
  have b : threeLevels.pad u 1 2 - threeLevels.pad u 1 0 = _ := hb 1 le_rfl j2
  have t' : threeLevels.pad u 1 2 - threeLevels.pad u 1 0 = _ := t
  have z : ∀ j, Spec.onRow threeLevels (fun _ => 0) j = 0 := fun j => onRow_const hS (fun _ _ => rfl) j
  have c1 : Spec.curvature threeLevels threeLevels.b1 1 = 0 := by
    show (Spec.onRow threeLevels (fun _ => 0) (1 + 1) - Spec.onRow threeLevels (fun _ => 0) 1) -
      (Spec.onRow threeLevels (fun _ => 0) 1 - Spec.onRow threeLevels (fun _ => 0) (1 - 1)) = 0
    rw [z, z, z]; ring
  have c0 : Spec.curvature threeLevels threeLevels.b0 1 = 0 := c1
  rw [c1, c0, mul_zero, add_zero, mul_zero, neg_zero] at b
  rw [b] at t'
  have e : ∀ j, Spec.onRow threeLevels threeLevels.deltaPT j = arcsin (Spec.mu threeLevels j) * 180 / π := by
    intro j
    have := interp1d_affine hS.ascending (show 2 ≤ threeLevels.nlat from by decide) 0 1 (y := threeLevels.deltaPT)
      (fun i _ => by rw [zero_add, one_mul]; rfl) (arcsin (Spec.mu threeLevels j) * 180 / π)
    unfold Spec.onRow
    rw [this]; ring
  rw [e, e] at t'
  have m0 : Spec.mu threeLevels (1 - 1) = 0 := mu_zero _
  have m2 : 0 < Spec.mu threeLevels (1 + 1) := mu_pos _ (by norm_num)
  rw [m0, arcsin_zero] at t'
  have a2 : 0 < arcsin (Spec.mu threeLevels (1 + 1)) := arcsin_pos.2 m2
  have th : 0 < Spec.thermal threeLevels 1 := by
    have h1 := mu_pos threeLevels (j := 1) le_rfl
    have h2 := mu_lt_one threeLevels (j := 1) j2
    have h3 : 0 < 1 - Spec.mu threeLevels 1 ^ 2 := by nlinarith
    unfold Spec.thermal Spec.coriolis
    positivity
  have as : 0 < Spec.aspect threeLevels := by unfold Spec.aspect; positivity
  have ex := exp_pos (-(287 / 1004) * ((threeLevels.kmax : ℝ) - 2) / 7)
  have : 0 < Spec.thermal threeLevels 1 * exp (-(287 / 1004) * ((threeLevels.kmax : ℝ) - 2) / 7) *
      (arcsin (Spec.mu threeLevels (1 + 1)) * 180 / π - 0 * 180 / π) / Spec.aspect threeLevels := by
    rw [zero_mul, zero_div, sub_zero]
    have := pi_pos
    positivity
  linarith

/-! ## C101 -/

theorem pad_congr {u v : ℕ → ℝ} (h : ∀ i, i < L.jmax * L.kmax → v i = u i) (j : ℕ) {k : ℕ} (hk : k < L.kmax) :
    L.pad v j k = L.pad u j k := by
  unfold pad
  by_cases c : 1 ≤ j ∧ j ≤ L.jmax
  · rw [if_pos c, if_pos c]
    exact h _ (ind_lt (by omega) hk)
  · rw [if_neg c, if_neg c]

theorem uMass_congr {u v : ℕ → ℝ} (h : ∀ i, i < L.jmax * L.kmax → v i = u i) (j : ℕ) {k : ℕ} (hk : k < L.kmax) :
    L.uMass v j k = L.uMass u j k := by
  unfold uMass
  rw [pad_congr h j hk]

theorem tEven_congr {u v : ℕ → ℝ} (h : ∀ i, i < L.jmax * L.kmax → v i = u i) {k : ℕ} (hk : k + 1 < L.kmax) (m : ℕ) :
    L.tEven v k m = L.tEven u k m := by
  induction m with
  | zero => rfl
  | succ m ih =>
    unfold tEven
    rw [ih, uMass_congr h _ hk, uMass_congr h _ (by omega)]

theorem tMass_congr {u v : ℕ → ℝ} (h : ∀ i, i < L.jmax * L.kmax → v i = u i) (j k : ℕ) :
    L.tMass v j k = L.tMass u j k := by
  unfold tMass
  by_cases c : 1 ≤ k ∧ k < L.kmax - 2
  · have e : L.tEven v k = L.tEven u k := funext (tEven_congr h (by omega))
    unfold tAll
    rw [if_pos c, if_pos c, e]
  · rw [if_neg c, if_neg c]

theorem interp1d_zero (n : ℕ) (x : ℕ → ℝ) (t : ℝ) : interp1d n x (fun _ => 0) t = 0 := by
  unfold interp1d; simp

theorem tEven_zero {u : ℕ → ℝ} {k : ℕ} (h1 : ∀ j, L.uMass u j (k + 1) = 0) (h2 : ∀ j, L.uMass u j (k - 1) = 0) (m : ℕ) :
    L.tEven u k m = 0 := by
  induction m with
  | zero => rfl
  | succ m ih =>
    unfold tEven
    rw [ih, h1, h2]; simp

/-- C101. A state without waves is its own reference state: if the wave activity is zero, the temperature difference at the top
does not depend on latitude, and the lower boundary has no wind (no-slip) or no gradient of surface wave activity
(adiabatic), then the reference wind and temperature of the northern hemisphere are the zonal means. -/
theorem C101_no_waves (hL : L.Sensible) (bc : Lower) (hbc : bc = .adiabatic → 4 ≤ L.kmax)
    (hF : ∀ k r, k < L.kmax → r < L.nlat → L.fawa k r = 0) (hT : ∀ r, r < L.nlat → L.deltaPT r = L.deltaPT 0)
    (hB : match bc with
      | .noslip => ∀ r, r < L.nlat → L.zmum 0 r = 0
      | .adiabatic => ∀ r, r < L.nlat → L.b0 r = L.b0 0 ∧ L.b1 r = L.b1 0)
    {u : ℕ → ℝ} (hu : L.Solves bc u) {k r : ℕ} (hk : k < L.kmax) (hr : L.nlat / 2 ≤ r) :
    L.uRef u k r = L.zmum k r ∧ L.tRef u k r = L.zmPT k r * exp (-(k : ℝ) / 7 * (287 / 1004)) := by
  -- the zero vector is a solution
  have hz : L.Solves bc (fun _ => 0) := by
    rw [C99_system L hL.nlat hL.kmax]
    have p : ∀ j k, L.pad (fun _ => 0) j k = 0 := fun j k => by unfold pad; split_ifs <;> rfl
    have hs : ∀ j k, k < L.kmax → Spec.source L j k = 0 := by
      intro j k hk
      unfold Spec.source
      rw [onRow_const hL (fun r hr => hF k r hk hr)]
      simp
    refine ⟨fun k _ => p _ _, fun k _ => p _ _, ?_, ?_, ?_⟩
    · intro j k _ _ k1 k2
      unfold Spec.Balance Spec.vertFlux
      rw [hs _ _ (by omega), hs _ _ (by omega), hs _ _ (by omega)]
      simp only [p]
      ring
    · intro j _ _
      unfold Spec.Top
      rw [onRow_const hL hT, onRow_const hL hT]
      simp only [p]
      ring
    · intro j _ _
      cases bc with
      | noslip =>
        show L.pad _ j 0 * _ = Spec.onRow L (L.zmum 0) j * _
        rw [onRow_const hL hB, p]; ring
      | adiabatic =>
        have c0 : Spec.curvature L L.b0 j = 0 := by
          unfold Spec.curvature
          rw [onRow_const hL fun r hr => (hB r hr).1, onRow_const hL fun r hr => (hB r hr).1,
            onRow_const hL fun r hr => (hB r hr).1]; ring
        have c1 : Spec.curvature L L.b1 j = 0 := by
          unfold Spec.curvature
          rw [onRow_const hL fun r hr => (hB r hr).2, onRow_const hL fun r hr => (hB r hr).2,
            onRow_const hL fun r hr => (hB r hr).2]; ring
        show L.pad _ j 2 - L.pad _ j 0 = _
        rw [c0, c1, p, p]; ring
  have h0 := C100_unique_partial hL bc hbc hz hu
  have hU : ∀ j k, k < L.kmax → L.uMass u j k = 0 := by
    intro j k hk
    rw [uMass_congr h0 j hk]
    unfold uMass pad
    split_ifs <;> simp
  have hTm : ∀ j k, L.tMass u j k = 0 := by
    intro j k
    unfold tMass
    by_cases c : 1 ≤ k ∧ k < L.kmax - 2
    · have e : L.tEven u k = fun _ => 0 :=
        funext (tEven_zero (fun j => hU j _ (by omega)) (fun j => hU j _ (by omega)))
      unfold tAll
      rw [if_pos c, e]
      simp [interp1d_zero]
    · rw [if_neg c]
  constructor
  · unfold uRef uMassRegular toRegular firstNorth
    rw [if_pos hr, if_pos hr, show (fun j => L.uMass u j k) = fun _ => 0 from funext fun j => hU j k hk, interp1d_zero, sub_zero]
  · unfold tRef tMassRegular toRegular firstNorth rkappa r0
    rw [if_pos hr, if_pos hr, show (fun j => L.tMass u j k) = fun _ => 0 from funext fun j => hTm j k, interp1d_zero, sub_zero]

/-- The input without wave activity, with a westerly wind aloft. -/
example : ∃ u, (test 121 49 (fun _ _ => 0) (fun k r => k * r)).Solves .noslip u ∧
    (∀ r, r < 121 → (test 121 49 (fun _ _ => 0) (fun k r => k * r)).zmum 0 r = 0) ∧
    (test 121 49 (fun _ _ => 0) (fun k r => k * r)).zmum 1 100 = 100 := by
  obtain ⟨u, hu, _⟩ := C100_unique_solution_partial
    (test_sensible (n := 121) (kmax := 49) (by norm_num) (by norm_num) (fun _ _ => 0) (fun k r => k * r)) .noslip
    (fun h => by cases h)
  exact ⟨u, hu, fun r _ => by simp [test], by norm_num [test]⟩

/-! ### Linearity -/

/-- The arguments other than the grid and the coefficient of the operator. -/
structure Data where
  zmum : ℕ → ℕ → ℝ
  fawa : ℕ → ℕ → ℝ
  deltaPT : ℕ → ℝ
  zmPT : ℕ → ℕ → ℝ
  b0 : ℕ → ℝ
  b1 : ℕ → ℝ

/-- The same grid and coefficient with other data. -/
def withData (L : Legacy) (D : Data) : Legacy where
  nlat := L.nlat
  kmax := L.kmax
  ylat := L.ylat
  zmum := D.zmum
  fawa := D.fawa
  ephalf2 := L.ephalf2
  deltaPT := D.deltaPT
  zmPT := D.zmPT
  b0 := D.b0
  b1 := D.b1

/-- A linear combination of data. -/
def Data.comb (a : ℝ) (D : Data) (b : ℝ) (E : Data) : Data where
  zmum k r := a * D.zmum k r + b * E.zmum k r
  fawa k r := a * D.fawa k r + b * E.fawa k r
  deltaPT r := a * D.deltaPT r + b * E.deltaPT r
  zmPT k r := a * D.zmPT k r + b * E.zmPT k r
  b0 r := a * D.b0 r + b * E.b0 r
  b1 r := a * D.b1 r + b * E.b1 r

theorem tEven_withData (L : Legacy) (D : Data) (u : ℕ → ℝ) (k m : ℕ) : (L.withData D).tEven u k m = L.tEven u k m := by
  induction m with
  | zero => rfl
  | succ m ih =>
    unfold tEven
    rw [ih]
    rfl

theorem tMass_withData (L : Legacy) (D : Data) (u : ℕ → ℝ) (j k : ℕ) : (L.withData D).tMass u j k = L.tMass u j k := by
  have e : (L.withData D).tEven u k = L.tEven u k := funext (tEven_withData L D u k)
  unfold tMass tAll
  rw [e]
  rfl

theorem uMass_lin (L : Legacy) (u v : ℕ → ℝ) (a b : ℝ) (j k : ℕ) :
    L.uMass (fun i => a * u i + b * v i) j k = a * L.uMass u j k + b * L.uMass v j k := by
  unfold uMass pad
  split_ifs <;> ring

theorem tEven_lin (L : Legacy) (u v : ℕ → ℝ) (a b : ℝ) (k m : ℕ) :
    L.tEven (fun i => a * u i + b * v i) k m = a * L.tEven u k m + b * L.tEven v k m := by
  induction m with
  | zero => simp [tEven]
  | succ m ih =>
    unfold tEven
    rw [ih, uMass_lin, uMass_lin]
    split_ifs <;> ring

theorem tMass_lin (L : Legacy) (u v : ℕ → ℝ) (a b : ℝ) (j k : ℕ) :
    L.tMass (fun i => a * u i + b * v i) j k = a * L.tMass u j k + b * L.tMass v j k := by
  have e : ∀ i, L.tAll (fun i => a * u i + b * v i) k i = a * L.tAll u k i + b * L.tAll v k i := by
    intro i
    unfold tAll
    rw [show L.tEven (fun i => a * u i + b * v i) k = fun m => a * L.tEven u k m + b * L.tEven v k m from
      funext (tEven_lin L u v a b k)]
    exact interp1d_linear _ _ _ _ _
  unfold tMass
  by_cases c : 1 ≤ k ∧ k < L.kmax - 2
  · rw [if_pos c, if_pos c, if_pos c, e, sum_congr rfl fun i _ => e i, sum_add_distrib, ← mul_sum, ← mul_sum]
    ring
  · rw [if_neg c, if_neg c, if_neg c]; ring

theorem toRegular_lin (L : Legacy) (f g h : ℕ → ℕ → ℝ) (a b : ℝ) (k r : ℕ) (e : ∀ j, h j k = a * f j k + b * g j k) :
    L.toRegular h k r = a * L.toRegular f k r + b * L.toRegular g k r := by
  unfold toRegular
  by_cases c : L.firstNorth ≤ r
  · rw [if_pos c, if_pos c, if_pos c, show (fun j => h j k) = fun j => a * f j k + b * g j k from funext e]
    exact interp1d_linear _ _ _ _ _
  · rw [if_neg c, if_neg c, if_neg c]; ring

theorem onRow_lin (L : Legacy) (y z : ℕ → ℝ) (a b : ℝ) (j : ℕ) :
    Spec.onRow L (fun r => a * y r + b * z r) j = a * Spec.onRow L y j + b * Spec.onRow L z j :=
  interp1d_linear _ _ _ _ _

theorem solves_comb (hn : 8 ≤ L.nlat) (hk : 3 ≤ L.kmax) (bc : Lower) (a b : ℝ) (D E : Data) {u v : ℕ → ℝ}
    (hu : (L.withData D).Solves bc u) (hv : (L.withData E).Solves bc v) :
    (L.withData (D.comb a b E)).Solves bc (fun i => a * u i + b * v i) := by
  rw [C99_system (L.withData D) hn hk] at hu
  rw [C99_system (L.withData E) hn hk] at hv
  rw [C99_system (L.withData (D.comb a b E)) hn hk]
  have p : ∀ j k, (L.withData (D.comb a b E)).pad (fun i => a * u i + b * v i) j k =
      a * (L.withData D).pad u j k + b * (L.withData E).pad v j k := by
    intro j k
    show (if 1 ≤ j ∧ j ≤ L.nlat / 4 then a * u ((j - 1) * L.kmax + k) + b * v ((j - 1) * L.kmax + k) else 0) =
      a * (if 1 ≤ j ∧ j ≤ L.nlat / 4 then u ((j - 1) * L.kmax + k) else 0) +
      b * (if 1 ≤ j ∧ j ≤ L.nlat / 4 then v ((j - 1) * L.kmax + k) else 0)
    split_ifs <;> ring
  have hs : ∀ j k, Spec.source (L.withData (D.comb a b E)) j k =
      a * Spec.source (L.withData D) j k + b * Spec.source (L.withData E) j k := by
    intro j k
    show (if 1 ≤ j ∧ j ≤ L.nlat / 4 then -Spec.onRow L (fun r => a * D.fawa k r + b * E.fawa k r) j / Spec.coriolis L j else 0) =
      a * (if 1 ≤ j ∧ j ≤ L.nlat / 4 then -Spec.onRow L (D.fawa k) j / Spec.coriolis L j else 0) +
      b * (if 1 ≤ j ∧ j ≤ L.nlat / 4 then -Spec.onRow L (E.fawa k) j / Spec.coriolis L j else 0)
    rw [onRow_lin]
    split_ifs <;> ring
  have hc : ∀ y z j, Spec.curvature L (fun r => a * y r + b * z r) j = a * Spec.curvature L y j + b * Spec.curvature L z j := by
    intro y z j
    unfold Spec.curvature
    rw [onRow_lin, onRow_lin, onRow_lin]; ring
  refine ⟨fun k h => ?_, fun k h => ?_, fun j k j1 j2 k1 k2 => ?_, fun j j1 j2 => ?_, fun j j1 j2 => ?_⟩
  · rw [p, hu.equator k h, hv.equator k h]; ring
  · show (L.withData (D.comb a b E)).pad _ (L.nlat / 4 + 1) k = 0
    have h1 : (L.withData D).pad u (L.nlat / 4 + 1) k = 0 := hu.pole k h
    have h2 : (L.withData E).pad v (L.nlat / 4 + 1) k = 0 := hv.pole k h
    rw [p, h1, h2]; ring
  · have h1 := hu.balance j k j1 j2 k1 k2
    have h2 := hv.balance j k j1 j2 k1 k2
    unfold Spec.Balance Spec.vertFlux at h1 h2 ⊢
    simp only [p, hs]
    have e1 : ∀ (F : Data) (y : ℕ → ℝ) j, Spec.onRow (L.withData F) y j = Spec.onRow L y j := fun _ _ _ => rfl
    have e2 : ∀ F : Data, Spec.aspect (L.withData F) = Spec.aspect L := fun _ => rfl
    have e3 : ∀ F : Data, (L.withData F).ephalf2 = L.ephalf2 := fun _ => rfl
    simp only [e1, e2, e3] at h1 h2 ⊢
    linear_combination a * h1 + b * h2
  · have h1 := hu.top j j1 j2
    have h2 := hv.top j j1 j2
    unfold Spec.Top at h1 h2 ⊢
    rw [p, p]
    have e0 : ∀ F : Data, (L.withData F).kmax = L.kmax := fun _ => rfl
    have e1 : ∀ (F : Data) (y : ℕ → ℝ) j, Spec.onRow (L.withData F) y j = Spec.onRow L y j := fun _ _ _ => rfl
    have e2 : ∀ F : Data, Spec.aspect (L.withData F) = Spec.aspect L := fun _ => rfl
    have e3 : ∀ (F : Data) j, Spec.thermal (L.withData F) j = Spec.thermal L j := fun _ _ => rfl
    have e4 : (L.withData (D.comb a b E)).deltaPT = fun r => a * D.deltaPT r + b * E.deltaPT r := rfl
    have e5 : ∀ F : Data, (L.withData F).deltaPT = F.deltaPT := fun _ => rfl
    rw [e4]
    simp only [e0, e1, e2, e3, e5, onRow_lin] at h1 h2 ⊢
    linear_combination a * h1 + b * h2
  · have h1 := hu.bottom j j1 j2
    have h2 := hv.bottom j j1 j2
    cases bc with
    | noslip =>
      show (L.withData (D.comb a b E)).pad _ j 0 * Spec.coriolis L j =
        Spec.onRow L (fun r => a * D.zmum 0 r + b * E.zmum 0 r) j * √(1 - Spec.mu L j ^ 2)
      have g1 : (L.withData D).pad u j 0 * Spec.coriolis L j = Spec.onRow L (D.zmum 0) j * √(1 - Spec.mu L j ^ 2) := h1
      have g2 : (L.withData E).pad v j 0 * Spec.coriolis L j = Spec.onRow L (E.zmum 0) j * √(1 - Spec.mu L j ^ 2) := h2
      rw [p, onRow_lin]
      linear_combination a * g1 + b * g2
    | adiabatic =>
      show (L.withData (D.comb a b E)).pad _ j 2 - (L.withData (D.comb a b E)).pad _ j 0 =
        -(2 * 1000 * Spec.thermal L j / (6378000 * (1 / ((L.nlat / 4 : ℕ) + 1 : ℝ)) ^ 2) *
        (exp (-(287 / 1004) / 7) * Spec.curvature L (fun r => a * D.b1 r + b * E.b1 r) j +
          Spec.curvature L (fun r => a * D.b0 r + b * E.b0 r) j))
      have g1 : (L.withData D).pad u j 2 - (L.withData D).pad u j 0 =
        -(2 * 1000 * Spec.thermal L j / (6378000 * (1 / ((L.nlat / 4 : ℕ) + 1 : ℝ)) ^ 2) *
        (exp (-(287 / 1004) / 7) * Spec.curvature L D.b1 j + Spec.curvature L D.b0 j)) := h1
      have g2 : (L.withData E).pad v j 2 - (L.withData E).pad v j 0 =
        -(2 * 1000 * Spec.thermal L j / (6378000 * (1 / ((L.nlat / 4 : ℕ) + 1 : ℝ)) ^ 2) *
        (exp (-(287 / 1004) / 7) * Spec.curvature L E.b1 j + Spec.curvature L E.b0 j)) := h2
      rw [p, p, hc, hc]
      linear_combination a * g1 + b * g2

/-- C101, superposition: on one grid with one vertical coefficient, a linear combination of the data gives the same linear
combination of the corrections and of the reference states. -/
theorem C101_superposition (hL : L.Sensible) (bc : Lower) (hbc : bc = .adiabatic → 4 ≤ L.kmax) (a b : ℝ) (D E : Data)
    {u v w : ℕ → ℝ} (hu : (L.withData D).Solves bc u) (hv : (L.withData E).Solves bc v)
    (hw : (L.withData (D.comb a b E)).Solves bc w) {k : ℕ} (hk : k < L.kmax) (r : ℕ) :
    (L.withData (D.comb a b E)).uMassRegular w k r =
      a * (L.withData D).uMassRegular u k r + b * (L.withData E).uMassRegular v k r ∧
    (L.withData (D.comb a b E)).tMassRegular w k r =
      a * (L.withData D).tMassRegular u k r + b * (L.withData E).tMassRegular v k r ∧
    (L.withData (D.comb a b E)).uRef w k r = a * (L.withData D).uRef u k r + b * (L.withData E).uRef v k r ∧
    (L.withData (D.comb a b E)).tRef w k r = a * (L.withData D).tRef u k r + b * (L.withData E).tRef v k r := by
  have hL' : (L.withData (D.comb a b E)).Sensible := ⟨hL.nlat, hL.kmax, hL.ascending, hL.south, hL.north, hL.coefficient⟩
  have h0 := C100_unique_partial hL' bc hbc (solves_comb hL.nlat hL.kmax bc a b D E hu hv) hw
  have h1 : (L.withData (D.comb a b E)).uMassRegular w k r =
      a * (L.withData D).uMassRegular u k r + b * (L.withData E).uMassRegular v k r :=
    toRegular_lin L _ _ _ a b k r fun j => (uMass_congr h0 j hk).trans (uMass_lin L u v a b j k)
  have h2 : (L.withData (D.comb a b E)).tMassRegular w k r =
      a * (L.withData D).tMassRegular u k r + b * (L.withData E).tMassRegular v k r :=
    toRegular_lin L _ _ _ a b k r fun j => by
      rw [tMass_congr h0 j k, tMass_withData, tMass_withData, tMass_withData]
      exact tMass_lin L u v a b j k
  refine ⟨h1, h2, ?_, ?_⟩
  · unfold uRef
    rw [h1]
    show (if L.firstNorth ≤ r then a * D.zmum k r + b * E.zmum k r - (_ + _) else 0) =
      a * (if L.firstNorth ≤ r then D.zmum k r - _ else 0) + b * (if L.firstNorth ≤ r then E.zmum k r - _ else 0)
    split_ifs <;> ring
  · unfold tRef
    rw [h2]
    show (if L.firstNorth ≤ r then (a * D.zmPT k r + b * E.zmPT k r) * _ - (_ + _) else 0) =
      a * (if L.firstNorth ≤ r then D.zmPT k r * _ - _ else 0) + b * (if L.firstNorth ≤ r then E.zmPT k r * _ - _ else 0)
    split_ifs <;> ring

example : (test 121 49 (fun _ _ => 0) (fun _ _ => 0)).Sensible ∧
    (∀ D : Data, ∃ u, ((test 121 49 (fun _ _ => 0) (fun _ _ => 0)).withData D).Solves .adiabatic u) := by
  have h := test_sensible (n := 121) (kmax := 49) (by norm_num) (by norm_num) (fun _ _ => 0) (fun _ _ => 0)
  refine ⟨h, fun D => ?_⟩
  have h' : ((test 121 49 (fun _ _ => 0) (fun _ _ => 0)).withData D).Sensible :=
    ⟨h.nlat, h.kmax, h.ascending, h.south, h.north, h.coefficient⟩
  exact (C100_unique_solution_partial h' .adiabatic (fun _ => show 4 ≤ 49 by norm_num)).imp fun _ h => h.1

/-! ## C102 -/

theorem alat2_eq (L : Legacy) (j : ℕ) : L.alat2 j = arcsin (Spec.mu L j) * 180 / π := by
  unfold alat2; rw [mu_eq_gl2]

theorem alat2_ascending (L : Legacy) : Ascending (L.jmax + 2) L.alat2 := by
  intro i j h hj
  rw [alat2_eq, alat2_eq]
  have := strictMonoOn_arcsin (mu_mem L (j := i) (by omega)) (mu_mem L (j := j) (by omega)) (mu_strictMono L h)
  exact div_lt_div_of_pos_right (by linarith) pi_pos

theorem alat2_zero (L : Legacy) : L.alat2 0 = 0 := by
  rw [alat2_eq, mu_zero, arcsin_zero, zero_mul, zero_div]

theorem alat2_pole (L : Legacy) : L.alat2 (L.jmax + 1) = 90 := by
  rw [alat2_eq, mu_pole, arcsin_one]
  field_simp
  norm_num

theorem gl2_ascending (L : Legacy) (n : ℕ) : Ascending n (fun m => L.gl2 (2 * m)) := by
  intro i j h _
  show L.gl2 (2 * i) < L.gl2 (2 * j)
  rw [← mu_eq_gl2, ← mu_eq_gl2]
  exact mu_strictMono L (by omega)

/-- A correction on the input grid, at a latitude of the solver grid. -/
theorem toRegular_node (L : Legacy) (y : ℕ → ℕ → ℝ) (k : ℕ) {j r : ℕ} (hj : j ≤ L.jmax + 1) (hr : L.nlat / 2 ≤ r)
    (h : L.ylat r = L.alat2 j) : L.toRegular y k r = y j k := by
  unfold toRegular firstNorth
  rw [if_pos hr, h]
  exact interp1d_node (alat2_ascending L) (by omega) (fun j => y j k) (by omega)

/-- C102, full statement: with the no-slip condition the reference wind at the lowest level of the northern hemisphere is zero. -/
def C102_Statement : Prop :=
  ∀ L : Legacy, L.Sensible → ∀ u, L.Solves .noslip u → ∀ r, L.nlat / 2 ≤ r → r < L.nlat → L.uRef u 0 r = 0

/-- C102, partial: it is zero at each input latitude that is a latitude of the solver grid, except equator and pole.
Missing: all other latitudes, where two interpolations follow one another. -/
theorem C102_gaussian_partial (hL : L.Sensible) {u : ℕ → ℝ} (hu : L.Solves .noslip u) {j r : ℕ} (h1 : 1 ≤ j) (hj : j ≤ L.jmax)
    (hr : L.nlat / 2 ≤ r) (hr' : r < L.nlat) (h : L.ylat r = arcsin (Spec.mu L j) * 180 / π) : L.uRef u 0 r = 0 := by
  obtain ⟨_, _, _, _, hb⟩ := (C99_system L hL.nlat hL.kmax .noslip u).1 hu
  have b : L.pad u j 0 * Spec.coriolis L j = Spec.onRow L (L.zmum 0) j * √(1 - Spec.mu L j ^ 2) := hb j h1 hj
  have hn := hL.nlat
  have e : Spec.onRow L (L.zmum 0) j = L.zmum 0 r := by
    unfold Spec.onRow
    rw [← h]
    exact interp1d_node hL.ascending (by omega) _ hr'
  obtain ⟨m, rfl⟩ : ∃ m, j = m + 1 := ⟨j - 1, by omega⟩
  have hc : L.cosl m = √(1 - Spec.mu L (m + 1) ^ 2) := by unfold cosl; rw [gl_eq]
  have hm : L.uMass u (m + 1) 0 = L.zmum 0 r := by
    unfold uMass
    rw [if_pos ⟨h1, hj⟩, Nat.add_sub_cancel, cor_eq, b, e, ← hc]
    exact mul_div_cancel_right₀ _ (cosl_pos L hj).ne'
  unfold uRef uMassRegular firstNorth
  rw [if_pos hr, toRegular_node L _ 0 (j := m + 1) (by omega) hr (by rw [h, alat2_eq]), hm, sub_self]

/-- C102, what happens at the ends: at the equator and at the pole the reference wind is the zonal mean wind, on each level and
for both lower boundary conditions. -/
theorem C102_ends_partial (L : Legacy) (u : ℕ → ℝ) (k : ℕ) {r : ℕ} (hr : L.nlat / 2 ≤ r) (h : L.ylat r = 0 ∨ L.ylat r = 90) :
    L.uRef u k r = L.zmum k r := by
  have z0 : L.uMass u 0 k = 0 := by unfold uMass; rw [if_neg (by omega)]
  have z1 : L.uMass u (L.jmax + 1) k = 0 := by unfold uMass; rw [if_neg (by omega)]
  unfold uRef uMassRegular firstNorth
  rw [if_pos hr]
  rcases h with h | h
  · rw [toRegular_node L _ k (Nat.zero_le _) hr (by rw [h, alat2_zero]), z0, sub_zero]
  · rw [toRegular_node L _ k le_rfl hr (by rw [h, alat2_pole]), z1, sub_zero]

/-- Nine latitudes and a uniform wind: row 4 is the equator. -/
theorem test9_equator (kmax : ℕ) (fawa zmum : ℕ → ℕ → ℝ) : (test 9 kmax fawa zmum).ylat 4 = 0 := by
  show -90 + 180 * ((4 : ℕ) : ℝ) / ((9 - 1 : ℕ) : ℝ) = 0
  norm_num

/-- An input one of whose latitudes is a latitude of the solver grid: 30 degrees, with 13 latitudes and the sine 2/4. -/
example : (test 13 4 (fun _ _ => 0) (fun _ _ => 1)).ylat 8 =
    arcsin (Spec.mu (test 13 4 (fun _ _ => 0) (fun _ _ => 1)) 2) * 180 / π := by
  have e : Spec.mu (test 13 4 (fun _ _ => 0) (fun _ _ => 1)) 2 = sin (π / 6) := by
    rw [sin_pi_div_six]
    show ((2 : ℕ) : ℝ) / ((13 / 4 : ℕ) + 1 : ℝ) = 1 / 2
    norm_num
  rw [e, arcsin_sin (by linarith [pi_pos]) (by linarith [pi_pos])]
  show -90 + 180 * ((8 : ℕ) : ℝ) / ((13 - 1 : ℕ) : ℝ) = _
  field_simp
  norm_num

/-- C102 fails at the equator: with a uniform wind of 1 the reference wind at the ground is 1 there. -/
theorem C102_refuted : ¬ C102_Statement := by
  intro h
  have hS := test_sensible (n := 9) (kmax := 3) (by norm_num) le_rfl (fun _ _ => 0) (fun _ _ => 1)
  obtain ⟨u, hu, _⟩ := C100_unique_solution_partial hS .noslip (fun h => by cases h)
  have h1 := h _ hS u hu 4 (show 9 / 2 ≤ 4 by norm_num) (show 4 < 9 by norm_num)
  rw [C102_ends_partial _ u 0 (show 9 / 2 ≤ 4 by norm_num) (Or.inl (test9_equator _ _ _))] at h1
  exact one_ne_zero h1

/-! ## C103 -/

/-- Factor of the thermal wind relation at a row: Coriolis parameter over cosine, with the constants and spacings. -/
def _root_.Falwa.Spec.windFactor (L : Legacy) (j : ℕ) : ℝ :=
  Spec.coriolis L j * 6378000 * 7000 * Spec.aspect L / (287 * √(1 - Spec.mu L j ^ 2))

/-- C103, full statement: on the solver grid the temperature correction is in thermal wind balance with the wind correction:
between any two rows that are two steps apart, its difference is given by the vertical shear at the row between them. -/
def C103_Statement : Prop :=
  ∀ L : Legacy, L.Sensible → ∀ bc u, L.Solves bc u → ∀ k, 1 ≤ k → k + 2 < L.kmax → ∀ m, 2 * m + 2 ≤ L.jmax + 1 →
    L.tMass u (2 * m + 2) k - L.tMass u (2 * m) k =
      -(Spec.windFactor L (2 * m + 1) * (L.uMass u (2 * m + 1) (k + 1) - L.uMass u (2 * m + 1) (k - 1)))

theorem tAll_even (L : Legacy) (hj : 1 ≤ L.jmax) (u : ℕ → ℝ) (k : ℕ) {m : ℕ} (hm : 2 * m ≤ L.jmax + 1) :
    L.tAll u k (2 * m) = L.tEven u k m := by
  unfold tAll
  exact interp1d_node (gl2_ascending L _) (by omega) (L.tEven u k) (m := m) (by omega)

/-- C103, partial: what holds instead. As long as the upper row is below the last one of the solver grid, the factor is
the one of the upper row, not of the row of the shear. -/
theorem C103_shifted_partial (L : Legacy) (u : ℕ → ℝ) {k : ℕ} (k1 : 1 ≤ k) (k2 : k + 2 < L.kmax) {m : ℕ}
    (hm : 2 * m + 2 < L.jmax) :
    L.tMass u (2 * m + 2) k - L.tMass u (2 * m) k =
      -(Spec.windFactor L (2 * m + 2) * (L.uMass u (2 * m + 1) (k + 1) - L.uMass u (2 * m + 1) (k - 1))) := by
  unfold tMass
  have c : 1 ≤ k ∧ k < L.kmax - 2 := by omega
  rw [if_pos c, if_pos c, show 2 * m + 2 = 2 * (m + 1) by ring, tAll_even L (by omega) u k (by omega),
    tAll_even L (by omega) u k (by omega)]
  have c2 : 2 * (m + 1) < L.jmax := by omega
  have hw : 2 * om * L.gl (2 * m + 1) * aa * hh * L.dmdz / (r0 * L.cosl (2 * m + 1)) = Spec.windFactor L (2 * (m + 1)) := by
    unfold Spec.windFactor Spec.coriolis cosl om aa hh r0
    rw [gl_eq, dmdz_eq, show 2 * m + 1 + 1 = 2 * (m + 1) by ring]
  have ht : L.tEven u k (m + 1) = L.tEven u k m - Spec.windFactor L (2 * (m + 1)) *
      (L.uMass u (2 * m + 1) (k + 1) - L.uMass u (2 * m + 1) (k - 1)) := by
    rw [← hw]
    exact if_pos c2
  rw [ht]
  ring

/-- C103, partial: the mean of the correction over the rows of the solver grid, which are equally spaced in area, is zero on
each level. -/
theorem C103_mean_partial (L : Legacy) (u : ℕ → ℝ) (k : ℕ) : ∑ j ∈ range (L.jmax + 2), L.tMass u j k = 0 := by
  unfold tMass
  by_cases c : 1 ≤ k ∧ k < L.kmax - 2
  · simp only [if_pos c]
    rw [sum_sub_distrib, sum_const, card_range, nsmul_eq_mul, mul_div_cancel₀ _ (by positivity), sub_self]
  · simp only [if_neg c]
    exact sum_const_zero

theorem windFactor_lt (L : Legacy) {i j : ℕ} (h : i < j) (hj : j ≤ L.jmax) : Spec.windFactor L i < Spec.windFactor L j := by
  have m1 : 0 ≤ Spec.mu L i := by
    have := (mu_strictMono L).monotone (Nat.zero_le i)
    rwa [mu_zero] at this
  have m2 := mu_strictMono L h
  have m3 := mu_lt_one L hj
  have s1 : √(1 - Spec.mu L j ^ 2) ≤ √(1 - Spec.mu L i ^ 2) := sqrt_le_sqrt (by nlinarith)
  have s0 : 0 < √(1 - Spec.mu L j ^ 2) := sqrt_pos.2 (by nlinarith)
  have ha : 0 < Spec.aspect L := by unfold Spec.aspect; positivity
  unfold Spec.windFactor Spec.coriolis
  refine (div_lt_div_iff₀ (by linarith) (by linarith)).2 ?_
  have g1 : Spec.mu L i * √(1 - Spec.mu L j ^ 2) < Spec.mu L j * √(1 - Spec.mu L i ^ 2) := by nlinarith
  have g2 := mul_lt_mul_of_pos_left g1 (show 0 < 2 * 7.29e-5 * 6378000 * 7000 * Spec.aspect L * 287 by positivity)
  nlinarith

/-- C103 fails wherever the wind correction has a vertical shear at the row between. -/
theorem C103_differs_partial (L : Legacy) (u : ℕ → ℝ) {k : ℕ} (k1 : 1 ≤ k) (k2 : k + 2 < L.kmax) {m : ℕ}
    (hm : 2 * m + 2 < L.jmax) (hs : L.uMass u (2 * m + 1) (k + 1) ≠ L.uMass u (2 * m + 1) (k - 1)) :
    L.tMass u (2 * m + 2) k - L.tMass u (2 * m) k ≠
      -(Spec.windFactor L (2 * m + 1) * (L.uMass u (2 * m + 1) (k + 1) - L.uMass u (2 * m + 1) (k - 1))) := by
  rw [C103_shifted_partial L u k1 k2 hm]
  intro h
  have h1 := mul_right_cancel₀ (sub_ne_zero.2 hs) (neg_inj.1 h)
  exact absurd h1 (windFactor_lt L (show 2 * m + 1 < 2 * m + 2 by omega) (by omega)).ne'

/-- Twelve latitudes and four levels without vertical coupling; wave activity on level 2 only. -/
def sheared : Legacy :=
  { test 12 4 (fun k _ => if k = 2 then 1 else 0) (fun _ _ => 0) with ephalf2 := fun _ _ => 0 }

theorem sheared_sensible : sheared.Sensible :=
  have h := test_sensible (n := 12) (kmax := 4) (by norm_num) (by norm_num) (fun k _ => if k = 2 then 1 else 0) (fun _ _ => 0)
  ⟨h.nlat, h.kmax, h.ascending, h.south, h.north, fun _ _ _ _ => le_rfl⟩

theorem sheared_shear {u : ℕ → ℝ} (hu : sheared.Solves .noslip u) : sheared.uMass u 1 2 ≠ sheared.uMass u 1 0 := by
  have hS := sheared_sensible
  obtain ⟨he, hp, hi, _, hb⟩ := (C99_system sheared hS.nlat hS.kmax .noslip u).1 hu
  have z : ∀ j, Spec.onRow sheared (fun _ => 0) j = 0 := fun j => onRow_const hS (fun _ _ => rfl) j
  have o : ∀ j, Spec.onRow sheared (sheared.fawa 2) j = 1 := fun j => onRow_const hS (fun _ _ => rfl) j
  have b0 : sheared.pad u 1 0 = 0 := by
    have b : sheared.pad u 1 0 * Spec.coriolis sheared 1 = Spec.onRow sheared (fun _ => 0) 1 * _ := hb 1 le_rfl (show 1 ≤ 12 / 4 by norm_num)
    rw [z, zero_mul] at b
    have : Spec.coriolis sheared 1 ≠ 0 := by rw [← cor_eq]; exact (cor_pos _ _).ne'
    exact (mul_eq_zero.1 b).resolve_right this
  have bal : ∀ j, 1 ≤ j → j ≤ 3 → (sheared.pad u (j + 1) 2 - sheared.pad u j 2) - (sheared.pad u j 2 - sheared.pad u (j - 1) 2) =
      (Spec.source sheared (j + 1) 2 - Spec.source sheared j 2) - (Spec.source sheared j 2 - Spec.source sheared (j - 1) 2) := by
    intro j j1 j2
    have := hi j 2 j1 j2 (by norm_num) (show 2 + 1 < 4 by norm_num)
    unfold Spec.Balance Spec.vertFlux at this
    have e : ∀ k, sheared.ephalf2 k = fun _ => 0 := fun _ => rfl
    rw [e, e, z] at this
    linear_combination this
  have e1 := bal 1 le_rfl (by norm_num)
  have e2 := bal 2 (by norm_num) (by norm_num)
  have e3 := bal 3 (by norm_num) le_rfl
  have p0 : sheared.pad u (1 - 1) 2 = 0 := pad_zero u 2
  have p4 : sheared.pad u (3 + 1) 2 = 0 := hp 2 (show 2 < 4 by norm_num)
  have s0 : Spec.source sheared (1 - 1) 2 = 0 := source_zero _ _
  have s4 : Spec.source sheared (3 + 1) 2 = 0 := source_pole sheared 2
  rw [p0, s0] at e1
  rw [p4, s4] at e3
  norm_num at e1 e2 e3
  have h1 : sheared.pad u 1 2 = Spec.source sheared 1 2 := by linarith
  have s1 : Spec.source sheared 1 2 ≠ 0 := by
    unfold Spec.source
    rw [if_pos ⟨le_rfl, show 1 ≤ 12 / 4 by norm_num⟩, o]
    have : Spec.coriolis sheared 1 ≠ 0 := by rw [← cor_eq]; exact (cor_pos _ _).ne'
    exact div_ne_zero (by norm_num) this
  have hj : 1 ≤ 1 ∧ 1 ≤ sheared.jmax := ⟨le_rfl, show 1 ≤ 12 / 4 by norm_num⟩
  unfold uMass
  rw [if_pos hj, if_pos hj, b0, h1, zero_mul, zero_div]
  exact div_ne_zero (mul_ne_zero s1 (cor_pos _ _).ne') (cosl_pos sheared (show 0 < 12 / 4 by norm_num)).ne'

/-- C103 fails. -/
theorem C103_refuted : ¬ C103_Statement := by
  intro h
  obtain ⟨u, hu, _⟩ := C100_unique_solution_partial sheared_sensible .noslip (fun h => by cases h)
  exact C103_differs_partial sheared u (k := 1) (m := 0) le_rfl (show 1 + 2 < 4 by norm_num) (show 2 * 0 + 2 < 12 / 4 by norm_num)
    (sheared_shear hu)
    (h sheared sheared_sensible .noslip u hu 1 le_rfl (show 1 + 2 < 4 by norm_num) 0 (show 2 * 0 + 2 ≤ 12 / 4 + 1 by norm_num))

end Legacy

end Falwa
