import Verif.Lemmas.Partial
import Verif.Spec.Balance
import Mathlib.Analysis.SpecialFunctions.ExpDeriv
import Mathlib.Analysis.SpecialFunctions.Trigonometric.Deriv

/-! # Vertical differences of the balance equation -/

noncomputable section

namespace Falwa.Spec.BalancedState

open Real

variable {B : BalancedState}

/-- The weight as discretised: the static stability at a half level is the mean of its neighbours. -/
def mesh (B : BalancedState) (z d : ℝ) : ℝ := exp (-(1 - B.r / B.cp) * z / B.h) / ((B.S (z + d / 2) + B.S (z - d / 2)) / 2)

/-- The vertical part of the discretised operator. -/
def lift (B : BalancedState) (v : ℝ → ℝ) (z d : ℝ) : ℝ :=
  B.mesh (z + d / 2) d * (v (z + d) - v z) - B.mesh (z - d / 2) d * (v z - v (z - d))

/-- Factor of density. -/
def fade (B : BalancedState) (z : ℝ) : ℝ := exp (-(1 - B.r / B.cp) * z / B.h)

theorem contDiff_fade (B : BalancedState) : ContDiff ℝ 2 B.fade := ((contDiff_const.mul contDiff_id).div_const _).exp

theorem Solves.contDiff_weight (hB : B.Solves) : ContDiff ℝ 2 B.weight :=
  B.contDiff_fade.div hB.smoothS (fun z => (hB.stable z).ne')

theorem Solves.mesh_bounds (hB : B.Solves) : ∃ m M, 0 < m ∧ ∀ z d, 0 ≤ d → 0 ≤ z - d / 2 → z + d / 2 ≤ B.top →
    m ≤ B.mesh z d ∧ B.mesh z d ≤ M := by
  obtain ⟨E, E0, hE⟩ := exists_bound₁ B.contDiff_fade.continuous 0 B.top
  obtain ⟨E', E0', hE'⟩ := exists_bound₁ (f := fun z => (B.fade z)⁻¹)
    (B.contDiff_fade.continuous.inv₀ (fun z => (exp_pos _).ne')) 0 B.top
  obtain ⟨s, s0, hs⟩ := exists_bound₁ hB.smoothS.continuous 0 B.top
  obtain ⟨s', s0', hs'⟩ := exists_bound₁ (f := fun z => (B.S z)⁻¹)
    (hB.smoothS.continuous.inv₀ (fun z => (hB.stable z).ne')) 0 B.top
  refine ⟨1 / (E' + 1) / (s + 1), E * (s' + 1), by positivity, fun z d d0 z1 z2 => ?_⟩
  have e1 : B.fade z ≤ E := (le_abs_self _).trans (hE z (by linarith) (by linarith))
  have e2 : (B.fade z)⁻¹ ≤ E' := (le_abs_self _).trans (hE' z (by linarith) (by linarith))
  have ep : 0 < B.fade z := exp_pos _
  have up : ∀ y, 0 ≤ y → y ≤ B.top → B.S y ≤ s + 1 ∧ 1 / (s' + 1) ≤ B.S y := by
    intro y y1 y2
    have p := hB.stable y
    refine ⟨((le_abs_self _).trans (hs y y1 y2)).trans (by linarith), ?_⟩
    have : (B.S y)⁻¹ ≤ s' := (le_abs_self _).trans (hs' y y1 y2)
    rw [div_le_iff₀ (by positivity)]
    have := mul_le_mul_of_nonneg_left this p.le
    rw [mul_inv_cancel₀ p.ne'] at this
    linarith
  obtain ⟨a1, a2⟩ := up (z + d / 2) (by linarith) z2
  obtain ⟨b1, b2⟩ := up (z - d / 2) z1 (by linarith)
  have p1 := hB.stable (z + d / 2)
  have p2 := hB.stable (z - d / 2)
  have f1 : 1 / (E' + 1) ≤ B.fade z := by
    rw [div_le_iff₀ (by positivity)]
    have := mul_le_mul_of_nonneg_left e2 ep.le
    rw [mul_inv_cancel₀ ep.ne'] at this
    linarith
  have hm : B.mesh z d = B.fade z / ((B.S (z + d / 2) + B.S (z - d / 2)) / 2) := rfl
  rw [hm]
  constructor
  · exact div_le_div₀ ep.le f1 (by positivity) (by linarith)
  · have g : 1 / (s' + 1) ≤ (B.S (z + d / 2) + B.S (z - d / 2)) / 2 := by linarith
    have := div_le_div₀ E0 e1 (by positivity) g
    refine this.trans (le_of_eq ?_)
    field_simp

theorem Solves.mesh_close (hB : B.Solves) : ∃ C, 0 ≤ C ∧ ∀ z d, 0 ≤ d → 0 ≤ z - d / 2 → z + d / 2 ≤ B.top →
    |B.mesh z d - B.weight z| ≤ C * d ^ 2 := by
  obtain ⟨m, M, m0, hm⟩ := hB.mesh_bounds
  obtain ⟨s', s0', hs'⟩ := exists_bound₁ (f := fun z => (B.S z)⁻¹)
    (hB.smoothS.continuous.inv₀ (fun z => (hB.stable z).ne')) 0 B.top
  have c1 : ContDiff ℝ 1 (deriv B.S) := (contDiff_succ_iff_deriv (n := 1).1 hB.smoothS).2.2
  have c0 : Continuous (deriv (deriv B.S)) := c1.continuous_deriv le_rfl
  obtain ⟨D, D0, hD⟩ := exists_bound₁ c0 0 B.top
  have M0 : 0 ≤ M := by
    obtain ⟨q1, q2⟩ := hm 0 0 le_rfl (by simp) (by simp [hB.top0.le])
    linarith
  refine ⟨M * (s' * D), by positivity, fun z d d0 z1 z2 => ?_⟩
  have d1 : ∀ y, HasDerivAt B.S (deriv B.S y) y := fun y => (hB.smoothS.differentiable (by norm_num) y).hasDerivAt
  have d2 : ∀ y, HasDerivAt (deriv B.S) (deriv (deriv B.S) y) y := fun y => (c1.differentiable (by norm_num) y).hasDerivAt
  have key := second_le (x := z) (h := d / 2) (C := D) (by linarith) d1 d2 (fun y y1 y2 => hD y (by linarith) (by linarith))
  have p0 := hB.stable z
  have p1 := hB.stable (z + d / 2)
  have p2 := hB.stable (z - d / 2)
  have i : (B.S z)⁻¹ ≤ s' := (le_abs_self _).trans (hs' z (by linarith) (by linarith))
  obtain ⟨q1, q2⟩ := hm z d d0 z1 z2
  have e : B.mesh z d - B.weight z =
      -(B.mesh z d * ((B.S z)⁻¹ * ((B.S (z + d / 2) + B.S (z - d / 2) - 2 * B.S z) / 2))) := by
    unfold mesh weight
    have ps : 0 < B.S (z + d / 2) + B.S (z - d / 2) := add_pos p1 p2
    generalize B.S (z + d / 2) + B.S (z - d / 2) = s at *
    field_simp
    ring
  rw [e, abs_neg, abs_mul, abs_mul, abs_of_pos (by linarith : 0 < B.mesh z d), abs_of_pos (inv_pos.2 p0), abs_div,
    abs_of_pos (two_pos : (0 : ℝ) < 2)]
  have k : |B.S (z + d / 2) + B.S (z - d / 2) - 2 * B.S z| / 2 ≤ D * d ^ 2 := by
    rw [div_le_iff₀ two_pos]
    refine key.trans ?_
    nlinarith [mul_nonneg D0 (sq_nonneg d)]
  calc _ ≤ M * (s' * (D * d ^ 2)) := by
        refine mul_le_mul q2 (mul_le_mul i k (by positivity) s0') (by positivity) M0
    _ = _ := by ring

/-- The vertical operator of a function with two derivatives is of the size of the squared spacing. -/
theorem Solves.lift_small (hB : B.Solves) {w : ℝ × ℝ → ℝ} (hw : ContDiff ℝ 2 w) :
    ∃ C, 0 ≤ C ∧ ∀ φ z d, 0 ≤ φ → φ ≤ π / 2 → 0 ≤ d → 0 ≤ z - d → z + d ≤ B.top →
      |B.lift (fun y => w (φ, y)) z d| ≤ C * d ^ 2 := by
  obtain ⟨m, M, m0, hm⟩ := hB.mesh_bounds
  obtain ⟨K, K0, hK⟩ := hB.mesh_close
  have cw : ContDiff ℝ 1 (deriv B.weight) := (contDiff_succ_iff_deriv (n := 1).1 hB.contDiff_weight).2.2
  obtain ⟨L, L0, hL⟩ := exists_bound₁ cw.continuous 0 B.top
  have c1 : ContDiff ℝ 1 (pdy w) := contDiff_pdy hw (by norm_num [one_add_one_eq_two])
  have c2 : ContDiff ℝ 0 (pdy (pdy w)) := contDiff_pdy c1 (by norm_num)
  obtain ⟨W1, W10, hW1⟩ := exists_bound c1.continuous 0 (π / 2) 0 B.top
  obtain ⟨W2, W20, hW2⟩ := exists_bound c2.continuous 0 (π / 2) 0 B.top
  have M0 : 0 ≤ M := by
    obtain ⟨q1, q2⟩ := hm 0 0 le_rfl (by simp) (by simp [hB.top0.le])
    linarith
  refine ⟨M * (2 * W2) + (2 * K * B.top + L) * W1, by have := hB.top0; positivity, fun φ z d f1 f2 d0 z1 z2 => ?_⟩
  have e : B.lift (fun y => w (φ, y)) z d = B.mesh (z + d / 2) d * (w (φ, z + d) + w (φ, z - d) - 2 * w (φ, z)) +
      (B.mesh (z + d / 2) d - B.mesh (z - d / 2) d) * (w (φ, z) - w (φ, z - d)) := by
    unfold lift
    ring
  have g1 := second_le (x := z) (h := d) (C := W2) d0 (hasDerivAt_pdy hw (by norm_num) φ) (hasDerivAt_pdy c1 (by norm_num) φ)
    (fun y y1 y2 => hW2 φ y f1 f2 (by linarith) (by linarith))
  have g2 := diff_le (a := z - d) (b := z) (C := W1) (by linarith) (hasDerivAt_pdy hw (by norm_num) φ)
    (fun y y1 y2 => hW1 φ y f1 f2 (by linarith) (by linarith))
  have g3 := diff_le (a := z - d / 2) (b := z + d / 2) (C := L) (by linarith)
    (fun y => (hB.contDiff_weight.differentiable (by norm_num) y).hasDerivAt)
    (fun y y1 y2 => hL y (by linarith) (by linarith))
  have k1 := hK (z + d / 2) d d0 (by linarith) (by linarith)
  have k2 := hK (z - d / 2) d d0 (by linarith) (by linarith)
  obtain ⟨q1, q2⟩ := hm (z + d / 2) d d0 (by linarith) (by linarith)
  have k3 : |B.mesh (z + d / 2) d - B.mesh (z - d / 2) d| ≤ (2 * K * B.top + L) * d := by
    have t : d ^ 2 ≤ B.top * d := by nlinarith
    have := mul_le_mul_of_nonneg_left t K0
    rw [abs_le] at *
    constructor <;> nlinarith [k1.1, k1.2, k2.1, k2.2, g3.1, g3.2]
  rw [e]
  refine (abs_add_le _ _).trans ?_
  rw [abs_mul, abs_mul, abs_of_pos (by linarith : 0 < B.mesh (z + d / 2) d)]
  rw [show z - (z - d) = d by ring] at g2
  calc _ ≤ M * (2 * W2 * d ^ 2) + (2 * K * B.top + L) * d * (W1 * d) :=
        add_le_add (mul_le_mul q2 g1 (abs_nonneg _) M0)
          (mul_le_mul k3 g2 (abs_nonneg _) ((abs_nonneg _).trans k3))
    _ = _ := by ring

/-- The density-weighted shear divided by the stability. -/
def flux (B : BalancedState) (p : ℝ × ℝ) : ℝ := B.weight p.2 * pdy B.u p

theorem Solves.contDiff_flux (hB : B.Solves) : ContDiff ℝ 2 B.flux :=
  (hB.contDiff_weight.comp contDiff_snd).mul (contDiff_pdy (m := 2) (hB.smoothU.of_le (by norm_num : (3 : WithTop ℕ∞) ≤ 5)) (by norm_num [two_add_one_eq_three]))

theorem Solves.shear_eq (hB : B.Solves) (φ z : ℝ) : B.shear φ z = pdy B.u (φ, z) :=
  (hasDerivAt_pdy hB.smoothU (by norm_num) φ z).deriv

theorem Solves.flux_deriv (hB : B.Solves) (φ z : ℝ) :
    deriv (fun y => B.weight y * B.shear φ y) z = pdy B.flux (φ, z) := by
  have : (fun y => B.weight y * B.shear φ y) = fun y => B.flux (φ, y) := by
    funext y
    rw [hB.shear_eq]
    rfl
  rw [this]
  exact (hasDerivAt_pdy hB.contDiff_flux (by norm_num) φ z).deriv

/-- The vertical operator of the wind approximates the vertical derivative of the balance equation. -/
theorem Solves.lift_wind (hB : B.Solves) :
    ∃ C, 0 ≤ C ∧ ∀ φ z d, 0 ≤ φ → φ ≤ π / 2 → 0 ≤ d → 0 ≤ z - d → z + d ≤ B.top →
      |B.lift (fun y => B.u (φ, y)) z d - d ^ 2 * pdy B.flux (φ, z)| ≤ C * d ^ 3 := by
  obtain ⟨m, M, m0, hm⟩ := hB.mesh_bounds
  obtain ⟨K, K0, hK⟩ := hB.mesh_close
  have c1 : ContDiff ℝ 2 (pdy B.u) := contDiff_pdy (hB.smoothU.of_le (by norm_num : (3 : WithTop ℕ∞) ≤ 5)) (by norm_num [two_add_one_eq_three])
  have c2 : ContDiff ℝ 1 (pdy (pdy B.u)) := contDiff_pdy c1 (by norm_num [one_add_one_eq_two])
  have c3 : ContDiff ℝ 0 (pdy (pdy (pdy B.u))) := contDiff_pdy c2 (by norm_num)
  have f1 : ContDiff ℝ 1 (pdy B.flux) := contDiff_pdy hB.contDiff_flux (by norm_num [one_add_one_eq_two])
  have f2 : ContDiff ℝ 0 (pdy (pdy B.flux)) := contDiff_pdy f1 (by norm_num)
  obtain ⟨W1, W10, hW1⟩ := exists_bound c1.continuous 0 (π / 2) 0 B.top
  obtain ⟨W3, W30, hW3⟩ := exists_bound c3.continuous 0 (π / 2) 0 B.top
  obtain ⟨F2, F20, hF2⟩ := exists_bound f2.continuous 0 (π / 2) 0 B.top
  have M0 : 0 ≤ M := by
    obtain ⟨q1, q2⟩ := hm 0 0 le_rfl (by simp) (by simp [hB.top0.le])
    linarith
  refine ⟨2 * (M * W3 + K * W1) + F2, by positivity, fun φ z d p1 p2 d0 z1 z2 => ?_⟩
  have half : ∀ y, 0 ≤ y - d / 2 → y + d / 2 ≤ B.top →
      |B.mesh y d * (B.u (φ, y + d / 2) - B.u (φ, y - d / 2)) - d * B.flux (φ, y)| ≤ (M * W3 + K * W1) * d ^ 3 := by
    intro y y1 y2
    have g1 := midpoint_le (x := y) (h := d / 2) (C := W3) (by linarith) (hasDerivAt_pdy hB.smoothU (by norm_num) φ)
      (hasDerivAt_pdy c1 (by norm_num) φ) (hasDerivAt_pdy c2 (by norm_num) φ)
      (fun x x1 x2 => hW3 φ x p1 p2 (by linarith) (by linarith))
    have g2 := hW1 φ y p1 p2 (by linarith) (by linarith)
    have k := hK y d d0 y1 y2
    obtain ⟨q1, q2⟩ := hm y d d0 y1 y2
    have e : B.mesh y d * (B.u (φ, y + d / 2) - B.u (φ, y - d / 2)) - d * B.flux (φ, y) =
        B.mesh y d * (B.u (φ, y + d / 2) - B.u (φ, y - d / 2) - 2 * (d / 2) * pdy B.u (φ, y)) +
        d * ((B.mesh y d - B.weight y) * pdy B.u (φ, y)) := by
      unfold flux
      ring
    rw [e]
    refine (abs_add_le _ _).trans ?_
    rw [abs_mul, abs_mul, abs_mul, abs_of_pos (by linarith : 0 < B.mesh y d), abs_of_nonneg d0]
    have i1 := mul_le_mul q2 g1 (abs_nonneg _) M0
    have i2 := mul_le_mul_of_nonneg_left (mul_le_mul k g2 (abs_nonneg _) ((abs_nonneg _).trans k)) d0
    calc _ ≤ M * (2 * W3 * (d / 2) ^ 3) + d * (K * d ^ 2 * W1) := add_le_add i1 i2
      _ = (M * W3 / 4 + K * W1) * d ^ 3 := by ring
      _ ≤ _ := mul_le_mul_of_nonneg_right (by nlinarith [mul_nonneg M0 W30]) (pow_nonneg d0 3)
  have h1 := half (z + d / 2) (by linarith) (by linarith)
  have h2 := half (z - d / 2) (by linarith) (by linarith)
  have g := midpoint_le₂ (x := z) (h := d / 2) (C := F2) (by linarith) (hasDerivAt_pdy hB.contDiff_flux (by norm_num) φ)
    (hasDerivAt_pdy f1 (by norm_num) φ) (fun x x1 x2 => hF2 φ x p1 p2 (by linarith) (by linarith))
  rw [show z + d / 2 + d / 2 = z + d by ring, show z + d / 2 - d / 2 = z by ring] at h1
  rw [show z - d / 2 + d / 2 = z by ring, show z - d / 2 - d / 2 = z - d by ring] at h2
  have g' := mul_le_mul_of_nonneg_left g d0
  have e : B.lift (fun y => B.u (φ, y)) z d - d ^ 2 * pdy B.flux (φ, z) =
      (B.mesh (z + d / 2) d * (B.u (φ, z + d) - B.u (φ, z)) - d * B.flux (φ, z + d / 2)) -
      (B.mesh (z - d / 2) d * (B.u (φ, z) - B.u (φ, z - d)) - d * B.flux (φ, z - d / 2)) +
      d * (B.flux (φ, z + d / 2) - B.flux (φ, z - d / 2) - 2 * (d / 2) * pdy B.flux (φ, z)) := by
    unfold lift
    ring
  rw [e]
  refine (abs_add_le _ _).trans ((add_le_add_left (abs_sub _ _) _).trans ?_)
  rw [abs_mul, abs_of_nonneg d0]
  have : d * (2 * F2 * (d / 2) ^ 2) ≤ F2 * d ^ 3 := by
    have := mul_nonneg F20 (pow_nonneg d0 3)
    nlinarith
  linarith

end Falwa.Spec.BalancedState
