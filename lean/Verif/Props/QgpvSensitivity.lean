import Verif.Props.VorticityError
import Verif.Lemmas.RotatePipeline

/-!
# C221, C222: QGPV of two analyses of the same flow
-/

noncomputable section

namespace Falwa

open Real

namespace QgpvIn

variable {I : QgpvIn} {u' v' θ' : ℤ → ℤ → ℤ → ℝ} {ε τ : ℝ} {i j k jd : ℤ}

/-- The same grid with other winds and temperatures. -/
def withFields (I : QgpvIn) (u' v' θ' : ℤ → ℤ → ℤ → ℝ) : QgpvIn := { I with u := u', v := v', theta := θ' }

theorem cos_row_pos (h1 : 2 ≤ j) (h2 : j ≤ I.nlat - 1) : 0 < cos (I.phi j) ∧ 0 < I.dphi := by
  have hN : (0 : ℝ) < ((I.nlat - 1 : ℤ) : ℝ) := by exact_mod_cast (by omega : 0 < I.nlat - 1)
  refine ⟨?_, div_pos pi_pos hN⟩
  have := cos_phi_ge (I := I) h1 h2
  by_contra hc
  have := mul_nonpos_of_nonpos_of_nonneg (not_lt.1 hc) hN.le
  linarith

theorem cos_rows (I : QgpvIn) (j : ℤ) : cos (I.phi (j + 1)) + cos (I.phi (j - 1)) = 2 * cos (I.phi j) * cos I.dphi := by
  have e1 : I.phi (j + 1) = I.phi j + I.dphi := by have := phi_step I j 1; push_cast at this; rw [this]; ring
  have e2 : I.phi (j - 1) = I.phi j - I.dphi := by
    have := phi_step I j (-1)
    push_cast at this
    rw [show j - 1 = j + -1 by ring, this]
    ring
  rw [e1, e2, cos_add, cos_sub]
  ring

theorem cos_row_nonneg (h1 : 1 ≤ j) (h2 : j ≤ I.nlat) (h3 : 3 ≤ I.nlat) : 0 ≤ cos (I.phi j) := by
  have hpi := pi_pos
  have hN : (0 : ℝ) < ((I.nlat - 1 : ℤ) : ℝ) := by exact_mod_cast (by omega : 0 < I.nlat - 1)
  have m0 : (0 : ℝ) ≤ ((j - 1 : ℤ) : ℝ) := by exact_mod_cast (by omega : 0 ≤ j - 1)
  have m1 : ((j - 1 : ℤ) : ℝ) ≤ ((I.nlat - 1 : ℤ) : ℝ) := by exact_mod_cast (by omega : j - 1 ≤ I.nlat - 1)
  have q1 : π * ((j - 1 : ℤ) : ℝ) / ((I.nlat - 1 : ℤ) : ℝ) ≤ π := by rw [div_le_iff₀ hN]; exact mul_le_mul_of_nonneg_left m1 hpi.le
  have q0 : 0 ≤ π * ((j - 1 : ℤ) : ℝ) / ((I.nlat - 1 : ℤ) : ℝ) := by positivity
  unfold phi
  exact cos_nonneg_of_mem_Icc ⟨by linarith, by linarith⟩

theorem inner_diff (ha : 0 < I.a) (hu : ∀ i j k, |u' i j k - I.u i j k| ≤ ε) (hv : ∀ i j k, |v' i j k - I.v i j k| ≤ ε) (h1 : 2 ≤ j) (h2 : j ≤ I.nlat - 1) (i k : ℤ) :
    |(I.withFields u' v' θ').inner i j k - I.inner i j k| ≤ ε / (I.a * I.dphi) * (1 / cos (I.phi j) + cos I.dphi) := by
  obtain ⟨k0, d0⟩ := cos_row_pos (I := I) h1 h2
  have dv' : |(I.withFields u' v' θ').dv i j k - I.dv i j k| ≤ 2 * ε := by
    have d : ∀ a b, |v' a j k - v' b j k - (I.v a j k - I.v b j k)| ≤ 2 * ε := fun a b => by
      have x := hv a j k
      have y := hv b j k
      rw [abs_le] at x y ⊢
      constructor <;> linarith [x.1, x.2, y.1, y.2]
    unfold dv withFields
    dsimp only
    split_ifs <;> exact d _ _
  have c1 := cos_row_nonneg (I := I) (j := j + 1) (by omega) (by omega) (by omega)
  have c2 := cos_row_nonneg (I := I) (j := j - 1) (by omega) (by omega) (by omega)
  have du' : |u' i (j + 1) k * cos (I.phi (j + 1)) - u' i (j - 1) k * cos (I.phi (j - 1)) -
      (I.u i (j + 1) k * cos (I.phi (j + 1)) - I.u i (j - 1) k * cos (I.phi (j - 1)))| ≤ ε * (2 * cos (I.phi j) * cos I.dphi) := by
    rw [← cos_rows I j, show u' i (j + 1) k * cos (I.phi (j + 1)) - u' i (j - 1) k * cos (I.phi (j - 1)) -
      (I.u i (j + 1) k * cos (I.phi (j + 1)) - I.u i (j - 1) k * cos (I.phi (j - 1))) =
      (u' i (j + 1) k - I.u i (j + 1) k) * cos (I.phi (j + 1)) - (u' i (j - 1) k - I.u i (j - 1) k) * cos (I.phi (j - 1)) by ring]
    refine (abs_sub _ _).trans ?_
    rw [abs_mul, abs_mul, abs_of_nonneg c1, abs_of_nonneg c2, mul_add]
    exact add_le_add (mul_le_mul_of_nonneg_right (hu _ _ _) c1) (mul_le_mul_of_nonneg_right (hu _ _ _) c2)
  have e : (I.withFields u' v' θ').inner i j k - I.inner i j k = ((I.withFields u' v' θ').dv i j k - I.dv i j k -
      (u' i (j + 1) k * cos (I.phi (j + 1)) - u' i (j - 1) k * cos (I.phi (j - 1)) -
      (I.u i (j + 1) k * cos (I.phi (j + 1)) - I.u i (j - 1) k * cos (I.phi (j - 1))))) / (2 * I.a * cos (I.phi j) * I.dphi) := by
    change I.cor j + (I.withFields u' v' θ').dv i j k / (2 * I.a * cos (I.phi j) * I.dphi) +
      -(u' i (j + 1) k * cos (I.phi (j + 1)) - u' i (j - 1) k * cos (I.phi (j - 1))) / (2 * I.a * cos (I.phi j) * I.dphi) - I.inner i j k = _
    unfold inner
    ring
  have r : ε / (I.a * I.dphi) * (1 / cos (I.phi j) + cos I.dphi) = (2 * ε + ε * (2 * cos (I.phi j) * cos I.dphi)) / (2 * I.a * cos (I.phi j) * I.dphi) := by
    field_simp
  rw [e, r, abs_div, abs_of_pos (by positivity : 0 < 2 * I.a * cos (I.phi j) * I.dphi)]
  exact div_le_div_of_nonneg_right ((abs_sub _ _).trans (add_le_add dv' du')) (by positivity)

/-- **C221 (vorticity).** If two wind fields differ by at most `ε`, their absolute vorticities differ between the poles by at most `ε / (a dphi)` times
`1 / cos φ + cos dphi`, and in the rows of the poles by at most what the neighbouring row allows. -/
theorem C221_vorticity (ha : 0 < I.a) (hu : ∀ i j k, |u' i j k - I.u i j k| ≤ ε) (hv : ∀ i j k, |v' i j k - I.v i j k| ≤ ε) (hn : 1 ≤ I.nlon) (hl : 3 ≤ I.nlat)
    (h1 : 1 ≤ j) (h2 : j ≤ I.nlat) (i k : ℤ) :
    |(I.withFields u' v' θ').avort i j k - I.avort i j k| ≤
      ε / (I.a * I.dphi) * (1 / cos (I.phi (if j = I.nlat then I.nlat - 1 else if j = 1 then 2 else j)) + cos I.dphi) := by
  have hn0 : (0 : ℝ) < (I.nlon : ℝ) := by exact_mod_cast (by omega : 0 < I.nlon)
  have mean : ∀ r, 2 ≤ r → r ≤ I.nlat - 1 → |(I.withFields u' v' θ').zmean (I.withFields u' v' θ').inner r k - I.zmean I.inner r k| ≤
      ε / (I.a * I.dphi) * (1 / cos (I.phi r) + cos I.dphi) := fun r r1 r2 => by
    have e1 : (I.withFields u' v' θ').zmean (I.withFields u' v' θ').inner r k = ∑ i ∈ Finset.Icc 1 I.nlon, (I.withFields u' v' θ').inner i r k / (I.nlon : ℝ) :=
      dosum_eq _ _ _
    have e2 : I.zmean I.inner r k = ∑ i ∈ Finset.Icc 1 I.nlon, I.inner i r k / (I.nlon : ℝ) := dosum_eq _ _ _
    rw [e1, e2, ← Finset.sum_div, ← Finset.sum_div, ← sub_div, ← Finset.sum_sub_distrib, abs_div, abs_of_pos hn0, div_le_iff₀ hn0]
    refine (Finset.abs_sum_le_sum_abs _ _).trans ((Finset.sum_le_sum fun i _ => inner_diff ha hu hv r1 r2 i k).trans (le_of_eq ?_))
    rw [Finset.sum_const, Int.card_Icc, nsmul_eq_mul, add_sub_cancel_right]
    have : ((I.nlon.toNat : ℕ) : ℝ) = (I.nlon : ℝ) := by exact_mod_cast Int.toNat_of_nonneg (by omega : 0 ≤ I.nlon)
    rw [this, mul_comm]
  change |(if j = I.nlat then (I.withFields u' v' θ').zmean (I.withFields u' v' θ').inner (I.nlat - 1) k else
    if j = 1 then (I.withFields u' v' θ').zmean (I.withFields u' v' θ').inner 2 k else (I.withFields u' v' θ').inner i j k) - I.avort i j k| ≤ _
  unfold avort
  by_cases c1 : j = I.nlat
  · simp only [if_pos c1]
    exact mean _ (by omega) le_rfl
  · by_cases c2 : j = 1
    · simp only [if_neg c1, if_pos c2]
      exact mean _ le_rfl (by omega)
    · simp only [if_neg c1, if_neg c2]
      exact inner_diff ha hu hv (by omega) (by omega) i k

/-- **C221 (sharpness).** At every column, every row between the poles and every level, fields that differ by `ε` can differ in vorticity by the whole of that bound. -/
theorem C221_sharp (I : QgpvIn) (hε : 0 ≤ ε) (h1 : 2 ≤ j) (h2 : j ≤ I.nlat - 1) (ha : 0 < I.a) (hn : 3 ≤ I.nlon) (i k : ℤ) :
    ∃ u' v' : ℤ → ℤ → ℤ → ℝ, (∀ i j k, |u' i j k - I.u i j k| ≤ ε) ∧ (∀ i j k, |v' i j k - I.v i j k| ≤ ε) ∧
      (I.withFields u' v' I.theta).avort i j k - I.avort i j k = ε / (I.a * I.dphi) * (1 / cos (I.phi j) + cos I.dphi) := by
  obtain ⟨k0, d0⟩ := cos_row_pos (I := I) h1 h2
  have s : ∀ (x : ℝ) (c : Prop) [Decidable c], |x + (if c then ε else -ε) - x| ≤ ε := fun x c _ => by
    rw [add_sub_cancel_left]
    split_ifs
    · rw [abs_of_nonneg hε]
    · rw [abs_neg, abs_of_nonneg hε]
  obtain ⟨e, w, hew, hdv⟩ : ∃ e w : ℤ, w ≠ e ∧ ∀ J : QgpvIn, J.nlon = I.nlon → J.dv i j k = J.v e j k - J.v w j k := by
    by_cases c1 : i = I.nlon
    · exact ⟨1, I.nlon - 1, by omega, fun J hJ => by unfold dv; rw [hJ, if_pos c1]⟩
    · by_cases c2 : i = 1
      · exact ⟨2, I.nlon, by omega, fun J hJ => by unfold dv; rw [hJ, if_neg c1, if_pos c2]⟩
      · exact ⟨i + 1, i - 1, by omega, fun J hJ => by unfold dv; rw [hJ, if_neg c1, if_neg c2]⟩
  refine ⟨fun a b c => I.u a b c + (if b = j - 1 then ε else -ε), fun a b c => I.v a b c + (if a = e then ε else -ε), fun a b c => s _ _, fun a b c => s _ _, ?_⟩
  have n1 : ¬ j = I.nlat := by omega
  have n2 : ¬ j = 1 := by omega
  have n5 : ¬ j + 1 = j - 1 := by omega
  have c := cos_rows I j
  unfold avort withFields
  simp only [if_neg n1, if_neg n2]
  unfold inner
  rw [hdv I rfl, hdv { I with u := fun a b c => I.u a b c + (if b = j - 1 then ε else -ε), v := fun a b c => I.v a b c + (if a = e then ε else -ε), theta := I.theta } rfl]
  simp only [if_neg n5, if_neg hew, if_true]
  change I.cor j + (I.v e j k + ε - (I.v w j k + -ε)) / (2 * I.a * cos (I.phi j) * I.dphi) +
    -((I.u i (j + 1) k + -ε) * cos (I.phi (j + 1)) - (I.u i (j - 1) k + ε) * cos (I.phi (j - 1))) / (2 * I.a * cos (I.phi j) * I.dphi) - _ = _
  have r : ε / (I.a * I.dphi) * (1 / cos (I.phi j) + cos I.dphi) = (2 * ε + ε * (2 * cos (I.phi j) * cos I.dphi)) / (2 * I.a * cos (I.phi j) * I.dphi) := by
    field_simp
  rw [r, ← c]
  ring

/-- The differences of `v` cancel around a circle of latitude. -/
theorem sum_dv (hn : 2 ≤ I.nlon) (j k : ℤ) : ∑ i ∈ Finset.Icc 1 I.nlon, I.dv i j k = 0 := by
  rw [Finset.sum_congr rfl fun i hi => I.dv_eq hn (Finset.mem_Icc.1 hi).1 (Finset.mem_Icc.1 hi).2 j k, Finset.sum_sub_distrib,
    sum_rot (n := I.nlon) 1 (fun i => I.v i j k), sum_rot (n := I.nlon) (-1) (fun i => I.v i j k), sub_self]

theorem zmean_inner (hn : 2 ≤ I.nlon) (j k : ℤ) : I.zmean I.inner j k = I.cor j -
    (∑ i ∈ Finset.Icc 1 I.nlon, (I.u i (j + 1) k * cos (I.phi (j + 1)) - I.u i (j - 1) k * cos (I.phi (j - 1)))) / (2 * I.a * cos (I.phi j) * I.dphi) / (I.nlon : ℝ) := by
  have hn0 : (I.nlon : ℝ) ≠ 0 := by exact_mod_cast (by omega : I.nlon ≠ 0)
  have e : I.zmean I.inner j k = ∑ i ∈ Finset.Icc 1 I.nlon, I.inner i j k / (I.nlon : ℝ) := dosum_eq _ _ _
  have c : ((I.nlon.toNat : ℕ) : ℝ) = (I.nlon : ℝ) := by exact_mod_cast Int.toNat_of_nonneg (by omega : 0 ≤ I.nlon)
  rw [e, ← Finset.sum_div]
  unfold inner
  rw [Finset.sum_add_distrib, Finset.sum_add_distrib, ← Finset.sum_div, ← Finset.sum_div, sum_dv hn, Finset.sum_const, Int.card_Icc, nsmul_eq_mul, add_sub_cancel_right, c, zero_div,
    add_zero, Finset.sum_neg_distrib, neg_div, ← sub_eq_add_neg, sub_div, mul_div_cancel_left₀ _ hn0]

/-- **C221 (poles).** In the rows of the poles the wind `v` has no influence, the change is at most `ε cos dphi / (a dphi)`, and it is as large as this for a wind that changes by `ε` and `-ε` in the rows
on either side of the neighbour. -/
theorem C221_poles (ha : 0 < I.a) (hε : 0 ≤ ε) (hn : 2 ≤ I.nlon) (hl : 3 ≤ I.nlat) (hj : j = 1 ∨ j = I.nlat) (i k : ℤ) :
    (∀ u' v' : ℤ → ℤ → ℤ → ℝ, (∀ i j k, |u' i j k - I.u i j k| ≤ ε) → |(I.withFields u' v' θ').avort i j k - I.avort i j k| ≤ ε * cos I.dphi / (I.a * I.dphi)) ∧
      ∃ u' : ℤ → ℤ → ℤ → ℝ, (∀ i j k, |u' i j k - I.u i j k| ≤ ε) ∧ (I.withFields u' I.v θ').avort i j k - I.avort i j k = ε * cos I.dphi / (I.a * I.dphi) := by
  have hn0 : (0 : ℝ) < (I.nlon : ℝ) := by exact_mod_cast (by omega : 0 < I.nlon)
  have c : ((I.nlon.toNat : ℕ) : ℝ) = (I.nlon : ℝ) := by exact_mod_cast Int.toNat_of_nonneg (by omega : 0 ≤ I.nlon)
  obtain ⟨r, r1, r2, hr⟩ : ∃ r, 2 ≤ r ∧ r ≤ I.nlat - 1 ∧ ∀ J : QgpvIn, J.nlat = I.nlat → J.avort i j k = J.zmean J.inner r k := by
    by_cases c1 : j = I.nlat
    · exact ⟨I.nlat - 1, by omega, le_rfl, fun J hJ => by unfold avort; rw [hJ, if_pos c1]⟩
    · exact ⟨2, le_rfl, by omega, fun J hJ => by unfold avort; rw [hJ, if_neg c1, if_pos (by tauto)]⟩
  obtain ⟨k0, d0⟩ := cos_row_pos (I := I) r1 r2
  have c1 := cos_row_nonneg (I := I) (j := r + 1) (by omega) (by omega) (by omega)
  have c2 := cos_row_nonneg (I := I) (j := r - 1) (by omega) (by omega) (by omega)
  have diff : ∀ u' v' : ℤ → ℤ → ℤ → ℝ, (I.withFields u' v' θ').avort i j k - I.avort i j k = -(∑ i ∈ Finset.Icc 1 I.nlon,
      ((u' i (r + 1) k - I.u i (r + 1) k) * cos (I.phi (r + 1)) - (u' i (r - 1) k - I.u i (r - 1) k) * cos (I.phi (r - 1)))) / (2 * I.a * cos (I.phi r) * I.dphi) / (I.nlon : ℝ) := fun u' v' => by
    rw [hr (I.withFields u' v' θ') rfl, hr I rfl, zmean_inner hn, zmean_inner (I := I.withFields u' v' θ') hn]
    change I.cor r - (∑ i ∈ Finset.Icc 1 I.nlon, (u' i (r + 1) k * cos (I.phi (r + 1)) - u' i (r - 1) k * cos (I.phi (r - 1)))) / (2 * I.a * cos (I.phi r) * I.dphi) / (I.nlon : ℝ) - _ = _
    have e : ∑ i ∈ Finset.Icc 1 I.nlon, ((u' i (r + 1) k - I.u i (r + 1) k) * cos (I.phi (r + 1)) - (u' i (r - 1) k - I.u i (r - 1) k) * cos (I.phi (r - 1))) =
        ∑ i ∈ Finset.Icc 1 I.nlon, (u' i (r + 1) k * cos (I.phi (r + 1)) - u' i (r - 1) k * cos (I.phi (r - 1))) -
          ∑ i ∈ Finset.Icc 1 I.nlon, (I.u i (r + 1) k * cos (I.phi (r + 1)) - I.u i (r - 1) k * cos (I.phi (r - 1))) := by
      rw [← Finset.sum_sub_distrib]
      exact Finset.sum_congr rfl fun i _ => by ring
    rw [e]
    ring
  have b : ε * cos I.dphi / (I.a * I.dphi) = (I.nlon : ℝ) * (ε * (2 * cos (I.phi r) * cos I.dphi)) / (2 * I.a * cos (I.phi r) * I.dphi) / (I.nlon : ℝ) := by
    field_simp
  constructor
  · intro u' v' hu
    rw [diff, b, abs_div, abs_div, abs_neg, abs_of_pos hn0, abs_of_pos (by positivity : 0 < 2 * I.a * cos (I.phi r) * I.dphi)]
    refine div_le_div_of_nonneg_right (div_le_div_of_nonneg_right ((Finset.abs_sum_le_sum_abs _ _).trans ?_) (by positivity)) hn0.le
    rw [← c, ← nsmul_eq_mul, ← cos_rows I r]
    have card : (Finset.Icc 1 I.nlon).card = I.nlon.toNat := by rw [Int.card_Icc, add_sub_cancel_right]
    rw [← card]
    refine Finset.sum_le_card_nsmul _ _ _ fun i _ => (abs_sub _ _).trans ?_
    rw [abs_mul, abs_mul, abs_of_nonneg c1, abs_of_nonneg c2, mul_add]
    exact add_le_add (mul_le_mul_of_nonneg_right (hu _ _ _) c1) (mul_le_mul_of_nonneg_right (hu _ _ _) c2)
  · refine ⟨fun a b c => I.u a b c + (if b = r - 1 then ε else -ε), fun a b c => ?_, ?_⟩
    · dsimp only
      rw [add_sub_cancel_left]
      split_ifs
      · rw [abs_of_nonneg hε]
      · rw [abs_neg, abs_of_nonneg hε]
    · rw [diff, b, ← cos_rows I r]
      have n5 : ¬ r + 1 = r - 1 := by omega
      simp only [if_neg n5, if_true, add_sub_cancel_left]
      rw [Finset.sum_const, Int.card_Icc, nsmul_eq_mul, add_sub_cancel_right, c]
      ring

/-- **C221 (QGPV).** If also the potential temperatures differ by at most `τ`, the QGPV of the direct inversion differs by at most that of the vorticity and a multiple of `τ` that
falls with the stability and the spacing of the levels. The reference state is the same for both. -/
theorem C221_qgpv (ha : 0 < I.a) (hu : ∀ i j k, |u' i j k - I.u i j k| ≤ ε) (hv : ∀ i j k, |v' i j k - I.v i j k| ≤ ε) (ht : ∀ i j k, |θ' i j k - I.theta i j k| ≤ τ)
    (hn : 1 ≤ I.nlon) (hl : 3 ≤ I.nlat) (h1 : 1 ≤ j) (h2 : j ≤ I.nlat) (ts0 tn0 stats statn : ℤ → ℝ) (jd i : ℤ) (hk1 : 2 ≤ k) (hk2 : k ≤ I.kmax - 1) :
    |(I.withFields u' v' θ').pv22 jd ts0 tn0 stats statn i j k - I.pv22 jd ts0 tn0 stats statn i j k| ≤
      ε / (I.a * I.dphi) * (1 / cos (I.phi (if j = I.nlat then I.nlat - 1 else if j = 1 then 2 else j)) + cos I.dphi) +
        exp (I.height k / I.h) * (τ * (exp (-I.height (k + 1) / I.h) / |(if j ≤ jd then stats else statn) (k + 1)| +
          exp (-I.height (k - 1) / I.h) / |(if j ≤ jd then stats else statn) (k - 1)|) * |2 * I.om * sin (I.phi j)| / |I.height (k + 1) - I.height (k - 1)|) := by
  have a := C221_vorticity (θ' := θ') ha hu hv hn hl h1 h2 i k
  have alt' : ∀ (t0 stat : ℤ → ℝ) (m : ℤ), |(I.withFields u' v' θ').alt t0 stat i j m - I.alt t0 stat i j m| ≤ τ * (exp (-I.height m / I.h) / |stat m|) := fun t0 stat m => by
    change |exp (-I.height m / I.h) * (θ' i j m - t0 m) / stat m - exp (-I.height m / I.h) * (I.theta i j m - t0 m) / stat m| ≤ _
    rw [← sub_div, ← mul_sub, sub_sub_sub_cancel_right, abs_div, abs_mul, abs_of_pos (exp_pos _), ← mul_div_assoc, mul_comm τ]
    exact div_le_div_of_nonneg_right (mul_le_mul_of_nonneg_left (ht i j m) (exp_pos _).le) (abs_nonneg _)
  have st : ∀ t0 stat : ℤ → ℝ, |(I.withFields u' v' θ').stretch t0 stat ((I.withFields u' v' θ').cor j) i j k - I.stretch t0 stat (I.cor j) i j k| ≤
      exp (I.height k / I.h) * (τ * (exp (-I.height (k + 1) / I.h) / |stat (k + 1)| + exp (-I.height (k - 1) / I.h) / |stat (k - 1)|) * |2 * I.om * sin (I.phi j)| /
        |I.height (k + 1) - I.height (k - 1)|) := fun t0 stat => by
    have x := alt' t0 stat (k + 1)
    have y := alt' t0 stat (k - 1)
    set A := (I.withFields u' v' θ').alt t0 stat i j (k + 1) with hA
    set B := (I.withFields u' v' θ').alt t0 stat i j (k - 1) with hB
    have e : (I.withFields u' v' θ').stretch t0 stat ((I.withFields u' v' θ').cor j) i j k - I.stretch t0 stat (I.cor j) i j k =
        exp (I.height k / I.h) * ((A - I.alt t0 stat i j (k + 1) - (B - I.alt t0 stat i j (k - 1))) * (2 * I.om * sin (I.phi j)) / (I.height (k + 1) - I.height (k - 1))) := by
      change exp (I.height k / I.h) * ((A - B) * (2 * I.om * sin (I.phi j)) / (I.height (k + 1) - I.height (k - 1))) -
        exp (I.height k / I.h) * ((I.alt t0 stat i j (k + 1) - I.alt t0 stat i j (k - 1)) * (2 * I.om * sin (I.phi j)) / (I.height (k + 1) - I.height (k - 1))) = _
      ring
    rw [e, abs_mul, abs_of_pos (exp_pos _), abs_div, abs_mul]
    refine mul_le_mul_of_nonneg_left (div_le_div_of_nonneg_right (mul_le_mul_of_nonneg_right ?_ (abs_nonneg _)) (abs_nonneg _)) (exp_pos _).le
    rw [mul_add]
    exact (abs_sub _ _).trans (add_le_add x y)
  have hk : 2 ≤ k ∧ k ≤ I.kmax - 1 := ⟨hk1, hk2⟩
  have pv : ∀ J : QgpvIn, J.kmax = I.kmax → J.pv22 jd ts0 tn0 stats statn i j k =
      J.avort i j k + J.stretch (if j ≤ jd then ts0 else tn0) (if j ≤ jd then stats else statn) (J.cor j) i j k := fun J hJ => by
    unfold pv22
    rw [hJ, if_pos hk]
    split_ifs <;> rfl
  rw [pv (I.withFields u' v' θ') rfl, pv I rfl, add_sub_add_comm]
  exact (abs_add_le _ _).trans (add_le_add a (st _ _))

/-- **C222.** The QGPV of `compute_qgpv`, whose stretching term has the zonal-mean vorticity `M` as a factor: to the change `E` of the vorticity comes the change of a product, of `M` by at most
`E` and of the difference `A` of the scaled temperatures by at most `D`. -/
theorem C222_qgpv (ha : 0 < I.a) (hu : ∀ i j k, |u' i j k - I.u i j k| ≤ ε) (hv : ∀ i j k, |v' i j k - I.v i j k| ≤ ε) (ht : ∀ i j k, |θ' i j k - I.theta i j k| ≤ τ)
    (hn : 1 ≤ I.nlon) (hl : 3 ≤ I.nlat) (h1 : 1 ≤ j) (h2 : j ≤ I.nlat) (t0 stat : ℤ → ℝ) (i : ℤ) (hk1 : 2 ≤ k) (hk2 : k ≤ I.kmax - 1) {E D M A : ℝ}
    (hE : E = ε / (I.a * I.dphi) * (1 / cos (I.phi (if j = I.nlat then I.nlat - 1 else if j = 1 then 2 else j)) + cos I.dphi))
    (hD : D = τ * (exp (-I.height (k + 1) / I.h) / |stat (k + 1)| + exp (-I.height (k - 1) / I.h) / |stat (k - 1)|))
    (hM : M = (∑ i ∈ Finset.Icc 1 I.nlon, I.avort i j k) / (I.nlon : ℝ))
    (hA : A = exp (-I.height (k + 1) / I.h) * (I.theta i j (k + 1) - t0 (k + 1)) / stat (k + 1) -
      exp (-I.height (k - 1) / I.h) * (I.theta i j (k - 1) - t0 (k - 1)) / stat (k - 1)) :
    |(I.withFields u' v' θ').pv18 t0 stat i j k - I.pv18 t0 stat i j k| ≤
      E + exp (I.height k / I.h) * (|M| * D + E * (|A| + D)) / |I.height (k + 1) - I.height (k - 1)| := by
  have hn0 : (0 : ℝ) < (I.nlon : ℝ) := by exact_mod_cast (by omega : 0 < I.nlon)
  have av : ∀ i, |(I.withFields u' v' θ').avort i j k - I.avort i j k| ≤ E := fun i => hE ▸ C221_vorticity (θ' := θ') ha hu hv hn hl h1 h2 i k
  have E0 : 0 ≤ E := (abs_nonneg _).trans (av 1)
  have alt' : ∀ m : ℤ, |(I.withFields u' v' θ').alt t0 stat i j m - I.alt t0 stat i j m| ≤ τ * (exp (-I.height m / I.h) / |stat m|) := fun m => by
    change |exp (-I.height m / I.h) * (θ' i j m - t0 m) / stat m - exp (-I.height m / I.h) * (I.theta i j m - t0 m) / stat m| ≤ _
    rw [← sub_div, ← mul_sub, sub_sub_sub_cancel_right, abs_div, abs_mul, abs_of_pos (exp_pos _), ← mul_div_assoc, mul_comm τ]
    exact div_le_div_of_nonneg_right (mul_le_mul_of_nonneg_left (ht i j m) (exp_pos _).le) (abs_nonneg _)
  obtain ⟨M', hM'⟩ : ∃ M', M' = (I.withFields u' v' θ').zmean (I.withFields u' v' θ').avort j k := ⟨_, rfl⟩
  obtain ⟨A', hA'⟩ : ∃ A', A' = (I.withFields u' v' θ').alt t0 stat i j (k + 1) - (I.withFields u' v' θ').alt t0 stat i j (k - 1) := ⟨_, rfl⟩
  have eM : I.zmean I.avort j k = M := by
    rw [hM, Finset.sum_div]
    exact dosum_eq _ _ _
  have eA : I.alt t0 stat i j (k + 1) - I.alt t0 stat i j (k - 1) = A := hA.symm
  have dM : |M' - M| ≤ E := by
    have e1 : M' = ∑ i ∈ Finset.Icc 1 I.nlon, (I.withFields u' v' θ').avort i j k / (I.nlon : ℝ) := hM'.trans (dosum_eq _ _ _)
    rw [e1, hM, ← Finset.sum_div, ← sub_div, ← Finset.sum_sub_distrib, abs_div, abs_of_pos hn0, div_le_iff₀ hn0]
    refine (Finset.abs_sum_le_sum_abs _ _).trans ((Finset.sum_le_sum fun i _ => av i).trans (le_of_eq ?_))
    rw [Finset.sum_const, Int.card_Icc, nsmul_eq_mul, add_sub_cancel_right]
    have : ((I.nlon.toNat : ℕ) : ℝ) = (I.nlon : ℝ) := by exact_mod_cast Int.toNat_of_nonneg (by omega : 0 ≤ I.nlon)
    rw [this, mul_comm]
  have dA : |A' - A| ≤ D := by
    rw [hA', ← eA, sub_sub_sub_comm, hD, mul_add]
    exact (abs_sub _ _).trans (add_le_add (alt' _) (alt' _))
  have hk : 2 ≤ k ∧ k ≤ I.kmax - 1 := ⟨hk1, hk2⟩
  have p1 : (I.withFields u' v' θ').pv18 t0 stat i j k =
      (I.withFields u' v' θ').avort i j k + exp (I.height k / I.h) * (A' * M' / (I.height (k + 1) - I.height (k - 1))) := by
    rw [hA', hM']
    exact if_pos hk
  have p2 : I.pv18 t0 stat i j k = I.avort i j k + exp (I.height k / I.h) * (A * M / (I.height (k + 1) - I.height (k - 1))) := by
    rw [← eA, ← eM]
    exact if_pos hk
  rw [p1, p2, add_sub_add_comm, ← mul_sub, ← sub_div]
  refine (abs_add_le _ _).trans (add_le_add (av i) ?_)
  rw [abs_mul, abs_of_pos (exp_pos _), abs_div, mul_div_assoc]
  refine mul_le_mul_of_nonneg_left (div_le_div_of_nonneg_right ?_ (abs_nonneg _)) (exp_pos _).le
  have aA : |A'| ≤ |A| + D := by
    have := abs_add_le A (A' - A)
    rw [add_sub_cancel] at this
    linarith
  rw [show A' * M' - A * M = M * (A' - A) + (M' - M) * A' by ring]
  refine (abs_add_le _ _).trans ?_
  rw [abs_mul, abs_mul]
  exact add_le_add (mul_le_mul_of_nonneg_left dA (abs_nonneg _)) (mul_le_mul dM aA (abs_nonneg _) E0)

/-- The wave `wavy` of single precision and the smooth wind from which it comes. -/
example : 0 < wavy.a ∧ (∀ i j k, |(fun i j _ : ℤ => 10 * cos (earth.phi j) * sin (((i - 1 : ℤ) : ℝ) * earth.dphi)) i j k - wavy.u i j k| ≤ 10 * (1 / 2) ^ 24) ∧
    1 ≤ wavy.nlon ∧ 3 ≤ wavy.nlat := by
  have r : RelativeError ((1 / 2) ^ 24) (roundBits (K := ℝ) 23) := relativeError_roundBits (K := ℝ) 23
  refine ⟨by norm_num [wavy], fun i j k => ?_, by norm_num [wavy], by norm_num [wavy]⟩
  rw [abs_sub_comm]
  refine (r _).trans ?_
  have s : |10 * cos (earth.phi j) * sin (((i - 1 : ℤ) : ℝ) * earth.dphi)| ≤ 10 := by
    rw [abs_mul, abs_mul, abs_of_pos (by norm_num : (0 : ℝ) < 10)]
    have := mul_le_mul (abs_cos_le_one (earth.phi j)) (abs_sin_le_one (((i - 1 : ℤ) : ℝ) * earth.dphi)) (abs_nonneg _) zero_le_one
    linarith
  nlinarith

/-- Winds off by 2 m/s and temperatures off by half a kelvin. -/
example (ts0 tn0 stats statn : ℤ → ℝ) :=
  C221_qgpv (I := wavy) (u' := fun i j k => wavy.u i j k + 2) (v' := fun i j k => wavy.v i j k - 2) (θ' := fun i j k => wavy.theta i j k + 1 / 2) (ε := 2) (τ := 1 / 2)
    (j := 100) (k := 5) (by norm_num [wavy]) (fun i j k => by rw [add_sub_cancel_left, abs_of_pos two_pos])
    (fun i j k => by rw [sub_sub_cancel_left, abs_neg, abs_of_pos two_pos]) (fun i j k => by rw [add_sub_cancel_left, abs_of_pos (by norm_num)]) (by norm_num [wavy])
    (by norm_num [wavy]) (by norm_num) (by norm_num [wavy]) ts0 tn0 stats statn 91 7 (by norm_num) (by norm_num [wavy])

example (t0 stat : ℤ → ℝ) :=
  C222_qgpv (I := wavy) (u' := fun i j k => wavy.u i j k + 2) (v' := fun i j k => wavy.v i j k - 2) (θ' := fun i j k => wavy.theta i j k + 1 / 2) (ε := 2) (τ := 1 / 2)
    (j := 1) (k := 5) (by norm_num [wavy]) (fun i j k => by rw [add_sub_cancel_left, abs_of_pos two_pos])
    (fun i j k => by rw [sub_sub_cancel_left, abs_neg, abs_of_pos two_pos]) (fun i j k => by rw [add_sub_cancel_left, abs_of_pos (by norm_num)]) (by norm_num [wavy])
    (by norm_num [wavy]) (by norm_num) (by norm_num [wavy]) t0 stat 7 (by norm_num) (by norm_num [wavy]) rfl rfl rfl rfl

example := C221_poles (I := wavy) (θ' := wavy.theta) (ε := 1) (j := 1) (by norm_num [wavy]) zero_le_one (by norm_num [wavy]) (by norm_num [wavy]) (Or.inl rfl) 7 3

example := C221_sharp wavy (ε := 1) (j := 100) zero_le_one (by norm_num) (by norm_num [wavy]) (by norm_num [wavy]) (by norm_num [wavy]) 1 3

end QgpvIn

end Falwa

end
