import Verif.Props.Qgpv18Rounding

/-!
# C217: QGPV of the pole rows in single precision
-/

noncomputable section

namespace Falwa

open Real

namespace QgpvIn

variable {I : QgpvIn} {fl : ℝ → ℝ} {u p W : ℝ} {sn cs ex ey : ℤ → ℝ} {i j k jd : ℤ}

/-- The row next to a pole row. -/
def beside (I : QgpvIn) (j : ℤ) : ℤ := if j = I.nlat then I.nlat - 1 else 2

theorem pole_near (h : I.Computed u fl p sn cs ex ey) (hU : ∀ i j k, |I.u i j k| ≤ W) (hV : ∀ i j k, |I.v i j k| ≤ W) (hn : 1 ≤ I.nlon) (hl : 3 ≤ I.nlat)
    (hj : j = 1 ∨ j = I.nlat) (i k : ℤ) :
    Near ((1 + 72 * u) * (1 + u) ^ (I.nlon.toNat + 1)) (2 * |I.om| + 2 * W / (I.a * cos (I.phi (I.beside j)) ^ 2 * I.dphi)) (I.flAvort fl p sn cs i j k)
      (I.avort i j k) := by
  rcases hj with rfl | rfl
  · have e : ¬ (1 : ℤ) = I.nlat := by omega
    unfold flAvort avort beside
    rw [if_neg e, if_neg e, if_neg e, if_pos rfl, if_pos rfl]
    exact ⟨pole_error h hU hV hn (by omega) (by omega) k, inner_size h hU hV hn (by omega) (by omega)⟩
  · unfold flAvort avort beside
    rw [if_pos rfl, if_pos rfl, if_pos rfl]
    exact ⟨pole_error h hU hV hn (by omega) (by omega) k, inner_size h hU hV hn (by omega) (by omega)⟩

theorem levels (hz : ∀ k, 1 ≤ k → k < I.kmax → I.height k < I.height (k + 1)) (hk1 : 2 ≤ k) (hk2 : k ≤ I.kmax - 1) : I.height (k - 1) < I.height (k + 1) := by
  have z1 := hz (k - 1) (by omega) (by omega)
  rw [sub_add_cancel] at z1
  exact z1.trans (hz k (by omega) (by omega))

/-- **C217 (direct inversion).** The QGPV of `compute_qgpv_direct_inv` in the rows of the poles: the vorticity is the mean of the neighbouring row, so the sum over the
columns costs one relative error each. -/
theorem C217_direct (h : I.Computed u fl p sn cs ex ey) (hU : ∀ i j k, |I.u i j k| ≤ W) (hV : ∀ i j k, |I.v i j k| ≤ W) (hn : 1 ≤ I.nlon) (hl : 3 ≤ I.nlat)
    (hj : j = 1 ∨ j = I.nlat) (hz : ∀ k, 1 ≤ k → k < I.kmax → I.height k < I.height (k + 1)) (ts0 tn0 stats statn : ℤ → ℝ) (jd i : ℤ) (hk1 : 2 ≤ k)
    (hk2 : k ≤ I.kmax - 1) :
    |I.flPv22 fl p sn cs ex ey jd ts0 tn0 stats statn i j k - I.pv22 jd ts0 tn0 stats statn i j k| ≤
      ((1 + 88 * u) * (1 + u) ^ (I.nlon.toNat + 2) - 1) * (2 * |I.om| + 2 * W / (I.a * cos (I.phi (if j = I.nlat then I.nlat - 1 else 2)) ^ 2 * I.dphi) +
        exp (I.height k / I.h) * ((|I.alt (if j ≤ jd then ts0 else tn0) (if j ≤ jd then stats else statn) i j (k + 1)| +
          |I.alt (if j ≤ jd then ts0 else tn0) (if j ≤ jd then stats else statn) i j (k - 1)|) * (2 * |I.om|) / (I.height (k + 1) - I.height (k - 1)))) := by
  have hu := h.unit (j := 2) le_rfl (by omega)
  have n0 := h.nonneg
  have z := levels hz hk1 hk2
  have pw : (1 : ℝ) ≤ (1 + u) ^ (I.nlon.toNat + 1) := one_le_pow₀ (by linarith)
  have a := (pole_near h hU hV hn hl hj i k).mono (r' := (1 + 88 * u) * (1 + u) ^ (I.nlon.toNat + 1)) (mul_le_mul_of_nonneg_right (by linarith) (by linarith))
  have s : ∀ t0 stat, Near ((1 + 88 * u) * (1 + u) ^ (I.nlon.toNat + 1)) (I.stretchSize t0 stat i j k) (I.flStretch fl sn ex ey t0 stat i j k)
      (I.stretch t0 stat (I.cor j) i j k) := fun t0 stat =>
    (stretch_near h hu (by omega) (by omega) z t0 stat i).toNear.mono (le_mul_of_one_le_right (by linarith) pw)
  unfold flPv22 pv22
  have hk : 2 ≤ k ∧ k ≤ I.kmax - 1 := ⟨hk1, hk2⟩
  rw [if_pos hk, if_pos hk, show I.nlon.toNat + 2 = I.nlon.toNat + 1 + 1 by ring, pow_succ, ← mul_assoc]
  by_cases hjd : j ≤ jd
  · simp only [if_pos hjd]
    exact ((a.add (s ts0 stats)).fl h.rel n0).1
  · simp only [if_neg hjd]
    exact ((a.add (s tn0 statn)).fl h.rel n0).1

theorem mean_near {r X : ℝ} {A B : ℤ → ℝ} (hr : RelativeError u fl) (n0 : 0 ≤ u) (h0 : 0 ≤ r) (hn : 1 ≤ I.nlon) (h : ∀ i, Near r X (A i) (B i)) :
    Near (r * (1 + u) ^ (I.nlon.toNat + 1)) X (doLoop 1 I.nlon (fun i s => fl (s + fl (A i / (I.nlon : ℝ)))) 0) (dosum 1 I.nlon fun i => B i / (I.nlon : ℝ)) := by
  have hn0 : (0 : ℝ) < (I.nlon : ℝ) := by exact_mod_cast (by omega : 0 < I.nlon)
  have t : ∀ i, Near (r * (1 + u)) (X / I.nlon) (fl (A i / (I.nlon : ℝ))) (B i / (I.nlon : ℝ)) := fun i => by
    refine Near.fl hr n0 ⟨?_, ?_⟩
    · rw [← sub_div, abs_div, abs_of_pos hn0, ← mul_div_assoc]
      exact div_le_div_of_nonneg_right (h i).1 hn0.le
    · rw [abs_div, abs_of_pos hn0]
      exact div_le_div_of_nonneg_right (h i).2 hn0.le
  have key := Near.loop (lo := 1) (hi := I.nlon) (by omega) (f := fun i s => fl (s + fl (A i / (I.nlon : ℝ)))) (fun s : ℝ => s)
    (fun i => B i / (I.nlon : ℝ)) (fun _ => X / I.nlon) (r * (1 + u)) (by linarith : (1 : ℝ) ≤ 1 + u) (by positivity)
    (fun i s r A S _ _ hr' hs => (hs.add ((t i).mono hr')).fl hr n0) (le_refl _) (Near.zero (r * (1 + u)))
  rw [zero_add, zero_add, Finset.sum_const, Int.card_Icc, nsmul_eq_mul, add_sub_cancel_right] at key
  have e1 : ((I.nlon.toNat : ℕ) : ℝ) * (X / I.nlon) = X := by
    have : ((I.nlon.toNat : ℕ) : ℝ) = (I.nlon : ℝ) := by exact_mod_cast Int.toNat_of_nonneg (by omega : 0 ≤ I.nlon)
    rw [this]
    field_simp
  rw [e1, mul_assoc, ← pow_succ'] at key
  rw [dosum_eq]
  exact key

/-- **C217 (NH18).** The QGPV of `compute_qgpv` in the rows of the poles: the mean of the neighbouring row is averaged once more for the stretching term, so each column
costs two relative errors. -/
theorem C217_nh18 (h : I.Computed u fl p sn cs ex ey) (hU : ∀ i j k, |I.u i j k| ≤ W) (hV : ∀ i j k, |I.v i j k| ≤ W) (hn : 1 ≤ I.nlon) (hl : 3 ≤ I.nlat)
    (hj : j = 1 ∨ j = I.nlat) (hz : ∀ k, 1 ≤ k → k < I.kmax → I.height k < I.height (k + 1)) (t0 stat : ℤ → ℝ) (i : ℤ) (hk1 : 2 ≤ k) (hk2 : k ≤ I.kmax - 1) :
    |I.flPv18 fl p sn cs ex ey t0 stat i j k - I.pv18 t0 stat i j k| ≤
      ((1 + 72 * u) * (1 + 21 * u) * (1 + 16 * u) * (1 + 2 * u) * (1 + u) ^ (2 * I.nlon.toNat + 7) - 1) *
        ((2 * |I.om| + 2 * W / (I.a * cos (I.phi (if j = I.nlat then I.nlat - 1 else 2)) ^ 2 * I.dphi)) *
          (1 + exp (I.height k / I.h) * ((|I.alt t0 stat i j (k + 1)| + |I.alt t0 stat i j (k - 1)|) / (I.height (k + 1) - I.height (k - 1))))) := by
  have hu := h.unit (j := 2) le_rfl (by omega)
  have n0 := h.nonneg
  have dz : 0 < I.height (k + 1) - I.height (k - 1) := sub_pos.2 (levels hz hk1 hk2)
  have a := fun i => pole_near h hU hV hn hl hj i k
  unfold beside at a
  unfold flPv18 pv18 stretch flZmav zmean
  have hk : 2 ≤ k ∧ k ≤ I.kmax - 1 := ⟨hk1, hk2⟩
  rw [if_pos hk, if_pos hk]
  set X := 2 * |I.om| + 2 * W / (I.a * cos (I.phi (if j = I.nlat then I.nlat - 1 else 2)) ^ 2 * I.dphi) with hX
  set n := I.nlon.toNat with hnn
  have zn := mean_near (I := I) h.rel n0 (by positivity) hn a
  rw [← hnn] at zn
  have b1 := ((alt_near h hu t0 stat i j (k + 1)).sub (alt_near h hu t0 stat i j (k - 1))).toNear.fl h.rel n0
  have g1 : (1 : ℝ) ≤ (1 + 21 * u) * (1 + u) := one_le_mul_of_one_le_of_one_le (by linarith) (by linarith)
  have b2 := (Near.mul g1 b1 zn).fl h.rel n0
  have hd : |fl (I.height (k + 1) - I.height (k - 1)) - (I.height (k + 1) - I.height (k - 1))| ≤ u * (I.height (k + 1) - I.height (k - 1)) := by
    have := h.rel (I.height (k + 1) - I.height (k - 1))
    rwa [abs_of_pos dz] at this
  have b3 := (b2.divComputed dz n0 hu hd).fl h.rel n0
  have c1 : Near (1 + 16 * u) (exp (I.height k / I.h)) (ey k) (exp (I.height k / I.h)) := ⟨by rw [add_sub_cancel_left]; exact h.growth k, by rw [abs_of_pos (exp_pos _)]⟩
  have b4 := (Near.mul (by linarith : (1 : ℝ) ≤ 1 + 16 * u) c1 b3).fl h.rel n0
  have a' := (a i).mono (r' := (1 + 72 * u) * (1 + 21 * u) * (1 + 16 * u) * (1 + 2 * u) * (1 + u) ^ (2 * n + 6)) (by
    have q : (1 : ℝ) ≤ (1 + 21 * u) * (1 + 16 * u) * (1 + 2 * u) * (1 + u) ^ (n + 5) :=
      one_le_mul_of_one_le_of_one_le (one_le_mul_of_one_le_of_one_le (one_le_mul_of_one_le_of_one_le (by linarith) (by linarith)) (by linarith))
        (one_le_pow₀ (by linarith))
    calc (1 + 72 * u) * (1 + u) ^ (n + 1) = (1 + 72 * u) * (1 + u) ^ (n + 1) * 1 := by ring
      _ ≤ (1 + 72 * u) * (1 + u) ^ (n + 1) * ((1 + 21 * u) * (1 + 16 * u) * (1 + 2 * u) * (1 + u) ^ (n + 5)) := mul_le_mul_of_nonneg_left q (by positivity)
      _ = _ := by ring)
  have b5 := b4.mono (r' := (1 + 72 * u) * (1 + 21 * u) * (1 + 16 * u) * (1 + 2 * u) * (1 + u) ^ (2 * n + 6)) (le_of_eq (by ring))
  have f := ((a'.add b5).fl h.rel n0).1
  refine f.trans (le_of_eq ?_)
  rw [show 2 * n + 7 = 2 * n + 6 + 1 by ring, pow_succ]
  ring

/-- The hypotheses hold for both pole rows of the one-degree grid of the Earth in single precision. -/
example : (earth.Computed ((1 / 2) ^ 24) (roundBits 23) (roundBits 23 π) (fun j => roundBits 23 (sin (earth.phi j))) (fun j => roundBits 23 (cos (earth.phi j)))
      (fun k => roundBits 23 (exp (-earth.height k / earth.h))) (fun k => roundBits 23 (exp (earth.height k / earth.h))) ∧
    (∀ i j k, |earth.u i j k| ≤ 10) ∧ (∀ i j k, |earth.v i j k| ≤ 10) ∧ (∀ k, 1 ≤ k → k < earth.kmax → earth.height k < earth.height (k + 1))) ∧
    1 ≤ earth.nlon ∧ 3 ≤ earth.nlat :=
  ⟨earth_computed, by norm_num [earth], by norm_num [earth]⟩

end QgpvIn

end Falwa

end
