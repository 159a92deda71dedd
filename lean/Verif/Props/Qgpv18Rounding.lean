import Verif.Props.QgpvRounding

/-!
# C215: QGPV of `compute_qgpv` in single precision
-/

noncomputable section

namespace Falwa

open Real

variable {r A x y u : ℝ}

theorem WithinSize.toNear {c X : ℝ} (h : WithinSize (c * u) X x y) : Near (1 + c * u) X x y := ⟨by rw [add_sub_cancel_left]; exact h.close, h.size⟩

/-- Division by a computed positive number. -/
theorem Near.divComputed {d B : ℝ} (h : Near r A x y) (hd : 0 < d) (h0 : 0 ≤ u) (hu : u ≤ 1 / 64) (hB : |B - d| ≤ u * d) : Near (r * (1 + 2 * u)) (A / d) (x / B) (y / d) := by
  have e : Near r (A / d) (x / d) (y / d) := by
    constructor
    · rw [← sub_div, abs_div, abs_of_pos hd, ← mul_div_assoc]
      exact div_le_div_of_nonneg_right h.1 hd.le
    · rw [abs_div, abs_of_pos hd]
      exact div_le_div_of_nonneg_right h.2 hd.le
  have b := abs_le.1 hB
  have hu' : u * d ≤ 1 / 64 * d := mul_le_mul_of_nonneg_right hu hd.le
  have hB0 : d / 2 ≤ B := by linarith [b.1]
  have hBp : 0 < B := by linarith
  refine e.step (by positivity) ?_
  have q : x / B - x / d = x / d * ((d - B) / B) := by field_simp
  rw [q, abs_mul, mul_comm]
  refine mul_le_mul_of_nonneg_right ?_ (abs_nonneg _)
  rw [abs_div, abs_of_pos hBp, div_le_iff₀ hBp, abs_sub_comm]
  refine hB.trans ?_
  have := mul_le_mul_of_nonneg_left hB0 h0
  linarith

namespace QgpvIn

variable {I : QgpvIn} {fl : ℝ → ℝ} {p W : ℝ} {sn cs ex ey : ℤ → ℝ} {i j k : ℤ}

theorem flZmav_eq (h1 : 2 ≤ j) (h2 : j ≤ I.nlat - 1) : I.flZmav fl p sn cs j k = I.flPole fl p sn cs j k := by
  have e : ∀ i, I.flAvort fl p sn cs i j k = I.flInner fl p sn cs i j k := fun i => by
    unfold flAvort
    rw [if_neg (by omega), if_neg (by omega)]
  unfold flZmav flPole
  simp only [e]

theorem zmean_eq (h1 : 2 ≤ j) (h2 : j ≤ I.nlat - 1) : I.zmean I.avort j k = I.zmean I.inner j k := by
  have e : ∀ i, I.avort i j k = I.inner i j k := fun i => by
    unfold avort
    rw [if_neg (by omega), if_neg (by omega)]
  unfold zmean
  simp only [e]

theorem inner_size (h : I.Computed u fl p sn cs ex ey) (hU : ∀ i j k, |I.u i j k| ≤ W) (hV : ∀ i j k, |I.v i j k| ≤ W) (hn : 1 ≤ I.nlon) (h1 : 2 ≤ j)
    (h2 : j ≤ I.nlat - 1) : |I.zmean I.inner j k| ≤ 2 * |I.om| + 2 * W / (I.a * cos (I.phi j) ^ 2 * I.dphi) := by
  have hn0 : (0 : ℝ) < (I.nlon : ℝ) := by exact_mod_cast (by omega : 0 < I.nlon)
  have e2 : I.zmean I.inner j k = ∑ i ∈ Finset.Icc 1 I.nlon, I.inner i j k / (I.nlon : ℝ) := by
    unfold zmean
    exact dosum_eq _ _ _
  rw [e2]
  set X := 2 * |I.om| + 2 * W / (I.a * cos (I.phi j) ^ 2 * I.dphi) with hX
  refine (Finset.abs_sum_le_sum_abs _ _).trans ((Finset.sum_le_sum (g := fun _ => X / I.nlon) fun i _ => ?_).trans (le_of_eq ?_))
  · rw [abs_div, abs_of_pos hn0]
    exact div_le_div_of_nonneg_right (inner_near (i := i) (k := k) h hU hV h1 h2).size hn0.le
  · rw [Finset.sum_const, Int.card_Icc, nsmul_eq_mul, add_sub_cancel_right]
    have : ((I.nlon.toNat : ℕ) : ℝ) = (I.nlon : ℝ) := by exact_mod_cast Int.toNat_of_nonneg (by omega : 0 ≤ I.nlon)
    rw [this]
    field_simp

/-- **C215.** `compute_qgpv` multiplies the stretching term by the zonal mean of the absolute vorticity. Between the poles the error of its QGPV is at most
`(1 + 72u)(1 + 21u)(1 + 16u)(1 + 2u)(1 + u)^(nlon + 6) - 1` times the sum of the sizes of the terms: one relative error per column, and a fixed number besides. -/
theorem C215_qgpv (h : I.Computed u fl p sn cs ex ey) (hU : ∀ i j k, |I.u i j k| ≤ W) (hV : ∀ i j k, |I.v i j k| ≤ W) (hn : 1 ≤ I.nlon) (h1 : 2 ≤ j)
    (h2 : j ≤ I.nlat - 1) (hz : ∀ k, 1 ≤ k → k < I.kmax → I.height k < I.height (k + 1)) (t0 stat : ℤ → ℝ) (i : ℤ) (hk1 : 2 ≤ k) (hk2 : k ≤ I.kmax - 1) :
    |I.flPv18 fl p sn cs ex ey t0 stat i j k - I.pv18 t0 stat i j k| ≤
      ((1 + 72 * u) * (1 + 21 * u) * (1 + 16 * u) * (1 + 2 * u) * (1 + u) ^ (I.nlon.toNat + 6) - 1) *
        ((2 * |I.om| + 2 * W / (I.a * cos (I.phi j) ^ 2 * I.dphi)) *
          (1 + exp (I.height k / I.h) * ((|I.alt t0 stat i j (k + 1)| + |I.alt t0 stat i j (k - 1)|) / (I.height (k + 1) - I.height (k - 1))))) := by
  have hu := h.unit h1 h2
  have n0 := h.nonneg
  have z : I.height (k - 1) < I.height (k + 1) := by
    have z1 := hz (k - 1) (by omega) (by omega)
    rw [sub_add_cancel] at z1
    exact z1.trans (hz k (by omega) (by omega))
  have dz : 0 < I.height (k + 1) - I.height (k - 1) := sub_pos.2 z
  have e : I.avort i j k = I.inner i j k := by
    unfold avort
    rw [if_neg (by omega), if_neg (by omega)]
  have e' : I.flAvort fl p sn cs i j k = I.flInner fl p sn cs i j k := by
    unfold flAvort
    rw [if_neg (by omega), if_neg (by omega)]
  have a := (inner_near (i := i) (k := k) h hU hV h1 h2).toNear
  have pe := pole_error h hU hV hn h1 h2 k
  have ps := inner_size (k := k) h hU hV hn h1 h2
  unfold flPv18 pv18 stretch
  have hk : 2 ≤ k ∧ k ≤ I.kmax - 1 := ⟨hk1, hk2⟩
  rw [if_pos hk, if_pos hk, e, e', flZmav_eq h1 h2, zmean_eq h1 h2]
  set X := 2 * |I.om| + 2 * W / (I.a * cos (I.phi j) ^ 2 * I.dphi) with hX
  set n := I.nlon.toNat with hnn
  have zn : Near ((1 + 72 * u) * (1 + u) ^ (n + 1)) X (I.flPole fl p sn cs j k) (I.zmean I.inner j k) := ⟨pe, ps⟩
  have b1 := ((alt_near h hu t0 stat i j (k + 1)).sub (alt_near h hu t0 stat i j (k - 1))).toNear.fl h.rel n0
  have g1 : (1 : ℝ) ≤ (1 + 21 * u) * (1 + u) := one_le_mul_of_one_le_of_one_le (by linarith) (by linarith)
  have b2 := (Near.mul g1 b1 zn).fl h.rel n0
  have hd : |fl (I.height (k + 1) - I.height (k - 1)) - (I.height (k + 1) - I.height (k - 1))| ≤ u * (I.height (k + 1) - I.height (k - 1)) := by
    have := h.rel (I.height (k + 1) - I.height (k - 1))
    rwa [abs_of_pos dz] at this
  have b3 := (b2.divComputed dz n0 hu hd).fl h.rel n0
  have c1 : Near (1 + 16 * u) (exp (I.height k / I.h)) (ey k) (exp (I.height k / I.h)) := ⟨by rw [add_sub_cancel_left]; exact h.growth k, by rw [abs_of_pos (exp_pos _)]⟩
  have b4 := (Near.mul (by linarith : (1 : ℝ) ≤ 1 + 16 * u) c1 b3).fl h.rel n0
  have a' : Near ((1 + 72 * u) * (1 + 21 * u) * (1 + 16 * u) * (1 + 2 * u) * (1 + u) ^ (n + 5)) X (I.flInner fl p sn cs i j k) (I.inner i j k) := by
    refine a.mono ?_
    have q : (1 : ℝ) ≤ (1 + 21 * u) * (1 + 16 * u) * (1 + 2 * u) * (1 + u) ^ (n + 5) :=
      one_le_mul_of_one_le_of_one_le (one_le_mul_of_one_le_of_one_le (one_le_mul_of_one_le_of_one_le (by linarith) (by linarith)) (by linarith))
        (one_le_pow₀ (by linarith))
    calc 1 + 72 * u = (1 + 72 * u) * 1 := by ring
      _ ≤ (1 + 72 * u) * ((1 + 21 * u) * (1 + 16 * u) * (1 + 2 * u) * (1 + u) ^ (n + 5)) := mul_le_mul_of_nonneg_left q (by linarith)
      _ = _ := by ring
  have b5 := b4.mono (r' := (1 + 72 * u) * (1 + 21 * u) * (1 + 16 * u) * (1 + 2 * u) * (1 + u) ^ (n + 5)) (le_of_eq (by ring))
  have f := ((a'.add b5).fl h.rel n0).1
  refine f.trans (le_of_eq ?_)
  rw [show n + 6 = n + 5 + 1 by ring, pow_succ]
  ring

/-- **C215 (latitudes).** The formula of `compute_qgpv` for the latitude, in degrees, is as accurate as `Computed` asks. -/
theorem C215_latitude (hr : RelativeError u fl) (h0 : 0 ≤ u) (hu : u ≤ 1 / 64) (hp : |p - π| ≤ u * π) (h1 : 1 ≤ j) (h2 : j ≤ I.nlat) (h3 : 2 ≤ I.nlat) {s c : ℝ}
    (hs : |s - sin (I.flPhi18 fl p j)| ≤ u) (hc : |c - cos (I.flPhi18 fl p j)| ≤ u) :
    |I.flPhi18 fl p j - I.phi j| ≤ 15 * u ∧ |s - sin (I.phi j)| ≤ 16 * u ∧ |c - cos (I.phi j)| ≤ 16 * u := by
  have main : |I.flPhi18 fl p j - I.phi j| ≤ 15 * u := by
    have hpi := pi_pos
    have hpi2 := pi_lt_d4
    have m0 : (0 : ℝ) ≤ ((j - 1 : ℤ) : ℝ) := by exact_mod_cast (by omega : 0 ≤ j - 1)
    have m1 : ((j - 1 : ℤ) : ℝ) ≤ ((I.nlat - 1 : ℤ) : ℝ) := by exact_mod_cast (by omega : j - 1 ≤ I.nlat - 1)
    have hN : (0 : ℝ) < ((I.nlat - 1 : ℤ) : ℝ) := by exact_mod_cast (by omega : 0 < I.nlat - 1)
    unfold flPhi18 phi
    set N : ℝ := ((I.nlat - 1 : ℤ) : ℝ) with hNd
    set m : ℝ := ((j - 1 : ℤ) : ℝ) with hmd
    have x1 : WithinSize (1 * u) (m * 180) (fl (m * 180)) (m * 180) :=
      (WithinSize.exact (e := u) (by rw [abs_of_nonneg (by positivity)])).round hr h0 le_rfl hu le_rfl (by norm_num)
    have x2 := ((x1.over N).round hr h0 le_rfl hu (by norm_num) (by norm_num : (1 : ℝ) + 1 + 1 / 64 ≤ 2.02)).close
    rw [abs_of_pos hN] at x2
    set B := fl (fl (m * 180) / N) with hB
    have q0 : m * 180 / N ≤ 180 := by rw [div_le_iff₀ hN]; linarith
    have q1 : 0 ≤ m * 180 / N := by positivity
    have x3 : |B - m * 180 / N| ≤ 363.6 * u := by
      have := mul_le_mul_of_nonneg_left q0 (by positivity : 0 ≤ 2.02 * u)
      linarith
    have d1 : |-90 + m * 180 / N| ≤ 90 := by
      rw [abs_le]
      constructor <;> linarith
    have y1 : WithinSize (4.04 * u) 90 (-90 + B) (-90 + m * 180 / N) := ⟨by rw [add_sub_add_left_eq_sub]; linarith, d1⟩
    have y2 := y1.round hr h0 le_rfl hu (by norm_num) (by norm_num : (4.04 : ℝ) + 1 + 4.04 / 64 ≤ 5.2)
    have b : WithinSize (1 * u) π p π := ⟨by rw [one_mul]; exact hp, by rw [abs_of_pos hpi]⟩
    have y3 := (y2.mul b h0 hu (by norm_num) (by norm_num) (by norm_num : (5.2 : ℝ) + 1 + 5.2 * 1 / 64 ≤ 6.3)).round hr h0 le_rfl hu (by norm_num)
      (by norm_num : (6.3 : ℝ) + 1 + 6.3 / 64 ≤ 7.4)
    have y4 := ((y3.over 180).round hr h0 le_rfl hu (by norm_num) (by norm_num : (7.4 : ℝ) + 1 + 7.4 / 64 ≤ 8.6)).close
    have e : (-90 + m * 180 / N) * π / 180 = -(0.5 * π) + π * m / N := by ring
    rw [e] at y4
    refine y4.trans ?_
    rw [show |(180 : ℝ)| = 180 by norm_num]
    have up : u * π ≤ u * 3.1416 := mul_le_mul_of_nonneg_left hpi2.le h0
    linarith
  have k1 := abs_sin_sub_sin_le (I.flPhi18 fl p j) (I.phi j)
  have k2 := abs_cos_sub_cos_le (I.flPhi18 fl p j) (I.phi j)
  have k3 := abs_sub_le s (sin (I.flPhi18 fl p j)) (sin (I.phi j))
  have k4 := abs_sub_le c (cos (I.flPhi18 fl p j)) (cos (I.phi j))
  refine ⟨main, ?_, ?_⟩ <;> linarith

/-- The hypotheses hold for the one-degree grid of the Earth in single precision. -/
example : earth.Computed ((1 / 2) ^ 24) (roundBits 23) (roundBits 23 π) (fun j => roundBits 23 (sin (earth.phi j))) (fun j => roundBits 23 (cos (earth.phi j)))
      (fun k => roundBits 23 (exp (-earth.height k / earth.h))) (fun k => roundBits 23 (exp (earth.height k / earth.h))) ∧
    (∀ i j k, |earth.u i j k| ≤ 10) ∧ (∀ i j k, |earth.v i j k| ≤ 10) ∧ (∀ k, 1 ≤ k → k < earth.kmax → earth.height k < earth.height (k + 1)) ∧ 1 ≤ earth.nlon ∧
    |roundBits 23 (sin (earth.flPhi18 (roundBits 23) (roundBits 23 π) 100)) - sin (earth.flPhi18 (roundBits 23) (roundBits 23 π) 100)| ≤ (1 / 2) ^ 24 := by
  have r : RelativeError ((1 / 2) ^ 24) (roundBits (K := ℝ) 23) := relativeError_roundBits (K := ℝ) 23
  obtain ⟨a, b, c, d⟩ := earth_computed
  exact ⟨a, b, c, d, by norm_num [earth], (r _).trans (mul_le_of_le_one_right (by positivity) (abs_sin_le_one _))⟩

end QgpvIn

end Falwa

end
