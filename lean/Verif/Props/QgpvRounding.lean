import Verif.Model.QgpvRounding
import Verif.Props.EqvlatRounding
import Verif.Lemmas.Near
import Mathlib.Analysis.SpecialFunctions.Trigonometric.Bounds

/-!
# C212: QGPV in single precision
-/

noncomputable section

namespace Falwa

open Real

/-- `A` is within `e` times the size `X` of the exact number `x`. -/
structure WithinSize (e X A x : ℝ) : Prop where
  close : |A - x| ≤ e * X
  size : |x| ≤ X

namespace WithinSize

variable {e c d r u X Y A B x y : ℝ} {fl : ℝ → ℝ}

theorem scale_nonneg (h : WithinSize e X A x) : 0 ≤ X := (abs_nonneg x).trans h.size

theorem exact (h : |x| ≤ X) : WithinSize (0 * e) X x x := ⟨by simp, h⟩

theorem weaken (h : WithinSize (c * e) X A x) (he : 0 ≤ e) (hc : c ≤ d) : WithinSize (d * e) X A x :=
  ⟨h.close.trans (mul_le_mul_of_nonneg_right (mul_le_mul_of_nonneg_right hc he) h.scale_nonneg), h.size⟩

theorem round (h : WithinSize (c * e) X A x) (hr : RelativeError u fl) (h0 : 0 ≤ u) (hu : u ≤ e) (he : e ≤ 1 / 64) (hc : 0 ≤ c) (hd : c + 1 + c / 64 ≤ d) :
    WithinSize (d * e) X (fl A) x := by
  have hX := h.scale_nonneg
  refine ⟨?_, h.size⟩
  have h1 := hr A
  have h2 : |A| ≤ X + c * e * X := by
    have := abs_sub_abs_le_abs_sub A x
    linarith [h.close, h.size]
  have h3 : |fl A - x| ≤ |fl A - A| + |A - x| := abs_sub_le _ _ _
  have h4 : u * |A| ≤ e * (X + c * e * X) := mul_le_mul hu h2 (abs_nonneg _) (h0.trans hu)
  have h5 : e * (c * e * X) ≤ 1 / 64 * (c * e * X) := mul_le_mul_of_nonneg_right he (mul_nonneg (mul_nonneg hc (h0.trans hu)) hX)
  have h6 := mul_le_mul_of_nonneg_right hd (mul_nonneg (h0.trans hu) hX)
  have := h.close
  nlinarith

theorem mul (h : WithinSize (c * e) X A x) (k : WithinSize (d * e) Y B y) (h0 : 0 ≤ e) (he : e ≤ 1 / 64) (hc : 0 ≤ c) (hd : 0 ≤ d) (hr : c + d + c * d / 64 ≤ r) :
    WithinSize (r * e) (X * Y) (A * B) (x * y) := by
  have hX := h.scale_nonneg
  have hY := k.scale_nonneg
  constructor
  · have e1 : A * B - x * y = (A - x) * (B - y) + (A - x) * y + x * (B - y) := by ring
    have h1 : |(A - x) * (B - y)| ≤ c * e * X * (d * e * Y) := by
      rw [abs_mul]; exact mul_le_mul h.close k.close (abs_nonneg _) (by positivity)
    have h2 : |(A - x) * y| ≤ c * e * X * Y := by
      rw [abs_mul]; exact mul_le_mul h.close k.size (abs_nonneg _) (by positivity)
    have h3 : |x * (B - y)| ≤ X * (d * e * Y) := by
      rw [abs_mul]; exact mul_le_mul h.size k.close (abs_nonneg _) hX
    have h4 := abs_add_le ((A - x) * (B - y) + (A - x) * y) (x * (B - y))
    have h5 := abs_add_le ((A - x) * (B - y)) ((A - x) * y)
    have h6 : e * (c * d * (e * (X * Y))) ≤ 1 / 64 * (c * d * (e * (X * Y))) := mul_le_mul_of_nonneg_right he (by positivity)
    have h7 := mul_le_mul_of_nonneg_right hr (by positivity : 0 ≤ e * (X * Y))
    rw [e1]
    nlinarith
  · rw [abs_mul]
    exact mul_le_mul h.size k.size (abs_nonneg _) hX

theorem div (h : WithinSize (c * e) X A x) (k : WithinSize (d * e) y B y) (hy : 0 < y) (h0 : 0 ≤ e) (he : e ≤ 1 / 64) (hc : 0 ≤ c) (hd : 0 ≤ d)
    (hd' : d < 64) (hr : c + d ≤ r * (1 - d / 64)) : WithinSize (r * e) (X / y) (A / B) (x / y) := by
  have hX := h.scale_nonneg
  have g : 0 < 1 - d / 64 := by linarith
  have hB : (1 - d / 64) * y ≤ B := by
    have h1 := (abs_le.1 k.close).1
    have h2 : e * (d * y) ≤ 1 / 64 * (d * y) := mul_le_mul_of_nonneg_right he (by positivity)
    nlinarith
  have hB0 : 0 < B := lt_of_lt_of_le (mul_pos g hy) hB
  have hr0 : 0 ≤ r := by
    by_contra hn
    have := mul_neg_of_neg_of_pos (not_le.1 hn) g
    linarith
  constructor
  · have e1 : A / B - x / y = ((A - x) * y - x * (B - y)) / (B * y) := by field_simp; ring
    rw [e1, abs_div, abs_of_pos (mul_pos hB0 hy), div_le_iff₀ (mul_pos hB0 hy)]
    have h1 : |(A - x) * y| ≤ c * e * X * y := by
      rw [abs_mul, abs_of_pos hy]; exact mul_le_mul_of_nonneg_right h.close hy.le
    have h2 : |x * (B - y)| ≤ X * (d * e * y) := by
      rw [abs_mul]; exact mul_le_mul h.size k.close (abs_nonneg _) hX
    have h3 := abs_sub ((A - x) * y) (x * (B - y))
    have h4 : r * e * (X / y) * (B * y) = r * e * X * B := by field_simp
    have h5 := mul_le_mul_of_nonneg_left hB (by positivity : 0 ≤ r * e * X)
    have h6 := mul_le_mul_of_nonneg_right hr (by positivity : 0 ≤ e * X * y)
    rw [h4]
    nlinarith
  · rw [abs_div, abs_of_pos hy]
    exact div_le_div_of_nonneg_right h.size hy.le

theorem over (h : WithinSize (c * e) X A x) (y : ℝ) : WithinSize (c * e) (X / |y|) (A / y) (x / y) := by
  constructor
  · rw [← sub_div, abs_div, ← mul_div_assoc]
    exact div_le_div_of_nonneg_right h.close (abs_nonneg y)
  · rw [abs_div]
    exact div_le_div_of_nonneg_right h.size (abs_nonneg y)

theorem add (h : WithinSize (c * e) X A x) (k : WithinSize (c * e) Y B y) : WithinSize (c * e) (X + Y) (A + B) (x + y) := by
  constructor
  · rw [show A + B - (x + y) = (A - x) + (B - y) by ring, mul_add]
    exact (abs_add_le _ _).trans (add_le_add h.close k.close)
  · exact (abs_add_le _ _).trans (add_le_add h.size k.size)

theorem neg (h : WithinSize (c * e) X A x) : WithinSize (c * e) X (-A) (-x) :=
  ⟨by rw [show -A - -x = -(A - x) by ring, abs_neg]; exact h.close, by rw [abs_neg]; exact h.size⟩

theorem sub (h : WithinSize (c * e) X A x) (k : WithinSize (c * e) Y B y) : WithinSize (c * e) (X + Y) (A - B) (x - y) := by
  rw [sub_eq_add_neg, sub_eq_add_neg]
  exact h.add k.neg

end WithinSize

namespace QgpvIn

variable {I : QgpvIn} {fl : ℝ → ℝ} {u p W : ℝ} {sn cs ex ey : ℤ → ℝ} {t0 stat : ℤ → ℝ} {i j k jd : ℤ}

/-- The arithmetic of the routine: relative error `u`, intrinsic functions accurate to a few `u`, and latitude rows not finer than the machine resolves. -/
structure Computed (I : QgpvIn) (u : ℝ) (fl : ℝ → ℝ) (p : ℝ) (sn cs ex ey : ℤ → ℝ) : Prop where
  nonneg : 0 ≤ u
  rel : RelativeError u fl
  pi : |p - π| ≤ u * π
  sine : ∀ j, 1 ≤ j → j ≤ I.nlat → |sn j - sin (I.phi j)| ≤ 16 * u
  cosine : ∀ j, 1 ≤ j → j ≤ I.nlat → |cs j - cos (I.phi j)| ≤ 16 * u
  decay : ∀ k, |ex k - exp (-I.height k / I.h)| ≤ 16 * u * exp (-I.height k / I.h)
  growth : ∀ k, |ey k - exp (I.height k / I.h)| ≤ 16 * u * exp (I.height k / I.h)
  radius : 0 < I.a
  rows : 32 * u * ((I.nlat - 1 : ℤ) : ℝ) ≤ 1

theorem cos_phi_ge (h1 : 2 ≤ j) (h2 : j ≤ I.nlat - 1) : 2 ≤ cos (I.phi j) * ((I.nlat - 1 : ℤ) : ℝ) := by
  have hpi := pi_pos
  have m1 : (1 : ℝ) ≤ ((j - 1 : ℤ) : ℝ) := by exact_mod_cast (by omega : 1 ≤ j - 1)
  have m2 : ((j - 1 : ℤ) : ℝ) + 1 ≤ ((I.nlat - 1 : ℤ) : ℝ) := by exact_mod_cast (by omega : j - 1 + 1 ≤ I.nlat - 1)
  unfold phi
  set m : ℝ := ((j - 1 : ℤ) : ℝ) with hm
  set N : ℝ := ((I.nlat - 1 : ℤ) : ℝ) with hN
  have hN0 : 0 < N := by linarith
  have e : cos (-(0.5 * π) + π * m / N) = sin (π * m / N) := by
    rw [show -(0.5 * π) + π * m / N = π * m / N - π / 2 by ring, cos_sub_pi_div_two]
  rw [e]
  rcases le_total (2 * m) N with h | h
  · have := mul_le_sin (x := π * m / N) (by positivity) (by rw [div_le_iff₀ hN0]; nlinarith)
    have e2 : 2 / π * (π * m / N) * N = 2 * m := by field_simp
    nlinarith
  · rw [← sin_pi_sub]
    have e3 : π - π * m / N = π * (N - m) / N := by field_simp
    rw [e3]
    have := mul_le_sin (x := π * (N - m) / N) (div_nonneg (mul_nonneg hpi.le (by linarith)) hN0.le) (by rw [div_le_iff₀ hN0]; nlinarith)
    have e2 : 2 / π * (π * (N - m) / N) * N = 2 * (N - m) := by field_simp
    nlinarith

theorem Computed.polar (h : I.Computed u fl p sn cs ex ey) (h1 : 2 ≤ j) (h2 : j ≤ I.nlat - 1) : 0 < cos (I.phi j) ∧ 64 * u ≤ cos (I.phi j) := by
  have hc := cos_phi_ge (I := I) h1 h2
  have hN : (0 : ℝ) < ((I.nlat - 1 : ℤ) : ℝ) := by exact_mod_cast (by omega : 0 < I.nlat - 1)
  have h0 : 0 < cos (I.phi j) := by
    by_contra hn
    have := mul_nonpos_of_nonpos_of_nonneg (not_lt.1 hn) hN.le
    linarith
  refine ⟨h0, le_of_mul_le_mul_right ?_ hN⟩
  have := h.rows
  linarith

/-- The Coriolis parameter. -/
theorem cor_near (h : I.Computed u fl p sn cs ex ey) (hu : u ≤ 1 / 64) (h1 : 1 ≤ j) (h2 : j ≤ I.nlat) :
    WithinSize (19 * u) (2 * |I.om|) (I.flCor fl sn j) (I.cor j) := by
  have a1 : WithinSize (1 * u) (2 * |I.om|) (fl (2 * I.om)) (2 * I.om) :=
    (WithinSize.exact (e := u) (by rw [abs_mul]; norm_num)).round h.rel h.nonneg le_rfl hu le_rfl (by norm_num)
  have a2 : WithinSize (16 * u) 1 (sn j) (sin (I.phi j)) := ⟨by rw [mul_one]; exact h.sine j h1 h2, abs_sin_le_one _⟩
  have a3 := (a1.mul a2 h.nonneg hu (by norm_num) (by norm_num) (by norm_num : (1 : ℝ) + 16 + 1 * 16 / 64 ≤ 17.25)).round h.rel h.nonneg le_rfl hu (by norm_num)
    (by norm_num : (17.25 : ℝ) + 1 + 17.25 / 64 ≤ 19)
  rw [mul_one] at a3
  exact a3

/-- The denominator of the derivatives: near the poles the error of the cosine is divided by the cosine. -/
theorem den_near (h : I.Computed u fl p sn cs ex ey) (h1 : 2 ≤ j) (h2 : j ≤ I.nlat - 1) :
    WithinSize (23 * (u / cos (I.phi j))) (2 * I.a * cos (I.phi j) * I.dphi) (I.flDen fl p cs j) (2 * I.a * cos (I.phi j) * I.dphi) := by
  obtain ⟨k0, k1⟩ := h.polar h1 h2
  have hN : (0 : ℝ) < ((I.nlat - 1 : ℤ) : ℝ) := by exact_mod_cast (by omega : 0 < I.nlat - 1)
  set κ := cos (I.phi j) with hκ
  have n0 := h.nonneg
  have d0 : 0 ≤ u / κ := by positivity
  have d1 : u / κ ≤ 1 / 64 := by rw [div_le_iff₀ k0]; linarith
  have d2 : u ≤ u / κ := by
    rw [le_div_iff₀ k0]
    exact mul_le_of_le_one_right n0 (cos_le_one _)
  have ra := h.radius
  have a1 : WithinSize (1 * (u / κ)) (2 * I.a) (fl (2 * I.a)) (2 * I.a) :=
    (WithinSize.exact (e := u / κ) (by rw [abs_of_nonneg (by positivity)])).round h.rel n0 d2 d1 le_rfl (by norm_num)
  have a2 : WithinSize (16 * (u / κ)) κ (cs j) κ := by
    refine ⟨?_, by rw [abs_of_pos k0]⟩
    have e : 16 * (u / κ) * κ = 16 * u := by field_simp
    rw [e]
    exact h.cosine j (by omega) (by omega)
  have a3 := (a1.mul a2 d0 d1 (by norm_num) (by norm_num) (by norm_num : (1 : ℝ) + 16 + 1 * 16 / 64 ≤ 17.25)).round h.rel n0 d2 d1 (by norm_num)
    (by norm_num : (17.25 : ℝ) + 1 + 17.25 / 64 ≤ 18.6)
  have b1 : WithinSize (1 * (u / κ)) π p π := by
    refine ⟨h.pi.trans ?_, by rw [abs_of_pos pi_pos]⟩
    rw [one_mul]
    exact mul_le_mul_of_nonneg_right d2 pi_pos.le
  have b2 := (b1.over ((I.nlat - 1 : ℤ) : ℝ)).round h.rel n0 d2 d1 (by norm_num) (by norm_num : (1 : ℝ) + 1 + 1 / 64 ≤ 2.1)
  rw [abs_of_pos hN] at b2
  exact (a3.mul b2 d0 d1 (by norm_num) (by norm_num) (by norm_num : (18.6 : ℝ) + 2.1 + 18.6 * 2.1 / 64 ≤ 21.4)).round h.rel n0 d2 d1 (by norm_num)
    (by norm_num)

theorem dv_size (hv : ∀ i j k, |I.v i j k| ≤ W) (i j k : ℤ) : |I.dv i j k| ≤ W + W := by
  have d : ∀ x y : ℝ, |x| ≤ W → |y| ≤ W → |x - y| ≤ W + W := fun x y hx hy => (abs_sub x y).trans (add_le_add hx hy)
  unfold dv
  split_ifs <;> exact d _ _ (hv _ _ _) (hv _ _ _)

theorem inner_near (h : I.Computed u fl p sn cs ex ey) (hU : ∀ i j k, |I.u i j k| ≤ W) (hV : ∀ i j k, |I.v i j k| ≤ W) (h1 : 2 ≤ j) (h2 : j ≤ I.nlat - 1) :
    WithinSize (72 * u) (2 * |I.om| + 2 * W / (I.a * cos (I.phi j) ^ 2 * I.dphi)) (I.flInner fl p sn cs i j k) (I.inner i j k) := by
  obtain ⟨k0, k1⟩ := h.polar h1 h2
  have hN : (0 : ℝ) < ((I.nlat - 1 : ℤ) : ℝ) := by exact_mod_cast (by omega : 0 < I.nlat - 1)
  have hd : 0 < I.dphi := div_pos pi_pos hN
  have ra := h.radius
  have n0 := h.nonneg
  have hu : u ≤ 1 / 64 := by linarith [cos_le_one (I.phi j)]
  have D := den_near h h1 h2
  have C := cor_near (j := j) h hu (by omega) (by omega)
  have cp : ∀ g, 1 ≤ g → g ≤ I.nlat → WithinSize (16 * u) 1 (cs g) (cos (I.phi g)) := fun g g1 g2 => ⟨by rw [mul_one]; exact h.cosine g g1 g2, abs_cos_le_one _⟩
  set κ := cos (I.phi j) with hκ
  have d0 : 0 ≤ u / κ := by positivity
  have d1 : u / κ ≤ 1 / 64 := by rw [div_le_iff₀ k0]; linarith
  have d2 : u ≤ u / κ := by
    rw [le_div_iff₀ k0]
    exact mul_le_of_le_one_right n0 (cos_le_one _)
  have hW : 0 ≤ W := (abs_nonneg _).trans (hU 0 0 0)
  have dpos : 0 < 2 * I.a * κ * I.dphi := by positivity
  -- from the unit `u / κ` to the unit `u`
  have convert : ∀ {c A x : ℝ}, WithinSize (c * (u / κ)) ((W + W) / (2 * I.a * κ * I.dphi)) A x → WithinSize (c * u) (W / (I.a * κ ^ 2 * I.dphi)) A x := by
    intro c A x hx
    have e : c * (u / κ) * ((W + W) / (2 * I.a * κ * I.dphi)) = c * u * (W / (I.a * κ ^ 2 * I.dphi)) := by field_simp; ring
    refine ⟨e ▸ hx.close, hx.size.trans ?_⟩
    have e2 : (W + W) / (2 * I.a * κ * I.dphi) = W / (I.a * κ ^ 2 * I.dphi) * κ := by field_simp; ring
    rw [e2]
    exact mul_le_of_le_one_right (by positivity) (cos_le_one _)
  have v1 : WithinSize (1 * (u / κ)) (W + W) (fl (I.dv i j k)) (I.dv i j k) :=
    (WithinSize.exact (e := u / κ) (dv_size hV i j k)).round h.rel n0 d2 d1 le_rfl (by norm_num)
  have v2 := convert ((v1.div D dpos d0 d1 (by norm_num) (by norm_num) (by norm_num) (by norm_num : (1 : ℝ) + 23 ≤ 38 * (1 - 23 / 64))).round h.rel n0 d2 d1
    (by norm_num) (by norm_num : (38 : ℝ) + 1 + 38 / 64 ≤ 40))
  have w : ∀ g, 1 ≤ g → g ≤ I.nlat → WithinSize (17.25 * u) W (fl (I.u i g k * cs g)) (I.u i g k * cos (I.phi g)) := fun g g1 g2 => by
    have := ((WithinSize.exact (e := u) (hU i g k)).mul (cp g g1 g2) n0 hu le_rfl (by norm_num) (by norm_num : (0 : ℝ) + 16 + 0 * 16 / 64 ≤ 16)).round h.rel n0 le_rfl hu
      (by norm_num) (by norm_num : (16 : ℝ) + 1 + 16 / 64 ≤ 17.25)
    rwa [mul_one] at this
  have w1 := (((w (j + 1) (by omega) (by omega)).sub (w (j - 1) (by omega) (by omega))).round h.rel n0 le_rfl hu (by norm_num)
    (by norm_num : (17.25 : ℝ) + 1 + 17.25 / 64 ≤ 19)).neg
  have w2 : WithinSize (19 * (u / κ)) (W + W) _ _ := ⟨w1.close.trans (mul_le_mul_of_nonneg_right (mul_le_mul_of_nonneg_left d2 (by norm_num)) (by linarith)), w1.size⟩
  have w3 := convert ((w2.div D dpos d0 d1 (by norm_num) (by norm_num) (by norm_num) (by norm_num : (19 : ℝ) + 23 ≤ 66 * (1 - 23 / 64))).round h.rel n0 d2 d1
    (by norm_num) (by norm_num : (66 : ℝ) + 1 + 66 / 64 ≤ 69))
  have s1 := ((C.weaken n0 (by norm_num : (19 : ℝ) ≤ 40)).add v2).round h.rel n0 le_rfl hu (by norm_num) (by norm_num : (40 : ℝ) + 1 + 40 / 64 ≤ 69)
  have s2 := (s1.add w3).round h.rel n0 le_rfl hu (by norm_num) (by norm_num : (69 : ℝ) + 1 + 69 / 64 ≤ 72)
  rw [show 2 * |I.om| + W / (I.a * κ ^ 2 * I.dphi) + W / (I.a * κ ^ 2 * I.dphi) = 2 * |I.om| + 2 * W / (I.a * κ ^ 2 * I.dphi) by ring] at s2
  exact s2

theorem alt_near (h : I.Computed u fl p sn cs ex ey) (hu : u ≤ 1 / 64) (t0 stat : ℤ → ℝ) (i j k : ℤ) :
    WithinSize (21 * u) |I.alt t0 stat i j k| (I.flAlt fl ex t0 stat i j k) (I.alt t0 stat i j k) := by
  have n0 := h.nonneg
  have a1 : WithinSize (1 * u) |I.theta i j k - t0 k| (fl (I.theta i j k - t0 k)) (I.theta i j k - t0 k) :=
    (WithinSize.exact (e := u) le_rfl).round h.rel n0 le_rfl hu le_rfl (by norm_num)
  have a2 : WithinSize (16 * u) (exp (-I.height k / I.h)) (ex k) (exp (-I.height k / I.h)) := ⟨h.decay k, by rw [abs_of_pos (exp_pos _)]⟩
  have a3 := (a2.mul a1 n0 hu (by norm_num) (by norm_num) (by norm_num : (16 : ℝ) + 1 + 16 * 1 / 64 ≤ 18)).round h.rel n0 le_rfl hu (by norm_num)
    (by norm_num : (18 : ℝ) + 1 + 18 / 64 ≤ 19.5)
  have a4 := (a3.over (stat k)).round h.rel n0 le_rfl hu (by norm_num) (by norm_num : (19.5 : ℝ) + 1 + 19.5 / 64 ≤ 21)
  have e : |I.alt t0 stat i j k| = exp (-I.height k / I.h) * |I.theta i j k - t0 k| / |stat k| := by
    unfold alt
    rw [abs_div, abs_mul, abs_of_pos (exp_pos _)]
  rw [e]
  exact a4

/-- The size of the stretching term, with the two levels added in absolute value. -/
def stretchSize (I : QgpvIn) (t0 stat : ℤ → ℝ) (i j k : ℤ) : ℝ :=
  exp (I.height k / I.h) * ((|I.alt t0 stat i j (k + 1)| + |I.alt t0 stat i j (k - 1)|) * (2 * |I.om|) / (I.height (k + 1) - I.height (k - 1)))

theorem stretch_near (h : I.Computed u fl p sn cs ex ey) (hu : u ≤ 1 / 64) (h1 : 1 ≤ j) (h2 : j ≤ I.nlat) (hz : I.height (k - 1) < I.height (k + 1))
    (t0 stat : ℤ → ℝ) (i : ℤ) :
    WithinSize (88 * u) (I.stretchSize t0 stat i j k) (I.flStretch fl sn ex ey t0 stat i j k) (I.stretch t0 stat (I.cor j) i j k) := by
  have n0 := h.nonneg
  have dz : 0 < I.height (k + 1) - I.height (k - 1) := sub_pos.2 hz
  have a1 := ((alt_near h hu t0 stat i j (k + 1)).sub (alt_near h hu t0 stat i j (k - 1))).round h.rel n0 le_rfl hu (by norm_num)
    (by norm_num : (21 : ℝ) + 1 + 21 / 64 ≤ 23)
  have a2 := (a1.mul (cor_near h hu h1 h2) n0 hu (by norm_num) (by norm_num) (by norm_num : (23 : ℝ) + 19 + 23 * 19 / 64 ≤ 49)).round h.rel n0 le_rfl hu
    (by norm_num) (by norm_num : (49 : ℝ) + 1 + 49 / 64 ≤ 51)
  have a3 : WithinSize (1 * u) (I.height (k + 1) - I.height (k - 1)) (fl (I.height (k + 1) - I.height (k - 1))) (I.height (k + 1) - I.height (k - 1)) :=
    (WithinSize.exact (e := u) (by rw [abs_of_pos dz])).round h.rel n0 le_rfl hu le_rfl (by norm_num)
  have a4 := (a2.div a3 dz n0 hu (by norm_num) (by norm_num) (by norm_num) (by norm_num : (51 : ℝ) + 1 ≤ 53 * (1 - 1 / 64))).round h.rel n0 le_rfl hu (by norm_num)
    (by norm_num : (53 : ℝ) + 1 + 53 / 64 ≤ 55)
  have a5 : WithinSize (16 * u) (exp (I.height k / I.h)) (ey k) (exp (I.height k / I.h)) := ⟨h.growth k, by rw [abs_of_pos (exp_pos _)]⟩
  exact (a5.mul a4 n0 hu (by norm_num) (by norm_num) (by norm_num : (16 : ℝ) + 55 + 16 * 55 / 64 ≤ 85)).round h.rel n0 le_rfl hu (by norm_num) (by norm_num)

theorem Computed.unit (h : I.Computed u fl p sn cs ex ey) (h1 : 2 ≤ j) (h2 : j ≤ I.nlat - 1) : u ≤ 1 / 64 := by
  have := (h.polar h1 h2).2
  linarith [cos_le_one (I.phi j)]

/-- **C212 (absolute vorticity).** In every row between the poles the computed absolute vorticity is within `144 u` times the rotation rate plus the greatest wind
over `a cos² φ dphi` of the exact value of the finite differences. -/
theorem C212_vorticity (h : I.Computed u fl p sn cs ex ey) (hU : ∀ i j k, |I.u i j k| ≤ W) (hV : ∀ i j k, |I.v i j k| ≤ W) (h1 : 2 ≤ j) (h2 : j ≤ I.nlat - 1)
    (i k : ℤ) : |I.flAvort fl p sn cs i j k - I.avort i j k| ≤ 144 * u * (|I.om| + W / (I.a * cos (I.phi j) ^ 2 * I.dphi)) := by
  have e : I.avort i j k = I.inner i j k := by
    unfold avort
    rw [if_neg (by omega), if_neg (by omega)]
  have e' : I.flAvort fl p sn cs i j k = I.flInner fl p sn cs i j k := by
    unfold flAvort
    rw [if_neg (by omega), if_neg (by omega)]
  rw [e, e']
  refine (inner_near h hU hV h1 h2).close.trans (le_of_eq ?_)
  ring

theorem pole_error (h : I.Computed u fl p sn cs ex ey) (hU : ∀ i j k, |I.u i j k| ≤ W) (hV : ∀ i j k, |I.v i j k| ≤ W) (hn : 1 ≤ I.nlon) (h1 : 2 ≤ j)
    (h2 : j ≤ I.nlat - 1) (k : ℤ) :
    |I.flPole fl p sn cs j k - I.zmean I.inner j k| ≤
      ((1 + 72 * u) * (1 + u) ^ (I.nlon.toNat + 1) - 1) * (2 * |I.om| + 2 * W / (I.a * cos (I.phi j) ^ 2 * I.dphi)) := by
  have n0 := h.nonneg
  have hn0 : (0 : ℝ) < (I.nlon : ℝ) := by exact_mod_cast (by omega : 0 < I.nlon)
  set X := 2 * |I.om| + 2 * W / (I.a * cos (I.phi j) ^ 2 * I.dphi) with hX
  have t : ∀ i, Near ((1 + 72 * u) * (1 + u)) (X / I.nlon) (fl (I.flInner fl p sn cs i j k / (I.nlon : ℝ))) (I.inner i j k / (I.nlon : ℝ)) := fun i => by
    have a := (inner_near (i := i) (k := k) h hU hV h1 h2).over (I.nlon : ℝ)
    rw [abs_of_pos hn0] at a
    have b : Near (1 + 72 * u) (X / I.nlon) (I.flInner fl p sn cs i j k / (I.nlon : ℝ)) (I.inner i j k / (I.nlon : ℝ)) :=
      ⟨by rw [add_sub_cancel_left]; exact a.close, a.size⟩
    exact b.fl h.rel n0
  have c1 : (1 : ℝ) ≤ 1 + u := by linarith
  have key := Near.loop (lo := 1) (hi := I.nlon) (by omega) (f := fun i s => fl (s + fl (I.flInner fl p sn cs i j k / (I.nlon : ℝ)))) (fun s : ℝ => s)
    (fun i => I.inner i j k / (I.nlon : ℝ)) (fun _ => X / I.nlon) ((1 + 72 * u) * (1 + u)) c1 (by positivity)
    (fun i s r A S _ _ hr hs => (hs.add ((t i).mono hr)).fl h.rel n0) (le_refl _) (Near.zero ((1 + 72 * u) * (1 + u)))
  rw [zero_add, zero_add, Finset.sum_const, Int.card_Icc, nsmul_eq_mul, add_sub_cancel_right] at key
  have e1 : ((I.nlon.toNat : ℕ) : ℝ) * (X / I.nlon) = X := by
    have : ((I.nlon.toNat : ℕ) : ℝ) = (I.nlon : ℝ) := by exact_mod_cast Int.toNat_of_nonneg (by omega : 0 ≤ I.nlon)
    rw [this]
    field_simp
  rw [e1] at key
  have e2 : I.zmean I.inner j k = ∑ i ∈ Finset.Icc 1 I.nlon, I.inner i j k / (I.nlon : ℝ) := by
    unfold zmean
    exact dosum_eq _ _ _
  rw [e2]
  refine key.1.trans (le_of_eq ?_)
  rw [pow_succ]
  ring

/-- **C212 (poles).** The rows of the poles get the mean of the neighbouring row. The sum over the columns costs one relative error per column and no more. -/
theorem C212_poles (h : I.Computed u fl p sn cs ex ey) (hU : ∀ i j k, |I.u i j k| ≤ W) (hV : ∀ i j k, |I.v i j k| ≤ W) (hn : 1 ≤ I.nlon) (hl : 3 ≤ I.nlat)
    (i k : ℤ) :
    |I.flAvort fl p sn cs i 1 k - I.avort i 1 k| ≤
        ((1 + 72 * u) * (1 + u) ^ (I.nlon.toNat + 1) - 1) * (2 * |I.om| + 2 * W / (I.a * cos (I.phi 2) ^ 2 * I.dphi)) ∧
      |I.flAvort fl p sn cs i I.nlat k - I.avort i I.nlat k| ≤
        ((1 + 72 * u) * (1 + u) ^ (I.nlon.toNat + 1) - 1) * (2 * |I.om| + 2 * W / (I.a * cos (I.phi (I.nlat - 1)) ^ 2 * I.dphi)) := by
  unfold flAvort avort
  rw [if_neg (by omega : ¬ (1 : ℤ) = I.nlat), if_neg (by omega : ¬ (1 : ℤ) = I.nlat), if_pos rfl, if_pos rfl, if_pos rfl, if_pos rfl]
  exact ⟨pole_error h hU hV hn (by omega) (by omega) k, pole_error h hU hV hn (by omega) (by omega) k⟩

/-- **C212 (QGPV).** The error of the QGPV is at most `91 u` times the sum of the sizes of its terms: twice the rotation rate, the bound of the relative
vorticity, and the stretching term with the two levels added in absolute value. -/
theorem C212_qgpv (h : I.Computed u fl p sn cs ex ey) (hU : ∀ i j k, |I.u i j k| ≤ W) (hV : ∀ i j k, |I.v i j k| ≤ W) (h1 : 2 ≤ j) (h2 : j ≤ I.nlat - 1)
    (hz : ∀ k, 1 ≤ k → k < I.kmax → I.height k < I.height (k + 1)) (ts0 tn0 stats statn : ℤ → ℝ) (jd i : ℤ) (hk1 : 2 ≤ k) (hk2 : k ≤ I.kmax - 1) :
    |I.flPv22 fl p sn cs ex ey jd ts0 tn0 stats statn i j k - I.pv22 jd ts0 tn0 stats statn i j k| ≤
      91 * u * (2 * |I.om| + 2 * W / (I.a * cos (I.phi j) ^ 2 * I.dphi) +
        exp (I.height k / I.h) * ((|I.alt (if j ≤ jd then ts0 else tn0) (if j ≤ jd then stats else statn) i j (k + 1)| +
          |I.alt (if j ≤ jd then ts0 else tn0) (if j ≤ jd then stats else statn) i j (k - 1)|) * (2 * |I.om|) / (I.height (k + 1) - I.height (k - 1)))) := by
  have hu := h.unit h1 h2
  have n0 := h.nonneg
  have z : I.height (k - 1) < I.height (k + 1) := by
    have z1 := hz (k - 1) (by omega) (by omega)
    rw [sub_add_cancel] at z1
    exact z1.trans (hz k (by omega) (by omega))
  have e : I.avort i j k = I.inner i j k := by
    unfold avort
    rw [if_neg (by omega), if_neg (by omega)]
  have e' : I.flAvort fl p sn cs i j k = I.flInner fl p sn cs i j k := by
    unfold flAvort
    rw [if_neg (by omega), if_neg (by omega)]
  have a := (inner_near (i := i) (k := k) h hU hV h1 h2).weaken n0 (by norm_num : (72 : ℝ) ≤ 88)
  unfold flPv22 pv22
  have hk : 2 ≤ k ∧ k ≤ I.kmax - 1 := ⟨hk1, hk2⟩
  rw [if_pos hk, if_pos hk, e, e']
  by_cases hj : j ≤ jd
  · simp only [if_pos hj]
    exact ((a.add (stretch_near h hu (by omega) (by omega) z ts0 stats i)).round h.rel n0 le_rfl hu (by norm_num) (by norm_num)).close
  · simp only [if_neg hj]
    exact ((a.add (stretch_near h hu (by omega) (by omega) z tn0 statn i)).round h.rel n0 le_rfl hu (by norm_num) (by norm_num)).close

/-- The computed latitude. -/
theorem phi_error (hr : RelativeError u fl) (h0 : 0 ≤ u) (hu : u ≤ 1 / 64) (hp : |p - π| ≤ u * π) (h1 : 1 ≤ j) (h2 : j ≤ I.nlat) (h3 : 2 ≤ I.nlat) :
    |I.flPhi fl p j - I.phi j| ≤ 15 * u := by
  have hpi := pi_pos
  have hpi2 := pi_lt_d4
  have m0 : (0 : ℝ) ≤ ((j - 1 : ℤ) : ℝ) := by exact_mod_cast (by omega : 0 ≤ j - 1)
  have m1 : ((j - 1 : ℤ) : ℝ) ≤ ((I.nlat - 1 : ℤ) : ℝ) := by exact_mod_cast (by omega : j - 1 ≤ I.nlat - 1)
  have hN : (0 : ℝ) < ((I.nlat - 1 : ℤ) : ℝ) := by exact_mod_cast (by omega : 0 < I.nlat - 1)
  have b : WithinSize (1 * u) π p π := ⟨by rw [one_mul]; exact hp, by rw [abs_of_pos hpi]⟩
  have x1 := (((WithinSize.exact (e := u) (X := 1 / 2) (x := -0.5) (by norm_num)).mul b h0 hu le_rfl (by norm_num) (by norm_num : (0 : ℝ) + 1 + 0 * 1 / 64 ≤ 1)).round
    hr h0 le_rfl hu (by norm_num) (by norm_num : (1 : ℝ) + 1 + 1 / 64 ≤ 2.02)).close
  have y1 := (b.mul (WithinSize.exact (e := u) (x := ((j - 1 : ℤ) : ℝ)) (abs_of_nonneg m0).le) h0 hu (by norm_num) le_rfl
    (by norm_num : (1 : ℝ) + 0 + 1 * 0 / 64 ≤ 1)).round hr h0 le_rfl hu (by norm_num) (by norm_num : (1 : ℝ) + 1 + 1 / 64 ≤ 2.02)
  have y2 := ((y1.over ((I.nlat - 1 : ℤ) : ℝ)).round hr h0 le_rfl hu (by norm_num) (by norm_num : (2.02 : ℝ) + 1 + 2.02 / 64 ≤ 3.06)).close
  rw [abs_of_pos hN] at y2
  unfold flPhi phi
  set N : ℝ := ((I.nlat - 1 : ℤ) : ℝ) with hNd
  set m : ℝ := ((j - 1 : ℤ) : ℝ) with hmd
  set A := fl (-0.5 * p) with hA
  set B := fl (fl (p * m) / N) with hB
  have q0 : π * m / N ≤ π := by rw [div_le_iff₀ hN]; exact mul_le_mul_of_nonneg_left m1 hpi.le
  have q1 : 0 ≤ π * m / N := by positivity
  have y3 : |B - π * m / N| ≤ 3.06 * u * π := y2.trans (mul_le_mul_of_nonneg_left q0 (by positivity))
  have up : u * π ≤ u * 3.1416 := mul_le_mul_of_nonneg_left hpi2.le h0
  have z1 : |A + B - (-(0.5 * π) + π * m / N)| ≤ 12.8 * u := by
    rw [abs_le] at x1 y3 ⊢
    constructor <;> nlinarith [x1.1, x1.2, y3.1, y3.2]
  have z2 : |A + B| ≤ 1.9 := by
    rw [abs_le] at z1 ⊢
    constructor <;> linarith [z1.1, z1.2]
  have z3 := (hr (A + B)).trans (mul_le_mul_of_nonneg_left z2 h0)
  have z4 := abs_sub_le (fl (A + B)) (A + B) (-(0.5 * π) + π * m / N)
  linarith

/-- **C212 (latitudes).** The accuracy of the sines and cosines that `Computed` asks for follows from the formula of the routine for the latitude, if the functions of
the library are accurate to `u` at their argument. -/
theorem C212_latitude (hr : RelativeError u fl) (h0 : 0 ≤ u) (hu : u ≤ 1 / 64) (hp : |p - π| ≤ u * π) (h1 : 1 ≤ j) (h2 : j ≤ I.nlat) (h3 : 2 ≤ I.nlat) {s c : ℝ}
    (hs : |s - sin (I.flPhi fl p j)| ≤ u) (hc : |c - cos (I.flPhi fl p j)| ≤ u) : |s - sin (I.phi j)| ≤ 16 * u ∧ |c - cos (I.phi j)| ≤ 16 * u := by
  have e := phi_error (I := I) hr h0 hu hp h1 h2 h3
  have k1 := abs_sin_sub_sin_le (I.flPhi fl p j) (I.phi j)
  have k2 := abs_cos_sub_cos_le (I.flPhi fl p j) (I.phi j)
  have k3 := abs_sub_le s (sin (I.flPhi fl p j)) (sin (I.phi j))
  have k4 := abs_sub_le c (cos (I.flPhi fl p j)) (cos (I.phi j))
  constructor <;> linarith

/-- The one-degree grid of the Earth in single precision, with a wind and a temperature that vary. -/
def earth : QgpvIn where
  nlon := 360
  nlat := 181
  kmax := 49
  u i j _ := 10 * cos (i * π / 180) * sin (j * π / 180)
  v i _ _ := 10 * sin (i * π / 180)
  theta i j k := 300 + 2 * k + cos (i * π / 180) + sin (j * π / 180)
  height k := 1000 * ((k : ℝ) - 1)
  a := 6378000
  om := 7.29 / 100000
  h := 7000

theorem earth_computed : earth.Computed ((1 / 2) ^ 24) (roundBits 23) (roundBits 23 π) (fun j => roundBits 23 (sin (earth.phi j))) (fun j => roundBits 23 (cos (earth.phi j)))
      (fun k => roundBits 23 (exp (-earth.height k / earth.h))) (fun k => roundBits 23 (exp (earth.height k / earth.h))) ∧
    (∀ i j k, |earth.u i j k| ≤ 10) ∧ (∀ i j k, |earth.v i j k| ≤ 10) ∧ (∀ k, 1 ≤ k → k < earth.kmax → earth.height k < earth.height (k + 1)) := by
  have r : RelativeError ((1 / 2) ^ 24) (roundBits (K := ℝ) 23) := relativeError_roundBits (K := ℝ) 23
  have unit : ∀ x : ℝ, |x| ≤ 1 → |roundBits 23 x - x| ≤ 16 * (1 / 2) ^ 24 := fun x hx => (r x).trans (by nlinarith)
  have pos : ∀ x : ℝ, 0 < x → |roundBits 23 x - x| ≤ 16 * (1 / 2) ^ 24 * x := fun x hx => (r x).trans (by rw [abs_of_pos hx]; nlinarith)
  refine ⟨⟨by positivity, r, ?_, fun j _ _ => unit _ (abs_sin_le_one _), fun j _ _ => unit _ (abs_cos_le_one _), fun k => pos _ (exp_pos _),
    fun k => pos _ (exp_pos _), by norm_num [earth], by norm_num [earth]⟩, fun i j k => ?_, fun i j k => ?_, fun k _ _ => ?_⟩
  · have := r π
    rwa [abs_of_pos pi_pos] at this
  · show |10 * cos (i * π / 180) * sin (j * π / 180)| ≤ 10
    rw [abs_mul, abs_mul, abs_of_pos (by norm_num : (0 : ℝ) < 10)]
    have h1 := abs_cos_le_one (i * π / 180)
    have h2 := abs_sin_le_one (j * π / 180)
    have h3 := mul_le_mul h1 h2 (abs_nonneg _) zero_le_one
    linarith
  · show |10 * sin (i * π / 180)| ≤ 10
    rw [abs_mul, abs_of_pos (by norm_num : (0 : ℝ) < 10)]
    linarith [abs_sin_le_one (i * π / 180)]
  · simp only [earth]
    push_cast
    linarith

example : RelativeError ((1 / 2) ^ 24) (roundBits (K := ℝ) 23) ∧ |roundBits 23 π - π| ≤ (1 / 2) ^ 24 * π ∧
    |roundBits 23 (sin (earth.flPhi (roundBits 23) (roundBits 23 π) 100)) - sin (earth.flPhi (roundBits 23) (roundBits 23 π) 100)| ≤ (1 / 2) ^ 24 ∧
    |roundBits 23 (cos (earth.flPhi (roundBits 23) (roundBits 23 π) 100)) - cos (earth.flPhi (roundBits 23) (roundBits 23 π) 100)| ≤ (1 / 2) ^ 24 := by
  have r : RelativeError ((1 / 2) ^ 24) (roundBits (K := ℝ) 23) := relativeError_roundBits (K := ℝ) 23
  refine ⟨r, ?_, (r _).trans ?_, (r _).trans ?_⟩
  · have := r π
    rwa [abs_of_pos pi_pos] at this
  · exact mul_le_of_le_one_right (by positivity) (abs_sin_le_one _)
  · exact mul_le_of_le_one_right (by positivity) (abs_cos_le_one _)

end QgpvIn

end Falwa

end
