import Verif.Props.VorticityError

/-!
# C214: total error of the QGPV on a given grid
-/

noncomputable section

namespace Falwa

open Real Spec

namespace QgpvIn

variable {I : QgpvIn} {fl : ℝ → ℝ} {u p W D D' ε η dz : ℝ} {sn cs ex ey t0 stat ts0 tn0 stats statn : ℤ → ℝ} {i j k jd : ℤ}
  {U V G G' G'' V' V'' : ℝ → ℝ → ℝ} {g g' g'' : ℝ → ℝ}

/-- In the column `i`, `j` the quantity `exp(-z/H) (theta - t0) / stat` is that of a smooth profile `g`, up to `η`, at the levels next to `k`. -/
structure Column (I : QgpvIn) (t0 stat : ℤ → ℝ) (i j k : ℤ) (g g' g'' : ℝ → ℝ) (D' η dz : ℝ) : Prop where
  smooth : Smooth g g' g'' D'
  spacing : 0 < dz
  up : I.height (k + 1) = I.height k + dz
  down : I.height (k - 1) = I.height k - dz
  above : |exp (-I.height (k + 1) / I.h) * (I.theta i j (k + 1) - t0 (k + 1)) / stat (k + 1) - g (I.height (k + 1))| ≤ η
  below : |exp (-I.height (k - 1) / I.h) * (I.theta i j (k - 1) - t0 (k - 1)) / stat (k - 1) - g (I.height (k - 1))| ≤ η

/-- The stretching term is of second order in the spacing of the levels. -/
theorem C214_stretching (hc : I.Column t0 stat i j k g g' g'' D' η dz) :
    |I.stretch t0 stat (I.cor j) i j k - 2 * I.om * sin (I.phi j) * (exp (I.height k / I.h) * g' (I.height k))| ≤
      2 * |I.om| * exp (I.height k / I.h) * (D' * dz ^ 2 + η / dz) := by
  have d0 := hc.spacing
  have c := hc.smooth.central (I.height k) d0.le
  have a1 := hc.above
  have a2 := hc.below
  rw [hc.up] at a1
  rw [hc.down] at a2
  unfold stretch alt cor
  rw [hc.up, hc.down]
  set A := exp (-(I.height k + dz) / I.h) * (I.theta i j (k + 1) - t0 (k + 1)) / stat (k + 1) with hA
  set B := exp (-(I.height k - dz) / I.h) * (I.theta i j (k - 1) - t0 (k - 1)) / stat (k - 1) with hB
  set E := exp (I.height k / I.h) with hE
  have E0 : 0 < E := exp_pos _
  have e : E * ((A - B) * (2 * I.om * sin (I.phi j)) / (I.height k + dz - (I.height k - dz))) - 2 * I.om * sin (I.phi j) * (E * g' (I.height k)) =
      2 * I.om * sin (I.phi j) * (E * ((A - B - 2 * dz * g' (I.height k)) / (2 * dz))) := by
    rw [show I.height k + dz - (I.height k - dz) = 2 * dz by ring]
    field_simp
  have q : |(A - B - 2 * dz * g' (I.height k)) / (2 * dz)| ≤ D' * dz ^ 2 + η / dz := by
    rw [abs_div, abs_of_pos (by positivity : 0 < 2 * dz), div_le_iff₀ (by positivity)]
    have e2 : (D' * dz ^ 2 + η / dz) * (2 * dz) = 2 * D' * dz ^ 3 + 2 * η := by field_simp
    rw [e2]
    rw [abs_le] at c a1 a2 ⊢
    constructor <;> linarith [c.1, c.2, a1.1, a1.2, a2.1, a2.2]
  rw [e, abs_mul, abs_mul, abs_mul, abs_mul, abs_of_pos E0, show |(2 : ℝ)| = 2 by norm_num]
  have s := abs_sin_le_one (I.phi j)
  have b : E * |(A - B - 2 * dz * g' (I.height k)) / (2 * dz)| ≤ E * (D' * dz ^ 2 + η / dz) := mul_le_mul_of_nonneg_left q E0.le
  have b2 : 2 * |I.om| * |sin (I.phi j)| ≤ 2 * |I.om| := mul_le_of_le_one_right (by positivity) s
  have := mul_le_mul b2 b (by positivity) (by positivity)
  linarith

/-- **C214.** The QGPV that the machine returns between the poles differs from that of the flow by at most the truncation errors of the horizontal and the vertical
differences, what the errors of the data make of them, and the rounding error. -/
theorem C214_total (hw : SmoothWind U V G G' G'' V' V'' D) (hh : I.Holds U V k ε) (h : I.Computed u fl p sn cs ex ey) (hU : ∀ i j k, |I.u i j k| ≤ W)
    (hV : ∀ i j k, |I.v i j k| ≤ W) (hz : ∀ k, 1 ≤ k → k < I.kmax → I.height k < I.height (k + 1))
    (hc : I.Column (if j ≤ jd then ts0 else tn0) (if j ≤ jd then stats else statn) i j k g g' g'' D' η dz)
    (hi1 : 1 ≤ i) (hi2 : i ≤ I.nlon) (h1 : 2 ≤ j) (h2 : j ≤ I.nlat - 1) (hk1 : 2 ≤ k) (hk2 : k ≤ I.kmax - 1) :
    |I.flPv22 fl p sn cs ex ey jd ts0 tn0 stats statn i j k - (2 * I.om * sin (I.phi j) +
        (V' (I.phi j) (((i - 1 : ℤ) : ℝ) * I.dphi) - G' (I.phi j) (((i - 1 : ℤ) : ℝ) * I.dphi)) / (I.a * cos (I.phi j)) +
        2 * I.om * sin (I.phi j) * (exp (I.height k / I.h) * g' (I.height k)))| ≤
      2 * D * I.dphi ^ 2 / (I.a * cos (I.phi j)) + 2 * ε / (I.a * cos (I.phi j) * I.dphi) +
        2 * |I.om| * exp (I.height k / I.h) * (D' * dz ^ 2 + η / dz) +
        91 * u * (2 * |I.om| + 2 * W / (I.a * cos (I.phi j) ^ 2 * I.dphi) +
          exp (I.height k / I.h) * ((|g (I.height k + dz)| + |g (I.height k - dz)| + 2 * η) * |I.om| / dz)) := by
  have t1 := C213_truncation hw hh h.radius hi1 hi2 h1 h2
  have t2 := C212_qgpv h hU hV h1 h2 hz ts0 tn0 stats statn jd i hk1 hk2
  have t3 := C214_stretching hc
  have d0 := hc.spacing
  have a1 := hc.above
  have a2 := hc.below
  have n0 := h.nonneg
  have pv : I.pv22 jd ts0 tn0 stats statn i j k =
      I.avort i j k + I.stretch (if j ≤ jd then ts0 else tn0) (if j ≤ jd then stats else statn) (I.cor j) i j k := by
    unfold pv22
    have hk : 2 ≤ k ∧ k ≤ I.kmax - 1 := ⟨hk1, hk2⟩
    rw [if_pos hk]
    split_ifs <;> rfl
  rw [pv] at t2
  -- the size of the stretching term
  have s1 : |I.alt (if j ≤ jd then ts0 else tn0) (if j ≤ jd then stats else statn) i j (k + 1)| ≤ |g (I.height k + dz)| + η := by
    rw [hc.up] at a1
    unfold alt
    rw [hc.up]
    have := abs_sub_abs_le_abs_sub (exp (-(I.height k + dz) / I.h) * (I.theta i j (k + 1) - (if j ≤ jd then ts0 else tn0) (k + 1)) /
      (if j ≤ jd then stats else statn) (k + 1)) (g (I.height k + dz))
    linarith
  have s2 : |I.alt (if j ≤ jd then ts0 else tn0) (if j ≤ jd then stats else statn) i j (k - 1)| ≤ |g (I.height k - dz)| + η := by
    rw [hc.down] at a2
    unfold alt
    rw [hc.down]
    have := abs_sub_abs_le_abs_sub (exp (-(I.height k - dz) / I.h) * (I.theta i j (k - 1) - (if j ≤ jd then ts0 else tn0) (k - 1)) /
      (if j ≤ jd then stats else statn) (k - 1)) (g (I.height k - dz))
    linarith
  have s3 : (|I.alt (if j ≤ jd then ts0 else tn0) (if j ≤ jd then stats else statn) i j (k + 1)| +
      |I.alt (if j ≤ jd then ts0 else tn0) (if j ≤ jd then stats else statn) i j (k - 1)|) * (2 * |I.om|) / (I.height (k + 1) - I.height (k - 1)) ≤
      (|g (I.height k + dz)| + |g (I.height k - dz)| + 2 * η) * |I.om| / dz := by
    rw [hc.up, hc.down, show I.height k + dz - (I.height k - dz) = 2 * dz by ring, div_le_div_iff₀ (by positivity) d0]
    have := mul_le_mul_of_nonneg_right (add_le_add s1 s2) (by positivity : 0 ≤ 2 * |I.om| * dz)
    nlinarith
  have s4 := mul_le_mul_of_nonneg_left s3 (exp_pos (I.height k / I.h)).le
  have s5 := mul_le_mul_of_nonneg_left s4 (by positivity : 0 ≤ 91 * u)
  have tri := abs_add_three
    (I.flPv22 fl p sn cs ex ey jd ts0 tn0 stats statn i j k -
      (I.avort i j k + I.stretch (if j ≤ jd then ts0 else tn0) (if j ≤ jd then stats else statn) (I.cor j) i j k))
    (I.avort i j k - (2 * I.om * sin (I.phi j) +
        (V' (I.phi j) (((i - 1 : ℤ) : ℝ) * I.dphi) - G' (I.phi j) (((i - 1 : ℤ) : ℝ) * I.dphi)) / (I.a * cos (I.phi j))))
    (I.stretch (if j ≤ jd then ts0 else tn0) (if j ≤ jd then stats else statn) (I.cor j) i j k -
      2 * I.om * sin (I.phi j) * (exp (I.height k / I.h) * g' (I.height k)))
  refine le_trans (le_of_eq (congrArg _ (by ring))) (tri.trans ?_)
  rw [mul_add (91 * u)] at t2 ⊢
  linarith

/-- A wave in the vertical whose temperature grows like `exp(z/H)`, for the reference temperature `300 + 2 k - exp(z/H) sin(z/5000)`. -/
theorem wavy_column (i j k : ℤ) : wavy.Column (fun k => 300 + 2 * k - exp (wavy.height k / wavy.h) * sin (wavy.height k / 5000)) (fun _ => 1 / 250) i j k
    (fun z => 250 * sin (z / 5000)) (fun z => cos (z / 5000) / 20) (fun z => -(sin (z / 5000) / 100000)) (1 / 500000000) 0 1000 where
  smooth := by
    have t : ∀ x : ℝ, HasDerivAt (fun x : ℝ => x / 5000) (1 / 5000) x := fun x => by simpa using (hasDerivAt_id x).div_const (5000 : ℝ)
    refine ⟨fun x => ?_, fun x => ?_, fun x y => ?_⟩
    · refine (((hasDerivAt_sin (x / 5000)).comp x (t x)).const_mul 250).congr_deriv ?_
      ring
    · refine (((hasDerivAt_cos (x / 5000)).comp x (t x)).div_const 20).congr_deriv ?_
      ring
    · have h1 := abs_sin_sub_sin_le (x / 5000) (y / 5000)
      have e : -(sin (x / 5000) / 100000) - -(sin (y / 5000) / 100000) = -(1 / 100000) * (sin (x / 5000) - sin (y / 5000)) := by ring
      have e2 : |x / 5000 - y / 5000| = |x - y| / 5000 := by rw [← sub_div, abs_div]; norm_num
      rw [e2] at h1
      rw [e, abs_mul, show |(-(1 / 100000) : ℝ)| = 1 / 100000 by norm_num]
      linarith
  spacing := by norm_num
  up := by simp only [wavy]; push_cast; ring
  down := by simp only [wavy]; push_cast; ring
  above := by
    have e : exp (-wavy.height (k + 1) / wavy.h) * exp (wavy.height (k + 1) / wavy.h) = 1 := by rw [← exp_add, neg_div, neg_add_cancel, exp_zero]
    have t : wavy.theta i j (k + 1) = 300 + 2 * ((k + 1 : ℤ) : ℝ) := rfl
    rw [t, sub_sub_cancel, ← mul_assoc, e]
    refine le_of_eq (abs_eq_zero.2 ?_)
    ring
  below := by
    have e : exp (-wavy.height (k - 1) / wavy.h) * exp (wavy.height (k - 1) / wavy.h) = 1 := by rw [← exp_add, neg_div, neg_add_cancel, exp_zero]
    have t : wavy.theta i j (k - 1) = 300 + 2 * ((k - 1 : ℤ) : ℝ) := rfl
    rw [t, sub_sub_cancel, ← mul_assoc, e]
    refine le_of_eq (abs_eq_zero.2 ?_)
    ring

/-- The hypotheses of C214 hold together; those on the wind and the machine are `wavy_smooth` and `wavy_holds`. -/
example : wavy.Holds (fun x l => 10 * cos x * sin l) (fun _ l => 10 * cos l) 20 (10 * (1 / 2) ^ 24) ∧
    wavy.Column (fun k => 300 + 2 * k - exp (wavy.height k / wavy.h) * sin (wavy.height k / 5000)) (fun _ => 1 / 250) 7 100 20
      (fun z => 250 * sin (z / 5000)) (fun z => cos (z / 5000) / 20) (fun z => -(sin (z / 5000) / 100000)) (1 / 500000000) 0 1000 ∧
    (∀ k, 1 ≤ k → k < wavy.kmax → wavy.height k < wavy.height (k + 1)) ∧ (20 : ℤ) ≤ wavy.kmax - 1 ∧ (100 : ℤ) ≤ wavy.nlat - 1 := by
  refine ⟨(wavy_holds 20).1, wavy_column 7 100 20, fun k _ _ => ?_, by norm_num [wavy], by norm_num [wavy]⟩
  simp only [wavy]
  push_cast
  linarith

end QgpvIn

end Falwa

end
