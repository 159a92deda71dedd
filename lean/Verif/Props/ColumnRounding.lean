import Verif.Props.FluxRounding
import Verif.Lemmas.Near

/-!
# C133: error of the sum of both parts and of the column average
-/

noncomputable section

namespace Falwa

open Real Finset

namespace LwaIn

variable {I : LwaIn} {m : Machine} {u : ℝ}

/-- The displaced QGPV of row `j`: positive anomalies south of it, negative anomalies from it to the pole. -/
def displaced (I : LwaIn) (i j k : ℤ) : ℝ :=
  ∑ jj ∈ (Icc 1 I.nd).filter (fun jj => 0 < I.qeEx i j k jj ∧ jj < j), I.qeEx i j k jj +
  ∑ jj ∈ (Icc 1 I.nd).filter (fun jj => I.qeEx i j k jj ≤ 0 ∧ j ≤ jj), -I.qeEx i j k jj

theorem displaced_nonneg (i j k : ℤ) : 0 ≤ I.displaced i j k :=
  add_nonneg (sum_nonneg fun _ hx => (mem_filter.1 hx).2.1.le) (sum_nonneg fun _ hx => neg_nonneg.2 (mem_filter.1 hx).2.1)

/-- The factor of `C133_error_partial`. -/
def rowFactor (I : LwaIn) (u : ℝ) : ℝ := (1 + u) ^ (I.nd.toNat + 7) + ((1 + u) ^ 3 - 1) * (π / 2)

theorem rowFactor_ge (hu : 0 ≤ u) : 1 ≤ I.rowFactor u := by
  unfold rowFactor
  have h1 : (1 : ℝ) ≤ (1 + u) ^ (I.nd.toNat + 7) := one_le_pow₀ (by linarith)
  have h2 : (1 : ℝ) ≤ (1 + u) ^ 3 := one_le_pow₀ (by linarith)
  have := mul_nonneg (sub_nonneg.2 h2) (div_pos pi_pos two_pos).le
  linarith

/-- Both parts in exact arithmetic are at most the displaced QGPV times the spacing. -/
theorem acc_near (h : I.Sized) (hs : m.Standard u) (i j k : ℤ) :
    Near (I.rowFactor u) (I.a * I.dp * I.displaced i j k) ((I.accFl m i j k).1 + (I.accFl m i j k).2)
      ((I.acc i j k).1 + (I.acc i j k).2) := by
  obtain ⟨e1, e2⟩ := C133_error_partial h hs i j k
  have hD : 0 < I.a * I.dp := mul_pos h.a_pos h.dp_pos
  have ef : (1 + u) ^ (I.nd.toNat + 7) - 1 + ((1 + u) ^ 3 - 1) * (π / 2) = I.rowFactor u - 1 := by unfold rowFactor; ring
  rw [ef] at e1 e2
  unfold displaced
  rw [mul_add]
  refine Near.add ⟨?_, ?_⟩ ⟨?_, ?_⟩
  · refine e1.trans (le_of_eq ?_); ring
  · rw [acc_fst, sum_filter, mul_sum]
    refine (abs_sum_le_sum_abs _ _).trans (sum_le_sum fun jj _ => ?_)
    rw [abs_mul, abs_mul, abs_of_pos hD]
    have hc := abs_cos_le_one (I.dp * ((jj - 1 : ℤ) : ℝ))
    split_ifs with hq
    · rw [abs_of_pos hq.1]
      have := mul_le_mul_of_nonneg_left hc (mul_nonneg hq.1.le hD.le)
      linarith
    · simp
  · refine e2.trans (le_of_eq ?_); ring
  · rw [acc_snd, sum_filter, mul_sum]
    refine (abs_sum_le_sum_abs _ _).trans (sum_le_sum fun jj _ => ?_)
    rw [abs_mul, abs_mul, abs_of_pos hD]
    have hc := abs_cos_le_one (I.dp * ((jj - 1 : ℤ) : ℝ))
    split_ifs with hq
    · rw [abs_neg, abs_of_nonpos hq.1]
      have := mul_le_mul_of_nonneg_left hc (mul_nonneg (neg_nonneg.2 hq.1) hD.le)
      linarith
    · simp

theorem lwaFl_near (h : I.Sized) (hs : m.Standard u) (i j k : ℤ) :
    Near (I.rowFactor u * (1 + u)) (I.a * I.dp * I.displaced i j k) (I.lwaFl m i j k) ((I.acc i j k).1 + (I.acc i j k).2) :=
  (acc_near h hs i j k).fl hs.rel hs.nonneg

/-- C133. The wave activity, the sum of both parts, differs from its exact value by at most a relative error of the displaced QGPV. -/
theorem C133_sum_error_partial (h : I.Sized) (hs : m.Standard u) (i j k : ℤ) :
    |I.lwaFl m i j k - ((I.acc i j k).1 + (I.acc i j k).2)| ≤
      (((1 + u) ^ (I.nd.toNat + 7) + ((1 + u) ^ 3 - 1) * (π / 2)) * (1 + u) - 1) * (I.a * I.dp * I.displaced i j k) :=
  (lwaFl_near h hs i j k).1

theorem weight_near (hs : m.Standard u) (hh : 0 < I.h) (hdz : 0 < I.dz) {k : ℤ} (h1 : 1 ≤ k) (h2 : k ≤ I.kmax - 1) :
    Near (exp (((1 + u) ^ 3 - 1) * (I.dz * ((I.kmax - 2 : ℤ) : ℝ) / I.h)) * (1 + u)) (exp (-(I.dz * ((k - 1 : ℤ) : ℝ)) / I.h))
      (m.expFl (m.fl (m.fl (-(m.fl (I.dz * ((k - 1 : ℤ) : ℝ)))) / I.h))) (exp (-(I.dz * ((k - 1 : ℤ) : ℝ)) / I.h)) := by
  have u0 := hs.nonneg
  have k0 : (0 : ℝ) ≤ ((k - 1 : ℤ) : ℝ) := by exact_mod_cast (by omega : 0 ≤ k - 1)
  have k1 : ((k - 1 : ℤ) : ℝ) ≤ ((I.kmax - 2 : ℤ) : ℝ) := by exact_mod_cast (by omega : k - 1 ≤ I.kmax - 2)
  have z0 : 0 ≤ I.dz * ((k - 1 : ℤ) : ℝ) := mul_nonneg hdz.le k0
  have n1 := ((((Near.refl (I.dz * ((k - 1 : ℤ) : ℝ))).fl hs.rel u0).neg.fl hs.rel u0).mul
    (by nlinarith) (Near.refl (I.h⁻¹))).fl hs.rel u0
  rw [← div_eq_mul_inv, ← div_eq_mul_inv, abs_of_nonneg z0, abs_of_pos (inv_pos.2 hh)] at n1
  have p3 : (0 : ℝ) ≤ (1 + u) ^ 3 - 1 := by linarith [one_le_pow₀ (by linarith : (1 : ℝ) ≤ 1 + u) (n := 3)]
  have hx : |m.fl (m.fl (-(m.fl (I.dz * ((k - 1 : ℤ) : ℝ)))) / I.h) - -(I.dz * ((k - 1 : ℤ) : ℝ)) / I.h| ≤
      ((1 + u) ^ 3 - 1) * (I.dz * ((I.kmax - 2 : ℤ) : ℝ) / I.h) := by
    refine n1.1.trans ?_
    rw [show (1 * (1 + u) * (1 + u) * 1 * (1 + u) : ℝ) = (1 + u) ^ 3 by ring]
    refine mul_le_mul_of_nonneg_left ?_ p3
    rw [div_eq_mul_inv]
    exact mul_le_mul_of_nonneg_right (mul_le_mul_of_nonneg_left k1 hdz.le) (inv_pos.2 hh).le
  refine (Near.exp hx).step u0 ?_
  rw [abs_of_pos (exp_pos _)]
  exact hs.expRel _

/-- C133. So does the column average `astarbaro`. With `u = 2^-24`, 91 rows, 49 levels of 1 km and a scale height of 7 km the factor is
below `2e-5`. -/
theorem C133_column_error_partial (h : I.Sized) (hs : m.Standard u) (hk : 2 ≤ I.kmax) (hh : 0 < I.h) (hdz : 0 < I.dz) (hpf : 0 < I.prefac)
    {i j : ℤ} (hr : I.InRange i j) :
    |I.columnFl m i j - I.lwaOnly.astarbaro i j| ≤
      (((1 + u) ^ (I.nd.toNat + 7) + ((1 + u) ^ 3 - 1) * (π / 2)) * exp (((1 + u) ^ 3 - 1) * (I.dz * ((I.kmax - 2 : ℤ) : ℝ) / I.h)) *
        (1 + u) ^ (5 + (I.kmax - 2).toNat) - 1) *
      (I.a * I.dp * ∑ k ∈ Icc 2 (I.kmax - 1), I.displaced i j k * (exp (-(I.dz * ((k - 1 : ℤ) : ℝ)) / I.h) * (I.dz / I.prefac))) := by
  have u0 := hs.nonneg
  rw [(lwaOnly_eq I h.jb0 i j).2.2.1, if_pos hr]
  set E := exp (((1 + u) ^ 3 - 1) * (I.dz * ((I.kmax - 2 : ℤ) : ℝ) / I.h))
  have k2 : (0 : ℝ) ≤ ((I.kmax - 2 : ℤ) : ℝ) := by exact_mod_cast (by omega : 0 ≤ I.kmax - 2)
  have hE : 1 ≤ E := by
    apply one_le_exp
    have p3 : (0 : ℝ) ≤ (1 + u) ^ 3 - 1 := by linarith [one_le_pow₀ (by linarith : (1 : ℝ) ≤ 1 + u) (n := 3)]
    exact mul_nonneg p3 (div_nonneg (mul_nonneg hdz.le k2) hh.le)
  have hF := rowFactor_ge (I := I) u0
  have hFu : 1 ≤ I.rowFactor u * (1 + u) := by nlinarith
  have hR0 : 1 ≤ I.rowFactor u * E := by nlinarith
  have p5 : (1 : ℝ) ≤ (1 + u) ^ 5 := one_le_pow₀ (by linarith)
  have hR : 1 ≤ I.rowFactor u * E * (1 + u) ^ 5 := by nlinarith
  have hd : 0 < I.dz / I.prefac := div_pos hdz hpf
  have main := Near.loop (lo := 2) (hi := I.kmax - 1) (by omega) (f := I.columnStepFl m i j) (fun s : ℝ => s)
    (fun k => ((I.acc i j k).1 + (I.acc i j k).2) * I.weight k)
    (fun k => I.a * I.dp * I.displaced i j k * (exp (-(I.dz * ((k - 1 : ℤ) : ℝ)) / I.h) * (I.dz / I.prefac)))
    (I.rowFactor u * E * (1 + u) ^ 5) (c := 1 + u) (by linarith) (by linarith) ?_ (s := 0) (S := 0) (A := 0) le_rfl (Near.zero _)
  · have := main.1
    rw [zero_add, zero_add] at this
    refine this.trans (le_of_eq ?_)
    have e : ∑ k ∈ Icc 2 (I.kmax - 1), I.a * I.dp * I.displaced i j k * (exp (-(I.dz * ((k - 1 : ℤ) : ℝ)) / I.h) * (I.dz / I.prefac)) =
        I.a * I.dp * ∑ k ∈ Icc 2 (I.kmax - 1), I.displaced i j k * (exp (-(I.dz * ((k - 1 : ℤ) : ℝ)) / I.h) * (I.dz / I.prefac)) := by
      rw [mul_sum]
      exact sum_congr rfl fun k _ => mul_assoc _ _ _
    rw [e, show I.kmax - 1 + 1 - 2 = I.kmax - 2 by ring, mul_assoc (I.rowFactor u * E), ← pow_add]
    rfl
  · intro k s r A S h1 h2 hrR hn
    have hx := ((lwaFl_near h hs i j k).mul hFu (weight_near (I := I) hs hh hdz (by omega : 1 ≤ k) h2)).fl hs.rel u0
    have hy := (Near.refl (I.dz / I.prefac)).fl hs.rel u0
    rw [abs_of_pos hd] at hy
    have hxr : 1 ≤ I.rowFactor u * (1 + u) * (E * (1 + u)) * (1 + u) := by
      rw [show I.rowFactor u * (1 + u) * (E * (1 + u)) * (1 + u) = I.rowFactor u * E * (1 + u) ^ 3 by ring]
      have p3 : (1 : ℝ) ≤ (1 + u) ^ 3 := one_le_pow₀ (by linarith)
      nlinarith
    have hp := hx.mul hxr hy
    obtain ⟨p, hp1, hp2⟩ := m.mulAdd_eq hs s
      (m.fl (I.lwaFl m i j k * m.expFl (m.fl (m.fl (-(m.fl (I.dz * ((k - 1 : ℤ) : ℝ)))) / I.h)))) (m.fl (I.dz / I.prefac))
    have hp3 := (hp.step u0 hp1).mono (r' := r) (by
      refine le_trans (le_of_eq ?_) hrR
      ring)
    show Near _ _ (I.columnStepFl m i j k s) _
    unfold columnStepFl
    rw [hp2]
    have hfin := (hn.add hp3).fl hs.rel u0
    unfold weight
    rw [← mul_assoc, ← mul_assoc]
    exact hfin

/-- The factor of `C133_column_error_partial` for 91 rows and 49 levels. -/
example : ((1 + (1 / 2 : ℝ) ^ 24) ^ (91 + 7) + ((1 + (1 / 2 : ℝ) ^ 24) ^ 3 - 1) * (π / 2)) *
    exp (((1 + (1 / 2 : ℝ) ^ 24) ^ 3 - 1) * (1000 * 47 / 7000)) * (1 + (1 / 2 : ℝ) ^ 24) ^ (5 + 47) - 1 < 2 / 10 ^ 5 := by
  have h2 := pi_lt_d2
  have h4 : (0 : ℝ) ≤ (1 + (1 / 2 : ℝ) ^ 24) ^ 3 - 1 := by norm_num
  have hx : ((1 + (1 / 2 : ℝ) ^ 24) ^ 3 - 1) * (1000 * 47 / 7000) < 13 / 10 ^ 7 := by norm_num
  have he : exp (((1 + (1 / 2 : ℝ) ^ 24) ^ 3 - 1) * (1000 * 47 / 7000)) ≤ 1 / (1 - 13 / 10 ^ 7) := by
    refine (exp_le_exp.2 hx.le).trans ?_
    rw [le_div_iff₀ (by norm_num)]
    have := add_one_le_exp (-(13 / 10 ^ 7 : ℝ))
    have h3 := exp_pos (13 / 10 ^ 7 : ℝ)
    have h5 : exp (13 / 10 ^ 7 : ℝ) * exp (-(13 / 10 ^ 7 : ℝ)) = 1 := by rw [← exp_add]; simp
    nlinarith
  have hA : (1 + (1 / 2 : ℝ) ^ 24) ^ (91 + 7) + ((1 + (1 / 2 : ℝ) ^ 24) ^ 3 - 1) * (π / 2) ≤
      (1 + (1 / 2 : ℝ) ^ 24) ^ (91 + 7) + ((1 + (1 / 2 : ℝ) ^ 24) ^ 3 - 1) * (3.15 / 2) := by nlinarith
  have hA0 : (0 : ℝ) ≤ (1 + (1 / 2 : ℝ) ^ 24) ^ (91 + 7) + ((1 + (1 / 2 : ℝ) ^ 24) ^ 3 - 1) * (3.15 / 2) := by norm_num
  have h6 := mul_le_mul hA he (exp_pos _).le hA0
  have h7 := mul_le_mul_of_nonneg_right h6 (by positivity : (0 : ℝ) ≤ (1 + (1 / 2 : ℝ) ^ 24) ^ (5 + 47))
  refine lt_of_le_of_lt (sub_le_sub_right h7 1) ?_
  norm_num

/-- Hypotheses of `C133_column_error_partial`: the one degree grid in single precision. -/
example : poleSample.Sized ∧ (Machine.single true).Standard ((1 / 2) ^ 24) ∧ 2 ≤ poleSample.kmax ∧ 0 < poleSample.h ∧
    0 < poleSample.dz ∧ 0 < poleSample.prefac ∧ poleSample.InRange 1 90 :=
  ⟨poleSample_sized, Machine.single_standard true, by decide, by norm_num [poleSample], by norm_num [poleSample],
    by norm_num [poleSample], by unfold InRange; decide⟩

end LwaIn

end Falwa

end
