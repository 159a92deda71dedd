import Verif.Props.QgpvError
import Verif.Props.Qgpv18Rounding

/-!
# C218: total error of the QGPV of `compute_qgpv` on a given grid
-/

noncomputable section

namespace Falwa

open Real Spec

namespace QgpvIn

variable {I : QgpvIn} {fl : ℝ → ℝ} {u p W D D' ε η dz Q : ℝ} {sn cs ex ey t0 stat : ℤ → ℝ} {i j k : ℤ} {U V G G' G'' V' V'' : ℝ → ℝ → ℝ} {g g' g'' : ℝ → ℝ}

/-- Absolute vorticity of the flow at the grid point of column `i` and row `j`. -/
def flowVorticity (I : QgpvIn) (G' V' : ℝ → ℝ → ℝ) (j i : ℤ) : ℝ :=
  2 * I.om * sin (I.phi j) + (V' (I.phi j) (((i - 1 : ℤ) : ℝ) * I.dphi) - G' (I.phi j) (((i - 1 : ℤ) : ℝ) * I.dphi)) / (I.a * cos (I.phi j))

/-- The mean of the absolute vorticity of the flow over the columns. -/
def flowMean (I : QgpvIn) (G' V' : ℝ → ℝ → ℝ) (j : ℤ) : ℝ := (∑ i ∈ Finset.Icc 1 I.nlon, I.flowVorticity G' V' j i) / I.nlon

theorem column_quotient (hc : I.Column t0 stat i j k g g' g'' D' η dz) :
    |(I.alt t0 stat i j (k + 1) - I.alt t0 stat i j (k - 1)) / (I.height (k + 1) - I.height (k - 1)) - g' (I.height k)| ≤ D' * dz ^ 2 + η / dz := by
  have d0 := hc.spacing
  have c := hc.smooth.central (I.height k) d0.le
  have a1 := hc.above
  have a2 := hc.below
  rw [hc.up] at a1
  rw [hc.down] at a2
  unfold alt
  rw [hc.up, hc.down]
  set A := exp (-(I.height k + dz) / I.h) * (I.theta i j (k + 1) - t0 (k + 1)) / stat (k + 1) with hA
  set B := exp (-(I.height k - dz) / I.h) * (I.theta i j (k - 1) - t0 (k - 1)) / stat (k - 1) with hB
  have e : (A - B) / (I.height k + dz - (I.height k - dz)) - g' (I.height k) = (A - B - 2 * dz * g' (I.height k)) / (2 * dz) := by
    rw [show I.height k + dz - (I.height k - dz) = 2 * dz by ring]
    field_simp
  rw [e, abs_div, abs_of_pos (by positivity : 0 < 2 * dz), div_le_iff₀ (by positivity)]
  have e2 : (D' * dz ^ 2 + η / dz) * (2 * dz) = 2 * D' * dz ^ 3 + 2 * η := by field_simp
  rw [e2]
  rw [abs_le] at c a1 a2 ⊢
  constructor <;> linarith [c.1, c.2, a1.1, a1.2, a2.1, a2.2]

theorem mean_error (hw : SmoothWind U V G G' G'' V' V'' D) (hh : I.Holds U V k ε) (ha : 0 < I.a) (hn : 1 ≤ I.nlon) (h1 : 2 ≤ j) (h2 : j ≤ I.nlat - 1) :
    |I.zmean I.avort j k - I.flowMean G' V' j| ≤ 2 * D * I.dphi ^ 2 / (I.a * cos (I.phi j)) + 2 * ε / (I.a * cos (I.phi j) * I.dphi) := by
  have hn0 : (0 : ℝ) < (I.nlon : ℝ) := by exact_mod_cast (by omega : 0 < I.nlon)
  unfold zmean flowMean
  rw [dosum_eq, ← Finset.sum_div, ← sub_div, ← Finset.sum_sub_distrib, abs_div, abs_of_pos hn0, div_le_iff₀ hn0]
  refine (Finset.abs_sum_le_sum_abs _ _).trans ((Finset.sum_le_sum fun i hi => C213_truncation hw hh ha (Finset.mem_Icc.1 hi).1 (Finset.mem_Icc.1 hi).2 h1 h2).trans
    (le_of_eq ?_))
  rw [Finset.sum_const, Int.card_Icc, nsmul_eq_mul, add_sub_cancel_right]
  have : ((I.nlon.toNat : ℕ) : ℝ) = (I.nlon : ℝ) := by exact_mod_cast Int.toNat_of_nonneg (by omega : 0 ≤ I.nlon)
  rw [this, mul_comm]

/-- **C218 (truncation).** The finite differences of `compute_qgpv` in exact arithmetic. -/
theorem C218_truncation (hw : SmoothWind U V G G' G'' V' V'' D) (hh : I.Holds U V k ε) (ha : 0 < I.a) (hQ : ∀ i, 1 ≤ i → i ≤ I.nlon → |I.flowVorticity G' V' j i| ≤ Q)
    (hc : I.Column t0 stat i j k g g' g'' D' η dz) (hi1 : 1 ≤ i) (hi2 : i ≤ I.nlon) (h1 : 2 ≤ j) (h2 : j ≤ I.nlat - 1) (hk1 : 2 ≤ k) (hk2 : k ≤ I.kmax - 1) :
    |I.pv18 t0 stat i j k - (I.flowVorticity G' V' j i + I.flowMean G' V' j * (exp (I.height k / I.h) * g' (I.height k)))| ≤
      (2 * D * I.dphi ^ 2 / (I.a * cos (I.phi j)) + 2 * ε / (I.a * cos (I.phi j) * I.dphi)) *
          (1 + exp (I.height k / I.h) * (|g' (I.height k)| + (D' * dz ^ 2 + η / dz))) +
        Q * (exp (I.height k / I.h) * (D' * dz ^ 2 + η / dz)) := by
  have hn : 1 ≤ I.nlon := hi1.trans hi2
  have hn0 : (0 : ℝ) < (I.nlon : ℝ) := by exact_mod_cast (by omega : 0 < I.nlon)
  have t1 := C213_truncation hw hh ha hi1 hi2 h1 h2
  have t2 := mean_error hw hh ha hn h1 h2
  have t3 := column_quotient hc
  have qm : |I.flowMean G' V' j| ≤ Q := by
    unfold flowMean
    rw [abs_div, abs_of_pos hn0, div_le_iff₀ hn0]
    refine (Finset.abs_sum_le_sum_abs _ _).trans ((Finset.sum_le_sum fun i hi => hQ i (Finset.mem_Icc.1 hi).1 (Finset.mem_Icc.1 hi).2).trans (le_of_eq ?_))
    rw [Finset.sum_const, Int.card_Icc, nsmul_eq_mul, add_sub_cancel_right]
    have : ((I.nlon.toNat : ℕ) : ℝ) = (I.nlon : ℝ) := by exact_mod_cast Int.toNat_of_nonneg (by omega : 0 ≤ I.nlon)
    rw [this, mul_comm]
  unfold pv18 stretch
  have hk : 2 ≤ k ∧ k ≤ I.kmax - 1 := ⟨hk1, hk2⟩
  rw [if_pos hk]
  change |I.avort i j k - I.flowVorticity G' V' j i| ≤ _ at t1
  have E0 := exp_pos (I.height k / I.h)
  set E := exp (I.height k / I.h) with hE
  set T := 2 * D * I.dphi ^ 2 / (I.a * cos (I.phi j)) + 2 * ε / (I.a * cos (I.phi j) * I.dphi) with hT
  set δ := D' * dz ^ 2 + η / dz with hδ
  set s := (I.alt t0 stat i j (k + 1) - I.alt t0 stat i j (k - 1)) / (I.height (k + 1) - I.height (k - 1)) with hs
  set Z := I.zmean I.avort j k with hZ
  set M := I.flowMean G' V' j with hM
  set y := g' (I.height k) with hy
  have e : (I.alt t0 stat i j (k + 1) - I.alt t0 stat i j (k - 1)) * Z / (I.height (k + 1) - I.height (k - 1)) = s * Z := by rw [hs]; ring
  rw [e, show I.avort i j k + E * (s * Z) - (I.flowVorticity G' V' j i + M * (E * y)) =
    (I.avort i j k - I.flowVorticity G' V' j i) + (E * ((Z - M) * s) + E * (M * (s - y))) by ring]
  have T0 : 0 ≤ T := (abs_nonneg _).trans t1
  have s1 : |s| ≤ |y| + δ := by
    have := abs_sub_abs_le_abs_sub s y
    linarith
  have b1 : |E * ((Z - M) * s)| ≤ E * (T * (|y| + δ)) := by
    rw [abs_mul, abs_mul, abs_of_pos E0]
    exact mul_le_mul_of_nonneg_left (mul_le_mul t2 s1 (abs_nonneg _) T0) E0.le
  have b2 : |E * (M * (s - y))| ≤ E * (Q * δ) := by
    rw [abs_mul, abs_mul, abs_of_pos E0]
    exact mul_le_mul_of_nonneg_left (mul_le_mul qm t3 (abs_nonneg _) ((abs_nonneg _).trans qm)) E0.le
  have b3 := abs_add_le (I.avort i j k - I.flowVorticity G' V' j i) (E * ((Z - M) * s) + E * (M * (s - y)))
  have b4 := abs_add_le (E * ((Z - M) * s)) (E * (M * (s - y)))
  linarith

/-- **C218 (single precision).** The QGPV that `compute_qgpv` returns between the poles differs from that of the flow, with the mean over the columns of its absolute vorticity
in the stretching term, by at most the truncation and data errors and the rounding error. -/
theorem C218_total (hw : SmoothWind U V G G' G'' V' V'' D) (hh : I.Holds U V k ε) (h : I.Computed u fl p sn cs ex ey) (hU : ∀ i j k, |I.u i j k| ≤ W)
    (hV : ∀ i j k, |I.v i j k| ≤ W) (hz : ∀ k, 1 ≤ k → k < I.kmax → I.height k < I.height (k + 1))
    (hQ : ∀ i, 1 ≤ i → i ≤ I.nlon → |I.flowVorticity G' V' j i| ≤ Q) (hc : I.Column t0 stat i j k g g' g'' D' η dz)
    (hi1 : 1 ≤ i) (hi2 : i ≤ I.nlon) (h1 : 2 ≤ j) (h2 : j ≤ I.nlat - 1) (hk1 : 2 ≤ k) (hk2 : k ≤ I.kmax - 1) :
    |I.flPv18 fl p sn cs ex ey t0 stat i j k - (I.flowVorticity G' V' j i + I.flowMean G' V' j * (exp (I.height k / I.h) * g' (I.height k)))| ≤
      (2 * D * I.dphi ^ 2 / (I.a * cos (I.phi j)) + 2 * ε / (I.a * cos (I.phi j) * I.dphi)) *
          (1 + exp (I.height k / I.h) * (|g' (I.height k)| + (D' * dz ^ 2 + η / dz))) +
        Q * (exp (I.height k / I.h) * (D' * dz ^ 2 + η / dz)) +
      ((1 + 72 * u) * (1 + 21 * u) * (1 + 16 * u) * (1 + 2 * u) * (1 + u) ^ (I.nlon.toNat + 6) - 1) *
        ((2 * |I.om| + 2 * W / (I.a * cos (I.phi j) ^ 2 * I.dphi)) *
          (1 + exp (I.height k / I.h) * ((|I.alt t0 stat i j (k + 1)| + |I.alt t0 stat i j (k - 1)|) / (2 * dz)))) := by
  have t1 := C218_truncation hw hh h.radius hQ hc hi1 hi2 h1 h2 hk1 hk2
  have t2 := C215_qgpv h hU hV (hi1.trans hi2) h1 h2 hz t0 stat i hk1 hk2
  have e : I.height (k + 1) - I.height (k - 1) = 2 * dz := by rw [hc.up, hc.down]; ring
  rw [e] at t2
  refine (abs_sub_le _ (I.pv18 t0 stat i j k) _).trans ?_
  linarith

/-- The hypotheses hold together; those on the wind and the machine are `wavy_smooth` and `wavy_holds`. -/
example : wavy.Holds (fun x l => 10 * cos x * sin l) (fun _ l => 10 * cos l) 20 (10 * (1 / 2) ^ 24) ∧
    wavy.Column (fun k => 300 + 2 * k - exp (wavy.height k / wavy.h) * sin (wavy.height k / 5000)) (fun _ => 1 / 250) 7 91 20
      (fun z => 250 * sin (z / 5000)) (fun z => cos (z / 5000) / 20) (fun z => -(sin (z / 5000) / 100000)) (1 / 500000000) 0 1000 ∧
    (∀ k, 1 ≤ k → k < wavy.kmax → wavy.height k < wavy.height (k + 1)) ∧
    (∀ i, 1 ≤ i → i ≤ wavy.nlon → |wavy.flowVorticity (fun x l => -(10 * sin (2 * x)) * sin l) (fun _ l => -(10 * sin l)) 91 i| ≤ 1) := by
  refine ⟨(wavy_holds 20).1, wavy_column 7 91 20, fun k _ _ => ?_, fun i _ _ => ?_⟩
  · simp only [wavy]
    push_cast
    linarith
  · have e : wavy.phi 91 = 0 := by
      unfold phi
      simp only [wavy]
      push_cast
      ring
    unfold flowVorticity
    rw [e]
    have s := abs_sin_le_one (((i - 1 : ℤ) : ℝ) * wavy.dphi)
    rw [abs_le] at s ⊢
    simp only [sin_zero, cos_zero, mul_zero, zero_add, neg_zero, zero_mul, sub_zero, mul_one]
    have a : wavy.a = 6378000 := rfl
    rw [a]
    constructor <;> linarith [s.1, s.2]

end QgpvIn

end Falwa

end
