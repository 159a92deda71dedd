import Verif.Lemmas.Energy
import Verif.Lemmas.BalanceConverge

/-! # Mean-square error of the discretised balance equation

Here the source itself, not its slope, approximates that of the smooth solution. -/

noncomputable section

namespace Falwa.Spec

open Real Finset

theorem Planet.density_sum {p : Planet} (hh : 0 < p.h) (hz : 0 ≤ p.dz) (kmax : ℤ) : p.dz * ∑ k ∈ Ioo 1 kmax, p.density k ≤ p.h := by
  have step : ∀ k : ℤ, p.dz * p.density (k + 1) ≤ p.h * (p.density k - p.density (k + 1)) := by
    intro k
    have e : p.density k = p.density (k + 1) * exp (p.dz / p.h) := by
      unfold density Planet.height
      rw [← exp_add]
      congr 1
      push_cast
      field_simp
      ring
    have l := add_one_le_exp (p.dz / p.h)
    have d : 0 < p.density (k + 1) := exp_pos _
    rw [e]
    have m := mul_le_mul_of_nonneg_left l (mul_pos hh d).le
    have : p.h * p.density (k + 1) * (p.dz / p.h + 1) = p.density (k + 1) * p.dz + p.h * p.density (k + 1) := by
      field_simp
    linarith
  have all : ∀ n : ℕ, p.dz * ∑ k ∈ Ioo 1 (2 + (n : ℤ)), p.density k ≤ p.h * (1 - p.density (1 + n)) := by
    intro n
    induction n with
    | zero =>
      have e1 : Ioo (1 : ℤ) (2 + ((0 : ℕ) : ℤ)) = ∅ := by ext x; simp only [mem_Ioo, notMem_empty, iff_false]; push_cast; omega
      rw [e1, sum_empty, mul_zero]
      unfold density Planet.height
      simp
    | succ n ih =>
      have e1 : Ioo (1 : ℤ) (2 + ((n + 1 : ℕ) : ℤ)) = insert (1 + (n : ℤ) + 1) (Ioo 1 (2 + (n : ℤ))) := by
        ext x; simp only [mem_Ioo, mem_insert]; push_cast; omega
      rw [e1, sum_insert (by rw [mem_Ioo]; omega), mul_add]
      have := step (1 + n)
      rw [show (1 : ℤ) + ((n + 1 : ℕ) : ℤ) = 1 + n + 1 by push_cast; ring]
      linarith
  rcases lt_or_ge kmax 2 with h | h
  · have e1 : Ioo (1 : ℤ) kmax = ∅ := by ext x; simp only [mem_Ioo, notMem_empty, iff_false]; omega
    rw [e1, sum_empty, mul_zero]
    exact hh.le
  · have a := all (kmax - 2).toNat
    rw [show 2 + ((kmax - 2).toNat : ℤ) = kmax by omega] at a
    have : 0 < p.density (1 + ((kmax - 2).toNat : ℤ)) := exp_pos _
    have := mul_pos hh this
    linarith

namespace BalancedState

variable {B : BalancedState}

/-- Difference quotient of the sampled source. -/
theorem sampled_slope (hQ : ContDiff ℝ 3 B.Q) : ∃ C, 0 ≤ C ∧ ∀ (p : Planet) (S : ℤ → ℝ) (j0 j1 kmax : ℤ), B.Solves →
    B.Grid p S j0 j1 kmax → ∀ j k, j0 < j → j < j1 → 1 < k → k < kmax →
      |(B.Q (p.lat ((j + 1 : ℤ) : ℝ), p.height k) - B.Q (p.lat ((j - 1 : ℤ) : ℝ), p.height k)) / (2 * p.dphi) -
        deriv (fun x => B.Q (x, p.height k)) (p.lat j)| ≤ C * p.dphi ^ 2 := by
  have c1 : ContDiff ℝ 2 (pdx B.Q) := contDiff_pdx hQ (by norm_num)
  have c2 : ContDiff ℝ 1 (pdx (pdx B.Q)) := contDiff_pdx c1 (by norm_num)
  have c3 : ContDiff ℝ 0 (pdx (pdx (pdx B.Q))) := contDiff_pdx c2 (by norm_num)
  obtain ⟨C, C0, hC⟩ := exists_bound c3.continuous 0 (π / 2) 0 B.top
  refine ⟨C, C0, fun p S j0 j1 kmax hB hg j k a1 a2 k1 k2 => ?_⟩
  have hd := hg.dphi
  have s0 := hB.south0
  have b1 : (j0 : ℝ) + 1 ≤ j := by exact_mod_cast a1
  have b2 : (j : ℝ) + 1 ≤ j1 := by exact_mod_cast a2
  obtain ⟨z1, z2⟩ := hg.height_mem (x := k) (by exact_mod_cast k1.le) (by exact_mod_cast k2.le)
  have e1 : p.lat ((j + 1 : ℤ) : ℝ) = p.lat j + p.dphi := by unfold Planet.lat; push_cast; ring
  have e2 : p.lat ((j - 1 : ℤ) : ℝ) = p.lat j - p.dphi := by unfold Planet.lat; push_cast; ring
  have l1 := (hg.lat_mem (x := ((j - 1 : ℤ) : ℝ)) (by push_cast; linarith) (by push_cast; linarith)).1
  have l2 := (hg.lat_mem (x := ((j + 1 : ℤ) : ℝ)) (by push_cast; linarith) (by push_cast; linarith)).2
  rw [e2] at l1
  rw [e1] at l2
  have m := midpoint_le (f := fun x => B.Q (x, p.height k)) (x := p.lat j) (h := p.dphi) (C := C) hd.le
    (fun x => hasDerivAt_pdx hQ (by norm_num) x _) (fun x => hasDerivAt_pdx c1 (by norm_num) x _)
    (fun x => hasDerivAt_pdx c2 (by norm_num) x _) (fun y y1 y2 => hC y _ (by linarith) (by linarith) z1 z2)
  rw [e1, e2, (hasDerivAt_pdx hQ (by norm_num) (p.lat j) (p.height k)).deriv]
  beta_reduce at m
  have e : (B.Q (p.lat j + p.dphi, p.height k) - B.Q (p.lat j - p.dphi, p.height k)) / (2 * p.dphi) - pdx B.Q (p.lat j, p.height k) =
      (B.Q (p.lat j + p.dphi, p.height k) - B.Q (p.lat j - p.dphi, p.height k) - 2 * p.dphi * pdx B.Q (p.lat j, p.height k)) /
        (2 * p.dphi) := by
    field_simp
  rw [e, abs_div, abs_of_pos (by linarith : 0 < 2 * p.dphi), div_le_iff₀ (by linarith)]
  refine m.trans (le_of_eq ?_)
  ring

/-- Plain numbers: squares of a sum. -/
theorem square_sum {x A d c β s ε : ℝ} (x0 : 0 ≤ x) (hx : x ≤ β + c * s + d) (β0 : 0 ≤ β) (c0 : 0 ≤ c) (s0 : 0 ≤ s) (ε0 : 0 ≤ ε)
    (hA : A = β + s + ε) : x ^ 2 ≤ 2 * ((1 + c) ^ 2 * A ^ 2) + 2 * d ^ 2 := by
  have h1 : β + c * s ≤ (1 + c) * A := by
    rw [hA]
    nlinarith [mul_nonneg c0 β0, mul_nonneg c0 ε0]
  have h2 : 0 ≤ β + c * s := by positivity
  have h3 : x ≤ (1 + c) * A + d := by linarith
  have h4 := pow_le_pow_left₀ x0 h3 2
  nlinarith [sq_nonneg ((1 + c) * A - d)]

/-- A solution of the discretised equation whose source approximates that of a smooth solution of the balance equation approximates
that solution in the mean square over the levels, whatever rows are looked at. -/
theorem Solves.mean_error (hB : B.Solves) (hQ : ContDiff ℝ 3 B.Q) : ∃ C, 0 ≤ C ∧
    ∀ (p : Planet) (S : ℤ → ℝ) (j0 j1 kmax kt : ℤ), B.Grid p S j0 j1 kmax →
    kt = kmax - 1 ∨ kt = kmax - 2 → ∀ (Q W : ℤ → ℤ → ℝ) (β ε τ : ℝ), 0 ≤ β → 0 ≤ ε → 0 ≤ τ →
    (∀ j k, j0 < j → j < j1 → 1 < k → k < kmax → p.Elliptic S Q W j k) →
    (∀ j k, j0 ≤ j → j ≤ j1 → 1 < k → k < kmax → |Q j k - B.Q (p.lat j, p.height k)| ≤ ε) →
    (∀ k, 1 < k → k < kmax → |W j0 k - B.u (p.lat j0, p.height k) * cos (p.lat j0)| ≤ β) →
    (∀ k, 1 < k → k < kmax → W j1 k = 0) → (∀ j, j0 < j → j < j1 → W j 1 = 0) →
    (∀ j, j0 < j → j < j1 → |(W j kmax - W j kt) / (((kmax - kt : ℤ) : ℝ) * p.dz) - cos (p.lat j) * B.shear (p.lat j) B.top| ≤ τ) →
    ∀ J : ℤ → ℤ, (∀ k, 1 < k → k < kmax → j0 < J k ∧ J k < j1) →
      p.dz * ∑ k ∈ Ioo 1 (kt + 1), p.density k * |W (J k) k - B.u (p.lat (J k), p.height k) * cos (p.lat (J k))| ^ 2 ≤
        C * (β + (p.dphi ^ 2 + p.dz + τ) + ε) ^ 2 := by
  obtain ⟨C, C0, hC⟩ := hB.error
  obtain ⟨D, D0, hD⟩ := sampled_slope hQ
  have hh := hB.h0
  refine ⟨2 * B.h * ((1 + C * (1 + D)) ^ 2 + (π / 2 * (B.om * B.a)) ^ 2), by positivity, ?_⟩
  intro p S j0 j1 kmax kt hg hkt Q W β ε τ β0 ε0 τ0 hW hq h0 h1 hb ht J hJ
  have hl := hg.levels
  have hz := hg.dz
  have hd := hg.dphi
  have st := hg.stable hB
  have span : p.dphi * ((j1 - j0 : ℤ) : ℝ) ≤ π / 2 := by
    have q1 := hg.pole
    have q2 := hg.first
    have q3 := hB.south0
    unfold Planet.lat at q1 q2
    push_cast
    nlinarith
  obtain ⟨V, v1, v2, v3, v4, v5⟩ := exists_solution (kt := kt) hg.rows (by omega : 1 < kmax) st.pos (by omega) (by omega)
    (fun j k => -(p.om * p.a * p.dphi * (B.Q (p.lat ((j + 1 : ℤ) : ℝ), p.height k) - B.Q (p.lat ((j - 1 : ℤ) : ℝ), p.height k))))
    (fun k => W j0 k) (fun _ => 0) (fun j => W j kmax - W j kt)
  have ve : ∀ j k, j0 < j → j < j1 → 1 < k → k < kmax →
      p.Elliptic S (fun j k => B.Q (p.lat j, p.height k)) V j k := fun j k a1 a2 k1 k2 =>
    (Planet.elliptic_iff _ V j k).2 (v1 j k a1 a2 k1 k2)
  obtain ⟨d, _, d1, d2⟩ := st.respond hg.rows hl hd span (q := fun _ => ε) le_rfl le_rfl hkt hW ve hq
    (fun k _ _ => by rw [v2, sub_self, abs_zero]) (fun k k1 k2 => by rw [v3, h1 k k1 k2]) hb v4
    (fun j a1 a2 => by rw [v5 j a1 a2, add_sub_cancel_left, sub_self, abs_zero]) J hJ
  have close : ∀ k, 1 < k → k < kmax → |W (J k) k - B.u (p.lat (J k), p.height k) * cos (p.lat (J k))| ≤
      β + C * (1 + D) * (p.dphi ^ 2 + p.dz + τ) + d k := by
    intro k k1 k2
    obtain ⟨a1, a2⟩ := hJ k k1 k2
    have e := hC p S j0 j1 kmax kt hg (by omega) (by omega) (fun j k => B.Q (p.lat j, p.height k)) V β (D * p.dphi ^ 2) τ β0
      (by positivity) τ0 ve (fun j k a1 a2 k1 k2 => hD p S j0 j1 kmax hB hg j k a1 a2 k1 k2) (fun k k1 k2 => by
        rw [v2]; exact h0 k k1 k2) (fun k _ _ => v3 k) v4 (fun j a1 a2 => by
        rw [v5 j a1 a2, add_sub_cancel_left]; exact ht j a1 a2) (J k) k a1 a2 k1 k2
    have b := d1 k k1 k2
    rw [zero_mul, add_zero, zero_add] at b
    have tri := abs_sub_le (W (J k) k) (V (J k) k) (B.u (p.lat (J k), p.height k) * cos (p.lat (J k)))
    have : C * (p.dphi ^ 2 + p.dz + D * p.dphi ^ 2 + τ) ≤ C * (1 + D) * (p.dphi ^ 2 + p.dz + τ) := by
      rw [mul_assoc]
      refine mul_le_mul_of_nonneg_left ?_ C0
      have := mul_nonneg D0 hz.le
      have := mul_nonneg D0 τ0
      linarith
    linarith
  set A := β + (p.dphi ^ 2 + p.dz + τ) + ε with hA
  have each : ∀ k ∈ Ioo 1 (kt + 1), p.density k * |W (J k) k - B.u (p.lat (J k), p.height k) * cos (p.lat (J k))| ^ 2 ≤
      2 * ((1 + C * (1 + D)) ^ 2 * A ^ 2) * p.density k + 2 * (p.density k * d k ^ 2) := by
    intro k hk
    rw [mem_Ioo] at hk
    have q := square_sum (abs_nonneg _) (close k hk.1 (by omega)) β0 (mul_nonneg C0 (by linarith)) (by positivity) ε0 hA
    have := mul_le_mul_of_nonneg_left q (exp_pos (-(p.height k / p.h))).le
    unfold Planet.density
    linarith
  have s1 := sum_le_sum each
  rw [sum_add_distrib, ← mul_sum, ← mul_sum] at s1
  have hph : p.h = B.h := hg.h
  have r1 : p.dz * ∑ k ∈ Ioo 1 (kt + 1), p.density k ≤ B.h := by rw [← hph]; exact Planet.density_sum (by rw [hph]; exact hh) hz.le _
  have r2 : p.dz * ∑ k ∈ Ioo 1 kmax, p.density k ≤ B.h := by rw [← hph]; exact Planet.density_sum (by rw [hph]; exact hh) hz.le _
  rw [← sum_mul, hg.om, hg.a] at d2
  have m1 := mul_le_mul_of_nonneg_left s1 hz.le
  have m2 := mul_le_mul_of_nonneg_left d2 hz.le
  have m3 := mul_le_mul_of_nonneg_left r1 (by positivity : 0 ≤ 2 * ((1 + C * (1 + D)) ^ 2 * A ^ 2))
  have m4 := mul_le_mul_of_nonneg_left r2 (by positivity : 0 ≤ (π / 2 * (B.om * B.a)) ^ 2 * ε ^ 2)
  have εA : ε ^ 2 ≤ A ^ 2 := pow_le_pow_left₀ ε0 (by
    have : 0 ≤ p.dphi ^ 2 := sq_nonneg _
    rw [hA]; linarith) 2
  have m5 := mul_le_mul_of_nonneg_left εA (by positivity : 0 ≤ 2 * B.h * (π / 2 * (B.om * B.a)) ^ 2)
  linarith

end BalancedState

end Falwa.Spec
