import Verif.Lemmas.BalanceError

/-! # Error of a solution of the discretised balance equation -/

noncomputable section

namespace Falwa

/-- Difference quotient at the end of an interval. -/
theorem backward_le {f f' f'' : ℝ → ℝ} {C a b : ℝ} (hab : a ≤ b) (d : ∀ x, HasDerivAt f (f' x) x) (d' : ∀ x, HasDerivAt f' (f'' x) x)
    (hb : ∀ x, a ≤ x → x ≤ b → |f'' x| ≤ C) : |f b - f a - (b - a) * f' b| ≤ C * (b - a) ^ 2 := by
  have e : ∀ x, HasDerivAt (fun y => f y - y * f' b) (f' x - f' b) x := by
    intro x
    refine ((d x).sub ((hasDerivAt_id x).mul_const (f' b))).congr_deriv ?_
    ring
  have C0 : 0 ≤ C := (abs_nonneg _).trans (hb a le_rfl hab)
  have := diff_le (C := C * (b - a)) hab e (fun x x1 x2 => by
    rw [abs_sub_comm]
    refine (diff_le x2 d' (fun y y1 y2 => hb y (by linarith) y2)).trans ?_
    exact mul_le_mul_of_nonneg_left (by linarith) C0)
  refine le_trans (le_of_eq ?_) (this.trans (le_of_eq ?_))
  · congr 1
    ring
  · ring

namespace Spec.BalancedState

open Real Finset

variable {B : BalancedState}

theorem combine {b X d ε τ Cs Cc C4 P T w : ℝ} (X0 : 0 ≤ X) (d0 : 0 ≤ d) (ε0 : 0 ≤ ε) (τ0 : 0 ≤ τ) (Cs0 : 0 ≤ Cs) (Cc0 : 0 ≤ Cc)
    (C40 : 0 ≤ C4) (P1 : P ≤ 1) (T0 : 0 ≤ T) (w0 : 0 ≤ w) :
    b + Cs * X + P * (Cc * (X + d) + w * ε) + T * (τ + C4 * (2 * d) + Cs * X) + Cs * X ≤
      b + (2 * Cs + Cc + w + T * (1 + 2 * C4 + Cs)) * (X + d + ε + τ) := by
  have h1 : P * (Cc * (X + d) + w * ε) ≤ 1 * (Cc * (X + d) + w * ε) := mul_le_mul_of_nonneg_right P1 (by positivity)
  have n1 : 0 ≤ Cs * d := by positivity
  have n2 : 0 ≤ Cs * ε := by positivity
  have n3 : 0 ≤ Cs * τ := by positivity
  have n4 : 0 ≤ Cc * (ε + τ) := by positivity
  have n5 : 0 ≤ w * (X + d + τ) := by positivity
  have n6 : 0 ≤ T * (X + d + ε) := by positivity
  have n7 : 0 ≤ T * (2 * C4) * (X + ε + τ) := by positivity
  have n8 : 0 ≤ T * Cs * (d + ε + τ) := by positivity
  have e : (2 * Cs + Cc + w + T * (1 + 2 * C4 + Cs)) * (X + d + ε + τ) =
      2 * (Cs * X) + (Cc * (X + d) + w * ε) + T * (τ + C4 * (2 * d) + Cs * X) + 2 * (Cs * d) + 2 * (Cs * ε) + 2 * (Cs * τ) +
      Cc * (ε + τ) + w * (X + d + τ) + T * (X + d + ε) + T * (2 * C4) * (X + ε + τ) + T * Cs * (d + ε + τ) := by ring
  rw [e]
  linarith

theorem Grid.column_le {p : Planet} {S : ℤ → ℝ} {j0 j1 kmax : ℤ} (hg : B.Grid p S j0 j1 kmax) {m M : ℝ} (m0 : 0 < m)
    (hm : ∀ z d, 0 ≤ d → 0 ≤ z - d / 2 → z + d / 2 ≤ B.top → m ≤ B.mesh z d ∧ B.mesh z d ≤ M) {k : ℤ} (k1 : 1 ≤ k) (k2 : k ≤ kmax) :
    p.column S kmax k * p.dz ≤ B.top * (M / m) := by
  have hz := hg.dz
  have hl := hg.levels
  have lk : ∀ l, 1 ≤ l → l < kmax → m ≤ p.link S l ∧ p.link S l ≤ M := by
    intro l l1 l2
    have b1 : (1 : ℝ) ≤ l := by exact_mod_cast l1
    have b2 : (l : ℝ) + 1 ≤ kmax := by exact_mod_cast l2
    rw [hg.link_eq l1 l2]
    have e1 := (hg.height_mem (x := (l : ℝ)) b1 (by linarith)).1
    have e2 := (hg.height_mem (x := (l : ℝ) + 1) (by linarith) b2).2
    refine hm _ _ hz.le ?_ ?_ <;> unfold Planet.height at * <;> linarith
  have c : p.column S kmax k ≤ ((kmax - 1 : ℤ) : ℝ) * (M / m) := by
    have : p.column S kmax k ≤ ∑ l ∈ Ico 1 k, (M / m) := by
      unfold Planet.column
      refine sum_le_sum fun l hl => ?_
      rw [mem_Ico] at hl
      obtain ⟨a1, a2⟩ := lk l hl.1 (by omega)
      obtain ⟨a3, a4⟩ := lk (kmax - 1) (by omega) (by omega)
      exact div_le_div₀ (by linarith) a4 m0 a1
    refine this.trans ?_
    rw [sum_const, Int.card_Ico, nsmul_eq_mul]
    obtain ⟨a3, a4⟩ := lk (kmax - 1) (by omega) (by omega)
    refine mul_le_mul_of_nonneg_right ?_ (div_nonneg (by linarith) m0.le)
    have : ((k - 1).toNat : ℝ) = ((k - 1 : ℤ) : ℝ) := by exact_mod_cast Int.toNat_of_nonneg (by omega : 0 ≤ k - 1)
    rw [this]
    exact_mod_cast (by omega : k - 1 ≤ kmax - 1)
  have e : B.top = ((kmax - 1 : ℤ) : ℝ) * p.dz := by
    rw [← hg.last]
    unfold Planet.height
    push_cast
    ring
  rw [e]
  calc _ ≤ ((kmax - 1 : ℤ) : ℝ) * (M / m) * p.dz := mul_le_mul_of_nonneg_right c hz.le
    _ = _ := by ring

/-- A solution of the discretised equation whose data approximate those of a smooth solution of the balance equation approximates
that solution. The constant does not depend on the grid. -/
theorem Solves.error (hB : B.Solves) : ∃ C, 0 ≤ C ∧ ∀ (p : Planet) (S : ℤ → ℝ) (j0 j1 kmax kt : ℤ), B.Grid p S j0 j1 kmax →
    kmax - 2 ≤ kt → kt < kmax → ∀ (Q W : ℤ → ℤ → ℝ) (β ε τ : ℝ), 0 ≤ β → 0 ≤ ε → 0 ≤ τ →
    (∀ j k, j0 < j → j < j1 → 1 < k → k < kmax → p.Elliptic S Q W j k) →
    (∀ j k, j0 < j → j < j1 → 1 < k → k < kmax →
      |(Q (j + 1) k - Q (j - 1) k) / (2 * p.dphi) - deriv (fun x => B.Q (x, p.height k)) (p.lat j)| ≤ ε) →
    (∀ k, 1 < k → k < kmax → |W j0 k - B.u (p.lat j0, p.height k) * cos (p.lat j0)| ≤ β) →
    (∀ k, 1 < k → k < kmax → W j1 k = 0) → (∀ j, j0 < j → j < j1 → W j 1 = 0) →
    (∀ j, j0 < j → j < j1 → |(W j kmax - W j kt) / (((kmax - kt : ℤ) : ℝ) * p.dz) - cos (p.lat j) * B.shear (p.lat j) B.top| ≤ τ) →
    ∀ j k, j0 < j → j < j1 → 1 < k → k < kmax →
      |W j k - B.u (p.lat j, p.height k) * cos (p.lat j)| ≤ β + C * (p.dphi ^ 2 + p.dz + ε + τ) := by
  obtain ⟨Cc, Cc0, hc⟩ := hB.consistent
  obtain ⟨Cs, Cs0, hs⟩ := hB.shadow_close
  obtain ⟨m, M, m0, hm⟩ := hB.mesh_bounds
  have c1 : ContDiff ℝ 4 (pdy B.momentum) := contDiff_pdy hB.contDiff_momentum (by norm_num)
  have c2 : ContDiff ℝ 3 (pdy (pdy B.momentum)) := contDiff_pdy c1 (by norm_num)
  obtain ⟨C4, C40, h4⟩ := exists_bound c2.continuous 0 (π / 2) 0 B.top
  have pa := hB.a0
  have po := hB.om0
  have pt := hB.top0
  have hpi := pi_pos
  have M0 : 0 ≤ M := by
    obtain ⟨q1, q2⟩ := hm 0 0 le_rfl (by simp) (by simp [pt.le])
    linarith
  refine ⟨2 * Cs + Cc + 2 * B.om * B.a + 2 * (B.top * (M / m)) * (1 + 2 * C4 + Cs), by positivity, ?_⟩
  intro p S j0 j1 kmax kt hg kt1 kt2 Q W β ε τ β0 ε0 τ0 hW hQ h0 h1 hb ht j k a1 a2 k1 k2
  have hd := hg.dphi
  have hz := hg.dz
  have hs0 := hB.south0
  have h01 := hg.rows
  have hlev := hg.levels
  have sj : ∀ j, j0 ≤ j → j ≤ j1 → B.south ≤ p.lat j ∧ p.lat j ≤ π / 2 := fun j x1 x2 =>
    hg.lat_mem (by exact_mod_cast x1) (by exact_mod_cast x2)
  have sk : ∀ k : ℤ, 1 ≤ k → k ≤ kmax → 0 ≤ p.height k ∧ p.height k ≤ B.top := fun k x1 x2 =>
    hg.height_mem (by exact_mod_cast x1) (by exact_mod_cast x2)
  have close := (hs p S j0 j1 kmax hg j a1.le a2.le).1 (p.height k) (sk k k1.le k2.le).1 (sk k k1.le k2.le).2
  set D := ((kmax - kt : ℤ) : ℝ) * p.dz with hD
  have D1 : 0 < D := mul_pos (by exact_mod_cast (by omega : 0 < kmax - kt)) hz
  have D2 : D ≤ 2 * p.dz := mul_le_mul_of_nonneg_right (by exact_mod_cast (by omega : kmax - kt ≤ 2)) hz.le
  have DE : B.top - p.height kt = D := by
    rw [← hg.last, hD]
    unfold Planet.height
    push_cast
    ring
  have key := (hg.stable hB).bounded_oper hg.rows (V := fun j k => B.shadow p j1 j (p.height k)) (W := W) (kt := kt)
    (B := β + Cs * p.dphi ^ 2) (R := p.dphi ^ 2 * (Cc * (p.dphi ^ 2 + p.dz) + 2 * B.om * B.a * ε))
    (t := D * (τ + C4 * (2 * p.dz) + Cs * p.dphi ^ 2)) (by omega) kt2 (by positivity) (by positivity) (by positivity)
    (fun j k a1 a2 k1 k2 => by
      have q1 := hc p S j0 j1 kmax hg j k a1 a2 k1 k2
      have q2 := hQ j k a1 a2 k1 k2
      rw [(Planet.elliptic_iff Q W j k).1 (hW j k a1 a2 k1 k2), hg.om, hg.a]
      have e : -(B.om * B.a * p.dphi * (Q (j + 1) k - Q (j - 1) k)) - p.oper S (fun j k => B.shadow p j1 j (p.height k)) j k =
          -(p.dphi ^ 2 * (2 * B.om * B.a) * ((Q (j + 1) k - Q (j - 1) k) / (2 * p.dphi) -
            deriv (fun x => B.Q (x, p.height k)) (p.lat j))) -
          (p.oper S (fun j k => B.shadow p j1 j (p.height k)) j k +
            p.dphi ^ 2 * (2 * B.om * B.a * deriv (fun x => B.Q (x, p.height k)) (p.lat j))) := by
        field_simp
        ring
      rw [e]
      refine (abs_sub _ _).trans ?_
      rw [abs_neg, abs_mul, abs_of_pos (by positivity : 0 < p.dphi ^ 2 * (2 * B.om * B.a))]
      have := mul_le_mul_of_nonneg_left q2 (by positivity : 0 ≤ p.dphi ^ 2 * (2 * B.om * B.a))
      calc _ ≤ p.dphi ^ 2 * (2 * B.om * B.a) * ε + Cc * p.dphi ^ 2 * (p.dphi ^ 2 + p.dz) := add_le_add this q1
        _ = _ := by ring)
    (fun k k1 k2 => by
      have q1 := h0 k k1 k2
      have q2 := (hs p S j0 j1 kmax hg j0 le_rfl h01.le).1 (p.height k) (sk k k1.le k2.le).1 (sk k k1.le k2.le).2
      exact (abs_sub_le _ _ _).trans (add_le_add q1 q2))
    (fun k k1 k2 => by
      rw [h1 k k1 k2]
      show 0 = B.shadow p j1 j1 _
      unfold shadow
      simp)
    (fun j a1 a2 => by
      rw [hb j a1 a2]
      show 0 = B.shadow p j1 j (p.height ((1 : ℤ) : ℝ))
      have e : p.height ((1 : ℤ) : ℝ) = 0 := by unfold Planet.height; simp
      rw [e]
      unfold shadow
      rw [eq_comm, neg_eq_zero]
      refine sum_eq_zero fun l hl => ?_
      rw [mem_Ico] at hl
      have x1 : (j0 : ℝ) ≤ l := by exact_mod_cast (by omega : j0 ≤ l)
      have x2 : (l : ℝ) + 1 ≤ j1 := by exact_mod_cast (by omega : l + 1 ≤ j1)
      obtain ⟨l1, l2⟩ := hg.lat_lt (x := (l : ℝ) + 1 / 2) (by linarith) (by linarith)
      have : pdx B.momentum (p.lat (l + 1 / 2), 0) = 0 := by
        have d := hasDerivAt_pdx hB.contDiff_momentum (by norm_num) (p.lat (l + 1 / 2)) 0
        have d0 : HasDerivAt (fun x => B.momentum (x, 0)) 0 (p.lat (l + 1 / 2)) := by
          refine (hasDerivAt_const (p.lat (l + 1 / 2)) (0 : ℝ)).congr_of_eventuallyEq ?_
          filter_upwards [Ioo_mem_nhds l1 l2] with x hx
          show B.u (x, 0) * cos x = 0
          rw [hB.ground x hx.1.le hx.2.le, zero_mul]
        exact d.unique d0
      rw [this, mul_zero])
    (fun j a1 a2 => by
      obtain ⟨l1, l2⟩ := sj j a1.le a2.le
      have q1 := ht j a1 a2
      have q2 := backward_le (a := p.height kt) (b := B.top) (C := C4) (sk kt (by omega) kt2.le).2
        (hasDerivAt_pdy hB.contDiff_momentum (by norm_num) (p.lat j)) (hasDerivAt_pdy c1 (by norm_num) (p.lat j))
        (fun y y1 y2 => h4 (p.lat j) y (by linarith) l2 (by linarith [(sk kt (by omega) kt2.le).1]) y2)
      have q3 := (hs p S j0 j1 kmax hg j a1.le a2.le).2.1 (p.height kt) B.top (sk kt (by omega) kt2.le).1
        (sk kt (by omega) kt2.le).2 le_rfl
      have e : pdy B.momentum (p.lat j, B.top) = cos (p.lat j) * B.shear (p.lat j) B.top := by
        have d := hasDerivAt_pdy hB.contDiff_momentum (by norm_num) (p.lat j) B.top
        have d' := (hasDerivAt_pdy hB.smoothU (by norm_num) (p.lat j) B.top).mul_const (cos (p.lat j))
        rw [hB.shear_eq, mul_comm]
        exact d.unique d'
      rw [DE] at q2 q3
      rw [e] at q2
      show |(W j kmax - W j kt) - (B.shadow p j1 j (p.height kmax) - B.shadow p j1 j (p.height kt))| ≤ _
      rw [hg.last]
      have q1' : |(W j kmax - W j kt) - D * (cos (p.lat j) * B.shear (p.lat j) B.top)| ≤ D * τ := by
        have : (W j kmax - W j kt) - D * (cos (p.lat j) * B.shear (p.lat j) B.top) =
            D * ((W j kmax - W j kt) / D - cos (p.lat j) * B.shear (p.lat j) B.top) := by field_simp
        rw [this, abs_mul, abs_of_pos D1]
        exact mul_le_mul_of_nonneg_left q1 D1.le
      have q2' : C4 * D ^ 2 ≤ D * (C4 * (2 * p.dz)) := by
        have := mul_le_mul_of_nonneg_left D2 (mul_nonneg C40 D1.le)
        linarith
      have e2 : (W j kmax - W j kt) - (B.shadow p j1 j B.top - B.shadow p j1 j (p.height kt)) =
          ((W j kmax - W j kt) - D * (cos (p.lat j) * B.shear (p.lat j) B.top)) -
          (B.momentum (p.lat j, B.top) - B.momentum (p.lat j, p.height kt) - D * (cos (p.lat j) * B.shear (p.lat j) B.top)) +
          ((B.momentum (p.lat j, B.top) - B.shadow p j1 j B.top) -
            (B.momentum (p.lat j, p.height kt) - B.shadow p j1 j (p.height kt))) := by ring
      rw [e2]
      refine (abs_add_le _ _).trans ((add_le_add_left (abs_sub _ _) _).trans ?_)
      have r : D * (τ + C4 * (2 * p.dz) + Cs * p.dphi ^ 2) = D * τ + D * (C4 * (2 * p.dz)) + Cs * p.dphi ^ 2 * D := by ring
      rw [r]
      linarith)
    j k a1 a2 k1 k2
  have reach : p.dphi ^ 2 * p.reach j0 j1 j ≤ π ^ 2 / 16 := by
    have r := Planet.reach_le (p := p) (j0 := j0) (j1 := j1) (j := j) a1.le h01.le
    have l : ((j1 - j0 : ℤ) : ℝ) * p.dphi ≤ π / 2 := by
      have x1 := (sj j0 le_rfl h01.le).1
      have x2 := hg.pole
      unfold Planet.lat at x1 x2
      push_cast
      linarith
    have l0 : 0 ≤ ((j1 - j0 : ℤ) : ℝ) * p.dphi := mul_nonneg (by exact_mod_cast (by omega : 0 ≤ j1 - j0)) hd.le
    calc _ ≤ p.dphi ^ 2 * (((j1 - j0 : ℤ) : ℝ) ^ 2 / 4) := mul_le_mul_of_nonneg_left r (by positivity)
      _ = (((j1 - j0 : ℤ) : ℝ) * p.dphi) ^ 2 / 4 := by ring
      _ ≤ (π / 2) ^ 2 / 4 := div_le_div_of_nonneg_right (pow_le_pow_left₀ l0 l 2) (by norm_num)
      _ = _ := by ring
  have col := hg.column_le m0 hm k1.le k2.le
  have col0 := (hg.stable hB).column_nonneg k2.le
  have t1 : p.dphi ^ 2 * (Cc * (p.dphi ^ 2 + p.dz) + 2 * B.om * B.a * ε) * p.reach j0 j1 j ≤
      π ^ 2 / 16 * (Cc * (p.dphi ^ 2 + p.dz) + 2 * B.om * B.a * ε) := by
    have := mul_le_mul_of_nonneg_right reach (by positivity : 0 ≤ Cc * (p.dphi ^ 2 + p.dz) + 2 * B.om * B.a * ε)
    linarith
  have t2 : D * (τ + C4 * (2 * p.dz) + Cs * p.dphi ^ 2) * p.column S kmax k ≤
      2 * (B.top * (M / m)) * (τ + C4 * (2 * p.dz) + Cs * p.dphi ^ 2) := by
    have x1 : D * p.column S kmax k ≤ 2 * (B.top * (M / m)) := by
      have := mul_le_mul_of_nonneg_right D2 col0
      linarith
    have := mul_le_mul_of_nonneg_right x1 (by positivity : 0 ≤ τ + C4 * (2 * p.dz) + Cs * p.dphi ^ 2)
    linarith
  have p1 : π ^ 2 / 16 ≤ 1 := by
    have := Real.pi_le_four
    nlinarith
  have fin := combine (b := β) (P := π ^ 2 / 16) (T := 2 * (B.top * (M / m))) (w := 2 * B.om * B.a) (sq_nonneg p.dphi) hz.le ε0 τ0
    Cs0 Cc0 C40 p1 (by positivity) (by positivity)
  refine (abs_sub_le _ (B.shadow p j1 j (p.height k)) _).trans ?_
  rw [abs_sub_comm (B.shadow p j1 j (p.height k))]
  refine le_trans ?_ fin
  have close' : |B.u (p.lat j, p.height k) * cos (p.lat j) - B.shadow p j1 j (p.height k)| ≤ Cs * p.dphi ^ 2 := close
  have key' : |W j k - B.shadow p j1 j (p.height k)| ≤ _ := key
  linarith

end Spec.BalancedState

end Falwa
