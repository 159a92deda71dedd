import Verif.Props.SmoothQgpv18
import Mathlib.Topology.Order.ProjIcc
import Mathlib.Analysis.SpecialFunctions.Integrals.Basic

/-! # From limits on levels to limits of sums over a column -/

noncomputable section

namespace Falwa

open Real Finset Spec Filter

variable {top : ℝ} {K : ℕ → ℤ} {d : ℕ → ℝ}

/-- There is an inner level within two spacings of every height. -/
theorem exists_level {K : ℤ} {d : ℝ} (hK : 3 ≤ K) (hd : 0 < d) (htop : ((K : ℝ) - 1) * d = top) {z : ℝ} (hz : z ∈ Set.Icc 0 top) :
    ∃ k, (2 ≤ k ∧ k ≤ K - 1) ∧ |((k : ℝ) - 1) * d - z| ≤ 2 * d := by
  have h1 := Int.floor_le (z / d)
  have h2 := Int.lt_floor_add_one (z / d)
  have e : z / d * d = z := div_mul_cancel₀ _ hd.ne'
  have h3 : (⌊z / d⌋ : ℝ) * d ≤ z := (mul_le_mul_of_nonneg_right h1 hd.le).trans e.le
  have h4 : z ≤ ((⌊z / d⌋ : ℝ) + 1) * d := e.ge.trans (mul_le_mul_of_nonneg_right h2.le hd.le)
  have hz1 := hz.1
  have hz2 := hz.2
  have h5 : 0 ≤ ⌊z / d⌋ := Int.floor_nonneg.2 (div_nonneg hz.1 hd.le)
  have h6 : ⌊z / d⌋ ≤ K - 1 := by
    have : (⌊z / d⌋ : ℝ) ≤ ((K - 1 : ℤ) : ℝ) := by
      refine h1.trans ?_
      rw [div_le_iff₀ hd]
      push_cast
      linarith
    exact_mod_cast this
  rcases (by omega : ⌊z / d⌋ = 0 ∨ ⌊z / d⌋ = K - 1 ∨ (1 ≤ ⌊z / d⌋ ∧ ⌊z / d⌋ ≤ K - 2)) with h | h | h
  · refine ⟨2, ⟨le_rfl, by omega⟩, ?_⟩
    rw [h] at h3 h4
    push_cast at h3 h4 ⊢
    rw [abs_le]
    constructor <;> linarith
  · refine ⟨K - 1, ⟨by omega, le_rfl⟩, ?_⟩
    rw [h] at h3 h4
    push_cast at h3 h4 ⊢
    rw [abs_le]
    constructor <;> linarith
  · refine ⟨⌊z / d⌋ + 1, ⟨by omega, by omega⟩, ?_⟩
    push_cast
    rw [add_sub_cancel_right, abs_le]
    constructor <;> linarith

/-- Limits along all sequences of levels depend continuously on the height. -/
theorem levels_continuous (hK : ∀ n, 3 ≤ K n) (hd : ∀ n, 0 < d n) (htop : ∀ n, ((K n : ℝ) - 1) * d n = top)
    (hd0 : Tendsto d atTop (nhds 0)) {F : ℕ → ℤ → ℝ} {L : ℝ → ℝ}
    (hF : ∀ (f : ℕ → ℕ) (k : ℕ → ℤ) (z : ℝ), z ∈ Set.Icc 0 top → Tendsto f atTop atTop → (∀ n, 2 ≤ k n ∧ k n ≤ K (f n) - 1) →
      Tendsto (fun n => ((k n : ℝ) - 1) * d (f n)) atTop (nhds z) → Tendsto (fun n => F (f n) (k n)) atTop (nhds (L z))) :
    ContinuousOn L (Set.Icc 0 top) := by
  intro z hz
  refine tendsto_of_seq_tendsto fun y hy => ?_
  have hy2 := eventually_mem_of_tendsto_nhdsWithin hy
  classical
  set u : ℕ → ℝ := fun m => if y m ∈ Set.Icc 0 top then y m else z with hu
  have huy : u =ᶠ[atTop] y := hy2.mono fun m hm => if_pos hm
  have hum : ∀ m, u m ∈ Set.Icc 0 top := fun m => by
    rw [hu]
    beta_reduce
    by_cases h : y m ∈ Set.Icc 0 top
    · rwa [if_pos h]
    · rwa [if_neg h]
  have hut : Tendsto u atTop (nhds z) := (tendsto_nhds_of_tendsto_nhdsWithin hy).congr' huy.symm
  have key : ∀ m : ℕ, ∃ n k, m ≤ n ∧ (2 ≤ k ∧ k ≤ K n - 1) ∧ |((k : ℝ) - 1) * d n - u m| ≤ 1 / ((m : ℝ) + 1) ∧
      |F n k - L (u m)| ≤ 1 / ((m : ℝ) + 1) := by
    intro m
    choose k hk hkz using fun n => exists_level (hK n) (hd n) (htop n) (hum m)
    have h2 : Tendsto (fun n => 2 * d n) atTop (nhds 0) := by
      have := hd0.const_mul 2
      rwa [mul_zero] at this
    have hz1 : Tendsto (fun n => ((k n : ℝ) - 1) * d n) atTop (nhds (u m)) := by
      rw [tendsto_iff_dist_tendsto_zero]
      exact squeeze_zero (fun _ => dist_nonneg) (fun n => by rw [Real.dist_eq]; exact hkz n) h2
    have hF1 := hF id k (u m) (hum m) tendsto_id hk hz1
    have h0 : (0 : ℝ) < 1 / ((m : ℝ) + 1) := by positivity
    obtain ⟨n, n1, n2, n3⟩ := ((eventually_ge_atTop m).and ((hz1.eventually (Metric.ball_mem_nhds _ h0)).and
      (hF1.eventually (Metric.ball_mem_nhds _ h0)))).exists
    refine ⟨n, k n, n1, hk n, ?_, ?_⟩
    · have n2' : dist (((k n : ℝ) - 1) * d n) (u m) < _ := n2
      rw [Real.dist_eq] at n2'
      exact n2'.le
    · have n3' : dist (F n (k n)) (L (u m)) < _ := n3
      rw [Real.dist_eq] at n3'
      exact n3'.le
  choose f k hf hk h1 h2 using key
  have hone : Tendsto (fun m : ℕ => 1 / ((m : ℝ) + 1)) atTop (nhds 0) := tendsto_one_div_add_atTop_nhds_zero_nat
  have hft : Tendsto f atTop atTop := tendsto_atTop_mono hf tendsto_id
  have hzt : Tendsto (fun m => ((k m : ℝ) - 1) * d (f m)) atTop (nhds z) := by
    have h3 : Tendsto (fun m => ((k m : ℝ) - 1) * d (f m) - u m) atTop (nhds 0) :=
      squeeze_zero_norm (fun m => by rw [Real.norm_eq_abs]; exact h1 m) hone
    have := h3.add hut
    simpa using this
  have hL := hF f k z hz hft hk hzt
  have h3 : Tendsto (fun m => F (f m) (k m) - L (u m)) atTop (nhds 0) :=
    squeeze_zero_norm (fun m => by rw [Real.norm_eq_abs]; exact h2 m) hone
  have h4 := hL.sub h3
  simp only [sub_sub_cancel, sub_zero] at h4
  exact h4.congr' (huy.mono fun m hm => by show L (u m) = L (y m); rw [hm])

/-- Sums over the levels of a continuous function tend to the integral. -/
theorem levels_sum (hK : ∀ n, 3 ≤ K n) (hd : ∀ n, 0 < d n) (htop : ∀ n, ((K n : ℝ) - 1) * d n = top)
    (hd0 : Tendsto d atTop (nhds 0)) {G : ℝ → ℝ} (hG : Continuous G) :
    Tendsto (fun n => ∑ k ∈ Icc 2 (K n - 1), G (((k : ℝ) - 1) * d n) * d n) atTop (nhds (∫ z in (0 : ℝ)..top, G z)) := by
  have hpi := pi_pos
  have hK' : ∀ n, (0 : ℝ) < (K n : ℝ) - 1 := fun n => by
    have : (3 : ℝ) ≤ K n := by exact_mod_cast hK n
    linarith
  have ht0 : 0 < top := by rw [← htop 0]; exact mul_pos (hK' 0) (hd 0)
  have hKt : Tendsto (fun n => K n - 1) atTop atTop := by
    have h1 : Tendsto (fun n => top / d n) atTop atTop :=
      Tendsto.const_mul_atTop ht0 (tendsto_inv_nhdsGT_zero.comp (tendsto_nhdsWithin_iff.2 ⟨hd0, Eventually.of_forall hd⟩))
    have h2 : Tendsto (fun n => ((K n - 1 : ℤ) : ℝ)) atTop atTop := h1.congr fun n => by
      rw [← htop n, mul_div_assoc, div_self (hd n).ne', mul_one]
      push_cast
      rfl
    exact tendsto_intCast_atTop_iff.1 h2
  obtain ⟨e, e0, _, he⟩ := circle_error (w := fun _ l _ => G (l * (top / (2 * π)))) (by fun_prop) 0 (m := fun n => K n - 1)
    (fun n => by have := hK n; omega) hKt
  have hint : (∫ l in (0 : ℝ)..2 * π, G (l * (top / (2 * π)))) / (2 * π) = (∫ z in (0 : ℝ)..top, G z) / top := by
    rw [intervalIntegral.integral_comp_mul_right (fun z => G z) (by positivity : top / (2 * π) ≠ 0), zero_mul,
      mul_div_cancel₀ _ (by positivity : (2 * π) ≠ 0), smul_eq_mul]
    field_simp
  have hmean : Tendsto (fun n => circleMean (K n - 1) fun i => G (2 * π / ((K n - 1 : ℤ) : ℝ) * ((i : ℝ) - 1) * (top / (2 * π)))) atTop
      (nhds ((∫ z in (0 : ℝ)..top, G z) / top)) := by
    rw [tendsto_iff_dist_tendsto_zero]
    refine squeeze_zero (fun _ => dist_nonneg) (fun n => ?_) e0
    rw [Real.dist_eq, ← hint]
    exact he n 0 ⟨by linarith, by positivity⟩ 0 ⟨le_rfl, le_rfl⟩
  have h1 := (hmean.mul_const top).sub (hd0.const_mul (G 0))
  rw [div_mul_cancel₀ _ ht0.ne', mul_zero, sub_zero] at h1
  refine h1.congr fun n => ?_
  have e1 : ∀ i : ℤ, 2 * π / ((K n - 1 : ℤ) : ℝ) * ((i : ℝ) - 1) * (top / (2 * π)) = ((i : ℝ) - 1) * d n := fun i => by
    have := hK' n
    rw [← htop n]
    push_cast
    field_simp
  unfold circleMean
  simp only [e1]
  have e2 : Icc 1 (K n - 1) = insert 1 (Icc 2 (K n - 1)) := by
    ext i
    have := hK n
    simp only [mem_insert, mem_Icc]
    omega
  rw [e2, sum_insert (by simp), ← sum_mul, div_mul_eq_mul_div]
  have e3 : top = ((K n - 1 : ℤ) : ℝ) * d n := by rw [← htop n]; push_cast; rfl
  have e4 : ((K n - 1 : ℤ) : ℝ) ≠ 0 := by push_cast; exact (hK' n).ne'
  rw [e3]
  push_cast at e4 ⊢
  rw [sub_self, zero_mul]
  field_simp
  ring_nf

/-- If a quantity has limits along all sequences of levels, its weighted sums over the column tend to the integral of the limits. -/
theorem column_limit (hK : ∀ n, 3 ≤ K n) (hd : ∀ n, 0 < d n) (htop : ∀ n, ((K n : ℝ) - 1) * d n = top)
    (hd0 : Tendsto d atTop (nhds 0)) {F : ℕ → ℤ → ℝ} {L : ℝ → ℝ}
    (hF : ∀ (f : ℕ → ℕ) (k : ℕ → ℤ) (z : ℝ), z ∈ Set.Icc 0 top → Tendsto f atTop atTop → (∀ n, 2 ≤ k n ∧ k n ≤ K (f n) - 1) →
      Tendsto (fun n => ((k n : ℝ) - 1) * d (f n)) atTop (nhds z) → Tendsto (fun n => F (f n) (k n)) atTop (nhds (L z)))
    {w : ℝ → ℝ} (hw : Continuous w) :
    Tendsto (fun n => ∑ k ∈ Icc 2 (K n - 1), F n k * w (((k : ℝ) - 1) * d n) * d n) atTop (nhds (∫ z in (0 : ℝ)..top, L z * w z)) := by
  have hK' : ∀ n, (0 : ℝ) < (K n : ℝ) - 1 := fun n => by
    have : (3 : ℝ) ≤ K n := by exact_mod_cast hK n
    linarith
  have ht0 : 0 < top := by rw [← htop 0]; exact mul_pos (hK' 0) (hd 0)
  have hL := levels_continuous hK hd htop hd0 hF
  set V : ℝ → ℝ := Set.IccExtend ht0.le ((Set.Icc 0 top).domRestrict L) with hVdef
  have hV : Continuous V := (continuousOn_iff_continuous_domRestrict.1 hL).Icc_extend'
  have hVL : ∀ z ∈ Set.Icc 0 top, V z = L z := fun z hz => by rw [hVdef, Set.IccExtend_of_mem _ _ hz]; rfl
  have hint : ∫ z in (0 : ℝ)..top, L z * w z = ∫ z in (0 : ℝ)..top, V z * w z := by
    refine intervalIntegral.integral_congr fun z hz => ?_
    rw [Set.uIcc_of_le ht0.le] at hz
    show L z * w z = V z * w z
    rw [hVL z hz]
  have hmem : ∀ n k, 2 ≤ k ∧ k ≤ K n - 1 → ((k : ℝ) - 1) * d n ∈ Set.Icc 0 top := fun n k hk => by
    have k1 : (2 : ℝ) ≤ k := by exact_mod_cast hk.1
    have k2 : (k : ℝ) ≤ K n := by exact_mod_cast (by omega : k ≤ K n)
    refine ⟨mul_nonneg (by linarith) (hd n).le, ?_⟩
    rw [← htop n]
    exact mul_le_mul_of_nonneg_right (by linarith) (hd n).le
  obtain ⟨W, hW⟩ := (isCompact_Icc (a := (0 : ℝ)) (b := top)).exists_bound_of_continuousOn hw.continuousOn
  have hW0 : 0 ≤ W := (norm_nonneg _).trans (hW 0 ⟨le_rfl, ht0.le⟩)
  have hsum := levels_sum hK hd htop hd0 (G := fun z => V z * w z) (hV.mul hw)
  rw [hint]
  have hdiff : Tendsto (fun n => (∑ k ∈ Icc 2 (K n - 1), F n k * w (((k : ℝ) - 1) * d n) * d n) -
      ∑ k ∈ Icc 2 (K n - 1), V (((k : ℝ) - 1) * d n) * w (((k : ℝ) - 1) * d n) * d n) atTop (nhds 0) := by
    rw [Metric.tendsto_nhds]
    intro ε hε
    have hδ : 0 < ε / (W * top + 1) := by positivity
    have key := uniformly_of_sequences (K := Set.Icc 0 top) isCompact_Icc (P := fun n k => 2 ≤ k ∧ k ≤ K n - 1)
      (x := fun n k => ((k : ℝ) - 1) * d n) (F := F) (V := V) (b := 0) hV hmem
      (fun f k z hz hf hk hx => ⟨L z, hF f k z hz hf hk hx, by rw [hVL z hz, sub_self, abs_zero]⟩) hδ
    filter_upwards [key] with n hn
    rw [Real.dist_eq, sub_zero, ← sum_sub_distrib]
    refine lt_of_le_of_lt ((abs_sum_le_sum_abs _ _).trans (sum_le_sum (g := fun _ => ε / (W * top + 1) * W * d n) fun k hk => ?_)) ?_
    · rw [mem_Icc] at hk
      have h1 := hn k hk
      have h2 := hW _ (hmem n k hk)
      rw [Real.norm_eq_abs] at h2
      rw [← sub_mul, ← sub_mul, abs_mul, abs_mul, abs_of_pos (hd n)]
      refine mul_le_mul_of_nonneg_right (mul_le_mul (by linarith) h2 (abs_nonneg _) hδ.le) (hd n).le
    · rw [sum_const, nsmul_eq_mul, Int.card_Icc]
      have hc : (((K n - 1 + 1 - 2).toNat : ℕ) : ℝ) * d n ≤ top := by
        have h3 := hK n
        have e : (((K n - 1 + 1 - 2).toNat : ℕ) : ℝ) = (K n : ℝ) - 2 := by
          have : (((K n - 1 + 1 - 2).toNat : ℕ) : ℤ) = K n - 2 := by omega
          exact_mod_cast this
        rw [e, ← htop n]
        exact mul_le_mul_of_nonneg_right (by linarith) (hd n).le
      calc (((K n - 1 + 1 - 2).toNat : ℕ) : ℝ) * (ε / (W * top + 1) * W * d n)
          = ε / (W * top + 1) * (W * ((((K n - 1 + 1 - 2).toNat : ℕ) : ℝ) * d n)) := by ring
        _ ≤ ε / (W * top + 1) * (W * top) := mul_le_mul_of_nonneg_left (mul_le_mul_of_nonneg_left hc hW0) hδ.le
        _ < ε := by
          rw [div_mul_eq_mul_div, div_lt_iff₀ (by positivity)]
          nlinarith
  have := hdiff.add hsum
  simpa using this

end Falwa
