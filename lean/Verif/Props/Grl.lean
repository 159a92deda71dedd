import Verif.Lemmas.Grl
import Verif.Spec.Circle

/-! # The budget figures of Neal et al. (2022): C147 (figure 3), C148 (figure 4), C149 (figure 5) -/

noncomputable section

namespace Falwa.Grl

open Real Finset Spec

variable {I : Grl}

/-! ### Smoothing -/

theorem smooth_eq_runningMean (n : ℤ) (x : ℤ → ℝ) (i : ℤ) : I.smooth n x i = runningMean I.nlon n x i := by
  rw [smooth_eq, runningMean, ← sum_div]
  congr 1
  · refine sum_nbij' (fun s => -s) (fun s => -s) ?_ ?_ ?_ ?_ ?_
    · intro s hs
      rw [mem_Icc] at *
      omega
    · intro s hs
      rw [mem_Icc] at *
      omega
    · intro s _
      exact neg_neg s
    · intro s _
      exact neg_neg s
    · intro s _
      rw [sub_eq_add_neg]
  · push_cast
    ring

/-- C147, smoothing: a running mean over the circle, which keeps the zonal mean and the bounds of the field. -/
theorem C147_smoothing {n : ℤ} (hN : 0 < I.nlon) (hn : 0 ≤ n) (x : ℤ → ℝ) :
    (∀ i, I.smooth n x i = runningMean I.nlon n x i) ∧ ∑ i ∈ Ico 0 I.nlon, I.smooth n x i = ∑ i ∈ Ico 0 I.nlon, x i ∧
    ∀ lo hi : ℝ, (∀ i, 0 ≤ i → i < I.nlon → lo ≤ x i ∧ x i ≤ hi) → ∀ i, lo ≤ I.smooth n x i ∧ I.smooth n x i ≤ hi := by
  refine ⟨smooth_eq_runningMean n x, I.sum_smooth hN hn x, fun lo hi h i => ?_⟩
  rw [smooth_eq_runningMean, runningMean]
  have hp : (0 : ℝ) < 2 * n + 1 := by
    have : (0 : ℝ) ≤ n := by exact_mod_cast hn
    linarith
  have hc : ((Icc (-n) n).card : ℝ) = 2 * n + 1 := by
    rw [Int.card_Icc]
    have : (((n + 1 - -n).toNat : ℕ) : ℤ) = 2 * n + 1 := by omega
    have : ((((n + 1 - -n).toNat : ℕ) : ℤ) : ℝ) = ((2 * n + 1 : ℤ) : ℝ) := by rw [this]
    push_cast at this
    exact this
  have hb : ∀ s ∈ Icc (-n) n, lo ≤ x ((i + s) % I.nlon) ∧ x ((i + s) % I.nlon) ≤ hi := fun s _ =>
    h _ (Int.emod_nonneg _ hN.ne') (Int.emod_lt_of_pos _ hN)
  rw [le_div_iff₀ hp, div_le_iff₀ hp, ← hc]
  refine ⟨?_, ?_⟩
  · have := card_nsmul_le_sum (Icc (-n) n) (fun s => x ((i + s) % I.nlon)) lo fun s hs => (hb s hs).1
    rw [nsmul_eq_mul] at this
    linarith
  · have := sum_le_card_nsmul (Icc (-n) n) (fun s => x ((i + s) % I.nlon)) hi fun s hs => (hb s hs).2
    rw [nsmul_eq_mul] at this
    linarith

/-! ### Figure 3 -/

/-- What the flux terms of the file explain of the change of the wave activity per time in row `j`, time slot `m`: convergence of
the zonal flux on the circle of radius `a cos φ`, convergence of the meridional flux and the source at the bottom. -/
def tendency (I : Grl) (j m i : ℤ) : ℝ :=
  convergence I.nlon (I.a * cos (I.dp * j)) I.dl (fun i => I.ua1 m j i + I.ua2 m j i + I.ep1 m j i) i +
    (I.ep2 m j i - I.ep3 m j i) / (2 * I.dl * (I.a * cos (I.dp * j))) + I.ep4 m j i

theorem Ico_eq_Icc (p q : ℤ) : Ico p q = Icc p (q - 1) := by
  ext x
  rw [mem_Ico, mem_Icc]
  omega

theorem z1_eq {jpole j i : ℤ} (hN : 2 ≤ I.nlon) (hj : j < jpole) (h1 : 0 ≤ i) (h2 : i < I.nlon) :
    I.z1 jpole j i = trapezoid I.dt I.m0 I.m1 (fun m => convergence I.nlon (I.a * cos (I.dp * j)) I.dl
      (fun i => I.ua1 m j i + I.ua2 m j i + I.ep1 m j i) i) := by
  have hs : ∀ m, ∀ s : ℝ, (if j < jpole then
      if i = 0 then s - I.const3 j * I.across m j 1 (I.nlon - 1) - I.const3 j * I.across (m + 1) j 1 (I.nlon - 1)
      else if i = I.nlon - 1 then
        s - I.const3 j * I.across m j 0 (I.nlon - 2) - I.const3 j * I.across (m + 1) j 0 (I.nlon - 2)
      else s - I.const3 j * I.across m j (i + 1) (i - 1) - I.const3 j * I.across (m + 1) j (i + 1) (i - 1)
      else s) = s + -(I.const3 j * I.across m j ((i + 1) % I.nlon) ((i - 1) % I.nlon) +
        I.const3 j * I.across (m + 1) j ((i + 1) % I.nlon) ((i - 1) % I.nlon)) := by
    intro m s
    rw [if_pos hj, ring_neighbours hN h1 h2 (fun p q => s - I.const3 j * I.across m j p q - I.const3 j * I.across (m + 1) j p q)]
    ring
  unfold z1
  rw [doLoop_sum (fun t => t) (fun m => -(I.const3 j * I.across m j ((i + 1) % I.nlon) ((i - 1) % I.nlon) +
        I.const3 j * I.across (m + 1) j ((i + 1) % I.nlon) ((i - 1) % I.nlon))) (fun m s _ _ => hs m s), zero_add, trapezoid,
    Ico_eq_Icc]
  refine sum_congr rfl fun m _ => ?_
  unfold convergence const3 across
  rw [show 2 * I.a * cos (I.dp * j) * I.dl = 2 * I.dl * (I.a * cos (I.dp * j)) by ring]
  ring

theorem z2_eq {jpole j i : ℤ} (hj : j < jpole) :
    I.z2 jpole j i = trapezoid I.dt I.m0 I.m1 (fun m => (I.ep2 m j i - I.ep3 m j i) / (2 * I.dl * (I.a * cos (I.dp * j)))) := by
  have hs : ∀ m, ∀ s : ℝ, (if j < jpole then
      s + I.const3 j * (I.ep2 m j i - I.ep3 m j i) + I.const3 j * (I.ep2 (m + 1) j i - I.ep3 (m + 1) j i) else s) =
      s + (I.const3 j * (I.ep2 m j i - I.ep3 m j i) + I.const3 j * (I.ep2 (m + 1) j i - I.ep3 (m + 1) j i)) := by
    intro m s
    rw [if_pos hj]
    ring
  unfold z2
  rw [doLoop_sum (fun t => t) (fun m => I.const3 j * (I.ep2 m j i - I.ep3 m j i) +
    I.const3 j * (I.ep2 (m + 1) j i - I.ep3 (m + 1) j i)) (fun m s _ _ => hs m s), zero_add, trapezoid, Ico_eq_Icc]
  refine sum_congr rfl fun m _ => ?_
  unfold const3
  rw [show 2 * I.a * cos (I.dp * j) * I.dl = 2 * I.dl * (I.a * cos (I.dp * j)) by ring]
  ring

theorem z3_eq (j i : ℤ) : I.z3 j i = trapezoid I.dt I.m0 I.m1 (fun m => I.ep4 m j i) := by
  unfold z3
  rw [doLoop_sum (fun t => t) (fun m => 0.5 * I.dt * I.ep4 m j i + 0.5 * I.dt * I.ep4 (m + 1) j i)
    (fun m s _ _ => add_assoc _ _ _), zero_add, trapezoid, Ico_eq_Icc]
  refine sum_congr rfl fun m _ => ?_
  ring

theorem trapezoid_add (dt : ℝ) (m0 m1 : ℤ) (S T : ℤ → ℝ) :
    trapezoid dt m0 m1 (fun m => S m + T m) = trapezoid dt m0 m1 S + trapezoid dt m0 m1 T := by
  unfold trapezoid
  rw [← sum_add_distrib]
  exact sum_congr rfl fun m _ => by ring

/-- C147, residual: the residual of figure 3 is the smoothed difference between the change of the wave activity and the
time integral of what the flux terms explain. -/
theorem C147_residual {jpole n j i : ℤ} (hN : 2 ≤ I.nlon) (hj : j < jpole) :
    I.residual3 jpole n j i = runningMean I.nlon n (fun i => I.lwa I.m1 j i - I.lwa I.m0 j i -
      trapezoid I.dt I.m0 I.m1 (fun m => I.tendency j m i)) i := by
  unfold residual3
  rw [← smooth_sub, ← smooth_sub, ← smooth_sub, ← smooth_eq_runningMean]
  refine I.smooth_congr (by omega) (fun i h1 h2 => ?_) i
  unfold tendency change
  rw [trapezoid_add, trapezoid_add, z1_eq hN hj h1 h2, z2_eq hj, z3_eq]
  ring

/-- C147, closed budget: if the flux terms explain every step, the residual vanishes. -/
theorem C147_closed {jpole n j i : ℤ} (hN : 2 ≤ I.nlon) (hj : j < jpole) (hm : I.m0 ≤ I.m1)
    (h : ∀ m i, I.m0 ≤ m → m < I.m1 → 0 ≤ i → i < I.nlon →
      I.lwa (m + 1) j i - I.lwa m j i = I.dt * ((I.tendency j m i + I.tendency j (m + 1) i) / 2)) :
    I.residual3 jpole n j i = 0 := by
  rw [C147_residual hN hj, runningMean]
  have hz : ∀ s ∈ Icc (-n) n, I.lwa I.m1 j ((i + s) % I.nlon) - I.lwa I.m0 j ((i + s) % I.nlon) -
      trapezoid I.dt I.m0 I.m1 (fun m => I.tendency j m ((i + s) % I.nlon)) = 0 := by
    intro s _
    have e : trapezoid I.dt I.m0 I.m1 (fun m => I.tendency j m ((i + s) % I.nlon)) =
        ∑ m ∈ Ico I.m0 I.m1, (I.lwa (m + 1) j ((i + s) % I.nlon) - I.lwa m j ((i + s) % I.nlon)) := by
      unfold trapezoid
      refine sum_congr rfl fun m hm => ?_
      rw [mem_Ico] at hm
      rw [h m _ hm.1 hm.2 (Int.emod_nonneg _ (by omega)) (Int.emod_lt_of_pos _ (by omega))]
    have tel : ∀ k : ℕ, ∀ f : ℤ → ℝ, ∑ m ∈ Ico I.m0 (I.m0 + k), (f (m + 1) - f m) = f (I.m0 + k) - f I.m0 := by
      intro k f
      induction k with
      | zero => simp
      | succ k ih =>
        have hI : Ico I.m0 (I.m0 + ((k + 1 : ℕ) : ℤ)) = insert (I.m0 + (k : ℤ)) (Ico I.m0 (I.m0 + k)) := by
          ext y
          rw [mem_insert, mem_Ico, mem_Ico]
          push_cast
          omega
        rw [hI, sum_insert (by simp), ih, show I.m0 + ((k + 1 : ℕ) : ℤ) = I.m0 + (k : ℤ) + 1 by push_cast; ring]
        ring
    have := tel (I.m1 - I.m0).toNat (fun m => I.lwa m j ((i + s) % I.nlon))
    rw [show I.m0 + ((I.m1 - I.m0).toNat : ℤ) = I.m1 by omega] at this
    rw [e, this, sub_self]
  rw [sum_congr rfl hz, sum_const_zero, zero_div]

theorem sum_convergence {N : ℤ} (hN : 0 < N) (rad dl : ℝ) (F : ℤ → ℝ) : ∑ i ∈ Ico 0 N, convergence N rad dl F i = 0 := by
  unfold convergence
  rw [sum_neg_distrib, ← sum_div, sum_sub_distrib, sum_shift hN 1 F]
  have : ∑ i ∈ Ico 0 N, F ((i - 1) % N) = ∑ i ∈ Ico 0 N, F i := by
    rw [← sum_shift hN (-1) F]
    exact sum_congr rfl fun i _ => by rw [sub_eq_add_neg]
  rw [this, sub_self, zero_div, neg_zero]

theorem sum_trapezoid (dt : ℝ) (m0 m1 : ℤ) (S : Finset ℤ) (T : ℤ → ℤ → ℝ) :
    ∑ i ∈ S, trapezoid dt m0 m1 (fun m => T m i) = trapezoid dt m0 m1 (fun m => ∑ i ∈ S, T m i) := by
  unfold trapezoid
  rw [sum_comm]
  refine sum_congr rfl fun m _ => ?_
  rw [← mul_sum, ← sum_div, sum_add_distrib]

/-- C147, zonal mean: the zonal term drops out of the zonal mean of the budget. -/
theorem C147_zonal {jpole n j : ℤ} (hN : 2 ≤ I.nlon) (hn : 0 ≤ n) (hj : j < jpole) :
    ∑ i ∈ Ico 0 I.nlon, I.smooth n (I.z1 jpole j) i = 0 ∧
    ∑ i ∈ Ico 0 I.nlon, I.residual3 jpole n j i = ∑ i ∈ Ico 0 I.nlon, (I.lwa I.m1 j i - I.lwa I.m0 j i -
      trapezoid I.dt I.m0 I.m1 (fun m => (I.ep2 m j i - I.ep3 m j i) / (2 * I.dl * (I.a * cos (I.dp * j))) + I.ep4 m j i)) := by
  have h0 : ∑ i ∈ Ico 0 I.nlon, I.smooth n (I.z1 jpole j) i = 0 := by
    rw [I.sum_smooth (by omega) hn]
    rw [sum_congr rfl fun i hi => z1_eq hN hj (mem_Ico.1 hi).1 (mem_Ico.1 hi).2,
      sum_trapezoid I.dt I.m0 I.m1 (Ico 0 I.nlon) (fun m i => convergence I.nlon (I.a * cos (I.dp * j)) I.dl
        (fun i => I.ua1 m j i + I.ua2 m j i + I.ep1 m j i) i)]
    unfold trapezoid
    refine sum_eq_zero fun m _ => ?_
    dsimp only
    rw [sum_convergence (by omega : 0 < I.nlon), sum_convergence (by omega : 0 < I.nlon)]
    ring
  refine ⟨h0, ?_⟩
  unfold residual3
  rw [sum_sub_distrib, sum_sub_distrib, sum_sub_distrib, h0, I.sum_smooth (by omega) hn, I.sum_smooth (by omega) hn,
    I.sum_smooth (by omega) hn, sub_zero, ← sum_sub_distrib, ← sum_sub_distrib]
  refine sum_congr rfl fun i _ => ?_
  unfold change
  rw [trapezoid_add, z2_eq hj, z3_eq]
  ring

/-! ### Figure 4 -/

theorem dosum_single (r : ℤ) (f : ℤ → ℝ) : dosum r r f = f r := by
  rw [dosum_eq, Icc_self, sum_singleton]

/-- C148: the residual of figure 4 is, in every column, the smoothed difference between the tendency of the wave activity and what
the flux terms explain. -/
def C148_Statement : Prop :=
  ∀ (I : Grl) (mmax n r m i : ℤ), 2 ≤ I.nlon → 0 ≤ n → cos (I.dp * r) ≠ 0 → 1 ≤ m → m < mmax → 0 ≤ i → i < I.nlon →
    I.residual4 mmax n r r m i = runningMean I.nlon n (fun i => (I.lwa (m + 1) r i - I.lwa (m - 1) r i) / (2 * I.dt) -
      I.tendency r m i) i

/-- C148, what is missing: the first and the last column have no zonal convergence. -/
theorem C148_defect {mmax n r m i : ℤ} (hN : 2 ≤ I.nlon) (hc : cos (I.dp * r) ≠ 0) (h1 : 1 ≤ m) (h2 : m < mmax) :
    I.residual4 mmax n r r m i = runningMean I.nlon n (fun i => (I.lwa (m + 1) r i - I.lwa (m - 1) r i) / (2 * I.dt) -
      I.tendency r m i) i + runningMean I.nlon n (fun i => if i = 0 ∨ i = I.nlon - 1 then
        convergence I.nlon (I.a * cos (I.dp * r)) I.dl (fun i => I.ua1 m r i + I.ua2 m r i + I.ep1 m r i) i else 0) i := by
  unfold residual4
  rw [← smooth_sub, ← smooth_sub, ← smooth_sub, ← smooth_eq_runningMean, ← smooth_eq_runningMean, ← smooth_add]
  refine I.smooth_congr (by omega) (fun i c1 c2 => ?_) i
  unfold tend4 z1Four z2Four z3Four tendency cos0
  rw [if_pos ⟨h1, h2⟩]
  simp only [dosum_single]
  have e1 : cos (I.dp * r) * (I.lwa (m + 1) r i - I.lwa (m - 1) r i) / (2 * I.dt) / cos (I.dp * r) =
      (I.lwa (m + 1) r i - I.lwa (m - 1) r i) / (2 * I.dt) := by
    rw [mul_div_assoc, mul_comm, mul_div_assoc, div_self hc, mul_one]
  have e3 : cos (I.dp * r) * I.ep4 m r i / cos (I.dp * r) = I.ep4 m r i := by
    rw [mul_comm, mul_div_assoc, div_self hc, mul_one]
  have e2 : 1 / (2 * I.a * I.dl) * (I.ep2 m r i - I.ep3 m r i) / cos (I.dp * r) =
      (I.ep2 m r i - I.ep3 m r i) / (2 * I.dl * (I.a * cos (I.dp * r))) := by
    rw [one_div_mul_eq_div, div_div]
    congr 1
    ring
  rw [e1, e2, e3]
  by_cases c : 1 ≤ i ∧ i < I.nlon - 1
  · rw [if_pos c, if_neg (by omega)]
    have : -(1 / (2 * I.a * I.dl) * I.across m r (i + 1) (i - 1)) / cos (I.dp * r) = convergence I.nlon (I.a * cos (I.dp * r)) I.dl
        (fun i => I.ua1 m r i + I.ua2 m r i + I.ep1 m r i) i := by
      unfold convergence across
      rw [Int.emod_eq_of_lt (by omega) (by omega), Int.emod_eq_of_lt (by omega) (by omega), neg_div, one_div_mul_eq_div, div_div]
      congr 2
      · ring
      · ring
    rw [this]
    ring
  · rw [if_neg c, if_pos (by omega)]
    ring

/-- C148, inside: columns whose smoothing does not reach the first or the last column have the right residual. -/
theorem C148_inner_partial {mmax n r m i : ℤ} (hn : 0 ≤ n) (hc : cos (I.dp * r) ≠ 0) (h1 : 1 ≤ m) (h2 : m < mmax)
    (i1 : n + 1 ≤ i) (i2 : i + n + 2 ≤ I.nlon) :
    I.residual4 mmax n r r m i = runningMean I.nlon n (fun i => (I.lwa (m + 1) r i - I.lwa (m - 1) r i) / (2 * I.dt) -
      I.tendency r m i) i := by
  rw [C148_defect (by omega) hc h1 h2]
  have : runningMean I.nlon n (fun i => if i = 0 ∨ i = I.nlon - 1 then
      convergence I.nlon (I.a * cos (I.dp * r)) I.dl (fun i => I.ua1 m r i + I.ua2 m r i + I.ep1 m r i) i else 0) i = 0 := by
    unfold runningMean
    rw [sum_eq_zero fun s hs => ?_, zero_div]
    rw [mem_Icc] at hs
    rw [Int.emod_eq_of_lt (by omega) (by omega)]
    exact if_neg (by omega)
  rw [this, add_zero]

/-- Three columns, a zonal flux in the second column. -/
def threeColumns : Grl where
  nlon := 3
  m0 := 1
  m1 := 2
  dt := 1
  a := 1
  dl := 1
  dp := 0
  lwa := fun _ _ _ => 0
  ua1 := fun _ _ i => if i = 1 then 2 else 0
  ua2 := fun _ _ _ => 0
  ep1 := fun _ _ _ => 0
  ep2 := fun _ _ _ => 0
  ep3 := fun _ _ _ => 0
  ep4 := fun _ _ _ => 0

theorem C148_refuted : ¬ C148_Statement := by
  intro h
  have hc : cos (threeColumns.dp * ((0 : ℤ) : ℝ)) = 1 := by show cos (0 * ((0 : ℤ) : ℝ)) = 1; rw [zero_mul, cos_zero]
  have h1 := h threeColumns 120 0 0 1 0 (by decide) le_rfl (by rw [hc]; norm_num) le_rfl (by decide) le_rfl (by decide)
  rw [C148_defect (by decide) (by rw [hc]; norm_num) le_rfl (by decide)] at h1
  rw [add_eq_left] at h1
  unfold runningMean at h1
  rw [show Icc (-0 : ℤ) 0 = {0} by decide, sum_singleton, show ((0 : ℤ) + 0) % threeColumns.nlon = 0 by decide] at h1
  dsimp only at h1
  rw [if_pos (Or.inl rfl)] at h1
  unfold convergence at h1
  rw [hc, show ((0 : ℤ) + 1) % threeColumns.nlon = 1 by decide, show ((0 : ℤ) - 1) % threeColumns.nlon = 2 by decide] at h1
  revert h1
  show -((((if (1 : ℤ) = 1 then (2 : ℝ) else 0) + 0 + 0) - ((if (2 : ℤ) = 1 then (2 : ℝ) else 0) + 0 + 0)) / (2 * 1 * (1 * 1))) /
    (2 * ((0 : ℤ) : ℝ) + 1) ≠ 0
  rw [if_pos rfl, if_neg (by decide)]
  norm_num

/-- C148, last slot: the tendency in the last time slot drawn is formed with the slot after it, so a file that holds results for
`mmax` slots only gives a tendency from the contents of a slot that was never written. -/
theorem C148_last {mmax r i : ℤ} (hm : 2 ≤ mmax) (hc : cos (I.dp * r) ≠ 0) (fill : ℝ) :
    ({ I with lwa := fun m j i => if m = mmax then fill else I.lwa m j i } : Grl).tend4 mmax r r (mmax - 1) i =
      (fill - I.lwa (mmax - 2) r i) / (2 * I.dt) := by
  unfold tend4 cos0
  rw [if_pos ⟨by omega, by omega⟩]
  simp only [dosum_single]
  rw [if_pos (by ring), if_neg (by omega), mul_div_assoc, mul_comm, mul_div_assoc, div_self hc, mul_one]
  rw [show mmax - 1 - 1 = mmax - 2 by ring]

/-! ### Figure 5 -/

theorem conv_eq {r m i : ℤ} (hN : 2 ≤ I.nlon) (h1 : 0 ≤ i) (h2 : i < I.nlon) :
    I.conv r m i = -I.const5 r * (I.flux r m ((i + 1) % I.nlon) - I.flux r m ((i - 1) % I.nlon)) := by
  unfold conv
  exact ring_neighbours hN h1 h2 (fun p q => -I.const5 r * (I.flux r m p - I.flux r m q))

/-- The smoothed convergence is the convergence of the smoothed flux. -/
theorem z1s_eq {n r m i : ℤ} (hN : 2 ≤ I.nlon) :
    I.z1s n r m i = -I.const5 r * (I.f1s n r m ((i + 1) % I.nlon) - I.f1s n r m ((i - 1) % I.nlon)) := by
  unfold z1s f1s
  rw [I.smooth_congr (by omega) (fun i h1 h2 => conv_eq hN h1 h2), smooth_mul, smooth_sub, smooth_shift]
  have := I.smooth_shift n (I.flux r m) (-1) i
  simp only [← sub_eq_add_neg] at this
  rw [this]

theorem tele {m0 m1 : ℤ} (h : m0 ≤ m1) (f : ℤ → ℝ) : ∑ m ∈ Ico m0 m1, (f (m + 1) - f m) = f m1 - f m0 := by
  obtain ⟨k, rfl⟩ : ∃ k : ℕ, m1 = m0 + k := ⟨(m1 - m0).toNat, by omega⟩
  clear h
  induction k with
  | zero => simp
  | succ k ih =>
    have hI : Ico m0 (m0 + ((k + 1 : ℕ) : ℤ)) = insert (m0 + (k : ℤ)) (Ico m0 (m0 + k)) := by
      ext y
      rw [mem_insert, mem_Ico, mem_Ico]
      push_cast
      omega
    rw [hI, sum_insert (by simp), ih, show m0 + ((k + 1 : ℕ) : ℤ) = m0 + (k : ℤ) + 1 by push_cast; ring]
    ring

theorem res_mul (hd : I.dt ≠ 0) (n r m i : ℤ) :
    I.dt * I.res n r m i = I.zs n r (m + 1) i - I.zs n r m i - 0.5 * I.dt * I.explained n r m i := by
  unfold res
  rw [mul_div_assoc', mul_comm I.dt, mul_div_assoc, div_self hd, mul_one]

/-- C149, sum: the sum over the window of the explained part and the residual is the change of the smoothed wave activity. -/
theorem C149_sum {n r i : ℤ} (hd : I.dt ≠ 0) (hm : I.m0 ≤ I.m1) :
    I.lwaSum n r i = runningMean I.nlon n (I.lwa I.m1 r) i - runningMean I.nlon n (I.lwa I.m0 r) i := by
  unfold lwaSum
  rw [doLoop_sum (fun t => t) (fun m => I.zs n r (m + 1) i - I.zs n r m i) (fun m s _ _ => ?_), zero_add, ← Ico_eq_Icc,
    tele hm (fun m => I.zs n r m i), ← smooth_eq_runningMean, ← smooth_eq_runningMean]
  · rfl
  · rw [res_mul hd]
    ring

theorem d0_eq {n r m p q : ℤ} (hp : I.zs n r m p + I.zs n r (m + 1) p ≠ 0) (hq : I.zs n r m q + I.zs n r (m + 1) q ≠ 0) :
    I.d0 n r m p q = -I.const5 r * 0.5 * ((I.f1s n r m p + I.f1s n r (m + 1) p) - (I.f1s n r m q + I.f1s n r (m + 1) q)) := by
  unfold d0 cgx
  rw [mul_div_cancel₀ _ hp, mul_div_cancel₀ _ hq]

/-- C149, reconstruction: integrating the budget with the diagnosed group velocity and damping gives back the smoothed wave activity,
if that is nowhere zero on average over a step. -/
theorem C149_reconstruction {n r m i : ℤ} (hN : 2 ≤ I.nlon) (hd : I.dt ≠ 0)
    (hz : ∀ m i, I.m0 ≤ m → m < I.m1 → 0 ≤ i → i < I.nlon → runningMean I.nlon n (I.lwa m r) i + runningMean I.nlon n (I.lwa (m + 1) r) i ≠ 0)
    (i1 : 0 ≤ i) (i2 : i < I.nlon) : I.lwa1 n r m i = runningMean I.nlon n (I.lwa m r) i := by
  rw [← smooth_eq_runningMean]
  have hz' : ∀ m i, I.m0 ≤ m → m < I.m1 → 0 ≤ i → i < I.nlon → I.zs n r m i + I.zs n r (m + 1) i ≠ 0 := by
    intro m i a1 a2 a3 a4
    unfold zs
    rw [smooth_eq_runningMean, smooth_eq_runningMean]
    exact hz m i a1 a2 a3 a4
  unfold lwa1
  refine doLoop_inv (P := fun L : ℤ → ℤ → ℝ => ∀ t i, 0 ≤ i → i < I.nlon → L t i = I.zs n r t i) (fun _ _ _ _ => rfl)
    (fun m L m1 m2 ih t i c1 c2 => ?_) m i i1 i2
  show (if t = m + 1 then _ else _) = _
  by_cases e : t = m + 1
  · rw [if_pos e, ih m i c1 c2, ring_neighbours hN c1 c2 (fun p q => I.d0 n r m p q),
      d0_eq (hz' m _ m1 (by omega) (Int.emod_nonneg _ (by omega)) (Int.emod_lt_of_pos _ (by omega)))
        (hz' m _ m1 (by omega) (Int.emod_nonneg _ (by omega)) (Int.emod_lt_of_pos _ (by omega))), e]
    have hg : I.gama n r m i * 0.5 * (I.zs n r m i + I.zs n r (m + 1) i) = I.res n r m i := by
      have := hz' m i m1 (by omega) c1 c2
      unfold gama
      rw [div_mul_eq_mul_div, div_mul_cancel₀ _ this]
      ring
    rw [hg]
    have h1 := I.z1s_eq (n := n) (r := r) (m := m) (i := i) hN
    have h2 := I.z1s_eq (n := n) (r := r) (m := m + 1) (i := i) hN
    have h3 := I.res_mul hd n r m i
    unfold explained at h3
    linear_combination h3 - 0.5 * I.dt * h1 - 0.5 * I.dt * h2
  · rw [if_neg e, ih t i c1 c2]

/-- C149, figures 3 and 5: the residuals of figure 5, summed over the window, are the residual of figure 3. -/
theorem C149_figures {jpole n r i : ℤ} (hN : 2 ≤ I.nlon) (hr : r < jpole) (hd : I.dt ≠ 0) (hm : I.m0 ≤ I.m1) :
    ∑ m ∈ Ico I.m0 I.m1, I.dt * I.res n r m i = I.residual3 jpole n r i := by
  simp only [res_mul hd]
  rw [sum_sub_distrib, tele hm (fun m => I.zs n r m i)]
  unfold residual3 zs
  have h0 : I.smooth n (I.change r) i = I.smooth n (I.lwa I.m1 r) i - I.smooth n (I.lwa I.m0 r) i := by
    rw [← smooth_sub]
    rfl
  have trap : ∀ T : ℤ → ℤ → ℝ, I.smooth n (fun i => trapezoid I.dt I.m0 I.m1 (fun m => T m i)) i =
      ∑ m ∈ Ico I.m0 I.m1, 0.5 * I.dt * (I.smooth n (T m) i + I.smooth n (T (m + 1)) i) := by
    intro T
    unfold trapezoid
    rw [smooth_sum I n (Ico I.m0 I.m1) (fun m i => I.dt * ((T m i + T (m + 1) i) / 2))]
    refine sum_congr rfl fun m _ => ?_
    rw [← smooth_add, ← smooth_mul]
    congr 1
    funext i
    ring
  have hk : ∀ x : ℝ, x / (2 * I.dl * (I.a * cos (I.dp * r))) = I.const5 r * x := by
    intro x
    unfold const5
    rw [one_div_mul_eq_div]
    congr 1
    ring
  have h1 : I.smooth n (I.z1 jpole r) i = ∑ m ∈ Ico I.m0 I.m1, 0.5 * I.dt * (I.z1s n r m i + I.z1s n r (m + 1) i) := by
    rw [I.smooth_congr (by omega) (fun i c1 c2 => z1_eq hN hr c1 c2), trap]
    refine sum_congr rfl fun m _ => ?_
    have : ∀ m, I.smooth n (fun i => convergence I.nlon (I.a * cos (I.dp * r)) I.dl
        (fun i => I.ua1 m r i + I.ua2 m r i + I.ep1 m r i) i) i = I.z1s n r m i := by
      intro m
      unfold z1s
      refine I.smooth_congr (by omega) (fun i c1 c2 => ?_) i
      rw [conv_eq hN c1 c2]
      unfold convergence
      rw [hk]
      unfold flux
      ring
    rw [this, this]
  have h2 : I.smooth n (I.z2 jpole r) i = ∑ m ∈ Ico I.m0 I.m1, 0.5 * I.dt * (I.z2s n r m i + I.z2s n r (m + 1) i) := by
    rw [I.smooth_congr (by omega) (fun i _ _ => z2_eq hr), trap]
    refine sum_congr rfl fun m _ => ?_
    unfold z2s
    simp only [hk]
  have h3 : I.smooth n (I.z3 r) i = ∑ m ∈ Ico I.m0 I.m1, 0.5 * I.dt * (I.z3s n r m i + I.z3s n r (m + 1) i) := by
    rw [I.smooth_congr (by omega) (fun i _ _ => z3_eq r i), trap]
    rfl
  rw [h0, h1, h2, h3]
  have : ∑ m ∈ Ico I.m0 I.m1, 0.5 * I.dt * I.explained n r m i =
      ∑ m ∈ Ico I.m0 I.m1, 0.5 * I.dt * (I.z1s n r m i + I.z1s n r (m + 1) i) +
      ∑ m ∈ Ico I.m0 I.m1, 0.5 * I.dt * (I.z2s n r m i + I.z2s n r (m + 1) i) +
      ∑ m ∈ Ico I.m0 I.m1, 0.5 * I.dt * (I.z3s n r m i + I.z3s n r (m + 1) i) := by
    rw [← sum_add_distrib, ← sum_add_distrib]
    refine sum_congr rfl fun m _ => ?_
    unfold explained
    ring
  rw [this]
  ring

/-! ### The hypotheses can be met -/

example : threeColumns.residual3 90 1 49 0 = runningMean threeColumns.nlon 1 (fun i => threeColumns.lwa threeColumns.m1 49 i -
    threeColumns.lwa threeColumns.m0 49 i - trapezoid threeColumns.dt threeColumns.m0 threeColumns.m1
      (fun m => threeColumns.tendency 49 m i)) 0 := C147_residual (by decide) (by decide)

example : ∑ i ∈ Ico 0 threeColumns.nlon, threeColumns.smooth 1 (threeColumns.z1 90 49) i = 0 :=
  (C147_zonal (by decide) (by decide) (by decide)).1

example (i : ℤ) : (0 : ℝ) ≤ threeColumns.smooth 4 (fun i => if i = 1 then 2 else 0) i ∧
    threeColumns.smooth 4 (fun i => if i = 1 then 2 else 0) i ≤ 2 :=
  (C147_smoothing (by decide) (by decide) _).2.2 0 2 (fun i _ _ => by split_ifs <;> norm_num) i

/-- A wave activity that grows by 3 per slot everywhere because of the source at the bottom. -/
def source : Grl := { threeColumns with lwa := fun m _ _ => 3 * m, ua1 := fun _ _ _ => 0, ep4 := fun _ _ _ => 3 }

theorem source_tendency (j m i : ℤ) : source.tendency j m i = 3 := by
  unfold tendency convergence
  show -(((0 : ℝ) + 0 + 0 - (0 + 0 + 0)) / _) + ((0 : ℝ) - 0) / _ + 3 = 3
  norm_num

example (i : ℤ) : source.residual3 90 1 49 i = 0 :=
  C147_closed (by decide) (by decide) (by decide) fun m i _ _ _ _ => by
    rw [source_tendency, source_tendency]
    show (3 * ((m + 1 : ℤ) : ℝ) - 3 * (m : ℝ)) = 1 * ((3 + 3) / 2)
    push_cast
    ring

theorem source_cos (r : ℤ) : cos (source.dp * r) ≠ 0 := by
  show cos (0 * (r : ℝ)) ≠ 0
  rw [zero_mul, cos_zero]
  exact one_ne_zero

example : source.residual4 120 0 49 49 1 1 = runningMean source.nlon 0 (fun i => (source.lwa (1 + 1) 49 i - source.lwa (1 - 1) 49 i) /
    (2 * source.dt) - source.tendency 49 1 i) 1 :=
  C148_inner_partial le_rfl (source_cos 49) le_rfl (by decide) (by decide) (by decide)

example : ({ source with lwa := fun m j i => if m = 120 then 1e20 else source.lwa m j i } : Grl).tend4 120 49 49 (120 - 1) 0 =
    (1e20 - source.lwa (120 - 2) 49 0) / (2 * source.dt) := C148_last (by decide) (source_cos 49) 1e20

theorem source_mean (m i : ℤ) : runningMean source.nlon 0 (source.lwa m 49) i = 3 * m := by
  unfold runningMean
  rw [show Icc (-0 : ℤ) 0 = {0} by decide, sum_singleton]
  show 3 * (m : ℝ) / (2 * ((0 : ℤ) : ℝ) + 1) = 3 * m
  norm_num

example : source.lwa1 0 49 2 1 = runningMean source.nlon 0 (source.lwa 2 49) 1 :=
  C149_reconstruction (by decide) one_ne_zero (fun m i h _ _ _ => by
    rw [source_mean, source_mean]
    have : (1 : ℝ) ≤ m := by exact_mod_cast (show (1 : ℤ) ≤ m from h)
    push_cast
    linarith) (by decide) (by decide)

example : source.lwaSum 0 49 1 = runningMean source.nlon 0 (source.lwa source.m1 49) 1 -
    runningMean source.nlon 0 (source.lwa source.m0 49) 1 := C149_sum one_ne_zero (by decide)

example : ∑ m ∈ Ico source.m0 source.m1, source.dt * source.res 0 49 m 1 = source.residual3 90 0 49 1 :=
  C149_figures (by decide) (by decide) one_ne_zero (by decide)

end Falwa.Grl
