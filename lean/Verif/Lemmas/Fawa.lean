import Verif.Lemmas.Eqvlat
import Verif.Lemmas.Lwa

/-!
# Lemmas on the bracket average and on FAWA
-/

namespace Falwa

open Finset

section Interp

variable {K : Type*} [Field K] [LinearOrder K] [IsStrictOrderedRing K] {n : ℕ} {xp fp gp : ℕ → K}

omit [IsStrictOrderedRing K] in
/-- `np.interp` is linear in the sampled values. -/
theorem npInterp_linear (a b x : K) :
    npInterp n xp (fun i => a * fp i + b * gp i) x = a * npInterp n xp fp x + b * npInterp n xp gp x := by
  unfold npInterp
  split_ifs
  · rfl
  · simp only
    split_ifs
    · rfl
    · ring

/-- `np.interp` stays between any bounds of the sampled values. -/
theorem npInterp_within (hn : 0 < n) {m M : K} (hf : ∀ i < n, m ≤ fp i ∧ fp i ≤ M) (x : K) :
    m ≤ npInterp n xp fp x ∧ npInterp n xp fp x ≤ M := by
  rcases npInterp_cases (xp := xp) (fp := fp) hn x with ⟨_, h⟩ | ⟨j, hj, h1, h2, h⟩ | ⟨_, _, h⟩
  · rw [h]; exact hf 0 hn
  · rw [h]
    obtain ⟨a1, a2⟩ := hf j (by omega)
    obtain ⟨b1, b2⟩ := hf (j + 1) hj
    rcases le_total (fp j) (fp (j + 1)) with hc | hc
    · obtain ⟨h3, h4⟩ := interp_segment_bounds h1 h2 hc
      exact ⟨a1.trans h3, h4.trans b2⟩
    · obtain ⟨h3, h4⟩ := interp_segment_bounds (f := -fp j) (g := -fp (j + 1)) h1 h2 (by linarith)
      have e : -fp j + (-fp (j + 1) - -fp j) / (xp (j + 1) - xp j) * (x - xp j) =
          -(fp j + (fp (j + 1) - fp j) / (xp (j + 1) - xp j) * (x - xp j)) := by ring
      rw [e] at h3 h4
      constructor <;> linarith
  · rw [h]; exact hf (n - 1) (by omega)

end Interp

namespace EqvInput

/-- The input with the field replaced by `t q + b`. -/
noncomputable def affine (I : EqvInput) (t b : ℝ) : EqvInput := { I with vort := fun r c => t * I.vort r c + b }

theorem bins_affine (I : EqvInput) (t b : ℝ) (ht : 0 < t) (h1 : 0 < I.nlat) (h2 : 0 < I.nlon) :
    (I.affine t b).bins = fun i => t * I.bins i + b := by
  funext i
  have hne : (cells I.nlat I.nlon).Nonempty := cells_nonempty h1 h2
  show linspace (amin I.nlat I.nlon (fun r c => t * I.vort r c + b))
    (amax I.nlat I.nlon (fun r c => t * I.vort r c + b)) I.nPoints i = _
  rw [amin_affine ht b hne, amax_affine ht b hne, linspace_affine]; rfl

theorem ind_affine (I : EqvInput) (t b : ℝ) (ht : 0 < t) (h1 : 0 < I.nlat) (h2 : 0 < I.nlon) :
    (I.affine t b).ind = I.ind := by
  funext p
  unfold ind
  rw [bins_affine I t b ht h1 h2]
  refine digitize_congr fun i _ => ?_
  show t * I.bins i + b ≤ t * I.vort p.1 p.2 + b ↔ _
  rw [add_le_add_iff_right, mul_le_mul_iff_right₀ ht]

theorem aq_affine (I : EqvInput) (t b : ℝ) (ht : 0 < t) (h1 : 0 < I.nlat) (h2 : 0 < I.nlon) :
    (I.affine t b).aq = I.aq := by
  funext i
  unfold aq binSum
  rw [ind_affine I t b ht h1 h2]; rfl

theorem cq_affine (I : EqvInput) (t b : ℝ) (ht : 0 < t) (h1 : 0 < I.nlat) (h2 : 0 < I.nlon) (i : ℕ) :
    (I.affine t b).cq i = t * I.cq i + b * I.aq i := by
  unfold cq aq cumsum
  rw [mul_sum, mul_sum, ← sum_add_distrib]
  refine sum_congr rfl fun m _ => ?_
  beta_reduce
  split_ifs
  · ring
  · unfold binSum
    rw [ind_affine I t b ht h1 h2, mul_sum, mul_sum, ← sum_add_distrib]
    refine sum_congr rfl fun p _ => ?_
    show I.area p.1 p.2 * (t * I.vort p.1 p.2 + b) = _
    ring

theorem qbar_affine (I : EqvInput) (t b : ℝ) (h2 : 0 < I.nlon) (j : ℕ) :
    (I.affine t b).qbar j = t * I.qbar j + b := by
  unfold qbar
  show (∑ c ∈ range I.nlon, (t * I.vort j c + b)) / (I.nlon : ℝ) = _
  have : (I.nlon : ℝ) ≠ 0 := by exact_mod_cast h2.ne'
  rw [sum_add_distrib, ← mul_sum, sum_const, card_range, nsmul_eq_mul]
  field_simp

theorem cbarFromTop_affine (I : EqvInput) (t b : ℝ) (h2 : 0 < I.nlon) (d : ℕ) :
    (I.affine t b).cbarFromTop d = t * I.cbarFromTop d +
      b * ∑ m ∈ range d, (I.rowArea (I.nlat - 1 - m) + I.rowArea (I.nlat - 2 - m)) / 2 := by
  induction d with
  | zero => simp [cbarFromTop]
  | succ d ih =>
    have e1 : (I.affine t b).nlat = I.nlat := rfl
    have e2 : (I.affine t b).rowArea = I.rowArea := rfl
    unfold cbarFromTop
    rw [ih, e1, e2, qbar_affine I t b h2, qbar_affine I t b h2, sum_range_succ]
    ring

/-- The circulation of a row arrangement with the same pairs is the same. -/
theorem binSum_mul_of_pairs {I J : EqvInput} (h : I.pairs = J.pairs) (hn : I.nPoints = J.nPoints) (i : ℕ) :
    I.binSum (fun r c => I.area r c * I.vort r c) i = J.binSum (fun r c => J.area r c * J.vort r c) i := by
  unfold binSum ind
  rw [sum_filter, sum_filter, bins_of_pairs h hn, hn]
  have e1 := sum_pairs I (fun x => if digitize J.nPoints J.bins x.1 = i then x.2 * x.1 else 0)
  have e2 := sum_pairs J (fun x => if digitize J.nPoints J.bins x.1 = i then x.2 * x.1 else 0)
  simp only at e1 e2
  rw [e1, e2, h]

theorem binSum_linear (I : EqvInput) (u v : ℕ → ℕ → ℝ) (a b : ℝ) (i : ℕ) :
    I.binSum (fun r c => I.area r c * (a * u r c + b * v r c)) i =
      a * I.binSum (fun r c => I.area r c * u r c) i + b * I.binSum (fun r c => I.area r c * v r c) i := by
  unfold binSum
  rw [mul_sum, mul_sum, ← sum_add_distrib]
  exact sum_congr rfl fun p _ => by ring

theorem dp_linear (I : EqvInput) (u v : ℕ → ℕ → ℝ) (a b : ℝ) (i : ℕ) :
    I.dp (fun r c => a * u r c + b * v r c) i = a * I.dp u i + b * I.dp v i := by
  unfold dp
  split_ifs
  · ring
  · rw [binSum_linear]; ring

theorem brac_linear (I : EqvInput) (u v : ℕ → ℕ → ℝ) (a b : ℝ) (i : ℕ) :
    I.brac (fun r c => a * u r c + b * v r c) i = a * I.brac u i + b * I.brac v i := by
  unfold brac
  split_ifs
  · rw [dp_linear, dp_linear]; ring
  · ring

theorem binSum_nonneg {I : EqvInput} (ha : ∀ p ∈ cells I.nlat I.nlon, 0 ≤ I.area p.1 p.2) (i : ℕ) :
    0 ≤ I.binSum I.area i :=
  sum_nonneg fun p hp => ha p (mem_filter.1 hp).1

/-- The average over a bin with positive area is between the bounds of the averaged quantity. -/
theorem dp_within {I : EqvInput} (ha : ∀ p ∈ cells I.nlat I.nlon, 0 ≤ I.area p.1 p.2)
    {w : ℕ → ℕ → ℝ} {m M : ℝ} (hw : ∀ r < I.nlat, ∀ c < I.nlon, m ≤ w r c ∧ w r c ≤ M) {i : ℕ}
    (hi : I.binSum I.area i ≠ 0) : m ≤ I.dp w i ∧ I.dp w i ≤ M := by
  have hpos : 0 < I.binSum I.area i := lt_of_le_of_ne (binSum_nonneg ha i) (Ne.symm hi)
  unfold dp
  rw [if_neg hi, le_div_iff₀ hpos, div_le_iff₀ hpos]
  unfold binSum
  rw [mul_sum, mul_sum]
  constructor
  · refine sum_le_sum fun p hp => ?_
    have hc := (mem_filter.1 hp).1
    have := ha p hc
    rw [mem_cells] at hc
    rw [mul_comm]
    exact mul_le_mul_of_nonneg_left (hw _ hc.1 _ hc.2).1 this
  · refine sum_le_sum fun p hp => ?_
    have hc := (mem_filter.1 hp).1
    have := ha p hc
    rw [mem_cells] at hc
    rw [mul_comm M]
    exact mul_le_mul_of_nonneg_left (hw _ hc.1 _ hc.2).2 this

theorem brac_within {I : EqvInput} (ha : ∀ p ∈ cells I.nlat I.nlon, 0 ≤ I.area p.1 p.2)
    {w : ℕ → ℕ → ℝ} {m M : ℝ} (hm : m ≤ 0) (hM : 0 ≤ M)
    (hw : ∀ r < I.nlat, ∀ c < I.nlon, m ≤ w r c ∧ w r c ≤ M) (i : ℕ) :
    m ≤ I.brac w i ∧ I.brac w i ≤ M := by
  have hd : ∀ k, m ≤ I.dp w k ∧ I.dp w k ≤ M := by
    intro k
    by_cases h : I.binSum I.area k = 0
    · unfold dp; rw [if_pos h]; exact ⟨hm, hM⟩
    · exact dp_within ha hw h
  unfold brac
  split_ifs
  · have h1 := hd (i - 1)
    have h2 := hd (i + 1)
    constructor <;> linarith [h1.1, h1.2, h2.1, h2.2]
  · exact ⟨hm, hM⟩

theorem bracReturn_ok {I : EqvInput} (h1 : 0 < I.nlat) (h2 : 0 < I.nlon) (hn : 0 < I.nPoints)
    (hr : I.radius ≠ 0) (ha : ∀ p ∈ cells I.nlat I.nlon, 0 ≤ I.area p.1 p.2)
    (ht : ∑ p ∈ cells I.nlat I.nlon, I.area p.1 p.2 ≤ 4 * Real.pi * I.radius ^ 2) (w : ℕ → ℕ → ℝ) :
    I.bracReturn w = .ok (fun j =>
      npInterp I.nPoints (fun i => (I.eqvLatitude I.aq i).getD 0) (I.brac w) (I.ylat j)) := by
  unfold bracReturn
  rw [← aq_eq_aqVgrad hn]
  exact interpToYlat_ok h1 h2 hn hr ha ht _

/-- The first bin of a field that is not constant contains the minimum. -/
theorem bin_one_pos {I : EqvInput} (hn : 2 ≤ I.nPoints)
    (ha : ∀ p ∈ cells I.nlat I.nlon, 0 < I.area p.1 p.2) {p q : ℕ × ℕ} (hp : p ∈ cells I.nlat I.nlon)
    (hq : q ∈ cells I.nlat I.nlon) (hpq : I.vort p.1 p.2 < I.vort q.1 q.2) : 0 < I.binSum I.area 1 := by
  obtain ⟨o, ho, e⟩ := exists_amin (vort := I.vort) ⟨p, hp⟩
  have hb : I.vort o.1 o.2 < I.bins 1 := by
    unfold bins linspace
    have h1 : amin I.nlat I.nlon I.vort < amax I.nlat I.nlon I.vort :=
      lt_of_le_of_lt (amin_le hp) (lt_of_lt_of_le hpq (le_amax hq))
    have h2 : (0 : ℝ) < ((I.nPoints - 1 : ℕ) : ℝ) := by exact_mod_cast (by omega : 0 < I.nPoints - 1)
    have := div_pos (sub_pos.2 h1) h2
    rw [← e]
    push_cast
    linarith
  have hi : I.ind o = 1 := by
    have h1 := one_le_ind (I := I) (by omega) ho
    have h2 : I.ind o ≤ 1 := (digitize_le_iff I.bins_mono (by omega)).2 hb
    omega
  exact sum_pos (fun c hc => ha c (mem_filter.1 hc).1) ⟨o, mem_filter.2 ⟨ho, hi⟩⟩

theorem eqvLat_zero (I : EqvInput) : (I.eqvLatitude I.aq 0).getD 0 = -90 := by
  unfold eqvLatitude gaussianGrid
  rw [aq_zero, zero_div, zero_sub, arcsinDeg_getD ⟨le_rfl, by norm_num⟩, Real.arcsin_neg_one]
  unfold rad2deg
  have := Real.pi_ne_zero
  field_simp
  norm_num

theorem aq_succ {I : EqvInput} (i : ℕ) : I.aq (i + 1) = I.aq i + I.binSum I.area (i + 1) := by
  unfold aq cumsum
  rw [sum_range_succ _ (i + 1)]
  simp

/-- A bin with positive area moves the equivalent latitude. -/
theorem eqvLat_lt {I : EqvInput} (hn : 0 < I.nPoints) (hr : I.radius ≠ 0)
    (ha : ∀ p ∈ cells I.nlat I.nlon, 0 ≤ I.area p.1 p.2)
    (ht : ∑ p ∈ cells I.nlat I.nlon, I.area p.1 p.2 ≤ 4 * Real.pi * I.radius ^ 2) {i : ℕ}
    (hi : 0 < I.binSum I.area (i + 1)) :
    (I.eqvLatitude I.aq i).getD 0 < (I.eqvLatitude I.aq (i + 1)).getD 0 := by
  have g1 := gaussianGrid_mem hn hr ha ht i
  have g2 := gaussianGrid_mem hn hr ha ht (i + 1)
  unfold eqvLatitude
  rw [arcsinDeg_getD g1, arcsinDeg_getD g2]
  have hlt : I.gaussianGrid I.aq i < I.gaussianGrid I.aq (i + 1) := by
    unfold gaussianGrid
    rw [aq_succ]
    have hpos : 0 < 2 * Real.pi * I.radius ^ 2 := by
      have := Real.pi_pos
      positivity
    have := div_lt_div_of_pos_right (show I.aq i < I.aq i + I.binSum I.area (i + 1) by linarith) hpos
    linarith
  have := Real.strictMonoOn_arcsin g1 g2 hlt
  unfold rad2deg
  have hpi := Real.pi_pos
  gcongr

end EqvInput

end Falwa
