import Verif.Model.AreaRounding
import Verif.Lemmas.AreaAnalysis
import Verif.Props.FluxRounding
import Verif.Props.Bounds

/-!
# C140: the partitions of the area analysis in single precision
-/

noncomputable section

namespace Falwa

open Real Finset

/-! ## Rounding to nearest is monotone -/

theorem roundBits_bounds {p : ℕ} {x : ℝ} (hx : 0 < x) :
    (2 : ℝ) ^ Int.log 2 x ≤ roundBits p x ∧ roundBits p x ≤ (2 : ℝ) ^ (Int.log 2 x + 1) := by
  have hs : (0 : ℝ) < (2 : ℝ) ^ (Int.log 2 x - p) := zpow_pos (by norm_num) _
  have h1 : (2 : ℝ) ^ Int.log 2 x ≤ x := by simpa using Int.zpow_log_le_self (R := ℝ) (b := 2) (by norm_num) hx
  have h2 : x < (2 : ℝ) ^ (Int.log 2 x + 1) := by simpa using Int.lt_zpow_succ_log_self (R := ℝ) (b := 2) (by norm_num) x
  have e1 : (2 : ℝ) ^ Int.log 2 x = ((2 ^ p : ℤ) : ℝ) * (2 : ℝ) ^ (Int.log 2 x - p) := by
    push_cast; rw [← zpow_natCast, ← zpow_add₀ (by norm_num)]; congr 1; omega
  have e2 : (2 : ℝ) ^ (Int.log 2 x + 1) = ((2 ^ (p + 1) : ℤ) : ℝ) * (2 : ℝ) ^ (Int.log 2 x - p) := by
    push_cast; rw [← zpow_natCast, ← zpow_add₀ (by norm_num)]; congr 1; push_cast; omega
  unfold roundBits
  rw [abs_of_pos hx]
  constructor
  · rw [e1]
    apply mul_le_mul_of_nonneg_right _ hs.le
    have : (2 ^ p : ℤ) ≤ round (x / (2 : ℝ) ^ (Int.log 2 x - p)) := by
      rw [round_eq, Int.le_floor]
      have : ((2 ^ p : ℤ) : ℝ) ≤ x / (2 : ℝ) ^ (Int.log 2 x - p) := by rw [le_div_iff₀ hs, ← e1]; exact h1
      linarith
    exact_mod_cast this
  · rw [e2]
    apply mul_le_mul_of_nonneg_right _ hs.le
    have : round (x / (2 : ℝ) ^ (Int.log 2 x - p)) ≤ (2 ^ (p + 1) : ℤ) := by
      rw [round_eq]
      have h3 : x / (2 : ℝ) ^ (Int.log 2 x - p) < ((2 ^ (p + 1) : ℤ) : ℝ) := by rw [div_lt_iff₀ hs, ← e2]; exact h2
      have h4 := Int.floor_lt (a := x / (2 : ℝ) ^ (Int.log 2 x - p) + 1 / 2) (z := 2 ^ (p + 1) + 1)
      have : ⌊x / (2 : ℝ) ^ (Int.log 2 x - p) + 1 / 2⌋ < 2 ^ (p + 1) + 1 := by
        rw [h4]; push_cast at h3 ⊢; linarith
      omega
    exact_mod_cast this

theorem roundBits_same {p : ℕ} {x y : ℝ} (h : x ≤ y) (he : Int.log 2 |x| = Int.log 2 |y|) : roundBits p x ≤ roundBits p y := by
  have hs : (0 : ℝ) < (2 : ℝ) ^ (Int.log 2 |y| - p) := zpow_pos (by norm_num) _
  unfold roundBits
  rw [he]
  apply mul_le_mul_of_nonneg_right _ hs.le
  have : round (x / (2 : ℝ) ^ (Int.log 2 |y| - p)) ≤ round (y / (2 : ℝ) ^ (Int.log 2 |y| - p)) := by
    rw [round_eq, round_eq]
    apply Int.floor_le_floor
    have := div_le_div_of_nonneg_right h hs.le
    linarith
  exact_mod_cast this

theorem roundBits_neg_bounds {p : ℕ} {x : ℝ} (hx : x < 0) :
    -(2 : ℝ) ^ (Int.log 2 |x| + 1) ≤ roundBits p x ∧ roundBits p x ≤ -(2 : ℝ) ^ Int.log 2 |x| := by
  have hp : 0 < |x| := abs_pos.2 hx.ne
  have hs : (0 : ℝ) < (2 : ℝ) ^ (Int.log 2 |x| - p) := zpow_pos (by norm_num) _
  have h1 : (2 : ℝ) ^ Int.log 2 |x| ≤ |x| := by simpa using Int.zpow_log_le_self (R := ℝ) (b := 2) (by norm_num) hp
  have h2 : |x| < (2 : ℝ) ^ (Int.log 2 |x| + 1) := by simpa using Int.lt_zpow_succ_log_self (R := ℝ) (b := 2) (by norm_num) |x|
  have e1 : (2 : ℝ) ^ Int.log 2 |x| = ((2 ^ p : ℤ) : ℝ) * (2 : ℝ) ^ (Int.log 2 |x| - p) := by
    push_cast; rw [← zpow_natCast, ← zpow_add₀ (by norm_num)]; congr 1; omega
  have e2 : (2 : ℝ) ^ (Int.log 2 |x| + 1) = ((2 ^ (p + 1) : ℤ) : ℝ) * (2 : ℝ) ^ (Int.log 2 |x| - p) := by
    push_cast; rw [← zpow_natCast, ← zpow_add₀ (by norm_num)]; congr 1; push_cast; omega
  have ex : x = -|x| := by rw [abs_of_neg hx]; ring
  unfold roundBits
  constructor
  · rw [e2, ← neg_mul]
    apply mul_le_mul_of_nonneg_right _ hs.le
    have : -(2 ^ (p + 1) : ℤ) ≤ round (x / (2 : ℝ) ^ (Int.log 2 |x| - p)) := by
      rw [round_eq, Int.le_floor]
      have : -((2 ^ (p + 1) : ℤ) : ℝ) ≤ x / (2 : ℝ) ^ (Int.log 2 |x| - p) := by
        rw [le_div_iff₀ hs, neg_mul, ← e2]; linarith
      push_cast at this ⊢; linarith
    exact_mod_cast this
  · rw [e1, ← neg_mul]
    apply mul_le_mul_of_nonneg_right _ hs.le
    have : round (x / (2 : ℝ) ^ (Int.log 2 |x| - p)) ≤ -(2 ^ p : ℤ) := by
      rw [round_eq]
      have h3 : x / (2 : ℝ) ^ (Int.log 2 |x| - p) ≤ -((2 ^ p : ℤ) : ℝ) := by rw [div_le_iff₀ hs, neg_mul, ← e1]; linarith
      have : ⌊x / (2 : ℝ) ^ (Int.log 2 |x| - p) + 1 / 2⌋ < -(2 ^ p : ℤ) + 1 := by
        rw [Int.floor_lt]; push_cast at h3 ⊢; linarith
      omega
    exact_mod_cast this

theorem log_mono {x y : ℝ} (hx : 0 < x) (h : x ≤ y) : Int.log 2 x ≤ Int.log 2 y := Int.log_mono_right hx h

/-- Rounding to nearest preserves order. -/
theorem roundBits_mono (p : ℕ) : Monotone (roundBits (K := ℝ) p) := by
  intro x y h
  have hk : KeepsSign (roundBits (K := ℝ) p) := (relativeError_roundBits p).keepsSign (by
    have : (1 / 2 : ℝ) ^ (p + 1) ≤ 1 / 2 := by
      rw [pow_succ]
      have := pow_le_one₀ (n := p) (by norm_num : (0 : ℝ) ≤ 1 / 2) (by norm_num)
      linarith
    linarith)
  rcases le_or_gt x 0 with hx | hx
  · rcases le_or_gt 0 y with hy | hy
    · exact (hk.nonpos x hx).trans (hk.nonneg y hy)
    · have hx' : x < 0 := lt_of_le_of_lt h hy
      have hl : Int.log 2 |y| ≤ Int.log 2 |x| := log_mono (abs_pos.2 hy.ne) (by rw [abs_of_neg hy, abs_of_neg hx']; linarith)
      rcases eq_or_lt_of_le hl with he | hlt
      · exact roundBits_same h he.symm
      · refine ((roundBits_neg_bounds hx').2).trans (le_trans ?_ (roundBits_neg_bounds hy).1)
        apply neg_le_neg
        exact zpow_le_zpow_right₀ (by norm_num) (by omega)
  · have hy : 0 < y := lt_of_lt_of_le hx h
    have hl : Int.log 2 x ≤ Int.log 2 y := log_mono hx h
    rcases eq_or_lt_of_le hl with he | hlt
    · exact roundBits_same h (by rw [abs_of_pos hx, abs_of_pos hy]; exact he)
    · refine ((roundBits_bounds hx).2).trans (le_trans ?_ (roundBits_bounds hy).1)
      exact zpow_le_zpow_right₀ (by norm_num) (by omega)

namespace AreaIn

variable {I : AreaIn} {m : Machine} {u : ℝ}

/-- Sizes of the block and a level that is not constant. -/
structure Spread (I : AreaIn) : Prop where
  imax1 : 1 ≤ I.imax
  jmax1 : 1 ≤ I.jmax
  npart2 : 2 ≤ I.npart
  spread : I.qmin < I.qmax

theorem Spread.parts (h : I.Spread) : (1 : ℝ) ≤ ((I.npart - 1 : ℤ) : ℝ) := by
  have := h.npart2
  exact_mod_cast (by omega : (1 : ℤ) ≤ I.npart - 1)

theorem Spread.le_max (h : I.Spread) {i j : ℤ} (hi : 1 ≤ i ∧ i ≤ I.imax) (hj : 1 ≤ j ∧ j ≤ I.jmax) : I.q i j ≤ I.qmax :=
  (maxval_spec (A := I.q) h.imax1 h.jmax1).1 i j hi.1 hi.2 hj.1 hj.2

theorem Spread.min_le (h : I.Spread) {i j : ℤ} (hi : 1 ≤ i ∧ i ≤ I.imax) (hj : 1 ≤ j ∧ j ≤ I.jmax) : I.qmin ≤ I.q i j :=
  (minval_spec (A := I.q) h.imax1 h.jmax1).1 i j hi.1 hi.2 hj.1 hj.2

theorem fl_between (hs : m.Standard u) {x : ℝ} (hx : 0 ≤ x) : (1 - u) * x ≤ m.fl x ∧ m.fl x ≤ (1 + u) * x := by
  have := abs_le.1 (hs.rel x)
  rw [abs_of_nonneg hx] at this
  constructor <;> linarith [this.1, this.2]

/-- The computed width of a partition. -/
theorem dqFl_between (h : I.Spread) (hs : m.Standard u) : 0 < I.dqFl m ∧
    (1 - u) ^ 2 * (I.qmax - I.qmin) ≤ I.dqFl m * ((I.npart - 1 : ℤ) : ℝ) ∧
    I.dqFl m * ((I.npart - 1 : ℤ) : ℝ) ≤ (1 + u) ^ 2 * (I.qmax - I.qmin) := by
  have hR : 0 < I.qmax - I.qmin := sub_pos.2 h.spread
  have hN : (0 : ℝ) < ((I.npart - 1 : ℤ) : ℝ) := by linarith [h.parts]
  have u0 := hs.nonneg
  have u1 := hs.small
  have a := fl_between hs hR.le
  have fR := m.fl_pos hs hR
  have hd : 0 < m.fl (I.qmax - I.qmin) / ((I.npart - 1 : ℤ) : ℝ) := div_pos fR hN
  have b := fl_between hs hd.le
  refine ⟨m.fl_pos hs hd, ?_, ?_⟩
  · calc (1 - u) ^ 2 * (I.qmax - I.qmin) = (1 - u) * ((1 - u) * (I.qmax - I.qmin)) := by ring
      _ ≤ (1 - u) * m.fl (I.qmax - I.qmin) := mul_le_mul_of_nonneg_left a.1 (by linarith)
      _ = (1 - u) * (m.fl (I.qmax - I.qmin) / ((I.npart - 1 : ℤ) : ℝ)) * ((I.npart - 1 : ℤ) : ℝ) := by field_simp
      _ ≤ _ := mul_le_mul_of_nonneg_right b.1 hN.le
  · calc I.dqFl m * ((I.npart - 1 : ℤ) : ℝ)
        ≤ (1 + u) * (m.fl (I.qmax - I.qmin) / ((I.npart - 1 : ℤ) : ℝ)) * ((I.npart - 1 : ℤ) : ℝ) := mul_le_mul_of_nonneg_right b.2 hN.le
      _ = (1 + u) * m.fl (I.qmax - I.qmin) := by field_simp
      _ ≤ (1 + u) * ((1 + u) * (I.qmax - I.qmin)) := mul_le_mul_of_nonneg_left a.2 (by linarith)
      _ = _ := by ring

theorem exact_quot (h : I.Spread) {i j : ℤ} (hi : 1 ≤ i ∧ i ≤ I.imax) (hj : 1 ≤ j ∧ j ≤ I.jmax) :
    0 ≤ (I.qmax - I.q i j) / I.dq ∧ (I.qmax - I.q i j) / I.dq ≤ ((I.npart - 1 : ℤ) : ℝ) ∧
    (I.qmax - I.q i j) / I.dq * (I.qmax - I.qmin) = (I.qmax - I.q i j) * ((I.npart - 1 : ℤ) : ℝ) := by
  have hR : 0 < I.qmax - I.qmin := sub_pos.2 h.spread
  have hN : (0 : ℝ) < ((I.npart - 1 : ℤ) : ℝ) := by linarith [h.parts]
  have hd : 0 < I.dq := div_pos hR hN
  have hm := h.le_max hi hj
  have hm' := h.min_le hi hj
  refine ⟨div_nonneg (by linarith) hd.le, ?_, ?_⟩
  · rw [div_le_iff₀ hd]
    unfold dq
    rw [mul_div_cancel₀ _ hN.ne']
    linarith
  · unfold dq
    field_simp

/-- The computed quotient against the exact one. -/
theorem quotFl_between (h : I.Spread) (hs : m.Standard u) {i j : ℤ} (hi : 1 ≤ i ∧ i ≤ I.imax) (hj : 1 ≤ j ∧ j ≤ I.jmax) :
    0 ≤ I.quotFl m i j ∧ (1 - u) ^ 2 * ((I.qmax - I.q i j) / I.dq) ≤ I.quotFl m i j * (1 + u) ^ 2 ∧
    I.quotFl m i j * (1 - u) ^ 2 ≤ (1 + u) ^ 2 * ((I.qmax - I.q i j) / I.dq) := by
  obtain ⟨t0, _, t2⟩ := exact_quot h hi hj
  obtain ⟨d0, d1, d2⟩ := dqFl_between h hs
  have hx : 0 ≤ I.qmax - I.q i j := sub_nonneg.2 (h.le_max hi hj)
  have hR : 0 < I.qmax - I.qmin := sub_pos.2 h.spread
  have hN : (0 : ℝ) < ((I.npart - 1 : ℤ) : ℝ) := by linarith [h.parts]
  have u0 := hs.nonneg
  have u1 := hs.small
  have a := fl_between hs hx
  have fx : 0 ≤ m.fl (I.qmax - I.q i j) := le_trans (mul_nonneg (by linarith) hx) a.1
  have hy : 0 ≤ m.fl (I.qmax - I.q i j) / I.dqFl m := div_nonneg fx d0.le
  have b := fl_between hs hy
  have q0 : 0 ≤ I.quotFl m i j := le_trans (mul_nonneg (by linarith) hy) b.1
  set T := (I.qmax - I.q i j) / I.dq
  set d := I.dqFl m
  set N : ℝ := ((I.npart - 1 : ℤ) : ℝ)
  set R := I.qmax - I.qmin
  set x := I.qmax - I.q i j
  have qd1 : (1 - u) * ((1 - u) * x) ≤ I.quotFl m i j * d := by
    calc (1 - u) * ((1 - u) * x) ≤ (1 - u) * m.fl x := mul_le_mul_of_nonneg_left a.1 (by linarith)
      _ = (1 - u) * (m.fl x / d) * d := by field_simp
      _ ≤ _ := mul_le_mul_of_nonneg_right b.1 d0.le
  have qd2 : I.quotFl m i j * d ≤ (1 + u) * ((1 + u) * x) := by
    calc I.quotFl m i j * d ≤ (1 + u) * (m.fl x / d) * d := mul_le_mul_of_nonneg_right b.2 d0.le
      _ = (1 + u) * m.fl x := by field_simp
      _ ≤ _ := mul_le_mul_of_nonneg_left a.2 (by linarith)
  refine ⟨q0, ?_, ?_⟩
  · have h1 : (1 - u) ^ 2 * T * R ≤ I.quotFl m i j * (1 + u) ^ 2 * R := by
      calc (1 - u) ^ 2 * T * R = (1 - u) * ((1 - u) * x) * N := by rw [mul_assoc, t2]; ring
        _ ≤ I.quotFl m i j * d * N := mul_le_mul_of_nonneg_right qd1 hN.le
        _ = I.quotFl m i j * (d * N) := by ring
        _ ≤ I.quotFl m i j * ((1 + u) ^ 2 * R) := mul_le_mul_of_nonneg_left d2 q0
        _ = _ := by ring
    exact le_of_mul_le_mul_right h1 hR
  · have h1 : I.quotFl m i j * (1 - u) ^ 2 * R ≤ (1 + u) ^ 2 * T * R := by
      calc I.quotFl m i j * (1 - u) ^ 2 * R = I.quotFl m i j * ((1 - u) ^ 2 * R) := by ring
        _ ≤ I.quotFl m i j * (d * N) := mul_le_mul_of_nonneg_left d1 q0
        _ = I.quotFl m i j * d * N := by ring
        _ ≤ (1 + u) * ((1 + u) * x) * N := mul_le_mul_of_nonneg_right qd2 hN.le
        _ = (1 + u) ^ 2 * T * R := by rw [mul_assoc ((1 + u) ^ 2), t2]; ring
    exact le_of_mul_le_mul_right h1 hR

/-- Property C140 for every level: the index exists and lies in the partition arrays. -/
def C140_Statement (m : Machine) : Prop :=
  ∀ (I : AreaIn) (i j : ℤ), 1 ≤ I.imax → 1 ≤ I.jmax → 2 ≤ I.npart → I.npart ≤ 2 ^ 20 → 1 ≤ i ∧ i ≤ I.imax → 1 ≤ j ∧ j ≤ I.jmax →
    ∃ n, I.indFl m i j = some n ∧ 1 ≤ n ∧ n ≤ I.npart

/-- C140: on a level that is not constant every cell has a partition, for all numbers of partitions up to a quarter of the reciprocal of the
rounding error. Missing: constant levels (`C140_constant`). -/
theorem C140_range_partial (h : I.Spread) (hs : m.Standard u) (hu : u * (4 * ((I.npart - 1 : ℤ) : ℝ) + 2) ≤ 1) {i j : ℤ}
    (hi : 1 ≤ i ∧ i ≤ I.imax) (hj : 1 ≤ j ∧ j ≤ I.jmax) : ∃ n, I.indFl m i j = some n ∧ 1 ≤ n ∧ n ≤ I.npart := by
  obtain ⟨d0, _, _⟩ := dqFl_between h hs
  obtain ⟨q0, _, q2⟩ := quotFl_between h hs hi hj
  obtain ⟨t0, t1, _⟩ := exact_quot h hi hj
  have u0 := hs.nonneg
  have u1 := hs.small
  have hN := h.parts
  refine ⟨1 + fint (I.quotFl m i j), if_neg d0.ne', ?_, ?_⟩
  · rw [fint_nonneg q0]
    have := Int.floor_nonneg.2 q0
    omega
  · rw [fint_nonneg q0]
    have hlt : I.quotFl m i j < ((I.npart - 1 : ℤ) : ℝ) + 1 := by
      by_contra hc
      have hc := not_lt.1 hc
      have s : 0 < (1 - u) ^ 2 := pow_pos (by linarith) 2
      have a1 : (((I.npart - 1 : ℤ) : ℝ) + 1) * (1 - u) ^ 2 ≤ I.quotFl m i j * (1 - u) ^ 2 := mul_le_mul_of_nonneg_right hc s.le
      have a2 : (1 + u) ^ 2 * ((I.qmax - I.q i j) / I.dq) ≤ (1 + u) ^ 2 * ((I.npart - 1 : ℤ) : ℝ) :=
        mul_le_mul_of_nonneg_left t1 (by positivity)
      have a3 : (((I.npart - 1 : ℤ) : ℝ) + 1) * (1 - u) ^ 2 - (1 + u) ^ 2 * ((I.npart - 1 : ℤ) : ℝ) =
        (1 - u * (4 * ((I.npart - 1 : ℤ) : ℝ) + 2)) + u ^ 2 := by ring
      rcases u0.eq_or_lt with e | e
      · rw [← e] at a3 a1 a2 q2; norm_num at a3 a1 a2 q2; linarith
      · have : 0 < u ^ 2 := by positivity
        linarith
    have : ⌊I.quotFl m i j⌋ < I.npart - 1 + 1 := by
      rw [Int.floor_lt]; push_cast at hlt ⊢; exact hlt
    omega

/-- C140: the partition of a cell is at most one away from the partition in exact arithmetic. -/
theorem C140_neighbour (h : I.Spread) (hs : m.Standard u) (hu : u * (4 * ((I.npart - 1 : ℤ) : ℝ) + 2) ≤ 1) {i j : ℤ}
    (hi : 1 ≤ i ∧ i ≤ I.imax) (hj : 1 ≤ j ∧ j ≤ I.jmax) : ∃ n, I.indFl m i j = some n ∧ |n - I.ind i j| ≤ 1 := by
  obtain ⟨d0, _, _⟩ := dqFl_between h hs
  obtain ⟨q0, q1, q2⟩ := quotFl_between h hs hi hj
  obtain ⟨t0, t1, _⟩ := exact_quot h hi hj
  have u0 := hs.nonneg
  have u1 := hs.small
  refine ⟨1 + fint (I.quotFl m i j), if_neg d0.ne', ?_⟩
  unfold ind
  rw [fint_nonneg q0, fint_nonneg t0]
  set Q := I.quotFl m i j
  set T := (I.qmax - I.q i j) / I.dq
  set N : ℝ := ((I.npart - 1 : ℤ) : ℝ)
  have hN0 : 0 ≤ N := t0.trans t1
  have hT : u * T ≤ u * N := mul_le_mul_of_nonneg_left t1 u0
  have up : Q < T + 1 := by
    by_contra hc
    have hc := not_lt.1 hc
    have a1 : (T + 1) * (1 - u) ^ 2 ≤ Q * (1 - u) ^ 2 := mul_le_mul_of_nonneg_right hc (by positivity)
    have a2 : (T + 1) * (1 - u) ^ 2 - (1 + u) ^ 2 * T = (1 - u * (4 * T + 2)) + u ^ 2 := by ring
    rcases u0.eq_or_lt with e | e
    · rw [← e] at a1 q2; norm_num at a1 q2; linarith
    · have : 0 < u ^ 2 := by positivity
      nlinarith
  have dn : T < Q + 1 := by
    by_contra hc
    have hc := not_lt.1 hc
    have a1 : (Q + 1) * (1 + u) ^ 2 ≤ T * (1 + u) ^ 2 := mul_le_mul_of_nonneg_right hc (by positivity)
    have a2 : T * (1 + u) ^ 2 - (1 - u) ^ 2 * T = u * (4 * T) := by ring
    nlinarith
  have f1 := Int.floor_le Q
  have f2 := Int.lt_floor_add_one Q
  have f3 := Int.floor_le T
  have f4 := Int.lt_floor_add_one T
  have b1 : ⌊Q⌋ < ⌊T⌋ + 2 := by exact_mod_cast (by linarith : (⌊Q⌋ : ℝ) < ⌊T⌋ + 2)
  have b2 : ⌊T⌋ < ⌊Q⌋ + 2 := by exact_mod_cast (by linarith : (⌊T⌋ : ℝ) < ⌊Q⌋ + 2)
  rw [abs_le]
  omega

/-- C140: larger values are never put into a later partition, if rounding preserves order. -/
theorem C140_nested (h : I.Spread) (hs : m.Standard u) (hm : Monotone m.fl) {i j i' j' : ℤ} (hi : 1 ≤ i ∧ i ≤ I.imax)
    (hj : 1 ≤ j ∧ j ≤ I.jmax) (hi' : 1 ≤ i' ∧ i' ≤ I.imax) (hj' : 1 ≤ j' ∧ j' ≤ I.jmax) (hq : I.q i j ≤ I.q i' j') :
    ∃ n n', I.indFl m i j = some n ∧ I.indFl m i' j' = some n' ∧ n' ≤ n := by
  obtain ⟨d0, _, _⟩ := dqFl_between h hs
  obtain ⟨q0, _, _⟩ := quotFl_between h hs hi hj
  obtain ⟨q0', _, _⟩ := quotFl_between h hs hi' hj'
  refine ⟨_, _, if_neg d0.ne', if_neg d0.ne', ?_⟩
  rw [fint_nonneg q0, fint_nonneg q0']
  have : I.quotFl m i' j' ≤ I.quotFl m i j := by
    unfold quotFl
    apply hm
    apply div_le_div_of_nonneg_right _ d0.le
    apply hm
    linarith
  have := Int.floor_le_floor this
  omega

/-- C140: the largest value is in the first partition. -/
theorem C140_first (h : I.Spread) (hs : m.Standard u) {i j : ℤ} (hq : I.q i j = I.qmax) : I.indFl m i j = some 1 := by
  obtain ⟨d0, _, _⟩ := dqFl_between h hs
  unfold indFl quotFl
  rw [if_neg d0.ne', hq, sub_self, m.fl_zero hs, zero_div, m.fl_zero hs, fint_nonneg le_rfl]
  simp

/-- C140 fails on constant levels: there is no index, the division is 0/0. -/
theorem C140_constant (hs : m.Standard u) (hc : I.qmax = I.qmin) (i j : ℤ) : I.indFl m i j = none := by
  unfold indFl dqFl
  rw [hc, sub_self, m.fl_zero hs, zero_div, m.fl_zero hs, if_pos rfl]

/-- A grid of one degree with a field that increases from south to north. -/
def slope : AreaIn where
  imax := 360
  jmax := 181
  nd := 91
  npart := 181
  q := fun _ j => j
  a := 6378000
  dphi := π / 180
  dlambda := π / 180

theorem slope_spread : slope.Spread := by
  refine ⟨by decide, by decide, by decide, ?_⟩
  have h1 := (maxval_spec (A := slope.q) (m := 360) (n := 181) (by decide) (by decide)).1 1 181 (by decide) (by decide) (by decide) (by decide)
  have h2 := (minval_spec (A := slope.q) (m := 360) (n := 181) (by decide) (by decide)).1 1 1 (by decide) (by decide) (by decide) (by decide)
  have e1 : slope.q 1 181 = 181 := by norm_num [slope]
  have e2 : slope.q 1 1 = 1 := by norm_num [slope]
  rw [e1] at h1
  rw [e2] at h2
  exact lt_of_le_of_lt h2 (lt_of_lt_of_le (by norm_num) h1)

theorem C140_refuted (b : Bool) : ¬ C140_Statement (Machine.single b) := by
  intro h
  obtain ⟨n, hn, _⟩ := h (slope.withField fun _ _ => 1) 1 1 (by decide) (by decide) (by decide) (by decide) (by decide) (by decide)
  have : (slope.withField fun _ _ => 1).qmax = (slope.withField fun _ _ => 1).qmin := by
    have e1 : (slope.withField fun _ _ => 1).qmax = 1 :=
      maxval_eq (by decide) (by decide) (fun _ _ _ _ _ _ => le_rfl) 1 1 (by decide) (by decide) rfl
    have e2 : (slope.withField fun _ _ => 1).qmin = 1 :=
      minval_eq (by decide) (by decide) (fun _ _ _ _ _ _ => le_rfl) 1 1 (by decide) (by decide) rfl
    rw [e1, e2]
  rw [C140_constant (Machine.single_standard b) this] at hn
  exact absurd hn (by simp)

/-- C140 for the arithmetic of the compiled routines, with or without fused multiply-add, and up to about a million partitions. -/
theorem C140_single_partial (b : Bool) (h : I.Spread) (hn : I.npart ≤ 2 ^ 20) {i j : ℤ} (hi : 1 ≤ i ∧ i ≤ I.imax)
    (hj : 1 ≤ j ∧ j ≤ I.jmax) :
    ∃ n, I.indFl (Machine.single b) i j = some n ∧ 1 ≤ n ∧ n ≤ I.npart ∧ |n - I.ind i j| ≤ 1 := by
  have hu : ((1 : ℝ) / 2) ^ 24 * (4 * ((I.npart - 1 : ℤ) : ℝ) + 2) ≤ 1 := by
    have : ((I.npart : ℤ) : ℝ) ≤ 2 ^ 20 := by exact_mod_cast hn
    push_cast
    norm_num at this ⊢
    linarith
  obtain ⟨n, h1, h2, h3⟩ := C140_range_partial h (Machine.single_standard b) hu hi hj
  obtain ⟨n', h4, h5⟩ := C140_neighbour h (Machine.single_standard b) hu hi hj
  rw [h1] at h4
  obtain rfl := Option.some.inj h4
  exact ⟨n, h1, h2, h3, h5⟩

/-- C140 together with C141: `compute_reference_states`, run in single precision on levels that are not constant, stays inside its
arrays. `L k` is the block at level `k`. -/
theorem C140_inside_partial (b : Bool) (D : Bounds.RefDims) (L : ℤ → AreaIn) (h1 : 3 ≤ D.jd) (h2 : 3 ≤ D.kmax)
    (h3 : D.nlat ≤ 2 * D.jd - 1) (h4 : D.npart ≤ 2 ^ 20)
    (hL : ∀ k, 2 ≤ k → k ≤ D.kmax - 1 → (L k).Spread ∧ (L k).imax = D.nlon ∧ (L k).jmax = D.nlat ∧ (L k).npart = D.npart)
    (hi : ∀ k i j, 2 ≤ k → k ≤ D.kmax - 1 → 1 ≤ i → i ≤ D.nlon → 1 ≤ j → j ≤ D.nlat →
      (L k).indFl (Machine.single b) i j = some (D.ind k i j)) : Bounds.Safe D.trace := by
  have hn : 1 ≤ D.npart := by
    obtain ⟨a, _, _, e⟩ := hL 2 le_rfl (by omega)
    have := a.npart2
    omega
  refine D.C141_reference h1 h2 h3 hn fun k i j k1 k2 i1 i2 j1 j2 => ?_
  obtain ⟨a, e1, e2, e3⟩ := hL k k1 k2
  obtain ⟨n, hn, n1, n2, _⟩ := C140_single_partial b a (by rw [e3]; exact h4) ⟨i1, by rw [e1]; exact i2⟩ ⟨j1, by rw [e2]; exact j2⟩
  rw [hi k i j k1 k2 i1 i2 j1 j2] at hn
  obtain rfl := Option.some.inj hn
  exact ⟨n1, by rw [← e3]; exact n2⟩

/-- The hypotheses of `C140_inside_partial` on the one degree grid. -/
example (b : Bool) : Bounds.Safe (Bounds.RefDims.trace
    ⟨360, 181, 49, 91, 181, 100000, fun _ i j => (slope.indFl (Machine.single b) i j).getD 1⟩) := by
  refine C140_inside_partial b _ (fun _ => slope) (by norm_num) (by norm_num) (by norm_num) (by norm_num)
    (fun _ _ _ => ⟨slope_spread, rfl, rfl, rfl⟩) fun k i j _ _ i1 i2 j1 j2 => ?_
  obtain ⟨n, hn, _⟩ := C140_single_partial (I := slope) b slope_spread (by decide) ⟨i1, i2⟩ ⟨j1, j2⟩
  show slope.indFl (Machine.single b) i j = some ((slope.indFl (Machine.single b) i j).getD 1)
  rw [hn]
  rfl

/-- Hypotheses of the theorems: the one degree grid in single precision. -/
example (b : Bool) : slope.Spread ∧ (Machine.single b).Standard ((1 / 2) ^ 24) ∧ Monotone (Machine.single b).fl ∧
    ((1 : ℝ) / 2) ^ 24 * (4 * ((slope.npart - 1 : ℤ) : ℝ) + 2) ≤ 1 :=
  ⟨slope_spread, Machine.single_standard b, roundBits_mono 23, by norm_num [slope]⟩

end AreaIn

end Falwa

end
