import Verif.Model.QGFawa
import Verif.Props.AreaAnalysis
import Mathlib.Analysis.SpecialFunctions.Trigonometric.Bounds
import Mathlib.Algebra.BigOperators.Field

/-! Lemmas about the FAWA of the QG grid. -/

noncomputable section

namespace Falwa

open Real Finset Spec Classical

namespace AreaIn

variable {I : AreaIn}

/-- `cbar` as a sum. -/
theorem cbar_eq (I : AreaIn) {j : ℤ} (h1 : 1 ≤ j) (h2 : j ≤ I.nd) :
    I.cbar j = ∑ r ∈ Icc j (I.nd - 1),
      2 * π * I.a ^ 2 * I.dphi * ((I.qbar (r + 1) + I.qbar r) / 2 * cos (I.dphi * ((r : ℝ) - 0.5))) := by
  unfold cbar
  have key := doDown_induct (hi := I.nd - 1) (s := fun _ => (0 : ℝ))
    (f := fun j s => Function.update s j (s (j + 1) +
      0.5 * (I.qbar (j + 1) + I.qbar j) * I.a * I.dphi * 2 * π * I.a * cos (I.dphi * ((j : ℝ) - 0.5))))
    (fun l t => ∀ j, l ≤ j → j ≤ I.nd → t j = ∑ r ∈ Icc j (I.nd - 1),
      2 * π * I.a ^ 2 * I.dphi * ((I.qbar (r + 1) + I.qbar r) / 2 * cos (I.dphi * ((r : ℝ) - 0.5))))
    (fun j a b => by rw [Icc_eq_empty (by omega), sum_empty])
    (fun i t hi ih j a b => by
      by_cases hj : j = i
      · subst hj
        rw [Function.update_self, ih (j + 1) (by omega) (by omega)]
        have hI : Icc j (I.nd - 1) = insert j (Icc (j + 1) (I.nd - 1)) := by
          ext x; simp only [mem_Icc, mem_insert]; omega
        rw [hI, sum_insert (by simp)]
        ring
      · rw [Function.update_of_ne hj, ih j (by omega) b])
    1 (by omega)
  exact key j h1 h2

theorem qbar_eq (I : AreaIn) (j : ℤ) : I.qbar j = (∑ i ∈ Icc 1 I.imax, I.q i (j + (I.nd - 1))) / (I.imax : ℝ) := by
  unfold qbar
  rw [dosum_eq, Finset.sum_div]

namespace Valid

theorem imax_pos (h : I.Valid) : (0 : ℝ) < (I.imax : ℝ) := by
  have := h.imax1
  exact_mod_cast (by omega : 0 < I.imax)

theorem half (h : I.Valid) : I.dphi * ((I.nd : ℝ) - 1) = π / 2 := by
  have := h.dphi_mul
  rw [h.odd] at this
  push_cast at this
  linarith

/-- Area of a cell of the Northern Hemisphere. -/
theorem da_north (h : I.Valid) (j : ℤ) :
    I.da (j + (I.nd - 1)) = I.a ^ 2 * I.dphi * I.dlambda * cos (I.dphi * ((j : ℝ) - 1)) := by
  unfold da
  have := h.half
  have e : -(0.5 * π) + I.dphi * ((j + (I.nd - 1) - 1 : ℤ) : ℝ) = I.dphi * ((j : ℝ) - 1) := by
    push_cast
    linarith
  rw [e]
  ring

theorem mul_dlam (h : I.Valid) : (I.imax : ℝ) * I.dlambda = 2 * π := by
  rw [h.dlam]
  have := h.imax_pos.ne'
  field_simp

/-- The field is between its extremes. -/
theorem q_mem (h : I.Valid) {i r : ℤ} (hi : 1 ≤ i ∧ i ≤ I.imax) (hr : 1 ≤ r ∧ r ≤ I.jmax) :
    I.qmin ≤ I.q i r ∧ I.q i r ≤ I.qmax :=
  ⟨(minval_spec (A := I.q) h.imax1 h.jmax1).1 i r hi.1 hi.2 hr.1 hr.2,
    (maxval_spec (A := I.q) h.imax1 h.jmax1).1 i r hi.1 hi.2 hr.1 hr.2⟩

theorem card_lon (h : I.Valid) : ((Icc 1 I.imax).card : ℝ) = (I.imax : ℝ) := by
  have := h.imax1
  rw [Int.card_Icc]
  have : (((I.imax + 1 - 1).toNat : ℤ) : ℝ) = (I.imax : ℝ) := by
    rw [Int.toNat_of_nonneg (by omega)]; push_cast; ring
  exact_mod_cast this

/-- So is the zonal mean. -/
theorem qbar_mem (h : I.Valid) {j : ℤ} (h1 : 1 ≤ j) (h2 : j ≤ I.nd) : I.qmin ≤ I.qbar j ∧ I.qbar j ≤ I.qmax := by
  have hodd := h.odd
  have hp := h.imax_pos
  rw [qbar_eq]
  constructor
  · rw [le_div_iff₀ hp, mul_comm, ← h.card_lon, ← nsmul_eq_mul]
    exact card_nsmul_le_sum _ _ _ fun i hi => (h.q_mem (mem_Icc.1 hi) (by omega)).1
  · rw [div_le_iff₀ hp, mul_comm, ← h.card_lon, ← nsmul_eq_mul]
    exact sum_le_card_nsmul _ _ _ fun i hi => (h.q_mem (mem_Icc.1 hi) (by omega)).2

/-- Integral over a row of the Northern Hemisphere. -/
theorem row_eq (h : I.Valid) (Q : ℝ) (j : ℤ) :
    ∑ i ∈ Icc 1 I.imax, I.da (j + (I.nd - 1)) * (I.q i (j + (I.nd - 1)) - Q) =
      2 * π * I.a ^ 2 * I.dphi * ((I.qbar j - Q) * cos (I.dphi * ((j : ℝ) - 1))) := by
  have hp := h.imax_pos
  have e : ∑ i ∈ Icc 1 I.imax, I.q i (j + (I.nd - 1)) = I.imax * I.qbar j := by
    rw [qbar_eq]; field_simp
  rw [← mul_sum, sum_sub_distrib, e, sum_const, nsmul_eq_mul, h.card_lon, h.da_north, ← h.mul_dlam]
  ring

end Valid

/-! ### Midpoint rule for the cap -/

/-- Sum of the midpoint cosines: `sin(dφ/2)` times twice the sum telescopes. -/
theorem mid_sum (d : ℝ) {j n : ℤ} (hjn : j ≤ n) :
    2 * sin (d / 2) * ∑ r ∈ Icc j (n - 1), cos (d * ((r : ℝ) - 0.5)) = sin (d * ((n : ℝ) - 1)) - sin (d * ((j : ℝ) - 1)) := by
  refine Int.leInduction (m := j) (motive := fun n _ => 2 * sin (d / 2) * ∑ r ∈ Icc j (n - 1), cos (d * ((r : ℝ) - 0.5)) =
    sin (d * ((n : ℝ) - 1)) - sin (d * ((j : ℝ) - 1))) ?_ ?_ n hjn
  · rw [Icc_eq_empty (by omega), sum_empty]; ring
  · intro m hm ih
    have hI : Icc j (m + 1 - 1) = insert m (Icc j (m - 1)) := by
      ext x; simp only [mem_Icc, mem_insert]; omega
    rw [hI, sum_insert (by simp), mul_add, ih]
    have e1 : d * (((m + 1 : ℤ) : ℝ) - 1) = d * ((m : ℝ) - 0.5) + d / 2 := by push_cast; ring
    have e2 : d * ((m : ℝ) - 1) = d * ((m : ℝ) - 0.5) - d / 2 := by ring
    rw [e1, e2, sin_add, sin_sub]
    ring

/-- The midpoint rule overestimates the cap, by a factor of at most `1 + dφ²/20`. -/
theorem Valid.mid_cap (h : I.Valid) {j : ℤ} (h2 : j ≤ I.nd) :
    I.alat j ≤ 2 * π * I.a ^ 2 * I.dphi * ∑ r ∈ Icc j (I.nd - 1), cos (I.dphi * ((r : ℝ) - 0.5)) ∧
    2 * π * I.a ^ 2 * I.dphi * ∑ r ∈ Icc j (I.nd - 1), cos (I.dphi * ((r : ℝ) - 0.5)) ≤ (1 + I.dphi ^ 2 / 20) * I.alat j := by
  have hd := h.dphi_pos
  have hnd := h.nd2
  have hhalf := h.half
  have hn1 : (1 : ℝ) ≤ (I.nd : ℝ) - 1 := by
    have : (2 : ℝ) ≤ (I.nd : ℝ) := by exact_mod_cast hnd
    linarith
  have hdle : I.dphi ≤ π / 2 := by nlinarith
  have hd2 : I.dphi < 1.6 := by have := pi_lt_d2; linarith
  have hs0 : 0 < sin (I.dphi / 2) := sin_pos_of_pos_of_lt_pi (by linarith) (by linarith [pi_pos])
  have hs1 : sin (I.dphi / 2) ≤ I.dphi / 2 := sin_le (by linarith)
  have hs2 := sin_gt_sub_cube (x := I.dphi / 2) (by linarith)
  have key := mid_sum I.dphi h2
  rw [hhalf, sin_pi_div_two] at key
  have hA : I.alat j = 2 * π * I.a ^ 2 * (1 - sin (I.dphi * ((j : ℝ) - 1))) := by
    unfold alat; push_cast; ring
  have hA0 := h.alat_nonneg j
  rw [hA] at hA0 ⊢
  rw [← key] at hA0 ⊢
  have hP : 0 < 2 * π * I.a ^ 2 := by have := h.a0; positivity
  have hS : 0 ≤ ∑ r ∈ Icc j (I.nd - 1), cos (I.dphi * ((r : ℝ) - 0.5)) := by
    by_contra hneg
    push Not at hneg
    have : 2 * π * I.a ^ 2 * (2 * sin (I.dphi / 2) * ∑ r ∈ Icc j (I.nd - 1), cos (I.dphi * ((r : ℝ) - 0.5))) < 0 :=
      mul_neg_of_pos_of_neg hP (mul_neg_of_pos_of_neg (by linarith) hneg)
    linarith
  generalize ∑ r ∈ Icc j (I.nd - 1), cos (I.dphi * ((r : ℝ) - 0.5)) = S at hS
  constructor
  · have : 2 * sin (I.dphi / 2) * S ≤ I.dphi * S := mul_le_mul_of_nonneg_right (by linarith) hS
    have := mul_le_mul_of_nonneg_left this hP.le
    linarith
  · have hfac : I.dphi ≤ (1 + I.dphi ^ 2 / 20) * (2 * sin (I.dphi / 2)) := by
      have : (1 + I.dphi ^ 2 / 20) * (2 * (I.dphi / 2 - (I.dphi / 2) ^ 3 / 6)) ≤ (1 + I.dphi ^ 2 / 20) * (2 * sin (I.dphi / 2)) := by
        gcongr
      have h3 : I.dphi ≤ (1 + I.dphi ^ 2 / 20) * (2 * (I.dphi / 2 - (I.dphi / 2) ^ 3 / 6)) := by
        have : (0 : ℝ) ≤ I.dphi ^ 3 * (4 - I.dphi ^ 2) := by
          have : (0 : ℝ) ≤ 4 - I.dphi ^ 2 := by nlinarith
          positivity
        nlinarith
      linarith
    have := mul_le_mul_of_nonneg_right hfac hS
    have := mul_le_mul_of_nonneg_left this hP.le
    linarith

/-! ### The circulation of the area analysis -/

/-- Circulation and area of the partitions `2 … n`, relative to `Q`. -/
theorem ccn_sub (I : AreaIn) (Q : ℝ) {n : ℤ} (h1 : 1 ≤ n) (h2 : n ≤ I.npart) :
    I.ccn n - Q * I.aan n = ∑ c ∈ I.cells, if 2 ≤ I.ind c.1 c.2 ∧ I.ind c.1 c.2 ≤ n then I.da c.2 * (I.q c.1 c.2 - Q) else 0 := by
  rw [I.ccn_eq n h1 h2, I.aan_eq n h1 h2, mul_sum, ← sum_sub_distrib]
  have e : ∀ m ∈ Icc 2 n, I.bins.cn m - Q * I.bins.an m =
      ∑ c ∈ I.cells, if I.ind c.1 c.2 = m then I.da c.2 * (I.q c.1 c.2 - Q) else 0 := fun m _ => by
    rw [I.cn_eq, I.an_eq, mul_sum, ← sum_sub_distrib]
    refine sum_congr rfl fun c _ => ?_
    split_ifs <;> ring
  rw [sum_congr rfl e, sum_comm]
  refine sum_congr rfl fun c _ => ?_
  rw [sum_ite_eq]
  simp only [mem_Icc]

/-- Weight of a cell of partition `b` in the circulation of a row that falls into partition `nn`. -/
def wt (nn : ℤ) (dd : ℝ) (b : ℤ) : ℝ := if b ≤ nn then 1 else if b = nn + 1 then dd else 0

/-- Circulation of a placed row relative to its reference value. The first partition is missing. -/
theorem Valid.circ (h : I.Valid) {j nn : ℤ} (n1 : 1 ≤ nn) (n2 : nn ≤ I.npart - 1) (hf : I.Falls j nn) :
    (I.value j nn).2 - (I.value j nn).1 * I.alat j =
      (∑ c ∈ I.cells, I.da c.2 * (wt nn ((I.alat j - I.aan nn) / (I.aan (nn + 1) - I.aan nn)) (I.ind c.1 c.2) *
        (I.q c.1 c.2 - (I.value j nn).1))) -
      ∑ c ∈ I.cells, if I.ind c.1 c.2 = 1 then I.da c.2 * (I.q c.1 c.2 - (I.value j nn).1) else 0 := by
  have hd : I.aan (nn + 1) - I.aan nn ≠ 0 := by have h1 := hf.1; have h2 := hf.2; intro x; linarith
  generalize hQ : (I.value j nn).1 = Q
  have hC : (I.value j nn).2 = I.ccn nn * (1 - (I.alat j - I.aan nn) / (I.aan (nn + 1) - I.aan nn)) +
    I.ccn (nn + 1) * ((I.alat j - I.aan nn) / (I.aan (nn + 1) - I.aan nn)) := rfl
  have hA : I.alat j = I.aan nn * (1 - (I.alat j - I.aan nn) / (I.aan (nn + 1) - I.aan nn)) +
      I.aan (nn + 1) * ((I.alat j - I.aan nn) / (I.aan (nn + 1) - I.aan nn)) := by field_simp; ring
  generalize (I.alat j - I.aan nn) / (I.aan (nn + 1) - I.aan nn) = dd at hC hA
  have e : (I.value j nn).2 - Q * I.alat j = (1 - dd) * (I.ccn nn - Q * I.aan nn) + dd * (I.ccn (nn + 1) - Q * I.aan (nn + 1)) := by
    rw [hC, hA]; ring
  rw [e, I.ccn_sub Q n1 (by omega), I.ccn_sub Q (by omega) (by omega), mul_sum, mul_sum, ← sum_add_distrib, ← sum_sub_distrib]
  refine sum_congr rfl fun c hc => ?_
  rw [I.mem_cells] at hc
  have hb := (h.ind_spec hc.1 hc.2).1
  generalize I.ind c.1 c.2 = b at hb
  unfold wt
  by_cases b1 : b = 1
  · rw [if_neg (by omega), if_neg (by omega), if_pos (by omega), if_pos b1]; ring
  rw [if_neg b1]
  by_cases b2 : b ≤ nn
  · rw [if_pos (by omega), if_pos (by omega), if_pos b2]; ring
  · rw [if_neg (by omega), if_neg b2]
    by_cases b3 : b = nn + 1
    · rw [if_pos (by omega), if_pos b3]; ring
    · rw [if_neg (by omega), if_neg b3]; ring

/-- The weights nearly select the cells above the reference value: the error per cell is at most `dq`. -/
theorem Valid.wt_err (h : I.Valid) {j nn : ℤ} (hf : I.Falls j nn) {i r : ℤ}
    (hi : 1 ≤ i ∧ i ≤ I.imax) (hr : 1 ≤ r ∧ r ≤ I.jmax) :
    0 ≤ max (I.q i r - (I.value j nn).1) 0 - wt nn ((I.alat j - I.aan nn) / (I.aan (nn + 1) - I.aan nn)) (I.ind i r) *
        (I.q i r - (I.value j nn).1) ∧
    max (I.q i r - (I.value j nn).1) 0 - wt nn ((I.alat j - I.aan nn) / (I.aan (nn + 1) - I.aan nn)) (I.ind i r) *
        (I.q i r - (I.value j nn).1) ≤ I.dq := by
  obtain ⟨d0, d1⟩ := Valid.dd_mem hf
  obtain ⟨v1, v2⟩ := h.value_between hf
  have hq := h.dq_pos
  have hV : (I.value j nn).1 = I.qn nn * (1 - (I.alat j - I.aan nn) / (I.aan (nn + 1) - I.aan nn)) +
    I.qn (nn + 1) * ((I.alat j - I.aan nn) / (I.aan (nn + 1) - I.aan nn)) := rfl
  generalize (I.alat j - I.aan nn) / (I.aan (nn + 1) - I.aan nn) = dd at d0 d1 hV
  generalize (I.value j nn).1 = Q at v1 v2 hV
  obtain ⟨_, _, q1, q2⟩ := h.ind_spec hi hr
  have s1 := Valid.qn_succ (I := I) nn
  have s2 := Valid.qn_succ (I := I) (nn + 1)
  generalize I.ind i r = b at q1 q2
  unfold wt
  by_cases b1 : b ≤ nn
  · rw [if_pos b1, one_mul]
    have m1 := h.qn_anti (by omega : b + 1 ≤ nn + 1)
    rcases le_total (I.q i r - Q) 0 with hle | hle
    · rw [max_eq_right hle]; constructor <;> linarith
    · rw [max_eq_left hle]; constructor <;> linarith
  · rw [if_neg b1]
    have m1 := h.qn_anti (by omega : nn + 1 ≤ b)
    have hle : I.q i r - Q ≤ 0 := by linarith
    rw [max_eq_right hle]
    by_cases b2 : b = nn + 1
    · rw [if_pos b2]
      subst b2
      constructor
      · nlinarith
      · have : Q - I.q i r ≤ (2 - dd) * I.dq := by rw [hV, s1]; rw [s2, s1] at q1; nlinarith
        nlinarith [mul_le_mul_of_nonneg_left this d0, mul_nonneg hq.le (sq_nonneg (1 - dd))]
    · rw [if_neg b2]
      constructor <;> linarith

/-- Reference values are between the extremes. -/
theorem Valid.value_mem (h : I.Valid) {j nn : ℤ} (n1 : 1 ≤ nn) (n2 : nn ≤ I.npart - 1) (hf : I.Falls j nn) :
    I.qmin ≤ (I.value j nn).1 ∧ (I.value j nn).1 ≤ I.qmax := by
  obtain ⟨a, b⟩ := h.value_between hf
  have c := h.qn_anti (by omega : nn + 1 ≤ I.npart)
  have d := h.qn_anti n1
  rw [h.qn_last] at c
  rw [Valid.qn_one] at d
  exact ⟨by linarith, by linarith⟩

/-! ### The integral of the zonal mean -/

/-- Difference of the sum over the rows and the trapezoidal sum with midpoint cosines. -/
theorem trap_err {d R : ℝ} {x : ℤ → ℝ} {j n : ℤ} (hj : 1 ≤ j) (hjn : j ≤ n) (hd : 0 ≤ d) (hn : d * ((n : ℝ) - 1) = π / 2)
    (hx : ∀ r, j ≤ r → r ≤ n → |x r| ≤ R) :
    |∑ r ∈ Icc j n, x r * cos (d * ((r : ℝ) - 1)) - ∑ r ∈ Icc j (n - 1), (x (r + 1) + x r) / 2 * cos (d * ((r : ℝ) - 0.5))| ≤
      R * cos (d * ((j : ℝ) - 1)) := by
  have hR : 0 ≤ R := (abs_nonneg _).trans (hx j le_rfl hjn)
  have hjr : (1 : ℝ) ≤ (j : ℝ) := by exact_mod_cast hj
  -- induction on the upper end
  have key : ∀ m : ℤ, j ≤ m → m ≤ n →
      |∑ r ∈ Icc j (m - 1), x r * cos (d * ((r : ℝ) - 1)) - ∑ r ∈ Icc j (m - 1), (x (r + 1) + x r) / 2 * cos (d * ((r : ℝ) - 0.5)) -
        (x j * cos (d * ((j : ℝ) - 1)) - x m * cos (d * ((m : ℝ) - 1))) / 2| ≤
        R / 2 * (cos (d * ((j : ℝ) - 1)) - cos (d * ((m : ℝ) - 1))) := by
    intro m hm
    refine Int.leInduction (m := j) (motive := fun m _ => m ≤ n →
      |∑ r ∈ Icc j (m - 1), x r * cos (d * ((r : ℝ) - 1)) - ∑ r ∈ Icc j (m - 1), (x (r + 1) + x r) / 2 * cos (d * ((r : ℝ) - 0.5)) -
        (x j * cos (d * ((j : ℝ) - 1)) - x m * cos (d * ((m : ℝ) - 1))) / 2| ≤
        R / 2 * (cos (d * ((j : ℝ) - 1)) - cos (d * ((m : ℝ) - 1)))) ?_ ?_ m hm
    · intro _
      rw [Icc_eq_empty (by omega), sum_empty, sum_empty]
      simp
    · intro m hm ih hmn
      have hmr : (1 : ℝ) ≤ (m : ℝ) := by exact_mod_cast (by omega : (1 : ℤ) ≤ m)
      have hmn' : (m : ℝ) + 1 ≤ (n : ℝ) := by exact_mod_cast hmn
      have ih := ih (by omega)
      have x1 := hx m hm (by omega)
      have x2 := hx (m + 1) (by omega) hmn
      have p0 : 0 ≤ d * ((m : ℝ) - 1) := mul_nonneg hd (by linarith)
      have p1 : d * ((m : ℝ) - 1) ≤ d * ((m : ℝ) - 0.5) := mul_le_mul_of_nonneg_left (by linarith) hd
      have p2 : d * ((m : ℝ) - 0.5) ≤ d * (((m + 1 : ℤ) : ℝ) - 1) := mul_le_mul_of_nonneg_left (by push_cast; linarith) hd
      have p3 : d * (((m + 1 : ℤ) : ℝ) - 1) ≤ π / 2 := by
        rw [← hn]; exact mul_le_mul_of_nonneg_left (by push_cast; linarith) hd
      have c1 : cos (d * ((m : ℝ) - 0.5)) ≤ cos (d * ((m : ℝ) - 1)) :=
        cos_le_cos_of_nonneg_of_le_pi p0 (by linarith [pi_pos]) p1
      have c2 : cos (d * (((m + 1 : ℤ) : ℝ) - 1)) ≤ cos (d * ((m : ℝ) - 0.5)) :=
        cos_le_cos_of_nonneg_of_le_pi (by linarith) (by linarith [pi_pos]) p2
      have hI : Icc j (m + 1 - 1) = insert m (Icc j (m - 1)) := by
        ext y; simp only [mem_Icc, mem_insert]; omega
      rw [hI, sum_insert (by simp), sum_insert (by simp)]
      generalize cos (d * (((m + 1 : ℤ) : ℝ) - 1)) = A2 at *
      generalize cos (d * ((m : ℝ) - 0.5)) = A1 at *
      generalize cos (d * ((m : ℝ) - 1)) = A0 at *
      generalize ∑ r ∈ Icc j (m - 1), x r * cos (d * ((r : ℝ) - 1)) = U at *
      generalize ∑ r ∈ Icc j (m - 1), (x (r + 1) + x r) / 2 * cos (d * ((r : ℝ) - 0.5)) = V at *
      have e : x m * A0 + U - ((x (m + 1) + x m) / 2 * A1 + V) - (x j * cos (d * ((j : ℝ) - 1)) - x (m + 1) * A2) / 2 =
          (U - V - (x j * cos (d * ((j : ℝ) - 1)) - x m * A0) / 2) + (x m * (A0 - A1) / 2 + x (m + 1) * (A2 - A1) / 2) := by ring
      rw [e]
      rw [abs_le] at ih x1 x2 ⊢
      constructor <;> nlinarith [ih.1, ih.2]
  have hlast : ∑ r ∈ Icc j n, x r * cos (d * ((r : ℝ) - 1)) = ∑ r ∈ Icc j (n - 1), x r * cos (d * ((r : ℝ) - 1)) := by
    have hI : Icc j n = insert n (Icc j (n - 1)) := by
      ext y; simp only [mem_Icc, mem_insert]; omega
    rw [hI, sum_insert (by simp), hn, cos_pi_div_two, mul_zero, zero_add]
  have kn := key n hjn le_rfl
  rw [hn, cos_pi_div_two] at kn
  rw [hlast]
  have xj := hx j le_rfl hjn
  have cj : 0 ≤ cos (d * ((j : ℝ) - 1)) := by
    have hjn' : (j : ℝ) ≤ (n : ℝ) := by exact_mod_cast hjn
    refine cos_nonneg_of_neg_pi_div_two_le_of_le ?_ ?_
    · have := mul_nonneg hd (by linarith : (0 : ℝ) ≤ (j : ℝ) - 1)
      linarith [pi_pos]
    · rw [← hn]; exact mul_le_mul_of_nonneg_left (by linarith) hd
  generalize cos (d * ((j : ℝ) - 1)) = A at *
  rw [abs_le] at kn xj ⊢
  constructor <;> nlinarith [kn.1, kn.2]

/-- `cbar` against the sum of the field over the cells at and north of row `j`. -/
theorem Valid.cbar_err (h : I.Valid) {Q : ℝ} (hQ : I.qmin ≤ Q ∧ Q ≤ I.qmax) {j : ℤ} (h1 : 1 ≤ j) (h2 : j ≤ I.nd) :
    |∑ r ∈ Icc j I.nd, ∑ i ∈ Icc 1 I.imax, I.da (r + (I.nd - 1)) * (I.q i (r + (I.nd - 1)) - Q) - (I.cbar j - Q * I.alat j)| ≤
      2 * π * I.a ^ 2 * I.dphi * ((I.qmax - I.qmin) * cos (I.dphi * ((j : ℝ) - 1))) + I.dphi ^ 2 / 20 * (|Q| * I.alat j) := by
  have hd := h.dphi_pos
  have ha := h.a0
  have t := trap_err (d := I.dphi) (R := I.qmax - I.qmin) (x := fun r => I.qbar r - Q) h1 h2 hd.le h.half (fun r r1 r2 => by
    obtain ⟨a, b⟩ := h.qbar_mem (by omega : 1 ≤ r) r2
    rw [abs_le]; constructor <;> linarith [hQ.1, hQ.2])
  obtain ⟨m1, m2⟩ := h.mid_cap h2
  rw [sum_congr rfl fun r _ => h.row_eq Q r, ← mul_sum, cbar_eq I h1 h2, ← mul_sum]
  have e : ∑ r ∈ Icc j (I.nd - 1), (I.qbar (r + 1) - Q + (I.qbar r - Q)) / 2 * cos (I.dphi * ((r : ℝ) - 0.5)) =
      ∑ r ∈ Icc j (I.nd - 1), (I.qbar (r + 1) + I.qbar r) / 2 * cos (I.dphi * ((r : ℝ) - 0.5)) -
        Q * ∑ r ∈ Icc j (I.nd - 1), cos (I.dphi * ((r : ℝ) - 0.5)) := by
    rw [mul_sum, ← sum_sub_distrib]
    exact sum_congr rfl fun r _ => by ring
  rw [e] at t
  generalize ∑ r ∈ Icc j (I.nd - 1), cos (I.dphi * ((r : ℝ) - 0.5)) = M at *
  generalize ∑ r ∈ Icc j (I.nd - 1), (I.qbar (r + 1) + I.qbar r) / 2 * cos (I.dphi * ((r : ℝ) - 0.5)) = V at *
  generalize ∑ r ∈ Icc j I.nd, (I.qbar r - Q) * cos (I.dphi * ((r : ℝ) - 1)) = U at *
  have hW : 0 ≤ 2 * π * I.a ^ 2 * I.dphi := by positivity
  generalize 2 * π * I.a ^ 2 * I.dphi = W at *
  have e2 : W * U - (W * V - Q * I.alat j) = W * (U - (V - Q * M)) - Q * (W * M - I.alat j) := by ring
  rw [e2]
  have b1 : |W * (U - (V - Q * M))| ≤ W * ((I.qmax - I.qmin) * cos (I.dphi * ((j : ℝ) - 1))) := by
    rw [abs_mul, abs_of_nonneg hW]
    exact mul_le_mul_of_nonneg_left t hW
  have b2 : |Q * (W * M - I.alat j)| ≤ I.dphi ^ 2 / 20 * (|Q| * I.alat j) := by
    rw [abs_mul, abs_of_nonneg (by linarith : 0 ≤ W * M - I.alat j)]
    have := mul_le_mul_of_nonneg_left (by linarith : W * M - I.alat j ≤ I.dphi ^ 2 / 20 * I.alat j) (abs_nonneg Q)
    linarith
  have := abs_sub (W * (U - (V - Q * M))) (Q * (W * M - I.alat j))
  linarith

end AreaIn

end Falwa
