import Verif.Lemmas.Response
import Mathlib.Algebra.Order.BigOperators.Ring.Finset

/-! # Energy estimate for the elliptic equation

The right-hand side is a meridional difference. Summation by parts bounds the solution by the reference QGPV itself, not by its
slope. -/

noncomputable section

namespace Falwa

open Real Finset

/-- Summation by parts. -/
theorem by_parts (A e : ℤ → ℝ) {lo hi : ℤ} (h : lo < hi) :
    ∑ j ∈ Ioo lo hi, e j * (A j - A (j - 1)) + ∑ l ∈ Ico lo hi, A l * (e (l + 1) - e l) = A (hi - 1) * e hi - A lo * e lo := by
  obtain ⟨n, hn⟩ : ∃ n : ℕ, hi = lo + 1 + n := ⟨(hi - lo - 1).toNat, by omega⟩
  induction n generalizing hi with
  | zero =>
    have h1 : hi = lo + 1 := by simpa using hn
    have e1 : Ioo lo hi = ∅ := by ext x; simp only [mem_Ioo, notMem_empty, iff_false]; omega
    have e2 : Ico lo hi = {lo} := by ext x; simp only [mem_Ico, mem_singleton]; omega
    rw [e1, e2, sum_empty, sum_singleton, h1, show lo + 1 - 1 = lo by ring]
    ring
  | succ n ih =>
    have h1 : lo < hi - 1 := by push_cast at hn; omega
    have i := ih h1 (by push_cast at hn; omega)
    have e1 : Ioo lo hi = insert (hi - 1) (Ioo lo (hi - 1)) := by ext x; simp only [mem_Ioo, mem_insert]; omega
    have e2 : Ico lo hi = insert (hi - 1) (Ico lo (hi - 1)) := by ext x; simp only [mem_Ico, mem_insert]; omega
    rw [e1, e2, sum_insert (by rw [mem_Ioo]; omega), sum_insert (by rw [mem_Ico]; omega), show hi - 1 + 1 = hi by ring]
    linear_combination i

namespace Spec.Planet

variable {p : Planet} {S : ℤ → ℝ} {j0 j1 kmax : ℤ}

/-- Product of sine and cosine halfway to the next row. -/
def band (p : Planet) (l : ℤ) : ℝ := sin (p.lat (l + 1 / 2)) * cos (p.lat (l + 1 / 2))

theorem Stable.band_pos (h : p.Stable S j0 j1 kmax) {l : ℤ} (l1 : j0 ≤ l) (l2 : l < j1) : 0 < p.band l := by
  have b1 : (j0 : ℝ) ≤ l := by exact_mod_cast l1
  have b2 : (l : ℝ) + 1 ≤ j1 := by exact_mod_cast l2
  obtain ⟨n1, n2⟩ := h.row (l + 1 / 2) (by linarith) (by linarith)
  exact mul_pos n1 n2

/-- The meridional part of the operator. -/
def across (p : Planet) (e : ℤ → ℤ → ℝ) (j k : ℤ) : ℝ := (e (j + 1) k - e j k) / p.band j - (e j k - e (j - 1) k) / p.band (j - 1)

/-- The vertical part of the operator without the density at the level. -/
def upward (p : Planet) (S : ℤ → ℝ) (e : ℤ → ℤ → ℝ) (j k : ℤ) : ℝ :=
  p.link S k * (e j (k + 1) - e j k) - p.link S (k - 1) * (e j k - e j (k - 1))

theorem oper_split (e : ℤ → ℤ → ℝ) (j k : ℤ) :
    p.oper S e j k = p.across e j k + (2 * p.om * p.a * p.dphi / p.dz) ^ 2 * (p.h / p.r) * (sin (p.lat j) / cos (p.lat j)) *
      exp (p.height k / p.h) * p.upward S e j k := by
  have c1 : p.above S j k = (2 * p.om * p.a * p.dphi / p.dz) ^ 2 * (p.h / p.r) * (sin (p.lat j) / cos (p.lat j)) *
      exp (p.height k / p.h) * p.link S k := by
    unfold above stiffness link
    ring
  have c2 : p.below S j k = (2 * p.om * p.a * p.dphi / p.dz) ^ 2 * (p.h / p.r) * (sin (p.lat j) / cos (p.lat j)) *
      exp (p.height k / p.h) * p.link S (k - 1) := by
    unfold below stiffness link
    rw [show k - 1 + 1 = k by ring, show ((k - 1 : ℤ) : ℝ) + 1 / 2 = (k : ℝ) - 1 / 2 by push_cast; ring, add_comm (S k)]
    ring
  unfold oper fivePoint
  beta_reduce
  rw [c1, c2]
  unfold across upward band north south
  rw [show ((j - 1 : ℤ) : ℝ) + 1 / 2 = (j : ℝ) - 1 / 2 by push_cast; ring]
  ring

/-- Density at a level. -/
def density (p : Planet) (k : ℤ) : ℝ := exp (-(p.height k / p.h))

/-- One row of the vertical operator, multiplied with the function: not positive if the two highest levels agree. -/
theorem Stable.column_sum (h : p.Stable S j0 j1 kmax) (hk : 1 < kmax) {e : ℤ → ℤ → ℝ} {j : ℤ} (hb : e j 1 = 0)
    (ht : e j kmax = e j (kmax - 1)) : ∑ k ∈ Ioo 1 kmax, e j k * p.upward S e j k ≤ 0 := by
  have q := by_parts (fun k => p.link S k * (e j (k + 1) - e j k)) (fun k => e j k) hk
  have r : ∀ k ∈ Ioo 1 kmax, e j k * ((fun k => p.link S k * (e j (k + 1) - e j k)) k -
      (fun k => p.link S k * (e j (k + 1) - e j k)) (k - 1)) = e j k * p.upward S e j k := by
    intro k _
    unfold upward
    beta_reduce
    rw [show k - 1 + 1 = k by ring]
  rw [sum_congr rfl r] at q
  rw [hb, show kmax - 1 + 1 = kmax by ring, ht, sub_self, mul_zero, zero_mul, mul_zero, sub_zero] at q
  have n : 0 ≤ ∑ l ∈ Ico 1 kmax, p.link S l * (e j (l + 1) - e j l) * (e j (l + 1) - e j l) := by
    refine sum_nonneg fun l hl => ?_
    rw [mem_Ico] at hl
    have := h.link_pos hl.1 hl.2
    rw [mul_assoc]
    exact mul_nonneg this.le (mul_self_nonneg _)
  linarith

/-- The same if the highest level agrees with the second below it: the last row counts less. -/
theorem Stable.column_sum₂ (h : p.Stable S j0 j1 kmax) (hk : 3 ≤ kmax) {e : ℤ → ℤ → ℝ} {j : ℤ} (hb : e j 1 = 0)
    (ht : e j kmax = e j (kmax - 2)) :
    ∑ k ∈ Ioo 1 kmax, (if k = kmax - 1 then p.link S (kmax - 2) / (p.link S (kmax - 1) + p.link S (kmax - 2)) else 1) *
      (e j k * p.upward S e j k) ≤ 0 := by
  have l1 := h.link_pos (k := kmax - 1) (by omega) (by omega)
  have l2 := h.link_pos (k := kmax - 2) (by omega) (by omega)
  have q := by_parts (fun k => p.link S k * (e j (k + 1) - e j k)) (fun k => e j k) (by omega : (1 : ℤ) < kmax - 1)
  have r : ∀ k ∈ Ioo 1 (kmax - 1), e j k * ((fun k => p.link S k * (e j (k + 1) - e j k)) k -
      (fun k => p.link S k * (e j (k + 1) - e j k)) (k - 1)) = (if k = kmax - 1 then p.link S (kmax - 2) /
        (p.link S (kmax - 1) + p.link S (kmax - 2)) else 1) * (e j k * p.upward S e j k) := by
    intro k hk
    rw [mem_Ioo] at hk
    rw [if_neg (by omega), one_mul]
    unfold upward
    beta_reduce
    rw [show k - 1 + 1 = k by ring]
  rw [sum_congr rfl r] at q
  rw [hb, mul_zero, sub_zero, show kmax - 1 - 1 = kmax - 2 by ring, show kmax - 2 + 1 = kmax - 1 by ring] at q
  have n : 0 ≤ ∑ l ∈ Ico 1 (kmax - 1), p.link S l * (e j (l + 1) - e j l) * (e j (l + 1) - e j l) := by
    refine sum_nonneg fun l hl => ?_
    rw [mem_Ico] at hl
    have := h.link_pos hl.1 (by omega)
    rw [mul_assoc]
    exact mul_nonneg this.le (mul_self_nonneg _)
  have e1 : Ioo 1 kmax = insert (kmax - 1) (Ioo 1 (kmax - 1)) := by ext x; simp only [mem_Ioo, mem_insert]; omega
  have e2 : p.link S (kmax - 2) / (p.link S (kmax - 1) + p.link S (kmax - 2)) * (e j (kmax - 1) * p.upward S e j (kmax - 1)) =
      -(p.link S (kmax - 2) * (e j (kmax - 1) - e j (kmax - 2)) * e j (kmax - 1)) := by
    unfold upward
    rw [show kmax - 1 + 1 = kmax by ring, show kmax - 1 - 1 = kmax - 2 by ring, ht]
    field_simp
    ring
  rw [e1, sum_insert (by rw [mem_Ioo]; omega), if_pos rfl, e2]
  linarith

/-- One level: the meridional operator and the source, multiplied with the function. -/
theorem row_sum (h01 : j0 < j1) {e : ℤ → ℤ → ℝ} {k : ℤ} (h0 : e j0 k = 0) (h1 : e j1 k = 0) :
    ∑ j ∈ Ioo j0 j1, e j k * p.across e j k = -∑ l ∈ Ico j0 j1, (e (l + 1) k - e l k) ^ 2 / p.band l := by
  have q := by_parts (fun l => (e (l + 1) k - e l k) / p.band l) (fun j => e j k) h01
  beta_reduce at q
  rw [h0, h1, mul_zero, mul_zero, sub_zero] at q
  have r : ∀ j ∈ Ioo j0 j1, e j k * ((e (j + 1) k - e j k) / p.band j - (e (j - 1 + 1) k - e (j - 1) k) / p.band (j - 1)) =
      e j k * p.across e j k := by
    intro j _
    unfold across
    rw [show j - 1 + 1 = j by ring]
  rw [sum_congr rfl r] at q
  have s : ∀ l ∈ Ico j0 j1, (e (l + 1) k - e l k) / p.band l * (e (l + 1) k - e l k) = (e (l + 1) k - e l k) ^ 2 / p.band l := by
    intro l _
    ring
  rw [sum_congr rfl s] at q
  linarith

theorem source_sum (h01 : j0 < j1) {Q e : ℤ → ℤ → ℝ} {k : ℤ} (h0 : e j0 k = 0) (h1 : e j1 k = 0) :
    ∑ j ∈ Ioo j0 j1, e j k * (Q (j + 1) k - Q (j - 1) k) = -∑ l ∈ Ico j0 j1, (Q (l + 1) k + Q l k) * (e (l + 1) k - e l k) := by
  have q := by_parts (fun l => Q (l + 1) k + Q l k) (fun j => e j k) h01
  beta_reduce at q
  rw [h0, h1, mul_zero, mul_zero, sub_zero] at q
  have r : ∀ j ∈ Ioo j0 j1, e j k * (Q (j + 1) k + Q j k - (Q (j - 1 + 1) k + Q (j - 1) k)) = e j k * (Q (j + 1) k - Q (j - 1) k) := by
    intro j _
    rw [show j - 1 + 1 = j by ring]
    ring
  rw [sum_congr rfl r] at q
  linarith

/-- A function that vanishes on the last row, from its differences. -/
theorem Stable.value_le (h : p.Stable S j0 j1 kmax) {e : ℤ → ℤ → ℝ} {k j : ℤ} (h1 : e j1 k = 0) (a1 : j0 ≤ j) (a2 : j < j1) :
    e j k ^ 2 ≤ (∑ l ∈ Ico j0 j1, p.band l) * ∑ l ∈ Ico j0 j1, (e (l + 1) k - e l k) ^ 2 / p.band l := by
  have tele : ∀ n : ℕ, ∑ l ∈ Ico (j1 - n) j1, (e (l + 1) k - e l k) = -e (j1 - n) k := by
    intro n
    induction n with
    | zero => simp [h1]
    | succ n ih =>
      rw [sum_Ico_step (by push_cast; omega), show j1 - ((n + 1 : ℕ) : ℤ) + 1 = j1 - n by push_cast; ring, ih]
      ring
  have t := tele (j1 - j).toNat
  rw [show j1 - ((j1 - j).toNat : ℤ) = j by omega] at t
  have pos : ∀ l ∈ Ico j j1, 0 < p.band l := fun l hl => by
    rw [mem_Ico] at hl
    exact h.band_pos (by omega) hl.2
  have c := sq_sum_div_le_sum_sq_div (Ico j j1) (fun l => e (l + 1) k - e l k) pos
  rw [t] at c
  have bp : 0 < ∑ l ∈ Ico j j1, p.band l := sum_pos pos ⟨j, by rw [mem_Ico]; omega⟩
  rw [div_le_iff₀ bp, neg_sq] at c
  have sub : Ico j j1 ⊆ Ico j0 j1 := fun l hl => by rw [mem_Ico] at hl ⊢; omega
  have m1 : ∑ l ∈ Ico j j1, p.band l ≤ ∑ l ∈ Ico j0 j1, p.band l := sum_le_sum_of_subset_of_nonneg sub fun l hl _ => by
    rw [mem_Ico] at hl
    exact (h.band_pos hl.1 hl.2).le
  have m2 : ∑ l ∈ Ico j j1, (e (l + 1) k - e l k) ^ 2 / p.band l ≤ ∑ l ∈ Ico j0 j1, (e (l + 1) k - e l k) ^ 2 / p.band l :=
    sum_le_sum_of_subset_of_nonneg sub fun l hl _ => by
      rw [mem_Ico] at hl
      exact div_nonneg (sq_nonneg _) (h.band_pos hl.1 hl.2).le
  have n2 : 0 ≤ ∑ l ∈ Ico j j1, (e (l + 1) k - e l k) ^ 2 / p.band l := sum_nonneg fun l hl =>
    div_nonneg (sq_nonneg _) (pos l hl).le
  calc _ ≤ (∑ l ∈ Ico j j1, (e (l + 1) k - e l k) ^ 2 / p.band l) * ∑ l ∈ Ico j j1, p.band l := c
    _ ≤ (∑ l ∈ Ico j0 j1, (e (l + 1) k - e l k) ^ 2 / p.band l) * ∑ l ∈ Ico j0 j1, p.band l :=
        mul_le_mul m2 m1 bp.le (n2.trans m2)
    _ = _ := mul_comm _ _

/-- Energy estimate: the meridional differences of a solution with vanishing boundary values are bounded by the source itself. -/
theorem Stable.energy (h : p.Stable S j0 j1 kmax) (h01 : j0 < j1) {Q e : ℤ → ℤ → ℝ} {w : ℤ → ℝ} (w0 : ∀ k, 1 < k → k < kmax → 0 ≤ w k)
    (eqn : ∀ j k, j0 < j → j < j1 → 1 < k → k < kmax → p.oper S e j k = -(p.om * p.a * p.dphi * (Q (j + 1) k - Q (j - 1) k)))
    (h0 : ∀ k, 1 < k → k < kmax → e j0 k = 0) (h1 : ∀ k, 1 < k → k < kmax → e j1 k = 0)
    (hv : ∀ j, j0 < j → j < j1 → ∑ k ∈ Ioo 1 kmax, w k * (e j k * p.upward S e j k) ≤ 0) :
    ∑ k ∈ Ioo 1 kmax, w k * p.density k * ∑ l ∈ Ico j0 j1, (e (l + 1) k - e l k) ^ 2 / p.band l ≤
      (p.om * p.a * p.dphi) ^ 2 * ∑ k ∈ Ioo 1 kmax, w k * p.density k * ∑ l ∈ Ico j0 j1, p.band l * (Q (l + 1) k + Q l k) ^ 2 := by
  set c := p.om * p.a * p.dphi with hc
  set X := (2 * p.om * p.a * p.dphi / p.dz) ^ 2 * (p.h / p.r) with hX
  have X0 : 0 ≤ X := h.vert.le
  have level : ∀ k ∈ Ioo 1 kmax, w k * p.density k * ∑ l ∈ Ico j0 j1, (e (l + 1) k - e l k) ^ 2 / p.band l =
      -(w k * p.density k * (c * ∑ l ∈ Ico j0 j1, (Q (l + 1) k + Q l k) * (e (l + 1) k - e l k))) +
      ∑ j ∈ Ioo j0 j1, X * (sin (p.lat j) / cos (p.lat j)) * (w k * (e j k * p.upward S e j k)) := by
    intro k hk
    rw [mem_Ioo] at hk
    have r1 := row_sum (p := p) h01 (h0 k hk.1 hk.2) (h1 k hk.1 hk.2)
    have r2 := source_sum (Q := Q) h01 (h0 k hk.1 hk.2) (h1 k hk.1 hk.2)
    have dd : p.density k * exp (p.height k / p.h) = 1 := by
      unfold density
      rw [← exp_add]
      simp
    have each : ∀ j ∈ Ioo j0 j1, X * (sin (p.lat j) / cos (p.lat j)) * (w k * (e j k * p.upward S e j k)) =
        w k * p.density k * (-(c * (e j k * (Q (j + 1) k - Q (j - 1) k))) - e j k * p.across e j k) := by
      intro j hj
      rw [mem_Ioo] at hj
      have q := eqn j k hj.1 hj.2 hk.1 hk.2
      rw [oper_split] at q
      linear_combination w k * p.density k * e j k * q -
        X * (sin (p.lat j) / cos (p.lat j)) * (w k * (e j k * p.upward S e j k)) * dd
    rw [sum_congr rfl each, ← mul_sum, sum_sub_distrib, r1, sum_neg_distrib, ← mul_sum, r2]
    ring
  have young : ∀ k, 1 < k → k < kmax → -(c * ∑ l ∈ Ico j0 j1, (Q (l + 1) k + Q l k) * (e (l + 1) k - e l k)) ≤
      1 / 2 * (∑ l ∈ Ico j0 j1, (e (l + 1) k - e l k) ^ 2 / p.band l) +
      1 / 2 * (c ^ 2 * ∑ l ∈ Ico j0 j1, p.band l * (Q (l + 1) k + Q l k) ^ 2) := by
    intro k _ _
    rw [mul_sum, mul_sum, mul_sum, mul_sum, ← sum_add_distrib, ← sum_neg_distrib]
    refine sum_le_sum fun l hl => ?_
    rw [mem_Ico] at hl
    have b := h.band_pos hl.1 hl.2
    have sq := sq_nonneg ((e (l + 1) k - e l k) / p.band l + c * (Q (l + 1) k + Q l k))
    have m := mul_nonneg b.le sq
    have i : p.band l * ((e (l + 1) k - e l k) / p.band l + c * (Q (l + 1) k + Q l k)) ^ 2 =
        (e (l + 1) k - e l k) ^ 2 / p.band l + 2 * (c * ((Q (l + 1) k + Q l k) * (e (l + 1) k - e l k))) +
        c ^ 2 * (p.band l * (Q (l + 1) k + Q l k) ^ 2) := by
      field_simp
      ring
    rw [i] at m
    linarith
  have total : ∑ k ∈ Ioo 1 kmax, w k * p.density k * ∑ l ∈ Ico j0 j1, (e (l + 1) k - e l k) ^ 2 / p.band l ≤
      ∑ k ∈ Ioo 1 kmax, w k * p.density k * (1 / 2 * (∑ l ∈ Ico j0 j1, (e (l + 1) k - e l k) ^ 2 / p.band l) +
        1 / 2 * (c ^ 2 * ∑ l ∈ Ico j0 j1, p.band l * (Q (l + 1) k + Q l k) ^ 2)) := by
    rw [sum_congr rfl level, sum_add_distrib, sum_comm]
    have n : ∑ j ∈ Ioo j0 j1, ∑ k ∈ Ioo 1 kmax, X * (sin (p.lat j) / cos (p.lat j)) * (w k * (e j k * p.upward S e j k)) ≤ 0 := by
      refine sum_nonpos fun j hj => ?_
      rw [mem_Ioo] at hj
      rw [← mul_sum]
      obtain ⟨s1, s2⟩ := h.row j (by exact_mod_cast hj.1) (by exact_mod_cast hj.2)
      exact mul_nonpos_of_nonneg_of_nonpos (mul_nonneg X0 (div_pos s1 s2).le) (hv j hj.1 hj.2)
    refine (add_le_add_right n _).trans ?_
    rw [add_zero]
    refine sum_le_sum fun k hk => ?_
    rw [mem_Ioo] at hk
    rw [← mul_neg]
    exact mul_le_mul_of_nonneg_left (young k hk.1 hk.2) (mul_nonneg (w0 k hk.1 hk.2) (exp_pos _).le)
  have split : ∑ k ∈ Ioo 1 kmax, w k * p.density k * (1 / 2 * (∑ l ∈ Ico j0 j1, (e (l + 1) k - e l k) ^ 2 / p.band l) +
        1 / 2 * (c ^ 2 * ∑ l ∈ Ico j0 j1, p.band l * (Q (l + 1) k + Q l k) ^ 2)) =
      1 / 2 * (∑ k ∈ Ioo 1 kmax, w k * p.density k * ∑ l ∈ Ico j0 j1, (e (l + 1) k - e l k) ^ 2 / p.band l) +
      1 / 2 * (c ^ 2 * ∑ k ∈ Ioo 1 kmax, w k * p.density k * ∑ l ∈ Ico j0 j1, p.band l * (Q (l + 1) k + Q l k) ^ 2) := by
    rw [mul_sum, mul_sum, mul_sum, ← sum_add_distrib]
    exact sum_congr rfl fun k _ => by ring
  rw [split] at total
  linarith

/-- The estimate for the values: at any row of each level, in the mean square over the levels. -/
theorem Stable.mean_square (h : p.Stable S j0 j1 kmax) (h01 : j0 < j1) (hd : 0 < p.dphi) (hlen : p.dphi * ((j1 - j0 : ℤ) : ℝ) ≤ π / 2)
    {Q e : ℤ → ℤ → ℝ} {w q : ℤ → ℝ} (w0 : ∀ k, 1 < k → k < kmax → 0 ≤ w k)
    (eqn : ∀ j k, j0 < j → j < j1 → 1 < k → k < kmax → p.oper S e j k = -(p.om * p.a * p.dphi * (Q (j + 1) k - Q (j - 1) k)))
    (h0 : ∀ k, 1 < k → k < kmax → e j0 k = 0) (h1 : ∀ k, 1 < k → k < kmax → e j1 k = 0)
    (hv : ∀ j, j0 < j → j < j1 → ∑ k ∈ Ioo 1 kmax, w k * (e j k * p.upward S e j k) ≤ 0)
    (hq : ∀ j k, j0 ≤ j → j ≤ j1 → 1 < k → k < kmax → |Q j k| ≤ q k) (J : ℤ → ℤ) (hJ : ∀ k, 1 < k → k < kmax → j0 ≤ J k ∧ J k < j1) :
    ∑ k ∈ Ioo 1 kmax, w k * p.density k * e (J k) k ^ 2 ≤
      (π / 2 * (p.om * p.a)) ^ 2 * ∑ k ∈ Ioo 1 kmax, w k * p.density k * q k ^ 2 := by
  have en := h.energy h01 w0 eqn h0 h1 hv
  set T := ∑ l ∈ Ico j0 j1, p.band l with hT
  have T0 : 0 ≤ T := sum_nonneg fun l hl => by
    rw [mem_Ico] at hl
    exact (h.band_pos hl.1 hl.2).le
  have T1 : p.dphi * T ≤ π / 4 := by
    have : T ≤ ∑ l ∈ Ico j0 j1, (1 / 2 : ℝ) := sum_le_sum fun l _ => sin_cos_le _
    rw [sum_const, Int.card_Ico, nsmul_eq_mul] at this
    have c : ((j1 - j0).toNat : ℝ) = ((j1 - j0 : ℤ) : ℝ) := by exact_mod_cast Int.toNat_of_nonneg (by omega : 0 ≤ j1 - j0)
    rw [c] at this
    have := mul_le_mul_of_nonneg_left this hd.le
    linarith
  have d0 : ∀ k, 1 < k → k < kmax → 0 ≤ w k * p.density k := fun k k1 k2 => mul_nonneg (w0 k k1 k2) (exp_pos _).le
  have s1 : ∑ k ∈ Ioo 1 kmax, w k * p.density k * e (J k) k ^ 2 ≤
      T * ∑ k ∈ Ioo 1 kmax, w k * p.density k * ∑ l ∈ Ico j0 j1, (e (l + 1) k - e l k) ^ 2 / p.band l := by
    rw [mul_sum]
    refine sum_le_sum fun k hk => ?_
    rw [mem_Ioo] at hk
    obtain ⟨a1, a2⟩ := hJ k hk.1 hk.2
    have := mul_le_mul_of_nonneg_left (h.value_le (h1 k hk.1 hk.2) a1 a2) (d0 k hk.1 hk.2)
    refine this.trans (le_of_eq ?_)
    ring
  have s2 : ∑ k ∈ Ioo 1 kmax, w k * p.density k * ∑ l ∈ Ico j0 j1, p.band l * (Q (l + 1) k + Q l k) ^ 2 ≤
      4 * T * ∑ k ∈ Ioo 1 kmax, w k * p.density k * q k ^ 2 := by
    rw [mul_sum]
    refine sum_le_sum fun k hk => ?_
    rw [mem_Ioo] at hk
    have : ∑ l ∈ Ico j0 j1, p.band l * (Q (l + 1) k + Q l k) ^ 2 ≤ ∑ l ∈ Ico j0 j1, p.band l * (4 * q k ^ 2) := by
      refine sum_le_sum fun l hl => ?_
      rw [mem_Ico] at hl
      refine mul_le_mul_of_nonneg_left ?_ (h.band_pos hl.1 hl.2).le
      have b1 := hq (l + 1) k (by omega) (by omega) hk.1 hk.2
      have b2 := hq l k (by omega) (by omega) hk.1 hk.2
      have b3 : |Q (l + 1) k + Q l k| ≤ 2 * q k := (abs_add_le _ _).trans (by linarith)
      have := pow_le_pow_left₀ (abs_nonneg _) b3 2
      rw [sq_abs] at this
      linarith
    rw [← sum_mul] at this
    have := mul_le_mul_of_nonneg_left this (d0 k hk.1 hk.2)
    refine this.trans (le_of_eq ?_)
    ring
  have s3 := mul_le_mul_of_nonneg_left en T0
  have s4 := mul_le_mul_of_nonneg_left s2 (mul_nonneg T0 (sq_nonneg (p.om * p.a * p.dphi)))
  have P0 : 0 ≤ ∑ k ∈ Ioo 1 kmax, w k * p.density k * q k ^ 2 := sum_nonneg fun k hk => by
    rw [mem_Ioo] at hk
    exact mul_nonneg (d0 k hk.1 hk.2) (sq_nonneg _)
  have s5 : (p.dphi * T) ^ 2 ≤ (π / 4) ^ 2 := pow_le_pow_left₀ (mul_nonneg hd.le T0) T1 2
  have s6 := mul_le_mul_of_nonneg_right s5 (mul_nonneg (mul_nonneg (by norm_num : (0 : ℝ) ≤ 4) (sq_nonneg (p.om * p.a))) P0)
  calc _ ≤ _ := s1
    _ ≤ _ := s3
    _ = T * (p.om * p.a * p.dphi) ^ 2 * ∑ k ∈ Ioo 1 kmax, w k * p.density k * ∑ l ∈ Ico j0 j1, p.band l * (Q (l + 1) k + Q l k) ^ 2 := by
        ring
    _ ≤ _ := s4
    _ = (p.dphi * T) ^ 2 * (4 * (p.om * p.a) ^ 2 * ∑ k ∈ Ioo 1 kmax, w k * p.density k * q k ^ 2) := by ring
    _ ≤ _ := s6
    _ = _ := by ring

/-- The estimate for either condition at the top. With the wider one the highest level is left out on the left. -/
theorem Stable.mean_square_top (h : p.Stable S j0 j1 kmax) (h01 : j0 < j1) (hk : 3 ≤ kmax) (hd : 0 < p.dphi)
    (hlen : p.dphi * ((j1 - j0 : ℤ) : ℝ) ≤ π / 2) {Q e : ℤ → ℤ → ℝ} {q : ℤ → ℝ} {kt : ℤ} (hkt : kt = kmax - 1 ∨ kt = kmax - 2)
    (eqn : ∀ j k, j0 < j → j < j1 → 1 < k → k < kmax → p.oper S e j k = -(p.om * p.a * p.dphi * (Q (j + 1) k - Q (j - 1) k)))
    (h0 : ∀ k, 1 < k → k < kmax → e j0 k = 0) (h1 : ∀ k, 1 < k → k < kmax → e j1 k = 0) (hb : ∀ j, j0 < j → j < j1 → e j 1 = 0)
    (ht : ∀ j, j0 < j → j < j1 → e j kmax = e j kt)
    (hq : ∀ j k, j0 ≤ j → j ≤ j1 → 1 < k → k < kmax → |Q j k| ≤ q k) (J : ℤ → ℤ) (hJ : ∀ k, 1 < k → k < kmax → j0 ≤ J k ∧ J k < j1) :
    ∑ k ∈ Ioo 1 (kt + 1), p.density k * e (J k) k ^ 2 ≤ (π / 2 * (p.om * p.a)) ^ 2 * ∑ k ∈ Ioo 1 kmax, p.density k * q k ^ 2 := by
  rcases hkt with rfl | rfl
  · have m := h.mean_square h01 hd hlen (w := fun _ => 1) (fun _ _ _ => zero_le_one) eqn h0 h1
      (fun j a1 a2 => by
        simp only [one_mul]
        exact h.column_sum (by omega) (hb j a1 a2) (ht j a1 a2)) hq J hJ
    simp only [one_mul] at m
    rw [show kmax - 1 + 1 = kmax by ring]
    exact m
  · have l1 := h.link_pos (k := kmax - 1) (by omega) (by omega)
    have l2 := h.link_pos (k := kmax - 2) (by omega) (by omega)
    set w : ℤ → ℝ := fun k => if k = kmax - 1 then p.link S (kmax - 2) / (p.link S (kmax - 1) + p.link S (kmax - 2)) else 1 with hw
    have w0 : ∀ k, 0 ≤ w k ∧ w k ≤ 1 := by
      intro k
      rw [hw]
      beta_reduce
      split_ifs
      · exact ⟨by positivity, (div_le_one (by positivity)).2 (by linarith)⟩
      · exact ⟨zero_le_one, le_rfl⟩
    have m := h.mean_square h01 hd hlen (w := w) (fun k _ _ => (w0 k).1) eqn h0 h1
      (fun j a1 a2 => h.column_sum₂ hk (hb j a1 a2) (ht j a1 a2)) hq J hJ
    have c1 : ∑ k ∈ Ioo 1 (kmax - 2 + 1), p.density k * e (J k) k ^ 2 = ∑ k ∈ Ioo 1 (kmax - 2 + 1), w k * p.density k * e (J k) k ^ 2 := by
      refine sum_congr rfl fun k hk => ?_
      rw [mem_Ioo] at hk
      have : w k = 1 := if_neg (by omega)
      rw [this, one_mul]
    have c2 : ∑ k ∈ Ioo 1 (kmax - 2 + 1), w k * p.density k * e (J k) k ^ 2 ≤ ∑ k ∈ Ioo 1 kmax, w k * p.density k * e (J k) k ^ 2 :=
      sum_le_sum_of_subset_of_nonneg (fun k hk => by rw [mem_Ioo] at hk ⊢; omega)
        fun k _ _ => mul_nonneg (mul_nonneg (w0 k).1 (exp_pos _).le) (sq_nonneg _)
    have c3 : ∑ k ∈ Ioo 1 kmax, w k * p.density k * q k ^ 2 ≤ ∑ k ∈ Ioo 1 kmax, p.density k * q k ^ 2 := by
      refine sum_le_sum fun k _ => ?_
      have := mul_le_mul_of_nonneg_right (w0 k).2 (mul_nonneg (exp_pos (-(p.height k / p.h))).le (sq_nonneg (q k)))
      unfold density
      linarith
    rw [c1]
    exact (c2.trans m).trans (mul_le_mul_of_nonneg_left c3 (sq_nonneg _))

/-- Two solutions: the parts of their difference that come from the boundary and from the top are bounded at every point, the part
that comes from the source in the mean square over the levels, by the difference of the sources itself. -/
theorem Stable.respond (h : p.Stable S j0 j1 kmax) (h01 : j0 < j1) (hk : 3 ≤ kmax) (hd : 0 < p.dphi)
    (hlen : p.dphi * ((j1 - j0 : ℤ) : ℝ) ≤ π / 2) {Q Q' W W' : ℤ → ℤ → ℝ} {q : ℤ → ℝ} {B t : ℝ} (B0 : 0 ≤ B) (t0 : 0 ≤ t) {kt : ℤ}
    (hkt : kt = kmax - 1 ∨ kt = kmax - 2)
    (e : ∀ j k, j0 < j → j < j1 → 1 < k → k < kmax → p.Elliptic S Q W j k)
    (e' : ∀ j k, j0 < j → j < j1 → 1 < k → k < kmax → p.Elliptic S Q' W' j k)
    (hq : ∀ j k, j0 ≤ j → j ≤ j1 → 1 < k → k < kmax → |Q j k - Q' j k| ≤ q k)
    (h0 : ∀ k, 1 < k → k < kmax → |W j0 k - W' j0 k| ≤ B) (h1 : ∀ k, 1 < k → k < kmax → W j1 k = W' j1 k)
    (hb : ∀ j, j0 < j → j < j1 → W j 1 = 0) (hb' : ∀ j, j0 < j → j < j1 → W' j 1 = 0)
    (ht : ∀ j, j0 < j → j < j1 → |(W j kmax - W j kt) - (W' j kmax - W' j kt)| ≤ t)
    (J : ℤ → ℤ) (hJ : ∀ k, 1 < k → k < kmax → j0 < J k ∧ J k < j1) :
    ∃ d : ℤ → ℝ, (∀ k, 0 ≤ d k) ∧ (∀ k, 1 < k → k < kmax → |W (J k) k - W' (J k) k| ≤ B + t * p.column S kmax k + d k) ∧
      ∑ k ∈ Ioo 1 (kt + 1), p.density k * d k ^ 2 ≤ (π / 2 * (p.om * p.a)) ^ 2 * ∑ k ∈ Ioo 1 kmax, p.density k * q k ^ 2 := by
  have kt1 : 1 ≤ kt := by omega
  have kt2 : kt < kmax := by omega
  obtain ⟨V, v1, v2, v3, v4, v5⟩ := exists_solution (kt := kt) h01 (by omega : 1 < kmax) h.pos kt1 kt2
    (fun j k => -(p.om * p.a * p.dphi * (Q' (j + 1) k - Q' (j - 1) k))) (fun k => W j0 k) (fun k => W j1 k)
    (fun j => W j kmax - W j kt)
  have ve : ∀ j k, j0 < j → j < j1 → 1 < k → k < kmax → p.Elliptic S Q' V j k := fun j k a1 a2 k1 k2 =>
    (elliptic_iff Q' V j k).2 (v1 j k a1 a2 k1 k2)
  refine ⟨fun k => |W (J k) k - V (J k) k|, fun k => abs_nonneg _, fun k k1 k2 => ?_, ?_⟩
  · obtain ⟨a1, a2⟩ := hJ k k1 k2
    have b := h.bounded h01 kt1 kt2 B0 (R := 0) le_rfl t0 ve e' (fun j k _ _ _ _ => by rw [sub_self, abs_zero])
      (fun k k1 k2 => by rw [v2]; exact h0 k k1 k2) (fun k k1 k2 => by rw [v3]; exact h1 k k1 k2)
      (fun j a1 a2 => by rw [v4 j a1 a2, hb' j a1 a2]) (fun j a1 a2 => by
        rw [v5 j a1 a2, add_sub_cancel_left]
        exact ht j a1 a2) (J k) k a1 a2 k1 k2
    rw [zero_mul, add_zero] at b
    have := abs_sub_le (W (J k) k) (V (J k) k) (W' (J k) k)
    linarith
  · simp only [sq_abs]
    refine h.mean_square_top h01 hk hd hlen (e := fun j k => W j k - V j k) (Q := fun j k => Q j k - Q' j k) hkt
      (fun j k a1 a2 k1 k2 => ?_) (fun k _ _ => ?_) (fun k _ _ => ?_) (fun j a1 a2 => ?_) (fun j a1 a2 => ?_) hq J
      (fun k k1 k2 => ⟨(hJ k k1 k2).1.le, (hJ k k1 k2).2⟩)
    · have q1 := (elliptic_iff Q W j k).1 (e j k a1 a2 k1 k2)
      have q2 := (elliptic_iff Q' V j k).1 (ve j k a1 a2 k1 k2)
      unfold oper at q1 q2 ⊢
      rw [fivePoint_sub, q1, q2]
      ring
    · show W j0 k - V j0 k = 0
      rw [v2, sub_self]
    · show W j1 k - V j1 k = 0
      rw [v3, sub_self]
    · show W j 1 - V j 1 = 0
      rw [hb j a1 a2, v4 j a1 a2, sub_self]
    · show W j kmax - V j kmax = W j kt - V j kt
      rw [v5 j a1 a2]
      ring

end Spec.Planet

end Falwa
