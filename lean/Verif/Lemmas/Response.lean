import Verif.Lemmas.Elliptic
import Verif.Spec.RefState
import Mathlib.Algebra.Order.BigOperators.Group.Finset
import Mathlib.Analysis.SpecialFunctions.Trigonometric.Bounds

/-! # Comparison of two solutions of the elliptic equation -/

noncomputable section

namespace Falwa

open Real Finset

/-- Comparison principle: a function with non-negative five-point operator in the interior of a rectangle, not positive on the
two sides and at the bottom, and at the top at most one of the values below, is not positive. -/
theorem compare_principle {j0 j1 kmax : ℤ} {a b c d : ℤ → ℤ → ℝ} {w : ℤ → ℤ → ℝ}
    (hpos : ∀ j k, j0 < j → j < j1 → 1 < k → k < kmax → 0 < a j k ∧ 0 < b j k ∧ 0 < c j k ∧ 0 < d j k)
    (heq : ∀ j k, j0 < j → j < j1 → 1 < k → k < kmax → 0 ≤ fivePoint a b c d w j k)
    (h0 : ∀ k, 1 < k → k < kmax → w j0 k ≤ 0) (h1 : ∀ k, 1 < k → k < kmax → w j1 k ≤ 0)
    (hb : ∀ j, j0 < j → j < j1 → w j 1 ≤ 0)
    (ht : ∀ j, j0 < j → j < j1 → ∃ k, 1 ≤ k ∧ k < kmax ∧ w j kmax ≤ w j k) :
    ∀ j k, j0 < j → j < j1 → 1 < k → k < kmax → w j k ≤ 0 := by
  intro x y x1 x2 y1 y2
  by_contra hxy
  rw [not_le] at hxy
  set D := (Ioo j0 j1) ×ˢ (Ioo 1 kmax) with hD
  have mD : ∀ p : ℤ × ℤ, p ∈ D ↔ (j0 < p.1 ∧ p.1 < j1) ∧ 1 < p.2 ∧ p.2 < kmax := by
    intro p; rw [hD, mem_product, mem_Ioo, mem_Ioo]
  obtain ⟨m, hm, hmax⟩ := exists_max_image D (fun p => w p.1 p.2) ⟨(x, y), (mD _).2 ⟨⟨x1, x2⟩, y1, y2⟩⟩
  have hMpos : 0 < w m.1 m.2 := lt_of_lt_of_le hxy (hmax (x, y) ((mD _).2 ⟨⟨x1, x2⟩, y1, y2⟩))
  set M := w m.1 m.2 with hM
  obtain ⟨p, hp, hmin⟩ := exists_min_image (D.filter (fun p => w p.1 p.2 = M)) (fun p => p.1)
    ⟨m, mem_filter.2 ⟨hm, rfl⟩⟩
  rw [mem_filter] at hp
  obtain ⟨hpD, hpM⟩ := hp
  obtain ⟨⟨p1, p2⟩, p3, p4⟩ := (mD p).1 hpD
  have le : ∀ j k, j0 ≤ j → j ≤ j1 → 1 ≤ k → k < kmax → (1 < k ∨ (j0 < j ∧ j < j1)) → w j k ≤ M := by
    intro j k a1 a2 a3 a4 a5
    by_cases e1 : 1 < k
    · by_cases e2 : j = j0
      · rw [e2]; exact (h0 k e1 a4).trans hMpos.le
      · by_cases e3 : j = j1
        · rw [e3]; exact (h1 k e1 a4).trans hMpos.le
        · exact hmax (j, k) ((mD _).2 ⟨⟨by omega, by omega⟩, e1, a4⟩)
    · have : k = 1 := by omega
      have a5' := a5.resolve_left e1
      rw [this]; exact (hb j a5'.1 a5'.2).trans hMpos.le
  have up : w p.1 (p.2 + 1) ≤ M := by
    by_cases e : p.2 + 1 = kmax
    · obtain ⟨k, k1, k2, k3⟩ := ht p.1 p1 p2
      rw [e]
      exact k3.trans (le p.1 k (by omega) (by omega) k1 k2 (Or.inr ⟨p1, p2⟩))
    · exact le p.1 (p.2 + 1) (by omega) (by omega) (by omega) (by omega) (Or.inl (by omega))
  have dn : w p.1 (p.2 - 1) ≤ M := le p.1 (p.2 - 1) (by omega) (by omega) (by omega) (by omega) (Or.inr ⟨p1, p2⟩)
  have ea : w (p.1 + 1) p.2 ≤ M := le _ _ (by omega) (by omega) (by omega) p4 (Or.inl p3)
  have we : w (p.1 - 1) p.2 ≤ M := le _ _ (by omega) (by omega) (by omega) p4 (Or.inl p3)
  have hlt : w (p.1 - 1) p.2 < M := by
    refine lt_of_le_of_ne we fun e => ?_
    by_cases e1 : p.1 - 1 = j0
    · have := h0 p.2 p3 p4
      rw [← e1, e] at this
      linarith
    · have := hmin (p.1 - 1, p.2) (mem_filter.2 ⟨(mD _).2 ⟨⟨by show j0 < p.1 - 1; omega, by show p.1 - 1 < j1; omega⟩, p3, p4⟩, e⟩)
      have : p.1 ≤ p.1 - 1 := this
      omega
  have e := heq p.1 p.2 p1 p2 p3 p4
  obtain ⟨pa, pb, pc, pd⟩ := hpos p.1 p.2 p1 p2 p3 p4
  unfold fivePoint at e
  rw [hpM] at e
  nlinarith [mul_nonneg pa.le (sub_nonneg.2 ea), mul_pos pb (sub_pos.2 hlt), mul_nonneg pc.le (sub_nonneg.2 up),
    mul_nonneg pd.le (sub_nonneg.2 dn)]

theorem fivePoint_sub (a b c d v w : ℤ → ℤ → ℝ) (j k : ℤ) :
    fivePoint a b c d (fun j k => v j k - w j k) j k = fivePoint a b c d v j k - fivePoint a b c d w j k := by
  unfold fivePoint
  ring

namespace Spec.Planet

variable {p : Planet} {S : ℤ → ℝ} {j0 j1 kmax : ℤ}

/-- Latitudes between equator and pole, positive constants, stable stratification. -/
structure Stable (p : Planet) (S : ℤ → ℝ) (j0 j1 kmax : ℤ) : Prop where
  row : ∀ x : ℝ, (j0 : ℝ) < x → x < j1 → 0 < sin (p.lat x) ∧ 0 < cos (p.lat x)
  vert : 0 < (2 * p.om * p.a * p.dphi / p.dz) ^ 2 * (p.h / p.r)
  stat : ∀ k, 1 ≤ k → k ≤ kmax → 0 < S k

/-- Weight of the difference to the northern neighbour. -/
def north (p : Planet) (j : ℤ) : ℝ := 1 / (sin (p.lat (j + 1 / 2)) * cos (p.lat (j + 1 / 2)))

/-- Weight of the difference to the southern neighbour. -/
def south (p : Planet) (j : ℤ) : ℝ := 1 / (sin (p.lat (j - 1 / 2)) * cos (p.lat (j - 1 / 2)))

/-- Weight of the difference to the level above. -/
def above (p : Planet) (S : ℤ → ℝ) (j k : ℤ) : ℝ :=
  (2 * p.om * p.a * p.dphi / p.dz) ^ 2 * (p.h / p.r) * (sin (p.lat j) / cos (p.lat j)) *
    p.stiffness ((S (k + 1) + S k) / 2) k (k + 1 / 2)

/-- Weight of the difference to the level below. -/
def below (p : Planet) (S : ℤ → ℝ) (j k : ℤ) : ℝ :=
  (2 * p.om * p.a * p.dphi / p.dz) ^ 2 * (p.h / p.r) * (sin (p.lat j) / cos (p.lat j)) *
    p.stiffness ((S (k - 1) + S k) / 2) k (k - 1 / 2)

/-- The left-hand side of the equation. -/
def oper (p : Planet) (S : ℤ → ℝ) (u : ℤ → ℤ → ℝ) (j k : ℤ) : ℝ :=
  fivePoint (fun j _ => p.north j) (fun j _ => p.south j) (fun j k => p.above S j k) (fun j k => p.below S j k) u j k

theorem elliptic_iff (Q u : ℤ → ℤ → ℝ) (j k : ℤ) :
    p.Elliptic S Q u j k ↔ p.oper S u j k = -(p.om * p.a * p.dphi * (Q (j + 1) k - Q (j - 1) k)) := by
  unfold Elliptic oper fivePoint north south above below
  constructor
  · intro h; linear_combination h
  · intro h; linear_combination h

theorem Stable.pos (h : p.Stable S j0 j1 kmax) (j k : ℤ) (a1 : j0 < j) (a2 : j < j1) (k1 : 1 < k) (k2 : k < kmax) :
    0 < p.north j ∧ 0 < p.south j ∧ 0 < p.above S j k ∧ 0 < p.below S j k := by
  have b1 : (j0 : ℝ) + 1 ≤ j := by exact_mod_cast a1
  have b2 : (j : ℝ) + 1 ≤ j1 := by exact_mod_cast a2
  obtain ⟨n1, n2⟩ := h.row (j + 1 / 2) (by linarith) (by linarith)
  obtain ⟨s1, s2⟩ := h.row (j - 1 / 2) (by linarith) (by linarith)
  obtain ⟨m1, m2⟩ := h.row j (by linarith) (by linarith)
  have v := h.vert
  have q0 := h.stat k (by omega) (by omega)
  have q1 := h.stat (k + 1) (by omega) (by omega)
  have q2 := h.stat (k - 1) (by omega) (by omega)
  have q := div_pos m1 m2
  refine ⟨by unfold north; positivity, by unfold south; positivity, ?_, ?_⟩
  · unfold above stiffness
    exact mul_pos (mul_pos v q) (by positivity)
  · unfold below stiffness
    exact mul_pos (mul_pos v q) (by positivity)

/-- Two solutions with ordered data are ordered. -/
theorem Stable.compare (h : p.Stable S j0 j1 kmax) {Q Q' W W' : ℤ → ℤ → ℝ} {kt : ℤ} (kt1 : 1 ≤ kt) (kt2 : kt < kmax)
    (e : ∀ j k, j0 < j → j < j1 → 1 < k → k < kmax → p.Elliptic S Q W j k)
    (e' : ∀ j k, j0 < j → j < j1 → 1 < k → k < kmax → p.Elliptic S Q' W' j k)
    (hq : ∀ j k, j0 < j → j < j1 → 1 < k → k < kmax →
      p.om * p.a * p.dphi * (Q (j + 1) k - Q (j - 1) k) ≤ p.om * p.a * p.dphi * (Q' (j + 1) k - Q' (j - 1) k))
    (h0 : ∀ k, 1 < k → k < kmax → W j0 k ≤ W' j0 k) (h1 : ∀ k, 1 < k → k < kmax → W j1 k ≤ W' j1 k)
    (hb : ∀ j, j0 < j → j < j1 → W j 1 ≤ W' j 1)
    (ht : ∀ j, j0 < j → j < j1 → W j kmax - W j kt ≤ W' j kmax - W' j kt) :
    ∀ j k, j0 < j → j < j1 → 1 < k → k < kmax → W j k ≤ W' j k := by
  intro j k a1 a2 k1 k2
  have := compare_principle (w := fun j k => W j k - W' j k) h.pos
    (fun j k a1 a2 k1 k2 => by
      rw [fivePoint_sub]
      have q1 := (elliptic_iff Q W j k).1 (e j k a1 a2 k1 k2)
      have q2 := (elliptic_iff Q' W' j k).1 (e' j k a1 a2 k1 k2)
      have q3 := hq j k a1 a2 k1 k2
      unfold oper at q1 q2
      rw [q1, q2]
      linarith)
    (fun k k1 k2 => sub_nonpos.2 (h0 k k1 k2)) (fun k k1 k2 => sub_nonpos.2 (h1 k k1 k2))
    (fun j a1 a2 => sub_nonpos.2 (hb j a1 a2))
    (fun j a1 a2 => ⟨kt, kt1, kt2, by have := ht j a1 a2; show W j kmax - W' j kmax ≤ W j kt - W' j kt; linarith⟩)
    j k a1 a2 k1 k2
  exact sub_nonpos.1 this

/-- Response of row `j` to a unit source in all rows `j0+1 .. j1-1`. -/
def reach (p : Planet) (j0 j1 j : ℤ) : ℝ :=
  ∑ l ∈ Ico j j1, ((l - j0 : ℤ) : ℝ) * (sin (p.lat (l + 1 / 2)) * cos (p.lat (l + 1 / 2)))

/-- Density-weighted inverse stability between the levels `k` and `k + 1`. -/
def link (p : Planet) (S : ℤ → ℝ) (k : ℤ) : ℝ :=
  exp (-(1 - p.r / p.cp) * p.height (k + 1 / 2) / p.h) / ((S (k + 1) + S k) / 2)

/-- Response of level `k` to a unit difference between the two highest levels. -/
def column (p : Planet) (S : ℤ → ℝ) (kmax k : ℤ) : ℝ := ∑ l ∈ Ico 1 k, p.link S (kmax - 1) / p.link S l

theorem sum_Ico_step {lo hi : ℤ} (h : lo < hi) (f : ℤ → ℝ) : ∑ l ∈ Ico lo hi, f l = f lo + ∑ l ∈ Ico (lo + 1) hi, f l := by
  have : Ico lo hi = insert lo (Ico (lo + 1) hi) := by
    ext x
    rw [mem_insert, mem_Ico, mem_Ico]
    omega
  rw [this, sum_insert (by rw [mem_Ico]; omega)]

theorem sum_Ico_last {lo hi : ℤ} (h : lo ≤ hi) (f : ℤ → ℝ) : ∑ l ∈ Ico lo (hi + 1), f l = ∑ l ∈ Ico lo hi, f l + f hi := by
  have : Ico lo (hi + 1) = insert hi (Ico lo hi) := by
    ext x
    rw [mem_insert, mem_Ico, mem_Ico]
    omega
  rw [this, sum_insert (by rw [mem_Ico]; omega), add_comm]

theorem Stable.link_pos (h : p.Stable S j0 j1 kmax) {k : ℤ} (k1 : 1 ≤ k) (k2 : k < kmax) : 0 < p.link S k := by
  have q0 := h.stat k (by omega) (by omega)
  have q1 := h.stat (k + 1) (by omega) (by omega)
  unfold link
  positivity

theorem Stable.reach_nonneg (h : p.Stable S j0 j1 kmax) {j : ℤ} (a1 : j0 ≤ j) : 0 ≤ p.reach j0 j1 j := by
  refine sum_nonneg fun l hl => ?_
  rw [mem_Ico] at hl
  have b1 : (j0 : ℝ) ≤ l := by exact_mod_cast (by omega : j0 ≤ l)
  have b2 : (l : ℝ) + 1 ≤ j1 := by exact_mod_cast (by omega : l + 1 ≤ j1)
  obtain ⟨n1, n2⟩ := h.row (l + 1 / 2) (by linarith) (by linarith)
  have : (0 : ℝ) ≤ ((l - j0 : ℤ) : ℝ) := by exact_mod_cast (by omega : 0 ≤ l - j0)
  positivity

theorem Stable.column_nonneg (h : p.Stable S j0 j1 kmax) {k : ℤ} (k2 : k ≤ kmax) : 0 ≤ p.column S kmax k := by
  refine sum_nonneg fun l hl => ?_
  rw [mem_Ico] at hl
  have := h.link_pos hl.1 (by omega)
  have := h.link_pos (k := kmax - 1) (by omega) (by omega)
  positivity

/-- The product of sine and cosine is at most one half. -/
theorem sin_cos_le (x : ℝ) : sin x * cos x ≤ 1 / 2 := by
  nlinarith [sin_sq_add_cos_sq x, sq_nonneg (sin x - cos x)]

theorem sum_count (j0 : ℤ) (n : ℕ) : ∑ l ∈ Ico j0 (j0 + n), ((l - j0 : ℤ) : ℝ) = (n : ℝ) * (n - 1) / 2 := by
  induction n with
  | zero => simp
  | succ n ih =>
    rw [show j0 + ((n + 1 : ℕ) : ℤ) = j0 + n + 1 by push_cast; ring, sum_Ico_last (by omega), ih]
    push_cast
    ring

theorem reach_le {j : ℤ} (a1 : j0 ≤ j) (h01 : j0 ≤ j1) :
    p.reach j0 j1 j ≤ ((j1 - j0 : ℤ) : ℝ) ^ 2 / 4 := by
  obtain ⟨n, hn⟩ : ∃ n : ℕ, j1 = j0 + n := ⟨(j1 - j0).toNat, by omega⟩
  have q : p.reach j0 j1 j ≤ ∑ l ∈ Ico j0 j1, ((l - j0 : ℤ) : ℝ) * (1 / 2) := by
    unfold reach
    refine (sum_le_sum (g := fun l => ((l - j0 : ℤ) : ℝ) * (1 / 2)) fun l hl => ?_).trans
      (sum_le_sum_of_subset_of_nonneg (fun l hl => ?_) fun l hl _ => ?_)
    · rw [mem_Ico] at hl
      have : (0 : ℝ) ≤ ((l - j0 : ℤ) : ℝ) := by exact_mod_cast (by omega : 0 ≤ l - j0)
      exact mul_le_mul_of_nonneg_left (sin_cos_le _) this
    · rw [mem_Ico] at hl ⊢; omega
    · rw [mem_Ico] at hl
      have : (0 : ℝ) ≤ ((l - j0 : ℤ) : ℝ) := by exact_mod_cast (by omega : 0 ≤ l - j0)
      positivity
  refine q.trans ?_
  rw [← sum_mul, hn, sum_count]
  push_cast
  have : (0 : ℝ) ≤ n := Nat.cast_nonneg n
  rw [add_sub_cancel_left]
  nlinarith

/-- If the stratification does not weaken upwards, the response of a level to the shear at the top is at most its height in
levels. -/
theorem Stable.column_le (h : p.Stable S j0 j1 kmax) (hk : p.r / p.cp ≤ 1) (hh : 0 < p.h) (hz : 0 ≤ p.dz)
    (hS : ∀ k l, 1 ≤ k → k ≤ l → l ≤ kmax → S k ≤ S l) {k : ℤ} (k1 : 1 ≤ k) (k2 : k ≤ kmax) :
    p.column S kmax k ≤ (k : ℝ) - 1 := by
  unfold column
  have : ∑ l ∈ Ico 1 k, p.link S (kmax - 1) / p.link S l ≤ ∑ l ∈ Ico 1 k, (1 : ℝ) := by
    refine sum_le_sum fun l hl => ?_
    rw [mem_Ico] at hl
    have l1 := h.link_pos hl.1 (by omega)
    rw [div_le_one l1]
    have q0 := h.stat l (by omega) (by omega)
    have q1 := h.stat (l + 1) (by omega) (by omega)
    have s1 := hS l (kmax - 1) (by omega) (by omega) (by omega)
    have s2 := hS (l + 1) (kmax - 1 + 1) (by omega) (by omega) (by omega)
    unfold link
    have hl' : (l : ℝ) ≤ ((kmax - 1 : ℤ) : ℝ) := by exact_mod_cast (by omega : l ≤ kmax - 1)
    have : p.height (l + 1 / 2) ≤ p.height (((kmax - 1 : ℤ) : ℝ) + 1 / 2) := by
      unfold height
      exact mul_le_mul_of_nonneg_right (by linarith) hz
    have : -(1 - p.r / p.cp) * p.height (((kmax - 1 : ℤ) : ℝ) + 1 / 2) / p.h ≤
        -(1 - p.r / p.cp) * p.height (l + 1 / 2) / p.h := by
      rw [div_le_div_iff_of_pos_right hh]
      nlinarith
    exact div_le_div₀ (exp_pos _).le (exp_le_exp.2 this) (by positivity) (by linarith)
  refine this.trans ?_
  rw [sum_const, Int.card_Ico, nsmul_eq_mul, mul_one]
  have : ((k - 1).toNat : ℝ) = ((k - 1 : ℤ) : ℝ) := by
    exact_mod_cast Int.toNat_of_nonneg (by omega : 0 ≤ k - 1)
  rw [this]
  push_cast
  exact le_rfl

theorem Stable.oper_barrier (h : p.Stable S j0 j1 kmax) (B R t : ℝ) {j k : ℤ} (a1 : j0 < j) (a2 : j < j1) (k1 : 1 < k)
    (k2 : k < kmax) : p.oper S (fun j k => B + R * p.reach j0 j1 j + t * p.column S kmax k) j k = -R := by
  have b1 : (j0 : ℝ) + 1 ≤ j := by exact_mod_cast a1
  have b2 : (j : ℝ) + 1 ≤ j1 := by exact_mod_cast a2
  obtain ⟨n1, n2⟩ := h.row (j + 1 / 2) (by linarith) (by linarith)
  obtain ⟨s1, s2⟩ := h.row (j - 1 / 2) (by linarith) (by linarith)
  have e1 : p.reach j0 j1 j = ((j - j0 : ℤ) : ℝ) * (sin (p.lat (j + 1 / 2)) * cos (p.lat (j + 1 / 2))) + p.reach j0 j1 (j + 1) :=
    sum_Ico_step a2 _
  have e2 : p.reach j0 j1 (j - 1) = ((j - 1 - j0 : ℤ) : ℝ) * (sin (p.lat (j - 1 / 2)) * cos (p.lat (j - 1 / 2))) +
      p.reach j0 j1 j := by
    unfold reach
    rw [sum_Ico_step (by omega : j - 1 < j1), show j - 1 + 1 = j by ring]
    congr 1
    rw [show ((j - 1 : ℤ) : ℝ) + 1 / 2 = (j : ℝ) - 1 / 2 by push_cast; ring]
  have l0 := h.link_pos (k := k) (by omega) (by omega)
  have l1 := h.link_pos (k := k - 1) (by omega) (by omega)
  have e3 : p.column S kmax (k + 1) = p.column S kmax k + p.link S (kmax - 1) / p.link S k := sum_Ico_last (by omega) _
  have e4 : p.column S kmax k = p.column S kmax (k - 1) + p.link S (kmax - 1) / p.link S (k - 1) := by
    have := sum_Ico_last (by omega : 1 ≤ k - 1) (fun l => p.link S (kmax - 1) / p.link S l)
    rw [show k - 1 + 1 = k by ring] at this
    exact this
  have c1 : p.above S j k = (2 * p.om * p.a * p.dphi / p.dz) ^ 2 * (p.h / p.r) * (sin (p.lat j) / cos (p.lat j)) *
      exp (p.height k / p.h) * p.link S k := by
    unfold above stiffness link
    ring
  have c2 : p.below S j k = (2 * p.om * p.a * p.dphi / p.dz) ^ 2 * (p.h / p.r) * (sin (p.lat j) / cos (p.lat j)) *
      exp (p.height k / p.h) * p.link S (k - 1) := by
    unfold below stiffness link
    rw [show k - 1 + 1 = k by ring, show ((k - 1 : ℤ) : ℝ) + 1 / 2 = (k : ℝ) - 1 / 2 by push_cast; ring, add_comm (S k)]
    ring
  unfold oper fivePoint
  beta_reduce
  rw [c1, c2, e3, e4, e2, e1]
  unfold north south
  have m1 : p.link S k * (p.link S (kmax - 1) / p.link S k) = p.link S (kmax - 1) := by field_simp
  have m2 : p.link S (k - 1) * (p.link S (kmax - 1) / p.link S (k - 1)) = p.link S (kmax - 1) := by field_simp
  have m3 : 1 / (sin (p.lat (j + 1 / 2)) * cos (p.lat (j + 1 / 2))) *
    (sin (p.lat (j + 1 / 2)) * cos (p.lat (j + 1 / 2))) = 1 := one_div_mul_cancel (mul_pos n1 n2).ne'
  have m4 : 1 / (sin (p.lat (j - 1 / 2)) * cos (p.lat (j - 1 / 2))) *
    (sin (p.lat (j - 1 / 2)) * cos (p.lat (j - 1 / 2))) = 1 := one_div_mul_cancel (mul_pos s1 s2).ne'
  push_cast
  set K := (2 * p.om * p.a * p.dphi / p.dz) ^ 2 * (p.h / p.r) * (sin (p.lat j) / cos (p.lat j)) * exp (p.height k / p.h)
  linear_combination K * t * m1 - K * t * m2 - R * ((j : ℝ) - j0) * m3 + R * ((j : ℝ) - 1 - j0) * m4

/-- Two solutions differ by at most the difference of the boundary values, plus the response to the difference of the sources and
of the differences at the top. -/
theorem Stable.bounded (h : p.Stable S j0 j1 kmax) (h01 : j0 < j1) {Q Q' W W' : ℤ → ℤ → ℝ} {kt : ℤ} (kt1 : 1 ≤ kt) (kt2 : kt < kmax)
    {B R t : ℝ} (B0 : 0 ≤ B) (R0 : 0 ≤ R) (t0 : 0 ≤ t)
    (e : ∀ j k, j0 < j → j < j1 → 1 < k → k < kmax → p.Elliptic S Q W j k)
    (e' : ∀ j k, j0 < j → j < j1 → 1 < k → k < kmax → p.Elliptic S Q' W' j k)
    (hq : ∀ j k, j0 < j → j < j1 → 1 < k → k < kmax →
      |p.om * p.a * p.dphi * (Q (j + 1) k - Q (j - 1) k) - p.om * p.a * p.dphi * (Q' (j + 1) k - Q' (j - 1) k)| ≤ R)
    (h0 : ∀ k, 1 < k → k < kmax → |W j0 k - W' j0 k| ≤ B) (h1 : ∀ k, 1 < k → k < kmax → W j1 k = W' j1 k)
    (hb : ∀ j, j0 < j → j < j1 → W j 1 = W' j 1)
    (ht : ∀ j, j0 < j → j < j1 → |(W j kmax - W j kt) - (W' j kmax - W' j kt)| ≤ t) :
    ∀ j k, j0 < j → j < j1 → 1 < k → k < kmax →
      |W j k - W' j k| ≤ B + R * p.reach j0 j1 j + t * p.column S kmax k := by
  have key : ∀ {Q Q' W W' : ℤ → ℤ → ℝ},
      (∀ j k, j0 < j → j < j1 → 1 < k → k < kmax → p.Elliptic S Q W j k) →
      (∀ j k, j0 < j → j < j1 → 1 < k → k < kmax → p.Elliptic S Q' W' j k) →
      (∀ j k, j0 < j → j < j1 → 1 < k → k < kmax →
        |p.om * p.a * p.dphi * (Q (j + 1) k - Q (j - 1) k) - p.om * p.a * p.dphi * (Q' (j + 1) k - Q' (j - 1) k)| ≤ R) →
      (∀ k, 1 < k → k < kmax → |W j0 k - W' j0 k| ≤ B) → (∀ k, 1 < k → k < kmax → W j1 k = W' j1 k) →
      (∀ j, j0 < j → j < j1 → W j 1 = W' j 1) →
      (∀ j, j0 < j → j < j1 → |(W j kmax - W j kt) - (W' j kmax - W' j kt)| ≤ t) →
      ∀ j k, j0 < j → j < j1 → 1 < k → k < kmax → W j k - W' j k ≤ B + R * p.reach j0 j1 j + t * p.column S kmax k := by
    intro Q Q' W W' e e' hq h0 h1 hb ht j k a1 a2 k1 k2
    have mono : p.column S kmax kt ≤ p.column S kmax (kmax - 1) := by
      unfold column
      refine sum_le_sum_of_subset_of_nonneg (fun l hl => ?_) fun l hl _ => ?_
      · rw [mem_Ico] at hl ⊢; omega
      · rw [mem_Ico] at hl
        have := h.link_pos hl.1 (by omega)
        have := h.link_pos (k := kmax - 1) (by omega) (by omega)
        positivity
    have top : p.column S kmax kmax = p.column S kmax (kmax - 1) + 1 := by
      have := sum_Ico_last (by omega : 1 ≤ kmax - 1) (fun l => p.link S (kmax - 1) / p.link S l)
      rw [show kmax - 1 + 1 = kmax by ring, div_self (h.link_pos (by omega) (by omega)).ne'] at this
      exact this
    have := compare_principle (w := fun j k => (W j k - W' j k) - (B + R * p.reach j0 j1 j + t * p.column S kmax k)) h.pos
      (fun j k a1 a2 k1 k2 => by
        rw [fivePoint_sub, fivePoint_sub]
        have q1 := (elliptic_iff Q W j k).1 (e j k a1 a2 k1 k2)
        have q2 := (elliptic_iff Q' W' j k).1 (e' j k a1 a2 k1 k2)
        have q3 := (abs_le.1 (hq j k a1 a2 k1 k2)).2
        have q4 := h.oper_barrier B R t a1 a2 k1 k2
        unfold oper at q1 q2 q4
        rw [q1, q2, q4]
        linarith)
      (fun k k1 k2 => by
        have := (abs_le.1 (h0 k k1 k2)).2
        have := mul_nonneg R0 (h.reach_nonneg (j := j0) le_rfl)
        have := mul_nonneg t0 (h.column_nonneg k2.le)
        linarith)
      (fun k k1 k2 => by
        have := h1 k k1 k2
        have := mul_nonneg R0 (h.reach_nonneg (j := j1) h01.le)
        have := mul_nonneg t0 (h.column_nonneg k2.le)
        linarith)
      (fun j a1 a2 => by
        have := hb j a1 a2
        have := mul_nonneg R0 (h.reach_nonneg (j := j) a1.le)
        have := mul_nonneg t0 (h.column_nonneg (by omega : 1 ≤ kmax))
        linarith)
      (fun j a1 a2 => ⟨kt, kt1, kt2, by
        have := (abs_le.1 (ht j a1 a2)).2
        rw [top]
        have := mul_le_mul_of_nonneg_left mono t0
        linarith⟩)
      j k a1 a2 k1 k2
    exact sub_nonpos.1 this
  intro j k a1 a2 k1 k2
  rw [abs_le']
  refine ⟨key e e' hq h0 h1 hb ht j k a1 a2 k1 k2, ?_⟩
  have := key e' e (fun j k a1 a2 k1 k2 => by rw [abs_sub_comm]; exact hq j k a1 a2 k1 k2)
    (fun k k1 k2 => by rw [abs_sub_comm]; exact h0 k k1 k2) (fun k k1 k2 => (h1 k k1 k2).symm)
    (fun j a1 a2 => (hb j a1 a2).symm) (fun j a1 a2 => by rw [abs_sub_comm]; exact ht j a1 a2) j k a1 a2 k1 k2
  linarith

end Spec.Planet

end Falwa
