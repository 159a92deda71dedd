import Mathlib.Algebra.Order.Interval.Finset.SuccPred
import Mathlib.Algebra.Order.Ring.Int
import Mathlib.Data.Int.Interval
import Mathlib.Data.Int.SuccPred
import Mathlib.Tactic.Positivity
import Verif.Lemmas.Minimal

/-!
# Sums of positive parts along a column and squares of anomalies

The sum of `(q - v)⁺ w` along a column telescopes: `x (x - y) ≥ (x² - y²) / 2`.
-/

namespace Falwa

open Finset

variable {K : Type*} [Field K] [LinearOrder K] [IsStrictOrderedRing K]

omit [LinearOrder K] [IsStrictOrderedRing K] in
theorem sum_Icc_add_one {f : ℤ → K} {a b : ℤ} (h : a ≤ b + 1) : ∑ r ∈ Icc a (b + 1), f r = ∑ r ∈ Icc a b, f r + f (b + 1) := by
  rw [← insert_Icc_right_eq_Icc_add_one h, sum_insert (by simp), add_comm]

omit [LinearOrder K] [IsStrictOrderedRing K] in
theorem sum_Icc_sub_one {f : ℤ → K} {a b : ℤ} (h : a - 1 ≤ b) : ∑ r ∈ Icc (a - 1) b, f r = f (a - 1) + ∑ r ∈ Icc a b, f r := by
  rw [← insert_Icc_left_eq_Icc_sub_one h, sum_insert (by simp)]

/-- One step: if `x` exceeds `y` by at most `d`, the squares differ by at most `2 x d`. -/
theorem sq_pos_step {a b d : K} (h : a - b ≤ d) : max a 0 ^ 2 ≤ 2 * (max a 0 * d) + max b 0 ^ 2 := by
  rcases le_total a 0 with ha | ha
  · rw [max_eq_right ha]; have := sq_nonneg (max b 0); linarith
  · rw [max_eq_left ha]
    rcases le_total b 0 with hb | hb
    · rw [max_eq_right hb]; nlinarith
    · rw [max_eq_left hb]; nlinarith [sq_nonneg (a - b)]

/-- One step: if `x` grows by at least `d ≥ 0` to `y`, the squares differ by at least `2 x d`. -/
theorem sq_pos_step_ge {a b d : K} (hd : 0 ≤ d) (h : a + d ≤ b) : 2 * (max a 0 * d) + max a 0 ^ 2 ≤ max b 0 ^ 2 := by
  rcases le_total a 0 with ha | ha
  · rw [max_eq_right ha]; have := sq_nonneg (max b 0); linarith
  · rw [max_eq_left ha, max_eq_left (by linarith)]
    nlinarith [sq_nonneg d]

theorem surplus_ge {q w : ℤ → K} {v G : K} {lo : ℤ} (hw : ∀ r, lo ≤ r → 0 ≤ w r) (hG : 0 ≤ G) {n : ℤ} (hn : lo ≤ n) :
    (∀ r, lo < r → r ≤ n → q r - q (r - 1) ≤ G * w r) →
    max (q n - v) 0 ^ 2 ≤ 2 * G * ∑ r ∈ Icc lo n, max (q r - v) 0 * w r + max (q lo - v) 0 ^ 2 := by
  induction n, hn using Int.leInduction with
  | base =>
    intro _
    have : 0 ≤ 2 * G * ∑ r ∈ Icc lo lo, max (q r - v) 0 * w r :=
      mul_nonneg (by linarith) (sum_nonneg fun r hr => mul_nonneg (le_max_right _ _) (hw r (mem_Icc.1 hr).1))
    linarith
  | succ n hn ih =>
    intro h
    have h0 := ih fun r h1 h2 => h r h1 (by omega)
    have h1 := h (n + 1) (by omega) le_rfl
    rw [sum_Icc_add_one (by omega)]
    have h2 := sq_pos_step (a := q (n + 1) - v) (b := q n - v) (d := G * w (n + 1)) (by
      rw [show n + 1 - 1 = n by ring] at h1; linarith)
    have : 2 * (max (q (n + 1) - v) 0 * (G * w (n + 1))) = 2 * G * (max (q (n + 1) - v) 0 * w (n + 1)) := by ring
    rw [mul_add]
    linarith

theorem deficit_ge {q w : ℤ → K} {v G : K} {hi : ℤ} (hw : ∀ r, r ≤ hi → 0 ≤ w r) (hG : 0 ≤ G) {n : ℤ} (hn : n ≤ hi) :
    (∀ r, n ≤ r → r < hi → q (r + 1) - q r ≤ G * w r) →
    max (v - q n) 0 ^ 2 ≤ 2 * G * ∑ r ∈ Icc n hi, max (v - q r) 0 * w r + max (v - q hi) 0 ^ 2 := by
  induction n, hn using Int.leInductionDown with
  | base =>
    intro _
    have : 0 ≤ 2 * G * ∑ r ∈ Icc hi hi, max (v - q r) 0 * w r :=
      mul_nonneg (by linarith) (sum_nonneg fun r hr => mul_nonneg (le_max_right _ _) (hw r (mem_Icc.1 hr).2))
    linarith
  | pred n hn ih =>
    intro h
    have h0 := ih fun r h1 h2 => h r (by omega) h2
    have h1 := h (n - 1) le_rfl (by omega)
    rw [sum_Icc_sub_one (by omega)]
    have h2 := sq_pos_step (a := v - q (n - 1)) (b := v - q n) (d := G * w (n - 1)) (by
      rw [show n - 1 + 1 = n by ring] at h1; linarith)
    have : 2 * (max (v - q (n - 1)) 0 * (G * w (n - 1))) = 2 * G * (max (v - q (n - 1)) 0 * w (n - 1)) := by ring
    rw [mul_add]
    linarith

theorem surplus_le {q P w : ℤ → K} {γ ε : K} {a : ℤ} (hγ : 0 ≤ γ) (hε : 0 ≤ ε) {n : ℤ} (hn : n ≤ a) :
    (∀ r, n ≤ r → r < a → 0 ≤ w r ∧ γ * w r ≤ P (r + 1) - P r ∧ q r - P r ≤ ε) →
    2 * γ * ∑ r ∈ Icc n (a - 1), max (q r - P a) 0 * w r + max (ε - (P a - P n)) 0 ^ 2 ≤ ε ^ 2 := by
  induction n, hn using Int.leInductionDown with
  | base =>
    intro _
    rw [Icc_eq_empty (by omega), sum_empty, sub_self, sub_zero, max_eq_left hε]
    linarith
  | pred n hn ih =>
    intro h
    have h0 := ih fun r h1 h2 => h r (by omega) h2
    obtain ⟨hw, hP, hq⟩ := h (n - 1) le_rfl (by omega)
    rw [sum_Icc_sub_one (by omega)]
    rw [show n - 1 + 1 = n by ring] at hP
    have h2 := sq_pos_step_ge (a := ε - (P a - P (n - 1))) (b := ε - (P a - P n)) (d := γ * w (n - 1)) (mul_nonneg hγ hw) (by linarith)
    have h3 : max (q (n - 1) - P a) 0 ≤ max (ε - (P a - P (n - 1))) 0 := max_le_max (by linarith) le_rfl
    have h4 := mul_le_mul_of_nonneg_right h3 (mul_nonneg hγ hw)
    have : 2 * (max (q (n - 1) - P a) 0 * (γ * w (n - 1))) = 2 * γ * (max (q (n - 1) - P a) 0 * w (n - 1)) := by ring
    rw [mul_add]
    linarith

theorem deficit_le {q P w : ℤ → K} {γ ε : K} {a : ℤ} (hγ : 0 ≤ γ) (hε : 0 ≤ ε) {n : ℤ} (hn : a ≤ n) :
    (∀ r, a < r → r ≤ n → 0 ≤ w r ∧ γ * w r ≤ P r - P (r - 1) ∧ P r - q r ≤ ε) →
    2 * γ * ∑ r ∈ Icc (a + 1) n, max (P a - q r) 0 * w r + max (ε - (P n - P a)) 0 ^ 2 ≤ ε ^ 2 := by
  induction n, hn using Int.leInduction with
  | base =>
    intro _
    rw [Icc_eq_empty (by omega), sum_empty, sub_self, sub_zero, max_eq_left hε]
    linarith
  | succ n hn ih =>
    intro h
    have h0 := ih fun r h1 h2 => h r h1 (by omega)
    obtain ⟨hw, hP, hq⟩ := h (n + 1) (by omega) le_rfl
    rw [sum_Icc_add_one (by omega)]
    rw [show n + 1 - 1 = n by ring] at hP
    have h2 := sq_pos_step_ge (a := ε - (P (n + 1) - P a)) (b := ε - (P n - P a)) (d := γ * w (n + 1)) (mul_nonneg hγ hw) (by linarith)
    have h3 : max (P a - q (n + 1)) 0 ≤ max (ε - (P (n + 1) - P a)) 0 := max_le_max (by linarith) le_rfl
    have h4 := mul_le_mul_of_nonneg_right h3 (mul_nonneg hγ hw)
    have : 2 * (max (P a - q (n + 1)) 0 * (γ * w (n + 1))) = 2 * γ * (max (P a - q (n + 1)) 0 * w (n + 1)) := by ring
    rw [mul_add]
    linarith

/-! ### Both parts together -/

omit [IsStrictOrderedRing K] in
theorem crossing_split {q w : ℤ → K} {v : K} {lo hi g : ℤ} (h1 : lo ≤ g) (h2 : g ≤ hi + 1) :
    crossing (Icc lo hi) w q (fun r => r < g) v =
      ∑ r ∈ Icc lo (g - 1), max (q r - v) 0 * w r + ∑ r ∈ Icc g hi, max (v - q r) 0 * w r := by
  have e : Icc lo hi = Icc lo (g - 1) ∪ Icc g hi := by ext x; simp only [mem_Icc, mem_union]; omega
  have d : Disjoint (Icc lo (g - 1)) (Icc g hi) := by
    rw [disjoint_left]; intro x; simp only [mem_Icc]; omega
  unfold crossing
  rw [e, sum_union d]
  congr 1
  · refine sum_congr rfl fun r hr => ?_
    rw [if_pos (by have := mem_Icc.1 hr; omega)]
  · refine sum_congr rfl fun r hr => ?_
    rw [if_neg (by have := mem_Icc.1 hr; omega)]

/-- Upper bound: anomalies up to `ε` about a profile with slope at least `γ` per unit of weight. The reference value is that of row
`a`, which may count on either side. -/
theorem crossing_le_sq {q P w : ℤ → K} {γ ε : K} {lo hi a g : ℤ} (hγ : 0 < γ) (ha : lo ≤ a ∧ a ≤ hi) (hg : g = a ∨ g = a + 1)
    (hw : ∀ r, lo ≤ r → r ≤ hi → 0 ≤ w r) (hq : ∀ r, lo ≤ r → r ≤ hi → |q r - P r| ≤ ε)
    (hP : ∀ r, lo ≤ r → r < hi → γ * w r ≤ P (r + 1) - P r ∧ γ * w (r + 1) ≤ P (r + 1) - P r) :
    crossing (Icc lo hi) w q (fun r => r < g) (P a) ≤ ε ^ 2 / γ + ε * w a := by
  have hε : 0 ≤ ε := (abs_nonneg _).trans (hq a ha.1 ha.2)
  have h1 := surplus_le (q := q) (P := P) (w := w) hγ.le hε ha.1 fun r h1 h2 =>
    ⟨hw r h1 (by omega), (hP r h1 (by omega)).1, (abs_le.1 (hq r h1 (by omega))).2⟩
  have h2 := deficit_le (q := q) (P := P) (w := w) hγ.le hε ha.2 fun r h1 h2 =>
    ⟨hw r (by omega) h2, by
      have := (hP (r - 1) (by omega) (by omega)).2
      rwa [sub_add_cancel] at this, by have := (abs_le.1 (hq r (by omega) h2)).1; linarith⟩
  have hwa := hw a ha.1 ha.2
  have hqa := abs_le.1 (hq a ha.1 ha.2)
  have key : crossing (Icc lo hi) w q (fun r => r < g) (P a) ≤
      ∑ r ∈ Icc lo (a - 1), max (q r - P a) 0 * w r + ∑ r ∈ Icc (a + 1) hi, max (P a - q r) 0 * w r + ε * w a := by
    rw [crossing_split (by omega) (by omega)]
    rcases hg with rfl | rfl
    · rw [← insert_Icc_add_one_left_eq_Icc ha.2, sum_insert (by simp)]
      have : max (P g - q g) 0 * w g ≤ ε * w g := mul_le_mul_of_nonneg_right (max_le (by linarith) hε) hwa
      linarith
    · rw [add_sub_cancel_right, ← insert_Icc_sub_one_right_eq_Icc ha.1, sum_insert (by simp)]
      have : max (q a - P a) 0 * w a ≤ ε * w a := mul_le_mul_of_nonneg_right (max_le (by linarith) hε) hwa
      linarith
  refine key.trans (add_le_add ?_ le_rfl)
  rw [le_div_iff₀ hγ]
  have s1 := sq_nonneg (max (ε - (P a - P lo)) 0)
  have s2 := sq_nonneg (max (ε - (P hi - P a)) 0)
  nlinarith

/-- Lower bounds: with slope of the field at most `G` per unit of weight. -/
theorem crossing_ge_sq {q w : ℤ → K} {v G : K} {lo hi g : ℤ} (hG : 0 ≤ G) (h1 : lo ≤ g) (h2 : g ≤ hi + 1)
    (hw : ∀ r, lo ≤ r → r ≤ hi → 0 ≤ w r)
    (hs : ∀ r, lo < r → r < g → q r - q (r - 1) ≤ G * w r) (hd : ∀ r, g ≤ r → r < hi → q (r + 1) - q r ≤ G * w r) :
    (∀ n, lo ≤ n → n < g → max (q n - v) 0 ^ 2 ≤
      2 * G * crossing (Icc lo hi) w q (fun r => r < g) v + max (q lo - v) 0 ^ 2) ∧
    (∀ n, g ≤ n → n ≤ hi → max (v - q n) 0 ^ 2 ≤
      2 * G * crossing (Icc lo hi) w q (fun r => r < g) v + max (v - q hi) 0 ^ 2) := by
  rw [crossing_split h1 h2]
  have p1 : 0 ≤ ∑ r ∈ Icc lo (g - 1), max (q r - v) 0 * w r := sum_nonneg fun r hr => by
    have := mem_Icc.1 hr
    exact mul_nonneg (le_max_right _ _) (hw r (by omega) (by omega))
  have p2 : 0 ≤ ∑ r ∈ Icc g hi, max (v - q r) 0 * w r := sum_nonneg fun r hr => by
    have := mem_Icc.1 hr
    exact mul_nonneg (le_max_right _ _) (hw r (by omega) (by omega))
  -- the weights outside the column do not matter
  set w' : ℤ → K := fun r => if lo ≤ r ∧ r ≤ hi then w r else 0 with hw'
  have w0 : ∀ r, 0 ≤ w' r := fun r => by
    by_cases h : lo ≤ r ∧ r ≤ hi
    · simp only [hw', if_pos h]; exact hw r h.1 h.2
    · simp only [hw', if_neg h]; exact le_rfl
  have we : ∀ r, lo ≤ r → r ≤ hi → w' r = w r := fun r a b => by simp only [hw', if_pos (And.intro a b)]
  constructor
  · intro n hn hng
    have := surplus_ge (q := q) (w := w') (v := v) (fun r _ => w0 r) hG hn fun r a b => by
      rw [we r (by omega) (by omega)]
      exact hs r a (by omega)
    have hs : ∑ r ∈ Icc lo n, max (q r - v) 0 * w' r ≤ ∑ r ∈ Icc lo (g - 1), max (q r - v) 0 * w r := by
      refine le_trans (sum_le_sum_of_subset_of_nonneg (Icc_subset_Icc le_rfl (by omega : n ≤ g - 1)) fun r _ _ =>
        mul_nonneg (le_max_right _ _) (w0 r)) (le_of_eq (sum_congr rfl fun r hr => ?_))
      have := mem_Icc.1 hr
      rw [we r (by omega) (by omega)]
    nlinarith
  · intro n hn hng
    have := deficit_ge (q := q) (w := w') (v := v) (fun r _ => w0 r) hG hng fun r a b => by
      rw [we r (by omega) (by omega)]
      exact hd r (by omega) b
    have hs : ∑ r ∈ Icc n hi, max (v - q r) 0 * w' r ≤ ∑ r ∈ Icc g hi, max (v - q r) 0 * w r := by
      refine le_trans (sum_le_sum_of_subset_of_nonneg (Icc_subset_Icc hn le_rfl) fun r _ _ =>
        mul_nonneg (le_max_right _ _) (w0 r)) (le_of_eq (sum_congr rfl fun r hr => ?_))
      have := mem_Icc.1 hr
      rw [we r (by omega) (by omega)]
    nlinarith

end Falwa
