import Mathlib.Algebra.BigOperators.Ring.Finset
import Mathlib.Algebra.Order.BigOperators.Group.Finset
import Mathlib.Algebra.Order.Field.Basic
import Mathlib.Data.Finset.Max
import Mathlib.Tactic.Linarith
import Mathlib.Tactic.Ring

/-!
# Sums of positive parts as functions of the contour value

`crossing s w q B v` adds `q - v` over the items in `B` that exceed `v` and `v - q` over the others that are below `v`.
-/

namespace Falwa

open Finset

variable {K : Type*} [Field K] [LinearOrder K] [IsStrictOrderedRing K] {ι : Type*}

/-- Weighted amount by which items are on the wrong side of `v`; items in `B` should be below. -/
def crossing (s : Finset ι) (w q : ι → K) (B : ι → Prop) [DecidablePred B] (v : K) : K :=
  ∑ n ∈ s, (if B n then max (q n - v) 0 else max (v - q n) 0) * w n

variable {s : Finset ι} {w q : ι → K} {B : ι → Prop} [DecidablePred B] {v c : K}

/-- Growth to the right: at least the weight up to `v` minus the weight in `B`. -/
theorem crossing_right (hw : ∀ n ∈ s, 0 ≤ w n) (h : v ≤ c) :
    (c - v) * (∑ n ∈ s, (if q n ≤ v then w n else 0) - ∑ n ∈ s, if B n then w n else 0) ≤
      crossing s w q B c - crossing s w q B v := by
  unfold crossing
  rw [← sum_sub_distrib, ← sum_sub_distrib, mul_sum]
  refine sum_le_sum fun n hn => ?_
  have hwn := hw n hn
  rw [← sub_mul]
  by_cases hB : B n <;> by_cases hq : q n ≤ v
  · simp only [if_pos hB, if_pos hq]
    rw [max_eq_right (by linarith), max_eq_right (by linarith)]; simp
  · simp only [if_pos hB, if_neg hq]
    push Not at hq
    rw [max_eq_left (a := q n - v) (by linarith)]
    have := mul_le_mul_of_nonneg_right (show v - c ≤ max (q n - c) 0 - (q n - v) by linarith [le_max_left (q n - c) 0]) hwn
    linarith
  · simp only [if_neg hB, if_pos hq]
    rw [max_eq_left (by linarith), max_eq_left (by linarith)]
    exact le_of_eq (by ring)
  · simp only [if_neg hB, if_neg hq]
    push Not at hq
    rw [max_eq_right (a := v - q n) (by linarith)]
    have := mul_nonneg (le_max_right (c - q n) 0) hwn
    linarith

/-- Growth to the left: at least the weight in `B` minus the weight below `v`. -/
theorem crossing_left (hw : ∀ n ∈ s, 0 ≤ w n) (h : c ≤ v) :
    (v - c) * (∑ n ∈ s, (if B n then w n else 0) - ∑ n ∈ s, if q n < v then w n else 0) ≤
      crossing s w q B c - crossing s w q B v := by
  unfold crossing
  rw [← sum_sub_distrib, ← sum_sub_distrib, mul_sum]
  refine sum_le_sum fun n hn => ?_
  have hwn := hw n hn
  rw [← sub_mul]
  by_cases hB : B n <;> by_cases hq : q n < v
  · simp only [if_pos hB, if_pos hq]
    rw [max_eq_right (a := q n - v) (by linarith)]
    have := mul_nonneg (le_max_right (q n - c) 0) hwn
    linarith
  · simp only [if_pos hB, if_neg hq]
    push Not at hq
    rw [max_eq_left (by linarith), max_eq_left (by linarith)]
    exact le_of_eq (by ring)
  · simp only [if_neg hB, if_pos hq]
    rw [max_eq_left (a := v - q n) (by linarith)]
    have := mul_le_mul_of_nonneg_right (show c - v ≤ max (c - q n) 0 - (v - q n) by linarith [le_max_left (c - q n) 0]) hwn
    linarith
  · simp only [if_neg hB, if_neg hq]
    push Not at hq
    rw [max_eq_right (by linarith), max_eq_right (by linarith)]; simp

/-- Up to the next larger value the growth is exactly that. -/
theorem crossing_right_eq (s : Finset ι) (w q : ι → K) (B : ι → Prop) [DecidablePred B] (v : K) :
    ∃ c, v < c ∧ crossing s w q B c - crossing s w q B v =
      (c - v) * (∑ n ∈ s, (if q n ≤ v then w n else 0) - ∑ n ∈ s, if B n then w n else 0) := by
  obtain ⟨c, hc, hn⟩ : ∃ c, v < c ∧ ∀ n ∈ s, v < q n → c ≤ q n := by
    by_cases he : ((s.filter fun n => v < q n).image q).Nonempty
    · refine ⟨((s.filter fun n => v < q n).image q).min' he, ?_,
        fun n hn h => min'_le _ _ (mem_image_of_mem q (mem_filter.2 ⟨hn, h⟩))⟩
      obtain ⟨n, hn, e⟩ := mem_image.1 (min'_mem _ he)
      rw [← e]
      exact (mem_filter.1 hn).2
    · refine ⟨v + 1, by linarith, fun n hn h => absurd ⟨q n, mem_image_of_mem q (mem_filter.2 ⟨hn, h⟩)⟩ he⟩
  refine ⟨c, hc, ?_⟩
  unfold crossing
  rw [← sum_sub_distrib, ← sum_sub_distrib, mul_sum]
  refine sum_congr rfl fun n h => ?_
  rw [← sub_mul]
  by_cases hB : B n <;> by_cases hq : q n ≤ v
  · simp only [if_pos hB, if_pos hq]
    rw [max_eq_right (by linarith), max_eq_right (by linarith)]; simp
  · simp only [if_pos hB, if_neg hq]
    push Not at hq
    have := hn n h hq
    rw [max_eq_left (by linarith), max_eq_left (by linarith)]; ring
  · simp only [if_neg hB, if_pos hq]
    rw [max_eq_left (by linarith), max_eq_left (by linarith)]; ring
  · simp only [if_neg hB, if_neg hq]
    push Not at hq
    have := hn n h hq
    rw [max_eq_right (by linarith), max_eq_right (by linarith)]; simp

/-- Down to the next smaller value the growth is exactly that. -/
theorem crossing_left_eq (s : Finset ι) (w q : ι → K) (B : ι → Prop) [DecidablePred B] (v : K) :
    ∃ c, c < v ∧ crossing s w q B c - crossing s w q B v =
      (v - c) * (∑ n ∈ s, (if B n then w n else 0) - ∑ n ∈ s, if q n < v then w n else 0) := by
  obtain ⟨c, hc, hn⟩ : ∃ c, c < v ∧ ∀ n ∈ s, q n < v → q n ≤ c := by
    by_cases he : ((s.filter fun n => q n < v).image q).Nonempty
    · refine ⟨((s.filter fun n => q n < v).image q).max' he, ?_,
        fun n hn h => le_max' _ _ (mem_image_of_mem q (mem_filter.2 ⟨hn, h⟩))⟩
      obtain ⟨n, hn, e⟩ := mem_image.1 (max'_mem _ he)
      rw [← e]
      exact (mem_filter.1 hn).2
    · refine ⟨v - 1, by linarith, fun n hn h => absurd ⟨q n, mem_image_of_mem q (mem_filter.2 ⟨hn, h⟩)⟩ he⟩
  refine ⟨c, hc, ?_⟩
  unfold crossing
  rw [← sum_sub_distrib, ← sum_sub_distrib, mul_sum]
  refine sum_congr rfl fun n h => ?_
  rw [← sub_mul]
  by_cases hB : B n <;> by_cases hq : q n < v
  · simp only [if_pos hB, if_pos hq]
    have := hn n h hq
    rw [max_eq_right (by linarith), max_eq_right (by linarith)]; simp
  · simp only [if_pos hB, if_neg hq]
    push Not at hq
    rw [max_eq_left (by linarith), max_eq_left (by linarith)]; ring
  · simp only [if_neg hB, if_pos hq]
    have := hn n h hq
    rw [max_eq_left (by linarith), max_eq_left (by linarith)]; ring
  · simp only [if_neg hB, if_neg hq]
    push Not at hq
    rw [max_eq_right (by linarith), max_eq_right (by linarith)]; simp

/-- `v` is a minimum exactly if the weight below it is at most the weight in `B`, and that at most the weight up to `v`. -/
theorem crossing_min_iff (hw : ∀ n ∈ s, 0 ≤ w n) :
    (∀ c, crossing s w q B v ≤ crossing s w q B c) ↔
      ∑ n ∈ s, (if q n < v then w n else 0) ≤ ∑ n ∈ s, (if B n then w n else 0) ∧
      ∑ n ∈ s, (if B n then w n else 0) ≤ ∑ n ∈ s, if q n ≤ v then w n else 0 := by
  constructor
  · intro h
    obtain ⟨c, hc, e⟩ := crossing_left_eq s w q B v
    obtain ⟨d, hd, f⟩ := crossing_right_eq s w q B v
    have h1 := h c
    have h2 := h d
    constructor
    · by_contra hlt
      push Not at hlt
      have := mul_pos (sub_pos.2 hc) (sub_pos.2 hlt)
      linarith
    · by_contra hlt
      push Not at hlt
      have := mul_pos (sub_pos.2 hd) (sub_pos.2 hlt)
      linarith
  · rintro ⟨h1, h2⟩ c
    rcases le_total v c with h | h
    · have := crossing_right (q := q) (B := B) hw h
      have := mul_nonneg (sub_nonneg.2 h) (sub_nonneg.2 h2)
      linarith
    · have := crossing_left (q := q) (B := B) hw h
      have := mul_nonneg (sub_nonneg.2 h) (sub_nonneg.2 h1)
      linarith

/-- If the weights match up to `e`, the excess over another value is at most `e` times the distance. -/
theorem crossing_near (hw : ∀ n ∈ s, 0 ≤ w n) {e : K}
    (h1 : ∑ n ∈ s, (if q n < v then w n else 0) ≤ ∑ n ∈ s, (if B n then w n else 0) + e)
    (h2 : ∑ n ∈ s, (if B n then w n else 0) - e ≤ ∑ n ∈ s, if q n ≤ v then w n else 0) (c : K) :
    crossing s w q B v ≤ crossing s w q B c + e * |c - v| := by
  rcases le_total v c with h | h
  · have := crossing_right (q := q) (B := B) hw h
    have := mul_le_mul_of_nonneg_left (show -e ≤ ∑ n ∈ s, (if q n ≤ v then w n else 0) - ∑ n ∈ s, (if B n then w n else 0)
      by linarith) (sub_nonneg.2 h)
    rw [abs_of_nonneg (sub_nonneg.2 h)]
    linarith
  · have := crossing_left (q := q) (B := B) hw h
    have := mul_le_mul_of_nonneg_left (show -e ≤ ∑ n ∈ s, (if B n then w n else 0) - ∑ n ∈ s, (if q n < v then w n else 0)
      by linarith) (sub_nonneg.2 h)
    rw [abs_sub_comm, abs_of_nonneg (sub_nonneg.2 h)]
    linarith

/-- Another value changes the sum by at most the total weight times the distance. -/
theorem crossing_lipschitz (hw : ∀ n ∈ s, 0 ≤ w n) (v c : K) :
    crossing s w q B v ≤ crossing s w q B c + |v - c| * ∑ n ∈ s, w n := by
  unfold crossing
  rw [mul_sum, ← sum_add_distrib]
  refine sum_le_sum fun n hn => ?_
  rw [← add_mul]
  refine mul_le_mul_of_nonneg_right ?_ (hw n hn)
  have h1 := le_abs_self (v - c)
  have h2 := neg_abs_le (v - c)
  have h0 := abs_nonneg (v - c)
  split_ifs
  · refine max_le ?_ (add_nonneg (le_max_right _ _) h0)
    linarith [le_max_left (q n - c) 0]
  · refine max_le ?_ (add_nonneg (le_max_right _ _) h0)
    linarith [le_max_left (c - q n) 0]

/-- Outside the range of the items nothing is gained. -/
theorem crossing_clip (hw : ∀ n ∈ s, 0 ≤ w n) {lo hi : K} (hr : ∀ n ∈ s, lo ≤ q n ∧ q n ≤ hi) (hlh : lo ≤ hi) (c : K) :
    ∃ d, lo ≤ d ∧ d ≤ hi ∧ crossing s w q B d ≤ crossing s w q B c := by
  have hB : ∑ n ∈ s, (if B n then w n else 0) ≤ ∑ n ∈ s, w n := sum_le_sum fun n hn => by
    split_ifs
    · exact le_rfl
    · exact hw n hn
  have hB0 : 0 ≤ ∑ n ∈ s, (if B n then w n else 0) := sum_nonneg fun n hn => by
    split_ifs
    · exact hw n hn
    · exact le_rfl
  rcases lt_or_ge c lo with h | h
  · refine ⟨lo, le_rfl, hlh, ?_⟩
    have h1 := crossing_left (q := q) (B := B) hw h.le
    have h2 : ∑ n ∈ s, (if q n < lo then w n else 0) = 0 := sum_eq_zero fun n hn => if_neg (not_lt.2 (hr n hn).1)
    rw [h2, sub_zero] at h1
    have := mul_nonneg (sub_nonneg.2 h.le) hB0
    linarith
  · rcases lt_or_ge hi c with h' | h'
    · refine ⟨hi, hlh, le_rfl, ?_⟩
      have h1 := crossing_right (q := q) (B := B) hw h'.le
      have h2 : ∑ n ∈ s, (if q n ≤ hi then w n else 0) = ∑ n ∈ s, w n := sum_congr rfl fun n hn => if_pos (hr n hn).2
      rw [h2] at h1
      have := mul_nonneg (sub_nonneg.2 h'.le) (sub_nonneg.2 hB)
      linarith
    · exact ⟨c, h, h', le_rfl⟩

end Falwa
