import Verif.Model.Fortran
import Mathlib.Tactic.Ring
import Mathlib.Tactic.Linarith
import Mathlib.Tactic.LinearCombination
import Mathlib.Tactic.SplitIfs
import Mathlib.Algebra.BigOperators.Group.Finset.Basic
import Mathlib.Order.Interval.Finset.Nat
import Mathlib.Data.Int.Interval

/-! Lemmas about Fortran loops and arrays. -/

namespace Falwa

variable {σ α : Type*}

theorem doLoop_empty {lo hi : ℤ} (h : hi < lo) (f : ℤ → σ → σ) (s : σ) : doLoop lo hi f s = s := by
  unfold doLoop
  rw [show (hi + 1 - lo).toNat = 0 by omega]
  rfl

theorem doLoop_succ {lo hi : ℤ} (h : lo ≤ hi + 1) (f : ℤ → σ → σ) (s : σ) :
    doLoop lo (hi + 1) f s = f (hi + 1) (doLoop lo hi f s) := by
  unfold doLoop
  rw [show (hi + 1 + 1 - lo).toNat = (hi + 1 - lo).toNat + 1 by omega, List.range_succ, List.foldl_append]
  simp only [List.foldl_cons, List.foldl_nil]
  congr 1
  omega

/-- Induction over the last index of a loop. -/
theorem doLoop_induct {lo : ℤ} {f : ℤ → σ → σ} {s : σ} (P : ℤ → σ → Prop) (h0 : P (lo - 1) s)
    (hs : ∀ i t, lo ≤ i → P (i - 1) t → P i (f i t)) (hi : ℤ) (hle : lo - 1 ≤ hi) : P hi (doLoop lo hi f s) := by
  obtain ⟨n, rfl⟩ : ∃ n : ℕ, hi = lo - 1 + n := ⟨(hi - (lo - 1)).toNat, by omega⟩
  induction n with
  | zero =>
    rw [doLoop_empty (by push_cast; omega)]
    simpa using h0
  | succ n ih =>
    have e : (lo - 1 + ((n + 1 : ℕ) : ℤ)) = (lo - 1 + (n : ℤ)) + 1 := by push_cast; ring
    rw [e, doLoop_succ (by omega)]
    apply hs _ _ (by omega)
    rw [show lo - 1 + (n : ℤ) + 1 - 1 = lo - 1 + n by ring]
    exact ih (by omega)

/-- Invariant of a loop. -/
theorem doLoop_inv {lo hi : ℤ} {f : ℤ → σ → σ} {s : σ} (P : σ → Prop) (h0 : P s)
    (hs : ∀ i t, lo ≤ i → i ≤ hi → P t → P (f i t)) : P (doLoop lo hi f s) := by
  unfold doLoop
  have : ∀ n : ℕ, (n : ℤ) ≤ (hi + 1 - lo).toNat → P ((List.range n).foldl (fun s (t : ℕ) => f (lo + t) s) s) := by
    intro n
    induction n with
    | zero => intro _; exact h0
    | succ n ih =>
      intro hn
      rw [List.range_succ, List.foldl_append]
      exact hs _ _ (by omega) (by omega) (ih (by omega))
  exact this _ le_rfl

/-- Two loops with bodies that agree on the range. -/
theorem doLoop_congr {lo hi : ℤ} {f g : ℤ → σ → σ} (s : σ) (h : ∀ i t, lo ≤ i → i ≤ hi → f i t = g i t) :
    doLoop lo hi f s = doLoop lo hi g s := by
  unfold doLoop
  have : ∀ n : ℕ, (n : ℤ) ≤ (hi + 1 - lo).toNat →
      (List.range n).foldl (fun s (t : ℕ) => f (lo + t) s) s = (List.range n).foldl (fun s (t : ℕ) => g (lo + t) s) s := by
    intro n
    induction n with
    | zero => intro _; rfl
    | succ n ih =>
      intro hn
      rw [List.range_succ, List.foldl_append, List.foldl_append, ih (by omega)]
      exact h _ _ (by omega) (by omega)
  exact this _ le_rfl

/-- A loop in which only iteration `i₀` changes the observation `g`, to a value that does not depend on the state. -/
theorem doLoop_write {lo hi : ℤ} {f : ℤ → σ → σ} (g : σ → α) (i₀ : ℤ) (v : α)
    (hf : ∀ i t, lo ≤ i → i ≤ hi → g (f i t) = if i = i₀ then v else g t) (s : σ) :
    g (doLoop lo hi f s) = if lo ≤ i₀ ∧ i₀ ≤ hi then v else g s := by
  by_cases hlh : hi < lo
  · rw [doLoop_empty hlh, if_neg (by omega)]
  have key : ∀ n : ℕ, (n : ℤ) ≤ hi + 1 - lo →
      g (doLoop lo (lo - 1 + n) f s) = if lo ≤ i₀ ∧ i₀ ≤ lo - 1 + n then v else g s := by
    intro n
    induction n with
    | zero => intro _; rw [doLoop_empty (by push_cast; omega), if_neg (by push_cast; omega)]
    | succ n ih =>
      intro hn
      have e : (lo - 1 + ((n + 1 : ℕ) : ℤ)) = (lo - 1 + (n : ℤ)) + 1 := by push_cast; ring
      rw [e, doLoop_succ (by omega), hf _ _ (by omega) (by push_cast at hn; omega), ih (by push_cast at hn; omega)]
      by_cases h1 : lo - 1 + (n : ℤ) + 1 = i₀
      · rw [if_pos h1, if_pos (by omega)]
      · rw [if_neg h1]
        by_cases h2 : lo ≤ i₀ ∧ i₀ ≤ lo - 1 + n
        · rw [if_pos h2, if_pos (by omega)]
        · rw [if_neg h2, if_neg (by omega)]
  have := key (hi + 1 - lo).toNat (by omega)
  rw [show lo - 1 + ((hi + 1 - lo).toNat : ℤ) = hi by omega] at this
  exact this

/-- A loop that never changes the observation `g`. -/
theorem doLoop_keep {lo hi : ℤ} {f : ℤ → σ → σ} (g : σ → α) (hf : ∀ i t, lo ≤ i → i ≤ hi → g (f i t) = g t) (s : σ) :
    g (doLoop lo hi f s) = g s :=
  doLoop_inv (fun t => g t = g s) rfl fun i t h1 h2 h3 => (hf i t h1 h2).trans h3

/-- An accumulating loop is a sum. -/
theorem doLoop_sum {lo hi : ℤ} {f : ℤ → σ → σ} (g : σ → ℝ) (v : ℤ → ℝ)
    (hf : ∀ i t, lo ≤ i → i ≤ hi → g (f i t) = g t + v i) (s : σ) :
    g (doLoop lo hi f s) = g s + ∑ i ∈ Finset.Icc lo hi, v i := by
  by_cases hlh : hi < lo
  · rw [doLoop_empty hlh, Finset.Icc_eq_empty (by omega), Finset.sum_empty, add_zero]
  have key : ∀ n : ℕ, (n : ℤ) ≤ hi + 1 - lo →
      g (doLoop lo (lo - 1 + n) f s) = g s + ∑ i ∈ Finset.Icc lo (lo - 1 + n), v i := by
    intro n
    induction n with
    | zero =>
      intro _
      rw [doLoop_empty (by push_cast; omega), Finset.Icc_eq_empty (by push_cast; omega), Finset.sum_empty, add_zero]
    | succ n ih =>
      intro hn
      have e : (lo - 1 + ((n + 1 : ℕ) : ℤ)) = (lo - 1 + (n : ℤ)) + 1 := by push_cast; ring
      rw [e, doLoop_succ (by omega), hf _ _ (by omega) (by push_cast at hn; omega), ih (by push_cast at hn; omega)]
      have hI : Finset.Icc lo (lo - 1 + (n : ℤ) + 1) = insert (lo - 1 + (n : ℤ) + 1) (Finset.Icc lo (lo - 1 + n)) := by
        ext x; simp only [Finset.mem_Icc, Finset.mem_insert]; omega
      rw [hI, Finset.sum_insert (by simp), add_assoc, add_comm (v _)]
  have := key (hi + 1 - lo).toNat (by omega)
  rw [show lo - 1 + ((hi + 1 - lo).toNat : ℤ) = hi by omega] at this
  exact this

theorem dosum_eq (lo hi : ℤ) (f : ℤ → ℝ) : dosum lo hi f = ∑ i ∈ Finset.Icc lo hi, f i := by
  unfold dosum
  rw [doLoop_sum (fun t => t) f (fun _ _ _ _ => rfl), zero_add]

theorem wrapJ_of_mem {n j : ℤ} (h1 : 1 ≤ j) (h2 : j ≤ n) : wrapJ n j = j := by
  unfold wrapJ
  rw [Int.emod_eq_of_lt (by omega) (by omega)]; ring

theorem wrapK_of_mem {n j k : ℤ} (h1 : 1 ≤ j) (h2 : j ≤ n) : wrapK n j k = k := by
  unfold wrapK
  rw [Int.ediv_eq_zero_of_lt (by omega) (by omega)]; ring

theorem wrapJ_zero {n : ℤ} (h : 1 ≤ n) : wrapJ n 0 = n := by
  unfold wrapJ
  rw [show (0 - 1 : ℤ) = (n - 1) + n * (-1) by ring, Int.add_mul_emod_self_left, Int.emod_eq_of_lt (by omega) (by omega)]
  ring

theorem wrapK_zero {n k : ℤ} (h : 1 ≤ n) : wrapK n 0 k = k - 1 := by
  unfold wrapK
  rw [show (0 - 1 : ℤ) = (n - 1) + n * (-1) by ring, Int.add_mul_ediv_left _ _ (by omega),
    Int.ediv_eq_zero_of_lt (by omega) (by omega)]
  ring

/-- `wrapJ`, `wrapK` name the element with the same address, inside the declared rows. -/
theorem addr3_wrap (m n i j k : ℤ) (hn : 0 < n) :
    addr3 m n i (wrapJ n j) (wrapK n j k) = addr3 m n i j k ∧ 1 ≤ wrapJ n j ∧ wrapJ n j ≤ n := by
  have h := Int.emod_add_mul_ediv (j - 1) n
  have h1 := Int.emod_nonneg (j - 1) (by omega : n ≠ 0)
  have h2 := Int.emod_lt_of_pos (j - 1) hn
  refine ⟨?_, by unfold wrapJ; omega, by unfold wrapJ; omega⟩
  unfold addr3 wrapJ wrapK
  linear_combination m * h

/-- Different elements inside the declared shape have different addresses. -/
theorem addr3_inj {m n i j k i' j' k' : ℤ} (hi : 1 ≤ i ∧ i ≤ m) (hi' : 1 ≤ i' ∧ i' ≤ m) (hj : 1 ≤ j ∧ j ≤ n)
    (hj' : 1 ≤ j' ∧ j' ≤ n) (h : addr3 m n i j k = addr3 m n i' j' k') : i = i' ∧ j = j' ∧ k = k' := by
  unfold addr3 at h
  have d : ∀ {m x y : ℤ}, 0 ≤ x → x < m → (x + m * y) / m = y := by
    intro m x y h1 h2
    rw [Int.add_mul_ediv_left _ _ (by omega), Int.ediv_eq_zero_of_lt h1 h2, zero_add]
  have a : (j - 1) + n * (k - 1) = (j' - 1) + n * (k' - 1) := by
    rw [← d (m := m) (by omega : 0 ≤ i - 1) (by omega : i - 1 < m) (y := (j - 1) + n * (k - 1)), h,
      d (by omega) (by omega)]
  have b : k - 1 = k' - 1 := by
    rw [← d (m := n) (by omega : 0 ≤ j - 1) (by omega : j - 1 < n) (y := k - 1), a, d (by omega) (by omega)]
  have hk : k = k' := by omega
  subst hk
  have hj : j = j' := by omega
  subst hj
  exact ⟨by omega, rfl, rfl⟩

theorem rd3_of_mem {n : ℤ} {A : ℤ → ℤ → ℤ → ℝ} {i j k : ℤ} (h1 : 1 ≤ j) (h2 : j ≤ n) : rd3 n A i j k = A i j k := by
  unfold rd3; rw [wrapJ_of_mem h1 h2, wrapK_of_mem h1 h2]

theorem rd2_of_mem {n : ℤ} {A : ℤ → ℤ → ℝ} {j k : ℤ} (h1 : 1 ≤ j) (h2 : j ≤ n) : rd2 n A j k = A j k := by
  unfold rd2; rw [wrapJ_of_mem h1 h2, wrapK_of_mem h1 h2]

theorem wr3_of_mem {n : ℤ} {A : ℤ → ℤ → ℤ → ℝ} {i j k : ℤ} {v : ℝ} (h1 : 1 ≤ j) (h2 : j ≤ n) (i' j' k' : ℤ) :
    wr3 n A i j k v i' j' k' = if i' = i ∧ j' = j ∧ k' = k then v else A i' j' k' := by
  unfold wr3; rw [wrapJ_of_mem h1 h2, wrapK_of_mem h1 h2]

/-- Last step of a downward loop. -/
theorem doDown_last {lo hi : ℤ} (h : lo ≤ hi) (f : ℤ → σ → σ) (s : σ) :
    doDown hi lo f s = f lo (doDown hi (lo + 1) f s) := by
  unfold doDown
  rw [show (hi + 1 - lo).toNat = (hi + 1 - (lo + 1)).toNat + 1 by omega, List.range_succ, List.foldl_append]
  simp only [List.foldl_cons, List.foldl_nil]
  congr 1
  omega

theorem doDown_empty {lo hi : ℤ} (h : hi < lo) (f : ℤ → σ → σ) (s : σ) : doDown hi lo f s = s := by
  unfold doDown
  rw [show (hi + 1 - lo).toNat = 0 by omega]
  rfl

/-- Downward induction. -/
theorem doDown_induct {hi : ℤ} {f : ℤ → σ → σ} {s : σ} (P : ℤ → σ → Prop) (h0 : P (hi + 1) s)
    (hs : ∀ i t, i ≤ hi → P (i + 1) t → P i (f i t)) (lo : ℤ) (hle : lo ≤ hi + 1) : P lo (doDown hi lo f s) := by
  obtain ⟨n, rfl⟩ : ∃ n : ℕ, lo = hi + 1 - n := ⟨(hi + 1 - lo).toNat, by omega⟩
  induction n with
  | zero =>
    rw [doDown_empty (by push_cast; omega)]
    simpa using h0
  | succ n ih =>
    rw [doDown_last (by push_cast; omega)]
    apply hs _ _ (by push_cast; omega)
    rw [show hi + 1 - ((n + 1 : ℕ) : ℤ) + 1 = hi + 1 - n by push_cast; ring]
    exact ih (by omega)

/-- A downward loop that agrees on the range. -/
theorem doDown_congr {lo hi : ℤ} {f g : ℤ → σ → σ} (s : σ) (h : ∀ i t, lo ≤ i → i ≤ hi → f i t = g i t) :
    doDown hi lo f s = doDown hi lo g s := by
  have key : ∀ lo', lo' ≤ hi + 1 → lo ≤ lo' → doDown hi lo' f s = doDown hi lo' g s := by
    intro lo' hle
    refine doDown_induct (f := f) (s := s) (fun l t => lo ≤ l → t = doDown hi l g s) ?_ ?_ lo' hle
    · intro _; rw [doDown_empty (by omega)]
    · intro i t hi' ih hl
      rw [doDown_last hi', ← ih (by omega), h i t hl hi']
  by_cases hlo : lo ≤ hi + 1
  · exact key lo hlo le_rfl
  · rw [doDown_empty (by omega), doDown_empty (by omega)]

end Falwa
