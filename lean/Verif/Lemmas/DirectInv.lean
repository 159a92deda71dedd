import Verif.Model.DirectInv
import Verif.Lemmas.Fortran
import Mathlib.Algebra.BigOperators.Ring.Finset
import Mathlib.Algebra.Order.BigOperators.Group.Finset
import Mathlib.Data.Finset.Max

/-! Lemmas about the direct solver. -/

noncomputable section

namespace Falwa.NhnIn

open Real Finset

variable {I : NhnIn}

/-- Row range of the matrices. -/
def R (I : NhnIn) : Finset ℤ := Icc 1 I.n

theorem mem_R {i : ℤ} : i ∈ I.R ↔ 1 ≤ i ∧ i ≤ I.n := by unfold R; rw [mem_Icc]

theorem downTo_step {k : ℤ} (hk : k ≤ I.kmax - 1) : I.downTo k = I.levelStep k (I.downTo (k + 1)) := doDown_last hk _ _

theorem downTo_top : I.downTo I.kmax = I.topState := doDown_empty (by omega) _ _

/-- The element at level `k'` is final once the sweep has treated level `k' + 1`. -/
theorem downTo_keep {k' : ℤ} (hk' : k' ≤ I.kmax - 1) (d : ℕ) :
    (∀ i m, (I.downTo (k' + 1 - d)).s i m k' = (I.downTo (k' + 1)).s i m k') ∧
    (∀ i, (I.downTo (k' + 1 - d)).t i k' = (I.downTo (k' + 1)).t i k') := by
  induction d with
  | zero => simp
  | succ d ih =>
    have e : k' + 1 - ((d + 1 : ℕ) : ℤ) = k' - d := by push_cast; ring
    rw [e, downTo_step (by omega), show k' - (d : ℤ) + 1 = k' + 1 - d by ring]
    refine ⟨fun i m => ?_, fun i => ?_⟩
    · show (if k' = k' - (d : ℤ) - 1 then _ else _) = _
      rw [if_neg (by omega)]
      exact ih.1 i m
    · show (if k' = k' - (d : ℤ) - 1 then _ else _) = _
      rw [if_neg (by omega)]
      exact ih.2 i

theorem final_eq {k' : ℤ} (h1 : 1 ≤ k') (hk' : k' ≤ I.kmax - 1) :
    (∀ i m, I.final.s i m k' = (I.downTo (k' + 1)).s i m k') ∧ (∀ i, I.final.t i k' = (I.downTo (k' + 1)).t i k') := by
  have := downTo_keep (I := I) hk' (k' - 1).toNat
  rw [show k' + 1 - ((k' - 1).toNat : ℤ) = 2 by omega] at this
  exact this

/-- `S` and `T` below level `k`, in terms of those at level `k`. -/
theorem final_below {k : ℤ} (h2 : 2 ≤ k) (hk : k ≤ I.kmax - 1) :
    (∀ i m, I.final.s i m (k - 1) = -∑ l ∈ I.R, I.inv (I.qjj k (I.downTo (k + 1))) i l * I.djj k l m) ∧
    (∀ i, I.final.t i (k - 1) = ∑ l ∈ I.R, I.inv (I.qjj k (I.downTo (k + 1))) i l *
      (I.rj k l - ∑ kk ∈ I.R, I.cjj k l kk * I.final.t kk k)) := by
  obtain ⟨a, b⟩ := final_eq (I := I) (k' := k - 1) (by omega) (by omega)
  obtain ⟨_, d⟩ := final_eq (I := I) (k' := k) (by omega) (by omega)
  rw [show k - 1 + 1 = k by ring] at a b
  refine ⟨fun i m => ?_, fun i => ?_⟩
  · rw [a, downTo_step hk]
    show (if k - 1 = k - 1 then _ else _) = _
    rw [if_pos rfl, dosum_eq]
    rfl
  · rw [b, downTo_step hk]
    show (if k - 1 = k - 1 then _ else _) = _
    rw [if_pos rfl, dosum_eq]
    refine sum_congr rfl fun l _ => ?_
    beta_reduce
    rw [dosum_eq]
    simp only [d]
    rfl

theorem pjk_spec (hk : 2 ≤ I.kmax) :
    (∀ i, I.pjk i 1 = 0) ∧
    ∀ k, 1 ≤ k → k ≤ I.kmax - 1 → ∀ i, I.pjk i (k + 1) = ∑ l ∈ I.R, I.final.s i l k * I.pjk l k + I.final.t i k := by
  have := doLoop_induct (lo := 1) (s := fun (_ _ : ℤ) => (0 : ℝ))
    (f := fun k p => fun i k' =>
      if k' = k + 1 then dosum 1 I.n (fun kk => I.final.s i kk k * p kk k) + I.final.t i k else p i k')
    (fun b p => (∀ i, p i 1 = 0) ∧ ∀ k, 1 ≤ k → k ≤ b → ∀ i, p i (k + 1) =
      ∑ l ∈ I.R, I.final.s i l k * p l k + I.final.t i k)
    ⟨fun _ => rfl, fun k h1 h2 => by omega⟩ (by
      rintro b p hb ⟨h1, h2⟩
      refine ⟨fun i => ?_, fun k k1 k2 i => ?_⟩
      · show (if (1 : ℤ) = b + 1 then _ else p i 1) = 0
        rw [if_neg (by omega), h1]
      · show (if k + 1 = b + 1 then dosum 1 I.n (fun kk => I.final.s i kk b * p kk b) + I.final.t i b else p i (k + 1)) =
          ∑ l ∈ I.R, I.final.s i l k * (if k = b + 1 then _ else p l k) + I.final.t i k
        simp only [if_neg (by omega : ¬ k = b + 1)]
        by_cases hkb : k = b
        · subst hkb
          rw [if_pos rfl, dosum_eq]
          rfl
        · rw [if_neg (by omega), h2 k k1 (by omega)]) (I.kmax - 1) (by omega)
  exact this

/-- `inv` inverts the matrix of every level of the sweep. -/
def ExactInv (I : NhnIn) : Prop :=
  ∀ k, 2 ≤ k → k ≤ I.kmax - 1 → ∀ i ∈ I.R, ∀ m ∈ I.R,
    ∑ l ∈ I.R, I.qjj k (I.downTo (k + 1)) i l * I.inv (I.qjj k (I.downTo (k + 1))) l m = if i = m then 1 else 0

/-- The block-tridiagonal system. -/
theorem block_system (hkm : 3 ≤ I.kmax) (hinv : I.ExactInv) {k : ℤ} (k1 : 2 ≤ k) (k2 : k ≤ I.kmax - 1) {i : ℤ} (hi : i ∈ I.R) :
    ∑ l ∈ I.R, I.qjj0 k i l * I.pjk l k + ∑ l ∈ I.R, I.cjj k i l * I.pjk l (k + 1) + ∑ l ∈ I.R, I.djj k i l * I.pjk l (k - 1) =
      I.rj k i := by
  obtain ⟨_, hp⟩ := pjk_spec (I := I) (by omega)
  set Q := I.qjj k (I.downTo (k + 1)) with hQ
  have hq : ∀ m, Q i m = I.qjj0 k i m + ∑ l ∈ I.R, I.cjj k i l * I.final.s l m k := by
    intro m
    rw [hQ]
    unfold qjj
    rw [dosum_eq]
    congr 1
    refine sum_congr rfl fun l _ => ?_
    rw [(final_eq (by omega) k2).1]
  have hpk : ∀ l, I.pjk l k = ∑ m ∈ I.R, I.final.s l m (k - 1) * I.pjk m (k - 1) + I.final.t l (k - 1) := by
    intro l
    have := hp (k - 1) (by omega) (by omega) l
    rwa [show k - 1 + 1 = k by ring] at this
  obtain ⟨hs, ht⟩ := final_below (I := I) k1 k2
  -- Q p_k = r - C T_k - D p_{k-1}
  have key : ∑ l ∈ I.R, Q i l * I.pjk l k =
      I.rj k i - ∑ l ∈ I.R, I.cjj k i l * I.final.t l k - ∑ l ∈ I.R, I.djj k i l * I.pjk l (k - 1) := by
    have e1 : ∀ l, I.pjk l k = ∑ j ∈ I.R, I.inv Q l j *
        (I.rj k j - ∑ kk ∈ I.R, I.cjj k j kk * I.final.t kk k - ∑ m ∈ I.R, I.djj k j m * I.pjk m (k - 1)) := by
      intro l
      rw [hpk, ht]
      simp only [hs]
      rw [show ∑ m ∈ I.R, (-∑ j ∈ I.R, I.inv Q l j * I.djj k j m) * I.pjk m (k - 1) =
          -∑ j ∈ I.R, I.inv Q l j * ∑ m ∈ I.R, I.djj k j m * I.pjk m (k - 1) by
        simp only [neg_mul, sum_neg_distrib, sum_mul, mul_sum]
        rw [sum_comm]
        congr 1
        refine sum_congr rfl fun j _ => sum_congr rfl fun m _ => by ring]
      rw [← sum_neg_distrib, ← sum_add_distrib]
      refine sum_congr rfl fun j _ => by ring
    simp only [e1, mul_sum]
    rw [sum_comm]
    have e2 : ∀ j ∈ I.R, ∑ l ∈ I.R, Q i l * (I.inv Q l j *
        (I.rj k j - ∑ kk ∈ I.R, I.cjj k j kk * I.final.t kk k - ∑ m ∈ I.R, I.djj k j m * I.pjk m (k - 1))) =
        if i = j then I.rj k j - ∑ kk ∈ I.R, I.cjj k j kk * I.final.t kk k - ∑ m ∈ I.R, I.djj k j m * I.pjk m (k - 1) else 0 := by
      intro j hj
      simp only [← mul_assoc]
      rw [← sum_mul, hinv k k1 k2 i hi j hj]
      split_ifs <;> ring
    rw [sum_congr rfl e2, sum_ite_eq, if_pos hi]
  have expand : ∑ l ∈ I.R, Q i l * I.pjk l k = ∑ l ∈ I.R, I.qjj0 k i l * I.pjk l k +
      ∑ l ∈ I.R, I.cjj k i l * ∑ m ∈ I.R, I.final.s l m k * I.pjk m k := by
    simp only [hq, add_mul, sum_add_distrib, sum_mul, mul_sum]
    congr 1
    rw [sum_comm]
    refine sum_congr rfl fun l _ => sum_congr rfl fun m _ => by ring
  have hup : ∑ l ∈ I.R, I.cjj k i l * I.pjk l (k + 1) =
      ∑ l ∈ I.R, I.cjj k i l * (∑ m ∈ I.R, I.final.s l m k * I.pjk m k) + ∑ l ∈ I.R, I.cjj k i l * I.final.t l k := by
    rw [← sum_add_distrib]
    refine sum_congr rfl fun l _ => ?_
    rw [hp k (by omega) k2]
    ring
  rw [hup]
  linarith

/-- Sum over a row of a diagonal matrix. -/
theorem sum_diag {i : ℤ} (hi : i ∈ I.R) (c : ℝ) (x : ℤ → ℝ) : (∑ l ∈ I.R, (if l = i then c else 0) * x l) = c * x i := by
  have : ∀ l, (if l = i then c else 0) * x l = if l = i then c * x l else 0 := fun l => by split_ifs <;> ring
  simp only [this]
  rw [sum_ite_eq', if_pos hi]

/-- Sum over a row of the tridiagonal matrix. -/
theorem sum_qjj0 {i : ℤ} (hi : i ∈ I.R) (k : ℤ) (x : ℤ → ℝ) :
    ∑ l ∈ I.R, I.qjj0 k i l * x l = -I.ejk (i + 1 + I.jb) k * x i +
      (if i < I.n then I.ajk (i + 1 + I.jb) * x (i + 1) else 0) + (if 1 < i then I.bjk (i + 1 + I.jb) * x (i - 1) else 0) := by
  have hi' := mem_R.1 hi
  have hn : I.n = I.jd - 2 := rfl
  have e : ∀ l ∈ I.R, I.qjj0 k i l * x l = (if l = i then -I.ejk (i + 1 + I.jb) k * x l else 0) +
      (if l = i + 1 then (if i < I.n then I.ajk (i + 1 + I.jb) * x l else 0) else 0) +
      (if l = i - 1 then (if 1 < i then I.bjk (i + 1 + I.jb) * x l else 0) else 0) := by
    intro l _
    unfold qjj0
    by_cases c1 : l = i
    · rw [if_pos c1, if_pos c1, if_neg (by omega), if_neg (by omega)]; ring
    · rw [if_neg c1, if_neg c1]
      by_cases c2 : l = i + 1
      · rw [if_pos c2, if_neg (by omega : ¬ l = i - 1)]
        by_cases c3 : i < I.n
        · rw [if_pos ⟨c2, hi'.1, by omega⟩, if_pos c3]; ring
        · rw [if_neg (fun h => c3 (by omega)), if_neg c3, if_neg (by omega)]; ring
      · rw [if_neg (fun h => c2 h.1), if_neg c2]
        by_cases c4 : l = i - 1
        · rw [if_pos c4]
          by_cases c5 : 1 < i
          · rw [if_pos ⟨c4, c5, by omega⟩, if_pos c5]; ring
          · rw [if_neg (fun h => c5 h.2.1), if_neg c5]; ring
        · rw [if_neg (fun h => c4 h.1), if_neg c4]; ring
  rw [sum_congr rfl e, sum_add_distrib, sum_add_distrib]
  congr 1
  · congr 1
    · rw [sum_ite_eq', if_pos hi]
    · rw [sum_ite_eq']
      by_cases c3 : i < I.n
      · rw [if_pos (mem_R.2 ⟨by omega, by omega⟩)]
      · rw [if_neg c3, ite_self]
  · rw [sum_ite_eq']
    by_cases c5 : 1 < i
    · rw [if_pos (mem_R.2 ⟨by omega, by omega⟩)]
    · rw [if_neg c5, ite_self]

/-- The system, row by row. -/
theorem row_system (hkm : 3 ≤ I.kmax) (hinv : I.ExactInv) {k : ℤ} (k1 : 2 ≤ k) (k2 : k ≤ I.kmax - 1) {i : ℤ} (hi : i ∈ I.R) :
    -I.ejk (i + 1 + I.jb) k * I.pjk i k +
      (if i < I.n then I.ajk (i + 1 + I.jb) * I.pjk (i + 1) k else 0) +
      (if 1 < i then I.bjk (i + 1 + I.jb) * I.pjk (i - 1) k else 0) +
      I.amp 1 (i + 1 + I.jb) k * I.pjk i (k + 1) + I.amp (-1) (i + 1 + I.jb) k * I.pjk i (k - 1) = I.rj k i := by
  have := block_system hkm hinv k1 k2 hi
  rw [sum_qjj0 hi] at this
  unfold cjj djj at this
  rw [sum_diag hi, sum_diag hi] at this
  exact this

/-! ### Nonsingular matrices -/

/-- Off-diagonal elements non-negative, row sums negative. -/
def Dominant (I : NhnIn) (Q : ℤ → ℤ → ℝ) : Prop :=
  ∀ i ∈ I.R, (∀ m ∈ I.R, m ≠ i → 0 ≤ Q i m) ∧ ∑ m ∈ I.R, Q i m < 0

/-- Minimum principle. -/
theorem Dominant.nonneg {Q : ℤ → ℤ → ℝ} (h : I.Dominant Q) {x : ℤ → ℝ} (hx : ∀ i ∈ I.R, ∑ l ∈ I.R, Q i l * x l ≤ 0) :
    ∀ i ∈ I.R, 0 ≤ x i := by
  intro i0 hi0
  obtain ⟨i, hi, hmin⟩ := exists_min_image I.R x ⟨i0, hi0⟩
  refine le_trans ?_ (hmin i0 hi0)
  by_contra hneg
  rw [not_le] at hneg
  have h1 : x i * ∑ l ∈ I.R, Q i l ≤ ∑ l ∈ I.R, Q i l * x l := by
    rw [mul_sum]
    refine sum_le_sum fun l hl => ?_
    by_cases hli : l = i
    · rw [hli]; exact le_of_eq (by ring)
    · have := (h i hi).1 l hl hli
      nlinarith [hmin l hl]
  have h2 := (h i hi).2
  have h3 := hx i hi
  nlinarith

theorem Dominant.injective {Q : ℤ → ℤ → ℝ} (h : I.Dominant Q) {x : ℤ → ℝ} (hx : ∀ i ∈ I.R, ∑ l ∈ I.R, Q i l * x l = 0) :
    ∀ i ∈ I.R, x i = 0 := by
  intro i hi
  refine le_antisymm ?_ (h.nonneg (fun j hj => (hx j hj).le) i hi)
  have := h.nonneg (x := fun l => -x l) (fun j hj => by
    have := hx j hj
    simp only [mul_neg, sum_neg_distrib, this, neg_zero, le_refl]) i hi
  linarith

end Falwa.NhnIn
