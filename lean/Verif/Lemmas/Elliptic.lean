import Mathlib.Data.Finset.Max
import Mathlib.Data.Finset.Prod
import Mathlib.Data.Int.Interval
import Mathlib.Data.Real.Basic
import Mathlib.Tactic.Linarith
import Mathlib.Order.Interval.Finset.Nat
import Mathlib.LinearAlgebra.FiniteDimensional.Basic
import Mathlib.Tactic.LinearCombination

/-! Discrete maximum principle on a rectangle. -/

namespace Falwa

open Finset

/-- A function with mean-value property (positive weights) in the interior of a rectangle, zero on the two sides and at the
bottom, and equal at the top to one of the values below, is not positive. -/
theorem max_principle {j0 j1 kmax : ℤ} {a b c d : ℤ → ℤ → ℝ} {w : ℤ → ℤ → ℝ}
    (hpos : ∀ j k, j0 < j → j < j1 → 1 < k → k < kmax → 0 < a j k ∧ 0 < b j k ∧ 0 < c j k ∧ 0 < d j k)
    (heq : ∀ j k, j0 < j → j < j1 → 1 < k → k < kmax →
      a j k * (w (j + 1) k - w j k) + b j k * (w (j - 1) k - w j k) + c j k * (w j (k + 1) - w j k) +
        d j k * (w j (k - 1) - w j k) = 0)
    (h0 : ∀ k, 1 < k → k < kmax → w j0 k = 0) (h1 : ∀ k, 1 < k → k < kmax → w j1 k = 0)
    (hb : ∀ j, j0 < j → j < j1 → w j 1 = 0)
    (ht : ∀ j, j0 < j → j < j1 → ∃ k, 1 ≤ k ∧ k < kmax ∧ w j kmax = w j k) :
    ∀ j k, j0 < j → j < j1 → 1 < k → k < kmax → w j k ≤ 0 := by
  intro x y x1 x2 y1 y2
  by_contra hxy
  rw [not_le] at hxy
  set D := (Ioo j0 j1) ×ˢ (Ioo 1 kmax) with hD
  have mD : ∀ p : ℤ × ℤ, p ∈ D ↔ (j0 < p.1 ∧ p.1 < j1) ∧ 1 < p.2 ∧ p.2 < kmax := by
    intro p; rw [hD, mem_product, mem_Ioo, mem_Ioo]
  obtain ⟨m, hm, hmax⟩ := exists_max_image D (fun p => w p.1 p.2) ⟨(x, y), (mD _).2 ⟨⟨x1, x2⟩, y1, y2⟩⟩
  have hMpos : 0 < w m.1 m.2 := lt_of_lt_of_le hxy (hmax (x, y) ((mD _).2 ⟨⟨x1, x2⟩, y1, y2⟩))
  set M := w m.1 m.2 with hM
  obtain ⟨p, hp, hmin⟩ := exists_min_image (D.filter (fun p => w p.1 p.2 = M)) (fun p => p.1)
    ⟨m, mem_filter.2 ⟨hm, rfl⟩⟩
  rw [mem_filter] at hp
  obtain ⟨hpD, hpM⟩ := hp
  obtain ⟨⟨p1, p2⟩, p3, p4⟩ := (mD p).1 hpD
  have le : ∀ j k, j0 ≤ j → j ≤ j1 → 1 ≤ k → k < kmax → (1 < k ∨ (j0 < j ∧ j < j1)) → w j k ≤ M := by
    intro j k a1 a2 a3 a4 a5
    by_cases e1 : 1 < k
    · by_cases e2 : j = j0
      · rw [e2, h0 k e1 a4]; exact hMpos.le
      · by_cases e3 : j = j1
        · rw [e3, h1 k e1 a4]; exact hMpos.le
        · exact hmax (j, k) ((mD _).2 ⟨⟨by omega, by omega⟩, e1, a4⟩)
    · have : k = 1 := by omega
      have a5' := a5.resolve_left e1
      rw [this, hb j a5'.1 a5'.2]; exact hMpos.le
  have up : w p.1 (p.2 + 1) ≤ M := by
    by_cases e : p.2 + 1 = kmax
    · obtain ⟨k, k1, k2, k3⟩ := ht p.1 p1 p2
      rw [e, k3]
      exact le p.1 k (by omega) (by omega) k1 k2 (Or.inr ⟨p1, p2⟩)
    · exact le p.1 (p.2 + 1) (by omega) (by omega) (by omega) (by omega) (Or.inl (by omega))
  have dn : w p.1 (p.2 - 1) ≤ M := le p.1 (p.2 - 1) (by omega) (by omega) (by omega) (by omega) (Or.inr ⟨p1, p2⟩)
  have ea : w (p.1 + 1) p.2 ≤ M := le _ _ (by omega) (by omega) (by omega) p4 (Or.inl p3)
  have we : w (p.1 - 1) p.2 ≤ M := le _ _ (by omega) (by omega) (by omega) p4 (Or.inl p3)
  have hlt : w (p.1 - 1) p.2 < M := by
    refine lt_of_le_of_ne we fun e => ?_
    by_cases e1 : p.1 - 1 = j0
    · rw [e1, h0 p.2 p3 p4] at e
      exact hMpos.ne e
    · have := hmin (p.1 - 1, p.2) (mem_filter.2 ⟨(mD _).2 ⟨⟨by show j0 < p.1 - 1; omega, by show p.1 - 1 < j1; omega⟩, p3, p4⟩, e⟩)
      have : p.1 ≤ p.1 - 1 := this
      omega
  have e := heq p.1 p.2 p1 p2 p3 p4
  obtain ⟨pa, pb, pc, pd⟩ := hpos p.1 p.2 p1 p2 p3 p4
  rw [hpM] at e
  nlinarith [mul_nonneg pa.le (sub_nonneg.2 ea), mul_pos pb (sub_pos.2 hlt), mul_nonneg pc.le (sub_nonneg.2 up),
    mul_nonneg pd.le (sub_nonneg.2 dn)]

/-- The five-point operator. -/
def fivePoint (a b c d w : ℤ → ℤ → ℝ) (j k : ℤ) : ℝ :=
  a j k * (w (j + 1) k - w j k) + b j k * (w (j - 1) k - w j k) + c j k * (w j (k + 1) - w j k) +
    d j k * (w j (k - 1) - w j k)

/-- The Dirichlet problem on the rectangle, with the top prescribed relative to the level `kt` below, has a solution. -/
theorem exists_solution {j0 j1 kmax kt : ℤ} {a b c d : ℤ → ℤ → ℝ} (h01 : j0 < j1) (hk : 1 < kmax)
    (hpos : ∀ j k, j0 < j → j < j1 → 1 < k → k < kmax → 0 < a j k ∧ 0 < b j k ∧ 0 < c j k ∧ 0 < d j k)
    (kt1 : 1 ≤ kt) (kt2 : kt < kmax) (rhs : ℤ → ℤ → ℝ) (s n t : ℤ → ℝ) :
    ∃ w : ℤ → ℤ → ℝ, (∀ j k, j0 < j → j < j1 → 1 < k → k < kmax → fivePoint a b c d w j k = rhs j k) ∧
      (∀ k, w j0 k = s k) ∧ (∀ k, w j1 k = n k) ∧ (∀ j, j0 < j → j < j1 → w j 1 = 0) ∧
      (∀ j, j0 < j → j < j1 → w j kmax = w j kt + t j) := by
  classical
  set D := (Ioo j0 j1) ×ˢ (Ioo 1 kmax) with hD
  have mD : ∀ j k, (j, k) ∈ D ↔ (j0 < j ∧ j < j1) ∧ 1 < k ∧ k < kmax := by
    intro j k; rw [hD, mem_product, mem_Ioo, mem_Ioo]
  let val : (D → ℝ) → ℤ → ℤ → ℝ := fun x j k => if h : (j, k) ∈ D then x ⟨(j, k), h⟩ else 0
  let E : (ℤ → ℝ) → (ℤ → ℝ) → (ℤ → ℝ) → (D → ℝ) → ℤ → ℤ → ℝ := fun s n t x j k =>
    if j = j0 then s k else if j = j1 then n k else if k = kmax then val x j kt + t j else val x j k
  have val_add : ∀ x y j k, val (x + y) j k = val x j k + val y j k := by
    intro x y j k
    simp only [val]
    split_ifs
    · rfl
    · ring
  have val_smul : ∀ (r : ℝ) x j k, val (r • x) j k = r * val x j k := by
    intro r x j k
    simp only [val]
    split_ifs
    · rfl
    · ring
  have E_add : ∀ s n t s' n' t' x y j k,
      E (s + s') (n + n') (t + t') (x + y) j k = E s n t x j k + E s' n' t' y j k := by
    intro s n t s' n' t' x y j k
    simp only [E, val_add, Pi.add_apply]
    split_ifs <;> ring
  have E_smul : ∀ (r : ℝ) x j k, E 0 0 0 (r • x) j k = r * E 0 0 0 x j k := by
    intro r x j k
    simp only [E, val_smul, Pi.zero_apply]
    split_ifs <;> ring
  have E_south : ∀ s n t x k, E s n t x j0 k = s k := fun s n t x k => by simp only [E, if_true]
  have E_north : ∀ s n t x k, E s n t x j1 k = n k := fun s n t x k => by
    simp only [E, if_neg h01.ne', if_true]
  have E_bottom : ∀ s n t x j, j0 < j → j < j1 → E s n t x j 1 = 0 := by
    intro s n t x j a1 a2
    have : (j, (1 : ℤ)) ∉ D := fun h => by have := (mD _ _).1 h; omega
    simp only [E, val, if_neg a1.ne', if_neg a2.ne, if_neg hk.ne, dif_neg this]
  have E_low : ∀ s n t x j k, j0 < j → j < j1 → k < kmax → E s n t x j k = val x j k := by
    intro s n t x j k a1 a2 a3
    simp only [E, if_neg a1.ne', if_neg a2.ne, if_neg a3.ne]
  have E_top : ∀ s n t x j, j0 < j → j < j1 → E s n t x j kmax = E s n t x j kt + t j := by
    intro s n t x j a1 a2
    rw [E_low s n t x j kt a1 a2 kt2]
    simp only [E, if_neg a1.ne', if_neg a2.ne, if_true]
  let L : (D → ℝ) →ₗ[ℝ] (D → ℝ) :=
    { toFun := fun x p => fivePoint a b c d (E 0 0 0 x) p.1.1 p.1.2
      map_add' := fun x y => by
        funext p
        have e : ∀ j k, E 0 0 0 (x + y) j k = E 0 0 0 x j k + E 0 0 0 y j k := by
          intro j k
          have := E_add 0 0 0 0 0 0 x y j k
          simpa only [add_zero] using this
        show fivePoint a b c d _ _ _ = fivePoint a b c d _ _ _ + fivePoint a b c d _ _ _
        unfold fivePoint
        simp only [e]
        ring
      map_smul' := fun r x => by
        funext p
        show fivePoint a b c d _ _ _ = r * fivePoint a b c d _ _ _
        unfold fivePoint
        simp only [E_smul]
        ring }
  have nonpos : ∀ x, L x = 0 → ∀ p : D, x p ≤ 0 := by
    intro x hx p
    obtain ⟨⟨p1, p2⟩, p3, p4⟩ := (mD p.1.1 p.1.2).1 p.2
    have := max_principle (w := E 0 0 0 x) hpos
      (fun j k a1 a2 a3 a4 => congrFun hx ⟨(j, k), (mD j k).2 ⟨⟨a1, a2⟩, a3, a4⟩⟩)
      (fun k _ _ => E_south 0 0 0 x k) (fun k _ _ => E_north 0 0 0 x k) (fun j a1 a2 => E_bottom 0 0 0 x j a1 a2)
      (fun j a1 a2 => ⟨kt, kt1, kt2, by rw [E_top 0 0 0 x j a1 a2]; exact add_zero _⟩) p.1.1 p.1.2 p1 p2 p3 p4
    rw [E_low _ _ _ _ _ _ p1 p2 p4] at this
    simp only [val] at this
    rw [dif_pos p.2] at this
    exact this
  have hinj : Function.Injective L := by
    rw [← LinearMap.ker_eq_bot, LinearMap.ker_eq_bot']
    intro x hx
    funext p
    refine le_antisymm (nonpos x hx p) ?_
    have := nonpos (-x) (by rw [map_neg, hx, neg_zero]) p
    simpa using this
  obtain ⟨x, hx⟩ := (LinearMap.injective_iff_surjective.1 hinj) (fun p => rhs p.1.1 p.1.2 - fivePoint a b c d (E s n t 0) p.1.1 p.1.2)
  refine ⟨E s n t x, fun j k a1 a2 a3 a4 => ?_, E_south s n t x, E_north s n t x, E_bottom s n t x, E_top s n t x⟩
  have e : ∀ j k, E s n t x j k = E 0 0 0 x j k + E s n t 0 j k := by
    intro j k
    have := E_add 0 0 0 s n t x 0 j k
    simpa only [add_zero, zero_add] using this
  have hp := congrFun hx ⟨(j, k), (mD j k).2 ⟨⟨a1, a2⟩, a3, a4⟩⟩
  change fivePoint a b c d (E 0 0 0 x) j k = rhs j k - fivePoint a b c d (E s n t 0) j k at hp
  unfold fivePoint at hp ⊢
  simp only [e]
  linear_combination hp

end Falwa
