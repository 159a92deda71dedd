import Verif.Spec.Legacy
import Mathlib.Algebra.BigOperators.Intervals
import Mathlib.Data.Finset.Max
import Mathlib.LinearAlgebra.FiniteDimensional.Basic
import Mathlib.LinearAlgebra.FiniteDimensional.Lemmas
import Mathlib.Tactic.FieldSimp
import Mathlib.Tactic.Linarith

/-!
# Lemmas about the legacy solver: rows of the assembled matrices, maximum principle
-/

noncomputable section

namespace Falwa

open Finset Real

/-! ### Sparse matrices and assignments -/

namespace Triplets

theorem mul_nil (u : ℕ → ℝ) (i : ℕ) : mul [] u i = 0 := rfl

theorem mul_cons (e : ℕ × ℕ × ℝ) (es : Triplets) (u : ℕ → ℝ) (i : ℕ) :
    mul (e :: es) u i = (if e.1 = i then e.2.2 * u e.2.1 else 0) + mul es u i := by
  simp [mul]

theorem mul_append (a b : Triplets) (u : ℕ → ℝ) (i : ℕ) : mul (a ++ b) u i = mul a u i + mul b u i := by
  simp [mul]

theorem mul_flatMap_range (f : ℕ → Triplets) (u : ℕ → ℝ) (i n : ℕ) :
    mul ((List.range n).flatMap f) u i = ∑ j ∈ range n, mul (f j) u i := by
  induction n with
  | zero => rfl
  | succ n ih =>
    rw [List.range_succ, List.flatMap_append, mul_append, ih, sum_range_succ]
    simp

theorem mul_flatMap_range' (f : ℕ → Triplets) (u : ℕ → ℝ) (i n : ℕ) :
    mul ((List.range' 1 n).flatMap f) u i = ∑ k ∈ range n, mul (f (1 + k)) u i := by
  rw [List.range'_eq_map_range, List.flatMap_map, mul_flatMap_range]

end Triplets

theorem foldl_update (ws : List (ℕ × ℝ)) (b : ℕ → ℝ) (i : ℕ) (v : ℝ) (h : ∀ w ∈ ws, w.1 = i → w.2 = v)
    (h0 : b i = v ∨ ∃ w ∈ ws, w.1 = i) : ws.foldl (fun b w => Function.update b w.1 w.2) b i = v := by
  induction ws generalizing b with
  | nil =>
    rcases h0 with h0 | ⟨w, hw, _⟩
    · exact h0
    · exact absurd hw (List.not_mem_nil)
  | cons a l ih =>
    rw [List.foldl_cons]
    refine ih _ (fun w hw => h w (List.mem_cons_of_mem _ hw)) ?_
    by_cases ha : a.1 = i
    · left
      rw [← ha, Function.update_self]
      exact h a List.mem_cons_self ha
    · rcases h0 with h0 | ⟨w, hw, hwi⟩
      · left; rw [Function.update_of_ne (Ne.symm ha)]; exact h0
      · rcases List.mem_cons.1 hw with rfl | hw
        · exact absurd hwi ha
        · right; exact ⟨w, hw, hwi⟩

/-- An element assigned once has that value. -/
theorem assignAll_eq {ws : List (ℕ × ℝ)} {i : ℕ} {v : ℝ} (h1 : (i, v) ∈ ws) (h : ∀ w ∈ ws, w.1 = i → w.2 = v) :
    assignAll ws i = v :=
  foldl_update ws _ i v h (Or.inr ⟨_, h1, rfl⟩)

namespace Legacy

variable {L : Legacy}

theorem ind_inj {j k j' k' : ℕ} (hk : k < L.kmax) (hk' : k' < L.kmax) (h : L.ind j k = L.ind j' k') :
    j = j' ∧ k = k' := by
  unfold ind at h
  have e1 : (j * L.kmax + k) / L.kmax = j := by
    rw [Nat.add_comm, Nat.add_mul_div_right _ _ (by omega), Nat.div_eq_of_lt hk, Nat.zero_add]
  have e2 : (j' * L.kmax + k') / L.kmax = j' := by
    rw [Nat.add_comm, Nat.add_mul_div_right _ _ (by omega), Nat.div_eq_of_lt hk', Nat.zero_add]
  have e3 : j = j' := by rw [← e1, ← e2, h]
  subst e3
  exact ⟨rfl, by omega⟩

theorem ind_lt {j k : ℕ} (hj : j < L.jmax) (hk : k < L.kmax) : L.ind j k < L.jmax * L.kmax := by
  unfold ind
  calc j * L.kmax + k < j * L.kmax + L.kmax := by omega
    _ = (j + 1) * L.kmax := by ring
    _ ≤ L.jmax * L.kmax := Nat.mul_le_mul_right _ hj

theorem exists_ind {i : ℕ} (hi : i < L.jmax * L.kmax) : ∃ j k, j < L.jmax ∧ k < L.kmax ∧ i = L.ind j k := by
  have hk : 0 < L.kmax := Nat.pos_of_ne_zero fun h => by rw [h] at hi; omega
  refine ⟨i / L.kmax, i % L.kmax, ?_, Nat.mod_lt _ hk, ?_⟩
  · exact Nat.div_lt_of_lt_mul (by rwa [Nat.mul_comm])
  · unfold ind; rw [Nat.mul_comm]; exact (Nat.div_add_mod i L.kmax).symm

theorem pad_row (u : ℕ → ℝ) {j : ℕ} (k : ℕ) (hj : j < L.jmax) : L.pad u (j + 1) k = u (L.ind j k) := by
  unfold pad ind
  rw [if_pos ⟨by omega, by omega⟩, Nat.add_sub_cancel]

theorem pad_zero (u : ℕ → ℝ) (k : ℕ) : L.pad u 0 k = 0 := by
  unfold pad; rw [if_neg (by omega)]

theorem pad_pole (u : ℕ → ℝ) (k : ℕ) : L.pad u (L.jmax + 1) k = 0 := by
  unfold pad; rw [if_neg (by omega)]

/-! ### Rows of the matrices -/

theorem cell_mul (u : ℕ → ℝ) {j k j' k' : ℕ} (hj' : j' < L.jmax) (hk : k < L.kmax) (hk' : k' < L.kmax) :
    Triplets.mul (L.cell j' k') u (L.ind j k) =
      if j' = j ∧ k' = k then
        L.pad u (j + 2) k + L.pad u j k + L.cC j k * L.pad u (j + 1) (k + 1) + L.cD j k * L.pad u (j + 1) (k - 1) +
          L.cE j k * L.pad u (j + 1) k
      else 0 := by
  by_cases h : j' = j ∧ k' = k
  · obtain ⟨rfl, rfl⟩ := h
    rw [if_pos ⟨rfl, rfl⟩]
    unfold cell
    rw [Triplets.mul_append, Triplets.mul_append, Triplets.mul_cons, Triplets.mul_cons, Triplets.mul_cons, Triplets.mul_nil]
    rw [pad_row u _ hj', pad_row u _ hj', pad_row u _ hj']
    have h1 : Triplets.mul (if j' < L.jmax - 1 then [(L.ind j' k', L.ind (j' + 1) k', 1)] else []) u (L.ind j' k') =
        L.pad u (j' + 2) k' := by
      by_cases c : j' < L.jmax - 1
      · rw [if_pos c, Triplets.mul_cons, Triplets.mul_nil, pad_row u _ (by omega)]; simp
      · have e : j' + 2 = L.jmax + 1 := by omega
        rw [if_neg c, Triplets.mul_nil, e, pad_pole]
    have h2 : Triplets.mul (if 0 < j' then [(L.ind j' k', L.ind (j' - 1) k', 1)] else []) u (L.ind j' k') =
        L.pad u j' k' := by
      by_cases c : 0 < j'
      · obtain ⟨m, rfl⟩ : ∃ m, j' = m + 1 := ⟨j' - 1, by omega⟩
        rw [if_pos c, Triplets.mul_cons, Triplets.mul_nil, pad_row u _ (by omega)]; simp
      · have e : j' = 0 := by omega
        subst e
        rw [if_neg c, Triplets.mul_nil, pad_zero]
    rw [h1, h2]
    simp only [if_true]
    ring
  · rw [if_neg h]
    have hne : ¬ L.ind j' k' = L.ind j k := fun e => h (ind_inj hk' hk e)
    unfold cell
    split_ifs <;> simp [Triplets.mul, hne]

theorem interior_mul (u : ℕ → ℝ) {j k : ℕ} (hj : j < L.jmax) (hk : k < L.kmax) :
    L.interior.mul u (L.ind j k) =
      if 1 ≤ k ∧ k + 1 < L.kmax then
        L.pad u (j + 2) k + L.pad u j k + L.cC j k * L.pad u (j + 1) (k + 1) + L.cD j k * L.pad u (j + 1) (k - 1) +
          L.cE j k * L.pad u (j + 1) k
      else 0 := by
  unfold interior
  rw [Triplets.mul_flatMap_range]
  have e : ∀ j' ∈ range L.jmax, Triplets.mul ((List.range' 1 (L.kmax - 2)).flatMap fun k' => L.cell j' k') u (L.ind j k) =
      ∑ k' ∈ range (L.kmax - 2), if j' = j ∧ 1 + k' = k then
        L.pad u (j + 2) k + L.pad u j k + L.cC j k * L.pad u (j + 1) (k + 1) + L.cD j k * L.pad u (j + 1) (k - 1) +
          L.cE j k * L.pad u (j + 1) k else 0 := by
    intro j' hj'
    rw [Triplets.mul_flatMap_range']
    refine sum_congr rfl fun k' hk' => ?_
    have := mem_range.1 hk'
    exact cell_mul u (mem_range.1 hj') hk (by omega)
  rw [sum_congr rfl e, sum_eq_single j]
  · by_cases c : 1 ≤ k ∧ k + 1 < L.kmax
    · rw [if_pos c, sum_eq_single (k - 1), if_pos ⟨rfl, by omega⟩]
      · intro b _ hb
        rw [if_neg (by omega)]
      · intro hb
        exact absurd (mem_range.2 (by omega)) hb
    · rw [if_neg c]
      refine sum_eq_zero fun b hb => ?_
      have := mem_range.1 hb
      rw [if_neg (by omega)]
  · intro b _ hb
    refine sum_eq_zero fun k' _ => ?_
    rw [if_neg (fun h => hb h.1)]
  · intro h
    exact absurd (mem_range.2 hj) h

/-- A boundary: one list of entries for each `j`, all in the row of level `k₀`. -/
theorem boundary_mul (u : ℕ → ℝ) (f : ℕ → Triplets) (k₀ : ℕ) (hk₀ : k₀ < L.kmax)
    (hf : ∀ j, ∀ e ∈ f j, e.1 = L.ind j k₀) {j k : ℕ} (hj : j < L.jmax) (hk : k < L.kmax) :
    Triplets.mul ((List.range L.jmax).flatMap f) u (L.ind j k) = if k = k₀ then (f j).mul u (L.ind j k) else 0 := by
  have hz : ∀ j', ¬ (j' = j ∧ k₀ = k) → (f j').mul u (L.ind j k) = 0 := by
    intro j' hne
    unfold Triplets.mul
    refine List.sum_eq_zero fun x hx => ?_
    obtain ⟨e, he, rfl⟩ := List.mem_map.1 hx
    rw [if_neg]
    intro h
    rw [hf j' e he] at h
    exact hne (ind_inj hk₀ hk h)
  rw [Triplets.mul_flatMap_range]
  by_cases c : k = k₀
  · rw [if_pos c, sum_eq_single j]
    · intro b _ hb; exact hz b fun h => hb h.1
    · intro h; exact absurd (mem_range.2 hj) h
  · rw [if_neg c]
    exact sum_eq_zero fun b _ => hz b fun h => c h.2.symm

theorem upper_mul (u : ℕ → ℝ) (hk3 : 3 ≤ L.kmax) {j k : ℕ} (hj : j < L.jmax) (hk : k < L.kmax) :
    L.upper.mul u (L.ind j k) =
      if k = L.kmax - 1 then L.pad u (j + 1) (L.kmax - 1) - L.pad u (j + 1) (L.kmax - 3) else 0 := by
  unfold upper
  rw [boundary_mul u _ (L.kmax - 1) (by omega) (by simp) hj hk]
  by_cases c : k = L.kmax - 1
  · rw [if_pos c, if_pos c, c, pad_row u _ hj, pad_row u _ hj]
    simp [Triplets.mul]
    ring
  · rw [if_neg c, if_neg c]

theorem lowerAdiab_mul (u : ℕ → ℝ) (hk3 : 3 ≤ L.kmax) {j k : ℕ} (hj : j < L.jmax) (hk : k < L.kmax) :
    L.lowerAdiab.mul u (L.ind j k) = if k = 0 then L.pad u (j + 1) 2 - L.pad u (j + 1) 0 else 0 := by
  unfold lowerAdiab
  rw [boundary_mul u _ 0 (by omega) (by simp) hj hk]
  by_cases c : k = 0
  · rw [if_pos c, if_pos c, c, pad_row u _ hj, pad_row u _ hj]
    simp [Triplets.mul]
    ring
  · rw [if_neg c, if_neg c]

theorem lowerNoslip_mul (u : ℕ → ℝ) (hk3 : 3 ≤ L.kmax) {j k : ℕ} (hj : j < L.jmax) (hk : k < L.kmax) :
    L.lowerNoslip.mul u (L.ind j k) = if k = 0 then L.pad u (j + 1) 0 else 0 := by
  unfold lowerNoslip
  rw [boundary_mul u _ 0 (by omega) (by simp) hj hk]
  by_cases c : k = 0
  · rw [if_pos c, if_pos c, c, pad_row u _ hj]
    simp [Triplets.mul]
  · rw [if_neg c, if_neg c]

/-! ### Right-hand sides -/

/-- The value at the lower boundary. -/
def lowerValue (L : Legacy) : Lower → ℕ → ℝ
  | .noslip => fun j => L.toGauss L.zmum j 0 * L.cosl j / L.cor j
  | .adiabatic => L.uz1

theorem rhs_def (bc : Lower) :
    L.rhs bc = assignAll (L.rhsCommon ++ (List.range L.jmax).map fun j => (L.ind j 0, L.lowerValue bc j)) := by
  cases bc <;> rfl

theorem rhs_eq (bc : Lower) (hk3 : 3 ≤ L.kmax) {j k : ℕ} (hj : j < L.jmax) (hk : k < L.kmax) :
    L.rhs bc (L.ind j k) =
      if k = 0 then L.lowerValue bc j else if k = L.kmax - 1 then L.uz2 j else L.cF j k := by
  rw [rhs_def]
  apply assignAll_eq
  · unfold rhsCommon
    simp only [List.mem_append, List.mem_flatMap, List.mem_map, List.mem_range, List.mem_range', Prod.mk.injEq]
    by_cases c : k = 0
    · right
      exact ⟨j, hj, by rw [c], by rw [if_pos c]⟩
    · left
      by_cases c2 : k = L.kmax - 1
      · right
        exact ⟨j, hj, by rw [c2], by rw [if_neg c, if_pos c2]⟩
      · left
        exact ⟨j, hj, k, ⟨k - 1, by omega, by omega⟩, rfl, by rw [if_neg c, if_neg c2]⟩
  · intro w hw hi
    unfold rhsCommon at hw
    simp only [List.mem_append, List.mem_flatMap, List.mem_map, List.mem_range, List.mem_range'] at hw
    rcases hw with (⟨j', _, k', ⟨m, hm, hm'⟩, rfl⟩ | ⟨j', _, rfl⟩) | ⟨j', _, rfl⟩
    · obtain ⟨rfl, rfl⟩ := ind_inj (by omega) hk hi
      rw [if_neg (by omega), if_neg (by omega)]
    · obtain ⟨rfl, rfl⟩ := ind_inj (by omega) hk hi
      rw [if_neg (by omega), if_pos rfl]
    · obtain ⟨rfl, rfl⟩ := ind_inj (by omega) hk hi
      rw [if_pos rfl]

/-- Left-hand side of the lower boundary condition. -/
def lowerLhs (w : ℕ → ℕ → ℝ) (j : ℕ) : Lower → ℝ
  | .noslip => w j 0
  | .adiabatic => w j 2 - w j 0

theorem mat_mul (bc : Lower) (u : ℕ → ℝ) (hk3 : 3 ≤ L.kmax) {j k : ℕ} (hj : j < L.jmax) (hk : k < L.kmax) :
    (L.mat bc).mul u (L.ind j k) =
      if k = 0 then lowerLhs (L.pad u) (j + 1) bc
      else if k = L.kmax - 1 then L.pad u (j + 1) (L.kmax - 1) - L.pad u (j + 1) (L.kmax - 3)
      else L.pad u (j + 2) k + L.pad u j k + L.cC j k * L.pad u (j + 1) (k + 1) + L.cD j k * L.pad u (j + 1) (k - 1) +
          L.cE j k * L.pad u (j + 1) k := by
  have hl : (L.mat bc).mul u (L.ind j k) = L.interior.mul u (L.ind j k) + L.upper.mul u (L.ind j k) +
      if k = 0 then lowerLhs (L.pad u) (j + 1) bc else 0 := by
    cases bc
    · show Triplets.mul (L.interior ++ L.upper ++ L.lowerNoslip) u (L.ind j k) = _
      rw [Triplets.mul_append, Triplets.mul_append, lowerNoslip_mul u hk3 hj hk]; rfl
    · show Triplets.mul (L.interior ++ L.upper ++ L.lowerAdiab) u (L.ind j k) = _
      rw [Triplets.mul_append, Triplets.mul_append, lowerAdiab_mul u hk3 hj hk]; rfl
  rw [hl, interior_mul u hj hk, upper_mul u hk3 hj hk]
  by_cases c : k = 0
  · have c1 : ¬ (1 ≤ k ∧ k + 1 < L.kmax) := by omega
    have c2 : ¬ k = L.kmax - 1 := by omega
    rw [if_neg c1, if_neg c2, if_pos c, if_pos c]; ring
  · by_cases c2 : k = L.kmax - 1
    · have c1 : ¬ (1 ≤ k ∧ k + 1 < L.kmax) := by omega
      rw [if_neg c1, if_pos c2, if_neg c, if_neg c, if_pos c2]; ring
    · have c1 : 1 ≤ k ∧ k + 1 < L.kmax := by omega
      rw [if_pos c1, if_neg c2, if_neg c, if_neg c, if_neg c2]; ring

/-- The rows of the linear system, one by one. -/
theorem solves_iff (bc : Lower) (u : ℕ → ℝ) (hk3 : 3 ≤ L.kmax) :
    L.Solves bc u ↔
      (∀ j, j < L.jmax → lowerLhs (L.pad u) (j + 1) bc = L.lowerValue bc j) ∧
      (∀ j, j < L.jmax → L.pad u (j + 1) (L.kmax - 1) - L.pad u (j + 1) (L.kmax - 3) = L.uz2 j) ∧
      (∀ j k, j < L.jmax → 1 ≤ k → k + 1 < L.kmax →
        L.pad u (j + 2) k + L.pad u j k + L.cC j k * L.pad u (j + 1) (k + 1) + L.cD j k * L.pad u (j + 1) (k - 1) +
          L.cE j k * L.pad u (j + 1) k = L.cF j k) := by
  have hrow : ∀ j k, j < L.jmax → k < L.kmax → L.Solves bc u → (L.mat bc).mul u (L.ind j k) = L.rhs bc (L.ind j k) :=
    fun j k hj hk h => h _ (ind_lt hj hk)
  constructor
  · intro h
    refine ⟨fun j hj => ?_, fun j hj => ?_, fun j k hj h1 h2 => ?_⟩
    · have := hrow j 0 hj (by omega) h
      rwa [mat_mul bc u hk3 hj (by omega), rhs_eq bc hk3 hj (by omega), if_pos rfl, if_pos rfl] at this
    · have := hrow j (L.kmax - 1) hj (by omega) h
      have c : ¬ L.kmax - 1 = 0 := by omega
      rwa [mat_mul bc u hk3 hj (by omega), rhs_eq bc hk3 hj (by omega), if_neg c, if_neg c, if_pos rfl, if_pos rfl] at this
    · have := hrow j k hj (by omega) h
      have c : ¬ k = 0 := by omega
      have c2 : ¬ k = L.kmax - 1 := by omega
      rwa [mat_mul bc u hk3 hj (by omega), rhs_eq bc hk3 hj (by omega), if_neg c, if_neg c, if_neg c2, if_neg c2] at this
  · rintro ⟨h1, h2, h3⟩ i hi
    obtain ⟨j, k, hj, hk, rfl⟩ := exists_ind hi
    rw [mat_mul bc u hk3 hj hk, rhs_eq bc hk3 hj hk]
    by_cases c : k = 0
    · rw [if_pos c, if_pos c]; exact h1 j hj
    · by_cases c2 : k = L.kmax - 1
      · rw [if_neg c, if_neg c, if_pos c2, if_pos c2]; exact h2 j hj
      · rw [if_neg c, if_neg c, if_neg c2, if_neg c2]; exact h3 j k hj (by omega) (by omega)

/-! ### Maximum principle -/

/-- A solution of the homogeneous problem is not positive. -/
theorem homogeneous_le {n kmax : ℕ} (hk3 : 3 ≤ kmax) {c d w : ℕ → ℕ → ℝ} (bc : Lower) (hbc : bc = .adiabatic → 4 ≤ kmax)
    (hc : ∀ j k, 1 ≤ j → j ≤ n → 1 ≤ k → k + 1 < kmax → 0 ≤ c j k)
    (hd : ∀ j k, 1 ≤ j → j ≤ n → 1 ≤ k → k + 1 < kmax → 0 ≤ d j k)
    (h0 : ∀ k, w 0 k = 0) (h1 : ∀ k, w (n + 1) k = 0)
    (hb : ∀ j, 1 ≤ j → j ≤ n → lowerLhs w j bc = 0) (ht : ∀ j, 1 ≤ j → j ≤ n → w j (kmax - 1) = w j (kmax - 3))
    (hi : ∀ j k, 1 ≤ j → j ≤ n → 1 ≤ k → k + 1 < kmax →
      w (j + 1) k + w (j - 1) k + c j k * w j (k + 1) + d j k * w j (k - 1) = (1 + 1 + c j k + d j k) * w j k) :
    ∀ j k, j ≤ n + 1 → k < kmax → w j k ≤ 0 := by
  classical
  -- values inside
  have inside : ∀ j k, 1 ≤ j → j ≤ n → 1 ≤ k → k + 1 < kmax → w j k ≤ 0 := by
    by_contra hcon
    push Not at hcon
    obtain ⟨j₀, k₀, a1, a2, a3, a4, a5⟩ := hcon
    obtain ⟨p, hp, hmax⟩ := exists_max_image (Icc 1 n ×ˢ Icc 1 (kmax - 2)) (fun p => w p.1 p.2)
      ⟨(j₀, k₀), mem_product.2 ⟨mem_Icc.2 ⟨a1, a2⟩, mem_Icc.2 ⟨a3, by omega⟩⟩⟩
    have hM : 0 < w p.1 p.2 :=
      lt_of_lt_of_le a5 (hmax (j₀, k₀) (mem_product.2 ⟨mem_Icc.2 ⟨a1, a2⟩, mem_Icc.2 ⟨a3, by omega⟩⟩))
    have hin : ∀ j k, 1 ≤ j → j ≤ n → 1 ≤ k → k + 1 < kmax → w j k ≤ w p.1 p.2 := fun j k b1 b2 b3 b4 =>
      hmax (j, k) (mem_product.2 ⟨mem_Icc.2 ⟨b1, b2⟩, mem_Icc.2 ⟨b3, by omega⟩⟩)
    obtain ⟨hp1, hp2⟩ := mem_product.1 hp
    obtain ⟨p1, p2⟩ := mem_Icc.1 hp1
    obtain ⟨p3, p4⟩ := mem_Icc.1 hp2
    have hside : ∀ j k, j ≤ n + 1 → 1 ≤ k → k + 1 < kmax → w j k ≤ w p.1 p.2 := by
      intro j k b1 b3 b4
      rcases Nat.eq_zero_or_pos j with rfl | b
      · rw [h0]; exact hM.le
      · by_cases b2 : j ≤ n
        · exact hin j k b b2 b3 b4
        · have : j = n + 1 := by omega
          rw [this, h1]; exact hM.le
    have hbot : ∀ j, 1 ≤ j → j ≤ n → w j 0 ≤ w p.1 p.2 := by
      intro j b1 b2
      have := hb j b1 b2
      cases bc with
      | noslip =>
        have e : w j 0 = 0 := this
        rw [e]; exact hM.le
      | adiabatic =>
        have e : w j 2 - w j 0 = 0 := this
        have := hin j 2 b1 b2 (by omega) (by have := hbc rfl; omega)
        linarith
    have hlev : ∀ j k, 1 ≤ j → j ≤ n → k < kmax → w j k ≤ w p.1 p.2 := by
      intro j k b1 b2 b3
      rcases Nat.eq_zero_or_pos k with rfl | b
      · exact hbot j b1 b2
      · by_cases b4 : k + 1 < kmax
        · exact hin j k b1 b2 b b4
        · have e : k = kmax - 1 := by omega
          rw [e, ht j b1 b2]
          by_cases b5 : kmax = 3
          · rw [b5]; exact hbot j b1 b2
          · exact hin j _ b1 b2 (by omega) (by omega)
    have step : ∀ m, p.1 + m ≤ n + 1 → w (p.1 + m) p.2 = w p.1 p.2 := by
      intro m
      induction m with
      | zero => intro _; rfl
      | succ m ih =>
        intro hm
        have e := ih (by omega)
        have e2 := hi (p.1 + m) p.2 (by omega) (by omega) p3 (by omega)
        have b1 := hside (p.1 + m + 1) p.2 (by omega) p3 (by omega)
        have b2 := hside (p.1 + m - 1) p.2 (by omega) p3 (by omega)
        have b3 := mul_le_mul_of_nonneg_left (hlev (p.1 + m) (p.2 + 1) (by omega) (by omega) (by omega))
          (hc (p.1 + m) p.2 (by omega) (by omega) p3 (by omega))
        have b4 := mul_le_mul_of_nonneg_left (hlev (p.1 + m) (p.2 - 1) (by omega) (by omega) (by omega))
          (hd (p.1 + m) p.2 (by omega) (by omega) p3 (by omega))
        rw [e] at e2
        have : w (p.1 + m + 1) p.2 = w p.1 p.2 := by linarith
        exact this
    have e := step (n + 1 - p.1) (by omega)
    rw [show p.1 + (n + 1 - p.1) = n + 1 by omega, h1] at e
    exact absurd e hM.ne
  intro j k b1 b2
  rcases Nat.eq_zero_or_pos j with rfl | bj
  · rw [h0]
  by_cases bn : j ≤ n
  swap
  · have : j = n + 1 := by omega
    rw [this, h1]
  have hbot : w j 0 ≤ 0 := by
    have := hb j bj bn
    cases bc with
    | noslip =>
      have e : w j 0 = 0 := this
      rw [e]
    | adiabatic =>
      have e : w j 2 - w j 0 = 0 := this
      have := inside j 2 bj bn (by omega) (by have := hbc rfl; omega)
      linarith
  rcases Nat.eq_zero_or_pos k with rfl | bk
  · exact hbot
  by_cases b4 : k + 1 < kmax
  · exact inside j k bj bn bk b4
  · have e : k = kmax - 1 := by omega
    rw [e, ht j bj bn]
    by_cases b5 : kmax = 3
    · rw [b5]; exact hbot
    · exact inside j _ bj bn (by omega) (by omega)

end Legacy

end Falwa
