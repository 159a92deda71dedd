import Verif.Props.Eqvlat
import Verif.Props.Flux
import Verif.Props.Barotropic
import Verif.Props.Layerwise
import Verif.Spec.Contour
import Mathlib.Topology.Algebra.Order.Field
import Mathlib.Analysis.SpecificLimits.Basic

/-!
# Dependence on the data (C114 – C116)

Wave activity changes by at most the change of the data and is subadditive (C114); the reference profile is the exact
area-sorted profile up to one contour interval (C115) and changes by at most the change of the data plus contour intervals
(C116).
-/

set_option linter.unusedSectionVars false

namespace Falwa

open Finset

/-! ### C114: `basis.lwa` -/

section Basis

variable {K : Type*} [Field K] [LinearOrder K] [IsStrictOrderedRing K]

/-- One term of the poleward deficit or of the equatorward surplus. -/
theorem deficit_eq (nlat : ℕ) (vort : ℕ → ℕ → K) (Q dmu : ℕ → K) (j c : ℕ) :
    Spec.deficitPoleward nlat vort Q dmu j c =
      ∑ r ∈ range nlat, (if j < r then max (Q j - vort r c) 0 else 0) * dmu r := by
  unfold Spec.deficitPoleward
  rw [sum_filter]
  refine sum_congr rfl fun r _ => ?_
  by_cases h : j < r
  · rw [if_pos h]
    by_cases h' : vort r c < Q j
    · rw [if_pos ⟨h, h'⟩, max_eq_left (by linarith)]
    · rw [if_neg (fun x => h' x.2), max_eq_right (by linarith), zero_mul]
  · rw [if_neg (fun x => h x.1), if_neg h, zero_mul]

theorem surplus_eq (nlat : ℕ) (vort : ℕ → ℕ → K) (Q dmu : ℕ → K) (j c : ℕ) :
    Spec.surplusEquatorward nlat vort Q dmu j c =
      ∑ r ∈ range nlat, (if r ≤ j then max (vort r c - Q j) 0 else 0) * dmu r := by
  unfold Spec.surplusEquatorward
  rw [sum_filter]
  refine sum_congr rfl fun r _ => ?_
  by_cases h : r ≤ j
  · rw [if_pos h]
    by_cases h' : Q j < vort r c
    · rw [if_pos ⟨h, h'⟩, max_eq_left (by linarith)]
    · rw [if_neg (fun x => h' x.2), max_eq_right (by linarith), zero_mul]
  · rw [if_neg (fun x => h x.1), if_neg h, zero_mul]

theorem posPart_lipschitz (x y : K) : |max x 0 - max y 0| ≤ |x - y| := by
  rcases le_total x 0 with hx | hx <;> rcases le_total y 0 with hy | hy
  · rw [max_eq_right hx, max_eq_right hy, sub_self, abs_zero]; exact abs_nonneg _
  · rw [max_eq_right hx, max_eq_left hy, zero_sub, abs_neg, abs_of_nonneg hy]
    exact le_trans (by linarith) (neg_le_abs (x - y))
  · rw [max_eq_left hx, max_eq_right hy, sub_zero, abs_of_nonneg hx]
    exact le_trans (by linarith) (le_abs_self (x - y))
  · rw [max_eq_left hx, max_eq_left hy]

theorem posPart_sum {ι : Type*} (s : Finset ι) (w x : ι → K) (hw : ∀ n ∈ s, 0 ≤ w n) :
    max (∑ n ∈ s, w n * x n) 0 ≤ ∑ n ∈ s, w n * max (x n) 0 :=
  max_le (sum_le_sum fun n hn => mul_le_mul_of_nonneg_left (le_max_left _ _) (hw n hn))
    (sum_nonneg fun n hn => mul_nonneg (hw n hn) (le_max_right _ _))

/-- C114, continuity: if two calls differ in field and reference profile, the wave activity and each of its parts differ by at
most the sum of the differences, weighted with `dmu`, over the rows. -/
theorem C114_lipschitz (nlat : ℕ) (q₁ q₂ : ℕ → ℕ → K) (Q₁ Q₂ dmu : ℕ → K) (nc : Option (ℕ → ℕ → K))
    (hd : ∀ r < nlat, 0 ≤ dmu r) (j c : ℕ) :
    ∃ a₁ b₁ f₁ a₂ b₂ f₂,
      (lwa nlat q₁ Q₁ dmu true nc).1 = .partitioned a₁ b₁ ∧ (lwa nlat q₁ Q₁ dmu false nc).1 = .total f₁ ∧
      (lwa nlat q₂ Q₂ dmu true nc).1 = .partitioned a₂ b₂ ∧ (lwa nlat q₂ Q₂ dmu false nc).1 = .total f₂ ∧
      |a₁ j c - a₂ j c| ≤ ∑ r ∈ range nlat with j < r, (|q₁ r c - q₂ r c| + |Q₁ j - Q₂ j|) * dmu r ∧
      |b₁ j c - b₂ j c| ≤ ∑ r ∈ range nlat with r ≤ j, (|q₁ r c - q₂ r c| + |Q₁ j - Q₂ j|) * dmu r ∧
      |f₁ j c - f₂ j c| ≤ ∑ r ∈ range nlat, (|q₁ r c - q₂ r c| + |Q₁ j - Q₂ j|) * dmu r := by
  have pos : ∀ r ∈ range nlat, 0 ≤ (|q₁ r c - q₂ r c| + |Q₁ j - Q₂ j|) * dmu r := fun r hr =>
    mul_nonneg (add_nonneg (abs_nonneg _) (abs_nonneg _)) (hd r (mem_range.1 hr))
  have ha : |lwaAnticyclonic nlat q₁ Q₁ dmu j c - lwaAnticyclonic nlat q₂ Q₂ dmu j c| ≤
      ∑ r ∈ range nlat with j < r, (|q₁ r c - q₂ r c| + |Q₁ j - Q₂ j|) * dmu r := by
    by_cases h : j + 1 < nlat
    · rw [lwaAnticyclonic_eq_spec h, lwaAnticyclonic_eq_spec h, deficit_eq, deficit_eq, ← sum_sub_distrib, sum_filter]
      refine (abs_sum_le_sum_abs _ _).trans (sum_le_sum fun r hr => ?_)
      have hr' := hd r (mem_range.1 hr)
      rw [← sub_mul, abs_mul, abs_of_nonneg hr']
      split_ifs
      · refine mul_le_mul_of_nonneg_right ((posPart_lipschitz _ _).trans ?_) hr'
        rw [show Q₁ j - q₁ r c - (Q₂ j - q₂ r c) = (Q₁ j - Q₂ j) - (q₁ r c - q₂ r c) by ring, add_comm]
        exact abs_sub _ _
      · rw [sub_self, abs_zero, zero_mul]
    · rw [lwaAnticyclonic_eq_of_ge (by omega), lwaAnticyclonic_eq_of_ge (by omega), sub_self, abs_zero]
      exact sum_nonneg fun r hr => pos r (mem_filter.1 hr).1
  have hb : |lwaCyclonic nlat q₁ Q₁ dmu j c - lwaCyclonic nlat q₂ Q₂ dmu j c| ≤
      ∑ r ∈ range nlat with r ≤ j, (|q₁ r c - q₂ r c| + |Q₁ j - Q₂ j|) * dmu r := by
    by_cases h : j + 1 < nlat
    · rw [lwaCyclonic_eq_spec h, lwaCyclonic_eq_spec h, surplus_eq, surplus_eq, ← sum_sub_distrib, sum_filter]
      refine (abs_sum_le_sum_abs _ _).trans (sum_le_sum fun r hr => ?_)
      have hr' := hd r (mem_range.1 hr)
      rw [← sub_mul, abs_mul, abs_of_nonneg hr']
      split_ifs
      · refine mul_le_mul_of_nonneg_right ((posPart_lipschitz _ _).trans ?_) hr'
        rw [show q₁ r c - Q₁ j - (q₂ r c - Q₂ j) = (q₁ r c - q₂ r c) - (Q₁ j - Q₂ j) by ring]
        exact abs_sub _ _
      · rw [sub_self, abs_zero, zero_mul]
    · rw [lwaCyclonic_eq_of_ge (by omega), lwaCyclonic_eq_of_ge (by omega), sub_self, abs_zero]
      exact sum_nonneg fun r hr => pos r (mem_filter.1 hr).1
  refine ⟨_, _, _, _, _, _, rfl, rfl, rfl, rfl, ha, hb, ?_⟩
  have hs : ∑ r ∈ range nlat, (|q₁ r c - q₂ r c| + |Q₁ j - Q₂ j|) * dmu r =
      ∑ r ∈ range nlat with j < r, (|q₁ r c - q₂ r c| + |Q₁ j - Q₂ j|) * dmu r +
      ∑ r ∈ range nlat with r ≤ j, (|q₁ r c - q₂ r c| + |Q₁ j - Q₂ j|) * dmu r := by
    rw [← sum_filter_add_sum_filter_not (range nlat) (fun r => j < r)]
    simp only [not_lt]
  rw [hs, show lwaAnticyclonic nlat q₁ Q₁ dmu j c + lwaCyclonic nlat q₁ Q₁ dmu j c -
      (lwaAnticyclonic nlat q₂ Q₂ dmu j c + lwaCyclonic nlat q₂ Q₂ dmu j c) =
      (lwaAnticyclonic nlat q₁ Q₁ dmu j c - lwaAnticyclonic nlat q₂ Q₂ dmu j c) +
      (lwaCyclonic nlat q₁ Q₁ dmu j c - lwaCyclonic nlat q₂ Q₂ dmu j c) by ring]
  exact (abs_add_le _ _).trans (add_le_add ha hb)

example : ∀ r < 3, (0 : ℚ) ≤ (fun r : ℕ => (r : ℚ)) r := fun r _ => by positivity

/-- C114, averages: the wave activity of a weighted sum of fields, with the weighted sum of their reference profiles, is at most
the weighted sum of the wave activities. With weights that add up to 1: waves of the mean are at most the mean of the waves. -/
theorem C114_average {ι : Type*} (s : Finset ι) (w : ι → K) (hw : ∀ n ∈ s, 0 ≤ w n) (nlat : ℕ) (q : ι → ℕ → ℕ → K)
    (Q : ι → ℕ → K) (dmu : ℕ → K) (hd : ∀ r < nlat, 0 ≤ dmu r) (nc : Option (ℕ → ℕ → K)) (j c : ℕ) :
    ∃ (f : ι → ℕ → ℕ → K) (g : ℕ → ℕ → K), (∀ n, (lwa nlat (q n) (Q n) dmu false nc).1 = .total (f n)) ∧
      (lwa nlat (fun r c => ∑ n ∈ s, w n * q n r c) (fun r => ∑ n ∈ s, w n * Q n r) dmu false nc).1 = .total g ∧
      g j c ≤ ∑ n ∈ s, w n * f n j c := by
  refine ⟨_, _, fun n => rfl, rfl, ?_⟩
  show lwaTotal nlat _ _ dmu j c ≤ ∑ n ∈ s, w n * lwaTotal nlat (q n) (Q n) dmu j c
  by_cases h : j + 1 < nlat
  · simp only [lwaTotal_eq_spec h, waveActivity_eq_add, deficit_eq, surplus_eq, ← sum_add_distrib]
    simp only [mul_sum]
    rw [sum_comm]
    refine sum_le_sum fun r hr => ?_
    have hr' := hd r (mem_range.1 hr)
    simp only [← add_mul, ← mul_assoc, ← sum_mul]
    refine mul_le_mul_of_nonneg_right ?_ hr'
    have e1 : ∑ n ∈ s, w n * Q n j - ∑ n ∈ s, w n * q n r c = ∑ n ∈ s, w n * (Q n j - q n r c) := by
      rw [← sum_sub_distrib]; exact sum_congr rfl fun n _ => by ring
    have e2 : ∑ n ∈ s, w n * q n r c - ∑ n ∈ s, w n * Q n j = ∑ n ∈ s, w n * (q n r c - Q n j) := by
      rw [← sum_sub_distrib]; exact sum_congr rfl fun n _ => by ring
    by_cases hjr : j < r
    · have : ¬ r ≤ j := by omega
      simp only [if_pos hjr, if_neg this, add_zero]
      rw [e1]
      exact posPart_sum s w _ hw
    · have : r ≤ j := by omega
      simp only [if_neg hjr, if_pos this, zero_add]
      rw [e2]
      exact posPart_sum s w _ hw
  · simp only [lwaTotal_eq_of_ge (by omega : nlat ≤ j + 1), mul_zero, sum_const_zero, le_refl]

example : (∀ n ∈ range 2, (0 : ℚ) ≤ (fun _ : ℕ => (1 / 2 : ℚ)) n) ∧ ∑ n ∈ range 2, (fun _ : ℕ => (1 / 2 : ℚ)) n = 1 :=
  ⟨fun _ _ => by norm_num, by norm_num [sum_range_succ]⟩

end Basis

/-! ### C114: `QGField` -/

noncomputable section

namespace QGAnalysis

open Spec

variable (S : QGAnalysis)

/-- The same analysis with other PV and another reference state. -/
def withPv (q : ℤ → ℤ → ℤ → ℝ) (Q : ℤ → ℤ → ℝ) : QGAnalysis := { S with qgpv := q, qref := Q }

/-- Area weight of a row. -/
def rowWeight (r : ℤ) : ℝ := S.a * Real.cos (S.lat r) * S.dphi

theorem Valid.rowWeight_nonneg {S : QGAnalysis} (hv : S.Valid) {r : ℤ} (h1 : 1 ≤ r) (h2 : r ≤ S.nlat) :
    0 ≤ S.rowWeight r := by
  have hodd := hv.odd
  have hj := hv.jb0
  have hj' := hv.jbnd
  have hpi := Real.pi_pos
  unfold rowWeight lat dphi
  rcases eq_or_lt_of_le (show 1 ≤ S.nlat by omega) with h | h
  · rw [← h]; simp
  have hn : (0 : ℝ) < ((S.nlat - 1 : ℤ) : ℝ) := by exact_mod_cast (by omega : (0 : ℤ) < S.nlat - 1)
  refine mul_nonneg (mul_nonneg hv.a0 (Real.cos_nonneg_of_mem_Icc ⟨?_, ?_⟩)) (div_nonneg hpi.le hn.le)
  · have : (-1 : ℝ) * ((S.nlat - 1 : ℤ) : ℝ) ≤ 2 * ((r - S.nd : ℤ) : ℝ) := by
      exact_mod_cast (by omega : (-1 : ℤ) * (S.nlat - 1) ≤ 2 * (r - S.nd))
    rw [div_mul_eq_mul_div, le_div_iff₀ hn]
    nlinarith
  · have : 2 * ((r - S.nd : ℤ) : ℝ) ≤ 1 * ((S.nlat - 1 : ℤ) : ℝ) := by
      exact_mod_cast (by omega : 2 * (r - S.nd) ≤ 1 * (S.nlat - 1))
    rw [div_mul_eq_mul_div, div_le_iff₀ hn]
    nlinarith

/-- The wave activity as a sum of positive parts, with signs that depend on the rows only. -/
theorem lwa_posParts (hv : S.Valid) (i g k : ℤ) (hi : 1 ≤ i ∧ i ≤ S.nlon) (hg : 1 ≤ g ∧ g ≤ S.rows) :
    ∃ s : ℤ → ℝ, (∀ r, |s r| ≤ 1) ∧ ∀ q Q, (S.withPv q Q).lwa i g k =
      ∑ r ∈ Icc 1 S.nlat, max (s r * (q i r k - Q g k)) 0 * S.rowWeight r := by
  have hodd := hv.odd
  have hj := hv.jb0
  have hj' := hv.jbnd
  have hv' : ∀ q Q, (S.withPv q Q).Valid := fun q Q => ⟨hv.odd, hv.jb0, hv.jbnd, hv.jdEq, hv.a0⟩
  have sgn : ∀ (P : Prop) [Decidable P] (x : ℝ), |x| ≤ 1 → |if P then x else 0| ≤ 1 := by
    intro P _ x hx; split_ifs
    · exact hx
    · simp
  have hrows : S.outRow g = S.nlat - S.rows + g := rfl
  have hr : S.rows = if S.nhOnly then S.nd else S.nlat := rfl
  by_cases hk : 2 ≤ k ∧ k ≤ S.kmax - 1
  swap
  · exact ⟨fun _ => 0, fun _ => by simp, fun q Q => by
      rw [C42_zero (hv' q Q) i g k (Or.inl hk)]; simp⟩
  by_cases hN : S.nd + S.jb ≤ S.outRow g ∧ S.outRow g < S.nlat ∧ (S.nhOnly = true ∨ S.nd < g)
  · refine ⟨fun r => if S.nd ≤ r then (if S.outRow g ≤ r then -1 else 1) else 0,
      fun r => sgn _ _ (by split_ifs <;> simp), fun q Q => ?_⟩
    rw [C42_north (hv' q Q) i g k hi hk ⟨hN.1, hN.2.1⟩ hN.2.2]
    unfold waveActivityNorth
    rw [sum_filter]
    refine sum_subset_zero_on_sdiff (fun r h => ?_) (fun r h => ?_) (fun r h => ?_)
    · have := mem_Icc.1 h
      change S.nd ≤ r ∧ r ≤ S.nlat at this
      exact mem_Icc.2 ⟨by omega, this.2⟩
    · have h' := (mem_sdiff.1 h).2
      change r ∉ Icc S.nd S.nlat at h'
      have h1 := mem_Icc.1 (mem_sdiff.1 h).1
      rw [mem_Icc] at h'
      beta_reduce
      rw [if_neg (by omega)]; simp
    · have := mem_Icc.1 h
      change S.nd ≤ r ∧ r ≤ S.nlat at this
      beta_reduce
      rw [if_pos this.1]
      change (if DisplacedNorth (fun r => q i r k) (Q g k) (S.outRow g) r then |q i r k - Q g k| * S.rowWeight r else 0) = _
      by_cases hgr : S.outRow g ≤ r
      · rw [if_pos hgr]
        by_cases hq : q i r k < Q g k
        · rw [if_pos (show DisplacedNorth (fun r => q i r k) (Q g k) (S.outRow g) r from Or.inl ⟨hgr, hq⟩), abs_of_neg (by linarith), max_eq_left (by linarith)]; ring
        · rw [if_neg, max_eq_right (by linarith), zero_mul]
          rintro (⟨_, h⟩ | ⟨h, _⟩)
          · exact hq h
          · omega
      · rw [if_neg hgr]
        by_cases hq : Q g k < q i r k
        · rw [if_pos (show DisplacedNorth (fun r => q i r k) (Q g k) (S.outRow g) r from Or.inr ⟨by omega, hq⟩), abs_of_pos (by linarith), max_eq_left (by linarith)]; ring
        · rw [if_neg, max_eq_right (by linarith), zero_mul]
          rintro (⟨h, _⟩ | ⟨_, h⟩)
          · exact hgr h
          · exact hq h
  by_cases hS : S.nhOnly = false ∧ 1 < g ∧ g ≤ S.nd - S.jb
  · refine ⟨fun r => if r ≤ S.nd then (if r ≤ g then 1 else -1) else 0,
      fun r => sgn _ _ (by split_ifs <;> simp), fun q Q => ?_⟩
    rw [C42_south (hv' q Q) hS.1 i g k hi hk hS.2]
    unfold waveActivitySouth
    rw [sum_filter]
    refine sum_subset_zero_on_sdiff (fun r h => ?_) (fun r h => ?_) (fun r h => ?_)
    · have := mem_Icc.1 h
      change 1 ≤ r ∧ r ≤ S.nd at this
      exact mem_Icc.2 ⟨this.1, by omega⟩
    · have h' := (mem_sdiff.1 h).2
      change r ∉ Icc 1 S.nd at h'
      have h1 := mem_Icc.1 (mem_sdiff.1 h).1
      rw [mem_Icc] at h'
      beta_reduce
      rw [if_neg (by omega)]; simp
    · have := mem_Icc.1 h
      change 1 ≤ r ∧ r ≤ S.nd at this
      beta_reduce
      rw [if_pos this.2]
      change (if DisplacedSouth (fun r => q i r k) (Q g k) g r then |q i r k - Q g k| * S.rowWeight r else 0) = _
      by_cases hgr : r ≤ g
      · rw [if_pos hgr]
        by_cases hq : Q g k < q i r k
        · rw [if_pos (show DisplacedSouth (fun r => q i r k) (Q g k) g r from Or.inl ⟨hgr, hq⟩), abs_of_pos (by linarith), max_eq_left (by linarith)]; ring
        · rw [if_neg, max_eq_right (by linarith), zero_mul]
          rintro (⟨_, h⟩ | ⟨h, _⟩)
          · exact hq h
          · omega
      · rw [if_neg hgr]
        by_cases hq : q i r k < Q g k
        · rw [if_pos (show DisplacedSouth (fun r => q i r k) (Q g k) g r from Or.inr ⟨by omega, hq⟩), abs_of_neg (by linarith), max_eq_left (by linarith)]; ring
        · rw [if_neg, max_eq_right (by linarith), zero_mul]
          rintro (⟨h, _⟩ | ⟨_, h⟩)
          · exact hgr h
          · exact hq h
  · refine ⟨fun _ => 0, fun _ => by simp, fun q Q => ?_⟩
    rw [C42_zero (hv' q Q) i g k (Or.inr ?_)]
    · simp
    · change ¬ ((S.nd + S.jb ≤ S.outRow g ∧ S.outRow g < S.nlat) ∨ (1 < S.outRow g ∧ S.outRow g ≤ S.nd - S.jb))
      cases hh : S.nhOnly <;> simp only [hh, if_true, if_false, Bool.false_eq_true, false_or, true_or, and_true, true_and,
        reduceCtorEq, false_and, not_false_eq_true] at hr hN hS <;> omega

/-- C114, `QGField`: two analyses on the same grid differ in local wave activity by at most the sum over the rows of the
differences of PV and reference PV, weighted with the area. -/
theorem C114_qg_lipschitz (hv : S.Valid) (q₁ q₂ : ℤ → ℤ → ℤ → ℝ) (Q₁ Q₂ : ℤ → ℤ → ℝ) (i g k : ℤ)
    (hi : 1 ≤ i ∧ i ≤ S.nlon) (hg : 1 ≤ g ∧ g ≤ S.rows) :
    |(S.withPv q₁ Q₁).lwa i g k - (S.withPv q₂ Q₂).lwa i g k| ≤
      ∑ r ∈ Icc 1 S.nlat, (|q₁ i r k - q₂ i r k| + |Q₁ g k - Q₂ g k|) * (S.a * Real.cos (S.lat r) * S.dphi) := by
  obtain ⟨s, hs, h⟩ := S.lwa_posParts hv i g k hi hg
  rw [h, h, ← sum_sub_distrib]
  refine (abs_sum_le_sum_abs _ _).trans (sum_le_sum fun r hr => ?_)
  have hr' := hv.rowWeight_nonneg (mem_Icc.1 hr).1 (mem_Icc.1 hr).2
  change _ ≤ _ * S.rowWeight r
  rw [← sub_mul, abs_mul, abs_of_nonneg hr']
  refine mul_le_mul_of_nonneg_right ((posPart_lipschitz _ _).trans ?_) hr'
  rw [show s r * (q₁ i r k - Q₁ g k) - s r * (q₂ i r k - Q₂ g k) =
    s r * ((q₁ i r k - q₂ i r k) - (Q₁ g k - Q₂ g k)) by ring, abs_mul]
  calc |s r| * |(q₁ i r k - q₂ i r k) - (Q₁ g k - Q₂ g k)|
      ≤ 1 * |(q₁ i r k - q₂ i r k) - (Q₁ g k - Q₂ g k)| := mul_le_mul_of_nonneg_right (hs r) (abs_nonneg _)
    _ ≤ _ := by rw [one_mul]; exact abs_sub _ _

/-- C114, `QGField`: the wave activity of a weighted sum of PV and reference PV is at most the weighted sum. -/
theorem C114_qg_average {ι : Type*} (s : Finset ι) (w : ι → ℝ) (hw : ∀ n ∈ s, 0 ≤ w n) (hv : S.Valid)
    (q : ι → ℤ → ℤ → ℤ → ℝ) (Q : ι → ℤ → ℤ → ℝ) (i g k : ℤ) (hi : 1 ≤ i ∧ i ≤ S.nlon) (hg : 1 ≤ g ∧ g ≤ S.rows) :
    (S.withPv (fun i r k => ∑ n ∈ s, w n * q n i r k) (fun g k => ∑ n ∈ s, w n * Q n g k)).lwa i g k ≤
      ∑ n ∈ s, w n * (S.withPv (q n) (Q n)).lwa i g k := by
  obtain ⟨σ, _, h⟩ := S.lwa_posParts hv i g k hi hg
  simp only [h, mul_sum]
  rw [sum_comm]
  refine sum_le_sum fun r hr => ?_
  simp only [← mul_assoc, ← sum_mul]
  refine mul_le_mul_of_nonneg_right ?_ (hv.rowWeight_nonneg (mem_Icc.1 hr).1 (mem_Icc.1 hr).2)
  have e : σ r * (∑ n ∈ s, w n * q n i r k - ∑ n ∈ s, w n * Q n g k) =
      ∑ n ∈ s, w n * (σ r * (q n i r k - Q n g k)) := by
    rw [← sum_sub_distrib, mul_sum]; exact sum_congr rfl fun n _ => by ring
  rw [e]
  exact posPart_sum s w _ hw

/-- C114, `QGField`: the same two statements for the column average `lwa_baro`. -/
theorem C114_qg_baro (hv : S.Valid) (hdz : 0 < S.dz) (hk : 3 ≤ S.kmax) (i g : ℤ)
    (hi : 1 ≤ i ∧ i ≤ S.nlon) (hg : 1 ≤ g ∧ g ≤ S.rows) :
    (∀ q₁ q₂ Q₁ Q₂, |(S.withPv q₁ Q₁).lwaBaro i g - (S.withPv q₂ Q₂).lwaBaro i g| ≤ S.verticalAverage fun k =>
      ∑ r ∈ Icc 1 S.nlat, (|q₁ i r k - q₂ i r k| + |Q₁ g k - Q₂ g k|) * (S.a * Real.cos (S.lat r) * S.dphi)) ∧
    (∀ (s : Finset ℕ) (w : ℕ → ℝ), (∀ n ∈ s, 0 ≤ w n) → ∀ (q : ℕ → ℤ → ℤ → ℤ → ℝ) (Q : ℕ → ℤ → ℤ → ℝ),
      (S.withPv (fun i r k => ∑ n ∈ s, w n * q n i r k) (fun g k => ∑ n ∈ s, w n * Q n g k)).lwaBaro i g ≤
        ∑ n ∈ s, w n * (S.withPv (q n) (Q n)).lwaBaro i g) := by
  have hv' : ∀ q Q, (S.withPv q Q).Valid := fun q Q => ⟨hv.odd, hv.jb0, hv.jbnd, hv.jdEq, hv.a0⟩
  have e : ∀ q Q, (S.withPv q Q).lwaBaro i g = S.verticalAverage fun k => (S.withPv q Q).lwa i g k := fun q Q => by
    rw [← ((S.withPv q Q).C88_averages i g).2.2.2.1]
    show (S.withPv q Q).verticalAverage _ = (S.withPv q Q).verticalAverage _
    congr 1
    funext k
    exact C88_lwa (hv' q Q) i g k
  have lin := fun f g α β => (S.C41_linear_monotone f g α β).1
  have mono := fun f g h => (S.C41_linear_monotone f g 0 0).2.1 hdz hk h
  have hsum : ∀ (s : Finset ℕ) (w : ℕ → ℝ) (f : ℕ → ℤ → ℝ),
      S.verticalAverage (fun k => ∑ n ∈ s, w n * f n k) = ∑ n ∈ s, w n * S.verticalAverage (f n) := fun s w f => by
    unfold verticalAverage
    simp only [sum_mul, mul_sum]
    rw [sum_comm]
    exact sum_congr rfl fun n _ => sum_congr rfl fun k _ => by ring
  refine ⟨fun q₁ q₂ Q₁ Q₂ => ?_, fun s w hw q Q => ?_⟩
  · rw [e, e]
    have d : ∀ f f' : ℤ → ℝ, S.verticalAverage f - S.verticalAverage f' =
        S.verticalAverage fun k => 1 * f k + (-1) * f' k := fun f f' => by rw [lin]; ring
    rw [abs_le, d, ← neg_one_mul (S.verticalAverage _)]
    refine ⟨?_, mono _ _ fun k _ _ => ?_⟩
    · have h0 := lin (fun k => ∑ r ∈ Icc 1 S.nlat, (|q₁ i r k - q₂ i r k| + |Q₁ g k - Q₂ g k|) *
        (S.a * Real.cos (S.lat r) * S.dphi)) (fun _ => 0) (-1) 0
      simp only [zero_mul, add_zero] at h0
      rw [← h0]
      refine mono _ _ fun k _ _ => ?_
      have := (abs_le.1 (S.C114_qg_lipschitz hv q₁ q₂ Q₁ Q₂ i g k hi hg)).1
      linarith
    · have := (abs_le.1 (S.C114_qg_lipschitz hv q₁ q₂ Q₁ Q₂ i g k hi hg)).2
      linarith
  · simp only [e]
    rw [← hsum]
    exact mono _ _ fun k _ _ => S.C114_qg_average s w hw hv q Q i g k hi hg

example : (0 : ℝ) < sample.dz ∧ 3 ≤ sample.kmax := ⟨by norm_num [sample], by decide⟩

example : sample.Valid ∧ (1 ≤ (1 : ℤ) ∧ (1 : ℤ) ≤ sample.nlon) ∧ (1 ≤ (4 : ℤ) ∧ (4 : ℤ) ≤ sample.rows) ∧
    0 < sample.lwa 1 4 2 := ⟨sample_valid, by decide, by decide, sample_lwa⟩

end QGAnalysis

end

/-! ### C115 and C116: the reference profile -/

noncomputable section

namespace Spec

variable {nlat nlon : ℕ} {q area : ℕ → ℕ → ℝ}

theorem areaUpTo_le_below {q₁ q₂ : ℕ → ℕ → ℝ} (ha : ∀ r < nlat, ∀ c < nlon, 0 ≤ area r c) {v w : ℝ}
    (h : ∀ r < nlat, ∀ c < nlon, q₁ r c ≤ v → q₂ r c < w) :
    areaUpTo nlat nlon q₁ area v ≤ areaBelow nlat nlon q₂ area w := by
  unfold areaUpTo areaBelow
  refine sum_le_sum fun r hr => sum_le_sum fun c hc => ?_
  have hr := mem_range.1 hr
  have hc := mem_range.1 hc
  by_cases h1 : q₁ r c ≤ v
  · rw [if_pos h1, if_pos (h r hr c hc h1)]
  · rw [if_neg h1]; split_ifs
    · exact ha r hr c hc
    · exact le_rfl

theorem areaBelow_mono (ha : ∀ r < nlat, ∀ c < nlon, 0 ≤ area r c) {v w : ℝ} (h : v ≤ w) :
    areaBelow nlat nlon q area v ≤ areaBelow nlat nlon q area w := by
  unfold areaBelow
  refine sum_le_sum fun r hr => sum_le_sum fun c hc => ?_
  by_cases h1 : q r c < v
  · rw [if_pos h1, if_pos (lt_of_lt_of_le h1 h)]
  · rw [if_neg h1]; split_ifs
    · exact ha r (mem_range.1 hr) c (mem_range.1 hc)
    · exact le_rfl

/-- A contour value is a value of the field. -/
theorem IsContour.attained {T v : ℝ} (h : IsContour nlat nlon q area T v) : ∃ r < nlat, ∃ c < nlon, q r c = v := by
  by_contra hn
  push Not at hn
  have : areaBelow nlat nlon q area v = areaUpTo nlat nlon q area v := by
    unfold areaBelow areaUpTo
    refine sum_congr rfl fun r hr => sum_congr rfl fun c hc => ?_
    have := hn r (mem_range.1 hr) c (mem_range.1 hc)
    by_cases h1 : q r c < v
    · rw [if_pos h1, if_pos h1.le]
    · rw [if_neg h1, if_neg (fun h2 => this (le_antisymm h2 (not_lt.1 h1)))]
  have := h.1; have := h.2; linarith

end Spec

open Spec

/-- C115, specification: for each area below the total there is exactly one contour value. -/
theorem C115_contour_exists_unique {nlat nlon : ℕ} {q area : ℕ → ℕ → ℝ} (ha : ∀ r < nlat, ∀ c < nlon, 0 ≤ area r c) {T : ℝ}
    (h0 : 0 ≤ T) (hT : T < ∑ r ∈ range nlat, ∑ c ∈ range nlon, area r c) :
    ∃! v, IsContour nlat nlon q area T v := by
  have uniq : ∀ v w, IsContour nlat nlon q area T v → IsContour nlat nlon q area T w → v ≤ w := by
    intro v w hv hw
    by_contra h
    push Not at h
    have := areaUpTo_le_below (q₁ := q) (q₂ := q) ha (v := w) (w := v) (fun r _ c _ h1 => lt_of_le_of_lt h1 h)
    have := hv.1; have := hw.2; linarith
  suffices h : ∃ v, IsContour nlat nlon q area T v by
    obtain ⟨v, hv⟩ := h
    exact ⟨v, hv, fun w hw => le_antisymm (uniq w v hw hv) (uniq v w hv hw)⟩
  set V := (range nlat ×ˢ range nlon).image (fun p => q p.1 p.2) with hV
  have memV : ∀ r < nlat, ∀ c < nlon, q r c ∈ V := fun r hr c hc =>
    mem_image.2 ⟨(r, c), mem_product.2 ⟨mem_range.2 hr, mem_range.2 hc⟩, rfl⟩
  have total : ∀ w, (∀ r < nlat, ∀ c < nlon, q r c ≤ w) →
      areaUpTo nlat nlon q area w = ∑ r ∈ range nlat, ∑ c ∈ range nlon, area r c := fun w hw => by
    unfold areaUpTo
    refine sum_congr rfl fun r hr => sum_congr rfl fun c hc => ?_
    rw [if_pos (hw r (mem_range.1 hr) c (mem_range.1 hc))]
  have hVne : V.Nonempty := by
    by_contra hne
    rw [not_nonempty_iff_eq_empty] at hne
    have : ∑ r ∈ range nlat, ∑ c ∈ range nlon, area r c = 0 := by
      refine sum_eq_zero fun r hr => sum_eq_zero fun c hc => ?_
      have := memV r (mem_range.1 hr) c (mem_range.1 hc)
      rw [hne] at this
      simp at this
    linarith
  set W := V.filter (fun v => T < areaUpTo nlat nlon q area v) with hW
  have hWne : W.Nonempty := by
    refine ⟨V.max' hVne, mem_filter.2 ⟨V.max'_mem hVne, ?_⟩⟩
    rw [total _ fun r hr c hc => V.le_max' _ (memV r hr c hc)]
    exact hT
  have hm := W.min'_mem hWne
  refine ⟨W.min' hWne, ?_, (mem_filter.1 hm).2⟩
  set v := W.min' hWne with hv
  by_contra hlt
  push Not at hlt
  set U := V.filter (fun w => w < v) with hU
  have hUne : U.Nonempty := by
    by_contra hne
    rw [not_nonempty_iff_eq_empty] at hne
    have : areaBelow nlat nlon q area v = 0 := by
      unfold areaBelow
      refine sum_eq_zero fun r hr => sum_eq_zero fun c hc => if_neg fun h1 => ?_
      have : q r c ∈ U := mem_filter.2 ⟨memV r (mem_range.1 hr) c (mem_range.1 hc), h1⟩
      rw [hne] at this
      simp at this
    linarith
  have hu := mem_filter.1 (U.max'_mem hUne)
  have heq : areaUpTo nlat nlon q area (U.max' hUne) = areaBelow nlat nlon q area v := by
    unfold areaUpTo areaBelow
    refine sum_congr rfl fun r hr => sum_congr rfl fun c hc => ?_
    by_cases h1 : q r c < v
    · rw [if_pos h1, if_pos (U.le_max' _ (mem_filter.2 ⟨memV r (mem_range.1 hr) c (mem_range.1 hc), h1⟩))]
    · rw [if_neg h1, if_neg (fun h2 => h1 (lt_of_le_of_lt h2 hu.2))]
  have : U.max' hUne ∈ W := mem_filter.2 ⟨hu.1, by rw [heq]; exact hlt⟩
  have := W.min'_le _ this
  have := hu.2
  linarith

namespace EqvInput

variable {I : EqvInput}

/-- Contour interval: the range of the field divided by the number of intervals. -/
def interval (I : EqvInput) : ℝ := (amax I.nlat I.nlon I.vort - amin I.nlat I.nlon I.vort) / ((I.nPoints - 1 : ℕ) : ℝ)

theorem bins_succ (I : EqvInput) (i : ℕ) : I.bins (i + 1) = I.bins i + I.interval := by
  unfold bins linspace interval
  push_cast
  ring

theorem interval_nonneg (I : EqvInput) : 0 ≤ I.interval :=
  div_nonneg (sub_nonneg.2 amin_le_amax) (Nat.cast_nonneg _)

theorem Sensible.nonneg (hI : I.Sensible) : ∀ r < I.nlat, ∀ c < I.nlon, 0 ≤ I.area r c := fun r hr c hc =>
  hI.area_nonneg (r, c) (mem_cells.2 ⟨hr, hc⟩)

theorem Sensible.aq_eq_below (hI : I.Sensible) (hn : 2 ≤ I.nPoints) {i : ℕ} (hi : i < I.nPoints) :
    I.aq i = areaBelow I.nlat I.nlon I.vort I.area (I.bins i) := by
  rw [(C11_area_bookkeeping I hn hI.area_nonneg).2.2.1 i hi, sum_filter, cells, sum_product]
  rfl

theorem Sensible.total_eq (I : EqvInput) :
    ∑ p ∈ cells I.nlat I.nlon, I.area p.1 p.2 = ∑ r ∈ range I.nlat, ∑ c ∈ range I.nlon, I.area r c := by
  rw [cells, sum_product]

/-- Comparison of an equivalent latitude with a latitude is comparison of areas. -/
theorem Sensible.eqvLatitude_le_iff (hI : I.Sensible) {y : ℝ} (hy : -90 ≤ y ∧ y ≤ 90) (i : ℕ) :
    (I.eqvLatitude I.aq i).getD 0 ≤ y ↔ I.aq i ≤ southOf I.radius y := by
  have hpi := Real.pi_pos
  have hr := hI.radius_ne
  have hm := gaussianGrid_mem hI.nPoints_pos hI.radius_ne hI.area_nonneg hI.area_fits i
  have hpos : 0 < 2 * Real.pi * I.radius ^ 2 := by positivity
  unfold eqvLatitude
  rw [arcsinDeg_getD hm]
  have e1 : rad2deg (Real.arcsin (I.gaussianGrid I.aq i)) ≤ y ↔
      Real.arcsin (I.gaussianGrid I.aq i) ≤ y * Real.pi / 180 := by
    unfold rad2deg
    rw [div_le_iff₀ hpi, le_div_iff₀ (by norm_num : (0 : ℝ) < 180)]
  rw [e1, Real.arcsin_le_iff_le_sin hm ⟨by nlinarith [hy.1], by nlinarith [hy.2]⟩]
  unfold gaussianGrid southOf
  rw [sub_le_iff_le_add, div_le_iff₀ hpos]
  constructor <;> intro h <;> nlinarith

theorem southOf_nonneg (a y : ℝ) : 0 ≤ southOf a y := by
  have := Real.neg_one_le_sin (y * Real.pi / 180)
  have := Real.pi_pos
  unfold southOf
  have : 0 ≤ 1 + Real.sin (y * Real.pi / 180) := by linarith
  positivity

/-- C115: the reference value at a latitude is within one contour interval of the value `v` whose contour encloses the area
south of the latitude; south of it means where the field is lower. -/
theorem C115_within_interval (hI : I.Sensible) (hn : 2 ≤ I.nPoints) {j : ℕ} (hy : -90 ≤ I.ylat j ∧ I.ylat j ≤ 90) {v : ℝ}
    (hv : IsContour I.nlat I.nlon I.vort I.area (southOf I.radius (I.ylat j)) v) :
    ∃ f, I.qref = .ok f ∧ |f j - v| ≤
      (amax I.nlat I.nlon I.vort - amin I.nlat I.nlon I.vort) / ((I.nPoints - 1 : ℕ) : ℝ) := by
  refine ⟨_, interpToYlat_ok hI.nlat_pos hI.nlon_pos hI.nPoints_pos hI.radius_ne hI.area_nonneg hI.area_fits _, ?_⟩
  change _ ≤ I.interval
  have ha := hI.nonneg
  have hle : ∀ i, I.aq i ≤ southOf I.radius (I.ylat j) → i < I.nPoints → I.bins i ≤ v := by
    intro i h hi
    by_contra hlt
    push Not at hlt
    rw [hI.aq_eq_below hn hi] at h
    have := areaUpTo_le_below (q₁ := I.vort) (q₂ := I.vort) ha (v := v) (w := I.bins i)
      (fun r _ c _ h1 => lt_of_le_of_lt h1 hlt)
    have := hv.2
    linarith
  rcases npInterp_cases (xp := fun i => (I.eqvLatitude I.aq i).getD 0) (fp := I.bins) hI.nPoints_pos (I.ylat j) with
    ⟨h, _⟩ | ⟨i, hi, h1, h2, h⟩ | ⟨h1, _, h⟩
  · exfalso
    have := not_lt.2 ((hI.eqvLatitude_le_iff hy 0).2 (by rw [I.aq_zero]; exact southOf_nonneg _ _))
    exact this h
  · rw [h]
    obtain ⟨h3, h4⟩ := interp_segment_bounds h1 h2 (I.bins_mono (Nat.le_succ i))
    rw [I.bins_succ] at h4 h3 ⊢
    have h5 := hle i ((hI.eqvLatitude_le_iff hy i).1 h1) (by omega)
    have h6 : v < I.bins (i + 1) := by
      by_contra hge
      push Not at hge
      have h7 : ¬ I.aq (i + 1) ≤ southOf I.radius (I.ylat j) := fun h8 =>
        not_lt.2 ((hI.eqvLatitude_le_iff hy (i + 1)).2 h8) h2
      rw [hI.aq_eq_below hn hi] at h7
      have := areaBelow_mono (q := I.vort) ha hge
      have := hv.1
      linarith
    rw [I.bins_succ] at h6
    rw [abs_le]
    constructor <;> linarith
  · rw [h]
    have h5 := hle _ ((hI.eqvLatitude_le_iff hy _).1 h1) (by omega)
    have hl : I.bins (I.nPoints - 1) = amax I.nlat I.nlon I.vort := linspace_last _ _ hn
    obtain ⟨r, hr, c, hc, e⟩ := hv.attained
    have : v ≤ amax I.nlat I.nlon I.vort := e ▸ le_amax (p := (r, c)) (mem_cells.2 ⟨hr, hc⟩)
    rw [hl] at h5 ⊢
    rw [le_antisymm h5 this, sub_self, abs_zero]
    exact I.interval_nonneg

/-- C115, rest: where the area south of the latitude is at least the area of all cells, the profile has the maximum. -/
theorem C115_beyond_total (hI : I.Sensible) (hn : 2 ≤ I.nPoints) {j : ℕ} (hy : -90 ≤ I.ylat j ∧ I.ylat j ≤ 90)
    (hT : ∑ r ∈ range I.nlat, ∑ c ∈ range I.nlon, I.area r c ≤ southOf I.radius (I.ylat j)) :
    ∃ f, I.qref = .ok f ∧ f j = amax I.nlat I.nlon I.vort := by
  refine ⟨_, interpToYlat_ok hI.nlat_pos hI.nlon_pos hI.nPoints_pos hI.radius_ne hI.area_nonneg hI.area_fits _, ?_⟩
  have hall : ∀ i, (I.eqvLatitude I.aq i).getD 0 ≤ I.ylat j := fun i =>
    (hI.eqvLatitude_le_iff hy i).2 (((aq_le_total hI.nPoints_pos hI.area_nonneg i).trans_eq (Sensible.total_eq I)).trans hT)
  rcases npInterp_cases (xp := fun i => (I.eqvLatitude I.aq i).getD 0) (fp := I.bins) hI.nPoints_pos (I.ylat j) with
    ⟨h, _⟩ | ⟨i, hi, h1, h2, h⟩ | ⟨h1, _, h⟩
  · exact absurd h (not_lt.2 (hall 0))
  · exact absurd h2 (not_lt.2 (hall (i + 1)))
  · show npInterp _ _ _ _ = _
    rw [h]
    exact linspace_last _ _ hn

/-- The same call with another number of points. -/
def withPoints (I : EqvInput) (n : ℕ) : EqvInput := { I with nPoints := n }

/-- C115, limit: with more and more points the profile tends to the exact contour value. -/
theorem C115_limit (hI : I.Sensible) {j : ℕ} (hy : -90 ≤ I.ylat j ∧ I.ylat j ≤ 90) {v : ℝ}
    (hv : IsContour I.nlat I.nlon I.vort I.area (southOf I.radius (I.ylat j)) v) (f : ℕ → ℕ → ℝ)
    (hf : ∀ n, 2 ≤ n → (I.withPoints n).qref = .ok (f n)) :
    Filter.Tendsto (fun n => f n j) Filter.atTop (nhds v) := by
  have hS : ∀ n, 2 ≤ n → (I.withPoints n).Sensible := fun n hn =>
    ⟨hI.nlat_pos, hI.nlon_pos, by show 0 < n; omega, hI.radius_ne, hI.area_nonneg, hI.area_fits⟩
  rw [tendsto_iff_dist_tendsto_zero]
  have hlim : Filter.Tendsto (fun n : ℕ => (amax I.nlat I.nlon I.vort - amin I.nlat I.nlon I.vort) / ((n - 1 : ℕ) : ℝ))
      Filter.atTop (nhds 0) :=
    tendsto_const_nhds.div_atTop (tendsto_natCast_atTop_atTop.comp (Filter.tendsto_sub_atTop_nat 1))
  refine squeeze_zero' (Filter.Eventually.of_forall fun n => dist_nonneg) ?_ hlim
  filter_upwards [Filter.eventually_ge_atTop 2] with n hn
  obtain ⟨g, hg, hb⟩ := C115_within_interval (hS n hn) hn hy hv
  rw [hf n hn] at hg
  cases hg
  rw [Real.dist_eq]
  exact hb

/-- In the sample the contour of the row at 45 degrees south is 0. -/
theorem sampleInput_contour :
    IsContour sampleInput.nlat sampleInput.nlon sampleInput.vort sampleInput.area
      (southOf sampleInput.radius (sampleInput.ylat 0)) 0 := by
  have e : southOf sampleInput.radius (sampleInput.ylat 0) = 2 * Real.pi * (1 - Real.sqrt 2 / 2) := by
    unfold southOf
    simp only [sampleInput]
    rw [show (45 * ((0 : ℕ) : ℝ) - 45) * Real.pi / 180 = -(Real.pi / 4) by push_cast; ring, Real.sin_neg,
      Real.sin_pi_div_four]
    ring
  have h2 : (1.4 : ℝ) ≤ Real.sqrt 2 := Real.le_sqrt_of_sq_le (by norm_num)
  have h3 : Real.sqrt 2 ≤ 2 := Real.sqrt_le_iff.2 ⟨by norm_num, by norm_num⟩
  have h4 := Real.pi_lt_d2
  have h5 := Real.pi_pos
  rw [e]
  constructor
  · have : areaBelow sampleInput.nlat sampleInput.nlon sampleInput.vort sampleInput.area 0 = 0 := by
      simp only [areaBelow, sampleInput, sum_range_succ, range_zero, sum_empty]
      norm_num
    rw [this]
    have : 0 ≤ 1 - Real.sqrt 2 / 2 := by linarith
    positivity
  · have : areaUpTo sampleInput.nlat sampleInput.nlon sampleInput.vort sampleInput.area 0 = 2 := by
      simp only [areaUpTo, sampleInput, sum_range_succ, range_zero, sum_empty]
      norm_num
    rw [this]
    nlinarith

example : sampleInput.Sensible ∧ 2 ≤ sampleInput.nPoints ∧ (-90 ≤ sampleInput.ylat 0 ∧ sampleInput.ylat 0 ≤ 90) :=
  ⟨sampleInput_sensible, by norm_num [sampleInput], by norm_num [sampleInput]⟩

example : ∑ r ∈ range sampleInput.nlat, ∑ c ∈ range sampleInput.nlon, sampleInput.area r c ≤
    southOf sampleInput.radius (sampleInput.ylat 1) := by
  have := Real.pi_gt_three
  norm_num [sampleInput, southOf, sum_range_succ]
  linarith

/-! ### C116 -/

/-- The same call with another field and another number of points. -/
def withField (I : EqvInput) (q : ℕ → ℕ → ℝ) (n : ℕ) : EqvInput := { I with vort := q, nPoints := n }

theorem Sensible.withField (hI : I.Sensible) (q : ℕ → ℕ → ℝ) {n : ℕ} (hn : 2 ≤ n) : (I.withField q n).Sensible :=
  ⟨hI.nlat_pos, hI.nlon_pos, by show 0 < n; omega, hI.radius_ne, hI.area_nonneg, hI.area_fits⟩

/-- C116, order: if one field exceeds another one nowhere by more than `e`, then its profile exceeds the other profile by at
most `e` and the two contour intervals. -/
theorem C116_order (hI : I.Sensible) (q₁ q₂ : ℕ → ℕ → ℝ) {n₁ n₂ : ℕ} (hn₁ : 2 ≤ n₁) (hn₂ : 2 ≤ n₂) {e : ℝ}
    (hq : ∀ r < I.nlat, ∀ c < I.nlon, q₁ r c ≤ q₂ r c + e) {j : ℕ} (hy : -90 ≤ I.ylat j ∧ I.ylat j ≤ 90) :
    ∃ f₁ f₂, (I.withField q₁ n₁).qref = .ok f₁ ∧ (I.withField q₂ n₂).qref = .ok f₂ ∧
      f₁ j ≤ f₂ j + e + (amax I.nlat I.nlon q₁ - amin I.nlat I.nlon q₁) / ((n₁ - 1 : ℕ) : ℝ) +
        (amax I.nlat I.nlon q₂ - amin I.nlat I.nlon q₂) / ((n₂ - 1 : ℕ) : ℝ) := by
  have hS₁ := hI.withField q₁ hn₁
  have hS₂ := hI.withField q₂ hn₂
  have ha := hI.nonneg
  rcases lt_or_ge (southOf I.radius (I.ylat j)) (∑ r ∈ range I.nlat, ∑ c ∈ range I.nlon, I.area r c) with hT | hT
  · obtain ⟨v₁, h₁, -⟩ := C115_contour_exists_unique (q := q₁) ha (southOf_nonneg I.radius (I.ylat j)) hT
    obtain ⟨v₂, h₂, -⟩ := C115_contour_exists_unique (q := q₂) ha (southOf_nonneg I.radius (I.ylat j)) hT
    obtain ⟨f₁, e₁, b₁⟩ := C115_within_interval hS₁ hn₁ (j := j) hy h₁
    obtain ⟨f₂, e₂, b₂⟩ := C115_within_interval hS₂ hn₂ (j := j) hy h₂
    refine ⟨f₁, f₂, e₁, e₂, ?_⟩
    change _ ≤ (amax I.nlat I.nlon q₁ - amin I.nlat I.nlon q₁) / ((n₁ - 1 : ℕ) : ℝ) at b₁
    change _ ≤ (amax I.nlat I.nlon q₂ - amin I.nlat I.nlon q₂) / ((n₂ - 1 : ℕ) : ℝ) at b₂
    have hv : v₁ ≤ v₂ + e := by
      by_contra hlt
      push Not at hlt
      have := areaUpTo_le_below (q₁ := q₂) (q₂ := q₁) ha (v := v₂) (w := v₁)
        (fun r hr c hc h => lt_of_le_of_lt (hq r hr c hc) (by linarith))
      have := h₁.1; have := h₂.2; linarith
    have := (abs_le.1 b₁).2
    have := (abs_le.1 b₂).1
    linarith
  · obtain ⟨f₁, e₁, b₁⟩ := C115_beyond_total hS₁ hn₁ (j := j) hy hT
    obtain ⟨f₂, e₂, b₂⟩ := C115_beyond_total hS₂ hn₂ (j := j) hy hT
    refine ⟨f₁, f₂, e₁, e₂, ?_⟩
    have hi₁ : 0 ≤ (amax I.nlat I.nlon q₁ - amin I.nlat I.nlon q₁) / ((n₁ - 1 : ℕ) : ℝ) := (I.withField q₁ n₁).interval_nonneg
    have hi₂ : 0 ≤ (amax I.nlat I.nlon q₂ - amin I.nlat I.nlon q₂) / ((n₂ - 1 : ℕ) : ℝ) := (I.withField q₂ n₂).interval_nonneg
    obtain ⟨p, hp, hmax⟩ := exists_amax (vort := q₁) (cells_nonempty hI.nlat_pos hI.nlon_pos)
    have h1 := hq p.1 (mem_cells.1 hp).1 p.2 (mem_cells.1 hp).2
    have h2 := le_amax (vort := q₂) hp
    rw [b₁, b₂]
    change amax I.nlat I.nlon q₁ ≤ amax I.nlat I.nlon q₂ + e + _ + _
    linarith

/-- C116, stability: fields that differ by at most `e` have profiles that differ by at most `e` and the two contour
intervals. -/
theorem C116_stability (hI : I.Sensible) (q₁ q₂ : ℕ → ℕ → ℝ) {n₁ n₂ : ℕ} (hn₁ : 2 ≤ n₁) (hn₂ : 2 ≤ n₂) {e : ℝ}
    (hq : ∀ r < I.nlat, ∀ c < I.nlon, |q₁ r c - q₂ r c| ≤ e) {j : ℕ} (hy : -90 ≤ I.ylat j ∧ I.ylat j ≤ 90) :
    ∃ f₁ f₂, (I.withField q₁ n₁).qref = .ok f₁ ∧ (I.withField q₂ n₂).qref = .ok f₂ ∧
      |f₁ j - f₂ j| ≤ e + (amax I.nlat I.nlon q₁ - amin I.nlat I.nlon q₁) / ((n₁ - 1 : ℕ) : ℝ) +
        (amax I.nlat I.nlon q₂ - amin I.nlat I.nlon q₂) / ((n₂ - 1 : ℕ) : ℝ) := by
  obtain ⟨f₁, f₂, e₁, e₂, h⟩ := C116_order hI q₁ q₂ hn₁ hn₂ (e := e)
    (fun r hr c hc => by have := (abs_le.1 (hq r hr c hc)).2; linarith) hy
  obtain ⟨g₂, g₁, e₂', e₁', h'⟩ := C116_order hI q₂ q₁ hn₂ hn₁ (e := e)
    (fun r hr c hc => by have := (abs_le.1 (hq r hr c hc)).1; linarith) hy
  rw [e₁] at e₁'
  rw [e₂] at e₂'
  cases e₁'
  cases e₂'
  refine ⟨f₁, f₂, e₁, e₂, abs_le.2 ⟨?_, ?_⟩⟩ <;> linarith

end EqvInput

/-- C116 with C114, `BarotropicField`: two fresh objects whose fields differ by at most `e` give wave activities that differ by
at most twice `e` and two contour intervals, times the area weight of the column. -/
theorem C116_barotropic (C : BaroConfig) (hp : C.partitioned = false) (hd : ∀ r < C.nlat, 0 ≤ C.dmu r) (q₁ q₂ : ℕ → ℕ → ℝ)
    (hS : (C.eqvInput q₁).Sensible) (hn : 2 ≤ C.nPartitions) {e : ℝ}
    (hq : ∀ r < C.nlat, ∀ c < C.nlon, |q₁ r c - q₂ r c| ≤ e) {j c : ℕ} (hc : c < C.nlon)
    (hy : -90 ≤ C.ylat j ∧ C.ylat j ≤ 90) :
    ∃ a₁ a₂, (readLwa C (baroFresh q₁)).2 = .ok (.total a₁) ∧ (readLwa C (baroFresh q₂)).2 = .ok (.total a₂) ∧
      |a₁ j c - a₂ j c| ≤ (2 * e + (amax C.nlat C.nlon q₁ - amin C.nlat C.nlon q₁) / ((C.nPartitions - 1 : ℕ) : ℝ) +
        (amax C.nlat C.nlon q₂ - amin C.nlat C.nlon q₂) / ((C.nPartitions - 1 : ℕ) : ℝ)) * ∑ r ∈ range C.nlat, C.dmu r := by
  obtain ⟨f₁, f₂, e₁, e₂, h⟩ := EqvInput.C116_stability hS q₁ q₂ hn hn hq hy
  change (C.eqvInput q₁).qref = .ok f₁ at e₁
  change (C.eqvInput q₂).qref = .ok f₂ at e₂
  obtain ⟨_, _, a₁, _, _, a₂, _, k₁, _, k₂, _, _, b⟩ := C114_lipschitz C.nlat q₁ q₂ f₁ f₂ C.dmu none hd j c
  refine ⟨a₁, a₂, ?_, ?_, b.trans ?_⟩
  · simp only [readLwa, readEqv, baroFresh, e₁, Outcome.map, BaroConfig.lwaOf, hp, k₁]
  · simp only [readLwa, readEqv, baroFresh, e₂, Outcome.map, BaroConfig.lwaOf, hp, k₂]
  · rw [mul_sum]
    refine sum_le_sum fun r hr => mul_le_mul_of_nonneg_right ?_ (hd r (mem_range.1 hr))
    have := hq r (mem_range.1 hr) c hc
    change _ ≤ e + (amax C.nlat C.nlon q₁ - amin C.nlat C.nlon q₁) / ((C.nPartitions - 1 : ℕ) : ℝ) +
      (amax C.nlat C.nlon q₂ - amin C.nlat C.nlon q₂) / ((C.nPartitions - 1 : ℕ) : ℝ) at h
    linarith

example : ∃ C : BaroConfig, ∃ q₁ q₂ : ℕ → ℕ → ℝ, C.partitioned = false ∧ (∀ r < C.nlat, 0 ≤ C.dmu r) ∧
    (C.eqvInput q₁).Sensible ∧ 2 ≤ C.nPartitions ∧ (∀ r < C.nlat, ∀ c < C.nlon, |q₁ r c - q₂ r c| ≤ 1) ∧ q₁ 1 1 ≠ q₂ 1 1 ∧
    (-90 ≤ C.ylat 1 ∧ C.ylat 1 ≤ 90) := by
  refine ⟨⟨3, 2, sampleInput.ylat, fun _ => 1, fun _ => 1, sampleInput.area, 4, 1, false⟩, sampleInput.vort,
    fun r c => sampleInput.vort r c + 1 / 2, rfl, fun r _ => by norm_num [BaroConfig.dmu], ?_, by norm_num,
    fun r _ c _ => ?_, by norm_num, by norm_num [sampleInput]⟩
  · have h := sampleInput_sensible
    exact ⟨by norm_num [BaroConfig.eqvInput], by norm_num [BaroConfig.eqvInput], by norm_num [BaroConfig.eqvInput],
      by norm_num [BaroConfig.eqvInput], h.area_nonneg, h.area_fits⟩
  · rw [show sampleInput.vort r c - (sampleInput.vort r c + 1 / 2) = -(1 / 2) by ring]
    norm_num [abs_le]

namespace EqvInput

/-- Three cells of equal area that cover the unit sphere, with values 0, `m`, 2, and one latitude, the equator. -/
def threeCells (m : ℝ) : EqvInput where
  nlat := 1
  nlon := 3
  ylat := fun _ => 0
  vort := fun _ c => if c = 0 then 0 else if c = 1 then m else 2
  area := fun _ _ => 4 * Real.pi / 3
  nPoints := 3
  radius := 1

theorem threeCells_sensible (m : ℝ) : (threeCells m).Sensible where
  nlat_pos := by norm_num [threeCells]
  nlon_pos := by norm_num [threeCells]
  nPoints_pos := by norm_num [threeCells]
  radius_ne := by norm_num [threeCells]
  area_nonneg := fun _ _ => by have := Real.pi_pos; simp only [threeCells]; positivity
  area_fits := by
    simp only [threeCells, cells, sum_const, card_product, card_range]
    norm_num
    linarith [Real.pi_pos]

theorem threeCells_bins {m : ℝ} (h0 : 0 ≤ m) (h2 : m ≤ 2) (i : ℕ) : (threeCells m).bins i = i := by
  have hmin : amin 1 3 (threeCells m).vort = 0 := by
    refine le_antisymm (amin_le (vort := (threeCells m).vort) (p := (0, 0)) (by simp [mem_cells])) ?_
    obtain ⟨p, _, e⟩ := exists_amin (vort := (threeCells m).vort) (cells_nonempty (nlat := 1) (nlon := 3) (by norm_num) (by norm_num))
    rw [e]
    simp only [threeCells]
    split_ifs <;> linarith
  have hmax : amax 1 3 (threeCells m).vort = 2 := by
    refine le_antisymm ?_ (le_amax (vort := (threeCells m).vort) (p := (0, 2)) (by simp [mem_cells]))
    obtain ⟨p, _, e⟩ := exists_amax (vort := (threeCells m).vort) (cells_nonempty (nlat := 1) (nlon := 3) (by norm_num) (by norm_num))
    rw [e]
    simp only [threeCells]
    split_ifs <;> linarith
  unfold bins
  change linspace (amin 1 3 (threeCells m).vort) (amax 1 3 (threeCells m).vort) 3 i = i
  rw [hmin, hmax]
  unfold linspace
  norm_num

theorem threeCells_aq {m : ℝ} (h0 : 0 < m) (h2 : m < 2) :
    (threeCells m).aq 1 = (if m < 1 then 8 * Real.pi / 3 else 4 * Real.pi / 3) ∧ (threeCells m).aq 2 = 8 * Real.pi / 3 := by
  have h := fun {i} (hi : i < 3) => (threeCells_sensible m).aq_eq_below (by norm_num [threeCells]) (i := i) hi
  constructor
  · rw [h (by norm_num), threeCells_bins h0.le h2.le]
    simp only [areaBelow, threeCells, sum_range_succ, range_zero, sum_empty]
    norm_num
    split_ifs <;> ring
  · rw [h (by norm_num), threeCells_bins h0.le h2.le]
    simp only [areaBelow, threeCells, sum_range_succ, range_zero, sum_empty]
    norm_num
    rw [if_pos h2]
    ring

/-- C116: the contour intervals in the bound cannot be dropped. A change of one cell by an arbitrarily small amount changes the
profile by more than half a contour interval (which is 1 here). -/
theorem C116_jump (e : ℝ) (he : 0 < e) (he1 : e < 1) :
    (threeCells 1).Sensible ∧ (threeCells (1 - e)).Sensible ∧
    (∀ r c, |(threeCells 1).vort r c - (threeCells (1 - e)).vort r c| ≤ e) ∧
    ∃ f₁ f₂, (threeCells 1).qref = .ok f₁ ∧ (threeCells (1 - e)).qref = .ok f₂ ∧ 1 / 2 < f₁ 0 - f₂ 0 := by
  have hpi := Real.pi_pos
  refine ⟨threeCells_sensible _, threeCells_sensible _, fun r c => ?_, ?_⟩
  · simp only [threeCells]
    split_ifs
    · simp [he.le]
    · rw [sub_sub_cancel, abs_of_pos he]
    · simp [he.le]
  have ok := fun m => interpToYlat_ok (I := threeCells m) (threeCells_sensible m).nlat_pos (threeCells_sensible m).nlon_pos
    (threeCells_sensible m).nPoints_pos (threeCells_sensible m).radius_ne (threeCells_sensible m).area_nonneg
    (threeCells_sensible m).area_fits (threeCells m).bins
  refine ⟨_, _, ok 1, ok (1 - e), ?_⟩
  have lat : ∀ m i x, (threeCells m).aq i = 2 * Real.pi * (1 + x) →
      ((threeCells m).eqvLatitude (threeCells m).aq i).getD 0 = rad2deg (Real.arcsin x) := fun m i x hx => by
    have hm := (threeCells_sensible m)
    unfold eqvLatitude
    rw [arcsinDeg_getD (gaussianGrid_mem hm.nPoints_pos hm.radius_ne hm.area_nonneg hm.area_fits i)]
    unfold gaussianGrid
    rw [hx]
    congr 2
    simp only [threeCells]
    field_simp
    ring
  have iff0 := fun m i => (threeCells_sensible m).eqvLatitude_le_iff (y := 0) (by norm_num) i
  have hs : ∀ m, southOf (threeCells m).radius 0 = 2 * Real.pi := fun m => by norm_num [southOf, threeCells]
  have hA : 0 < rad2deg (Real.arcsin (1 / 3)) := by
    unfold rad2deg
    have : 0 < Real.arcsin (1 / 3) := Real.arcsin_pos.2 (by norm_num)
    positivity
  show 1 / 2 < npInterp 3 _ _ 0 - npInterp 3 _ _ 0
  have one : npInterp 3 (fun i => ((threeCells 1).eqvLatitude (threeCells 1).aq i).getD 0) (threeCells 1).bins 0 = 3 / 2 := by
    obtain ⟨a1, a2⟩ := threeCells_aq (m := 1) (by norm_num) (by norm_num)
    rw [if_neg (lt_irrefl _)] at a1
    rcases npInterp_cases (xp := fun i => ((threeCells 1).eqvLatitude (threeCells 1).aq i).getD 0) (fp := (threeCells 1).bins)
      (n := 3) (by norm_num) 0 with ⟨h, _⟩ | ⟨i, hi, h1, h2, h⟩ | ⟨h1, _, h⟩
    · exact absurd ((iff0 1 0).2 (by rw [aq_zero, hs]; positivity)) (not_le.2 h)
    · have h1' := (iff0 1 i).1 h1
      have h2' : ¬ _ := fun x => not_le.2 h2 ((iff0 1 (i + 1)).2 x)
      rw [hs] at h1' h2'
      have : i = 0 ∨ i = 1 := by omega
      rcases this with rfl | rfl
      · exact absurd (by rw [a1]; linarith) h2'
      · rw [h]
        rw [lat 1 1 (-(1 / 3)) (by rw [a1]; ring), lat 1 (1 + 1) (1 / 3) (by rw [a2]; ring), threeCells_bins (by norm_num) (by norm_num),
          threeCells_bins (by norm_num) (by norm_num), Real.arcsin_neg]
        have : rad2deg (-Real.arcsin (1 / 3)) = -rad2deg (Real.arcsin (1 / 3)) := by unfold rad2deg; ring
        rw [this]
        generalize rad2deg (Real.arcsin (1 / 3)) = A at hA
        push_cast
        field_simp
        ring
    · have h1' := (iff0 1 2).1 h1
      rw [hs, a2] at h1'
      exact absurd h1' (by linarith)
  have two : npInterp 3 (fun i => ((threeCells (1 - e)).eqvLatitude (threeCells (1 - e)).aq i).getD 0)
      (threeCells (1 - e)).bins 0 < 1 := by
    obtain ⟨a1, a2⟩ := threeCells_aq (m := 1 - e) (by linarith) (by linarith)
    rw [if_pos (by linarith)] at a1
    rcases npInterp_cases (xp := fun i => ((threeCells (1 - e)).eqvLatitude (threeCells (1 - e)).aq i).getD 0)
      (fp := (threeCells (1 - e)).bins) (n := 3) (by norm_num) 0 with ⟨h, _⟩ | ⟨i, hi, h1, h2, h⟩ | ⟨h1, _, h⟩
    · exact absurd ((iff0 (1 - e) 0).2 (by rw [aq_zero, hs]; positivity)) (not_le.2 h)
    · have h1' := (iff0 (1 - e) i).1 h1
      rw [hs] at h1'
      have : i = 0 ∨ i = 1 := by omega
      rcases this with rfl | rfl
      · rw [h]
        rw [lat (1 - e) (0 + 1) (1 / 3) (by rw [a1]; ring), lat (1 - e) 0 (-1) (by rw [aq_zero]; ring), threeCells_bins (by linarith) (by linarith),
          threeCells_bins (by linarith) (by linarith), Real.arcsin_neg, Real.arcsin_one]
        have : rad2deg (-(Real.pi / 2)) = -90 := by unfold rad2deg; field_simp; norm_num
        rw [this]
        generalize rad2deg (Real.arcsin (1 / 3)) = A at hA
        norm_num
        rw [inv_mul_lt_iff₀ (by linarith)]
        linarith
      · rw [a1] at h1'
        exact absurd h1' (by linarith)
    · have h1' := (iff0 (1 - e) 2).1 h1
      rw [hs, a2] at h1'
      exact absurd h1' (by linarith)
  change npInterp 3 (fun i => ((threeCells 1).eqvLatitude (threeCells 1).aq i).getD 0) (threeCells 1).bins 0 = 3 / 2 at one
  rw [one]
  linarith

end EqvInput

end

end Falwa
