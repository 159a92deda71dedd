import Verif.Model.Lwa
import Verif.Spec.Lwa
import Mathlib.Tactic.Ring
import Mathlib.Tactic.Linarith
import Mathlib.Tactic.SplitIfs
import Mathlib.Algebra.Order.BigOperators.Group.Finset
import Mathlib.Algebra.BigOperators.Ring.Finset

/-! Helper lemmas for `basis.lwa`. -/

set_option linter.unusedSectionVars false

namespace Falwa

open Finset

variable {K : Type*} [Field K] [LinearOrder K]

section NoOrder

theorem lwaAnticyclonic_eq_of_ge {nlat : ℕ} {vort : ℕ → ℕ → K} {q dmu : ℕ → K} {j c : ℕ}
    (h : nlat ≤ j + 1) : lwaAnticyclonic nlat vort q dmu j c = 0 := by
  unfold lwaAnticyclonic; rw [if_neg (by omega)]

theorem lwaCyclonic_eq_of_ge {nlat : ℕ} {vort : ℕ → ℕ → K} {q dmu : ℕ → K} {j c : ℕ}
    (h : nlat ≤ j + 1) : lwaCyclonic nlat vort q dmu j c = 0 := by
  unfold lwaCyclonic; rw [if_neg (by omega)]

end NoOrder

variable [IsStrictOrderedRing K]

theorem lwaAnticyclonic_eq_spec {nlat : ℕ} {vort : ℕ → ℕ → K} {q dmu : ℕ → K} {j c : ℕ}
    (h : j + 1 < nlat) :
    lwaAnticyclonic nlat vort q dmu j c = Spec.deficitPoleward nlat vort q dmu j c := by
  unfold lwaAnticyclonic Spec.deficitPoleward
  rw [if_pos (by omega), sum_filter]
  refine sum_congr rfl fun r _ => ?_
  unfold anticyclonicMask vortE
  by_cases h1 : r < j + 1
  · rw [if_pos h1, if_neg (by omega)]; ring
  · rw [if_neg h1]
    by_cases h2 : vort r c < q j
    · rw [if_pos (by linarith), if_pos ⟨by omega, h2⟩]; ring
    · rw [if_neg (by linarith), if_neg (fun h => h2 h.2)]; ring

theorem lwaCyclonic_eq_spec {nlat : ℕ} {vort : ℕ → ℕ → K} {q dmu : ℕ → K} {j c : ℕ}
    (h : j + 1 < nlat) :
    lwaCyclonic nlat vort q dmu j c = Spec.surplusEquatorward nlat vort q dmu j c := by
  unfold lwaCyclonic Spec.surplusEquatorward
  rw [if_pos (by omega), sum_filter]
  refine sum_congr rfl fun r _ => ?_
  unfold cyclonicMask vortE
  by_cases h1 : r < j + 1
  · rw [if_pos h1]
    by_cases h2 : q j < vort r c
    · rw [if_pos (by linarith), if_pos ⟨by omega, h2⟩]; ring
    · rw [if_neg (by linarith), if_neg (fun h => h2 h.2)]; ring
  · rw [if_neg h1, if_neg (by omega)]; ring

/-- The specification splits into its two parts. -/
theorem waveActivity_eq_add (nlat : ℕ) (vort : ℕ → ℕ → K) (Q dmu : ℕ → K) (j c : ℕ) :
    Spec.waveActivity nlat vort Q dmu j c =
      Spec.deficitPoleward nlat vort Q dmu j c + Spec.surplusEquatorward nlat vort Q dmu j c := by
  unfold Spec.waveActivity Spec.deficitPoleward Spec.surplusEquatorward
  rw [sum_filter, sum_filter, sum_filter, ← sum_add_distrib]
  refine sum_congr rfl fun r _ => ?_
  by_cases h1 : j < r ∧ vort r c < Q j
  · have h2 : ¬ (r ≤ j ∧ Q j < vort r c) := fun h => absurd h.1 (by omega)
    have h3 : Spec.Displaced vort Q j r c := Or.inl h1
    rw [if_pos h3, if_pos h1, if_neg h2, abs_of_neg (by linarith [h1.2])]; ring
  · by_cases h2 : r ≤ j ∧ Q j < vort r c
    · have h3 : Spec.Displaced vort Q j r c := Or.inr h2
      rw [if_pos h3, if_neg h1, if_pos h2, abs_of_pos (by linarith [h2.2])]; ring
    · have h3 : ¬ Spec.Displaced vort Q j r c := fun h => h.elim h1 h2
      rw [if_neg h3, if_neg h1, if_neg h2]; ring

theorem waveActivity_nonneg {nlat : ℕ} {vort : ℕ → ℕ → K} {Q dmu : ℕ → K} {j c : ℕ}
    (hd : ∀ r < nlat, 0 ≤ dmu r) : 0 ≤ Spec.waveActivity nlat vort Q dmu j c :=
  sum_nonneg fun r hr => mul_nonneg (abs_nonneg _) (hd r (mem_range.1 (mem_filter.1 hr).1))

theorem deficitPoleward_nonneg {nlat : ℕ} {vort : ℕ → ℕ → K} {Q dmu : ℕ → K} {j c : ℕ}
    (hd : ∀ r < nlat, 0 ≤ dmu r) : 0 ≤ Spec.deficitPoleward nlat vort Q dmu j c :=
  sum_nonneg fun r hr => by
    obtain ⟨h1, h2, h3⟩ := mem_filter.1 hr
    exact mul_nonneg (by linarith) (hd r (mem_range.1 h1))

theorem surplusEquatorward_nonneg {nlat : ℕ} {vort : ℕ → ℕ → K} {Q dmu : ℕ → K} {j c : ℕ}
    (hd : ∀ r < nlat, 0 ≤ dmu r) : 0 ≤ Spec.surplusEquatorward nlat vort Q dmu j c :=
  sum_nonneg fun r hr => by
    obtain ⟨h1, h2, h3⟩ := mem_filter.1 hr
    exact mul_nonneg (by linarith) (hd r (mem_range.1 h1))

/-- Total wave activity away from the last row. -/
theorem lwaTotal_eq_spec {nlat : ℕ} {vort : ℕ → ℕ → K} {q dmu : ℕ → K} {j c : ℕ}
    (h : j + 1 < nlat) :
    lwaTotal nlat vort q dmu j c = Spec.waveActivity nlat vort q dmu j c := by
  rw [lwaTotal, lwaAnticyclonic_eq_spec h, lwaCyclonic_eq_spec h, waveActivity_eq_add]

theorem lwaTotal_eq_of_ge {nlat : ℕ} {vort : ℕ → ℕ → K} {q dmu : ℕ → K} {j c : ℕ}
    (h : nlat ≤ j + 1) : lwaTotal nlat vort q dmu j c = 0 := by
  rw [lwaTotal, lwaAnticyclonic_eq_of_ge h, lwaCyclonic_eq_of_ge h, add_zero]

/-- If no value is displaced the specification is zero. -/
theorem waveActivity_eq_zero {nlat : ℕ} {vort : ℕ → ℕ → K} {Q dmu : ℕ → K} {j c : ℕ}
    (h : ∀ r < nlat, ¬ Spec.Displaced vort Q j r c) : Spec.waveActivity nlat vort Q dmu j c = 0 := by
  unfold Spec.waveActivity
  rw [filter_false_of_mem (fun r hr => h r (mem_range.1 hr)), sum_empty]

theorem waveActivity_eq_zero_iff {nlat : ℕ} {vort : ℕ → ℕ → K} {Q dmu : ℕ → K} {j c : ℕ}
    (hd : ∀ r < nlat, 0 < dmu r) :
    Spec.waveActivity nlat vort Q dmu j c = 0 ↔ ∀ r < nlat, ¬ Spec.Displaced vort Q j r c := by
  refine ⟨fun h r hr hdis => ?_, waveActivity_eq_zero⟩
  unfold Spec.waveActivity at h
  rw [sum_eq_zero_iff_of_nonneg (fun r hr =>
    mul_nonneg (abs_nonneg _) (hd r (mem_range.1 (mem_filter.1 hr).1)).le)] at h
  have := h r (mem_filter.2 ⟨mem_range.2 hr, hdis⟩)
  rcases mul_eq_zero.1 this with h0 | h0
  · rw [abs_eq_zero, sub_eq_zero] at h0
    rcases hdis with ⟨_, h2⟩ | ⟨_, h2⟩ <;> exact absurd h2 (by rw [h0]; exact lt_irrefl _)
  · exact absurd h0 (hd r hr).ne'

end Falwa
