import Verif.Model.Missing
import Mathlib.Tactic.Ring
import Mathlib.Tactic.Linarith
import Mathlib.Tactic.NormNum
import Mathlib.Algebra.Order.BigOperators.Group.Finset

/-!
# Properties C187 and C188: wave activity of fields with missing values

A missing value is NaN (`none`). The question is always whether it can turn into a plausible number.
-/

namespace Falwa

namespace Gap

section Sums

variable {K : Type*} [Field K]

theorem total_eq_none {f : ℕ → Option K} {n : ℕ} : total f n = none ↔ ∃ r < n, f r = none := by
  induction n with
  | zero => simp [total]
  | succ n ih =>
    rw [total, Option.map₂_eq_none_iff, ih]
    constructor
    · rintro (⟨r, hr, h⟩ | h)
      · exact ⟨r, by omega, h⟩
      · exact ⟨n, by omega, h⟩
    · rintro ⟨r, hr, h⟩
      by_cases e : r = n
      · exact Or.inr (e ▸ h)
      · exact Or.inl ⟨r, by omega, h⟩

theorem total_eq_some {f : ℕ → Option K} {g : ℕ → K} {n : ℕ} (h : ∀ r < n, f r = some (g r)) :
    total f n = some (∑ r ∈ Finset.range n, g r) := by
  induction n with
  | zero => simp [total]
  | succ n ih =>
    rw [total, ih fun r hr => h r (by omega), h n (by omega), Finset.sum_range_succ]
    rfl

end Sums

/-! ### C187: wave activity -/

section Lwa

variable {K : Type*} [Field K] [LinearOrder K] {nlat j c : ℕ} {vort : ℕ → ℕ → Option K} {q dmu : ℕ → Option K}

/-- Something that the wave activity of row `j` and column `c` is made of is missing: the reference value of the row, a value of
the field in the column, or a weight. -/
def Incomplete (nlat : ℕ) (vort : ℕ → ℕ → Option K) (q dmu : ℕ → Option K) (j c : ℕ) : Prop :=
  q j = none ∨ ∃ r < nlat, vort r c = none ∨ dmu r = none

omit [LinearOrder K] in
theorem weighted_eq_none {m : ℕ → K} (hj : j < nlat - 1) :
    total (fun r => Option.map₂ (· * ·) (Option.map₂ (· * ·) (vortE vort q j r c) (some (m r))) (dmu r)) nlat = none ↔
      Incomplete nlat vort q dmu j c := by
  rw [total_eq_none]
  simp only [vortE, Option.map₂_eq_none_iff, Incomplete, reduceCtorEq, or_false]
  constructor
  · rintro ⟨r, hr, (h | h) | h⟩
    · exact Or.inr ⟨r, hr, Or.inl h⟩
    · exact Or.inl h
    · exact Or.inr ⟨r, hr, Or.inr h⟩
  · rintro (h | ⟨r, hr, h | h⟩)
    · exact ⟨0, by omega, Or.inl (Or.inr h)⟩
    · exact ⟨r, hr, Or.inl (Or.inl h)⟩
    · exact ⟨r, hr, Or.inr h⟩

/-- Each component of the wave activity is NaN exactly where something that it is made of is missing. -/
theorem C187_components_nan (hj : j + 1 < nlat) :
    (lwaAnticyclonic nlat vort q dmu j c = none ↔ Incomplete nlat vort q dmu j c) ∧
      (lwaCyclonic nlat vort q dmu j c = none ↔ Incomplete nlat vort q dmu j c) := by
  have h : j < nlat - 1 := by omega
  unfold lwaAnticyclonic lwaCyclonic
  rw [if_pos h, if_pos h]
  exact ⟨weighted_eq_none h, weighted_eq_none h⟩

/-- So is the wave activity. -/
theorem C187_total_nan (hj : j + 1 < nlat) :
    lwaTotal nlat vort q dmu j c = none ↔ Incomplete nlat vort q dmu j c := by
  unfold lwaTotal
  rw [Option.map₂_eq_none_iff, (C187_components_nan hj).1, (C187_components_nan hj).2, or_self]

/-- Elsewhere it is the wave activity of the numbers, whatever is missing in other columns and rows. -/
theorem C187_value {V : ℕ → ℕ → K} {Q D : ℕ → K} (hv : ∀ r < nlat, vort r c = some (V r c)) (hq : q j = some (Q j))
    (hd : ∀ r < nlat, dmu r = some (D r)) :
    lwaAnticyclonic nlat vort q dmu j c = some (Falwa.lwaAnticyclonic nlat V Q D j c) ∧
      lwaCyclonic nlat vort q dmu j c = some (Falwa.lwaCyclonic nlat V Q D j c) ∧
      lwaTotal nlat vort q dmu j c = some (Falwa.lwaTotal nlat V Q D j c) := by
  have e : ∀ r < nlat, vortE vort q j r c = some (Falwa.vortE V Q j r c) := by
    intro r hr; rw [vortE, hv r hr, hq]; rfl
  have ha : lwaAnticyclonic nlat vort q dmu j c = some (Falwa.lwaAnticyclonic nlat V Q D j c) := by
    unfold lwaAnticyclonic Falwa.lwaAnticyclonic
    by_cases h : j < nlat - 1
    · rw [if_pos h, if_pos h]
      refine total_eq_some fun r hr => ?_
      rw [anticyclonicMask, e r hr, hd r hr, Falwa.anticyclonicMask]
      simp only [less, Option.map₂_some_some, decide_eq_true_eq]
    · rw [if_neg h, if_neg h]
  have hc : lwaCyclonic nlat vort q dmu j c = some (Falwa.lwaCyclonic nlat V Q D j c) := by
    unfold lwaCyclonic Falwa.lwaCyclonic
    by_cases h : j < nlat - 1
    · rw [if_pos h, if_pos h]
      refine total_eq_some fun r hr => ?_
      rw [cyclonicMask, e r hr, hd r hr, Falwa.cyclonicMask]
      simp only [less, Option.map₂_some_some, decide_eq_true_eq]
    · rw [if_neg h, if_neg h]
  refine ⟨ha, hc, ?_⟩
  rw [lwaTotal, ha, hc]; rfl

/-- The last row is 0 whatever is missing. -/
theorem C187_last_row (hj : nlat ≤ j + 1) : lwaTotal nlat vort q dmu j c = some 0 := by
  have h : ¬ j < nlat - 1 := by omega
  rw [lwaTotal, lwaAnticyclonic, lwaCyclonic, if_neg h, if_neg h]
  simp

/-- Three rows and two columns with a gap in the first column: the first column is NaN, the second has its wave activity. -/
example : lwaTotal 3 (fun r c => if r = 2 ∧ c = 0 then none else some ((5 - 2 * (r : ℚ) + 7 * (c : ℚ))))
      (fun _ => some 3) (fun _ => some 1) 0 0 = none ∧
    lwaTotal 3 (fun r c => if r = 2 ∧ c = 0 then none else some ((5 - 2 * (r : ℚ) + 7 * (c : ℚ))))
      (fun _ => some 3) (fun _ => some 1) 0 1 = some 9 := by
  constructor
  · exact (C187_total_nan (by omega)).2 (Or.inr ⟨2, by omega, Or.inl (by simp)⟩)
  · rw [(C187_value (V := fun r c => 5 - 2 * (r : ℚ) + 7 * (c : ℚ)) (Q := fun _ => 3) (D := fun _ => 1)
      (fun r _ => by simp) rfl (fun _ _ => rfl)).2.2]
    norm_num [Falwa.lwaTotal, Falwa.lwaAnticyclonic, Falwa.lwaCyclonic, Falwa.vortE, Falwa.anticyclonicMask,
      Falwa.cyclonicMask, Finset.sum_range_succ]

/-! ### C188: the non-conservative term -/

/-- Where the wave activity is NaN, so is the non-conservative term. -/
def C188_Statement : Prop :=
  ∀ (nlat : ℕ) (vort ncforce : ℕ → ℕ → Option ℚ) (q dmu : ℕ → Option ℚ) (j c : ℕ), j + 1 < nlat →
    lwaTotal nlat vort q dmu j c = none → lwaBigsigma nlat vort q dmu ncforce j c = none

/-- The code violates this: where the field is missing, the masks are 0, and the forcing is summed over the other cells. -/
theorem C188_refuted : ¬ C188_Statement := by
  intro h
  have h1 := h 3 (fun r _ => if r = 2 then none else some 5) (fun _ _ => some 2) (fun _ => some 3) (fun _ => some 1) 0 0
    (by omega) ((C187_total_nan (by omega)).2 (Or.inr ⟨2, by omega, Or.inl (by simp)⟩))
  have h2 : lwaBigsigma 3 (fun r _ => if r = 2 then none else some 5) (fun _ => some 3)
      (fun _ => some 1) (fun _ _ => some 2) 0 0 = some (2 : ℚ) := by
    norm_num [lwaBigsigma, total, anticyclonicMask, cyclonicMask, vortE, less]
  rw [h2] at h1
  exact absurd h1 (by simp)

/-- The non-conservative term is NaN exactly if a value of the forcing in the column or a weight is missing, not where the
wave activity is. -/
theorem C188_nan_partial {ncforce : ℕ → ℕ → Option K} (hj : j + 1 < nlat) :
    lwaBigsigma nlat vort q dmu ncforce j c = none ↔ ∃ r < nlat, ncforce r c = none ∨ dmu r = none := by
  have h : j < nlat - 1 := by omega
  rw [lwaBigsigma, if_pos h, total_eq_none]
  simp only [Option.map₂_eq_none_iff, reduceCtorEq, or_false]

/-- With a reference value, the term is that of the field whose missing values are replaced by the reference value of the
row, that is, missing values do not take part. -/
theorem C188_value_partial [IsStrictOrderedRing K] {ncforce : ℕ → ℕ → Option K} {N : ℕ → ℕ → K} {Q D : ℕ → K}
    (hn : ∀ r < nlat, ncforce r c = some (N r c)) (hq : q j = some (Q j)) (hd : ∀ r < nlat, dmu r = some (D r)) :
    lwaBigsigma nlat vort q dmu ncforce j c =
      some (Falwa.lwaBigsigma nlat (fun r c => (vort r c).getD (Q j)) Q D N j c) := by
  unfold lwaBigsigma Falwa.lwaBigsigma
  by_cases h : j < nlat - 1
  · rw [if_pos h, if_pos h]
    refine total_eq_some fun r hr => ?_
    rw [anticyclonicMask, cyclonicMask, Falwa.anticyclonicMask, Falwa.cyclonicMask, hn r hr, hd r hr, vortE,
      Falwa.vortE, hq]
    cases hv : vort r c with
    | none => simp [less]
    | some v => simp [less]
  · rw [if_neg h, if_neg h]

example : ∀ r < 3, (fun _ _ => some 2 : ℕ → ℕ → Option ℚ) r 0 = some 2 := fun _ _ => rfl

end Lwa

end Gap

end Falwa
