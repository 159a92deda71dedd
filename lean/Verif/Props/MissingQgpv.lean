import Verif.Model.Missing
import Verif.Lemmas.Flux
import Verif.Lemmas.Units

/-!
# Property C191: wave activity of the QG classes for QGPV with missing values
-/

noncomputable section

namespace Falwa

open Real Finset

namespace Gap

/-- The QGPV `V` agrees with `pv` where that is known. -/
def Fills (V : ℤ → ℤ → ℤ → ℝ) (pv : ℤ → ℤ → ℤ → Option ℝ) : Prop := ∀ i j k v, pv i j k = some v → V i j k = v

/-- A value of QGPV is missing in column `i`, level `k` of the hemisphere that the routines work on. -/
def GapInColumn (nd : ℤ) (pv : ℤ → ℤ → ℤ → Option ℝ) (i k : ℤ) : Prop := ∃ jj, 1 ≤ jj ∧ jj ≤ nd ∧ pv i (jj + nd - 1) k = none

/-- The QGPV in which missing values are the reference value of row `j`. -/
def filled (I : LwaIn) (pv : ℤ → ℤ → ℤ → Option ℝ) (j k : ℤ) : LwaIn :=
  { I with pv := fun x y z => (pv x y z).getD (rd2 I.nd I.qref j k) }

theorem acc_filled (I : LwaIn) (pv : ℤ → ℤ → ℤ → Option ℝ) (i j k : ℤ) :
    acc I pv i j k = (some ((filled I pv j k).acc i j k).1, some ((filled I pv j k).acc i j k).2) := by
  refine doLoop_map (f := (filled I pv j k).accStep i j k) (fun s : ℝ × ℝ => (some s.1, some s.2)) (fun jj t => ?_) (0, 0)
  unfold accStep LwaIn.accStep
  have hq : rd3 (filled I pv j k).jmax (filled I pv j k).pv i (jj + (filled I pv j k).nd - 1) k =
      (pv i (wrapJ I.jmax (jj + I.nd - 1)) (wrapK I.jmax (jj + I.nd - 1) k)).getD (rd2 I.nd I.qref j k) := rfl
  have hr : rd2 (filled I pv j k).nd (filled I pv j k).qref j k = rd2 I.nd I.qref j k := rfl
  have ha : (filled I pv j k).a = I.a := rfl
  have hd : (filled I pv j k).dp = I.dp := rfl
  rw [hq, hr, ha, hd]
  generalize pv i (wrapJ I.jmax (jj + I.nd - 1)) (wrapK I.jmax (jj + I.nd - 1) k) = p
  cases p with
  | none => simp [notAbove, less]
  | some v =>
    simp only [Option.map_some, Option.getD_some, notAbove, less, decide_eq_true_eq, Option.map₂_some_some, gt_iff_lt]
    split_ifs <;> rfl

/-- The wave activity as sums. -/
theorem acc_sums (I : LwaIn) (i j k : ℤ) :
    (I.acc i j k).1 = ∑ jj ∈ Icc 1 I.nd,
        (if jj < j then max (rd3 I.jmax I.pv i (jj + I.nd - 1) k - rd2 I.nd I.qref j k) 0 else 0) *
          (I.a * I.dp * cos (I.dp * ((jj - 1 : ℤ) : ℝ))) ∧
      (I.acc i j k).2 = ∑ jj ∈ Icc 1 I.nd,
        (if j ≤ jj then max (rd2 I.nd I.qref j k - rd3 I.jmax I.pv i (jj + I.nd - 1) k) 0 else 0) *
          (I.a * I.dp * cos (I.dp * ((jj - 1 : ℤ) : ℝ))) := by
  unfold LwaIn.acc
  constructor
  · rw [doLoop_sum (fun s : ℝ × ℝ => s.1) _ (fun jj s _ _ => ?_), zero_add]
    simp only [LwaIn.accStep]
    generalize rd3 I.jmax I.pv i (jj + I.nd - 1) k - rd2 I.nd I.qref j k = x
    by_cases hx : x ≤ 0
    · have : ¬ x > 0 := not_lt.2 hx
      by_cases h : jj ≥ j
      · have h' : ¬ jj < j := by omega
        simp [hx, h, h', this]
      · simp [h, this, max_eq_right hx]
    · have h0 : x > 0 := not_le.1 hx
      by_cases h : jj < j
      · simp [hx, h0, h, max_eq_left h0.le]
      · simp [hx, h]
  · rw [doLoop_sum (fun s : ℝ × ℝ => s.2) _ (fun jj s _ _ => ?_), zero_add]
    simp only [LwaIn.accStep]
    rw [← neg_sub (rd3 I.jmax I.pv i (jj + I.nd - 1) k)]
    generalize rd3 I.jmax I.pv i (jj + I.nd - 1) k - rd2 I.nd I.qref j k = x
    by_cases hx : x ≤ 0
    · have : ¬ x > 0 := not_lt.2 hx
      by_cases h : jj ≥ j
      · have h' : j ≤ jj := h
        simp only [hx, h, this, and_self, if_true, false_and, if_false, max_eq_left (neg_nonneg.2 hx)]
        ring
      · have h' : ¬ j ≤ jj := h
        simp [h', this]
    · have h0 : x > 0 := not_le.1 hx
      by_cases h : jj < j
      · have h' : ¬ j ≤ jj := by omega
        simp [hx, h0, h, h']
      · simp [hx, h, max_eq_right (neg_nonpos.2 h0.le)]

/-- Both components for a column with a missing value are NaN. -/
def C191_Statement : Prop :=
  ∀ (I : LwaIn) (pv : ℤ → ℤ → ℤ → Option ℝ) (i j k : ℤ), I.jmax = 2 * I.nd - 1 → 0 < I.a → I.jb + 1 ≤ j → j ≤ I.nd - 1 →
    GapInColumn I.nd pv i k → (acc I pv i j k).1 = none ∨ (acc I pv i j k).2 = none

/-- The wave activity that `compute_lwa_only` computes is always a number, and never more than the wave activity of any
field that agrees with the known values: missing values count as if there were no displacement. -/
theorem C191_lower_bound_partial (I : LwaIn) (pv : ℤ → ℤ → ℤ → Option ℝ) (i j k : ℤ) (hn : 2 ≤ I.nd)
    (hg : I.jmax = 2 * I.nd - 1) (ha : 0 ≤ I.a) :
    ∃ x y, acc I pv i j k = (some x, some y) ∧ ∀ V, Fills V pv →
      x ≤ ({ I with pv := V }.acc i j k).1 ∧ y ≤ ({ I with pv := V }.acc i j k).2 := by
  refine ⟨_, _, acc_filled I pv i j k, fun V hV => ?_⟩
  have hw : ∀ jj ∈ Icc 1 I.nd, 0 ≤ I.a * I.dp * cos (I.dp * ((jj - 1 : ℤ) : ℝ)) := by
    intro jj hjj
    obtain ⟨h1, h2⟩ := mem_Icc.1 hjj
    have hd : I.dp = π / (2 * ((I.nd : ℝ) - 1)) := by
      rw [LwaIn.dp, hg]; congr 1; push_cast; ring
    have hnd : (0 : ℝ) < (I.nd : ℝ) - 1 := by
      have : (2 : ℝ) ≤ I.nd := by exact_mod_cast hn
      linarith
    have hdp : 0 < I.dp := by rw [hd]; positivity
    have e0 : (0 : ℝ) ≤ ((jj - 1 : ℤ) : ℝ) := by exact_mod_cast (by omega : (0 : ℤ) ≤ jj - 1)
    have e1 : ((jj - 1 : ℤ) : ℝ) ≤ (I.nd : ℝ) - 1 := by exact_mod_cast (by omega : jj - 1 ≤ I.nd - 1)
    have e2 : I.dp * ((jj - 1 : ℤ) : ℝ) ≤ π / 2 := by
      calc I.dp * ((jj - 1 : ℤ) : ℝ) ≤ I.dp * ((I.nd : ℝ) - 1) := mul_le_mul_of_nonneg_left e1 hdp.le
        _ = π / 2 := by rw [hd]; field_simp
    exact mul_nonneg (mul_nonneg ha hdp.le)
      (cos_nonneg_of_neg_pi_div_two_le_of_le (by have := pi_pos; have := mul_nonneg hdp.le e0; linarith) e2)
  rw [(acc_sums _ i j k).1, (acc_sums _ i j k).2, (acc_sums _ i j k).1, (acc_sums _ i j k).2]
  constructor
  · refine sum_le_sum fun jj hjj => mul_le_mul_of_nonneg_right ?_ (hw jj hjj)
    by_cases h : jj < j
    · rw [if_pos h, if_pos h]
      simp only [filled, rd3]
      cases hp : pv i (wrapJ I.jmax (jj + I.nd - 1)) (wrapK I.jmax (jj + I.nd - 1) k) with
      | none => simp
      | some v => rw [hV _ _ _ v hp]; rfl
    · rw [if_neg h, if_neg h]
  · refine sum_le_sum fun jj hjj => mul_le_mul_of_nonneg_right ?_ (hw jj hjj)
    by_cases h : j ≤ jj
    · rw [if_pos h, if_pos h]
      simp only [filled, rd3]
      cases hp : pv i (wrapJ I.jmax (jj + I.nd - 1)) (wrapK I.jmax (jj + I.nd - 1) k) with
      | none => simp
      | some v => rw [hV _ _ _ v hp]; rfl
    · rw [if_neg h, if_neg h]

/-- Where nothing is missing in the column, it is the wave activity of the field. -/
theorem C191_complete_partial (I : LwaIn) (pv : ℤ → ℤ → ℤ → Option ℝ) (i j k : ℤ) (hg : I.jmax = 2 * I.nd - 1)
    (h : ¬ GapInColumn I.nd pv i k) {V : ℤ → ℤ → ℤ → ℝ} (hV : Fills V pv) :
    acc I pv i j k = (some ({ I with pv := V }.acc i j k).1, some ({ I with pv := V }.acc i j k).2) := by
  have key : ∀ jj ∈ Icc 1 I.nd, rd3 I.jmax (filled I pv j k).pv i (jj + I.nd - 1) k = rd3 I.jmax V i (jj + I.nd - 1) k := by
    intro jj hjj
    obtain ⟨h1, h2⟩ := mem_Icc.1 hjj
    rw [rd3_of_mem (by omega) (by omega), rd3_of_mem (by omega) (by omega)]
    simp only [filled]
    cases hp : pv i (jj + I.nd - 1) k with
    | none => exact absurd ⟨jj, h1, h2, hp⟩ h
    | some v => rw [hV _ _ _ v hp]; rfl
  rw [acc_filled, (acc_sums _ i j k).1, (acc_sums _ i j k).2, (acc_sums _ i j k).1, (acc_sums _ i j k).2]
  refine Prod.ext ?_ ?_
  · refine congrArg some (sum_congr rfl fun jj hjj => ?_)
    have := key jj hjj
    simp only [filled] at this ⊢
    rw [this]; rfl
  · refine congrArg some (sum_congr rfl fun jj hjj => ?_)
    have := key jj hjj
    simp only [filled] at this ⊢
    rw [this]; rfl

/-- The flux routine treats missing values in the same way. -/
theorem C191_flux_partial (I : LwaIn) (J : FluxIn) (pv : ℤ → ℤ → ℤ → Option ℝ) (h1 : J.jmax = I.jmax) (h2 : J.nd = I.nd)
    (h4 : J.qref = I.qref) (h5 : J.a = I.a) (i j k : ℤ) :
    (fluxAcc J pv i j k).astar1 = (acc I pv i j k).1 ∧ (fluxAcc J pv i j k).astar2 = (acc I pv i j k).2 := by
  have e : acc I pv i j k = ((fluxAcc J pv i j k).astar1, (fluxAcc J pv i j k).astar2) := by
    unfold acc fluxAcc
    rw [h2]
    refine doLoop_map (f := fluxAccStep J pv i j k) (fun s : Acc => (s.astar1, s.astar2)) (fun jj t => ?_)
      ⟨some 0, some 0, some 0, some 0⟩
    have hd : J.dp = I.dp := by unfold FluxIn.dp LwaIn.dp; rw [h1]
    unfold accStep fluxAccStep FluxIn.phi
    rw [h1, h2, h4, h5, hd]
    dsimp only
    split_ifs <;> rfl
  rw [e]
  exact ⟨rfl, rfl⟩

/-- Three rows in the hemisphere; QGPV is missing in the second one. -/
def sampleIn : LwaIn := ⟨1, 5, 3, 3, 0, fun _ _ _ => 0, fun _ _ _ => 0, fun _ _ => 1, 1, 1, 1, 1⟩

/-- QGPV with a gap. -/
def samplePv : ℤ → ℤ → ℤ → Option ℝ := fun _ j _ => if j = 4 then none else some 2

/-- The code violates this. -/
theorem C191_refuted : ¬ C191_Statement := by
  intro h
  obtain ⟨x, y, e, _⟩ := C191_lower_bound_partial sampleIn samplePv 1 1 2 (by simp [sampleIn]) (by simp [sampleIn])
    (by simp [sampleIn])
  rcases h sampleIn samplePv 1 1 2 (by simp [sampleIn]) (by simp [sampleIn]) (by simp [sampleIn]) (by simp [sampleIn])
    ⟨2, by norm_num, by simp [sampleIn], by simp [sampleIn, samplePv]⟩ with h | h <;> simp [e] at h

example : Fills (fun _ _ _ => 2) samplePv := by
  intro i j k v h
  by_cases hj : j = 4
  · simp [samplePv, hj] at h
  · simpa [samplePv, hj] using h

end Gap

end Falwa
