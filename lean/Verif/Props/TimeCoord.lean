import Verif.Model.TimeCoord
import Verif.Props.Xarray
import Mathlib.Tactic.FieldSimp
import Mathlib.Tactic.Positivity

/-!
# C201: times of any resolution in `integrate_budget`
-/

noncomputable section

namespace Falwa.Xr

open Finset

/-- Seconds from 1970 to the instant that a time stamp denotes. -/
def instant (u : TimeUnit) (tick : ℤ) : ℝ := (tick : ℝ) / u.ticks

theorem ticks_pos (u : TimeUnit) : 0 < u.ticks := by
  cases u <;> norm_num [TimeUnit.ticks]

theorem toSeconds_sub (u : TimeUnit) (n : ℕ) (stamp : ℕ → ℤ) (i j : ℕ) :
    toSeconds u n stamp i - toSeconds u n stamp j = instant u (stamp i) - instant u (stamp j) := by
  unfold toSeconds instant
  push_cast
  ring

/-- The attribute is the time between the first and the last instant, in seconds. -/
def C201_Statement : Prop :=
  ∀ (u : TimeUnit) (n : ℕ) (stamp : ℕ → ℤ), 0 < n →
    integrationSeconds (.dates u n stamp) = .ok (instant u (stamp (n - 1)) - instant u (stamp 0))

/-- **C201, when the attribute is right**: for times in nanoseconds, and otherwise only if the interval is empty. -/
theorem C201_iff (u : TimeUnit) (n : ℕ) (stamp : ℕ → ℤ) (hn : 0 < n) :
    integrationSeconds (.dates u n stamp) = .ok (instant u (stamp (n - 1)) - instant u (stamp 0)) ↔ u = .ns ∨ stamp (n - 1) = stamp 0 := by
  have h0 : n ≠ 0 := hn.ne'
  unfold integrationSeconds instant
  dsimp only
  rw [if_neg h0, Except.ok.injEq, ← sub_div]
  push_cast
  constructor
  · intro e
    by_cases hz : stamp (n - 1) = stamp 0
    · exact Or.inr hz
    · left
      have hd : ((stamp (n - 1) : ℝ) - stamp 0) ≠ 0 := sub_ne_zero.2 (by exact_mod_cast hz)
      rw [div_eq_div_iff (by norm_num) (ticks_pos u).ne'] at e
      have e' := mul_left_cancel₀ hd e
      cases u
      · norm_num [TimeUnit.ticks] at e'
      · norm_num [TimeUnit.ticks] at e'
      · norm_num [TimeUnit.ticks] at e'
      · rfl
  · rintro (e | e)
    · rw [e]
      rfl
    · rw [e]
      simp

/-- **C201, violated**: six hours in time stamps of one second give 0.0000216. -/
theorem C201_refuted : ¬ C201_Statement := fun h => by
  rcases (C201_iff .s 2 (fun k => 21600 * k) (by norm_num)).1 (h .s 2 (fun k => 21600 * k) (by norm_num)) with e | e
  · cases e
  · norm_num at e

/-- **C201 for times in nanoseconds.** -/
theorem C201_partial (n : ℕ) (stamp : ℕ → ℤ) (hn : 0 < n) :
    integrationSeconds (.dates .ns n stamp) = .ok (instant .ns (stamp (n - 1)) - instant .ns (stamp 0)) :=
  (C201_iff .ns n stamp hn).2 (Or.inl rfl)

/-- **C201, the five terms do not depend on the resolution**: for time stamps of any resolution that denote the same instants `t` (all
different) the terms are those of the budget over `t`. -/
theorem C201_terms (u : TimeUnit) {n : ℕ} (stamp : ℕ → ℤ) (t : ℕ → ℝ) (hn : 0 < n) (ht : ∀ k < n, instant u (stamp k) = t k)
    (hd : DistinctTimes n t) (lwa czaf demf mhf : ℕ → ℝ) :
    ∃ s, integrateBudgetOf (.dates u n stamp) lwa czaf demf mhf = .ok (integrateBudget n t lwa czaf demf mhf, s) := by
  refine ⟨((stamp (n - 1) - stamp 0 : ℤ) : ℝ) / 10 ^ 9, ?_⟩
  have h0 : n ≠ 0 := hn.ne'
  have e1 : integrationSeconds (.dates u n stamp) = .ok (((stamp (n - 1) - stamp 0 : ℤ) : ℝ) / 10 ^ 9) := by
    unfold integrationSeconds
    dsimp only
    rw [if_neg h0]
  have hd' : DistinctTimes n (toSeconds u n stamp) := fun i j hi hj e => hd i j hi hj (by
    have := toSeconds_sub u n stamp i j
    rw [e, sub_self, ht i hi, ht j hj] at this
    linarith)
  have hi : ∀ y, integrate n (toSeconds u n stamp) y = integrate n t y := fun y => by
    refine sum_congr rfl fun i hi => ?_
    have := mem_range.1 hi
    rw [toSeconds_sub, ht _ (by omega), ht _ (by omega)]
  have e2 : integrateBudget n (toSeconds u n stamp) lwa czaf demf mhf = integrateBudget n t lwa czaf demf mhf := by
    unfold integrateBudget
    simp only [hi, selTime_eq hd' (show n - 1 < n by omega), selTime_eq hd' hn, selTime_eq hd (show n - 1 < n by omega), selTime_eq hd hn]
  unfold integrateBudgetOf
  dsimp only
  rw [e1, ← e2]
  rfl

/-- **C201, numbers as times**: no result; every call raises, although xarray integrates over such a coordinate. -/
theorem C201_numbers (n : ℕ) (t : ℕ → ℝ) (lwa czaf demf mhf : ℕ → ℝ) :
    ∃ e, integrateBudgetOf (.numbers n t) lwa czaf demf mhf = .error e := by
  unfold integrateBudgetOf integrationSeconds
  dsimp only
  split_ifs <;> exact ⟨_, rfl⟩

/-- Hypotheses of `C201_terms`: three times six hours apart, in microseconds. -/
example : ∃ s, integrateBudgetOf (.dates .us 3 fun k => 21600000000 * k) (fun k => k) (fun _ => 1) (fun _ => 0) (fun _ => 0) =
    .ok (integrateBudget 3 (fun k => 21600 * k) (fun k => k) (fun _ => 1) (fun _ => 0) fun _ => 0, s) :=
  C201_terms .us _ _ (by norm_num) (fun k _ => by unfold instant TimeUnit.ticks; push_cast; ring)
    (fun i j _ _ e => by exact_mod_cast mul_left_cancel₀ (by norm_num : (21600 : ℝ) ≠ 0) e) _ _ _ _

/-- Hypotheses of `C201_iff` and `C201_partial`: six hours in nanoseconds. -/
example : integrationSeconds (.dates .ns 2 fun k => 21600000000000 * k) = .ok 21600 := by
  rw [C201_partial 2 _ (by norm_num)]
  unfold instant TimeUnit.ticks
  norm_num

end Falwa.Xr

end
