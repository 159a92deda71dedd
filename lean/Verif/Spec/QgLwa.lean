import Mathlib.Analysis.SpecialFunctions.Trigonometric.Basic
import Mathlib.Algebra.BigOperators.Group.Finset.Basic
import Mathlib.Data.Int.Interval

/-!
# Specification of quasigeostrophic local wave activity

Huang and Nakamura (2017), equation (8), on a latitude grid whose rows are numbered from south to north. PV increases
northward in the reference state of both hemispheres. A row `r` is displaced with respect to row `g` if its PV is on the
wrong side of the reference value of row `g`. The row `g` itself is counted on the poleward side.
The definitions do not use anything of the model.
-/

noncomputable section

namespace Falwa.Spec

open Finset

/-- Northern Hemisphere: at or north of `g` the PV is too low, or south of `g` it is too high. -/
def DisplacedNorth (q : ℤ → ℝ) (Q : ℝ) (g r : ℤ) : Prop := (g ≤ r ∧ q r < Q) ∨ (r < g ∧ Q < q r)

/-- Southern Hemisphere: at or south of `g` the PV is too high, or north of `g` it is too low. -/
def DisplacedSouth (q : ℤ → ℝ) (Q : ℝ) (g r : ℤ) : Prop := (r ≤ g ∧ Q < q r) ∨ (g < r ∧ q r < Q)

instance (q : ℤ → ℝ) (Q : ℝ) (g r : ℤ) : Decidable (DisplacedNorth q Q g r) := Classical.dec _
instance (q : ℤ → ℝ) (Q : ℝ) (g r : ℤ) : Decidable (DisplacedSouth q Q g r) := Classical.dec _

/-- Wave activity at row `g` from the rows `hemisphere`, with area weight `w`. -/
def waveActivityNorth (hemisphere : Finset ℤ) (q : ℤ → ℝ) (Q : ℝ) (w : ℤ → ℝ) (g : ℤ) : ℝ :=
  ∑ r ∈ hemisphere.filter (fun r => DisplacedNorth q Q g r), |q r - Q| * w r

/-- The same for the Southern Hemisphere. -/
def waveActivitySouth (hemisphere : Finset ℤ) (q : ℤ → ℝ) (Q : ℝ) (w : ℤ → ℝ) (g : ℤ) : ℝ :=
  ∑ r ∈ hemisphere.filter (fun r => DisplacedSouth q Q g r), |q r - Q| * w r

end Falwa.Spec
