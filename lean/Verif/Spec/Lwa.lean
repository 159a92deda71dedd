import Mathlib.Algebra.BigOperators.Group.Finset.Basic
import Mathlib.Algebra.Order.Field.Basic

/-!
# Specification of local wave activity

Huang and Nakamura (2016), equation (13): at latitude row `j` and longitude `c` the wave activity
is the integral of `|q - Q(j)|` over the rows whose value is on the wrong side of the contour `Q(j)`.
The definitions do not use anything of the model.
-/

namespace Falwa.Spec

open Finset

variable {K : Type*} [Field K] [LinearOrder K]

/-- The value in row `r` has crossed the contour of row `j`:
either `r` is poleward of `j` and the value is below `Q j`,
or `r` is at or equatorward of `j` and the value is above `Q j`. -/
def Displaced (vort : ℕ → ℕ → K) (Q : ℕ → K) (j r c : ℕ) : Prop :=
  (j < r ∧ vort r c < Q j) ∨ (r ≤ j ∧ Q j < vort r c)

instance (vort : ℕ → ℕ → K) (Q : ℕ → K) (j r c : ℕ) : Decidable (Displaced vort Q j r c) := by
  unfold Displaced; infer_instance

/-- Local wave activity: the sum over displaced rows of `|q - Q j| dmu`. -/
def waveActivity (nlat : ℕ) (vort : ℕ → ℕ → K) (Q dmu : ℕ → K) (j c : ℕ) : K :=
  ∑ r ∈ (range nlat).filter (fun r => Displaced vort Q j r c), |vort r c - Q j| * dmu r

/-- The part from rows poleward of the contour. -/
def deficitPoleward (nlat : ℕ) (vort : ℕ → ℕ → K) (Q dmu : ℕ → K) (j c : ℕ) : K :=
  ∑ r ∈ (range nlat).filter (fun r => j < r ∧ vort r c < Q j), (Q j - vort r c) * dmu r

/-- The part from rows at or equatorward of the contour. -/
def surplusEquatorward (nlat : ℕ) (vort : ℕ → ℕ → K) (Q dmu : ℕ → K) (j c : ℕ) : K :=
  ∑ r ∈ (range nlat).filter (fun r => r ≤ j ∧ Q j < vort r c), (vort r c - Q j) * dmu r

end Falwa.Spec
