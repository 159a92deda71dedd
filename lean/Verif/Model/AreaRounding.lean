import Verif.Model.AreaAnalysis
import Verif.Model.FluxRounding

/-!
# Area analysis with rounding

Source: `/repo/src/falwa/f90_modules/compute_reference_states.f90` lines 68-97; the same block twice in
`compute_qref_and_fawa_first.f90`, lines 58-86 and 109-132.

The result of every operation is passed through the rounding of the machine, as in `Model/FluxRounding.lean`. `maxval` and `minval`
do not round. On a constant level `dq` is zero and the quotient on line 86 is 0/0; `int` of it is not defined by the language, so there
is no index. (`AreaIn.ind` of `Model/AreaAnalysis.lean` is used for levels that are not constant only.)
-/

noncomputable section

namespace Falwa

open Real

namespace AreaIn

variable (I : AreaIn) (m : Machine)

/-- Line 76. -/
def dqFl : ℝ := m.fl (m.fl (I.qmax - I.qmin) / ((I.npart - 1 : ℤ) : ℝ))

/-- Line 86: the quotient before `int`. -/
def quotFl (i j : ℤ) : ℝ := m.fl (m.fl (I.qmax - I.q i j) / I.dqFl m)

/-- Line 86: `ind`, if the division is defined. -/
def indFl (i j : ℤ) : Option ℤ := if I.dqFl m = 0 then none else some (1 + fint (I.quotFl m i j))

/-- Line 84: `-0.5*pi+dphi*float(j-1)`. -/
def phi0Fl (j : ℤ) : ℝ := m.mulAdd (m.fl (-(0.5 * m.piFl))) I.dphi ((j - 1 : ℤ) : ℝ)

/-- Line 87: `a*a*dphi*dlambda*cos(phi0)`, from left to right. -/
def daFl (j : ℤ) : ℝ := m.fl (m.fl (m.fl (m.fl (I.a * I.a) * I.dphi) * I.dlambda) * m.cosFl (I.phi0Fl m j))

/-- Lines 86-88 for `an`; nothing is stored where the index is not defined. -/
def anStepFl (j i : ℤ) (s : ℤ → ℝ) : ℤ → ℝ :=
  match I.indFl m i j with
  | none => s
  | some n => Function.update s n (m.fl (s n + I.daFl m j))

/-- Lines 78, 83-91: `an`. -/
def anFl : ℤ → ℝ := doLoop 1 I.jmax (fun j s => doLoop 1 I.imax (I.anStepFl m j) s) fun _ => 0

/-- Lines 92-97: `aan`. -/
def aanFl : ℤ → ℝ :=
  doLoop 2 I.npart (fun nn s => Function.update s nn (m.fl (s (nn - 1) + I.anFl m nn))) fun _ => 0

end AreaIn

end Falwa

end
