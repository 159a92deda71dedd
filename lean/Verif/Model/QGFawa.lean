import Verif.Model.DirectInv

/-!
# FAWA on the QG grid

The part of `/repo/src/falwa/f90_modules/compute_qref_and_fawa_first.f90` (file Q) that computes the finite-amplitude wave
activity `fawa`: zonal mean of QGPV, lines 43-53, its integral over the polar cap, lines 99-104, and the difference from the
circulation `cref` of the area analysis, line 157. `compute_reference_states.f90` has the same integral (lines 110-115,
`RefIn.cbar`) and uses the difference in its boundary condition (line 195, `RefIn.bound`).

`cref` and `cbar` are local arrays without initial value. Lines 87-95 assign `cref` for rows `1 … nd-1` that fall into a
partition, lines 99-104 assign `cbar` for all rows, both only for levels `2 … kmax-1`. Line 157 reads all elements. A difference
with an unassigned operand is the parameter `unset`.
-/

noncomputable section

namespace Falwa

open Real

namespace AreaIn

variable (I : AreaIn)

/-- Zonal mean of the field in row `j` of the hemisphere, Q 44-53. -/
def qbar (j : ℤ) : ℝ := dosum 1 I.imax (fun i => I.q i (j + (I.nd - 1)) / (I.imax : ℝ))

/-- Integral of the zonal mean over the cap north of row `j`, Q 99-104. -/
def cbar : ℤ → ℝ :=
  doDown (I.nd - 1) 1 (fun j s => Function.update s j (s (j + 1) +
    0.5 * (I.qbar (j + 1) + I.qbar j) * I.a * I.dphi * 2 * π * I.a * cos (I.dphi * ((j : ℝ) - 0.5)))) (fun _ => 0)

/-- `cref(j,k)` is assigned: Q 87-95. -/
def Assigned (j : ℤ) : Prop := (1 ≤ j ∧ j ≤ I.nd - 1) ∧ (I.placed j).isSome = true

instance (j : ℤ) : Decidable (I.Assigned j) := by unfold Assigned; infer_instance

end AreaIn

namespace NhnIn

variable (I : NhnIn)

/-- `fawa` on return, Q 157. -/
def fawa (unset : ℤ → ℤ → ℝ) (j k : ℤ) : ℝ :=
  if (2 ≤ k ∧ k ≤ I.kmax - 1) ∧ (I.area I.pv k).Assigned j then
    ((I.area I.pv k).cref 0 j - (I.area I.pv k).cbar j) / (2 * π * I.a)
  else unset j k / (2 * π * I.a)

end NhnIn

end Falwa
