import Verif.Model.AreaRounding

/-!
# Reference QGPV of one level with rounding

Source: `/repo/src/falwa/f90_modules/compute_reference_states.f90` lines 80-82 and 98-108; the same lines for QGPV in
`compute_qref_and_fawa_first.f90`, 69-71 and 87-98.

The array `alat` is an argument: whatever the machine stored on lines 35-38. A compiler that contracts `x*w + y*d` may fuse either
product, so the choice is an argument too.
-/

noncomputable section

namespace Falwa

namespace Machine

variable (m : Machine)

/-- Line 103: `x*(1.-dd)+y*dd`; `first` tells which product is fused, on machines that fuse. -/
def blend (first : Bool) (x y dd : ℝ) : ℝ :=
  if first then m.mulAdd (m.fl (y * dd)) x (m.fl (1 - dd)) else m.mulAdd (m.fl (x * m.fl (1 - dd))) y dd

end Machine

namespace AreaIn

variable (I : AreaIn) (m : Machine)

/-- Line 81. -/
def qnFl (nn : ℤ) : ℝ := m.mulSub I.qmax (I.dqFl m) ((nn - 1 : ℤ) : ℝ)

/-- Line 102. -/
def ddFl (alat : ℤ → ℝ) (j nn : ℤ) : ℝ := m.fl (m.fl (alat j - I.aanFl m nn) / m.fl (I.aanFl m (nn + 1) - I.aanFl m nn))

/-- Lines 99-105: the value of `qref(j, k)`, `none` if it is not assigned. -/
def placedFl (first : Bool) (alat : ℤ → ℝ) (j : ℤ) : Option ℝ :=
  doLoop 1 (I.npart - 1) (fun nn s =>
    if I.aanFl m nn ≤ alat j ∧ alat j < I.aanFl m (nn + 1) then
      some (m.blend first (I.qnFl m nn) (I.qnFl m (nn + 1)) (I.ddFl m alat j nn))
    else s) none

/-- Lines 98-108: `qref(j, k)`. -/
def qrefFl (first : Bool) (alat : ℤ → ℝ) (j : ℤ) : ℝ := if j = I.nd then I.qmax else (I.placedFl m first alat j).getD 0

end AreaIn

end Falwa

end
