import Verif.Model.PyError
import Verif.Model.Rounding
import Mathlib.Algebra.Order.Floor.Ring
import Mathlib.Data.Real.Basic
import Mathlib.Algebra.Order.Archimedean.Real.Basic

/-!
# The height array of the NHN22 solver

Source: `/repo/src/falwa/oopinterface.py` lines 1838-1856: for every level the solver calls `matrix_b4_inversion` with
`z=np.arange(0, self.kmax * self.dz, self.dz)`, `statn=static_stability` and other arrays with `kmax` levels.

`np.arange(start, stop, step)` has `ceil((stop - start)/step)` elements, computed in double precision (numpy, `_calc_length`). The wrapper
that f2py generates for `matrix_b4_inversion` takes `kmax` from the first array declared with it, which is `z` (`matrix_b4_inversion.f90`
lines 1-7), and refuses every other array with another number of levels.
-/

noncomputable section

namespace Falwa

/-- `len(np.arange(0, stop, step))`; `fl` is the rounding of the machine. -/
def arangeLen (fl : ℝ → ℝ) (stop step : ℝ) : ℤ := max 0 ⌈fl (fl (stop - 0) / step)⌉

/-- Elements of `z`, line 1845. -/
def zLen (fl : ℝ → ℝ) (kmax : ℤ) (dz : ℝ) : ℤ := arangeLen fl (fl ((kmax : ℝ) * dz)) dz

/-- The check of the dimensions in one call of `matrix_b4_inversion`, lines 1839-1856: `statn` comes from `interpolate_fields` and has
one element for every element of `self.height`, that is `kmax` (lines 113-122, 530-533). -/
def callB4 (fl : ℝ → ℝ) (kmax : ℤ) (dz : ℝ) : Except PyError Unit :=
  if zLen fl kmax dz = kmax then .ok () else .error .valueError

/-- Lines 1838-1870: `for k in range(kmax - 1, 1, -1)`, as far as the dimensions are concerned. -/
def sweepDims (fl : ℝ → ℝ) (kmax : ℤ) (dz : ℝ) : ℕ → Except PyError Unit
  | 0 => .ok ()
  | n + 1 => do
      callB4 fl kmax dz
      sweepDims fl kmax dz n

/-- `compute_reference_states` of `QGFieldNHN22`, as far as the dimensions are concerned. -/
def nhn22Dims (fl : ℝ → ℝ) (kmax : ℤ) (dz : ℝ) : Except PyError Unit := sweepDims fl kmax dz (kmax - 2).toNat

end Falwa
