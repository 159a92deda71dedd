import Verif.Model.Numpy
import Mathlib.Analysis.SpecialFunctions.Trigonometric.Inverse

/-!
# Model of `basis.eqvlat_fawa` and `basis.eqvlat_vgrad`

Source: `/repo/src/falwa/basis.py` lines 11-134.

Simplifications: real arithmetic. `np.arcsin` outside `[-1, 1]` gives NaN, which the model keeps as
`none`; a NaN among the sample points makes the result of `np.interp` unspecified, so the whole result is
`Outcome.nan` then. `vort.flatten()` is the set of index pairs, because only sums over cells are taken.
-/

namespace Falwa

open Finset

/-- Result of an analysis: a `ValueError` (empty array or no bin), NaN-contaminated output, or a value. -/
inductive Outcome (α : Type*) where
  | valueError
  | nan
  | ok (a : α)

/-- Transform the value of an outcome. -/
def Outcome.map {α β : Type*} (f : α → β) : Outcome α → Outcome β
  | .valueError => .valueError
  | .nan => .nan
  | .ok a => .ok (f a)

/-- `np.rad2deg`. -/
noncomputable def rad2deg (x : ℝ) : ℝ := x * 180 / Real.pi

/-- `np.rad2deg(np.arcsin(x))`, `none` for NaN. -/
noncomputable def arcsinDeg (x : ℝ) : Option ℝ :=
  if -1 ≤ x ∧ x ≤ 1 then some (rad2deg (Real.arcsin x)) else none

/-- The input of the analysis: grid size, latitudes in degrees, field, cell areas. -/
structure EqvInput where
  nlat : ℕ
  nlon : ℕ
  ylat : ℕ → ℝ
  vort : ℕ → ℕ → ℝ
  area : ℕ → ℕ → ℝ
  nPoints : ℕ
  radius : ℝ

namespace EqvInput

variable (I : EqvInput)

/-- `vort_bins`, basis.py lines 41-43 (and 97-99). -/
noncomputable def bins (i : ℕ) : ℝ :=
  linspace (amin I.nlat I.nlon I.vort) (amax I.nlat I.nlon I.vort) I.nPoints i

/-- `inds`, basis.py line 47 (and 109): the bin of cell `p`. -/
noncomputable def ind (p : ℕ × ℕ) : ℕ := digitize I.nPoints I.bins (I.vort p.1 p.2)

/-- `w[np.where(inds == i)].sum()`, basis.py lines 48-50 (and 111): total of `w` over the cells in bin `i`. -/
noncomputable def binSum (w : ℕ → ℕ → ℝ) (i : ℕ) : ℝ :=
  ∑ p ∈ (cells I.nlat I.nlon).filter (fun p => I.ind p = i), w p.1 p.2

/-- `aq`, basis.py line 48: `np.cumsum([0] + [sum of bin i for i in range(1, n)])`. -/
noncomputable def aq (i : ℕ) : ℝ := cumsum (fun m => if m = 0 then 0 else I.binSum I.area m) i

/-- `cq`, basis.py lines 49-50. -/
noncomputable def cq (i : ℕ) : ℝ :=
  cumsum (fun m => if m = 0 then 0 else I.binSum (fun r c => I.area r c * I.vort r c) m) i

/-- `aq` of `eqvlat_vgrad`, basis.py lines 110-111 and 120: bins `0 .. n-1` are summed. -/
noncomputable def aqVgrad (i : ℕ) : ℝ := cumsum (fun m => I.binSum I.area m) i

/-- `eqv_gaussian_grid`, basis.py line 51 (and 125). -/
noncomputable def gaussianGrid (aq : ℕ → ℝ) (i : ℕ) : ℝ := aq i / (2 * Real.pi * I.radius ^ 2) - 1

/-- `eqv_latitude`, basis.py line 52 (and 126). -/
noncomputable def eqvLatitude (aq : ℕ → ℝ) (i : ℕ) : Option ℝ := arcsinDeg (I.gaussianGrid aq i)

/-- Interpolation of a per-bin quantity to `ylat`, basis.py lines 53 and 57 (and 127, 130). -/
noncomputable def interpToYlat (aq fp : ℕ → ℝ) : Outcome (ℕ → ℝ) :=
  if I.nlat = 0 ∨ I.nlon = 0 ∨ I.nPoints = 0 then .valueError
  else if ∀ i < I.nPoints, (I.eqvLatitude aq i).isSome then
    .ok (fun j => npInterp I.nPoints (fun i => (I.eqvLatitude aq i).getD 0) fp (I.ylat j))
  else .nan

/-- First result of `basis.eqvlat_fawa`, basis.py lines 41-53. -/
noncomputable def qref : Outcome (ℕ → ℝ) := I.interpToYlat I.aq I.bins

/-- First result of `basis.eqvlat_vgrad`, basis.py lines 97-127. -/
noncomputable def qrefVgrad : Outcome (ℕ → ℝ) := I.interpToYlat I.aqVgrad I.bins

/-- `dp`, basis.py lines 104-118: area average of `vgrad` in bin `i`, 0 if the bin area is 0. -/
noncomputable def dp (vgrad : ℕ → ℕ → ℝ) (i : ℕ) : ℝ :=
  if I.binSum I.area i = 0 then 0
  else I.binSum (fun r c => I.area r c * vgrad r c) i / I.binSum I.area i

/-- `brac`, basis.py lines 121-123. -/
noncomputable def brac (vgrad : ℕ → ℕ → ℝ) (i : ℕ) : ℝ :=
  if 1 ≤ i ∧ i + 1 < I.nPoints then (1 / 2) * (I.dp vgrad (i - 1) + I.dp vgrad (i + 1)) else 0

/-- Second result of `basis.eqvlat_vgrad`, basis.py lines 129-134. -/
noncomputable def bracReturn (vgrad : ℕ → ℕ → ℝ) : Outcome (ℕ → ℝ) :=
  I.interpToYlat I.aqVgrad (I.brac vgrad)

/-- `qbar`, basis.py line 42. -/
noncomputable def qbar (j : ℕ) : ℝ := (∑ c ∈ range I.nlon, I.vort j c) / I.nlon

/-- `area.sum(axis=1)[j]`, basis.py line 60. -/
noncomputable def rowArea (j : ℕ) : ℝ := ∑ c ∈ range I.nlon, I.area j c

/-- `cbar`, basis.py lines 58-60: `cbar[j]` for `j = nlat-2, ..., 1` accumulates from the top,
`cbar[nlat-1]` and `cbar[0]` stay 0. Here `d` counts down from the last row: the value at row `nlat-1-d`. -/
noncomputable def cbarFromTop : ℕ → ℝ
  | 0 => 0
  | d + 1 => cbarFromTop d +
      (1 / 2) * (I.qbar (I.nlat - 1 - d) * I.rowArea (I.nlat - 1 - d) +
        I.qbar (I.nlat - 2 - d) * I.rowArea (I.nlat - 2 - d))

/-- `cbar[j]`, basis.py lines 58-60. -/
noncomputable def cbar (j : ℕ) : ℝ := if 1 ≤ j ∧ j < I.nlat then I.cbarFromTop (I.nlat - 1 - j) else 0

/-- Second result of `basis.eqvlat_fawa` with `output_fawa=True`, basis.py lines 56-62;
entry `j` belongs to latitude `j + 1` and there are `nlat - 1` entries. -/
noncomputable def fawa : Outcome (ℕ → ℝ) :=
  (I.interpToYlat I.aq I.cq).map fun cref j =>
    -(I.cbar (j + 1) + cref (j + 1)) / (2 * Real.pi * I.radius)

end EqvInput

end Falwa
