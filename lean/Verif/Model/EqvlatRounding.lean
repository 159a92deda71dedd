import Verif.Model.Eqvlat
import Verif.Model.Barotropic
import Verif.Model.Linspace

/-!
# Model of the reference profile of `basis.eqvlat_fawa` with rounding

Source: `/repo/src/falwa/basis.py` lines 41-53 and `/repo/src/falwa/barotropic_field.py` lines 77-90.

`Model/Eqvlat.lean` uses exact arithmetic. Here the result of every operation up to the Gaussian grid is passed through a function `fl`, the rounding of
the machine; `p` is the number that stands for pi. `ndarray.sum` may add in any order, which is an argument. The errors of `np.arcsin`, `np.rad2deg` and
`np.interp` are left out; those of `np.cos` are left to the hypotheses.
-/

noncomputable section

namespace Falwa

/-- The sum of the places of an array that a list names; of no place it is 0. -/
def flSum (fl : ℝ → ℝ) (f : ℕ → ℝ) : Option SumOrder → ℝ
  | none => 0
  | some t => t.eval fl f

/-- The order adds every place of the list once. -/
def IsOrder (l : List ℕ) : Option SumOrder → Prop
  | none => l = []
  | some t => t.rows.Perm l

namespace EqvInput

variable (I : EqvInput) (fl : ℝ → ℝ) (p : ℝ) (t : ℕ → Option SumOrder)

/-- `.flatten()`, basis.py line 44. -/
def flat (f : ℕ → ℕ → ℝ) (k : ℕ) : ℝ := f (k / I.nlon) (k % I.nlon)

/-- `vort_bins` with rounding, basis.py line 43. -/
def flBins (i : ℕ) : ℝ := linspaceFl fl (amin I.nlat I.nlon I.vort) (amax I.nlat I.nlon I.vort) I.nPoints i

/-- `inds`, basis.py line 47. -/
def flInd (k : ℕ) : ℕ := digitize I.nPoints (I.flBins fl) (I.flat I.vort k)

/-- `np.where(inds == i)`, basis.py line 48. -/
def inBin (i : ℕ) : List ℕ := (List.range (I.nlat * I.nlon)).filter fun k => I.flInd fl k = i

/-- `aq` with rounding, basis.py line 48; `t i` is the order in which the areas of bin `i` are added. -/
def flAq : ℕ → ℝ
  | 0 => 0
  | i + 1 => fl (flAq i + flSum fl (I.flat I.area) (t (i + 1)))

/-- `2 * pi * planet_radius ** 2`, basis.py line 51. -/
def flHalf : ℝ := fl (fl (2 * p) * fl (I.radius * I.radius))

/-- `eqv_gaussian_grid` with rounding, basis.py line 51. -/
def flGaussian (i : ℕ) : ℝ := fl (fl (I.flAq fl t i / I.flHalf fl p) - 1)

/-- `qref` with rounding, basis.py lines 52-53. -/
def flQref : Outcome (ℕ → ℝ) :=
  if I.nlat = 0 ∨ I.nlon = 0 ∨ I.nPoints = 0 then .valueError
  else if ∀ i < I.nPoints, (arcsinDeg (I.flGaussian fl p t i)).isSome then
    .ok fun j => npInterp I.nPoints (fun i => (arcsinDeg (I.flGaussian fl p t i)).getD 0) (I.flBins fl) (I.ylat j)
  else .nan

end EqvInput

/-- The default `area` of `BarotropicField` with rounding, barotropic_field.py lines 82-90; `c j` is the computed cosine of row `j`. -/
def flDefaultArea (fl : ℝ → ℝ) (p radius : ℝ) (nlat nlon : ℕ) (c : ℕ → ℝ) (j _ : ℕ) : ℝ :=
  fl (fl (fl (fl (fl (2 * p) * fl (radius * radius)) * fl (c j * fl (fl (p / ((nlat - 1 : ℕ) : ℝ)) * 1))) / nlon) * 1)

/-- The `dmu` argument of `basis.lwa` with rounding, barotropic_field.py lines 82 and 122; `c j` is the computed cosine of row `j`. -/
def flDmu (fl : ℝ → ℝ) (p radius : ℝ) (nlat : ℕ) (c : ℕ → ℝ) (j : ℕ) : ℝ := fl (fl (radius * c j) * fl (fl (p / ((nlat - 1 : ℕ) : ℝ)) * 1))

end Falwa

end
