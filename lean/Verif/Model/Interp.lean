import Verif.Model.Pipeline
import Verif.Model.Grid
import Verif.Model.Utilities

/-!
# Model of the interpolations of `QGField` and of the preparation of its input

Source: `/repo/src/falwa/oopinterface.py` lines 118-158 (constructor), 272-279 (masked arrays), 363-403 (back to the input grid),
537-541 (vertical interpolation), 985-1019 (forcing from a heating rate).

`scipy.interpolate.interp1d` with `kind="linear"` and `fill_value="extrapolate"` is modelled as its method `_call_linear`:
`searchsorted`, `clip(1, n - 1)`, and the line through the two points. It sorts its nodes first; the model takes nodes that are
in ascending order already. Exact arithmetic. Indices start at 0.
-/

noncomputable section

namespace Falwa

open Finset

section Interp1d

variable {K : Type*} [Field K] [LinearOrder K]

/-- `np.searchsorted(x, t)` for ascending `x`: the number of nodes below `t`. -/
def searchLeft (n : ℕ) (x : ℕ → K) (t : K) : ℕ := ((range n).filter fun i => x i < t).card

/-- `searchsorted(x, t).clip(1, n - 1)`: the upper one of the two nodes used. -/
def upperNode (n : ℕ) (x : ℕ → K) (t : K) : ℕ := min (max (searchLeft n x t) 1) (n - 1)

/-- `interp1d(x, y, fill_value="extrapolate")(t)`: `slope * (t - x_lo) + y_lo`. -/
def interp1d (n : ℕ) (x y : ℕ → K) (t : K) : K :=
  (y (upperNode n x t) - y (upperNode n x t - 1)) / (x (upperNode n x t) - x (upperNode n x t - 1)) *
    (t - x (upperNode n x t - 1)) + y (upperNode n x t - 1)

end Interp1d

/-! ### Vertical -/

/-- Vertical part of the constructor arguments. -/
structure VertGrid where
  /-- number of pressure levels -/
  nlev : ℕ
  /-- pressure in hPa -/
  plev : ℕ → ℝ
  /-- scale height -/
  h : ℝ
  /-- number of analysis levels -/
  kmax : ℕ
  /-- their spacing -/
  dz : ℝ

namespace VertGrid

variable (V : VertGrid)

/-- `_plev_to_height`, lines 120 and 302; `P_GROUND` is 1000. -/
def z (l : ℕ) : ℝ := -V.h * Real.log (V.plev l / 1000)

/-- `height`, line 121. -/
def level (k : ℕ) : ℝ := k * V.dz

/-- `_vertical_interpolation` of one column, lines 537-541. -/
def column (y : ℕ → ℝ) (k : ℕ) : ℝ := interp1d V.nlev V.z y (V.level k)

/-- `theta_field` from temperature, lines 127-128. -/
def theta (rr cp : ℝ) (t : ℕ → ℝ) (l : ℕ) : ℝ := t l * Real.exp (rr / cp * V.z l / V.h)

end VertGrid

/-! ### Latitude, even grids without equator -/

/-- `_ylat` on an even grid with `n` input rows, line 329. -/
def analysisLat (n r : ℕ) : ℝ := -90 + 180 * r / n

/-- Interpolation of one meridian to the analysis grid, lines 149-154. -/
def toAnalysis (n : ℕ) (ylat y : ℕ → ℝ) (r : ℕ) : ℝ := interp1d n ylat y (analysisLat n r)

/-- `_return_interp_variables` in global mode, lines 363-373 and 401. -/
def fromAnalysis (n : ℕ) (ylat y : ℕ → ℝ) (i : ℕ) : ℝ := interp1d (n + 1) (analysisLat n) y (ylat i)

/-- A row of `interpolated_u` where no vertical interpolation is needed: through the analysis grid on grids that need it, the
input itself otherwise (lines 148-158, 394-403). -/
def reportedRow (n : ℕ) (ylat y : ℕ → ℝ) (i : ℕ) : ℝ :=
  match checkYlat n ylat with
  | .ok g => if g.needInterp then fromAnalysis n ylat (toAnalysis n ylat y) i else y i
  | .error _ => 0

/-! ### Masked arrays -/

/-- A numpy masked array: values, and which of them are invalid. -/
structure MaskedArray where
  data : ℕ → ℕ → ℕ → ℝ
  mask : ℕ → ℕ → ℕ → Bool

/-- `_convert_masked_data`, lines 272-279. The warning is left out. -/
def MaskedArray.convert (m : MaskedArray) : ℕ → ℕ → ℕ → ℝ := m.data

/-! ### Forcing from a heating rate -/

namespace Atmos

variable (A : Atmos)

/-- `static_stability_n`, lines 1571 and 1746. -/
def storedStatN : Scheme → ℤ → ℝ
  | .nh18 => A.stat
  | .nhn22 => A.statN

/-- `static_stability_s`, lines 1572 and 1745. -/
def storedStatS : Scheme → ℤ → ℝ
  | .nh18 => A.stat
  | .nhn22 => A.statS

/-- `interpolated_heating_rate`, line 1006: no interpolation in latitude. -/
def heating (q : ℤ → ℤ → ℤ → ℝ) (i j k : ℤ) : ℝ := A.vertInterp (q i j) k

/-- `compute_ncforce_from_heating_rate`, lines 1009-1018, on a grid with equator. -/
def heatingForce (s : Scheme) (q : ℤ → ℤ → ℤ → ℝ) (i j k : ℤ) : ℝ :=
  zDer A.nlat.toNat A.kmax.toNat A.nd.toNat A.dz (fun k => A.storedStatN s ((k : ℤ) + 1)) (fun k => A.storedStatS s ((k : ℤ) + 1))
    (fun k => Real.exp (-A.height ((k : ℤ) + 1) / A.h))
    (fun k j c => A.heating q ((c : ℤ) + 1) ((j : ℤ) + 1) ((k : ℤ) + 1))
    (fun k j => 2 * A.om * Real.sin (A.lat ((j : ℤ) + 1)) * Real.exp (A.height ((k : ℤ) + 1) / A.h))
    (k - 1).toNat (j - 1).toNat (i - 1).toNat

/-- Arguments of the QGPV routines with another potential temperature, the same wind and the same mean profiles. -/
def qgpvInFor (th : ℤ → ℤ → ℤ → ℝ) : QgpvIn where
  nlon := A.nlon
  nlat := A.nlat
  kmax := A.kmax
  u := A.u
  v := A.v
  theta := th
  height := A.height
  a := A.a
  om := A.om
  h := A.h

/-- The QGPV of the class for that potential temperature, with the mean profiles of `A`. -/
def qgpvFor : Scheme → (ℤ → ℤ → ℤ → ℝ) → ℤ → ℤ → ℤ → ℝ
  | .nh18, th => (A.qgpvInFor th).pv18 A.t0 A.stat
  | .nhn22, th => (A.qgpvInFor th).pv22 A.nd A.ts0 A.tn0 A.statS A.statN

end Atmos

end Falwa
