import Verif.Model.Fortran
import Mathlib.Analysis.SpecialFunctions.Trigonometric.Basic
import Mathlib.Algebra.Order.Floor.Ring

/-!
# Area analysis

The block of `compute_reference_states.f90` (lines 35-38 and 68-108) that finds the reference QGPV of one level from the
areas between contours. `compute_qref_and_fawa_first.f90` has the same block twice (lines 58-97 for QGPV, 109-140 for
absolute vorticity), with `nd` for `jd`, `nnd` for `npart`, `imax` for `nlon`, `jmax` for `nlat`.
-/

noncomputable section

namespace Falwa

open Real

/-- `maxval` of an array of shape `(m, n)`. -/
def maxval (m n : ℤ) (A : ℤ → ℤ → ℝ) : ℝ := doLoop 1 n (fun j s => doLoop 1 m (fun i s => max s (A i j)) s) (A 1 1)

/-- `minval` of an array of shape `(m, n)`. -/
def minval (m n : ℤ) (A : ℤ → ℤ → ℝ) : ℝ := doLoop 1 n (fun j s => doLoop 1 m (fun i s => min s (A i j)) s) (A 1 1)

/-- `int`: truncation towards zero. -/
def fint (x : ℝ) : ℤ := if 0 ≤ x then ⌊x⌋ else ⌈x⌉

/-- Input of the block: grid sizes, the field of one level, planet radius and grid spacings. -/
structure AreaIn where
  /-- `nlon` -/
  imax : ℤ
  /-- `nlat` -/
  jmax : ℤ
  /-- `jd` -/
  nd : ℤ
  /-- `npart` -/
  npart : ℤ
  /-- `pv2` -/
  q : ℤ → ℤ → ℝ
  /-- planet radius -/
  a : ℝ
  /-- latitude spacing -/
  dphi : ℝ
  /-- longitude spacing -/
  dlambda : ℝ

/-- The arrays `an` and `cn`. -/
structure Bins where
  /-- area per partition -/
  an : ℤ → ℝ
  /-- integral of the field per partition -/
  cn : ℤ → ℝ

namespace AreaIn

variable (I : AreaIn)

/-- Line 74. -/
def qmax : ℝ := maxval I.imax I.jmax I.q

/-- Line 75. -/
def qmin : ℝ := minval I.imax I.jmax I.q

/-- Line 76. -/
def dq : ℝ := (I.qmax - I.qmin) / ((I.npart - 1 : ℤ) : ℝ)

/-- Line 81. -/
def qn (nn : ℤ) : ℝ := I.qmax - I.dq * ((nn - 1 : ℤ) : ℝ)

/-- Lines 84, 87: area of a cell in row `j`. -/
def da (j : ℤ) : ℝ := I.a * I.a * I.dphi * I.dlambda * cos (-(0.5 * π) + I.dphi * ((j - 1 : ℤ) : ℝ))

/-- Line 86. -/
def ind (i j : ℤ) : ℤ := 1 + fint ((I.qmax - I.q i j) / I.dq)

/-- Lines 86-89. -/
def binStep (j i : ℤ) (s : Bins) : Bins :=
  { an := Function.update s.an (I.ind i j) (s.an (I.ind i j) + I.da j)
    cn := Function.update s.cn (I.ind i j) (s.cn (I.ind i j) + I.da j * I.q i j) }

/-- Lines 78-79, 83-91. -/
def bins : Bins :=
  doLoop 1 I.jmax (fun j s => doLoop 1 I.imax (I.binStep j) s) { an := fun _ => 0, cn := fun _ => 0 }

/-- Lines 92-97, for `an` and for `cn`: `x(1) = 0`, `x(nn) = x(nn-1) + b(nn)`. -/
def cumul (b : ℤ → ℝ) : ℤ → ℝ :=
  doLoop 2 I.npart (fun nn s => Function.update s nn (s (nn - 1) + b nn)) (fun _ => 0)

/-- `aan`. -/
def aan : ℤ → ℝ := I.cumul I.bins.an

/-- `ccn`. -/
def ccn : ℤ → ℝ := I.cumul I.bins.cn

/-- Lines 36-37: area north of row `j`. -/
def alat (j : ℤ) : ℝ := 2 * π * I.a * I.a * (1 - sin (I.dphi * ((j - 1 : ℤ) : ℝ)))

/-- Lines 99-105: the values of `qref(j, k)` and `cref(j, k)`, `none` if neither is assigned. -/
def placed (j : ℤ) : Option (ℝ × ℝ) :=
  doLoop 1 (I.npart - 1) (fun nn s =>
    if I.aan nn ≤ I.alat j ∧ I.alat j < I.aan (nn + 1) then
      let dd := (I.alat j - I.aan nn) / (I.aan (nn + 1) - I.aan nn)
      some (I.qn nn * (1 - dd) + I.qn (nn + 1) * dd, I.ccn nn * (1 - dd) + I.ccn (nn + 1) * dd)
    else s) none

/-- Lines 98-108: `qref(j, k)` for `1 ≤ j ≤ jd`. An element that is not assigned keeps the zero of the allocation. -/
def qref (j : ℤ) : ℝ := if j = I.nd then I.qmax else ((I.placed j).map Prod.fst).getD 0

/-- Lines 98-106: `cref(j, k)`. The array is local, so an element that is not assigned has an unspecified value. -/
def cref (unspecified : ℝ) (j : ℤ) : ℝ := ((I.placed j).map Prod.snd).getD unspecified

/-- `ckref(j, k)` of `compute_qref_and_fawa_first.f90`, lines 127-140, for `I.q = vort2`. The array is returned, so an
element that is not assigned is zero. -/
def ckref (j : ℤ) : ℝ := I.cref 0 j

/-- The same grid with another field. -/
def withField (q' : ℤ → ℤ → ℝ) : AreaIn := { I with q := q' }

/-- The vorticity passed to the southern call, oopinterface.py line 1803 (`avort[:, ::-1, :]`, without the minus sign that
QGPV gets on line 1801). -/
def southVort : AreaIn := I.withField (fun i j => I.q i (I.jmax + 1 - j))

end AreaIn

end Falwa
