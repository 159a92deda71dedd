import Verif.Model.Fortran
import Mathlib.Analysis.SpecialFunctions.Trigonometric.Basic
import Mathlib.Analysis.SpecialFunctions.Exp

/-!
# Absolute vorticity and QGPV

Sources: `/repo/src/falwa/f90_modules/compute_qgpv.f90` (C) and
`/repo/src/falwa/f90_modules/compute_qgpv_direct_inv.f90` (D). Indices start at 1, arithmetic is exact, over ℝ.

Not modelled because no result depends on it: the zonal means `tz`, `uz`, `vz`, `tzd`, `uzd`, `vzd`, `zmst` (C 27-55) and
`zmpv` (C 128-135, D 104-111), and `zmav` of D (lines 64-71).
-/

noncomputable section

namespace Falwa

open Real

/-- Arguments that both routines share, C 1-9 and D 1-10 (`dz`, `rr`, `cp` have no effect on the results). -/
structure QgpvIn where
  /-- number of longitudes -/
  nlon : ℤ
  /-- number of latitudes -/
  nlat : ℤ
  /-- number of levels -/
  kmax : ℤ
  /-- zonal wind -/
  u : ℤ → ℤ → ℤ → ℝ
  /-- meridional wind -/
  v : ℤ → ℤ → ℤ → ℝ
  /-- potential temperature -/
  theta : ℤ → ℤ → ℤ → ℝ
  /-- heights of the levels -/
  height : ℤ → ℝ
  /-- planet radius -/
  a : ℝ
  /-- rotation rate -/
  om : ℝ
  /-- scale height -/
  h : ℝ

namespace QgpvIn

variable (I : QgpvIn)

/-- C 24, D 21. -/
def dphi : ℝ := π / ((I.nlat - 1 : ℤ) : ℝ)

/-- Latitude of row `j`, C 61-62 (in degrees, then converted) and D 30. `phim`, `phip` are rows `j - 1`, `j + 1`. -/
def phi (j : ℤ) : ℝ := -(0.5 * π) + π * ((j - 1 : ℤ) : ℝ) / ((I.nlat - 1 : ℤ) : ℝ)

/-- Coriolis parameter, C 69 (`av1`), D 35 and D 78. -/
def cor (j : ℤ) : ℝ := 2 * I.om * sin (I.phi j)

/-- Numerator of `av2` or `av5`, C 70, 76, 80 and D 36, 42, 46: the assignment for column `nlon` is the last one. -/
def dv (i j k : ℤ) : ℝ :=
  if i = I.nlon then I.v 1 j k - I.v (I.nlon - 1) j k
  else if i = 1 then I.v 2 j k - I.v I.nlon j k
  else I.v (i + 1) j k - I.v (i - 1) j k

/-- `av1 + av2 + av3` in a row between the poles, C 68-83, D 34-49. -/
def inner (i j k : ℤ) : ℝ :=
  I.cor j + I.dv i j k / (2 * I.a * cos (I.phi j) * I.dphi) +
    -(I.u i (j + 1) k * cos (I.phi (j + 1)) - I.u i (j - 1) k * cos (I.phi (j - 1))) / (2 * I.a * cos (I.phi j) * I.dphi)

/-- Zonal mean of a row, C 88-91, C 98-105, D 54-57. -/
def zmean (A : ℤ → ℤ → ℤ → ℝ) (j k : ℤ) : ℝ := dosum 1 I.nlon (fun i => A i j k / (I.nlon : ℝ))

/-- `avort`, C 59-94, D 28-60: the rows of the poles get the zonal means of their neighbours. The northern assignment comes
last. -/
def avort (i j k : ℤ) : ℝ :=
  if j = I.nlat then I.zmean I.inner (I.nlat - 1) k else if j = 1 then I.zmean I.inner 2 k else I.inner i j k

/-- `altp` (`k` is `kk + 1`) and `altm` (`k` is `kk - 1`), C 115-116, D 94-95. -/
def alt (t0 stat : ℤ → ℝ) (i j k : ℤ) : ℝ := exp (-I.height k / I.h) * (I.theta i j k - t0 k) / stat k

/-- C 119-121, D 96-97: the stretching term with the factor `c`. -/
def stretch (t0 stat : ℤ → ℝ) (c : ℝ) (i j k : ℤ) : ℝ :=
  exp (I.height k / I.h) *
    ((I.alt t0 stat i j (k + 1) - I.alt t0 stat i j (k - 1)) * c / (I.height (k + 1) - I.height (k - 1)))

/-- `pv` of `compute_qgpv`, C 109-124. The lowest and the highest level keep the zeros of the allocation. -/
def pv18 (t0 stat : ℤ → ℝ) (i j k : ℤ) : ℝ :=
  if 2 ≤ k ∧ k ≤ I.kmax - 1 then I.avort i j k + I.stretch t0 stat (I.zmean I.avort j k) i j k else 0

/-- `pv` of `compute_qgpv_direct_inv`, D 75-100. -/
def pv22 (jd : ℤ) (ts0 tn0 stats statn : ℤ → ℝ) (i j k : ℤ) : ℝ :=
  if 2 ≤ k ∧ k ≤ I.kmax - 1 then
    I.avort i j k +
      (if j ≤ jd then I.stretch ts0 stats (I.cor j) i j k else I.stretch tn0 statn (I.cor j) i j k)
  else 0

end QgpvIn

end Falwa
