import Verif.Model.Qgpv
import Verif.Model.RefState
import Verif.Model.DirectInv
import Verif.Model.Flux

/-!
# From the input fields to the fluxes

How `QGFieldNH18` and `QGFieldNHN22` connect the routines: `/repo/src/falwa/oopinterface.py` lines 93-187 (constructor),
240-262 (mean profiles), 466-535 (`interpolate_fields`), 550-615 and 1597-1665 / 1773-1888 (reference states), 716-962
(fluxes). Arrays are in Fortran order `(lon, lat, level)`, indices start at 1.

Parameters, about which nothing is assumed: the interpolation in latitude of one meridian of one level (lines 151-157, the
identity if the grid has an equator), the vertical interpolation of one column (lines 536-539), the two smoothing splines
(lines 259-261), the LAPACK inversion, and the contents of unset memory.
-/

noncomputable section

namespace Falwa

open Real Finset

/-- Input of the analysis. -/
structure Atmos where
  /-- number of longitudes -/
  nlon : ℤ
  /-- number of latitudes of the input -/
  nlatIn : ℤ
  /-- number of latitudes of the analysis grid, `_nlat_analysis` -/
  nlat : ℤ
  /-- number of pseudoheight levels -/
  kmax : ℤ
  /-- `eq_boundary_index`, 0 for `QGFieldNH18` (line 162) -/
  jb : ℤ
  /-- number of partitions -/
  npart : ℤ
  /-- largest number of sweeps -/
  maxits : ℕ
  /-- `northern_hemisphere_results_only` -/
  nhOnly : Bool
  /-- `u_field` -/
  uField : ℤ → ℤ → ℤ → ℝ
  /-- `v_field` -/
  vField : ℤ → ℤ → ℤ → ℝ
  /-- `t_field` -/
  tField : ℤ → ℤ → ℤ → ℝ
  /-- non-conservative force on the analysis grid -/
  ncforce : ℤ → ℤ → ℤ → ℝ
  /-- `_plev_to_height` -/
  zlev : ℤ → ℝ
  /-- interpolation in latitude -/
  latInterp : (ℤ → ℝ) → ℤ → ℝ
  /-- vertical interpolation -/
  vertInterp : (ℤ → ℝ) → ℤ → ℝ
  /-- spline of a mean profile, evaluated at the heights -/
  t0Of : (ℤ → ℝ) → ℤ → ℝ
  /-- derivative of that spline, evaluated at the heights -/
  statOf : (ℤ → ℝ) → ℤ → ℝ
  /-- planet radius -/
  a : ℝ
  /-- rotation rate -/
  om : ℝ
  /-- level spacing -/
  dz : ℝ
  /-- scale height -/
  h : ℝ
  /-- gas constant -/
  rr : ℝ
  /-- heat capacity -/
  cp : ℝ
  /-- tolerance -/
  eps : ℝ
  /-- spectral radius estimate -/
  rjac : ℝ
  /-- contents of unset memory in the northern call -/
  unsetN : ℤ → ℤ → ℝ
  /-- contents of unset memory in the southern call -/
  unsetS : ℤ → ℤ → ℝ
  /-- the LAPACK inversion -/
  inv : (ℤ → ℤ → ℝ) → ℤ → ℤ → ℝ

/-- The two classes. -/
inductive Scheme where
  | nh18
  | nhn22
  deriving DecidableEq

namespace Atmos

variable (A : Atmos)

/-- `equator_idx`, and `nd` on line 1817. -/
def nd : ℤ := A.nlat / 2 + A.nlat % 2

/-- `_jd`, lines 163 and 1736. -/
def jd : ℤ := A.nd - A.jb

/-- Line 164. -/
def dphi : ℝ := π / ((A.nlat - 1 : ℤ) : ℝ)

/-- Line 165. -/
def dlambda : ℝ := 2 * π / (A.nlon : ℝ)

/-- Latitude of row `g` of the analysis grid, in radians. -/
def lat (g : ℤ) : ℝ := A.dphi * ((g - A.nd : ℤ) : ℝ)

/-- Line 121. -/
def height (k : ℤ) : ℝ := ((k - 1 : ℤ) : ℝ) * A.dz

/-- `u_field` on the analysis grid, line 154. -/
def u0 (i g l : ℤ) : ℝ := A.latInterp (fun j => A.uField i j l) g

/-- `v_field` on the analysis grid, line 155. -/
def v0 (i g l : ℤ) : ℝ := A.latInterp (fun j => A.vField i j l) g

/-- `theta_field` on the analysis grid, lines 127-128 and 156. -/
def theta0 (i g l : ℤ) : ℝ := A.latInterp (fun j => A.tField i j l * exp (A.rr / A.cp * A.zlev l / A.h)) g

/-- `interpolated_u`, line 513. -/
def u (i g k : ℤ) : ℝ := A.vertInterp (A.u0 i g) k

/-- `interpolated_v`, line 514. -/
def v (i g k : ℤ) : ℝ := A.vertInterp (A.v0 i g) k

/-- `interpolated_theta`, line 515. -/
def theta (i g k : ℤ) : ℝ := A.vertInterp (A.theta0 i g) k

/-- `_clat`, line 342. -/
def clat (g : ℤ) : ℝ := |cos (A.lat g)|

/-- `csm`, line 250. -/
def csm : ℝ := ∑ g ∈ Icc 1 A.jd, A.clat g

/-- `np.mean(theta_field * clat, axis=-1)` in row `g`, lines 253, 255. -/
def rowMean (l g : ℤ) : ℝ := (∑ i ∈ Icc 1 A.nlon, A.theta0 i g l * A.clat g) / (A.nlon : ℝ)

/-- `t0_s`, lines 253-254. -/
def meanS (l : ℤ) : ℝ := (∑ g ∈ Icc 1 A.jd, A.rowMean l g) / A.csm

/-- `t0_n`, lines 255-256. -/
def meanN (l : ℤ) : ℝ := (∑ g ∈ Icc (A.nlat - A.jd + 1) A.nlat, A.rowMean l g) / A.csm

/-- Spline of the southern profile, lines 259, 527. -/
def ts0 : ℤ → ℝ := A.t0Of A.meanS

/-- Spline of the northern profile. -/
def tn0 : ℤ → ℝ := A.t0Of A.meanN

/-- Its derivative, south, line 528. -/
def statS : ℤ → ℝ := A.statOf A.meanS

/-- Its derivative, north. -/
def statN : ℤ → ℝ := A.statOf A.meanN

/-- The mean of both profiles, lines 1567-1569, 1579. -/
def t0 (k : ℤ) : ℝ := 0.5 * (A.ts0 k + A.tn0 k)

/-- The mean of both stabilities, lines 1570-1572, 1580. -/
def stat (k : ℤ) : ℝ := 0.5 * (A.statS k + A.statN k)

/-- Arguments of the QGPV routines, lines 1574-1586 and 1747-1762. -/
def qgpvIn : QgpvIn where
  nlon := A.nlon
  nlat := A.nlat
  kmax := A.kmax
  u := A.u
  v := A.v
  theta := A.theta
  height := A.height
  a := A.a
  om := A.om
  h := A.h

/-- `interpolated_avort`. -/
def avort : ℤ → ℤ → ℤ → ℝ := A.qgpvIn.avort

/-- `qgpv`. -/
def qgpv : Scheme → ℤ → ℤ → ℤ → ℝ
  | .nh18 => A.qgpvIn.pv18 A.t0 A.stat
  | .nhn22 => A.qgpvIn.pv22 A.nd A.ts0 A.tn0 A.statS A.statN

/-- Reversal of the latitude axis, `[:, ::-1, :]`. -/
def flip (X : ℤ → ℤ → ℤ → ℝ) (i j k : ℤ) : ℝ := X i (A.nlat + 1 - j) k

/-- Call of `compute_reference_states` for the north, lines 1609-1617, 1655-1675. -/
def refN : RefIn where
  nlon := A.nlon
  nlat := A.nlat
  kmax := A.kmax
  jd := A.nd
  npart := A.npart
  maxits := A.maxits
  pv := A.qgpv .nh18
  uu := A.u
  pt := A.theta
  stat := A.stat
  a := A.a
  om := A.om
  dz := A.dz
  eps := A.eps
  h := A.h
  dphi := A.dphi
  dlambda := A.dlambda
  r := A.rr
  cp := A.cp
  rjac := A.rjac
  unset := A.unsetN

/-- The call for the south, lines 1624-1631. -/
def refS : RefIn where
  nlon := A.nlon
  nlat := A.nlat
  kmax := A.kmax
  jd := A.nd
  npart := A.npart
  maxits := A.maxits
  pv := fun i j k => -A.flip (A.qgpv .nh18) i j k
  uu := A.flip A.u
  pt := A.flip A.theta
  stat := A.stat
  a := A.a
  om := A.om
  dz := A.dz
  eps := A.eps
  h := A.h
  dphi := A.dphi
  dlambda := A.dlambda
  r := A.rr
  cp := A.cp
  rjac := A.rjac
  unset := A.unsetS

/-- Call of the direct solver for the north, lines 1782-1792, 1812-1831. -/
def nhnN : NhnIn where
  imax := A.nlon
  jmax := A.nlat
  kmax := A.kmax
  nd := A.nd
  nnd := A.nlat
  jb := A.jb
  pv := A.qgpv .nhn22
  uu := A.u
  vort := A.avort
  pt := A.theta
  tb := A.tn0
  statn := A.statN
  a := A.a
  om := A.om
  dz := A.dz
  h := A.h
  dphi := A.dphi
  dlambda := A.dlambda
  rr := A.rr
  cp := A.cp
  inv := A.inv

/-- Both calls of the direct solver. -/
def nhn : Nhn22 where
  north := A.nhnN
  ts0 := A.ts0
  statS := A.statS

/-- `lat_dim`, line 209. -/
def rows : ℤ := if A.nhOnly then A.nd else A.nlat

/-- A reference-state array after the northern assignment and, in global mode, the southern one; the solver returns `n` rows
counted from the equator (data_storage.py lines 42-62). -/
def storeRef (n : ℤ) (north south : ℤ → ℤ → ℝ) (g k : ℤ) : ℝ :=
  if A.nhOnly = false ∧ g ≤ n then south (n + 1 - g) k
  else if A.rows - n + 1 ≤ g then north (g - (A.rows - n)) k
  else 0

/-- The stored `qref`, divided by the Coriolis parameter. -/
def qrefStored : Scheme → ℤ → ℤ → ℝ
  | .nh18 => A.storeRef A.nd A.refN.qref A.refS.qref
  | .nhn22 => A.storeRef A.nd A.nhnN.qrefOut A.nhn.south.qrefOut

/-- Analysis-grid row of row `g` of a stored array. -/
def outRow (g : ℤ) : ℤ := A.nlat - A.rows + g

/-- `qref_correct_unit`, data_storage.py lines 170-179; also the property `qref`. -/
def qref (s : Scheme) (g k : ℤ) : ℝ := A.qrefStored s g k * 2 * A.om * sin (A.lat (A.outRow g))

/-- The stored `uref`. -/
def uref : Scheme → ℤ → ℤ → ℝ
  | .nh18 => A.storeRef A.nd A.refN.uref A.refS.uref
  | .nhn22 => A.storeRef A.jd A.nhnN.uref A.nhn.south.uref

/-- The stored `ptref`. -/
def ptref : Scheme → ℤ → ℤ → ℝ
  | .nh18 => A.storeRef A.nd A.refN.tref A.refS.tref
  | .nhn22 => A.storeRef A.jd A.nhnN.tref A.nhn.south.tref

/-- What the flux computation starts from, lines 716-793. -/
def analysis (s : Scheme) : QGAnalysis where
  nlon := A.nlon
  nlat := A.nlat
  kmax := A.kmax
  nd := A.nd
  jb := A.jb
  jd := A.jd
  nhOnly := A.nhOnly
  qgpv := A.qgpv s
  u := A.u
  v := A.v
  theta := A.theta
  ncforce := A.ncforce
  tn0 := match s with | .nh18 => A.t0 | .nhn22 => A.tn0
  ts0 := match s with | .nh18 => A.t0 | .nhn22 => A.ts0
  qref := A.qref s
  uref := A.uref s
  ptref := A.ptref s
  height := A.height
  a := A.a
  om := A.om
  dz := A.dz
  h := A.h
  rr := A.rr
  cp := A.cp

end Atmos

end Falwa
