import Verif.Model.Interp
import Verif.Model.Shapes

/-!
# From the arguments of the constructor to the analysis

Source: `/repo/src/falwa/oopinterface.py` lines 93-187 (`QGFieldBase.__init__`), 1725-1736 (`QGFieldNHN22.__init__`), 281-343 (checks),
353-361 (`_check_dimension_of_fields`), 241-270 and 506-540 (profiles, prefactor, interpolations).

`Model/Pipeline.lean` starts from fields on grids that were accepted and leaves the interpolations open. Here are the checks of the
constructor in their order, and the interpolations that it sets up. Arguments are arrays in Python order `(level, lat, lon)`, indices
from 0. The spline remains an argument. Masked arrays: see `Model/Interp.lean`.
-/

noncomputable section

namespace Falwa

/-- The arguments of the constructor, and what the model leaves open. -/
structure QGArgs where
  /-- `plev.size` -/
  nlev : ℕ
  /-- `ylat.size` -/
  nlat : ℕ
  /-- `xlon.size` -/
  nlon : ℕ
  /-- `ylat` -/
  ylat : ℕ → ℝ
  /-- `plev` -/
  plev : ℕ → ℝ
  /-- `u_field.shape` -/
  uShape : Shape
  /-- `v_field.shape` -/
  vShape : Shape
  /-- `t_field.shape` -/
  tShape : Shape
  /-- `u_field` -/
  u : ℕ → ℕ → ℕ → ℝ
  /-- `v_field` -/
  v : ℕ → ℕ → ℕ → ℝ
  /-- `t_field`: the element that numpy pairs with level, latitude and longitude when it broadcasts -/
  t : ℕ → ℕ → ℕ → ℝ
  /-- non-conservative force given to the flux methods, on the analysis grid in Fortran order -/
  ncforce : ℤ → ℤ → ℤ → ℝ
  kmax : ℕ
  maxit : ℕ
  dz : ℝ
  npart : Option ℕ
  tol : ℝ
  rjac : ℝ
  scaleHeight : ℝ
  cp : ℝ
  rr : ℝ
  omega : ℝ
  radius : ℝ
  /-- `northern_hemisphere_results_only` -/
  nhOnly : Bool
  /-- `data_on_evenly_spaced_pseudoheight_grid` -/
  evenly : Bool
  /-- `eq_boundary_index` of `QGFieldNHN22`, 0 for `QGFieldNH18` -/
  eqBoundary : ℕ
  /-- `UnivariateSpline(x, y)` at a height: number of points, `x`, `y`, height -/
  spline : ℕ → (ℕ → ℝ) → (ℕ → ℝ) → ℝ → ℝ
  /-- its derivative -/
  splineDeriv : ℕ → (ℕ → ℝ) → (ℕ → ℝ) → ℝ → ℝ
  /-- unset memory of the northern solver call -/
  unsetN : ℤ → ℤ → ℝ
  /-- unset memory of the southern solver call -/
  unsetS : ℤ → ℤ → ℝ
  /-- the LAPACK inversion -/
  inv : (ℤ → ℤ → ℝ) → ℤ → ℤ → ℝ

namespace QGArgs

variable (x : QGArgs)

/-- `_plev_to_height`, lines 113 and 120; `P_GROUND` is 1000 hPa. -/
def zlev (l : ℕ) : ℝ := -x.scaleHeight * Real.log (x.plev l / 1000)

/-- `kmax` of the object, lines 112 and 119. -/
def kmaxUsed : ℕ := if x.evenly then x.nlev else x.kmax

/-- `dz` of the object, lines 115 and 122. -/
def dzUsed : ℝ := if x.evenly then x.zlev 1 - x.zlev 0 else x.dz

/-- `height`, lines 114 and 121. Entries beyond the array are zero. -/
def height (k : ℕ) : ℝ := if k < x.kmaxUsed then (if x.evenly then x.zlev k else k * x.dz) else 0

/-- Lines 110-122: the vertical grid. `np.diff(...)[0]` needs two levels. -/
def checkVertical : Except PyError Unit :=
  if x.nlev < 2 then .error .indexError
  else if x.evenly then .ok ()
  else match checkPlev x.nlev x.plev x.scaleHeight x.kmax x.dz with
    | .ok => .ok ()
    | .typeError => .error .typeError
    | .valueError _ => .error .valueError

/-- `_check_dimension_of_fields`, lines 352-361. -/
def checkShape (s : Shape) : Except PyError Unit := if s = [x.nlev, x.nlat, x.nlon] then .ok () else .error .typeError

/-- Lines 110-145: all checks, in their order. The product on lines 127-128 broadcasts `t_field` against the levels before the shape is
checked. -/
def check : Except PyError (LatGrid ℝ) := do
  x.checkVertical
  let th ← bcastShape x.tShape [x.nlev, 1, 1]
  let g ← checkYlat x.nlat x.ylat
  x.checkShape x.uShape
  x.checkShape x.vShape
  x.checkShape th
  .ok g

/-- The vertical interpolation of one column, lines 510-519 and 537-540. Entries beyond the array are zero. -/
def vert (f : ℤ → ℝ) (k : ℤ) : ℝ :=
  if 1 ≤ k ∧ k ≤ x.kmaxUsed then
    (if x.evenly then f k else interp1d x.nlev x.zlev (fun l => f ((l : ℤ) + 1)) (x.height (k - 1).toNat))
  else 0

/-- The object after the constructor, as input of the analysis. For evenly spaced data the analysis of `Model/Pipeline.lean` has the
heights `0, dz, 2 dz, …`; for data that start above the ground see `Model/Lifted.lean`. -/
def atmos (g : LatGrid ℝ) : Atmos where
  nlon := x.nlon
  nlatIn := x.nlat
  nlat := g.nlat
  kmax := x.kmaxUsed
  jb := x.eqBoundary
  npart := (x.npart.getD g.nlat : ℕ)
  maxits := x.maxit
  nhOnly := x.nhOnly
  uField := fun i j l => x.u (l - 1).toNat (j - 1).toNat (i - 1).toNat
  vField := fun i j l => x.v (l - 1).toNat (j - 1).toNat (i - 1).toNat
  tField := fun i j l => x.t (l - 1).toNat (j - 1).toNat (i - 1).toNat
  ncforce := x.ncforce
  zlev := fun l => x.zlev (l - 1).toNat
  latInterp := fun f r =>
    if g.needInterp then interp1d x.nlat x.ylat (fun j => f ((j : ℤ) + 1)) (g.ylat (r - 1).toNat) else f r
  vertInterp := x.vert
  t0Of := fun f k => x.spline x.nlev x.zlev (fun l => f ((l : ℤ) + 1)) (x.height (k - 1).toNat)
  statOf := fun f k => x.splineDeriv x.nlev x.zlev (fun l => f ((l : ℤ) + 1)) (x.height (k - 1).toNat)
  a := x.radius
  om := x.omega
  dz := x.dzUsed
  h := x.scaleHeight
  rr := x.rr
  cp := x.cp
  eps := x.tol
  rjac := x.rjac
  unsetN := x.unsetN
  unsetS := x.unsetS
  inv := x.inv

/-- The constructor. -/
def construct : Except PyError Atmos := x.check.map x.atmos

/-- `_compute_prefactor`, lines 263-270. -/
def prefactor : ℝ := ∑ k ∈ Finset.Ico 1 (x.kmaxUsed - 1), Real.exp (-(k : ℝ) * x.dzUsed / x.scaleHeight) * x.dzUsed

end QGArgs

end Falwa
