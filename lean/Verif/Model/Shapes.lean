import Verif.Model.Grid

/-!
# Array shapes in the analysis

Source: `/repo/src/falwa/oopinterface.py` (lines cited below), `/repo/src/falwa/data_storage.py` lines 27-62 and 170-179,
`/repo/src/falwa/utilities.py` lines 305-344.

Only shapes and shape errors are modelled here, for a solver that converges. `scipy.interpolate.interp1d` raises `ValueError`
if the abscissae do not match the axis. An `f2py` routine raises `ValueError` if two arguments disagree on a dimension
(simplification: also for extents of one). Longitudes and levels are at least three, so no slice of theirs is empty.
-/

namespace Falwa

/-- Shape of an array. -/
abbrev Shape := List ℕ

/-- Trailing alignment, on reversed shapes. -/
def bcastRev : List ℕ → List ℕ → Except PyError (List ℕ)
  | [], ys => .ok ys
  | xs, [] => .ok xs
  | x :: xs, y :: ys =>
    if x = y ∨ y = 1 then (bcastRev xs ys).map (x :: ·)
    else if x = 1 then (bcastRev xs ys).map (y :: ·)
    else .error .valueError

/-- Shape of an elementwise operation under the broadcasting rules of numpy. -/
def bcastShape (a b : Shape) : Except PyError Shape := (bcastRev a.reverse b.reverse).map List.reverse

/-- `np.swapaxes(x, 0, 2)` of a 3D array and `np.swapaxes(x, 0, 1)` of a 2D array: the outer axes change places. -/
def swapOuter (s : Shape) : Shape := s.reverse

/-- Extent of `x[-m:]` for an axis of extent `n`. -/
def lastLen (n m : ℕ) : ℕ := if m = 0 then n else min m n

/-- Extent of `x[(m-1)::-1]` for an axis of extent `n`. -/
def firstLen (n m : ℕ) : ℕ := if m = 0 then n else min m n

/-- `interp1d(interp_from, field, axis)(interp_to)`, lines 369-374: `axis` must have `src` entries, and gets `dst`. -/
def interpAxis (s : Shape) (axis src dst : ℕ) : Except PyError Shape :=
  if s.getD axis 0 = src then .ok (s.set axis dst) else .error .valueError

/-- Assignment to the slice `[-jdim:]` or `[:jdim]` of an axis of extent `n` (data_storage.py lines 42-46, 56-62): the slice
has at most `n` entries. -/
def storeSlice (n jdim : ℕ) : Except PyError Unit := if lastLen n jdim = jdim then .ok () else .error .valueError

/-- What the shapes depend on. -/
structure ShapeCfg where
  /-- latitudes of the input -/
  nlat : ℕ
  /-- `need_latitude_interpolation` -/
  need : Bool
  /-- latitudes of the analysis grid -/
  nA : ℕ
  /-- `equator_idx` -/
  eq : ℕ
  /-- longitudes -/
  nlon : ℕ
  /-- pressure levels of the input -/
  nlev : ℕ
  /-- analysed levels -/
  kmax : ℕ
  /-- `eq_boundary_index`; 0 for `QGFieldNH18` -/
  jb : ℕ
  /-- `northern_hemisphere_results_only` -/
  nh : Bool
  deriving DecidableEq

/-- The constructor, lines 132-187, after a grid was accepted. -/
def ShapeCfg.ofGrid {K : Type*} (n : ℕ) (g : LatGrid K) (nlon nlev kmax jb : ℕ) (nh : Bool) : ShapeCfg where
  nlat := n
  need := g.needInterp
  nA := g.nlat
  eq := g.equatorIdx
  nlon := nlon
  nlev := nlev
  kmax := kmax
  jb := jb
  nh := nh

namespace ShapeCfg

variable (c : ShapeCfg)

/-- Line 209. -/
def latDim : ℕ := if c.nh then c.eq else c.nA

/-- Lines 163, 1736. -/
def jd : ℕ := c.nA / 2 + c.nA % 2 - c.jb

/-- `_return_interp_variables`, lines 376-403. -/
def returnInterp (s : Shape) (axis : ℕ) : Except PyError Shape :=
  if c.need then
    if c.nh then interpAxis s axis (lastLen c.nA (c.nA / 2 + 1)) (lastLen c.nlat (c.nlat / 2))
    else interpAxis s axis c.nA c.nlat
  else .ok s

/-- Length of `ylat_ref_states`, lines 1179-1188. -/
def ylatRefStates : ℕ :=
  if c.nh then (if c.need then lastLen c.nlat (c.nlat / 2) else lastLen c.nlat (c.nlat / 2 + 1)) else c.nlat

/-- Length of `ylat_ref_states_analysis`, lines 1190-1198. -/
def ylatRefStatesAnalysis : ℕ := if c.nh then lastLen c.nA (c.nA / 2 + 1) else c.nA

/-- Fortran shape of the interpolated fields and of `qgpv`, lines 520-522, 1574, 1755. -/
def field : Shape := [c.nlon, c.nA, c.kmax]

/-! ### Properties -/

/-- `qgpv`, `interpolated_u`, `interpolated_v`, `interpolated_theta`, lines 1218-1256. -/
def qgpvProp : Except PyError Shape := c.returnInterp (swapOuter c.field) 1

/-- `qref`, lines 1265-1274, with `qref_correct_unit`. -/
def qrefProp : Except PyError Shape := do
  let s ← bcastShape [c.latDim, c.kmax] [c.ylatRefStatesAnalysis, 1]
  c.returnInterp (swapOuter s) 1

/-- `uref` and `ptref`, lines 1276-1296. -/
def urefProp : Except PyError Shape := c.returnInterp (swapOuter [c.latDim, c.kmax]) 1

/-- `lwa_baro`, `u_baro`, `ncforce_baro`, lines 1389-1425. -/
def baroProp : Except PyError Shape := c.returnInterp (swapOuter [c.nlon, c.latDim]) 0

/-- `lwa`, lines 1427-1436, and `ua1`, `ua2`, `ep1`, `ep2`, `ep3`, `stretch_term`, lines 1438-1512. -/
def layerProp : Except PyError Shape := c.returnInterp (swapOuter [c.nlon, c.latDim, c.kmax]) 1

/-! ### Steps -/

/-- `interpolate_fields`, lines 465-535 and 1563-1595 or 1738-1774. The named tuple has four fields of the same shape. -/
def interpolateFields (named : Bool) : Except PyError (List Shape) :=
  if named then do
    let s ← c.qgpvProp
    .ok [s, s, s, s]
  else .ok []

/-- `_compute_reference_states`, lines 1604-1632 and 1776-1808. Rows that the solvers return: `equator_idx` for all three
arrays (NH18), or `nd` for the reference QGPV and `jd` for the others (NHN22). The listed row counts cover both. -/
def storeReferenceStates (rows : List ℕ) : Except PyError Unit := do
  rows.forM fun r => storeSlice c.latDim r
  if c.nh then .ok () else rows.forM fun r => storeSlice c.latDim r

/-- Row counts of the solver results; `nhn22` selects the class. -/
def solverRows (nhn22 : Bool) : List ℕ := if nhn22 then [c.nA / 2 + c.nA % 2, c.jd, c.jd] else [c.eq, c.eq, c.eq]

/-- `compute_reference_states`, lines 549-616: line 600 evaluates the property `qgpv`. -/
def computeReferenceStates (nhn22 named : Bool) : Except PyError (List Shape) := do
  let _ ← c.qgpvProp
  c.storeReferenceStates (c.solverRows nhn22)
  if named then do
    let q ← c.qrefProp
    let u ← c.urefProp
    let t ← c.urefProp
    .ok [q, u, t]
  else .ok []

/-- `compute_flux_dirinv_nshem` as seen through `f2py`: all arrays must agree on `imax`, `jmax`, `kmax` and on `jd`.
Returns the shape of the 3D results. -/
def fluxCall (pv nc qref uref tref : Shape) : Except PyError Shape :=
  match pv, qref, uref with
  | [imax, _, kmax], [nd, kq], [_, ku] =>
    if nc = pv ∧ kq = kmax ∧ ku = kmax ∧ tref = uref then .ok [imax, nd, kmax] else .error .valueError
  | _, _, _ => .error .valueError

/-- Reference QGPV in its unit, lines 693-714: `_ylat[-equator_idx:]` or `_ylat`. -/
def qrefCorrect : Except PyError Shape :=
  bcastShape [c.latDim, c.kmax] [if c.nh then lastLen c.nA c.eq else c.nA, 1]

/-- Both hemispheric calls, lines 748-758 and 779-789 (also 1086-1107 and 1124-1145), with the assignments to the storages. -/
def fluxCalls (nc : Shape) : Except PyError Unit := do
  let q ← c.qrefCorrect
  let rows := q.getD 0 0
  let s ← fluxCall c.field nc [lastLen rows c.eq, q.getD 1 0] [lastLen c.latDim c.jd, c.kmax] [lastLen c.latDim c.jd, c.kmax]
  storeSlice c.latDim (s.getD 1 0)
  if c.nh then .ok ()
  else do
    let s ← fluxCall c.field nc [firstLen rows c.eq, q.getD 1 0] [firstLen c.latDim c.jd, c.kmax]
      [firstLen c.latDim c.jd, c.kmax]
    storeSlice c.latDim (s.getD 1 0)

/-- The optional argument `ncforce`: zeros of shape `dflt` if it is not given, otherwise the axes are swapped and the shape is
asserted, lines 893-899 and 1077-1081. -/
def ncArg (dflt : Shape) : Option Shape → Except PyError Shape
  | none => .ok dflt
  | some s => if swapOuter s = c.field then .ok (swapOuter s) else .error .assertionError

/-- Shapes of the results of the flux computation. -/
structure FluxShapes where
  /-- `adv_flux_f1`, `adv_flux_f2`, `adv_flux_f3`, `meridional_heat_flux`, `ncforce_baro`, `flux_vector_lambda_baro` -/
  adv : Shape
  /-- `convergence_zonal_advective_flux` -/
  conv : Shape
  /-- `divergence_eddy_momentum_flux` -/
  div : Shape
  /-- `flux_vector_phi_baro` -/
  phi : Shape
  /-- `lwa_baro`, `u_baro` -/
  baro : Shape
  /-- `lwa` -/
  lwa : Shape
  deriving DecidableEq

/-- Length of `clat`, line 904. -/
def clatLen : ℕ := if c.nh then lastLen c.nA c.eq else c.nA

/-- `zonal_convergence`: the boolean index made from `clat` must match the rows (utilities.py lines 228-231, `IndexError`). -/
def convShape (s : Shape) (clat : ℕ) : Except PyError Shape := if s.getD 0 0 = clat then .ok s else .error .indexError

/-- Rows `equator_idx-1 .. nlat_analysis-1` or all, lines 974-978. -/
def phiRows : ℕ := if c.nh then c.nA - (c.eq - 1) else c.nA

/-- `_compute_flux_vector_phi_baro`, lines 964-982. -/
def fluxVectorPhi : Except PyError Shape := do
  let s ← bcastShape [c.nlon, c.phiRows, c.kmax] [1, c.latDim, c.kmax]
  let s ← bcastShape s [c.nlon, c.phiRows, c.kmax]
  let s ← bcastShape s [1, c.phiRows, 1]
  .ok (swapOuter [s.getD 0 0, s.getD 1 0])

/-- `compute_lwa_and_barotropic_fluxes`, lines 881-962: line 882 evaluates `qgpv`. The result is the named tuple, and also
what the output storage holds afterwards. -/
def computeFluxes (nc : Option Shape) : Except PyError FluxShapes := do
  let _ ← c.qgpvProp
  let nc ← c.ncArg c.field nc
  c.fluxCalls nc
  let d ← bcastShape [c.nlon, c.latDim] [c.clatLen]
  let conv ← convShape (swapOuter [c.nlon, c.latDim]) c.clatLen
  let phi ← c.fluxVectorPhi
  .ok { adv := swapOuter [c.nlon, c.latDim], conv, div := swapOuter d, phi, baro := swapOuter [c.nlon, c.latDim]
        lwa := swapOuter [c.nlon, c.latDim, c.kmax] }

/-- The properties of the same names, lines 1298-1436. -/
def fluxProps (f : FluxShapes) : Except PyError FluxShapes := do
  let adv ← c.returnInterp f.adv 0
  let conv ← c.returnInterp f.conv 0
  let div ← c.returnInterp f.div 0
  let phi ← c.returnInterp f.phi 0
  let baro ← c.baroProp
  let lwa ← c.layerProp
  .ok { adv, conv, div, phi, baro, lwa }

/-- `z_derivative_of_prod`, utilities.py lines 329-344. -/
def zDerivShape (g mult : Shape) : Except PyError Shape := do
  let t ← bcastShape [c.kmax, 1, 1] g
  let t ← bcastShape t [c.kmax, (c.eq - 1) + 1 + (c.eq - 1), 1]
  let inner ← bcastShape [t.getD 0 0 - 2, t.getD 1 0, t.getD 2 0] [mult.getD 0 0 - 2, mult.getD 1 0, 1]
  if inner = [t.getD 0 0 - 2, t.getD 1 0, t.getD 2 0] then .ok t else .error .valueError

/-- `compute_ncforce_from_heating_rate`, lines 985-1019; `h` is the shape of the heating rate. The vertical interpolation needs
`nlev` levels. -/
def heatingRate (h : Shape) : Except PyError Shape := do
  let g ← interpAxis h 0 c.nlev c.kmax
  let m ← bcastShape [1, c.nlat] [c.kmax, 1]
  c.zDerivShape g m

/-- `_compute_stretch_term`, lines 1021-1061. -/
def stretchTerm : Except PyError Unit := do
  if c.nh then storeSlice c.nA c.latDim else .ok ()
  let p : Shape := [1, if c.nh then c.nA else c.latDim, c.kmax]
  let s ← bcastShape c.field p
  let s ← bcastShape c.field s
  let s ← bcastShape s [1, c.nA, 1]
  let m ← bcastShape [1, c.nA] [c.kmax, 1]
  let r ← c.zDerivShape (swapOuter s) m
  if c.nh then storeSlice c.latDim (lastLen (r.getD 1 0) c.eq) else .ok ()

/-- `compute_layerwise_lwa_fluxes`, lines 1063-1156: the default of `ncforce` on line 1078 uses the input number of
latitudes. -/
def layerwise (nc : Option Shape) : Except PyError Unit := do
  let _ ← c.qrefCorrect
  let nc ← c.ncArg [c.nlon, c.nlat, c.kmax] nc
  c.fluxCalls nc
  c.stretchTerm

/-- `compute_lwa_only`, lines 624-690. -/
def lwaOnly : Except PyError Unit := do
  let q ← c.qrefCorrect
  let rows := q.getD 0 0
  let s ← fluxCall c.field c.field [lastLen rows c.eq, q.getD 1 0] [0, c.kmax] [0, c.kmax]
  storeSlice c.latDim (s.getD 1 0)
  if c.nh then .ok ()
  else do
    let s ← fluxCall c.field c.field [firstLen rows c.eq, q.getD 1 0] [0, c.kmax] [0, c.kmax]
    storeSlice c.latDim (s.getD 1 0)

end ShapeCfg

end Falwa
