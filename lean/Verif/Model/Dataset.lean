import Verif.Model.Shapes
import Verif.Model.Xarray

/-!
# The variables of `QGDataset`

Source: `/repo/src/falwa/xarrayinterface.py` lines 76-149 (`_MetadataServiceProvider`), 207-238 (registry), 241-255 (`_DataArrayCollector`),
454-661 (methods).

Shapes and labels only, for fields that were all built on the same grid; the values are in `Model/Xarray.lean`.
-/

namespace Falwa

/-- The coordinate arrays of a field that the registry refers to. -/
inductive CoordName where
  | height
  | ylat
  | ylatRefStates
  | xlon
  deriving DecidableEq

/-- The registered variables. -/
inductive DsVar where
  | qgpv | interpolatedU | interpolatedV | interpolatedTheta
  | staticStability | staticStabilityN | staticStabilityS
  | qref | uref | ptref
  | uBaro | lwaBaro | ncforceBaro | advFluxF1 | advFluxF2 | advFluxF3
  | convergenceZonalAdvectiveFlux | divergenceEddyMomentumFlux | meridionalHeatFlux
  | fluxVectorLambdaBaro | fluxVectorPhiBaro
  | lwa | ncforce | ua1 | ua2 | ep1 | ep2 | ep3 | stretchTerm
  deriving DecidableEq

open DsVar CoordName

/-- `register_var`, lines 207-238: the coordinates (`dim_names`). -/
def registry : DsVar → List CoordName
  | qgpv | interpolatedU | interpolatedV | interpolatedTheta => [height, ylat, xlon]
  | staticStability | staticStabilityN | staticStabilityS => [height]
  | qref | uref | ptref => [height, ylatRefStates]
  | uBaro | lwaBaro | ncforceBaro | advFluxF1 | advFluxF2 | advFluxF3 | convergenceZonalAdvectiveFlux | divergenceEddyMomentumFlux
  | meridionalHeatFlux | fluxVectorLambdaBaro | fluxVectorPhiBaro => [ylatRefStates, xlon]
  | lwa | ncforce | ua1 | ua2 | ep1 | ep2 | ep3 | stretchTerm => [height, ylatRefStates, xlon]

namespace ShapeCfg

variable (c : ShapeCfg)

/-- `getattr(self.field, name).size`, line 103. `ylat` is the grid of the input. -/
def coordSize : CoordName → ℕ
  | .height => c.kmax
  | .ylat => c.nlat
  | .ylatRefStates => c.ylatRefStates
  | .xlon => c.nlon

/-- Shape of the property of a field (oopinterface.py, see `Model/Shapes.lean`) with the stored fluxes `f`. `ncforce` is no property. -/
def propShape (f : FluxShapes) : DsVar → Except PyError Shape
  | .qgpv | .interpolatedU | .interpolatedV | .interpolatedTheta => c.qgpvProp
  | .staticStability | .staticStabilityN | .staticStabilityS => .ok [c.kmax]
  | .qref => c.qrefProp
  | .uref | .ptref => c.urefProp
  | .uBaro | .lwaBaro | .ncforceBaro => c.baroProp
  | .advFluxF1 | .advFluxF2 | .advFluxF3 | .meridionalHeatFlux | .fluxVectorLambdaBaro => c.returnInterp f.adv 0
  | .convergenceZonalAdvectiveFlux => c.returnInterp f.conv 0
  | .divergenceEddyMomentumFlux => c.returnInterp f.div 0
  | .fluxVectorPhiBaro => c.returnInterp f.phi 0
  | .lwa | .ua1 | .ua2 | .ep1 | .ep2 | .ep3 | .stretchTerm => c.layerProp
  | .ncforce => .error .attributeError

/-- `as_dataarray`, lines 137-149: shape of the labelled array, for an array of shape `s`. -/
def labelled (other : Shape) (v : DsVar) (s : Shape) : Except PyError Shape :=
  (Xr.asDataArray other ((registry v).map c.coordSize) s fun _ => ()).map fun _ => other ++ (registry v).map c.coordSize

/-- `_DataArrayCollector.__get__`, lines 253-255, for `nf` fields. -/
def collect (other : Shape) (nf : ℕ) (f : FluxShapes) (v : DsVar) : Except PyError Shape := do
  let s ← c.propShape f v
  c.labelled other v (nf :: s)

/-- `QGDataset.compute_ncforce_from_heating_rate`, lines 656-661; `h` is the shape of the heating rate of one field. -/
def collectHeating (other : Shape) (nf : ℕ) (h : Shape) : Except PyError Shape := do
  let s ← c.heatingRate h
  c.labelled other .ncforce (nf :: s)

/-- Variables of the datasets that the methods return, lines 457-467, 515-519, 550-563, 593-597 and 623-631. -/
def datasets : List (List DsVar) :=
  [[.qgpv, .interpolatedU, .interpolatedV, .interpolatedTheta, .staticStability, .staticStabilityN, .staticStabilityS], [.qref, .uref, .ptref],
   [.advFluxF1, .advFluxF2, .advFluxF3, .convergenceZonalAdvectiveFlux, .divergenceEddyMomentumFlux, .meridionalHeatFlux, .lwaBaro, .uBaro,
    .ncforceBaro, .fluxVectorLambdaBaro, .fluxVectorPhiBaro, .lwa], [.lwaBaro, .uBaro, .lwa], [.lwa, .ua1, .ua2, .ep1, .ep2, .ep3, .stretchTerm]]

end ShapeCfg

end Falwa
