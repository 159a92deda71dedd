import Verif.Props.Lwa
import Verif.Props.Eqvlat
import Verif.Props.Wrapper
import Verif.Props.Barotropic
import Verif.Props.Utilities
import Verif.Props.Storage
import Verif.Props.Grid
import Verif.Props.Protocol
import Verif.Props.Flux
import Verif.Props.FluxTerms
import Verif.Props.AreaAnalysis
import Verif.Props.RefState
import Verif.Props.DirectInv
import Verif.Props.Xarray
import Verif.Props.Misc
import Verif.Props.Rotation
import Verif.Props.Mirror
import Verif.Props.MirrorFail
import Verif.Props.Shapes
import Verif.Props.Qgpv
import Verif.Props.FluxFormulas
import Verif.Props.Layerwise
import Verif.Props.Interp
import Verif.Props.Heating
import Verif.Props.Legacy
import Verif.Props.Fawa
import Verif.Props.Units
import Verif.Model.Defaults
import Verif.Props.Defaults
import Verif.Props.Hemispheres
import Verif.Lemmas.Offset
import Verif.Props.Offset
import Verif.Lemmas.Relaxation
import Verif.Props.Convergence
import Verif.Spec.Contour
import Verif.Props.Stability
import Verif.Props.RefBoundary
import Verif.Props.MirrorNhn
import Verif.Props.Rounding
import Verif.Props.Continuum
import Verif.Props.Consistency
import Verif.Props.Symmetry
import Verif.Props.Construct
import Verif.Props.Spline
import Verif.Props.Dataset
import Verif.Props.Minimal
import Verif.Props.Quadratic
import Verif.Props.ZonalMean
import Verif.Props.SouthBranch
import Verif.Props.QGFawa
import Verif.Props.FluxRounding
import Verif.Props.Arange
import Verif.Model.Alias
import Verif.Props.Alias
import Verif.Props.NorthOnly
import Verif.Props.AreaRounding
import Verif.Props.Bounds
import Verif.Props.PartitionArea
import Verif.Props.ColumnRounding
import Verif.Props.Linspace
import Verif.Props.Zonal
import Verif.Props.ZonalQG
import Verif.Lemmas.Response
import Verif.Props.Response
import Verif.Model.Grl
import Verif.Lemmas.Grl
import Verif.Spec.Circle
import Verif.Props.Grl
import Verif.Props.Leap
import Verif.Model.F2py
import Verif.Props.F2py
import Verif.Model.Scripts
import Verif.Props.Scripts
import Verif.Model.DatasetRun
import Verif.Props.DatasetRun
import Verif.Props.Globe
import Verif.Model.DatasetArgs
import Verif.Props.DatasetArgs
import Verif.Model.Plot
import Verif.Props.Plot
import Verif.Spec.Rearrange
import Verif.Lemmas.Rearrange
import Verif.Props.Rearrange
import Verif.Props.RearrangeQG
import Verif.Props.RearrangeClasses
import Verif.Props.RearrangeSamples
import Verif.Props.Balance
import Verif.Props.Energy
import Verif.Props.BalanceMean
import Verif.Model.Lifted
import Verif.Spec.Lifted
import Verif.Props.Lifted
import Verif.Spec.Circulation
import Verif.Props.Circulation
import Verif.Props.Kelvin
import Verif.Lemmas.Uniform
import Verif.Props.SphereWind
import Verif.Spec.Flow
import Verif.Props.SmoothQgpv
import Verif.Props.SmoothQgpv18
import Verif.Props.SmoothWind
import Verif.Spec.Waves
import Verif.Lemmas.Columns
import Verif.Props.SmoothLwa
import Verif.Lemmas.StepSums
import Verif.Lemmas.RowSums
import Verif.Props.SmoothFlux
import Verif.Props.SmoothAdvection
import Verif.Props.SmoothWindSouth
import Verif.Props.SmoothAdvectionSouth
import Verif.Model.InterpRounding
import Verif.Props.InterpRounding
import Verif.Lemmas.SourceSums
import Verif.Props.SmoothSource
import Verif.Props.SmoothHeating
import Verif.Props.Budget
import Verif.Props.Conserved
import Verif.Props.ColumnBudget
import Verif.Props.SmoothEddy
import Verif.Props.Taylor
import Verif.Props.FullBudget
import Verif.Lemmas.Bands
import Verif.Props.BandBudget
import Verif.Props.Missing
import Verif.Props.MissingProfile
import Verif.Props.MissingQgpv
import Verif.Props.Impulse
import Verif.Props.BarotropicBudget
import Verif.Props.HemLimit
import Verif.Props.HemBudget
import Verif.Lemmas.Parts
import Verif.Props.HemWhole
import Verif.Spec.Surface
import Verif.Lemmas.HemRows
import Verif.Props.HemTheta
import Verif.Props.HemPrescribed
import Verif.Lemmas.TimeAxis
import Verif.Props.IntegratedBudget
import Verif.Model.TimeCoord
import Verif.Props.TimeCoord
import Verif.Props.TwoParts
import Verif.Props.CircleIntegrated
import Verif.Model.Attributes
import Verif.Props.Attributes
import Verif.Lemmas.CellCount
import Verif.Props.GridBound
import Verif.Spec.Turn
import Verif.Props.Tilt
import Verif.Props.TiltedWave
import Verif.Model.TimeSlice
import Verif.Props.TimeSlice
import Verif.Props.TiltClasses
import Verif.Props.EqvlatRounding
import Verif.Props.MachineBound
import Verif.Props.QgpvRounding
import Verif.Props.VorticityError
import Verif.Props.QgpvError
import Verif.Props.Qgpv18Rounding
import Verif.Props.Acceleration
import Verif.Props.QgpvPoles
import Verif.Props.Qgpv18Error
import Verif.Props.FunctionGridBound
import Verif.Props.Qgpv18Circle
import Verif.Props.QgpvSensitivity
