import Verif.Model.PyError

/-!
# Model of the call protocol of `QGFieldNH18` and `QGFieldNHN22`

Source: `/repo/src/falwa/oopinterface.py`.

The object is a state machine. Arrays are replaced by their provenance: `D` identifies the input arrays (`u_field`, ...)
that were current when a method ran; a stored result records the data it was computed from.
The outcome of the solver is an input of the step. Errors of `f2py` calls with missing arrays or wrong shapes are
`otherError` (the class of the exception is not modelled).
-/

namespace Falwa

/-- The two concrete classes, oopinterface.py lines 1546 and 1697. -/
inductive QGKind where
  | nh18
  | nhn22
  deriving DecidableEq, Repr

/-- Attributes fixed by the constructor, lines 103-175: class, `maxit`, `raise_error_for_nonconvergence`,
`northern_hemisphere_results_only`, `need_latitude_interpolation`. -/
structure QGConfig where
  kind : QGKind
  maxit : ℕ
  raiseErr : Bool
  nhOnly : Bool
  evenGrid : Bool

/-- Provenance of a reference state in one hemisphere: the fields and the iteration count reported by the solver. -/
abbrev RefProv (D : Type*) := D × ℕ

/-- Provenance of a result: the fields, and the contents of the two halves of the reference storage
(`none` stands for the zeros of the constructor). -/
structure ResultProv (D : Type*) where
  fields : D
  refN : Option (RefProv D)
  refS : Option (RefProv D)

/-- Attributes that the methods change: interpolated fields (lines 518-520, `None` at first), both halves of the reference
storage, the three flags of lines 106, 186, 187, `lwa_baro` and `u_baro`, the barotropic flux terms, `lwa`, and the
layerwise terms. -/
structure QGState (D : Type*) where
  fields : Option D
  refN : Option (RefProv D)
  refS : Option (RefProv D)
  nonconv : Bool
  refDone : Bool
  layerDone : Bool
  baroLwa : Option (ResultProv D)
  flux : Option (ResultProv D)
  lwa : Option (ResultProv D)
  layer : Option (ResultProv D)

/-- The state after the constructor, lines 106 and 183-187. -/
def QGState.fresh {D : Type*} : QGState D :=
  { fields := none, refN := none, refS := none, nonconv := false, refDone := false, layerDone := false,
    baroLwa := none, flux := none, lwa := none, layer := none }

/-- The `ncforce` argument: absent, of the shape of the interpolated fields, or of another shape. -/
inductive NcArg where
  | absent
  | fits
  | wrongShape
  deriving DecidableEq, Repr

/-- Groups of result properties: `qgpv` and `interpolated_*` (lines 1222-1259), `qref`, `uref`, `ptref` (lines 1269-1299),
barotropic results (lines 1301-1421), `lwa` (line 1423), and the layerwise terms (lines 1433-1512). -/
inductive ResultName where
  | interpolated
  | refStates
  | barotropic
  | lwa3d
  | layerwise
  deriving DecidableEq, Repr

/-- Public calls. `refStates n s` carries the iteration counts the solver reports in the two hemispheres. -/
inductive QGOp (D : Type*) where
  | interpolate (d : D)
  | refStates (n s : ℕ)
  | fluxes (nc : NcArg)
  | lwaOnly
  | layerwise (nc : NcArg)
  | read (r : ResultName)

/-- Result of a call: new state, normal return or exception, and whether a warning was issued. -/
structure StepOut (D : Type*) where
  state : QGState D
  result : Except PyError Unit
  warned : Bool

variable {D : Type*}

/-- `qgpv`, lines 1222-1229: `ValueError` if absent. On even grids in northern-only mode `_return_interp_variables`
(lines 395-399) passes the half grid with the global array to `interp1d`, which raises `ValueError`. -/
def qgpvRead (C : QGConfig) (s : QGState D) : Except PyError Unit :=
  match s.fields with
  | none => .error .valueError
  | some _ => if C.evenGrid && C.nhOnly then .error .valueError else .ok ()

/-- `_nonconvergence_notification`, lines 1596-1602: sets the flag, then raises or warns. -/
def notify (C : QGConfig) (s : QGState D) : StepOut D :=
  let s := { s with nonconv := true }
  if C.raiseErr then ⟨s, .error .valueError, false⟩ else ⟨s, .ok (), true⟩

/-- Southern part of `_compute_reference_states` of `QGFieldNH18`, lines 1619-1631. -/
def refSouthNH18 (C : QGConfig) (s : QGState D) (d : D) (n : ℕ) : StepOut D :=
  if C.nhOnly then ⟨s, .ok (), false⟩
  else
    let s := { s with refS := some (d, n) }
    if C.maxit ≤ n then notify C s else ⟨s, .ok (), false⟩

/-- `_compute_reference_states`: `QGFieldNH18` lines 1604-1631, `QGFieldNHN22` lines 1771-1806 (no convergence check;
the recorded count is 0). -/
def refInner (C : QGConfig) (s : QGState D) (d : D) (n m : ℕ) : StepOut D :=
  match C.kind with
  | .nhn22 => ⟨{ s with refN := some (d, 0), refS := if C.nhOnly then s.refS else some (d, 0) }, .ok (), false⟩
  | .nh18 =>
    let s := { s with refN := some (d, n) }
    if C.maxit ≤ n then
      let o := notify C s
      match o.result with
      | .error e => ⟨o.state, .error e, o.warned⟩
      | .ok _ => let o' := refSouthNH18 C o.state d m; ⟨o'.state, o'.result, o.warned || o'.warned⟩
    else refSouthNH18 C s d m

/-- `compute_reference_states`, lines 599-615. The named tuple only reads properties that cannot fail here. -/
def doRefStates (C : QGConfig) (s : QGState D) (n m : ℕ) : StepOut D :=
  match qgpvRead C s, s.fields with
  | .error e, _ => ⟨s, .error e, false⟩
  | .ok _, none => ⟨s, .error .valueError, false⟩
  | .ok _, some d =>
    let o := refInner C s d n m
    match o.result with
    | .error e => ⟨o.state, .error e, o.warned⟩
    | .ok _ => ⟨if o.state.nonconv then o.state else { o.state with refDone := true }, .ok (), o.warned⟩

/-- `interpolate_fields`, lines 506-536: the arrays are stored first; the named tuple then reads `qgpv`, which raises on
even grids in northern-only mode. Simplification: `return_named_tuple` has its default value. -/
def doInterpolate (C : QGConfig) (s : QGState D) (d : D) : StepOut D :=
  let s := { s with fields := some d }
  ⟨s, qgpvRead C s, false⟩

/-- What a method would compute from the present state, if fields are present. -/
def currentProv (s : QGState D) : Option (ResultProv D) := s.fields.map fun d => ⟨d, s.refN, s.refS⟩

/-- `compute_lwa_and_barotropic_fluxes`, lines 883-962: the guards of lines 884-895, the shape assertion of line 904, then
`lwa_baro`, `u_baro`, the flux terms and `lwa` are written. -/
def doFluxes (C : QGConfig) (s : QGState D) (nc : NcArg) : StepOut D :=
  match qgpvRead C s with
  | .error e => ⟨s, .error e, false⟩
  | .ok _ =>
    if s.nonconv then ⟨s, .error .valueError, false⟩
    else if !s.refDone then ⟨s, .error .valueError, false⟩
    else if nc = .wrongShape then ⟨s, .error .assertionError, false⟩
    else ⟨{ s with baroLwa := currentProv s, flux := currentProv s, lwa := currentProv s }, .ok (), false⟩

/-- `compute_lwa_only`, lines 644-690: no guard; the `f2py` call fails if the fields are `None`. It writes
`lwa_baro` and `u_baro` of the barotropic storage, and `lwa`. -/
def doLwaOnly (s : QGState D) : StepOut D :=
  match s.fields with
  | none => ⟨s, .error .otherError, false⟩
  | some _ => ⟨{ s with baroLwa := currentProv s, lwa := currentProv s }, .ok (), false⟩

/-- `compute_layerwise_lwa_fluxes`, lines 1063-1156: no guard. Without fields a call or an attribute access fails.
Without `ncforce` the zeros have the input number of latitudes (line 1078), which does not fit on even grids. -/
def doLayerwise (C : QGConfig) (s : QGState D) (nc : NcArg) : StepOut D :=
  match s.fields with
  | none => ⟨s, .error .otherError, false⟩
  | some _ =>
    match nc with
    | .wrongShape => ⟨s, .error .assertionError, false⟩
    | .absent =>
      if C.evenGrid then ⟨s, .error .otherError, false⟩
      else ⟨{ s with layer := currentProv s, lwa := currentProv s, layerDone := true }, .ok (), false⟩
    | .fits => ⟨{ s with layer := currentProv s, lwa := currentProv s, layerDone := true }, .ok (), false⟩

/-- Reading a result property. The arrays behind `refStates`, `barotropic` and `lwa3d` are allocated as zeros by the
storages (data_storage.py lines 162-164, 198-207, 263-272), so their `is None` tests never fire. -/
def doRead (C : QGConfig) (s : QGState D) : ResultName → Except PyError Unit
  | .interpolated => qgpvRead C s
  | .refStates => .ok ()
  | .barotropic => .ok ()
  | .lwa3d => .ok ()
  | .layerwise => if s.layerDone then .ok () else .error .valueError

/-- One public call. -/
def qgStep (C : QGConfig) (s : QGState D) : QGOp D → StepOut D
  | .interpolate d => doInterpolate C s d
  | .refStates n m => doRefStates C s n m
  | .fluxes nc => doFluxes C s nc
  | .lwaOnly => doLwaOnly s
  | .layerwise nc => doLayerwise C s nc
  | .read r => ⟨s, doRead C s r, false⟩

/-- The state after a sequence of calls; the caller catches exceptions and goes on. -/
def qgRun (C : QGConfig) (s : QGState D) (ops : List (QGOp D)) : QGState D :=
  ops.foldl (fun s op => (qgStep C s op).state) s

end Falwa
