import Verif.Model.Protocol

/-!
# Calls on a `QGDataset`

Source: `/repo/src/falwa/xarrayinterface.py` lines 241-255 (`_DataArrayCollector`), 438-661 (methods). A `QGDataset` keeps a list of
fields, all with the same configuration. Every method goes through the list and calls the method of the field; an exception leaves the
loop. Afterwards the variables of the returned dataset are collected. The field is the state machine of `Model/Protocol.lean`. That
`zip` pairs every field with its labels is proved in `Props/Xarray.lean`; shapes are in `Model/Dataset.lean`.
-/

namespace Falwa

variable {D : Type*}

/-- A method call. Field `i` was built from `data i`; the solver reports `its i` there; the part of `ncforce` with its labels is
`nc i`, where `none` means that `ncforce.sel(coord)` finds no such labels (`KeyError`, lines 547 and 620). -/
inductive DsOp where
  | interpolate
  | refStates (its : ℕ → ℕ × ℕ)
  | fluxes (nc : ℕ → Option NcArg)
  | lwaOnly
  | layerwise (nc : ℕ → Option NcArg)

namespace DsOp

/-- The call that field `i` gets, if it gets one. -/
def field (data : ℕ → D) (i : ℕ) : DsOp → Option (QGOp D)
  | interpolate => some (.interpolate (data i))
  | refStates its => some (.refStates (its i).1 (its i).2)
  | fluxes nc => (nc i).map .fluxes
  | lwaOnly => some .lwaOnly
  | layerwise nc => (nc i).map .layerwise

/-- Groups of properties that the returned dataset reads, lines 457-467, 515-519, 550-563, 593-597 and 623-631. -/
def reads : DsOp → List ResultName
  | interpolate => [.interpolated]
  | refStates _ => [.refStates]
  | fluxes _ => [.barotropic, .lwa3d]
  | lwaOnly => [.barotropic, .lwa3d]
  | layerwise _ => [.lwa3d, .layerwise]

end DsOp

/-- The call on one field. `interpolate_fields(return_named_tuple=False)`, line 455, reads no property, so it cannot fail. -/
def fieldCall (C : QGConfig) (s : QGState D) : Option (QGOp D) → QGState D × Except PyError Unit
  | none => (s, .error .keyError)
  | some (.interpolate d) => ((qgStep C s (.interpolate d)).state, .ok ())
  | some op => ((qgStep C s op).state, (qgStep C s op).result)

/-- The loop over the fields, from field `i` on. -/
def dsLoop (C : QGConfig) (f : ℕ → Option (QGOp D)) : ℕ → List (QGState D) → List (QGState D) × Except PyError Unit
  | _, [] => ([], .ok ())
  | i, s :: ss =>
    match fieldCall C s (f i) with
    | (s', .error e) => (s' :: ss, .error e)
    | (s', .ok _) => (s' :: (dsLoop C f (i + 1) ss).1, (dsLoop C f (i + 1) ss).2)

/-- `_DataArrayCollector.__get__`, lines 253-255: a property of every field is read. -/
def collectAll (C : QGConfig) (r : ResultName) : List (QGState D) → Except PyError Unit
  | [] => .ok ()
  | s :: ss => do
    doRead C s r
    collectAll C r ss

/-- Several properties, one after the other. -/
def collectEach (C : QGConfig) (ss : List (QGState D)) : List ResultName → Except PyError Unit
  | [] => .ok ()
  | r :: rs => do
    collectAll C r ss
    collectEach C ss rs

/-- A method call with `return_dataset = ret`. -/
def dsStep (C : QGConfig) (data : ℕ → D) (ss : List (QGState D)) (op : DsOp) (ret : Bool) : List (QGState D) × Except PyError Unit :=
  match dsLoop C (fun i => op.field data i) 0 ss with
  | (ss', .error e) => (ss', .error e)
  | (ss', .ok _) => (ss', if ret then collectEach C ss' op.reads else .ok ())

/-- The fields after a session; exceptions are caught and the session goes on. -/
def dsRun (C : QGConfig) (data : ℕ → D) (ss : List (QGState D)) (ops : List (DsOp × Bool)) : List (QGState D) :=
  ops.foldl (fun ss o => (dsStep C data ss o.1 o.2).1) ss

/-- A new dataset of `n` fields, lines 399-412. -/
def dsFresh (n : ℕ) : List (QGState D) := List.replicate n QGState.fresh

end Falwa
