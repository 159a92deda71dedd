import Verif.Model.Eqvlat
import Verif.Model.Lwa

/-!
# Model of `BarotropicField`

Source: `/repo/src/falwa/barotropic_field.py` lines 74-164.

The object is a state machine: the attributes that never change are the configuration, the assignable
`pv_field` and the two cache slots `_eqvlat` and `_lwa` are the state.
-/

noncomputable section

namespace Falwa

open Finset

/-- Attributes set by `__init__` that do not change, barotropic_field.py lines 74-98. -/
structure BaroConfig where
  nlat : ℕ
  nlon : ℕ
  ylat : ℕ → ℝ
  clat : ℕ → ℝ
  dphi : ℕ → ℝ
  area : ℕ → ℕ → ℝ
  nPartitions : ℕ
  radius : ℝ
  partitioned : Bool

/-- `np.deg2rad`. -/
def deg2rad (x : ℝ) : ℝ := x * Real.pi / 180

/-- `__init__`, barotropic_field.py lines 74-98, with its defaults:
`dphi = pi/(nlat-1)`, `area = 2 pi a² cos(lat) dphi / nlon`, `n_partitions = nlat`. -/
def baroInit (nlat nlon : ℕ) (ylat : ℕ → ℝ) (radius : ℝ) (partitioned : Bool)
    (area : Option (ℕ → ℕ → ℝ)) (dphi : Option (ℕ → ℝ)) (nPartitions : Option ℕ) : BaroConfig :=
  let dphi := dphi.getD (fun _ => Real.pi / ((nlat - 1 : ℕ) : ℝ))
  { nlat, nlon, ylat, radius, partitioned, dphi
    clat := fun j => |Real.cos (deg2rad (ylat j))|
    area := area.getD (fun j _ => 2 * Real.pi * radius ^ 2 * (Real.cos (ylat j * Real.pi / 180) * dphi j) / nlon)
    nPartitions := nPartitions.getD nlat }

/-- The input of `basis.eqvlat_fawa` in `_compute_eqvlat`, barotropic_field.py lines 108-111. -/
def BaroConfig.eqvInput (C : BaroConfig) (pv : ℕ → ℕ → ℝ) : EqvInput where
  nlat := C.nlat
  nlon := C.nlon
  ylat := C.ylat
  vort := pv
  area := C.area
  nPoints := C.nPartitions
  radius := C.radius

/-- The `dmu` argument, barotropic_field.py line 122. -/
def BaroConfig.dmu (C : BaroConfig) (j : ℕ) : ℝ := C.radius * C.clat j * C.dphi j

/-- The call of `basis.lwa`, barotropic_field.py lines 120-124. -/
def BaroConfig.lwaOf (C : BaroConfig) (pv : ℕ → ℕ → ℝ) (q : ℕ → ℝ) : LwaOut ℝ :=
  (lwa C.nlat pv q C.dmu C.partitioned none).1

/-- The mutable attributes: `pv_field`, `_eqvlat`, `_lwa` (lines 93, 101, 102).
The slots hold `none` for Python's `None`. -/
structure BaroState where
  pv : ℕ → ℕ → ℝ
  eqvlat : Option (Outcome (ℕ → ℝ))
  lwa : Option (Outcome (LwaOut ℝ))

/-- State after `__init__`, lines 93-102. -/
def baroFresh (pv : ℕ → ℕ → ℝ) : BaroState := { pv, eqvlat := none, lwa := none }

/-- Reading `equivalent_latitudes`, lines 104-112 and 142-144: `_compute_eqvlat` stores its result in
`self.eqvlat`, an attribute that is never read; the slot `_eqvlat` is not written. -/
def readEqv (C : BaroConfig) (s : BaroState) : BaroState × Outcome (ℕ → ℝ) :=
  match s.eqvlat with
  | none => (s, (C.eqvInput s.pv).qref)
  | some v => (s, v)

/-- Reading `lwa`, lines 114-125 and 162-164. An exception of `equivalent_latitudes` propagates and
leaves the slot empty. -/
def readLwa (C : BaroConfig) (s : BaroState) : BaroState × Outcome (LwaOut ℝ) :=
  match s.lwa with
  | some v => (s, v)
  | none =>
    let (s1, q) := readEqv C s
    match q with
    | .valueError => (s1, .valueError)
    | q =>
      let v := q.map (C.lwaOf s1.pv)
      ({ s1 with lwa := some v }, v)

/-- What a user can do with the object. -/
inductive BaroOp where
  | readEqv
  | readLwa
  | setPv (pv : ℕ → ℕ → ℝ)

/-- What a user observes. -/
inductive BaroObs where
  | eqv (v : Outcome (ℕ → ℝ))
  | lwa (v : Outcome (LwaOut ℝ))
  | unit

/-- One step of the object. -/
def baroStep (C : BaroConfig) (s : BaroState) : BaroOp → BaroState × BaroObs
  | .readEqv => let (s', v) := readEqv C s; (s', .eqv v)
  | .readLwa => let (s', v) := readLwa C s; (s', .lwa v)
  | .setPv pv => ({ s with pv }, .unit)

/-- A history: the observations of a sequence of operations and the final state. -/
def baroRun (C : BaroConfig) : BaroState → List BaroOp → BaroState × List BaroObs
  | s, [] => (s, [])
  | s, op :: ops =>
    let (s1, o) := baroStep C s op
    let (s2, os) := baroRun C s1 ops
    (s2, o :: os)

end Falwa

end
