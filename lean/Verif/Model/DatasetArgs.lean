import Verif.Model.Xarray

/-!
# Arguments of `QGDataset`

Source: `/repo/src/falwa/xarrayinterface.py` lines 28-57 and 315-382. From the arguments of the constructor to the three arrays whose
data are flattened, and the names of the coordinates. What follows is in `Model/Xarray.lean` (flattening, flipping) and
`Model/Dataset.lean`. Labels of coordinates and data are of any type. Not modelled: attributes, and errors of xarray for a coordinate
with the name of a field.
-/

namespace Falwa.Xr

variable {C α : Type}

/-- A `DataArray`: names of the dimensions, their sizes, coordinates with their labels, data. -/
structure Arr (C α : Type) where
  dims : List String
  size : String → ℕ
  coords : List (String × C)
  data : α

/-- An argument: omitted, a `DataArray`, a `Dataset`, or anything else. -/
inductive Arg (C α : Type) where
  | missing
  | array (a : Arr C α)
  | dataset (vars : List (String × Arr C α))
  | foreign

/-- `_get_dataarray` on a `Dataset`, lines 40-42. -/
def getArray (vars : List (String × Arr C α)) (first : String) (rest : List String) (user : Option (List (String × String))) :
    Except PyError (Arr C α) :=
  match getName (vars.map Prod.fst) first rest user with
  | .error e => .error e
  | .ok n => (vars.lookup n).elim (.error .keyError) .ok

/-- `da_v` or `da_t` if `da_u` is a `Dataset` with the variables `vars`, lines 331-341. -/
def fillUp (vars : List (String × Arr C α)) (first : String) (rest : List String) (user : Option (List (String × String))) :
    Arg C α → Except PyError (Arr C α)
  | .missing => getArray vars first rest user
  | .dataset w => getArray w first rest user
  | .array a => .ok a
  | .foreign => .error .assertionError

/-- `assert da is not None` and `da.rename(name)`, lines 348-354: a `Dataset` takes no new name (`ValueError`). -/
def rename : Arg C α → Except PyError (Arr C α)
  | .array a => .ok a
  | .dataset _ => .error .valueError
  | _ => .error .assertionError

/-- The three arrays before the merge, lines 320-354. The checks for `None` come before the renaming. -/
def threeArrays (u v t : Arg C α) (user : Option (List (String × String))) : Except PyError (Arr C α × Arr C α × Arr C α) :=
  match u, v, t with
  | .missing, _, _ => .error .assertionError
  | .foreign, _, _ => .error .assertionError
  | _, .foreign, _ => .error .assertionError
  | _, _, .foreign => .error .assertionError
  | .dataset vars, v, t => do
    let b ← fillUp vars "v" ["V"] user v
    let c ← fillUp vars "t" ["T"] user t
    let a ← getArray vars "u" ["U"] user
    pure (a, b, c)
  | .array _, .missing, _ => .error .assertionError
  | .array _, _, .missing => .error .assertionError
  | .array a, v, t => do
    let b ← rename v
    let c ← rename t
    pure (a, b, c)

variable [DecidableEq C]

/-- Coordinates of the same name have the same labels, dimensions of the same name the same size: what `xr.merge` with `join="exact"` and
`compat="equals"` asks for, lines 355-359. -/
def Agree (a b : Arr C α) : Prop :=
  (∀ p ∈ a.coords, ∀ q ∈ b.coords, p.1 = q.1 → p.2 = q.2) ∧ ∀ d ∈ a.dims, d ∈ b.dims → a.size d = b.size d

instance (a b : Arr C α) : Decidable (Agree a b) := by unfold Agree; infer_instance

/-- What the constructor goes on with. -/
structure Built (C α : Type) where
  u : Arr C α
  v : Arr C α
  t : Arr C α
  plev : String
  ylat : String
  xlon : String

/-- Lines 28-30. -/
def plevNames : String × List String := ("plev", ["lev", "level", "isobaricInhPa", "pressure_level"])
/-- Line 31. -/
def ylatNames : String × List String := ("ylat", ["lat", "latitude"])
/-- Line 32. -/
def xlonNames : String × List String := ("xlon", ["lon", "longitude"])

/-- `dims[-n] == name`, lines 369-371. -/
def dimIs (dims : List String) (n : ℕ) (name : String) : Except PyError Unit :=
  if dims.length < n then .error .indexError
  else if dims[dims.length - n]? = some name then .ok ()
  else .error .assertionError

/-- `__init__` up to line 373. -/
def construct (u v t : Arg C α) (user : Option (List (String × String))) : Except PyError (Built C α) := do
  let (a, b, c) ← threeArrays u v t user
  if ¬ (Agree a b ∧ Agree a c ∧ Agree b c) then .error .valueError
  else
    let names := (a.coords ++ b.coords ++ c.coords).map Prod.fst
    let plev ← getName names plevNames.1 plevNames.2 user
    let ylat ← getName names ylatNames.1 ylatNames.2 user
    let xlon ← getName names xlonNames.1 xlonNames.2 user
    dimIs a.dims 3 plev
    dimIs a.dims 2 ylat
    dimIs a.dims 1 xlon
    if a.dims ≠ b.dims then .error .assertionError
    else if a.dims ≠ c.dims then .error .assertionError
    else .ok ⟨a, b, c, plev, ylat, xlon⟩

end Falwa.Xr
