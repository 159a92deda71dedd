import Verif.Model.PyError

/-!
# Extraction of times from a file

Source: `/repo/src/falwa/netcdf_utils.py` lines 10-27 (`extract_one_timeslice`). A file is represented by the variables of the dataset that
`xr.open_dataset` gives. Encodings, attributes and other dimensions are left out; an array of the other dimensions is one value.
-/

namespace Falwa.Nc

/-- A variable without and with the dimension `time`. -/
inductive Var (α : Type*) where
  | fixed (v : α)
  | series (v : ℕ → α)

/-- A dataset: the length of the dimension `time`, if there is one, and the variables by name (coordinates included). -/
structure File (α : Type*) where
  times : Option ℕ
  vars : String → Option (Var α)

variable {α : Type*}

/-- Index `i` of an axis of length `n`; negative indices count from the end. -/
def resolve (n : ℕ) (i : ℤ) : Except PyError ℕ :=
  if 0 ≤ i ∧ i < n then .ok i.toNat
  else if -n ≤ i ∧ i < 0 then .ok (i + n).toNat
  else .error .indexError

/-- The indices of a list, one after the other. -/
def resolveAll (n : ℕ) : List ℤ → Except PyError (List ℕ)
  | [] => .ok []
  | i :: is => do
    let k ← resolve n i
    let ks ← resolveAll n is
    return k :: ks

/-- A variable at the given indices. -/
def Var.pick (ks : List ℕ) : Var α → Var α
  | .fixed v => .fixed v
  | .series v => .series fun k => v (ks.getD k 0)

/-- The file written by `extract_one_timeslice`, lines 24-26. `Dataset.isel` refuses dimensions that do not exist. -/
def extract (F : File α) (timeslice : List ℤ) : Except PyError (File α) :=
  match F.times with
  | none => .error .valueError
  | some n => (resolveAll n timeslice).map fun ks => { times := some ks.length, vars := fun name => (F.vars name).map (Var.pick ks) }

/-- `extract_one_timeslice` with its default, line 10. -/
def extractDefault (F : File α) : Except PyError (File α) := extract F [0]

end Falwa.Nc
