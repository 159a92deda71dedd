import Verif.Model.PyError

/-!
# Model of `data_storage.py`

Source: `/repo/src/falwa/data_storage.py`.

An array with a latitude axis is a number of latitudes and a function from the latitude index to the rest of the array
(`α` stands for everything the other axes hold; the code always takes these axes whole, lines 23-26).
Simplification: storages have at least one latitude, and `nlat` is the length of the latitude axis
(lines 165, 197, 284 set it so).
-/

namespace Falwa

/-- An array along the latitude axis. -/
structure LatArray (α : Type*) where
  len : ℕ
  row : ℕ → α

/-- A storage object with one array: `nlat`, `northern_hemisphere_results_only` and the contents. -/
structure Storage (α : Type*) where
  nlat : ℕ
  nhOnly : Bool
  data : ℕ → α

variable {α : Type*}

namespace Storage

/-- `NHemProperty.__get__`, lines 34-40: the whole array, or the slice `[-(nlat//2+1):]`. -/
def getN (S : Storage α) : Except PyError (LatArray α) :=
  if S.nhOnly then .ok ⟨S.nlat, S.data⟩
  else .ok ⟨S.nlat - (S.nlat - (S.nlat / 2 + 1)), fun j => S.data (S.nlat - (S.nlat / 2 + 1) + j)⟩

/-- `SHemProperty.__get__`, lines 50-54: the slice `[:nlat//2+1]`, or an exception. -/
def getS (S : Storage α) : Except PyError (LatArray α) :=
  if S.nhOnly then .error .invalidCallOfSHem
  else .ok ⟨min (S.nlat / 2 + 1) S.nlat, S.data⟩

/-- `NHemProperty.__set__`, lines 42-45: assignment to the slice `[-jdim:]`. For `jdim = 0` the slice is `[0:]`, the
whole axis, so the shapes differ; for `jdim > nlat` they differ, too. Both raise `ValueError`. -/
def setN (S : Storage α) (v : LatArray α) : Storage α × Except PyError Unit :=
  if v.len = 0 ∨ S.nlat < v.len then (S, .error .valueError)
  else ({ S with data := fun j => if S.nlat - v.len ≤ j then v.row (j - (S.nlat - v.len)) else S.data j }, .ok ())

/-- `SHemProperty.__set__`, lines 56-62: assignment of the reversed array to the slice `[:jdim]`. -/
def setS (S : Storage α) (v : LatArray α) : Storage α × Except PyError Unit :=
  if S.nhOnly then (S, .error .invalidCallOfSHem)
  else if S.nlat < v.len then (S, .error .valueError)
  else ({ S with data := fun j => if j < v.len then v.row (v.len - 1 - j) else S.data j }, .ok ())

/-- The accesses that a user or the class `QGField` can make. -/
inductive Op (α : Type*) where
  | getN
  | getS
  | setN (v : LatArray α)
  | setS (v : LatArray α)

/-- One access: new contents and the result (`none` for a completed assignment). -/
def step (S : Storage α) : Op α → Storage α × Except PyError (Option (LatArray α))
  | .getN => (S, S.getN.map some)
  | .getS => (S, S.getS.map some)
  | .setN v => ((S.setN v).1, (S.setN v).2.map fun _ => none)
  | .setS v => ((S.setS v).1, (S.setS v).2.map fun _ => none)

/-- The storage after a sequence of accesses. Exceptions are caught by the caller, who goes on. -/
def run (S : Storage α) (ops : List (Op α)) : Storage α := ops.foldl (fun S op => (S.step op).1) S

end Storage

/-! ### Declared accessors -/

/-- A storage class: attributes allocated in `__init__`, and for each declared accessor the attribute it refers to. -/
structure StorageClass where
  allocated : List String
  declared : List (String × String)

/-- Reading an accessor on a fresh object in global mode: `getattr` fails if the attribute is missing (lines 40, 54). -/
def StorageClass.read (C : StorageClass) (accessor : String) : Except PyError Unit :=
  match C.declared.lookup accessor with
  | none => .error .attributeError
  | some attr => if C.allocated.contains attr then .ok () else .error .attributeError

/-- `ReferenceStatesStorage`, lines 148-185. -/
def referenceStatesClass : StorageClass where
  allocated := ["qref", "uref", "ptref"]
  declared := [("qref_nhem", "qref"), ("qref_shem", "qref"), ("uref_nhem", "uref"), ("uref_shem", "uref"),
    ("ptref_nhem", "ptref"), ("ptref_shem", "ptref")]

/-- `LayerwiseFluxTermsStorage`, lines 188-241. -/
def layerwiseClass : StorageClass where
  allocated := ["lwa", "astar1", "astar2", "ua1", "ua2", "ep1", "ep2", "ep3", "stretch_term", "ncforce"]
  declared := [("lwa_nhem", "lwa"), ("lwa_shem", "lwa"), ("astar1_nhem", "astar1"), ("astar1_shem", "astar1"),
    ("astar2_nhem", "astar2"), ("astar2_shem", "astar2"), ("ua1_nhem", "ua1"), ("ua1_shem", "ua1"),
    ("ua2_nhem", "ua2"), ("ua2_shem", "ua2"), ("ep1_nhem", "ep1"), ("ep1_shem", "ep1"), ("ep2_nhem", "ep2"),
    ("ep2_shem", "ep2"), ("ep3_nhem", "ep3"), ("ep3_shem", "ep3"), ("ep4_nhem", "ep4"), ("ep4_shem", "ep4"),
    ("stretch_term_nhem", "stretch_term"), ("stretch_term_shem", "stretch_term"),
    ("ncforce_nhem", "ncforce"), ("ncforce_shem", "ncforce")]

/-- `BarotropicFluxTermsStorage`, lines 275-329. -/
def barotropicFluxClass : StorageClass where
  allocated := ["ua1baro", "ua2baro", "ep1baro", "ep2baro", "ep3baro", "ep4", "ncforce_baro", "u_baro", "lwa_baro",
    "astar1_baro", "astar2_baro"]
  declared := [("ua1baro_nhem", "ua1baro"), ("ua1baro_shem", "ua1baro"), ("ua2baro_nhem", "ua2baro"),
    ("ua2baro_shem", "ua2baro"), ("ep1baro_nhem", "ep1baro"), ("ep1baro_shem", "ep1baro"),
    ("ep2baro_nhem", "ep2baro"), ("ep2baro_shem", "ep2baro"), ("ep3baro_nhem", "ep3baro"),
    ("ep3baro_shem", "ep3baro"), ("ep4_nhem", "ep4"), ("ep4_shem", "ep4"), ("ncforce_baro_nhem", "ncforce_baro"),
    ("ncforce_baro_shem", "ncforce_baro"), ("u_baro_nhem", "u_baro"), ("u_baro_shem", "u_baro"),
    ("lwa_baro_nhem", "lwa_baro"), ("lwa_baro_shem", "lwa_baro"), ("astar1_baro_nhem", "astar1_baro"),
    ("astar1_baro_shem", "astar1_baro"), ("astar2_baro_nhem", "astar2_baro"), ("astar2_baro_shem", "astar2_baro")]

/-! ### Index order -/

/-- An array with `ndim` axes: the length of each axis and the element at each multi-index (axis ↦ index). -/
structure NdArray (α : Type*) where
  ndim : ℕ
  shape : ℕ → ℕ
  elem : (ℕ → ℕ) → α

/-- The axis `a` of the result is the axis `swapAxis i j a` of the argument. -/
def swapAxis (i j a : ℕ) : ℕ := if a = i then j else if a = j then i else a

/-- `np.swapaxes`: element and shape move with the axes; `AxisError` (a `ValueError`) for a missing axis. -/
def npSwapaxes (x : NdArray α) (i j : ℕ) : Except PyError (NdArray α) :=
  if i < x.ndim ∧ j < x.ndim then
    .ok { ndim := x.ndim, shape := fun a => x.shape (swapAxis i j a), elem := fun idx => x.elem (fun a => idx (swapAxis i j a)) }
  else .error .valueError

/-- `fortran_to_python`, lines 103-104, with the two axes of the storage. -/
def fortranToPython (ax1 ax2 : ℕ) (x : NdArray α) : Except PyError (NdArray α) := npSwapaxes x ax1 ax2

/-- `python_to_fortran`, lines 106-107. -/
def pythonToFortran (ax1 ax2 : ℕ) (x : NdArray α) : Except PyError (NdArray α) := npSwapaxes x ax2 ax1

end Falwa
