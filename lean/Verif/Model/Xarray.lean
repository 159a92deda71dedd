import Verif.Model.PyError
import Mathlib.Algebra.BigOperators.Group.Finset.Basic
import Mathlib.Data.Real.Basic

/-!
# Model of `xarrayinterface.py`

Source: `/repo/src/falwa/xarrayinterface.py`.

Modelled: the name lookup, the flattening and restoring of extra dimensions, the automatic flipping, the labels of the
static stability, `integrate_budget` and `hemisphere_to_globe` (the arguments of `QGDataset` are in `Model/DatasetArgs.lean`). xarray
itself is described by the operations used: selection and reindexing by label, concatenation along a dimension, trapezoidal integration.
Not modelled: attributes, variables without a latitude axis in `hemisphere_to_globe`.
-/

namespace Falwa.Xr

/-! ### Names -/

/-- `_get_name`, lines 45-57. The names of the dataset are `ds`, the defaults are `first :: rest`. -/
def getName (ds : List String) (first : String) (rest : List String) (user : Option (List (String × String))) :
    Except PyError String :=
  match user.bind (·.lookup first) with
  | some name => if name ∈ ds then .ok name else .error .keyError
  | none =>
    match (first :: rest).find? (fun name => decide (name ∈ ds)) with
    | some name => .ok name
    | none => .error .keyError

/-! ### Extra dimensions -/

/-- Position of a multi-index in C order. -/
def ravel : List ℕ → List ℕ → ℕ
  | _ :: ds, i :: is => i * ds.prod + ravel ds is
  | _, _ => 0

/-- Multi-index of a position in C order. -/
def unravel : List ℕ → ℕ → List ℕ
  | [], _ => []
  | _ :: ds, n => n / ds.prod :: unravel ds (n % ds.prod)

/-- `arr.reshape(new)` for an array of shape `old`: the element with the same position in C order. -/
def reshape {α : Type*} (old new : List ℕ) (A : List ℕ → α) : List ℕ → α := fun idx => A (unravel old (ravel new idx))

/-- `itertools.product`, line 122: nested loops, the last argument varies fastest. -/
def product {α : Type*} : List (List α) → List (List α)
  | [] => [[]]
  | p :: ps => p.flatMap fun x => (product ps).map (x :: ·)

/-- The arrays given to the fields, lines 379-383: extra dimensions with sizes `other`, core dimensions `core`. -/
def flattenOther {α : Type*} (other core : List ℕ) (A : List ℕ → α) : List ℕ → α :=
  reshape (other ++ core) (other.prod :: core) A

/-- `as_dataarray`, lines 137-149, with `restore_other`, lines 112-115: shape and elements of the array in the result. -/
def asDataArray {α : Type*} (other core : List ℕ) (shape : List ℕ) (A : List ℕ → α) : Except PyError (List ℕ → α) :=
  if shape = other ++ core then .ok A
  else if shape.head? ≠ some other.prod then .error .assertionError
  else if other ++ shape.tail ≠ other ++ core then .error .assertionError
  else .ok (reshape shape (other ++ core) A)

/-! ### Flipping -/

/-- `_is_ascending`, lines 15-16. -/
def IsAscending (n : ℕ) (x : ℕ → ℝ) : Prop := ∀ i, i + 1 < n → 0 < x (i + 1) - x i

/-- `_is_descending`, lines 18-19. -/
def IsDescending (n : ℕ) (x : ℕ → ℝ) : Prop := ∀ i, i + 1 < n → x (i + 1) - x i < 0

/-- `np.flip` along an axis of length `n`. -/
def flipAxis {α : Type*} (n : ℕ) (x : ℕ → α) : ℕ → α := fun i => x (n - 1 - i)

/-- Fields on levels, latitudes, longitudes with their coordinates. -/
structure Gridded where
  /-- number of levels -/
  nlev : ℕ
  /-- number of latitudes -/
  nlat : ℕ
  /-- pressure -/
  plev : ℕ → ℝ
  /-- latitude -/
  ylat : ℕ → ℝ
  /-- values -/
  val : ℕ → ℕ → ℕ → ℝ

open Classical in
/-- Coordinates and values passed to the constructor of a field, lines 386-409. -/
noncomputable def orient (G : Gridded) : Gridded :=
  let fy : Bool := decide (¬ IsAscending G.nlat G.ylat)
  let fp : Bool := decide (¬ IsDescending G.nlev G.plev)
  { nlev := G.nlev
    nlat := G.nlat
    plev := if fp then flipAxis G.nlev G.plev else G.plev
    ylat := if fy then flipAxis G.nlat G.ylat else G.ylat
    val := fun k j i => G.val (if fp then G.nlev - 1 - k else k) (if fy then G.nlat - 1 - j else j) i }

/-- An array given later (`heating_rate` in lines 658-659, `ncforce` in lines 546-548 and 619-621): `.sel` picks the extra
dimensions, the array itself is passed on as it is. The field reads it with the coordinates given at construction. -/
noncomputable def later (G : Gridded) : Gridded :=
  { orient G with val := G.val }

/-! ### Static stability -/

/-- What `QGFieldNHN22.static_stability` returns, oopinterface.py lines 1894-1898: the pair (south, north), or the northern
profile in northern-only mode. -/
inductive Stability where
  | one (profile : ℕ → ℝ)
  | two (first second : ℕ → ℝ)

/-- `static_stability` of a field with the two profiles. -/
def fieldStability (nhOnly : Bool) (south north : ℕ → ℝ) : Stability :=
  if nhOnly then .one north else .two south north

/-- The variables of the dataset, lines 484-495, for one field: name and profile. -/
def labelStability : Stability → List (String × (ℕ → ℝ))
  | .one p => [("static_stability", p)]
  | .two p q => [("static_stability_n", p), ("static_stability_s", q)]

/-! ### Budget -/

/-- `DataArray.integrate`, the trapezoidal rule over the time axis in seconds. -/
noncomputable def integrate (n : ℕ) (t y : ℕ → ℝ) : ℝ :=
  ∑ i ∈ Finset.range (n - 1), (t (i + 1) - t i) * (0.5 * (y (i + 1) + y i))

/-- `.sel({time: label})`: the value at the first time with this label. -/
noncomputable def selTime (n : ℕ) (t y : ℕ → ℝ) (label : ℝ) : ℝ :=
  match (List.range n).find? (fun i => decide (t i = label)) with
  | some i => y i
  | none => 0

/-- Result of `integrate_budget` at one grid point. -/
structure Budget where
  deltaLwa : ℝ
  czaf : ℝ
  demf : ℝ
  mhf : ℝ
  residual : ℝ

/-- `integrate_budget`, lines 709-727, for `n` times. -/
noncomputable def integrateBudget (n : ℕ) (t lwa czaf demf mhf : ℕ → ℝ) : Budget :=
  let d := selTime n t lwa (t (n - 1)) - selTime n t lwa (t 0)
  { deltaLwa := d
    czaf := integrate n t czaf
    demf := integrate n t demf
    mhf := integrate n t mhf
    residual := d - integrate n t czaf - integrate n t demf - integrate n t mhf }

/-! ### Hemispheres -/

/-- A dataset along latitude: latitudes, and for each variable a name and one row per latitude. -/
structure LatDs (α : Type*) where
  lat : List ℝ
  vars : List (String × List α)

/-- `_is_equator`, lines 21-22. -/
def IsEquator (x : ℝ) : Prop := |x| < 1.0e-4

/-- `reindex` to the labels: for each label the row with this latitude. -/
noncomputable def reindexRows {α : Type*} (lat : List ℝ) (rows : List α) (labels : List ℝ) : List α :=
  labels.filterMap fun y => rows[lat.idxOf y]?

open Classical in
/-- `hemisphere_to_globe`, lines 769-791. `vNames` are the default names of the meridional wind, with the user's table. Reindexing
refuses duplicate labels; an empty latitude axis gives an `IndexError`. -/
noncomputable def hemisphereToGlobe {α : Type*} [Neg α] (ds : LatDs α) (user : Option (List (String × String))) :
    Except PyError (LatDs α) :=
  match ds.lat.head?, ds.lat.getLast? with
  | some y0, some y1 =>
    if ¬ (IsEquator y0 ∨ IsEquator y1) then .error .assertionError
    else if ¬ ds.lat.Nodup then .error .valueError
    else
      let eq0 := IsEquator y0
      let labels := if eq0 then ds.lat.tail.reverse else ds.lat.dropLast.reverse
      let vName := getName (ds.vars.map Prod.fst) "v" ["V"] user
      let other := fun (p : String × List α) =>
        let rows := reindexRows ds.lat p.2 labels
        if vName = .ok p.1 then rows.map (- ·) else rows
      .ok { lat := if eq0 then labels.map (- ·) ++ ds.lat else ds.lat ++ labels.map (- ·)
            vars := ds.vars.map fun p => (p.1, if eq0 then other p ++ p.2 else p.2 ++ other p) }
  | _, _ => .error .indexError

end Falwa.Xr
