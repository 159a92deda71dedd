import Verif.Model.Flux
import Verif.Model.Storage
import Verif.Model.RefState
import Verif.Model.DirectInv

/-!
# Smaller pieces

Sources: `/repo/src/falwa/stat_utils.py` lines 10-26, `/repo/src/falwa/preprocessing.py` lines 9-29,
`/repo/src/falwa/legacy/beta_version.py` lines 4-5, `/repo/src/falwa/data_storage.py` lines 170-179,
`/repo/src/falwa/oopinterface.py` lines 624-690, 1609-1635, 1782-1808.
-/

noncomputable section

namespace Falwa

open Real Finset

/-! ### `stat_utils.calculate_covariance` -/

/-- Mean over the `T` observations. -/
def timeMean (T : ℕ) (x : ℕ → ℝ) : ℝ := (∑ t ∈ range T, x t) / (T : ℝ)

/-- `np.cov(m, y, rowvar=False)` for two `T × n` arrays: the columns of both are concatenated to `2 n` variables, centred by
their means; entry `(p, q)` is the sum of products over `T - 1`. Defined for `T ≥ 2`. -/
def npCov (T n : ℕ) (m y : ℕ → ℕ → ℝ) (p q : ℕ) : ℝ :=
  let X := fun (p t : ℕ) => if p < n then m t p else y t (p - n)
  (∑ t ∈ range T, (X p t - timeMean T (X p)) * (X q t - timeMean T (X q))) / ((T : ℝ) - 1)

/-- `np.diagonal(M, offset=d)`. -/
def npDiagonal (M : ℕ → ℕ → ℝ) (d i : ℕ) : ℝ := M i (i + d)

/-- `calculate_covariance`, stat_utils.py lines 19-26; arrays are indexed `[time, lat, lon]`. -/
def calculateCovariance (T lonDim : ℕ) (a b : ℕ → ℕ → ℕ → ℝ) (j i : ℕ) : ℝ :=
  npDiagonal (npCov T lonDim (fun t i => a t j i) (fun t i => b t j i)) lonDim i

/-! ### `preprocessing.gridfill_each_level` -/

/-- A floating-point value, as far as the routine looks at it. -/
inductive Cell where
  | finite (x : ℝ)
  | infinite (positive : Bool)
  | nan

/-- `np.isnan` -/
def Cell.isNan : Cell → Bool
  | .nan => true
  | _ => false

/-- Mask of `np.ma.masked_invalid`: NaN and infinite values. -/
def Cell.masked : Cell → Option ℝ
  | .finite x => some x
  | _ => none

/-- `gridfill_each_level`, preprocessing.py lines 23-29: the result, and the argument of the call of `gridfill.fill` if it is
called. The filler is a parameter. -/
def gridfillEachLevel (fill : List (List (Option ℝ)) → List (List Cell)) (field : List (List Cell)) :
    List (List Cell) × Option (List (List (Option ℝ))) :=
  if (field.map fun row => (row.filter Cell.isNan).length).sum = 0 then (field, none)
  else
    let arg := field.map fun row => row.map Cell.masked
    (fill arg, some arg)

/-! ### `legacy/beta_version.py` -/

/-- `input_jk_output_index`, lines 4-5. -/
def inputJkOutputIndex (j k kmax : ℕ) : ℕ := j * kmax + k

/-! ### Stored and reported reference QGPV -/

/-- `qref_correct_unit`, data_storage.py lines 170-179, at row `g` and level `k`. -/
def qrefCorrectUnit (data : ℕ → ℕ → ℝ) (ylat : ℕ → ℝ) (omega : ℝ) (g k : ℕ) : ℝ :=
  data g k * 2 * omega * sin (ylat g * (π / 180))

/-- The `qref` array after `_compute_reference_states`: zeros, then `qref_nhem`, then in global mode `qref_shem`
(oopinterface.py lines 1609-1635 and 1782-1808). `m` is the number of rows strictly north of the equator; the solvers return
`m + 1` rows counted from the equator and index rows and levels from 1. -/
def storedQref (m : ℕ) (nhOnly : Bool) (north south : ℤ → ℤ → ℝ) : Storage (ℕ → ℝ) :=
  let hem := fun (q : ℤ → ℤ → ℝ) => (⟨m + 1, fun j k => q (j + 1) (k + 1)⟩ : LatArray (ℕ → ℝ))
  let s0 : Storage (ℕ → ℝ) := ⟨if nhOnly then m + 1 else 2 * m + 1, nhOnly, fun _ _ => 0⟩
  let s1 := (s0.setN (hem north)).1
  if nhOnly then s1 else (s1.setS (hem south)).1

/-- Latitude in degrees of row `g`: the analysis grid, or its last `m + 1` rows (lines 644, 1276-1278). -/
def storedYlat (m : ℕ) (nhOnly : Bool) (g : ℕ) : ℝ :=
  if nhOnly then 180 * (g : ℝ) / (2 * m) else -90 + 180 * (g : ℝ) / (2 * m)

/-! ### Components stored by `compute_lwa_only` -/

namespace QGAnalysis

variable (S : QGAnalysis)

/-- Array `attr` of the layerwise storage after the assignments to the accessors `nAcc` and `sAcc` (the latter in global mode
only). Assignment to a name that the class does not declare creates a plain attribute and leaves the array as it is. -/
def layerwiseAfter (attr nAcc sAcc : String) (old : ℤ → ℝ) (north south : ℤ → ℝ) (g : ℤ) : ℝ :=
  if S.nhOnly = false ∧ layerwiseClass.declared.lookup sAcc = some attr ∧ g ≤ S.nd then south (S.nd + 1 - g)
  else if layerwiseClass.declared.lookup nAcc = some attr ∧ S.rows - S.nd + 1 ≤ g then north (g - (S.rows - S.nd))
  else old g

/-- `astar1` after `compute_lwa_only`, oopinterface.py lines 666, 689; `old` are the contents before. -/
def astar1OfLwaOnly (old : ℤ → ℤ → ℤ → ℝ) (i g k : ℤ) : ℝ :=
  S.layerwiseAfter "astar1" "astar1_nhem" "astar1_baro_shem" (fun g => old i g k)
    (fun j => |S.northLwaIn.lwaOnly.astar1 i j k|) (fun j => |S.southLwaIn.lwaOnly.astar1 i j k|) g

/-- `astar2` after `compute_lwa_only`, lines 667, 690. -/
def astar2OfLwaOnly (old : ℤ → ℤ → ℤ → ℝ) (i g k : ℤ) : ℝ :=
  S.layerwiseAfter "astar2" "astar2_nhem" "astar2_baro_shem" (fun g => old i g k)
    (fun j => |S.northLwaIn.lwaOnly.astar2 i j k|) (fun j => |S.southLwaIn.lwaOnly.astar2 i j k|) g

end QGAnalysis

end Falwa
