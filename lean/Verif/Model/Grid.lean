import Verif.Model.PyError
import Mathlib.Analysis.SpecialFunctions.Log.Basic
import Mathlib.Algebra.Order.Floor.Defs

/-!
# Model of the grid checks in the constructor of `QGField`

Source: `/repo/src/falwa/oopinterface.py` lines 93-187 and 281-343.

Simplification: exact arithmetic. In floating point `np.linspace(-90, 90, n+1)` may miss 0 by a rounding error; see
`Model/Linspace.lean`.
-/

noncomputable section

namespace Falwa

open Finset

section Latitude

variable {K : Type*} [Field K] [LinearOrder K]

/-- `sum(ylat == 0)`, oopinterface.py lines 327, 334. -/
def zeroCount (n : ℕ) (ylat : ℕ → K) : ℕ := ((range n).filter fun i => ylat i = 0).card

/-- `np.argwhere(ylat == 0)[0][0]`, lines 332, 338: the first index with value 0, `IndexError` if there is none. -/
def firstZero (n : ℕ) (ylat : ℕ → K) : Except PyError ℕ :=
  match (List.range n).find? (fun i => decide (ylat i = 0)) with
  | some i => .ok i
  | none => .error .indexError

/-- What `_check_and_flip_ylat` returns (the input grid and the cosines are left out). -/
structure LatGrid (K : Type*) where
  needInterp : Bool
  nlat : ℕ
  ylat : ℕ → K
  equatorIdx : ℕ

/-- `_check_and_flip_ylat`, lines 311-343. `np.diff(ylat)[0]` raises `IndexError` for fewer than two latitudes. -/
def checkYlat (n : ℕ) (ylat : ℕ → K) : Except PyError (LatGrid K) :=
  if n < 2 then .error .indexError
  else if ylat 1 - ylat 0 < 0 then .error .typeError
  else if n % 2 = 0 ∧ zeroCount n ylat = 0 then
    let y : ℕ → K := fun i => -90 + 180 * i / n
    (firstZero (n + 1) y).map fun e => { needInterp := true, nlat := n + 1, ylat := y, equatorIdx := e + 1 }
  else if zeroCount n ylat = 1 then
    (firstZero n ylat).map fun e => { needInterp := false, nlat := n, ylat := ylat, equatorIdx := e + 1 }
  else .error .typeError

end Latitude

section Pressure

/-- Outcome of `_check_valid_plev`; the `ValueError` carries the number quoted in its message. -/
inductive PlevCheck where
  | typeError
  | valueError (quoted : ℤ)
  | ok
  deriving DecidableEq

/-- `hmax`, line 303; `P_GROUND` is 1000 hPa (constant.py). -/
def plevTop (n : ℕ) (plev : ℕ → ℝ) (scaleHeight : ℝ) : ℝ := -scaleHeight * Real.log (plev (n - 1) / 1000)

/-- `_check_valid_plev`, lines 281-308. -/
def checkPlev (n : ℕ) (plev : ℕ → ℝ) (scaleHeight : ℝ) (kmax : ℤ) (dz : ℝ) : PlevCheck :=
  if plev 1 - plev 0 > 0 then .typeError
  else if plevTop n plev scaleHeight < (kmax - 1) * dz then
    .valueError (⌊plevTop n plev scaleHeight / dz⌋ + 1)
  else .ok

end Pressure

end Falwa

end
