import Verif.Model.Numpy
import Verif.Model.PyError
import Mathlib.Data.Real.Basic

/-!
# The figures that compare two fields

Source: `/repo/src/falwa/plot_utils.py`, `compare_two_fields_on_map` (lines 13-78), `map_on_axis` (lines 81-94) and `compare_two_fields`
(lines 97-164). Only the colour scales are modelled: which scale each of the three panels gets, whether matplotlib accepts it, and
which values are coloured. Titles, axes, projections and files are left out. Exact arithmetic.

Trusted about matplotlib: `contourf` with a list of levels raises `ValueError` unless the levels increase; without a list it chooses
levels that cover the data; with a list it leaves values outside of the first and the last level blank (`extend='neither'`).
-/

noncomputable section

namespace Falwa.Plot

/-- Colour scale of a panel. -/
inductive Scale where
  /-- levels chosen by matplotlib -/
  | auto
  /-- levels from the first to the last value -/
  | levels (lo hi : ℝ)

/-- Whether a value is coloured. -/
def Scale.Shows : Scale → ℝ → Prop
  | auto, _ => True
  | levels lo hi, v => lo ≤ v ∧ v ≤ hi

/-- The three panels: first field, second field, absolute difference. -/
structure Figure where
  a : Scale
  b : Scale
  diff : Scale

open Classical in
/-- `contourf(…, np.linspace(lo, hi, 31))`. -/
def contourf (lo hi : ℝ) : Except PyError Scale :=
  if ∀ i < 30, linspace lo hi 31 i < linspace lo hi 31 (i + 1) then .ok (.levels lo hi) else .error .valueError

/-- Two fields on the same grid. -/
structure Pair where
  nlat : ℕ
  nlon : ℕ
  fa : ℕ → ℕ → ℝ
  fb : ℕ → ℕ → ℝ

namespace Pair

variable (P : Pair)

/-- `cmin`, lines 59 and 143. -/
def cmin : ℝ := min (amin P.nlat P.nlon P.fa) (amin P.nlat P.nlon P.fb)

/-- `cmax`, lines 60 and 144. -/
def cmax : ℝ := max (amax P.nlat P.nlon P.fa) (amax P.nlat P.nlon P.fb)

/-- `diff_factor * max([np.abs(cmin), np.abs(cmax)])`, lines 71 and 155. -/
def top (f : ℝ) : ℝ := f * max |P.cmin| |P.cmax|

/-- `compare_two_fields_on_map`: the panels of lines 64-73. The factor `None` cannot be multiplied. -/
def onMap (factor : Option ℝ) : Except PyError Figure := do
  let a ← contourf P.cmin P.cmax
  let b ← contourf P.cmin P.cmax
  match factor with
  | none => .error .typeError
  | some f => do
    let d ← contourf 0 (P.top f)
    .ok ⟨a, b, d⟩

open Classical in
/-- `compare_two_fields`: the panels of lines 147-157. `None` and 0 are false in line 153. -/
def plain (factor : Option ℝ) : Except PyError Figure := do
  let a ← contourf P.cmin P.cmax
  let b ← contourf P.cmin P.cmax
  match factor with
  | none => .ok ⟨a, b, .auto⟩
  | some f =>
    if f = 0 then .ok ⟨a, b, .auto⟩
    else do
      let d ← contourf 0 (P.top f)
      .ok ⟨a, b, d⟩

end Pair

end Falwa.Plot
