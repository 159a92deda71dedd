import Verif.Model.Xarray
import Verif.Model.PyError

/-!
# The time coordinate of `integrate_budget` (xarrayinterface.py, lines 704-735)

Times are `datetime64` values of one of the resolutions that xarray keeps (since 2025.01 a coordinate keeps its resolution, before that it was
converted to nanoseconds), or numbers. Integer and floating point division by powers of ten is modelled exactly. Calendars of `cftime` are not
modelled.
-/

noncomputable section

namespace Falwa.Xr

/-- Resolutions of `datetime64` in xarray. -/
inductive TimeUnit where
  | s
  | ms
  | us
  | ns
  deriving DecidableEq

/-- Ticks in one second. -/
def TimeUnit.ticks : TimeUnit → ℝ
  | .s => 1
  | .ms => 10 ^ 3
  | .us => 10 ^ 6
  | .ns => 10 ^ 9

/-- A time coordinate with `n` values: time stamps (ticks since 1970) or plain numbers. -/
inductive TimeCoord where
  | dates (unit : TimeUnit) (n : ℕ) (stamp : ℕ → ℤ)
  | numbers (n : ℕ) (value : ℕ → ℝ)

/-- Seconds since the earliest time stamp: xarray's `datetime_to_numeric(…, datetime_unit="s")` in `DataArray.integrate`, called in lines
715-717. -/
def toSeconds (u : TimeUnit) (n : ℕ) (stamp : ℕ → ℤ) (k : ℕ) : ℝ :=
  ((stamp k - ((List.range n).map stamp).foldl min (stamp 0) : ℤ) : ℝ) / u.ticks

/-- The attribute `integration_seconds`, line 734: `(stop - start) / np.timedelta64(1000000000)`. A `timedelta64` without unit takes the unit
of the other operand, so the quotient is the difference in ticks over `10^9`. A difference of numbers cannot be divided by a `timedelta64`. -/
def integrationSeconds : TimeCoord → Except PyError ℝ
  | .dates _ n stamp => if n = 0 then .error .indexError else .ok (((stamp (n - 1) - stamp 0 : ℤ) : ℝ) / 10 ^ 9)
  | .numbers n _ => if n = 0 then .error .indexError else .error .typeError

/-- `integrate_budget`, lines 704-735, at one grid point: the terms and `integration_seconds`. -/
def integrateBudgetOf (T : TimeCoord) (lwa czaf demf mhf : ℕ → ℝ) : Except PyError (Budget × ℝ) :=
  match T with
  | .dates u n stamp => do
    let s ← integrationSeconds (.dates u n stamp)
    return (integrateBudget n (toSeconds u n stamp) lwa czaf demf mhf, s)
  | .numbers n value => do
    let s ← integrationSeconds (.numbers n value)
    return (integrateBudget n value lwa czaf demf mhf, s)

end Falwa.Xr

end
