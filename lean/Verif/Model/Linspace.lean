import Verif.Model.Grid
import Verif.Model.Rounding

/-!
# The latitude grid of the analysis with rounding

Source: `/repo/src/falwa/oopinterface.py` lines 311-343. `Model/Grid.lean` uses exact arithmetic; here the result of every operation of
`np.linspace(-90., 90., ylat.size + 1, endpoint=True)` is rounded.

Trusted: `np.linspace` computes `step = (stop - start)/div` with `div = num - 1`, then `arange(0, num)*step + start`, and sets the last
element to `stop`. The indices are exact in double precision.
-/

noncomputable section

namespace Falwa

/-- `np.linspace(start, stop, num, endpoint=True)[i]` for `start < stop` and `2 ≤ num`. -/
def linspaceFl (fl : ℝ → ℝ) (start stop : ℝ) (num i : ℕ) : ℝ :=
  if i + 1 = num then stop else fl (fl ((i : ℝ) * fl (fl (stop - start) / ((num - 1 : ℕ) : ℝ))) + start)

/-- `_check_and_flip_ylat`, lines 311-343, as `checkYlat` but with the rounded grid on line 329. -/
def checkYlatFl (fl : ℝ → ℝ) (n : ℕ) (ylat : ℕ → ℝ) : Except PyError (LatGrid ℝ) :=
  if n < 2 then .error .indexError
  else if fl (ylat 1 - ylat 0) < 0 then .error .typeError
  else if n % 2 = 0 ∧ zeroCount n ylat = 0 then
    (firstZero (n + 1) (linspaceFl fl (-90) 90 (n + 1))).map fun e =>
      { needInterp := true, nlat := n + 1, ylat := linspaceFl fl (-90) 90 (n + 1), equatorIdx := e + 1 }
  else if zeroCount n ylat = 1 then
    (firstZero n ylat).map fun e => { needInterp := false, nlat := n, ylat := ylat, equatorIdx := e + 1 }
  else .error .typeError

end Falwa

end
