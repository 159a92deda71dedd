import Mathlib.Algebra.BigOperators.Group.Finset.Basic
import Mathlib.Algebra.Order.Field.Basic
import Mathlib.Data.Nat.Find
import Mathlib.Data.Finset.Lattice.Fold

/-!
# Models of the numpy functions used by the package

These are trusted descriptions of library behaviour in exact arithmetic.
-/

namespace Falwa

open Finset

variable {K : Type*} [Field K] [LinearOrder K]

/-- `np.linspace(lo, hi, n, endpoint=True)[i]`. -/
def linspace (lo hi : K) (n i : ℕ) : K := lo + i * ((hi - lo) / ((n - 1 : ℕ) : K))

/-- `np.digitize(x, bins)` for `n` non-decreasing bins: the number of bin edges that are `≤ x`. -/
def digitize (n : ℕ) (bins : ℕ → K) (x : K) : ℕ := #{i ∈ range n | bins i ≤ x}

/-- `np.cumsum(f)[i]`. -/
def cumsum (f : ℕ → K) (i : ℕ) : K := ∑ m ∈ range (i + 1), f m

/-- `np.interp(x, xp, fp)` for `n ≥ 1` sample points with non-decreasing `xp`: constant beyond the ends,
otherwise linear between the last sample at or left of `x` and the next one. -/
def npInterp (n : ℕ) (xp fp : ℕ → K) (x : K) : K :=
  if x < xp 0 then fp 0
  else
    let j := Nat.findGreatest (fun j => xp j ≤ x) (n - 1)
    if j = n - 1 then fp (n - 1)
    else fp j + (fp (j + 1) - fp j) / (xp (j + 1) - xp j) * (x - xp j)

/-- The index pairs of a two-dimensional array. -/
def cells (nlat nlon : ℕ) : Finset (ℕ × ℕ) := range nlat ×ˢ range nlon

/-- `np.amin(vort)`; the empty array is excluded by the callers. -/
def amin (nlat nlon : ℕ) (vort : ℕ → ℕ → K) : K :=
  if h : (cells nlat nlon).Nonempty then (cells nlat nlon).inf' h (fun p => vort p.1 p.2) else 0

/-- `np.amax(vort)`; the empty array is excluded by the callers. -/
def amax (nlat nlon : ℕ) (vort : ℕ → ℕ → K) : K :=
  if h : (cells nlat nlon).Nonempty then (cells nlat nlon).sup' h (fun p => vort p.1 p.2) else 0

end Falwa
