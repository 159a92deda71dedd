import Mathlib.Data.Int.Basic
import Mathlib.Data.Real.Basic
import Mathlib.Data.List.Range

/-!
# Fortran loops and arrays

Conventions for the Fortran routines in `/repo/src/falwa/f90_modules`: indices are integers that start at 1; a `DO` loop
is a fold; arrays are functions. There is no bounds check in the compiled code. Storage is column-major, so a middle index
that is out of range by some rows denotes an element of a neighbouring level (`wrapJ`, `wrapK`).
-/

namespace Falwa

/-- `do i = lo, hi`: no iteration if `hi < lo`. -/
def doLoop {σ : Type*} (lo hi : ℤ) (f : ℤ → σ → σ) (s : σ) : σ :=
  (List.range (hi + 1 - lo).toNat).foldl (fun s (t : ℕ) => f (lo + t) s) s

/-- `do i = hi, lo, -1`: no iteration if `hi < lo`. -/
def doDown {σ : Type*} (hi lo : ℤ) (f : ℤ → σ → σ) (s : σ) : σ :=
  (List.range (hi + 1 - lo).toNat).foldl (fun s (t : ℕ) => f (hi - t) s) s

/-- Sum over a Fortran index range. -/
def dosum (lo hi : ℤ) (f : ℤ → ℝ) : ℝ := doLoop lo hi (fun i s => s + f i) 0

/-- Middle index of the element that `(i, j, k)` denotes in an array with `n` rows, in column-major storage. -/
def wrapJ (n j : ℤ) : ℤ := 1 + (j - 1) % n

/-- Last index of that element. -/
def wrapK (n j k : ℤ) : ℤ := k + (j - 1) / n

/-- Linear address of element `(i, j, k)` of an array of shape `(m, n, _)`, in column-major storage. -/
def addr3 (m n i j k : ℤ) : ℤ := (i - 1) + m * ((j - 1) + n * (k - 1))

/-- Reading `A(i, j, k)` of an array with `n` rows. -/
def rd3 (n : ℤ) (A : ℤ → ℤ → ℤ → ℝ) (i j k : ℤ) : ℝ := A i (wrapJ n j) (wrapK n j k)

/-- Reading `A(j, k)` of a two-dimensional array with `n` rows. -/
def rd2 (n : ℤ) (A : ℤ → ℤ → ℝ) (j k : ℤ) : ℝ := A (wrapJ n j) (wrapK n j k)

/-- Writing `A(i, j, k) = v` in an array with `n` rows. -/
def wr3 (n : ℤ) (A : ℤ → ℤ → ℤ → ℝ) (i j k : ℤ) (v : ℝ) : ℤ → ℤ → ℤ → ℝ :=
  fun i' j' k' => if i' = i ∧ j' = wrapJ n j ∧ k' = wrapK n j k then v else A i' j' k'

/-- Writing `A(j, k) = v` in an array with `n` rows. -/
def wr2 (n : ℤ) (A : ℤ → ℤ → ℝ) (j k : ℤ) (v : ℝ) : ℤ → ℤ → ℝ :=
  fun j' k' => if j' = wrapJ n j ∧ k' = wrapK n j k then v else A j' k'

end Falwa
