import Verif.Model.Lwa
import Mathlib.Algebra.Order.Round
import Mathlib.Data.Int.Log
import Mathlib.Data.List.Perm.Basic

/-!
# Model of `basis.lwa` with rounding

Source: `/repo/src/falwa/basis.py` lines 178-205.

`Model/Lwa.lean` uses exact arithmetic. Here the result of every subtraction, multiplication and addition of the source is passed
through a function `fl`, the rounding of the machine. Comparisons see the rounded `vort_e`. `np.sum` may add in any order
(numpy adds rows one after the other or in pairs, depending on memory layout), so the order is an argument.
-/

namespace Falwa

variable {K : Type*} [Field K] [LinearOrder K]

/-- An order of additions: the rows `0 .. nlat-1` in the leaves of a binary tree. -/
inductive SumOrder where
  | row (r : ℕ)
  | add (left right : SumOrder)

/-- The rows in the leaves, from left to right. -/
def SumOrder.rows : SumOrder → List ℕ
  | .row r => [r]
  | .add a b => a.rows ++ b.rows

/-- The largest number of additions that one summand goes through. -/
def SumOrder.depth : SumOrder → ℕ
  | .row _ => 0
  | .add a b => max a.depth b.depth + 1

/-- Every row is added once. -/
def SumOrder.Sums (t : SumOrder) (n : ℕ) : Prop := t.rows.Perm (List.range n)

/-- The computed sum. -/
def SumOrder.eval (fl : K → K) (f : ℕ → K) : SumOrder → K
  | .row r => f r
  | .add a b => fl (a.eval fl f + b.eval fl f)

/-- Rows added one after the other, `((f 0 + f 1) + f 2) + ...`. -/
def SumOrder.sequential : ℕ → SumOrder
  | 0 => .row 0
  | n + 1 => .add (sequential n) (.row (n + 1))

/-- The rounded `vort_e`, basis.py line 183. -/
def flVortE (fl : K → K) (vort : ℕ → ℕ → K) (q : ℕ → K) (j r c : ℕ) : K := fl (vort r c - q j)

/-- `anticyclonic_mask` from the rounded `vort_e`, basis.py lines 186-189. -/
def flAnticyclonicMask (fl : K → K) (vort : ℕ → ℕ → K) (q : ℕ → K) (j r c : ℕ) : K :=
  if r < j + 1 then 0 else if flVortE fl vort q j r c < 0 then -1 else 0

/-- `cyclonic_mask` from the rounded `vort_e`, basis.py lines 185 and 191. -/
def flCyclonicMask (fl : K → K) (vort : ℕ → ℕ → K) (q : ℕ → K) (j r c : ℕ) : K :=
  if r < j + 1 then (if 0 < flVortE fl vort q j r c then 1 else 0) else 0

/-- `return_array[0, j, c]` with rounding, basis.py line 193. -/
def flLwaAnticyclonic (fl : K → K) (t : SumOrder) (nlat : ℕ) (vort : ℕ → ℕ → K) (q dmu : ℕ → K) (j c : ℕ) : K :=
  if j < nlat - 1 then
    t.eval fl fun r => fl (fl (flVortE fl vort q j r c * flAnticyclonicMask fl vort q j r c) * dmu r)
  else 0

/-- `return_array[1, j, c]` with rounding, basis.py line 194. -/
def flLwaCyclonic (fl : K → K) (t : SumOrder) (nlat : ℕ) (vort : ℕ → ℕ → K) (q dmu : ℕ → K) (j c : ℕ) : K :=
  if j < nlat - 1 then
    t.eval fl fun r => fl (fl (flVortE fl vort q j r c * flCyclonicMask fl vort q j r c) * dmu r)
  else 0

/-- `basis.lwa(...)[0]` with rounding, basis.py lines 202-205. -/
def flLwa (fl : K → K) (t : SumOrder) (nlat : ℕ) (vort : ℕ → ℕ → K) (q dmu : ℕ → K) (returnPartitioned : Bool) : LwaOut K :=
  if returnPartitioned then
    .partitioned (flLwaAnticyclonic fl t nlat vort q dmu) (flLwaCyclonic fl t nlat vort q dmu)
  else
    .total fun j c => fl (flLwaAnticyclonic fl t nlat vort q dmu j c + flLwaCyclonic fl t nlat vort q dmu j c)

/-- Rounding never changes the sign of a result: true of IEEE arithmetic in every rounding mode, with underflow, for results that do
not overflow. -/
structure KeepsSign (fl : K → K) : Prop where
  nonneg : ∀ x, 0 ≤ x → 0 ≤ fl x
  nonpos : ∀ x, x ≤ 0 → fl x ≤ 0

/-- The standard model of floating-point arithmetic: relative error at most `u`. True of IEEE arithmetic for results that neither
overflow nor underflow. -/
def RelativeError (u : K) (fl : K → K) : Prop := ∀ x, |fl x - x| ≤ u * |x|

/-- Rounding to nearest with `p` binary digits behind the leading one, unlimited exponent. -/
def roundBits [FloorRing K] (p : ℕ) (x : K) : K :=
  (round (x / (2 : K) ^ (Int.log 2 |x| - p)) : K) * (2 : K) ^ (Int.log 2 |x| - p)

end Falwa
