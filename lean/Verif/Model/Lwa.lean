import Mathlib.Algebra.BigOperators.Group.Finset.Basic
import Mathlib.Algebra.Order.Field.Basic

/-!
# Model of `basis.lwa`

Source: `/repo/src/falwa/basis.py` lines 137-205.

A field is a function `row → longitude → K`. Rows are `0 .. nlat-1`, as in numpy.
Simplifications: exact arithmetic in an ordered field; `nlon` only bounds the longitudes for which the
result is read, so it is not an argument here (each longitude is computed on its own).
-/

namespace Falwa

open Finset

variable {K : Type*} [Field K] [LinearOrder K]

/-- `vort_e = vort[:, :] - q_part[j]`, basis.py line 183. -/
def vortE (vort : ℕ → ℕ → K) (q : ℕ → K) (j r c : ℕ) : K := vort r c - q j

/-- `anticyclonic_mask`, basis.py lines 186-189: initialised with 0, set to -1 where `vort_e < 0`,
then rows `:j+1` are reset to 0. -/
def anticyclonicMask (vort : ℕ → ℕ → K) (q : ℕ → K) (j r c : ℕ) : K :=
  if r < j + 1 then 0 else if vortE vort q j r c < 0 then -1 else 0

/-- `cyclonic_mask`, basis.py lines 185 and 191: initialised with 0, set to 1 where `vort_e[:j+1] > 0`. -/
def cyclonicMask (vort : ℕ → ℕ → K) (q : ℕ → K) (j r c : ℕ) : K :=
  if r < j + 1 then (if 0 < vortE vort q j r c then 1 else 0) else 0

/-- `return_array[0, j, c]`, basis.py lines 178, 182, 193. The loop runs over `0 .. nlat-2`;
rows that it does not reach keep the initial 0. -/
def lwaAnticyclonic (nlat : ℕ) (vort : ℕ → ℕ → K) (q dmu : ℕ → K) (j c : ℕ) : K :=
  if j < nlat - 1 then
    ∑ r ∈ range nlat, vortE vort q j r c * anticyclonicMask vort q j r c * dmu r
  else 0

/-- `return_array[1, j, c]`, basis.py lines 178, 182, 194. -/
def lwaCyclonic (nlat : ℕ) (vort : ℕ → ℕ → K) (q dmu : ℕ → K) (j c : ℕ) : K :=
  if j < nlat - 1 then
    ∑ r ∈ range nlat, vortE vort q j r c * cyclonicMask vort q j r c * dmu r
  else 0

/-- `bigsigma[j, c]`, basis.py lines 180, 182, 195-197. -/
def lwaBigsigma (nlat : ℕ) (vort : ℕ → ℕ → K) (q dmu : ℕ → K) (ncforce : ℕ → ℕ → K) (j c : ℕ) : K :=
  if j < nlat - 1 then
    ∑ r ∈ range nlat,
      ncforce r c * (anticyclonicMask vort q j r c + cyclonicMask vort q j r c) * dmu r
  else 0

/-- First component of the result of `basis.lwa`: either the stacked components (lines 202-203) or
their sum over the first axis (lines 204-205). -/
inductive LwaOut (K : Type*) where
  | partitioned (anticyclonic cyclonic : ℕ → ℕ → K)
  | total (field : ℕ → ℕ → K)

/-- `basis.lwa(nlon, nlat, vort, q_part, dmu, return_partitioned_lwa, ncforce)`, basis.py lines 137-205. -/
def lwa (nlat : ℕ) (vort : ℕ → ℕ → K) (q dmu : ℕ → K) (returnPartitioned : Bool)
    (ncforce : Option (ℕ → ℕ → K)) : LwaOut K × Option (ℕ → ℕ → K) :=
  let bigsigma := ncforce.map (lwaBigsigma nlat vort q dmu)
  if returnPartitioned then
    (.partitioned (lwaAnticyclonic nlat vort q dmu) (lwaCyclonic nlat vort q dmu), bigsigma)
  else
    (.total (fun j c => lwaAnticyclonic nlat vort q dmu j c + lwaCyclonic nlat vort q dmu j c), bigsigma)

/-- The total field, i.e. what `basis.lwa(...)[0]` is with the default `return_partitioned_lwa=False`. -/
def lwaTotal (nlat : ℕ) (vort : ℕ → ℕ → K) (q dmu : ℕ → K) (j c : ℕ) : K :=
  lwaAnticyclonic nlat vort q dmu j c + lwaCyclonic nlat vort q dmu j c

end Falwa
