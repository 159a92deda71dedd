import Verif.Model.PyError
import Mathlib.Analysis.SpecialFunctions.Trigonometric.Basic

/-!
# Model of `utilities.py`

Source: `/repo/src/falwa/utilities.py`.

Fields are functions `row → longitude → K` or `level → row → longitude → K`.
Simplifications: exact arithmetic; floating-point dtype of the input arrays; the sizes are at least 2 in each
differentiated direction (numpy raises `IndexError` otherwise).
-/

noncomputable section

namespace Falwa

open Finset

section Horizontal

variable {K : Type*} [Field K] [LinearOrder K]

/-- `zonal_diff`, utilities.py lines 222-225. The last assignment wins. -/
def zonalDiff (nlon : ℕ) (field : ℕ → ℕ → K) (r c : ℕ) : K :=
  if c = nlon - 1 then field r 0 - field r (nlon - 2)
  else if c = 0 then field r 1 - field r (nlon - 1)
  else field r (c + 1) - field r (c - 1)

/-- `zonal_convergence`, utilities.py lines 189-233. Rows with `|clat| ≤ tol` keep the raw difference
(lines 228-231 only touch the other rows). -/
def zonalConvergence (nlon : ℕ) (field : ℕ → ℕ → K) (clat : ℕ → K) (dlambda radius tol : K) (r c : ℕ) : K :=
  if tol < |clat r| then zonalDiff nlon field r c * (-1 / (radius * clat r * 2 * dlambda))
  else zonalDiff nlon field r c

/-- `meridional_diff`, utilities.py lines 269-272. -/
def meridionalDiff (nlat : ℕ) (field : ℕ → ℕ → K) (clat : ℕ → K) (r c : ℕ) : K :=
  if r = nlat - 1 then field (nlat - 1) c * clat (nlat - 1) - field (nlat - 2) c * clat (nlat - 2)
  else if r = 0 then field 1 c * clat 1 - field 0 c * clat 0
  else field (r + 1) c * clat (r + 1) - field (r - 1) c * clat (r - 1)

/-- `meridional_divergence`, utilities.py lines 236-280. -/
def meridionalDivergence (nlat : ℕ) (field : ℕ → ℕ → K) (clat : ℕ → K) (dphi radius tol : K) (r c : ℕ) : K :=
  if tol < |clat r| then meridionalDiff nlat field clat r c / (radius * clat r * 2 * dphi)
  else meridionalDiff nlat field clat r c

/-- `curl_2d`, utilities.py lines 283-302: lines 290-292, 295-297, 298-300 differ in the zonal neighbours only;
rows 0 and nlat-1 are 0 (lines 293-294); the interior is divided by radius and cosine (line 301). -/
def curl2d (nlat nlon : ℕ) (u v : ℕ → ℕ → K) (clat : ℕ → K) (dlambda dphi radius : K) (r c : ℕ) : K :=
  if r = 0 ∨ nlat - 1 ≤ r then 0
  else
    ((if c = nlon - 1 then v r 0 - v r (nlon - 2)
      else if c = 0 then v r 1 - v r (nlon - 1)
      else v r (c + 1) - v r (c - 1)) / (2 * dlambda)
      - (u (r + 1) c * clat (r + 1) - u (r - 1) c * clat (r - 1)) / (2 * dphi)) / radius / clat r

end Horizontal

section Vertical

variable {K : Type*} [Field K]

/-- `static_stability_temp`, utilities.py lines 330-333: column `j` of a table with
`(equator_idx - 1) + 1 + (equator_idx - 1)` columns. -/
def statTable (eq : ℕ) (statS statN : ℕ → K) (k j : ℕ) : K :=
  if j < eq - 1 then statS k
  else if j < eq - 1 + 1 then 1 / 2 * (statS k + statN k)
  else statN k

/-- Number of columns of that table. -/
def statTableWidth (eq : ℕ) : ℕ := (eq - 1) + 1 + (eq - 1)

/-- Index into an axis of length `n` under numpy broadcasting. -/
def bcast (n j : ℕ) : ℕ := if n = 1 then 0 else j

/-- `to_be_diff`, utilities.py line 336. -/
def toBeDiff (nlat eq : ℕ) (statN statS decay : ℕ → K) (g : ℕ → ℕ → ℕ → K) (k j c : ℕ) : K :=
  decay k * g k (bcast nlat j) c / statTable eq statS statN k (bcast (statTableWidth eq) j)

/-- The value of `z_der`, utilities.py lines 337-342. -/
def zDer (nlat kmax eq : ℕ) (dz : K) (statN statS decay : ℕ → K) (g : ℕ → ℕ → ℕ → K)
    (mult : ℕ → ℕ → K) (k j c : ℕ) : K :=
  let t := toBeDiff nlat eq statN statS decay g
  if k = kmax - 1 then mult (kmax - 1) (bcast nlat j) * (t (kmax - 1) j c - t (kmax - 2) j c) / dz
  else if k = 0 then mult 0 (bcast nlat j) * (t 1 j c - t 0 j c) / dz
  else (t (k + 1) j c - t (k - 1) j c) / (2 * dz) * mult k (bcast nlat j)

/-- `z_derivative_of_prod`, utilities.py lines 305-344. `gfunc` and `multiplier` have `nlat` latitudes.
`ValueError` if `np.ones` gets a negative size (`equator_idx = 0`) or if line 336 cannot broadcast. -/
def zDerivativeOfProd (nlat kmax eq : ℕ) (dz : K) (statN statS decay : ℕ → K) (g : ℕ → ℕ → ℕ → K)
    (mult : ℕ → ℕ → K) : Except PyError (ℕ → ℕ → ℕ → K) :=
  if eq = 0 then .error .valueError
  else if nlat = statTableWidth eq ∨ nlat = 1 ∨ statTableWidth eq = 1 then
    .ok (zDer nlat kmax eq dz statN statS decay g mult)
  else .error .valueError

/-- `np.mean(x, axis=-1)`. -/
def zonalMean (nlon : ℕ) (x : ℕ → K) : K := (∑ c ∈ range nlon, x c) / nlon

/-- First row of the slice `[-n:]` of an axis of length `nlat`. -/
def lastRowsStart (nlat n : ℕ) : ℕ := if n = 0 then 0 else nlat - n

/-- Rows of the northern domain `[-n_et:]`, utilities.py lines 77, 80. -/
def northRows (nlat nEt : ℕ) : Finset ℕ := Finset.Ico (lastRowsStart nlat nEt) nlat

/-- Rows of the southern domain `[:s_et]`, utilities.py lines 78, 82. -/
def southRows (nlat sEt : ℕ) : Finset ℕ := range (min sEt nlat)

/-- Area-weighted mean of the zonal means over a set of rows, utilities.py lines 77-83. -/
def domainMean (rows : Finset ℕ) (area zm : ℕ → K) : K := (∑ j ∈ rows, zm j * area j) / ∑ j ∈ rows, area j

/-- The difference quotients of utilities.py lines 85-90. -/
def statOf (kmax : ℕ) (height t0 : ℕ → K) (k : ℕ) : K :=
  if k = kmax - 1 then (t0 (kmax - 2) - t0 (kmax - 1)) / (height (kmax - 2) - height (kmax - 1))
  else if k = 0 then (t0 1 - t0 0) / (height 1 - height 0)
  else (t0 (k + 1) - t0 (k - 1)) / (height (k + 1) - height (k - 1))

/-- The four results of `static_stability`. -/
structure StatOut (K : Type*) where
  t0N : ℕ → K
  t0S : ℕ → K
  statN : ℕ → K
  statS : ℕ → K

/-- `static_stability`, utilities.py lines 10-92, for a 3-d `theta` and a 2-d `area`. -/
def staticStability (kmax nlat nlon : ℕ) (height : ℕ → K) (area : ℕ → ℕ → K) (theta : ℕ → ℕ → ℕ → K)
    (sEt nEt : Option ℕ) : StatOut K :=
  let az := fun j => zonalMean nlon (area j)
  let zm := fun k j => zonalMean nlon (theta k j)
  let t0N := fun k => domainMean (northRows nlat (nEt.getD (nlat / 2))) az (zm k)
  let t0S := fun k => domainMean (southRows nlat (sEt.getD (nlat / 2))) az (zm k)
  { t0N, t0S, statN := statOf kmax height t0N, statS := statOf kmax height t0S }

end Vertical

section Qgpv

/-- Arguments of `compute_qgpv_givenvort` after line 152. -/
structure QgpvInput where
  omega : ℝ
  nlat : ℕ
  kmax : ℕ
  unih : ℕ → ℝ
  ylat : ℕ → ℝ
  avort : ℕ → ℕ → ℕ → ℝ
  theta : ℕ → ℕ → ℕ → ℝ
  t0N : ℕ → ℝ
  t0S : ℕ → ℝ
  statN : ℕ → ℝ
  statS : ℕ → ℝ
  nlatS : ℕ
  scaleHeight : ℝ

/-- `zdiv` after the loop, utilities.py lines 161-169. `junk` is the content of the array that `np.empty_like`
returns; the northern assignment comes last. -/
def QgpvInput.zdiv (Q : QgpvInput) (junk : ℕ → ℕ → ℕ → ℝ) (k j c : ℕ) : ℝ :=
  if lastRowsStart Q.nlat Q.nlatS ≤ j then
    Real.exp (-Q.unih k / Q.scaleHeight) * (Q.theta k j c - Q.t0N k) / Q.statN k
  else if j < Q.nlatS then
    Real.exp (-Q.unih k / Q.scaleHeight) * (Q.theta k j c - Q.t0S k) / Q.statS k
  else junk k j c

/-- `dzdiv`, utilities.py lines 171-183. The code recomputes it in each pass of the loop over levels; the pass that
counts is the last one, after all levels of `zdiv` have been written. -/
def QgpvInput.dzdiv (Q : QgpvInput) (junk : ℕ → ℕ → ℕ → ℝ) (k j c : ℕ) : ℝ :=
  let z := Q.zdiv junk
  if k = Q.kmax - 1 then
    Real.exp (Q.unih (Q.kmax - 1) / Q.scaleHeight) * (z (Q.kmax - 1) j c - z (Q.kmax - 2) j c) /
      (Q.unih (Q.kmax - 1) - Q.unih (Q.kmax - 2))
  else if k = 0 then
    Real.exp (Q.unih 0 / Q.scaleHeight) * (z 1 j c - z 0 j c) / (Q.unih 1 - Q.unih 0)
  else
    Real.exp (Q.unih k / Q.scaleHeight) * (z (k + 1) j c - z (k - 1) j c) / (Q.unih (k + 1) - Q.unih (k - 1))

/-- `qgpv`, utilities.py lines 157-158 and 185. -/
def QgpvInput.qgpv (Q : QgpvInput) (junk : ℕ → ℕ → ℕ → ℝ) (k j c : ℕ) : ℝ :=
  Q.avort k j c + Q.dzdiv junk k j c * (2 * Q.omega * Real.sin (Q.ylat j * Real.pi / 180))

end Qgpv

end Falwa

end
