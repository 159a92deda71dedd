import Verif.Model.Interp
import Mathlib.Analysis.SpecialFunctions.Trigonometric.Inverse

/-!
# Model of the legacy reference state solver `solve_uref_both_bc`

Source: `/repo/src/falwa/legacy/beta_version.py` lines 4-5 and 28-445.

Modelled: the call with `use_real_Data=True` and `plot_all_ref_quan=False`. Index conventions are those of numpy.
A vector of unknowns has the length `jmax1 * kmax`; `csc_matrix` adds up entries with equal position.
`spsolve` is not modelled: the results are functions of the vector `u2` that it returns, and the theorems speak of every
vector that solves the system.
`interp1d` without `fill_value` raises an exception outside of its nodes; the model extrapolates there, so it describes the
call on latitudes that cover those of the Gaussian grid. Exact arithmetic.
-/

noncomputable section

namespace Falwa

open Finset Real

/-- A sparse matrix as `csc_matrix((coeff, (row_index, col_index)))` takes it: row, column, coefficient. -/
abbrev Triplets := List (ℕ × ℕ × ℝ)

/-- Row `i` of the product of a matrix and a vector; equal positions add up. -/
def Triplets.mul (es : Triplets) (u : ℕ → ℝ) (i : ℕ) : ℝ :=
  (es.map fun e => if e.1 = i then e.2.2 * u e.2.1 else 0).sum

/-- An array of zeros after assignments to single elements, in their order. -/
def assignAll (ws : List (ℕ × ℝ)) : ℕ → ℝ := ws.foldl (fun b w => Function.update b w.1 w.2) (fun _ => 0)

/-- The arguments: arrays `(kmax, nlat)` and `(nlat,)`. -/
structure Legacy where
  nlat : ℕ
  kmax : ℕ
  /-- `ylat` -/
  ylat : ℕ → ℝ
  /-- `zmum`, zonal mean wind -/
  zmum : ℕ → ℕ → ℝ
  /-- `FAWA_cos` -/
  fawa : ℕ → ℕ → ℝ
  /-- `ephalf2` -/
  ephalf2 : ℕ → ℕ → ℝ
  /-- `Delta_PT` -/
  deltaPT : ℕ → ℝ
  /-- `zm_PT` -/
  zmPT : ℕ → ℕ → ℝ
  /-- `Input_B0` -/
  b0 : ℕ → ℝ
  /-- `Input_B1` -/
  b1 : ℕ → ℝ

namespace Legacy

/-- Line 102. -/
def dz : ℝ := 1000
/-- Line 103. -/
def aa : ℝ := 6378000
/-- Line 104. -/
def r0 : ℝ := 287
/-- Line 105. -/
def hh : ℝ := 7000
/-- Line 107; `cp` is 1004. -/
def rkappa : ℝ := r0 / 1004
/-- Line 108. -/
def om : ℝ := 7.29e-5

variable (L : Legacy)

/-- Line 112. -/
def jmax : ℕ := L.nlat / 4
/-- Line 113. -/
def dm : ℝ := 1 / ((L.jmax : ℝ) + 1)
/-- Line 114. -/
def gl (j : ℕ) : ℝ := ((j : ℝ) + 1) * L.dm
/-- Line 115. -/
def gl2 (j : ℕ) : ℝ := (j : ℝ) * L.dm
/-- Line 116. -/
def cosl (j : ℕ) : ℝ := √(1 - L.gl j ^ 2)
/-- Line 118. -/
def alat (j : ℕ) : ℝ := arcsin (L.gl j) * 180 / π
/-- Line 119. -/
def alat2 (j : ℕ) : ℝ := arcsin (L.gl2 j) * 180 / π
/-- Line 120. -/
def dmdz : ℝ := L.dm / dz

/-- An array `(kmax, nlat)` on the Gaussian latitudes, lines 149-157. -/
def toGauss (y : ℕ → ℕ → ℝ) (j k : ℕ) : ℝ := interp1d L.nlat L.ylat (y k) (L.alat j)
/-- An array `(nlat,)` on the Gaussian latitudes, equator and pole, lines 161-175. -/
def toGauss2 (y : ℕ → ℝ) (j : ℕ) : ℝ := interp1d L.nlat L.ylat y (L.alat2 j)

/-- Line 185. -/
def cor (j : ℕ) : ℝ := 2 * om * L.gl j
/-- Line 189. -/
def qxx (j k : ℕ) : ℝ := -L.toGauss L.fawa j k / L.cor j
/-- `c_f`, lines 190-192. -/
def cF (j k : ℕ) : ℝ :=
  if j = 0 then L.qxx 1 k - 2 * L.qxx 0 k
  else if j = L.jmax - 1 then L.qxx (L.jmax - 2) k - 2 * L.qxx (L.jmax - 1) k
  else L.qxx (j - 1) k + L.qxx (j + 1) k - 2 * L.qxx j k

/-- `Input_dB0` and `Input_dB1`, lines 203-206. -/
def secondDiff (y : ℕ → ℝ) (j : ℕ) : ℝ := L.toGauss2 y j + L.toGauss2 y (j + 2) - 2 * L.toGauss2 y (j + 1)
/-- Lines 209-210. -/
def uz1 (j : ℕ) : ℝ :=
  -r0 * L.cosl j ^ 2 * L.secondDiff L.b1 j * 2 * dz / (L.cor j ^ 2 * aa ^ 2 * hh * L.dm ^ 2) * exp (-rkappa * 1 / 7) -
    r0 * L.cosl j ^ 2 * L.secondDiff L.b0 j * 2 * dz / (L.cor j ^ 2 * aa ^ 2 * hh * L.dm ^ 2) * exp (-rkappa * 0 / 7)
/-- Lines 213-218. -/
def uz2 (j : ℕ) : ℝ :=
  -r0 * L.cosl j ^ 2 * exp (-rkappa * ((L.kmax : ℝ) - 2) / 7) * (L.toGauss2 L.deltaPT (j + 2) - L.toGauss2 L.deltaPT j) /
    (L.cor j ^ 2 * aa * hh * L.dmdz)

/-- `c_c`, line 223. -/
def cC (j k : ℕ) : ℝ := L.dmdz ^ 2 * L.toGauss L.ephalf2 j k * exp (-dz / (2 * hh))
/-- `c_d`, line 224. -/
def cD (j k : ℕ) : ℝ := L.dmdz ^ 2 * L.toGauss L.ephalf2 j (k - 1) * exp (dz / (2 * hh))
/-- `c_e`, lines 221, 222 and 225. -/
def cE (j k : ℕ) : ℝ := -(1 + 1 + L.cC j k + L.cD j k)

/-- `input_jk_output_index`, lines 4-5. -/
def ind (j k : ℕ) : ℕ := j * L.kmax + k

/-- Entries of the loop of lines 235-261 for one `j` and `k`. -/
def cell (j k : ℕ) : Triplets :=
  (if j < L.jmax - 1 then [(L.ind j k, L.ind (j + 1) k, 1)] else []) ++
  (if 0 < j then [(L.ind j k, L.ind (j - 1) k, 1)] else []) ++
  [(L.ind j k, L.ind j (k + 1), L.cC j k), (L.ind j k, L.ind j (k - 1), L.cD j k), (L.ind j k, L.ind j k, L.cE j k)]

/-- Entries of the interior, lines 235-261. -/
def interior : Triplets :=
  (List.range L.jmax).flatMap fun j => (List.range' 1 (L.kmax - 2)).flatMap fun k => L.cell j k
/-- Entries of the upper boundary, lines 265-275. -/
def upper : Triplets :=
  (List.range L.jmax).flatMap fun j =>
    [(L.ind j (L.kmax - 1), L.ind j (L.kmax - 1), 1), (L.ind j (L.kmax - 1), L.ind j (L.kmax - 3), -1)]
/-- Entries of the adiabatic lower boundary, lines 303-313. -/
def lowerAdiab : Triplets :=
  (List.range L.jmax).flatMap fun j => [(L.ind j 0, L.ind j 0, -1), (L.ind j 0, L.ind j 2, 1)]
/-- Entries of the no-slip lower boundary, lines 318-324. -/
def lowerNoslip : Triplets := (List.range L.jmax).flatMap fun j => [(L.ind j 0, L.ind j 0, 1)]

/-- Right-hand sides written in the loops of lines 235-239 and 265-267. -/
def rhsCommon : List (ℕ × ℝ) :=
  ((List.range L.jmax).flatMap fun j => (List.range' 1 (L.kmax - 2)).map fun k => (L.ind j k, L.cF j k)) ++
  (List.range L.jmax).map fun j => (L.ind j (L.kmax - 1), L.uz2 j)

/-- `A_adiab`, line 315: the entries so far are copied before the lower boundary is added (lines 293-296). -/
def matAdiab : Triplets := L.interior ++ L.upper ++ L.lowerAdiab
/-- `b_adiab`, lines 296 and 303-305. -/
def rhsAdiab : ℕ → ℝ := assignAll (L.rhsCommon ++ (List.range L.jmax).map fun j => (L.ind j 0, L.uz1 j))
/-- `A`, line 326. -/
def matNoslip : Triplets := L.interior ++ L.upper ++ L.lowerNoslip
/-- `b`, lines 318-320. -/
def rhsNoslip : ℕ → ℝ :=
  assignAll (L.rhsCommon ++ (List.range L.jmax).map fun j => (L.ind j 0, L.toGauss L.zmum j 0 * L.cosl j / L.cor j))

/-- The two lower boundary conditions. -/
inductive Lower where
  | noslip
  | adiabatic

/-- The matrix of a lower boundary condition. -/
def mat : Lower → Triplets
  | .noslip => L.matNoslip
  | .adiabatic => L.matAdiab
/-- The right-hand side of a lower boundary condition. -/
def rhs : Lower → ℕ → ℝ
  | .noslip => L.rhsNoslip
  | .adiabatic => L.rhsAdiab

/-- `u2` is what `spsolve` is asked for, lines 331-332. -/
def Solves (bc : Lower) (u2 : ℕ → ℝ) : Prop := ∀ i, i < L.jmax * L.kmax → (L.mat bc).mul u2 i = L.rhs bc i

section Results

variable (u2 : ℕ → ℝ)

/-- `u`, lines 335-340: zero rows are added for equator and pole. -/
def pad (j k : ℕ) : ℝ := if 1 ≤ j ∧ j ≤ L.jmax then u2 ((j - 1) * L.kmax + k) else 0

/-- `u_MassCorr`, lines 342-346. -/
def uMass (j k : ℕ) : ℝ :=
  if 1 ≤ j ∧ j ≤ L.jmax then L.pad u2 j k * L.cor (j - 1) / L.cosl (j - 1) else 0

/-- `T_MassCorr[2 * m, k]` after the loop of lines 369-372; rows not visited are zero. -/
def tEven (k : ℕ) : ℕ → ℝ
  | 0 => 0
  | m + 1 =>
    if 2 * (m + 1) < L.jmax then
      tEven k m - 2 * om * L.gl (2 * m + 1) * aa * hh * L.dmdz / (r0 * L.cosl (2 * m + 1)) *
        (L.uMass u2 (2 * m + 1) (k + 1) - L.uMass u2 (2 * m + 1) (k - 1))
    else 0

/-- `T_MassCorr[:, k]` after the interpolation of lines 378-380. -/
def tAll (k j : ℕ) : ℝ := interp1d ((L.jmax + 3) / 2) (fun m => L.gl2 (2 * m)) (L.tEven u2 k) (L.gl2 j)

/-- `T_MassCorr`, lines 367-388. -/
def tMass (j k : ℕ) : ℝ :=
  if 1 ≤ k ∧ k < L.kmax - 2 then L.tAll u2 k j - (∑ i ∈ range (L.jmax + 2), L.tAll u2 k i) / ((L.jmax + 2 : ℕ) : ℝ) else 0

/-- First column of `[:, -nlat//2:]`. -/
def firstNorth : ℕ := L.nlat / 2

/-- From the Gaussian to the input latitudes, lines 391-394; the other hemisphere stays zero. -/
def toRegular (y : ℕ → ℕ → ℝ) (k r : ℕ) : ℝ :=
  if L.firstNorth ≤ r then interp1d (L.jmax + 2) L.alat2 (fun j => y j k) (L.ylat r) else 0

/-- `u_MassCorr_regular_…`, lines 391-392. -/
def uMassRegular (k r : ℕ) : ℝ := L.toRegular (L.uMass u2) k r
/-- `T_MassCorr_regular_…`, lines 393-394. -/
def tMassRegular (k r : ℕ) : ℝ := L.toRegular (L.tMass u2) k r
/-- `u_Ref_regular_…`, lines 396 and 399. -/
def uRef (k r : ℕ) : ℝ := if L.firstNorth ≤ r then L.zmum k r - L.uMassRegular u2 k r else 0
/-- `T_Ref_regular_…`, lines 397 and 400. -/
def tRef (k r : ℕ) : ℝ :=
  if L.firstNorth ≤ r then L.zmPT k r * exp (-(k : ℝ) / 7 * rkappa) - L.tMassRegular u2 k r else 0

end Results

end Legacy

end Falwa
