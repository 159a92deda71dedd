import Verif.Model.AreaAnalysis
import Mathlib.Analysis.SpecialFunctions.Exp

/-!
# The direct solver of `QGFieldNHN22`

`compute_qref_and_fawa_first.f90` (Q), `matrix_b4_inversion.f90` (B), `matrix_after_inversion.f90` (A),
`upward_sweep.f90` (U) and the loop in oopinterface.py lines 1808-1888 (P).
-/

noncomputable section

namespace Falwa

open Real

/-- Input of the hemispheric wrapper, P 1808-1831. -/
structure NhnIn where
  /-- number of longitudes -/
  imax : ℤ
  /-- number of latitudes -/
  jmax : ℤ
  /-- number of levels -/
  kmax : ℤ
  /-- number of latitudes of a hemisphere -/
  nd : ℤ
  /-- number of partitions -/
  nnd : ℤ
  /-- equatorward boundary index -/
  jb : ℤ
  /-- QGPV -/
  pv : ℤ → ℤ → ℤ → ℝ
  /-- zonal wind -/
  uu : ℤ → ℤ → ℤ → ℝ
  /-- absolute vorticity -/
  vort : ℤ → ℤ → ℤ → ℝ
  /-- potential temperature -/
  pt : ℤ → ℤ → ℤ → ℝ
  /-- the mean temperature profile passed to the upward sweep, P 1878 -/
  tb : ℤ → ℝ
  /-- static stability -/
  statn : ℤ → ℝ
  /-- planet radius -/
  a : ℝ
  /-- rotation rate -/
  om : ℝ
  /-- level spacing -/
  dz : ℝ
  /-- scale height -/
  h : ℝ
  /-- latitude spacing -/
  dphi : ℝ
  /-- longitude spacing -/
  dlambda : ℝ
  /-- gas constant -/
  rr : ℝ
  /-- heat capacity -/
  cp : ℝ
  /-- the LAPACK inversion, P 1860-1861 -/
  inv : (ℤ → ℤ → ℝ) → ℤ → ℤ → ℝ

/-- State of the downward sweep: the matrices `sjk` and vectors `tjk`. -/
structure SweepState where
  /-- `sjk` -/
  s : ℤ → ℤ → ℤ → ℝ
  /-- `tjk` -/
  t : ℤ → ℤ → ℝ

namespace NhnIn

variable (I : NhnIn)

/-- Number of analysed rows, oopinterface.py line 1735. -/
def jd : ℤ := I.nd - I.jb

/-- Size of the matrices. -/
def n : ℤ := I.jd - 2

/-- Q 38-40, and P 1845 (`np.arange(0, kmax*dz, dz)`). -/
def z (k : ℤ) : ℝ := I.dz * ((k - 1 : ℤ) : ℝ)

/-- B 13. -/
def rkappa : ℝ := I.rr / I.cp

/-- B 15, U 16. -/
def dp : ℝ := π / ((I.jmax - 1 : ℤ) : ℝ)

/-- Zonal mean, Q 44-53. -/
def zmean (A : ℤ → ℤ → ℤ → ℝ) (j k : ℤ) : ℝ := dosum 1 I.imax (fun i => A i (j + (I.nd - 1)) k / (I.imax : ℝ))

/-- `tbar` -/
def tbar : ℤ → ℤ → ℝ := I.zmean I.pt

/-- The area analysis of a field on level `k`. -/
def area (A : ℤ → ℤ → ℤ → ℝ) (k : ℤ) : AreaIn where
  imax := I.imax
  jmax := I.jmax
  nd := I.nd
  npart := I.nnd
  q := fun i j => A i j k
  a := I.a
  dphi := I.dphi
  dlambda := I.dlambda

/-- `qref` after Q 142. -/
def qrefRaw (j k : ℤ) : ℝ := if 2 ≤ k ∧ k ≤ I.kmax - 1 then (I.area I.pv k).qref j else 0

/-- Q 146-150, for `2 ≤ j ≤ nd`. -/
def qrefNorm (j k : ℤ) : ℝ := I.qrefRaw j k / sin (I.dphi * ((j - 1 : ℤ) : ℝ))

/-- `qref` of Q on return, 146-154; `qref_over_sin` in P. -/
def qref (j k : ℤ) : ℝ :=
  if j = 1 then (if 2 ≤ k ∧ k ≤ I.kmax - 1 then 2 * I.qrefNorm 2 k - I.qrefNorm 3 k else I.qrefRaw 1 k)
  else I.qrefNorm j k

/-- `ckref`, Q 109-140. Levels 1 and `kmax` keep the zeros of the allocation. -/
def ckref (j k : ℤ) : ℝ := if 2 ≤ k ∧ k ≤ I.kmax - 1 then (I.area I.vort k).ckref j else 0

/-- Q 168. -/
def topPhi (i : ℤ) : ℝ := ((i + 1 + I.jb - 1 : ℤ) : ℝ) * I.dphi

/-- Q 166-174, the vector `tjk(:, kmax-1)`; `i` is `j-1`, so `j = i+1` and `jj = i+1+jb`. -/
def topT (i : ℤ) : ℝ :=
  -I.dz * I.rr * cos (I.topPhi i) * exp (-I.z (I.kmax - 1) * I.rkappa / I.h) *
    (I.tbar (i + 1 + 1) I.kmax - I.tbar (i + 1 - 1) I.kmax) / (4 * I.om * sin (I.topPhi i) * I.dphi * I.h * I.a)

/-- Q 164-175. -/
def topState : SweepState where
  s := fun i m k => if k = I.kmax - 1 ∧ i = m ∧ 1 ≤ i ∧ i ≤ I.n then 1 else 0
  t := fun i k => if k = I.kmax - 1 ∧ 1 ≤ i ∧ i ≤ I.n then I.topT i else 0

/-- B 17-20, 37-41 for `cjk` (`p = 1`) and `djk` (`p = -1`). -/
def amp (p : ℤ) (jj k : ℤ) : ℝ :=
  let phi0 := ((jj - 1 : ℤ) : ℝ) * I.dp
  let zp := 0.5 * (I.z (k + p) + I.z k)
  let statp := 0.5 * (I.statn (k + p) + I.statn k)
  let fact := 4 * I.om * I.om * I.h * I.a * I.a * sin phi0 * I.dp * I.dp / (I.dz * I.dz * I.rr * cos phi0)
  exp (-zp / I.h) * exp (I.rkappa * zp / I.h) / statp * fact * exp (I.z k / I.h)

/-- B 44. -/
def ajk (jj : ℤ) : ℝ := 1 / (sin (((jj : ℝ) - 0.5) * I.dp) * cos (((jj : ℝ) - 0.5) * I.dp))

/-- B 45. -/
def bjk (jj : ℤ) : ℝ := 1 / (sin (((jj : ℝ) - 1.5) * I.dp) * cos (((jj : ℝ) - 1.5) * I.dp))

/-- B 48. -/
def ejk (jj k : ℤ) : ℝ := I.ajk jj + I.bjk jj + I.amp 1 jj k + I.amp (-1) jj k

/-- B 49. -/
def fjk (jj k : ℤ) : ℝ := -(0.5 : ℝ) * I.a * I.dp * (I.qref (jj + 1) k - I.qref (jj - 1) k)

/-- B 55-57: the wind (times cosine) on the equatorward boundary. -/
def bound (k : ℤ) : ℝ := I.ckref (I.jb + 1) k / (2 * π * I.a) - I.om * I.a * cos (I.dp * (I.jb : ℝ))

/-- B 59-61. Row `i` is `j-1`. The three assignments are executed in order. -/
def rj (k i : ℤ) : ℝ :=
  let jj := i + 1 + I.jb
  let r0 := I.fjk jj k
  let r1 := if i + 1 = 2 then I.fjk jj k - I.bjk jj * I.bound k else r0
  if i + 1 = I.jd - 1 then I.fjk jj k - I.ajk jj * 0 else r1

/-- B 64. -/
def cjj (k i m : ℤ) : ℝ := if m = i then I.amp 1 (i + 1 + I.jb) k else 0

/-- B 65. -/
def djj (k i m : ℤ) : ℝ := if m = i then I.amp (-1) (i + 1 + I.jb) k else 0

/-- B 68-74. -/
def qjj0 (k i m : ℤ) : ℝ :=
  if m = i then -I.ejk (i + 1 + I.jb) k
  else if m = i + 1 ∧ 1 ≤ i ∧ i < I.jd - 2 then I.ajk (i + 1 + I.jb)
  else if m = i - 1 ∧ 1 < i ∧ i ≤ I.jd - 2 then I.bjk (i + 1 + I.jb)
  else 0

/-- B 78-86. -/
def qjj (k : ℤ) (st : SweepState) (i m : ℤ) : ℝ := I.qjj0 k i m + dosum 1 I.n (fun kk => I.cjj k i kk * st.s kk m k)

/-- P 1839-1870 at level `k`: B, the inversion, then A. -/
def levelStep (k : ℤ) (st : SweepState) : SweepState :=
  let q := I.inv (I.qjj k st)
  let y : ℤ → ℝ := fun i => I.rj k i - dosum 1 I.n (fun kk => I.cjj k i kk * st.t kk k)
  { s := fun i m k' => if k' = k - 1 then -dosum 1 I.n (fun kk => q i kk * I.djj k kk m) else st.s i m k'
    t := fun i k' => if k' = k - 1 then dosum 1 I.n (fun kk => q i kk * y kk) else st.t i k' }

/-- P 1839: the sweep down to level `k`, inclusive. -/
def downTo (k : ℤ) : SweepState := doDown (I.kmax - 1) k I.levelStep I.topState

/-- The matrices and vectors passed to the upward sweep. -/
def final : SweepState := I.downTo 2

/-- U 19-34. -/
def pjk : ℤ → ℤ → ℝ :=
  doLoop 1 (I.kmax - 1) (fun k p => fun i k' =>
    if k' = k + 1 then dosum 1 I.n (fun kk => I.final.s i kk k * p kk k) + I.final.t i k else p i k') (fun _ _ => 0)

/-- U 37-48. Elements that are not assigned (row 1 on the interior levels among them) keep the zeros of the allocation. -/
def uRaw (j k : ℤ) : ℝ :=
  if 2 ≤ j ∧ j ≤ I.jd - 1 then I.pjk (j - 1) k
  else if j = 1 ∧ k = I.kmax then I.ckref (1 + I.jb) I.kmax / (2 * π * I.a) - I.om * I.a * cos (I.dp * (I.jb : ℝ))
  else 0

/-- U 51-55. -/
def uDiv (j k : ℤ) : ℝ :=
  if 1 ≤ j ∧ j ≤ I.nd - 1 - I.jb then I.uRaw j k / cos (I.dp * ((j + I.jb - 1 : ℤ) : ℝ)) else I.uRaw j k

/-- `u` on return, U 56. -/
def uref (j k : ℤ) : ℝ := if j = I.jd then 2 * I.uDiv (I.jd - 1) k - I.uDiv (I.jd - 2) k else I.uDiv j k

/-- U 66-70. -/
def ty (j k : ℤ) : ℝ :=
  -(2 * I.om * sin (I.dp * ((j - 1 + I.jb : ℤ) : ℝ))) * ((I.uref j (k + 1) - I.uref j (k - 1)) / (2 * I.dz)) * I.a * I.h *
    exp (I.rkappa * (I.dz * ((k - 1 : ℤ) : ℝ)) / I.h) / I.rr

/-- U 61-72. -/
def trefRaw (k : ℤ) : ℤ → ℝ :=
  doLoop 2 (I.jd - 1) (fun j t => Function.update t (j + 1) (t (j - 1) + 2 * I.ty j k * I.dp)) (fun _ => 0)

/-- U 78-86. -/
def tg (k : ℤ) : ℝ :=
  dosum (I.jb + 1) I.nd (fun jj => cos (I.dp * ((jj - 1 : ℤ) : ℝ)) * I.trefRaw k (jj - I.jb)) /
    dosum (I.jb + 1) I.nd (fun jj => cos (I.dp * ((jj - 1 : ℤ) : ℝ)))

/-- U 87-88. -/
def trefMid (j k : ℤ) : ℝ := I.trefRaw k j + (I.tb k - I.tg k)

/-- `tref` on return, U 60-91. -/
def tref (j k : ℤ) : ℝ :=
  if k = I.kmax then I.trefMid j (I.kmax - 1) - I.tb (I.kmax - 1) + I.tb I.kmax
  else if k = 1 then I.trefMid j 2 - I.tb 2 + I.tb 1
  else I.trefMid j k

/-- The reference QGPV that the wrapper returns, P 1888. -/
def qrefOut (j k : ℤ) : ℝ := I.qref j k / (2 * I.om)

end NhnIn

/-- The stored fields from which `QGFieldNHN22._compute_reference_states` works, oopinterface.py lines 1773-1806. -/
structure Nhn22 where
  /-- the northern call, lines 1782-1792; its `tb` is `tn0` -/
  north : NhnIn
  /-- southern mean profile `ts0` -/
  ts0 : ℤ → ℝ
  /-- southern static stability -/
  statS : ℤ → ℝ

/-- Reversal of the latitude axis. -/
def NhnIn.flip (I : NhnIn) (A : ℤ → ℤ → ℤ → ℝ) : ℤ → ℤ → ℤ → ℝ := fun i j k => A i (I.jmax + 1 - j) k

/-- The southern call, lines 1795-1806. Line 1878 passes `tn0` in both calls, and `t0` is used nowhere. -/
def Nhn22.south (F : Nhn22) : NhnIn :=
  { F.north with
    pv := fun i j k => -F.north.flip F.north.pv i j k
    uu := F.north.flip F.north.uu
    vort := F.north.flip F.north.vort
    pt := F.north.flip F.north.pt
    statn := F.statS }

end Falwa
