import Verif.Model.AreaAnalysis
import Mathlib.Analysis.SpecialFunctions.Exp

/-!
# `compute_reference_states.f90`

Reference states of one hemisphere for `QGFieldNH18`. Line numbers refer to that file.
-/

noncomputable section

namespace Falwa

open Real

/-- Input of `compute_reference_states`, lines 1-8. -/
structure RefIn where
  /-- number of longitudes -/
  nlon : ℤ
  /-- number of latitudes -/
  nlat : ℤ
  /-- number of levels -/
  kmax : ℤ
  /-- number of latitudes of one hemisphere -/
  jd : ℤ
  /-- number of partitions -/
  npart : ℤ
  /-- largest number of sweeps -/
  maxits : ℕ
  /-- QGPV -/
  pv : ℤ → ℤ → ℤ → ℝ
  /-- zonal wind -/
  uu : ℤ → ℤ → ℤ → ℝ
  /-- potential temperature -/
  pt : ℤ → ℤ → ℤ → ℝ
  /-- static stability -/
  stat : ℤ → ℝ
  /-- planet radius -/
  a : ℝ
  /-- rotation rate -/
  om : ℝ
  /-- level spacing -/
  dz : ℝ
  /-- tolerance -/
  eps : ℝ
  /-- scale height -/
  h : ℝ
  /-- latitude spacing -/
  dphi : ℝ
  /-- longitude spacing -/
  dlambda : ℝ
  /-- gas constant -/
  r : ℝ
  /-- heat capacity -/
  cp : ℝ
  /-- spectral radius estimate -/
  rjac : ℝ
  /-- contents of the local array `cref` where the routine never assigns it (lines 21, 98-106) -/
  unset : ℤ → ℤ → ℝ

/-- State of a sweep: the wind and the residual norm. -/
structure Sor where
  /-- `u` -/
  u : ℤ → ℤ → ℝ
  /-- `anorm` -/
  anorm : ℝ

/-- Assignment to one element. -/
def set2 (A : ℤ → ℤ → ℝ) (j k : ℤ) (v : ℝ) : ℤ → ℤ → ℝ := fun j' k' => if j' = j ∧ k' = k then v else A j' k'

/-- Assignment to one row, `A(j, :) = v(:)`. -/
def setRow (A : ℤ → ℤ → ℝ) (j : ℤ) (v : ℤ → ℝ) : ℤ → ℤ → ℝ := fun j' k' => if j' = j then v k' else A j' k'

namespace RefIn

variable (I : RefIn)

/-- Line 41. -/
def z (k : ℤ) : ℝ := I.dz * ((k - 1 : ℤ) : ℝ)

/-- Line 32. -/
def rkappa : ℝ := I.r / I.cp

/-- Zonal mean, lines 46-55: row `j` of the result belongs to row `j + jd - 1` of the field. -/
def zmean (A : ℤ → ℤ → ℤ → ℝ) (j k : ℤ) : ℝ := dosum 1 I.nlon (fun i => A i (j + (I.jd - 1)) k / (I.nlon : ℝ))

/-- `ubar` -/
def ubar : ℤ → ℤ → ℝ := I.zmean I.uu

/-- `tbar` -/
def tbar : ℤ → ℤ → ℝ := I.zmean I.pt

/-- `qbar` -/
def qbar : ℤ → ℤ → ℝ := I.zmean I.pv

/-- Line 61. -/
def phiN (j : ℤ) : ℝ := I.dphi * ((j - 1 : ℤ) : ℝ) - 0.5 * π

/-- Lines 58-66. -/
def tb (k : ℤ) : ℝ :=
  dosum I.jd I.nlat (fun j => cos (I.phiN j) * I.tbar (j - (I.jd - 1)) k) / dosum I.jd I.nlat (fun j => cos (I.phiN j))

/-- The area analysis of level `k`, lines 68-108. -/
def area (k : ℤ) : AreaIn where
  imax := I.nlon
  jmax := I.nlat
  nd := I.jd
  npart := I.npart
  q := fun i j => I.pv i j k
  a := I.a
  dphi := I.dphi
  dlambda := I.dlambda

/-- `qref` after line 117. Levels 1 and `kmax` keep the zeros of the allocation. -/
def qrefRaw (j k : ℤ) : ℝ := if 2 ≤ k ∧ k ≤ I.kmax - 1 then (I.area k).qref j else 0

/-- Lines 110-115. -/
def cbar (k : ℤ) : ℤ → ℝ :=
  doDown (I.jd - 1) 1 (fun j s => Function.update s j (s (j + 1) +
    0.5 * (I.qbar (j + 1) k + I.qbar j k) * I.a * I.dphi * 2 * π * I.a * cos (I.dphi * ((j : ℝ) - 0.5)))) (fun _ => 0)

/-- Latitude of row `j` of the hemisphere, e.g. line 123. -/
def phi (j : ℤ) : ℝ := I.dphi * ((j - 1 : ℤ) : ℝ)

/-- Coriolis parameter, lines 124 and 240. -/
def cor (j : ℤ) : ℝ := 2 * I.om * sin (I.phi j)

/-- Lines 122-126, for `2 ≤ j ≤ jd`. -/
def qrefNorm (j k : ℤ) : ℝ := I.qrefRaw j k / I.cor j

/-- `qref` on return, lines 122-130. -/
def qref (j k : ℤ) : ℝ :=
  if j = 1 then (if 2 ≤ k ∧ k ≤ I.kmax - 1 then 2 * I.qrefNorm 2 k - I.qrefNorm 3 k else I.qrefRaw 1 k)
  else I.qrefNorm j k

/-- Lines 146-154 for `cjk` (`p = 1`) and `djk` (`p = -1`). -/
def amp (p : ℤ) (j k : ℤ) : ℝ :=
  let zp := 0.5 * (I.z (k + p) + I.z k)
  let statp := 0.5 * (I.stat (k + p) + I.stat k)
  let fact := 4 * I.om * I.om * I.h * I.a * I.a * sin (I.phi j) * I.dphi * I.dphi / (I.dz * I.dz * I.r * cos (I.phi j))
  exp (-zp / I.h) * exp (I.rkappa * zp / I.h) / statp * fact * exp (I.z k / I.h)

/-- Line 155. -/
def ajk (j : ℤ) : ℝ := 1 / (sin (((j : ℝ) - 0.5) * I.dphi) * cos (((j : ℝ) - 0.5) * I.dphi))

/-- Line 156. -/
def bjk (j : ℤ) : ℝ := 1 / (sin (((j : ℝ) - 1.5) * I.dphi) * cos (((j : ℝ) - 1.5) * I.dphi))

/-- Line 157. -/
def cjk (j k : ℤ) : ℝ := I.amp 1 j k

/-- Line 158. -/
def djk (j k : ℤ) : ℝ := I.amp (-1) j k

/-- Line 159. -/
def ejk (j k : ℤ) : ℝ := -I.ajk j - I.bjk j - I.cjk j k - I.djk j k

/-- Line 160. -/
def fjk (j k : ℤ) : ℝ := -I.om * I.a * I.dphi * (I.qref (j + 1) k - I.qref (j - 1) k)

/-- Lines 164-170. -/
def anormf : ℝ := dosum 2 (I.jd - 1) (fun j => dosum 2 (I.kmax - 1) (fun k => |I.fjk j k|))

/-- Lines 179-181. -/
def resid (u : ℤ → ℤ → ℝ) (j k : ℤ) : ℝ :=
  I.ajk j * u (j + 1) k + I.bjk j * u (j - 1) k + I.cjk j k * u j (k + 1) + I.djk j k * u j (k - 1) +
    I.ejk j k * u j k - I.fjk j k

/-- Lines 183-184. -/
def relax (omega : ℝ) (u : ℤ → ℤ → ℝ) (j k : ℤ) : ℝ :=
  if I.ejk j k ≠ 0 then u j k - omega * I.resid u j k / I.ejk j k else 0

/-- Lines 178-185. -/
def pointStep (nnn : ℤ) (omega : ℝ) (j k : ℤ) (s : Sor) : Sor :=
  if (j + k) % 2 = nnn % 2 then { u := set2 s.u j k (I.relax omega s.u j k), anorm := s.anorm + |I.resid s.u j k| } else s

/-- Lines 188-190. -/
def uz (j : ℤ) : ℝ :=
  I.dz * I.r * cos (I.phi j) * exp (-I.z (I.kmax - 1) * I.rkappa / I.h) *
    (I.tbar (j + 1) (I.kmax - 1) - I.tbar (j - 1) (I.kmax - 1)) / (2 * I.om * sin (I.phi j) * I.dphi * I.h * I.a)

/-- Lines 177-191. -/
def rowStep (nnn : ℤ) (omega : ℝ) (j : ℤ) (s : Sor) : Sor :=
  let s1 := doLoop 2 (I.kmax - 1) (I.pointStep nnn omega j) s
  let u1 := set2 s1.u j 1 0
  { u := set2 u1 j I.kmax (u1 j (I.kmax - 2) - I.uz j), anorm := s1.anorm }

/-- Line 195. On levels 1 and `kmax` neither `cref` nor `cbar` is ever assigned; their difference is then unspecified. -/
def bound (k : ℤ) : ℝ :=
  I.ubar 1 k + (if 2 ≤ k ∧ k ≤ I.kmax - 1 then (I.area k).cref (I.unset 1 k) 1 - I.cbar k 1 else I.unset 1 k) / (2 * π * I.a)

/-- Lines 175-195: one sweep. -/
def sweep (nnn : ℤ) (omega : ℝ) (u : ℤ → ℤ → ℝ) : Sor :=
  let s := doLoop 2 (I.jd - 1) (I.rowStep nnn omega) { u := u, anorm := 0 }
  { u := setRow (setRow s.u I.jd (fun _ => 0)) 1 I.bound, anorm := s.anorm }

/-- Lines 198-202. -/
def omegaNext (nnn : ℤ) (omega : ℝ) : ℝ :=
  if nnn = 1 then 1 / (1 - 0.5 * I.rjac ^ 2) else 1 / (1 - 0.25 * I.rjac ^ 2 * omega)

/-- Lines 174-222, with `fuel` sweeps left before sweep `nnn`: the wind and `num_of_iter`. -/
def sorLoop : ℕ → ℤ → ℝ → (ℤ → ℤ → ℝ) → (ℤ → ℤ → ℝ) × ℤ
  | 0, nnn, _, _ => (fun _ _ => 0, nnn)
  | fuel + 1, nnn, omega, u =>
    let s := I.sweep nnn omega u
    if 1 < nnn ∧ s.anorm < I.eps * I.anormf then (s.u, nnn) else sorLoop fuel (nnn + 1) (I.omegaNext nnn omega) s.u

/-- Lines 172-222. The wind starts from the zeros of the allocation. -/
def sor : (ℤ → ℤ → ℝ) × ℤ := I.sorLoop I.maxits 1 1 (fun _ _ => 0)

/-- Lines 224-228. -/
def windRows (u : ℤ → ℤ → ℝ) (j k : ℤ) : ℝ :=
  if j = 1 then I.ubar 1 k else if 2 ≤ j ∧ j ≤ I.jd - 1 then u j k / cos (I.phi j) else u j k

/-- `u` on return, lines 224-229. -/
def uref (j k : ℤ) : ℝ :=
  if j = I.jd then 2 * I.windRows I.sor.1 (I.jd - 1) k - I.windRows I.sor.1 (I.jd - 2) k else I.windRows I.sor.1 j k

/-- `num_of_iter` -/
def numOfIter : ℤ := I.sor.2

/-- Lines 240-243. -/
def ty (j k : ℤ) : ℝ :=
  -I.cor j * ((I.uref j (k + 1) - I.uref j (k - 1)) / (2 * I.dz)) * I.a * I.h * exp (I.rkappa * I.z k / I.h) / I.r

/-- Lines 236-245. -/
def trefRaw (k : ℤ) : ℤ → ℝ :=
  doLoop 2 (I.jd - 1) (fun j t => Function.update t (j + 1) (t (j - 1) + 2 * I.ty j k * I.dphi)) (fun _ => 0)

/-- Lines 246-253. -/
def tg (k : ℤ) : ℝ := dosum 1 I.jd (fun j => cos (I.phi j) * I.trefRaw k j) / dosum 1 I.jd (fun j => cos (I.phi j))

/-- Lines 254-255. -/
def trefMid (j k : ℤ) : ℝ := I.trefRaw k j + (I.tb k - I.tg k)

/-- `tref` on return, lines 233-258. -/
def tref (j k : ℤ) : ℝ :=
  if k = I.kmax then I.trefMid j (I.kmax - 1) - I.tb (I.kmax - 1) + I.tb I.kmax
  else if k = 1 then I.trefMid j 2 - I.tb 2 + I.tb 1
  else I.trefMid j k

end RefIn

end Falwa
