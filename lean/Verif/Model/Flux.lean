import Verif.Model.Fortran
import Verif.Model.Utilities
import Mathlib.Analysis.SpecialFunctions.Trigonometric.Basic
import Mathlib.Algebra.BigOperators.Group.Finset.Basic
import Mathlib.Data.Int.Interval

/-!
# Model of the wave activity and flux routines

Sources: `/repo/src/falwa/f90_modules/compute_flux_dirinv.f90` (`compute_flux_dirinv_nshem`),
`/repo/src/falwa/f90_modules/compute_lwa_only_nhn22.f90` (`compute_lwa_only_nhn22`), and their callers in
`/repo/src/falwa/oopinterface.py`.

Both routines are always called with `is_nhem = True` (oopinterface.py lines 441, 657, 680, 1109), so that branch is
modelled here; the other one is in `Model/SouthBranch.lean`. Arithmetic is exact, over ℝ. Indices start at 1, also for the Python arrays that are passed in Fortran order.
The local arrays `qe`, `ue`, `ncforce2d` are assigned just before each use, so they are local values here. Accumulators
`astar1(i,j,k)` and so on are kept in a record during the inner loop and written once.
-/

noncomputable section

namespace Falwa

open Real Finset

/-- Arguments of `compute_flux_dirinv_nshem`, lines 1-12. `imax … jd` are the declared extents, `jb` the boundary index. -/
structure FluxIn where
  imax : ℤ
  jmax : ℤ
  kmax : ℤ
  nd : ℤ
  jb : ℤ
  jd : ℤ
  pv : ℤ → ℤ → ℤ → ℝ
  uu : ℤ → ℤ → ℤ → ℝ
  vv : ℤ → ℤ → ℤ → ℝ
  pt : ℤ → ℤ → ℤ → ℝ
  ncforce : ℤ → ℤ → ℤ → ℝ
  tn0 : ℤ → ℝ
  qref : ℤ → ℤ → ℝ
  uref : ℤ → ℤ → ℝ
  tref : ℤ → ℤ → ℝ
  a : ℝ
  om : ℝ
  dz : ℝ
  h : ℝ
  rr : ℝ
  cp : ℝ
  prefac : ℝ

/-- Results of `compute_flux_dirinv_nshem`, lines 13-14. -/
structure FluxOut where
  astar1 : ℤ → ℤ → ℤ → ℝ
  astar2 : ℤ → ℤ → ℤ → ℝ
  ncforce3d : ℤ → ℤ → ℤ → ℝ
  ua1 : ℤ → ℤ → ℤ → ℝ
  ua2 : ℤ → ℤ → ℤ → ℝ
  ep1 : ℤ → ℤ → ℤ → ℝ
  ep2 : ℤ → ℤ → ℤ → ℝ
  ep3 : ℤ → ℤ → ℤ → ℝ
  ep4 : ℤ → ℤ → ℝ

namespace FluxIn

variable (I : FluxIn)

/-- `dp = pi/float(jmax-1)`, line 26. -/
def dp : ℝ := π / ((I.jmax - 1 : ℤ) : ℝ)

/-- `dp*float(j-1)`, lines 79, 87, 136. -/
def phi (j : ℤ) : ℝ := I.dp * ((j - 1 : ℤ) : ℝ)

/-- Accumulators of the inner loop, lines 74-77. -/
structure Acc where
  astar1 : ℝ
  astar2 : ℝ
  nc : ℝ
  ua2 : ℝ

/-- `qe(i,jj)`, line 88. -/
def qe (i j k jj : ℤ) : ℝ := rd3 I.jmax I.pv i (jj + I.nd - 1) k - rd2 I.nd I.qref j k

/-- `ue(i,jj)`, line 90. -/
def ue (i j k jj : ℤ) : ℝ :=
  rd3 I.jmax I.uu i (jj + I.nd - 1) k * cos (I.phi j) - rd2 I.jd I.uref (j - I.jb) k * cos (I.phi jj)

/-- One iteration of the inner loop, lines 86-115. -/
def accStep (i j k jj : ℤ) (s : Acc) : Acc :=
  let qe := I.qe i j k jj
  let nc := rd3 I.jmax I.ncforce i (jj + I.nd - 1) k
  let ue := I.ue i j k jj
  let aa := I.a * I.dp * cos (I.phi jj)
  let ab := I.a * I.dp
  let s1 : Acc :=
    if qe ≤ 0 ∧ jj ≥ j then
      { s with astar2 := s.astar2 - qe * aa, nc := s.nc - nc * aa, ua2 := s.ua2 - qe * ue * ab }
    else s
  if qe > 0 ∧ jj < j then
    { s1 with astar1 := s1.astar1 + qe * aa, nc := s1.nc + nc * aa, ua2 := s1.ua2 + qe * ue * ab }
  else s1

/-- The inner loop, lines 74-77 and 85-116. -/
def acc (i j k : ℤ) : Acc := doLoop 1 I.nd (I.accStep i j k) ⟨0, 0, 0, 0⟩

/-- `ep1(i,j,k)`, lines 121-123, 130-133, 147. -/
def ep1Val (i j k : ℤ) : ℝ :=
  let e := -0.5 * (rd3 I.jmax I.uu i (j + I.nd - 1) k - rd2 I.jd I.uref (j - I.jb) k) ^ 2
  let e := e + 0.5 * rd3 I.jmax I.vv i (j + I.nd - 1) k ^ 2
  let ep11 := 0.5 * (rd3 I.jmax I.pt i (j + I.nd - 1) k - rd2 I.jd I.tref (j - I.jb) k) ^ 2
  let zz := I.dz * ((k - 1 : ℤ) : ℝ)
  let ep11 := ep11 * (I.rr / I.h) * exp (-(I.rr / I.cp) * zz / I.h)
  let ep11 := ep11 * 2 * I.dz / (I.tn0 (k + 1) - I.tn0 (k - 1))
  (e - ep11) * cos (I.phi j)

/-- `ep2(i,j,k)`, lines 135, 143, 151. -/
def ep2Val (i j k : ℤ) : ℝ :=
  let cosp := cos (I.dp * (j : ℝ))
  (rd3 I.jmax I.uu i (j + I.nd) k - rd2 I.jd I.uref (j - I.jb + 1) k) * cosp * cosp * rd3 I.jmax I.vv i (j + I.nd) k

/-- `ep3(i,j,k)`, lines 137, 145, 152. -/
def ep3Val (i j k : ℤ) : ℝ :=
  let cosm := cos (I.dp * ((j - 2 : ℤ) : ℝ))
  (rd3 I.jmax I.uu i (j + I.nd - 2) k - rd2 I.jd I.uref (j - I.jb - 1) k) * cosm * cosm *
    rd3 I.jmax I.vv i (j + I.nd - 2) k

/-- `ep4(i,j)`, lines 160-170. -/
def ep4Val (i j : ℤ) : ℝ :=
  let ep41 := 2 * I.om * sin (I.phi j) * cos (I.phi j) * I.dz / I.prefac
  let ep42 := exp (-I.dz / I.h) * rd3 I.jmax I.vv i (j + I.nd - 1) 2 *
    (rd3 I.jmax I.pt i (j + I.nd - 1) 2 - rd2 I.jd I.tref (j - I.jb) 2) / (I.tn0 3 - I.tn0 1)
  let ep43 := rd3 I.jmax I.vv i (j + I.nd - 1) 1 * (rd3 I.jmax I.pt i (j + I.nd - 1) 1 - rd2 I.jd I.tref (j - I.jb) 1)
  let ep43 := 0.5 * ep43 / (I.tn0 2 - I.tn0 1)
  ep41 * (ep42 + ep43)

/-- Body of the loop over `j`, lines 74-171. -/
def cellStep (k i j : ℤ) (s : FluxOut) : FluxOut :=
  let w := I.acc i j k
  { astar1 := wr3 I.nd s.astar1 i j k w.astar1
    astar2 := wr3 I.nd s.astar2 i j k w.astar2
    ncforce3d := wr3 I.nd s.ncforce3d i j k w.nc
    ua1 := wr3 I.nd s.ua1 i j k (rd2 I.jd I.uref (j - I.jb) k * (w.astar1 + w.astar2))
    ua2 := wr3 I.nd s.ua2 i j k w.ua2
    ep1 := wr3 I.nd s.ep1 i j k (I.ep1Val i j k)
    ep2 := wr3 I.nd s.ep2 i j k (I.ep2Val i j k)
    ep3 := wr3 I.nd s.ep3 i j k (I.ep3Val i j k)
    ep4 := if k = 2 then (fun i' j' => if i' = i ∧ j' = j then I.ep4Val i j else s.ep4 i' j') else s.ep4 }

/-- Right-hand side of line 177. -/
def ep2Tail (i k : ℤ) : ℝ :=
  let cosp := cos (I.dp * (I.jb : ℝ))
  (rd3 I.jmax I.uu i (I.nd + I.jb + 1) k - rd2 I.jd I.uref 2 k) * cosp * cosp * rd3 I.jmax I.vv i (I.nd + I.jb + 1) k

/-- Right-hand side of line 178. -/
def ep3Tail (i k : ℤ) : ℝ :=
  let cos0 := cos (I.dp * ((I.jb - 1 : ℤ) : ℝ))
  (rd3 I.jmax I.uu i (I.nd + I.jb) k - rd2 I.jd I.uref 1 k) * cos0 * cos0 * rd3 I.jmax I.vv i (I.nd + I.jb) k

/-- Statements after the loop over `j`, lines 173-178. -/
def tailStep (k i : ℤ) (s : FluxOut) : FluxOut :=
  { s with ep2 := wr3 I.nd s.ep2 i I.jb k (I.ep2Tail i k), ep3 := wr3 I.nd s.ep3 i I.jb k (I.ep3Tail i k) }

/-- `compute_flux_dirinv_nshem`, lines 46-180. -/
def fluxDirinv : FluxOut :=
  doLoop 2 (I.kmax - 1)
    (fun k => doLoop 1 I.imax (fun i s => I.tailStep k i (doLoop (I.jb + 1) (I.nd - 1) (I.cellStep k i) s)))
    ⟨fun _ _ _ => 0, fun _ _ _ => 0, fun _ _ _ => 0, fun _ _ _ => 0, fun _ _ _ => 0, fun _ _ _ => 0, fun _ _ _ => 0,
      fun _ _ _ => 0, fun _ _ => 0⟩

/-! ### Array references of the flux routine -/

/-- Arrays of `compute_flux_dirinv_nshem`. -/
inductive Arr where
  | pv | uu | vv | pt | ncforce | tg | qref | uref | tref | astar1 | astar2 | ncforce3d | ua1 | ua2 | ep1 | ep2 | ep3 | ep4
  | qe | ue | ncforce2d
  deriving DecidableEq

/-- Declared index ranges, lines 7-18. Unused positions hold the index 1. -/
def declared : Arr → ℤ → ℤ → ℤ → Prop
  | .pv, i, j, k | .uu, i, j, k | .vv, i, j, k | .pt, i, j, k | .ncforce, i, j, k =>
    (1 ≤ i ∧ i ≤ I.imax) ∧ (1 ≤ j ∧ j ≤ I.jmax) ∧ (1 ≤ k ∧ k ≤ I.kmax)
  | .tg, i, j, k => (1 ≤ i ∧ i ≤ I.kmax) ∧ j = 1 ∧ k = 1
  | .qref, i, j, k => (1 ≤ i ∧ i ≤ I.nd) ∧ (1 ≤ j ∧ j ≤ I.kmax) ∧ k = 1
  | .uref, i, j, k | .tref, i, j, k => (1 ≤ i ∧ i ≤ I.jd) ∧ (1 ≤ j ∧ j ≤ I.kmax) ∧ k = 1
  | .ep4, i, j, k | .qe, i, j, k | .ue, i, j, k | .ncforce2d, i, j, k =>
    (1 ≤ i ∧ i ≤ I.imax) ∧ (1 ≤ j ∧ j ≤ I.nd) ∧ k = 1
  | _, i, j, k => (1 ≤ i ∧ i ≤ I.imax) ∧ (1 ≤ j ∧ j ≤ I.nd) ∧ (1 ≤ k ∧ k ≤ I.kmax)

/-- Iterations of the loops over `k`, `i`, `j`, lines 70-73. -/
def Iter (i j k : ℤ) : Prop :=
  (2 ≤ k ∧ k ≤ I.kmax - 1) ∧ (1 ≤ i ∧ i ≤ I.imax) ∧ (I.jb + 1 ≤ j ∧ j ≤ I.nd - 1)

/-- Every array element that the loop nest (lines 70-180) refers to, with the source line. -/
inductive Touches : ℕ → Arr → ℤ → ℤ → ℤ → Prop
  | out {i j k : ℤ} (h : Iter I i j k) (x : Arr)
      (hx : x ∈ [Arr.astar1, .astar2, .ncforce3d, .ua1, .ua2, .ep1, .ep2, .ep3]) : Touches 74 x i j k
  | pv88 {i j k jj : ℤ} (h : Iter I i j k) (hj : 1 ≤ jj ∧ jj ≤ I.nd) : Touches 88 .pv i (jj + I.nd - 1) k
  | qref88 {i j k : ℤ} (h : Iter I i j k) (hn : 1 ≤ I.nd) : Touches 88 .qref j k 1
  | work {i j k jj : ℤ} (h : Iter I i j k) (hj : 1 ≤ jj ∧ jj ≤ I.nd) (x : Arr)
      (hx : x ∈ [Arr.qe, .ue, .ncforce2d]) : Touches 88 x i jj 1
  | nc89 {i j k jj : ℤ} (h : Iter I i j k) (hj : 1 ≤ jj ∧ jj ≤ I.nd) : Touches 89 .ncforce i (jj + I.nd - 1) k
  | uu90 {i j k jj : ℤ} (h : Iter I i j k) (hj : 1 ≤ jj ∧ jj ≤ I.nd) : Touches 90 .uu i (jj + I.nd - 1) k
  | uref90 {i j k : ℤ} (h : Iter I i j k) : Touches 90 .uref (j - I.jb) k 1
  | here121 {i j k : ℤ} (h : Iter I i j k) (x : Arr) (hx : x ∈ [Arr.uu, .vv, .pt]) : Touches 121 x i (j + I.nd - 1) k
  | tref123 {i j k : ℤ} (h : Iter I i j k) : Touches 123 .tref (j - I.jb) k 1
  | tg132a {i j k : ℤ} (h : Iter I i j k) : Touches 132 .tg (k + 1) 1 1
  | tg132b {i j k : ℤ} (h : Iter I i j k) : Touches 132 .tg (k - 1) 1 1
  | north151 {i j k : ℤ} (h : Iter I i j k) (x : Arr) (hx : x ∈ [Arr.uu, .vv]) : Touches 151 x i (j + I.nd) k
  | uref151 {i j k : ℤ} (h : Iter I i j k) : Touches 151 .uref (j - I.jb + 1) k 1
  | south152 {i j k : ℤ} (h : Iter I i j k) (x : Arr) (hx : x ∈ [Arr.uu, .vv]) : Touches 152 x i (j + I.nd - 2) k
  | uref152 {i j k : ℤ} (h : Iter I i j k) : Touches 152 .uref (j - I.jb - 1) k 1
  | low163 {i j k : ℤ} (h : Iter I i j 2) (hk : k = 1 ∨ k = 2) (x : Arr) (hx : x ∈ [Arr.vv, .pt]) :
      Touches 163 x i (j + I.nd - 1) k
  | tref163 {i j k : ℤ} (h : Iter I i j 2) (hk : k = 1 ∨ k = 2) : Touches 163 .tref (j - I.jb) k 1
  | tg163 {i j k : ℤ} (h : Iter I i j 2) (hk : k = 1 ∨ k = 2 ∨ k = 3) : Touches 163 .tg k 1 1
  | ep4 {i j : ℤ} (h : Iter I i j 2) : Touches 170 .ep4 i j 1
  | out177 {i k : ℤ} (hk : 2 ≤ k ∧ k ≤ I.kmax - 1) (hi : 1 ≤ i ∧ i ≤ I.imax) (x : Arr) (hx : x ∈ [Arr.ep2, .ep3]) :
      Touches 177 x i I.jb k
  | in177 {i k : ℤ} (hk : 2 ≤ k ∧ k ≤ I.kmax - 1) (hi : 1 ≤ i ∧ i ≤ I.imax) (x : Arr) (hx : x ∈ [Arr.uu, .vv]) :
      Touches 177 x i (I.nd + I.jb + 1) k
  | uref177 {k : ℤ} (hk : 2 ≤ k ∧ k ≤ I.kmax - 1) (hi : 1 ≤ I.imax) : Touches 177 .uref 2 k 1
  | in178 {i k : ℤ} (hk : 2 ≤ k ∧ k ≤ I.kmax - 1) (hi : 1 ≤ i ∧ i ≤ I.imax) (x : Arr) (hx : x ∈ [Arr.uu, .vv]) :
      Touches 178 x i (I.nd + I.jb) k
  | uref178 {k : ℤ} (hk : 2 ≤ k ∧ k ≤ I.kmax - 1) (hi : 1 ≤ I.imax) : Touches 178 .uref 1 k 1

end FluxIn

/-! ### `compute_lwa_only_nhn22` -/

/-- Arguments of `compute_lwa_only_nhn22`, lines 1-10 (`om`, `rr`, `cp` have no effect on the results). -/
structure LwaIn where
  imax : ℤ
  jmax : ℤ
  kmax : ℤ
  nd : ℤ
  jb : ℤ
  pv : ℤ → ℤ → ℤ → ℝ
  uu : ℤ → ℤ → ℤ → ℝ
  qref : ℤ → ℤ → ℝ
  a : ℝ
  dz : ℝ
  h : ℝ
  prefac : ℝ

/-- Results of `compute_lwa_only_nhn22`, line 11. -/
structure LwaOnlyOut where
  astarbaro : ℤ → ℤ → ℝ
  ubaro : ℤ → ℤ → ℝ
  astar1 : ℤ → ℤ → ℤ → ℝ
  astar2 : ℤ → ℤ → ℤ → ℝ

namespace LwaIn

variable (I : LwaIn)

/-- `dp`, line 19. -/
def dp : ℝ := π / ((I.jmax - 1 : ℤ) : ℝ)

/-- One iteration of the inner loop, lines 60-81. The state is `(astar1(i,j,k), astar2(i,j,k))`. -/
def accStep (i j k jj : ℤ) (s : ℝ × ℝ) : ℝ × ℝ :=
  let phi1 := I.dp * ((jj - 1 : ℤ) : ℝ)
  let qe := rd3 I.jmax I.pv i (jj + I.nd - 1) k - rd2 I.nd I.qref j k
  let aa := I.a * I.dp * cos phi1
  let s1 := if qe ≤ 0 ∧ jj ≥ j then (s.1, s.2 - qe * aa) else s
  if qe > 0 ∧ jj < j then (s1.1 + qe * aa, s1.2) else s1

/-- Lines 50-82. -/
def acc (i j k : ℤ) : ℝ × ℝ := doLoop 1 I.nd (I.accStep i j k) (0, 0)

/-- Body of the loop over `j`. -/
def cellStep (k i j : ℤ) (s : LwaOnlyOut) : LwaOnlyOut :=
  { s with
    astar1 := wr3 I.nd s.astar1 i j k (I.acc i j k).1
    astar2 := wr3 I.nd s.astar2 i j k (I.acc i j k).2 }

/-- Lines 93-99: the array assignments of `astarbaro(:,:)` and `ubaro(:,j)`. -/
def baroStep (k : ℤ) (s : LwaOnlyOut) : LwaOnlyOut :=
  let zk := I.dz * ((k - 1 : ℤ) : ℝ)
  let dc := I.dz / I.prefac
  let s1 := { s with
    astarbaro := fun i j => s.astarbaro i j + (s.astar1 i j k + s.astar2 i j k) * exp (-zk / I.h) * dc }
  doLoop (I.jb + 1) (I.nd - 1)
    (fun j s => { s with
      ubaro := fun i j' =>
        if j' = j then s.ubaro i j + rd3 I.jmax I.uu i (I.nd - 1 + j) k * exp (-zk / I.h) * dc else s.ubaro i j' }) s1

/-- `compute_lwa_only_nhn22`, lines 33-105. `astar1`, `astar2` start at 0 because f2py clears `intent(out)` arrays. -/
def lwaOnly : LwaOnlyOut :=
  doLoop 2 (I.kmax - 1)
    (fun k s => I.baroStep k (doLoop 1 I.imax (fun i => doLoop (I.jb + 1) (I.nd - 1) (I.cellStep k i)) s))
    ⟨fun _ _ => 0, fun _ _ => 0, fun _ _ _ => 0, fun _ _ _ => 0⟩

end LwaIn

/-! ### The callers in `oopinterface.py` -/

/-- What `QGField` holds when the fluxes are computed: fields on the analysis grid (Fortran order, indices from 1),
hemispheric means, reference states (`rows` rows; `qref` is already multiplied by `2 Ω sin φ`), grid and constants.
`nd` is `equator_idx`, `jb` is `eq_boundary_index`. -/
structure QGAnalysis where
  nlon : ℤ
  nlat : ℤ
  kmax : ℤ
  nd : ℤ
  jb : ℤ
  jd : ℤ
  nhOnly : Bool
  qgpv : ℤ → ℤ → ℤ → ℝ
  u : ℤ → ℤ → ℤ → ℝ
  v : ℤ → ℤ → ℤ → ℝ
  theta : ℤ → ℤ → ℤ → ℝ
  ncforce : ℤ → ℤ → ℤ → ℝ
  tn0 : ℤ → ℝ
  ts0 : ℤ → ℝ
  qref : ℤ → ℤ → ℝ
  uref : ℤ → ℤ → ℝ
  ptref : ℤ → ℤ → ℝ
  height : ℤ → ℝ
  a : ℝ
  om : ℝ
  dz : ℝ
  h : ℝ
  rr : ℝ
  cp : ℝ

namespace QGAnalysis

variable (S : QGAnalysis)

/-- `lat_dim`, oopinterface.py line 209: the rows of the reference-state and flux storages. -/
def rows : ℤ := if S.nhOnly then S.nd else S.nlat

/-- `_compute_prefactor`, oopinterface.py line 270. -/
def prefactor : ℝ := ∑ k ∈ Icc 1 (S.kmax - 2), exp (-((k : ℤ) : ℝ) * S.dz / S.h) * S.dz

/-- `_vertical_average` with `lowest_layer_index=1`, oopinterface.py lines 405-420: Python levels `1 …`, that is
levels `2 … kmax` here. -/
def verticalAverage (f : ℤ → ℝ) : ℝ :=
  ∑ k ∈ Icc 2 S.kmax, f k * exp (-S.height k / S.h) * (S.dz / S.prefactor)

/-- Arguments of the call for the Northern Hemisphere, oopinterface.py lines 748-758 and 430-448. Row `j` of the slice
`[-n:]` of an array with `m` rows is row `m - n + j`. -/
def northIn : FluxIn where
  imax := S.nlon
  jmax := S.nlat
  kmax := S.kmax
  nd := S.nd
  jb := S.jb
  jd := S.jd
  pv := S.qgpv
  uu := S.u
  vv := S.v
  pt := S.theta
  ncforce := S.ncforce
  tn0 := S.tn0
  qref := fun j k => S.qref (S.rows - S.nd + j) k
  uref := fun j k => S.uref (S.rows - S.jd + j) k
  tref := fun j k => S.ptref (S.rows - S.jd + j) k
  a := S.a
  om := S.om
  dz := S.dz
  h := S.h
  rr := S.rr
  cp := S.cp
  prefac := S.prefactor

/-- Arguments of the call for the Southern Hemisphere, oopinterface.py lines 779-789. Row `j` of `[(n-1)::-1]` is row
`n + 1 - j`; row `j` of `[::-1]` is row `nlat + 1 - j`. -/
def southIn : FluxIn where
  imax := S.nlon
  jmax := S.nlat
  kmax := S.kmax
  nd := S.nd
  jb := S.jb
  jd := S.jd
  pv := fun i j k => -S.qgpv i (S.nlat + 1 - j) k
  uu := fun i j k => S.u i (S.nlat + 1 - j) k
  vv := fun i j k => -S.v i (S.nlat + 1 - j) k
  pt := fun i j k => S.theta i (S.nlat + 1 - j) k
  ncforce := fun i j k => S.ncforce i (S.nlat + 1 - j) k
  tn0 := S.ts0
  qref := fun j k => -S.qref (S.nd + 1 - j) k
  uref := fun j k => S.uref (S.jd + 1 - j) k
  tref := fun j k => S.ptref (S.jd + 1 - j) k
  a := S.a
  om := S.om
  dz := S.dz
  h := S.h
  rr := S.rr
  cp := S.cp
  prefac := S.prefactor

/-- Arguments of `compute_lwa_only_nhn22` for the Northern Hemisphere, oopinterface.py lines 652-664. -/
def northLwaIn : LwaIn where
  imax := S.nlon
  jmax := S.nlat
  kmax := S.kmax
  nd := S.nd
  jb := S.jb
  pv := S.qgpv
  uu := S.u
  qref := fun j k => S.qref (S.rows - S.nd + j) k
  a := S.a
  dz := S.dz
  h := S.h
  prefac := S.prefactor

/-- The same for the Southern Hemisphere, oopinterface.py lines 675-687. -/
def southLwaIn : LwaIn where
  imax := S.nlon
  jmax := S.nlat
  kmax := S.kmax
  nd := S.nd
  jb := S.jb
  pv := fun i j k => -S.qgpv i (S.nlat + 1 - j) k
  uu := fun i j k => S.u i (S.nlat + 1 - j) k
  qref := fun j k => -S.qref (S.nd + 1 - j) k
  a := S.a
  dz := S.dz
  h := S.h
  prefac := S.prefactor

/-- A storage after the northern and then the southern assignment (`_nhem`, `_shem` setters, data_storage.py lines 42-62):
hemispheric row `j` counts from the equator. -/
def store (north south : ℤ → ℝ) (g : ℤ) : ℝ :=
  if S.nhOnly = false ∧ g ≤ S.nd then south (S.nd + 1 - g)
  else if S.rows - S.nd + 1 ≤ g then north (g - (S.rows - S.nd))
  else 0

/-- `lwa` after `compute_lwa_and_barotropic_fluxes`, lines 759, 793. -/
def lwa (i g k : ℤ) : ℝ :=
  S.store (fun j => |S.northIn.fluxDirinv.astar1 i j k + S.northIn.fluxDirinv.astar2 i j k|)
    (fun j => |S.southIn.fluxDirinv.astar1 i j k + S.southIn.fluxDirinv.astar2 i j k|) g

/-- A barotropic term of both calls, lines 450-459, 734-747, 765-778. -/
def baro (x : FluxOut → ℤ → ℤ → ℤ → ℝ) (i g : ℤ) : ℝ :=
  S.store (fun j => S.verticalAverage (fun k => x S.northIn.fluxDirinv i j k))
    (fun j => S.verticalAverage (fun k => x S.southIn.fluxDirinv i j k)) g

/-- `lwa_baro`, lines 450-452. -/
def lwaBaro (i g : ℤ) : ℝ := S.baro FluxOut.astar1 i g + S.baro FluxOut.astar2 i g

/-- `u_baro`, line 454: `uu[:, -equator_idx:, :]`. -/
def uBaro (i g : ℤ) : ℝ :=
  S.store (fun j => S.verticalAverage (fun k => S.u i (S.nlat - S.nd + j) k))
    (fun j => S.verticalAverage (fun k => S.u i (S.nlat + 1 - (S.nlat - S.nd + j)) k)) g

/-- `adv_flux_f1`, lines 453, 925-926. -/
def advFluxF1 (i g : ℤ) : ℝ := S.baro FluxOut.ua1 i g

/-- `adv_flux_f2`, lines 455, 927-928. -/
def advFluxF2 (i g : ℤ) : ℝ := S.baro FluxOut.ua2 i g

/-- `adv_flux_f3`, lines 456, 929-930. -/
def advFluxF3 (i g : ℤ) : ℝ := S.baro FluxOut.ep1 i g

/-- `meridional_heat_flux`, lines 742, 773, 931-932. -/
def heatFlux (i g : ℤ) : ℝ := S.store (fun j => S.northIn.fluxDirinv.ep4 i j) (fun j => S.southIn.fluxDirinv.ep4 i j) g

/-- `ep2baro`: from the south, the routine's `ep3` with the sign changed (lines 771-772, 790). -/
def ep2baro (i g : ℤ) : ℝ :=
  S.store (fun j => S.verticalAverage (fun k => S.northIn.fluxDirinv.ep2 i j k))
    (fun j => -S.verticalAverage (fun k => S.southIn.fluxDirinv.ep3 i j k)) g

/-- `ep3baro`: from the south, the routine's `ep2` with the sign changed (lines 771-772, 791). -/
def ep3baro (i g : ℤ) : ℝ :=
  S.store (fun j => S.verticalAverage (fun k => S.northIn.fluxDirinv.ep3 i j k))
    (fun j => -S.verticalAverage (fun k => S.southIn.fluxDirinv.ep2 i j k)) g

/-- `ncforce_baro`, lines 459, 747, 778, 792. -/
def ncforceBaro (i g : ℤ) : ℝ :=
  S.store (fun j => S.verticalAverage (fun k => S.northIn.fluxDirinv.ncforce3d i j k))
    (fun j => -S.verticalAverage (fun k => S.southIn.fluxDirinv.ncforce3d i j k)) g

/-- `dphi`, line 164. -/
def dphi : ℝ := π / ((S.nlat - 1 : ℤ) : ℝ)

/-- Latitude of row `g` of the analysis grid in radians: rows are evenly spaced from pole to pole. -/
def lat (g : ℤ) : ℝ := S.dphi * ((g - S.nd : ℤ) : ℝ)

/-- Analysis-grid row of row `g` of the output: `_clat[-equator_idx:]` or `_clat`, line 909. -/
def outRow (g : ℤ) : ℤ := S.nlat - S.rows + g

/-- `divergence_eddy_momentum_flux`, lines 910-913. -/
def divEddyMomentumFlux (i g : ℤ) : ℝ :=
  (S.ep2baro i g - S.ep3baro i g) / (2 * S.a * S.dphi * cos (S.lat (S.outRow g)))

/-- `flux_vector_lambda_baro`, lines 937-941; also the field given to `zonal_convergence`, lines 915-918. -/
def zonalFluxSum (i g : ℤ) : ℝ := S.baro FluxOut.ua1 i g + S.baro FluxOut.ua2 i g + S.baro FluxOut.ep1 i g

/-- `convergence_zonal_advective_flux` at row `r`, longitude `c` (Python indices), lines 909, 915-924; `tol` is the default
of `zonal_convergence`, utilities.py line 186. -/
def convergenceZonal (r c : ℕ) : ℝ :=
  zonalConvergence S.nlon.toNat (fun r c => S.zonalFluxSum (c + 1) (r + 1)) (fun r => cos (S.lat (S.outRow (r + 1))))
    (2 * π / (S.nlon : ℝ)) S.a (1 / 100000) r c

/-- `lwa` after `compute_lwa_only`, lines 665, 688. -/
def lwaOfLwaOnly (i g k : ℤ) : ℝ :=
  S.store (fun j => |S.northLwaIn.lwaOnly.astar1 i j k + S.northLwaIn.lwaOnly.astar2 i j k|)
    (fun j => |S.southLwaIn.lwaOnly.astar1 i j k + S.southLwaIn.lwaOnly.astar2 i j k|) g

/-- `lwa_baro` after `compute_lwa_only`, lines 648, 671. -/
def lwaBaroOfLwaOnly (i g : ℤ) : ℝ :=
  S.store (fun j => S.northLwaIn.lwaOnly.astarbaro i j) (fun j => S.southLwaIn.lwaOnly.astarbaro i j) g

/-- `u_baro` after `compute_lwa_only`, lines 649, 672. -/
def uBaroOfLwaOnly (i g : ℤ) : ℝ :=
  S.store (fun j => S.northLwaIn.lwaOnly.ubaro i j) (fun j => S.southLwaIn.lwaOnly.ubaro i j) g

end QGAnalysis

end Falwa
