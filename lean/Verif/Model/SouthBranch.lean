import Verif.Model.Flux

/-!
# The southern branch of the flux routines

Source: `/repo/src/falwa/f90_modules/compute_flux_dirinv.f90` and `/repo/src/falwa/f90_modules/compute_lwa_only_nhn22.f90` with
`is_nhem = .false.`. The classes of `oopinterface.py` never take this branch (they mirror the fields and pass `is_nhem=True`), but both
routines are exported by `/repo/src/falwa/__init__.py` lines 15-16. Conventions as in `Model/Flux.lean`. Hemispheric rows count from the
south pole here; `qref` has `nd` rows, `uref` and `tref` have `jd` rows.
-/

noncomputable section

namespace Falwa

open Real

namespace FluxIn

variable (I : FluxIn)

/-- `dp*float(j-1)-0.5*pi`, lines 81, 92, 140. -/
def phiS (j : ℤ) : ℝ := I.dp * ((j - 1 : ℤ) : ℝ) - 0.5 * π

/-- `qe(i,jj)`, line 93. -/
def qeS (i j k jj : ℤ) : ℝ := rd3 I.jmax I.pv i jj k - rd2 I.nd I.qref j k

/-- `ue(i,jj)`, line 95. -/
def ueS (i j k jj : ℤ) : ℝ := rd3 I.jmax I.uu i jj k * cos (I.phiS j) - rd2 I.jd I.uref j k * cos (I.phiS jj)

/-- One iteration of the inner loop, lines 91-115. -/
def accStepS (i j k jj : ℤ) (s : Acc) : Acc :=
  let qe := I.qeS i j k jj
  let nc := rd3 I.jmax I.ncforce i jj k
  let ue := I.ueS i j k jj
  let aa := I.a * I.dp * cos (I.phiS jj)
  let ab := I.a * I.dp
  let s1 : Acc :=
    if qe ≤ 0 ∧ jj ≥ j then
      { s with astar1 := s.astar1 - qe * aa, nc := s.nc - nc * aa, ua2 := s.ua2 - qe * ue * ab }
    else s
  if qe > 0 ∧ jj < j then
    { s1 with astar2 := s1.astar2 + qe * aa, nc := s1.nc + nc * aa, ua2 := s1.ua2 + qe * ue * ab }
  else s1

/-- The inner loop, lines 74-77 and 85-116. -/
def accS (i j k : ℤ) : Acc := doLoop 1 I.nd (I.accStepS i j k) ⟨0, 0, 0, 0⟩

/-- `ep1(i,j,k)`, lines 126-133, 147. -/
def ep1ValS (i j k : ℤ) : ℝ :=
  let e := -0.5 * (rd3 I.jmax I.uu i j k - rd2 I.jd I.uref j k) ^ 2
  let e := e + 0.5 * rd3 I.jmax I.vv i j k ^ 2
  let ep11 := 0.5 * (rd3 I.jmax I.pt i j k - rd2 I.jd I.tref j k) ^ 2
  let zz := I.dz * ((k - 1 : ℤ) : ℝ)
  let ep11 := ep11 * (I.rr / I.h) * exp (-(I.rr / I.cp) * zz / I.h)
  let ep11 := ep11 * 2 * I.dz / (I.tn0 (k + 1) - I.tn0 (k - 1))
  (e - ep11) * cos (I.phiS j)

/-- `ep2(i,j,k)`, lines 139, 143, 155. -/
def ep2ValS (i j k : ℤ) : ℝ :=
  let cosp := cos (I.dp * (j : ℝ) - 0.5 * π)
  (rd3 I.jmax I.uu i (j + 1) k - rd2 I.jd I.uref (j + 1) k) * cosp * cosp * rd3 I.jmax I.vv i (j + 1) k

/-- `ep3(i,j,k)`, lines 141, 145, 156. -/
def ep3ValS (i j k : ℤ) : ℝ :=
  let cosm := cos (I.dp * ((j - 2 : ℤ) : ℝ) - 0.5 * π)
  (rd3 I.jmax I.uu i (j - 1) k - rd2 I.jd I.uref (j - 1) k) * cosm * cosm * rd3 I.jmax I.vv i (j - 1) k

/-- `ep4(i,j)`, lines 161-170. -/
def ep4ValS (i j : ℤ) : ℝ :=
  let ep41 := 2 * I.om * sin (I.phiS j) * cos (I.phiS j) * I.dz / I.prefac
  let ep42 := exp (-I.dz / I.h) * rd3 I.jmax I.vv i j 2 * (rd3 I.jmax I.pt i j 2 - rd2 I.jd I.tref j 2) / (I.tn0 3 - I.tn0 1)
  let ep43 := rd3 I.jmax I.vv i j 1 * (rd3 I.jmax I.pt i j 1 - rd2 I.jd I.tref j 1)
  let ep43 := 0.5 * ep43 / (I.tn0 2 - I.tn0 1)
  ep41 * (ep42 + ep43)

/-- Body of the loop over `j`, lines 74-171. -/
def cellStepS (k i j : ℤ) (s : FluxOut) : FluxOut :=
  let w := I.accS i j k
  { astar1 := wr3 I.nd s.astar1 i j k w.astar1
    astar2 := wr3 I.nd s.astar2 i j k w.astar2
    ncforce3d := wr3 I.nd s.ncforce3d i j k w.nc
    ua1 := wr3 I.nd s.ua1 i j k (rd2 I.jd I.uref j k * (w.astar1 + w.astar2))
    ua2 := wr3 I.nd s.ua2 i j k w.ua2
    ep1 := wr3 I.nd s.ep1 i j k (I.ep1ValS i j k)
    ep2 := wr3 I.nd s.ep2 i j k (I.ep2ValS i j k)
    ep3 := wr3 I.nd s.ep3 i j k (I.ep3ValS i j k)
    ep4 := if k = 2 then (fun i' j' => if i' = i ∧ j' = j then I.ep4ValS i j else s.ep4 i' j') else s.ep4 }

/-- `compute_flux_dirinv_nshem` with `is_nhem = .false.`, lines 46-180. The statements after the loop over `j` (lines 173-178) do not
depend on `is_nhem`. -/
def fluxDirinvSouth : FluxOut :=
  doLoop 2 (I.kmax - 1)
    (fun k => doLoop 1 I.imax (fun i s => I.tailStep k i (doLoop 2 (I.nd - I.jb) (I.cellStepS k i) s)))
    ⟨fun _ _ _ => 0, fun _ _ _ => 0, fun _ _ _ => 0, fun _ _ _ => 0, fun _ _ _ => 0, fun _ _ _ => 0, fun _ _ _ => 0,
      fun _ _ _ => 0, fun _ _ => 0⟩

/-- The arguments that `oopinterface.py` passes instead, with `is_nhem=True` (lines 779-789): latitudes reversed, signs of PV and
meridional wind changed. The forcing changes its sign too (the code changes the sign of the result, line 792). -/
def mirrored : FluxIn where
  imax := I.imax
  jmax := I.jmax
  kmax := I.kmax
  nd := I.nd
  jb := I.jb
  jd := I.jd
  pv := fun i j k => -I.pv i (I.jmax + 1 - j) k
  uu := fun i j k => I.uu i (I.jmax + 1 - j) k
  vv := fun i j k => -I.vv i (I.jmax + 1 - j) k
  pt := fun i j k => I.pt i (I.jmax + 1 - j) k
  ncforce := fun i j k => -I.ncforce i (I.jmax + 1 - j) k
  tn0 := I.tn0
  qref := fun j k => -I.qref (I.nd + 1 - j) k
  uref := fun j k => I.uref (I.jd + 1 - j) k
  tref := fun j k => I.tref (I.jd + 1 - j) k
  a := I.a
  om := I.om
  dz := I.dz
  h := I.h
  rr := I.rr
  cp := I.cp
  prefac := I.prefac

end FluxIn

namespace LwaIn

variable (I : LwaIn)

/-- One iteration of the inner loop, lines 64-81. The state is `(astar1(i,j,k), astar2(i,j,k))`. -/
def accStepS (i j k jj : ℤ) (s : ℝ × ℝ) : ℝ × ℝ :=
  let phi1 := I.dp * ((jj - 1 : ℤ) : ℝ) - 0.5 * π
  let qe := rd3 I.jmax I.pv i jj k - rd2 I.nd I.qref j k
  let aa := I.a * I.dp * cos phi1
  let s1 := if qe ≤ 0 ∧ jj ≥ j then (s.1 - qe * aa, s.2) else s
  if qe > 0 ∧ jj < j then (s1.1, s1.2 + qe * aa) else s1

/-- Lines 50-82. -/
def accS (i j k : ℤ) : ℝ × ℝ := doLoop 1 I.nd (I.accStepS i j k) (0, 0)

/-- Body of the loop over `j`. -/
def cellStepS (k i j : ℤ) (s : LwaOnlyOut) : LwaOnlyOut :=
  { s with
    astar1 := wr3 I.nd s.astar1 i j k (I.accS i j k).1
    astar2 := wr3 I.nd s.astar2 i j k (I.accS i j k).2 }

/-- Lines 93-94 and 101-103: the array assignments of `astarbaro(:,:)` and `ubaro(:,j)`. -/
def baroStepS (k : ℤ) (s : LwaOnlyOut) : LwaOnlyOut :=
  let zk := I.dz * ((k - 1 : ℤ) : ℝ)
  let dc := I.dz / I.prefac
  let s1 := { s with
    astarbaro := fun i j => s.astarbaro i j + (s.astar1 i j k + s.astar2 i j k) * exp (-zk / I.h) * dc }
  doLoop 2 (I.nd - I.jb)
    (fun j s => { s with
      ubaro := fun i j' =>
        if j' = j then s.ubaro i j + rd3 I.jmax I.uu i j k * exp (-zk / I.h) * dc else s.ubaro i j' }) s1

/-- `compute_lwa_only_nhn22` with `is_nhem = .false.`, lines 33-105. -/
def lwaOnlySouth : LwaOnlyOut :=
  doLoop 2 (I.kmax - 1)
    (fun k s => I.baroStepS k (doLoop 1 I.imax (fun i => doLoop 2 (I.nd - I.jb) (I.cellStepS k i)) s))
    ⟨fun _ _ => 0, fun _ _ => 0, fun _ _ _ => 0, fun _ _ _ => 0⟩

end LwaIn

end Falwa
