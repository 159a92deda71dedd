import Verif.Model.Eqvlat
import Verif.Model.Lwa
import Verif.Model.Barotropic
import Verif.Model.Flux
import Mathlib.Data.Option.NAry

/-!
# Model of the analyses for fields with missing values

Sources: `/repo/src/falwa/basis.py` lines 41-62 (`eqvlat_fawa`) and 176-205 (`lwa`),
`/repo/src/falwa/barotropic_field.py` lines 104-125, `/repo/src/falwa/f90_modules/compute_lwa_only_nhn22.f90` lines 46-84,
`/repo/src/falwa/f90_modules/compute_flux_dirinv.f90` lines 74-116.

Numbers are `Option`s here: `none` is NaN. Arithmetic with NaN gives NaN, also `NaN * 0`; a comparison with NaN is false.
Simplifications: exact arithmetic for the numbers, no infinities. Latitudes and cell areas are numbers.

Trusted descriptions of numpy for arrays that hold NaN: `np.amin` and `np.amax` give NaN; `np.linspace` between NaNs is NaN
throughout; `np.digitize` sees bins that are all NaN as decreasing, and NaN sorts behind all numbers, so it puts numbers into
bin `n` and NaN into bin 0 (with a single bin: numbers into bin 0 and NaN into bin 1).
-/

noncomputable section

namespace Falwa

namespace Gap

/-- A comparison of floating-point numbers, false if one of them is NaN. -/
def less {K : Type*} [LinearOrder K] : Option K → Option K → Bool
  | some x, some y => decide (x < y)
  | _, _ => false

/-- `np.sum` of `n` floating-point numbers. -/
def total {K : Type*} [Field K] (f : ℕ → Option K) : ℕ → Option K
  | 0 => some 0
  | n + 1 => Option.map₂ (· + ·) (total f n) (f n)

section Lwa

variable {K : Type*} [Field K] [LinearOrder K]

/-- `vort_e`, basis.py line 183. -/
def vortE (vort : ℕ → ℕ → Option K) (q : ℕ → Option K) (j r c : ℕ) : Option K :=
  Option.map₂ (· - ·) (vort r c) (q j)

/-- `anticyclonic_mask`, basis.py lines 186-189. -/
def anticyclonicMask (vort : ℕ → ℕ → Option K) (q : ℕ → Option K) (j r c : ℕ) : K :=
  if r < j + 1 then 0 else if less (vortE vort q j r c) (some 0) then -1 else 0

/-- `cyclonic_mask`, basis.py lines 185 and 191. -/
def cyclonicMask (vort : ℕ → ℕ → Option K) (q : ℕ → Option K) (j r c : ℕ) : K :=
  if r < j + 1 then (if less (some 0) (vortE vort q j r c) then 1 else 0) else 0

/-- `return_array[0, j, c]`, basis.py lines 178, 182, 193. -/
def lwaAnticyclonic (nlat : ℕ) (vort : ℕ → ℕ → Option K) (q dmu : ℕ → Option K) (j c : ℕ) : Option K :=
  if j < nlat - 1 then
    total (fun r => Option.map₂ (· * ·)
      (Option.map₂ (· * ·) (vortE vort q j r c) (some (anticyclonicMask vort q j r c))) (dmu r)) nlat
  else some 0

/-- `return_array[1, j, c]`, basis.py lines 178, 182, 194. -/
def lwaCyclonic (nlat : ℕ) (vort : ℕ → ℕ → Option K) (q dmu : ℕ → Option K) (j c : ℕ) : Option K :=
  if j < nlat - 1 then
    total (fun r => Option.map₂ (· * ·)
      (Option.map₂ (· * ·) (vortE vort q j r c) (some (cyclonicMask vort q j r c))) (dmu r)) nlat
  else some 0

/-- `bigsigma[j, c]`, basis.py lines 180, 182, 195-197. -/
def lwaBigsigma (nlat : ℕ) (vort : ℕ → ℕ → Option K) (q dmu : ℕ → Option K) (ncforce : ℕ → ℕ → Option K)
    (j c : ℕ) : Option K :=
  if j < nlat - 1 then
    total (fun r => Option.map₂ (· * ·)
      (Option.map₂ (· * ·) (ncforce r c) (some (anticyclonicMask vort q j r c + cyclonicMask vort q j r c)))
      (dmu r)) nlat
  else some 0

/-- `return_array.sum(axis=0)`, basis.py line 205. -/
def lwaTotal (nlat : ℕ) (vort : ℕ → ℕ → Option K) (q dmu : ℕ → Option K) (j c : ℕ) : Option K :=
  Option.map₂ (· + ·) (lwaAnticyclonic nlat vort q dmu j c) (lwaCyclonic nlat vort q dmu j c)

end Lwa

/-! ### `eqvlat_fawa` -/

/-- A reduction such as `np.amin` that gives NaN if an entry is NaN. -/
def reduce (f : (ℕ → ℕ → ℝ) → ℝ) (nlat nlon : ℕ) (vort : ℕ → ℕ → Option ℝ) : Option ℝ :=
  open Classical in
  if ∀ p ∈ cells nlat nlon, (vort p.1 p.2).isSome then some (f fun r c => (vort r c).getD 0) else none

/-- `np.digitize(x, bins)` for `n` bins that are non-decreasing numbers or all NaN. -/
def digitize (n : ℕ) (bins : ℕ → Option ℝ) (x : Option ℝ) : ℕ :=
  open Classical in
  if ∀ i < n, (bins i).isSome then
    match x with
    | some x => Falwa.digitize n (fun i => (bins i).getD 0) x
    | none => n
  else if n = 1 then (if x.isSome then 0 else 1)
  else (if x.isSome then n else 0)

/-- `np.interp(x, xp, fp)` for sample points that are non-decreasing numbers; the values may be NaN. -/
def npInterp (n : ℕ) (xp : ℕ → ℝ) (fp : ℕ → Option ℝ) (x : ℝ) : Option ℝ :=
  if x < xp 0 then fp 0
  else
    let j := Nat.findGreatest (fun j => xp j ≤ x) (n - 1)
    if j = n - 1 then fp (n - 1)
    else Option.map₂ (fun y0 y1 => y0 + (y1 - y0) / (xp (j + 1) - xp j) * (x - xp j)) (fp j) (fp (j + 1))

/-- The input of `eqvlat_fawa`: as `EqvInput`, with a field that may have missing values. -/
structure Input where
  nlat : ℕ
  nlon : ℕ
  ylat : ℕ → ℝ
  vort : ℕ → ℕ → Option ℝ
  area : ℕ → ℕ → ℝ
  nPoints : ℕ
  radius : ℝ

namespace Input

variable (I : Input)

/-- `vort_bins`, basis.py lines 41-43. -/
def bins (i : ℕ) : Option ℝ :=
  Option.map₂ (fun lo hi => linspace lo hi I.nPoints i)
    (reduce (amin I.nlat I.nlon) I.nlat I.nlon I.vort) (reduce (amax I.nlat I.nlon) I.nlat I.nlon I.vort)

/-- `inds`, basis.py line 47. -/
def ind (p : ℕ × ℕ) : ℕ := digitize I.nPoints I.bins (I.vort p.1 p.2)

/-- `w[np.where(inds == i)].sum()`, basis.py lines 48-50. -/
def binSum (w : ℕ → ℕ → Option ℝ) (i : ℕ) : Option ℝ :=
  open Classical in
  if ∀ p ∈ (cells I.nlat I.nlon).filter (fun p => I.ind p = i), (w p.1 p.2).isSome then
    some (∑ p ∈ (cells I.nlat I.nlon).filter (fun p => I.ind p = i), (w p.1 p.2).getD 0)
  else none

/-- `np.cumsum([0] + [... for i in range(1, n)])[i]`, basis.py lines 48-50. -/
def running (w : ℕ → ℕ → Option ℝ) (i : ℕ) : Option ℝ :=
  total (fun m => if m = 0 then some 0 else I.binSum w m) (i + 1)

/-- `aq`, basis.py line 48. The areas are numbers, so no NaN arises. -/
def aq (i : ℕ) : ℝ := (I.running (fun r c => some (I.area r c)) i).getD 0

/-- `cq`, basis.py lines 49-50. -/
def cq (i : ℕ) : Option ℝ := I.running (fun r c => (I.vort r c).map (fun v => I.area r c * v)) i

/-- `eqv_latitude`, basis.py lines 51-52. -/
def eqvLatitude (i : ℕ) : Option ℝ := arcsinDeg (I.aq i / (2 * Real.pi * I.radius ^ 2) - 1)

/-- Interpolation of a per-bin quantity to `ylat`, basis.py lines 53 and 57. -/
def interpToYlat (fp : ℕ → Option ℝ) : Outcome (ℕ → Option ℝ) :=
  open Classical in
  if I.nlat = 0 ∨ I.nlon = 0 ∨ I.nPoints = 0 then .valueError
  else if ∀ i < I.nPoints, (I.eqvLatitude i).isSome then
    .ok (fun j => npInterp I.nPoints (fun i => (I.eqvLatitude i).getD 0) fp (I.ylat j))
  else .nan

/-- First result of `eqvlat_fawa`, basis.py line 53. -/
def qref : Outcome (ℕ → Option ℝ) := I.interpToYlat I.bins

/-- `qbar`, basis.py line 42. -/
def qbar (j : ℕ) : Option ℝ := (total (fun c => I.vort j c) I.nlon).map (· / I.nlon)

/-- `area.sum(axis=1)[j]`, basis.py line 60. -/
def rowArea (j : ℕ) : ℝ := ∑ c ∈ Finset.range I.nlon, I.area j c

/-- `cbar`, basis.py lines 58-60; `d` counts down from the last row. -/
def cbarFromTop : ℕ → Option ℝ
  | 0 => some 0
  | d + 1 => Option.map₂ (· + ·) (cbarFromTop d)
      (Option.map₂ (fun x y => (1 / 2) * (x * I.rowArea (I.nlat - 1 - d) + y * I.rowArea (I.nlat - 2 - d)))
        (I.qbar (I.nlat - 1 - d)) (I.qbar (I.nlat - 2 - d)))

/-- `cbar[j]`, basis.py lines 58-60. -/
def cbar (j : ℕ) : Option ℝ := if 1 ≤ j ∧ j < I.nlat then I.cbarFromTop (I.nlat - 1 - j) else some 0

/-- Second result of `eqvlat_fawa` with `output_fawa=True`, basis.py lines 56-62;
entry `j` belongs to latitude `j + 1` and there are `nlat - 1` entries. -/
def fawa : Outcome (ℕ → Option ℝ) :=
  (I.interpToYlat I.cq).map fun cref j =>
    Option.map₂ (fun x y => -(x + y) / (2 * Real.pi * I.radius)) (I.cbar (j + 1)) (cref (j + 1))

/-- The same input without missing values. -/
def _root_.Falwa.EqvInput.toGap (E : EqvInput) : Input :=
  ⟨E.nlat, E.nlon, E.ylat, fun r c => some (E.vort r c), E.area, E.nPoints, E.radius⟩

end Input

/-! ### `BarotropicField` -/

/-- The call of `eqvlat_fawa`, barotropic_field.py lines 108-111. -/
def eqvInput (C : BaroConfig) (pv : ℕ → ℕ → Option ℝ) : Input :=
  ⟨C.nlat, C.nlon, C.ylat, pv, C.area, C.nPartitions, C.radius⟩

/-- What `BarotropicField(...).equivalent_latitudes` gives, barotropic_field.py lines 104-112. -/
def equivalentLatitudes (C : BaroConfig) (pv : ℕ → ℕ → Option ℝ) : Outcome (ℕ → Option ℝ) := (eqvInput C pv).qref

/-- What `BarotropicField(...).lwa` gives with `return_partitioned_lwa=False`, barotropic_field.py lines 114-125. -/
def baroLwa (C : BaroConfig) (pv : ℕ → ℕ → Option ℝ) : Outcome (ℕ → ℕ → Option ℝ) :=
  (equivalentLatitudes C pv).map fun q => lwaTotal C.nlat pv q (fun r => some (C.dmu r))

/-! ### The Fortran routines -/

/-- `x .le. 0.`, false for NaN. -/
def notAbove : Option ℝ → Bool
  | some x => decide (x ≤ 0)
  | none => false

/-- One iteration of the inner loop of `compute_lwa_only_nhn22`, lines 60-81, for QGPV `pv` with missing values (the
entry `pv` of `I` is not used) and a reference state of numbers. The state is `(astar1(i,j,k), astar2(i,j,k))`. -/
def accStep (I : LwaIn) (pv : ℤ → ℤ → ℤ → Option ℝ) (i j k jj : ℤ) (s : Option ℝ × Option ℝ) :
    Option ℝ × Option ℝ :=
  let phi1 := I.dp * ((jj - 1 : ℤ) : ℝ)
  let qe := (pv i (wrapJ I.jmax (jj + I.nd - 1)) (wrapK I.jmax (jj + I.nd - 1) k)).map (· - rd2 I.nd I.qref j k)
  let aa := I.a * I.dp * Real.cos phi1
  let s1 := if notAbove qe ∧ jj ≥ j then (s.1, Option.map₂ (fun x q => x - q * aa) s.2 qe) else s
  if less (some 0) qe ∧ jj < j then (Option.map₂ (fun x q => x + q * aa) s1.1 qe, s1.2) else s1

/-- Lines 50-82. -/
def acc (I : LwaIn) (pv : ℤ → ℤ → ℤ → Option ℝ) (i j k : ℤ) : Option ℝ × Option ℝ :=
  doLoop 1 I.nd (accStep I pv i j k) (some 0, some 0)

/-- Accumulators of the inner loop of `compute_flux_dirinv_nshem`, lines 74-77. -/
structure Acc where
  astar1 : Option ℝ
  astar2 : Option ℝ
  nc : Option ℝ
  ua2 : Option ℝ

/-- One iteration of the inner loop of `compute_flux_dirinv_nshem`, lines 86-115, for QGPV `pv` with missing values (the
entry `pv` of `I` is not used); wind, forcing and reference states are numbers. -/
def fluxAccStep (I : FluxIn) (pv : ℤ → ℤ → ℤ → Option ℝ) (i j k jj : ℤ) (s : Acc) : Acc :=
  let qe := (pv i (wrapJ I.jmax (jj + I.nd - 1)) (wrapK I.jmax (jj + I.nd - 1) k)).map (· - rd2 I.nd I.qref j k)
  let nc := rd3 I.jmax I.ncforce i (jj + I.nd - 1) k
  let ue := I.ue i j k jj
  let aa := I.a * I.dp * Real.cos (I.phi jj)
  let ab := I.a * I.dp
  let s1 : Acc :=
    if notAbove qe ∧ jj ≥ j then
      { s with
        astar2 := Option.map₂ (fun x q => x - q * aa) s.astar2 qe
        nc := s.nc.map (· - nc * aa)
        ua2 := Option.map₂ (fun x q => x - q * ue * ab) s.ua2 qe }
    else s
  if less (some 0) qe ∧ jj < j then
    { s1 with
      astar1 := Option.map₂ (fun x q => x + q * aa) s1.astar1 qe
      nc := s1.nc.map (· + nc * aa)
      ua2 := Option.map₂ (fun x q => x + q * ue * ab) s1.ua2 qe }
  else s1

/-- The inner loop, lines 74-77 and 85-116. -/
def fluxAcc (I : FluxIn) (pv : ℤ → ℤ → ℤ → Option ℝ) (i j k : ℤ) : Acc :=
  doLoop 1 I.nd (fluxAccStep I pv i j k) ⟨some 0, some 0, some 0, some 0⟩

end Gap

end Falwa
