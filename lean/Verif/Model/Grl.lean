import Verif.Model.Fortran
import Mathlib.Analysis.SpecialFunctions.Trigonometric.Basic

/-!
# The budget figures of `scripts/nhn_grl2022/graph_plot_module.py`

`plot_figure3_and_S1`, `plot_figure4` and `plot_figure5` read column-mean wave activity and flux terms of a month from a file,
smooth them in longitude and form budgets. The model covers the arrays that are drawn, not the drawing. Numbers that the script
writes as literals (360 longitudes, time slots 76 to 100, row 49, step 6 h, width of the smoothing) are parameters. Indices are
integers from 0. Reading `np.array(variables[...])` is the identity: the fields of the structure are the numbers that the script
gets. Rows of an array that a statement assigns as a whole are modelled element by element.
-/

noncomputable section

namespace Falwa

open Real

/-- What the figures read. -/
structure Grl where
  /-- number of longitudes, 360 -/
  nlon : ℤ
  /-- first time slot of the window, 76 -/
  m0 : ℤ
  /-- last time slot of the window, 100 -/
  m1 : ℤ
  /-- `dt` -/
  dt : ℝ
  /-- `a` -/
  a : ℝ
  /-- `dl` -/
  dl : ℝ
  /-- `dp` -/
  dp : ℝ
  /-- `lwa` -/
  lwa : ℤ → ℤ → ℤ → ℝ
  /-- `ua1` -/
  ua1 : ℤ → ℤ → ℤ → ℝ
  /-- `ua2` -/
  ua2 : ℤ → ℤ → ℤ → ℝ
  /-- `ep1` -/
  ep1 : ℤ → ℤ → ℤ → ℝ
  /-- `ep2` -/
  ep2 : ℤ → ℤ → ℤ → ℝ
  /-- `ep3` -/
  ep3 : ℤ → ℤ → ℤ → ℝ
  /-- `ep4` -/
  ep4 : ℤ → ℤ → ℤ → ℝ

namespace Grl

variable (I : Grl)

/-- `np.roll(x, s)[i]`. -/
def roll (x : ℤ → ℝ) (s i : ℤ) : ℝ := x ((i - s) % I.nlon)

/-- The smoothing in longitude, e.g. lines 282-293 and 397-415, 742-754, 844-846, 916-924. -/
def smooth (n : ℤ) (x : ℤ → ℝ) (i : ℤ) : ℝ := dosum (-n) n (fun nn => I.roll x nn i / ((2 * n + 1 : ℤ) : ℝ))

/-! ### Figure 3 -/

/-- Line 278. -/
def change (j i : ℤ) : ℝ := I.lwa I.m1 j i - I.lwa I.m0 j i

/-- Line 364. -/
def const3 (j : ℤ) : ℝ := 0.5 * I.dt / (2 * I.a * cos (I.dp * j) * I.dl)

/-- Right-hand sides of lines 373-389: columns `p` and `q` at time `m`. -/
def across (m j p q : ℤ) : ℝ :=
  I.ua1 m j p + I.ua2 m j p + I.ep1 m j p - I.ua1 m j q - I.ua2 m j q - I.ep1 m j q

/-- `z1`, lines 350-391; rows from `jpole` (90) on are not treated. -/
def z1 (jpole j i : ℤ) : ℝ :=
  doLoop I.m0 (I.m1 - 1) (fun m s =>
    if j < jpole then
      if i = 0 then s - I.const3 j * I.across m j 1 (I.nlon - 1) - I.const3 j * I.across (m + 1) j 1 (I.nlon - 1)
      else if i = I.nlon - 1 then
        s - I.const3 j * I.across m j 0 (I.nlon - 2) - I.const3 j * I.across (m + 1) j 0 (I.nlon - 2)
      else s - I.const3 j * I.across m j (i + 1) (i - 1) - I.const3 j * I.across (m + 1) j (i + 1) (i - 1)
    else s) 0

/-- `z2`, lines 350-391. -/
def z2 (jpole j i : ℤ) : ℝ :=
  doLoop I.m0 (I.m1 - 1) (fun m s =>
    if j < jpole then s + I.const3 j * (I.ep2 m j i - I.ep3 m j i) + I.const3 j * (I.ep2 (m + 1) j i - I.ep3 (m + 1) j i)
    else s) 0

/-- `z3`, lines 355-356. -/
def z3 (j i : ℤ) : ℝ :=
  doLoop I.m0 (I.m1 - 1) (fun m s => s + 0.5 * I.dt * I.ep4 m j i + 0.5 * I.dt * I.ep4 (m + 1) j i) 0

/-- The residual that is drawn, line 522 (`zs - z1s - z2s - z3s`). -/
def residual3 (jpole n j i : ℤ) : ℝ :=
  I.smooth n (I.change j) i - I.smooth n (I.z1 jpole j) i - I.smooth n (I.z2 jpole j) i - I.smooth n (I.z3 j) i

/-! ### Figure 4 -/

/-- Lines 667-673. -/
def cos0 (jm jp : ℤ) : ℝ := dosum jm jp (fun j => cos (I.dp * j))

/-- `z` of figure 4, lines 665-675; `mmax` is 120. -/
def tend4 (mmax jm jp m i : ℤ) : ℝ :=
  if 1 ≤ m ∧ m < mmax then
    dosum jm jp (fun j => cos (I.dp * j) * (I.lwa (m + 1) j i - I.lwa (m - 1) j i) / (2 * I.dt)) / I.cos0 jm jp
  else 0

/-- `z1` of figure 4, lines 693-703. -/
def z1Four (jm jp m i : ℤ) : ℝ :=
  if 1 ≤ i ∧ i < I.nlon - 1 then
    dosum jm jp (fun j => -(1 / (2 * I.a * I.dl) * I.across m j (i + 1) (i - 1))) / I.cos0 jm jp
  else 0

/-- `z2` of figure 4, lines 705-715. -/
def z2Four (jm jp m i : ℤ) : ℝ :=
  dosum jm jp (fun j => 1 / (2 * I.a * I.dl) * (I.ep2 m j i - I.ep3 m j i)) / I.cos0 jm jp

/-- `z3` of figure 4, lines 705-716. -/
def z3Four (jm jp m i : ℤ) : ℝ := dosum jm jp (fun j => cos (I.dp * j) * I.ep4 m j i) / I.cos0 jm jp

/-- `z4`, line 756. -/
def residual4 (mmax n jm jp m i : ℤ) : ℝ :=
  I.smooth n (I.tend4 mmax jm jp m) i - I.smooth n (I.z1Four jm jp m) i - I.smooth n (I.z2Four jm jp m) i -
    I.smooth n (I.z3Four jm jp m) i

/-! ### Figure 5 -/

/-- `zs`, lines 832-846, for row `r` (49). -/
def zs (n r m i : ℤ) : ℝ := I.smooth n (I.lwa m r) i

/-- `f1`, line 885. -/
def flux (r m i : ℤ) : ℝ := I.ua1 m r i + I.ua2 m r i + I.ep1 m r i

/-- `const`, lines 888 and 951. -/
def const5 (r : ℤ) : ℝ := 1 / (2 * I.a * cos (I.dp * r) * I.dl)

/-- `z1` of figure 5, lines 892-896. -/
def conv (r m i : ℤ) : ℝ :=
  if i = 0 then -I.const5 r * (I.flux r m 1 - I.flux r m (I.nlon - 1))
  else if i = I.nlon - 1 then -I.const5 r * (I.flux r m 0 - I.flux r m (I.nlon - 2))
  else -I.const5 r * (I.flux r m (i + 1) - I.flux r m (i - 1))

/-- `z1s`, lines 917-918. -/
def z1s (n r m i : ℤ) : ℝ := I.smooth n (I.conv r m) i

/-- `z2s`, lines 889 and 919-920. -/
def z2s (n r m i : ℤ) : ℝ := I.smooth n (fun i => I.const5 r * (I.ep2 m r i - I.ep3 m r i)) i

/-- `z3s`, lines 884 and 921-922. -/
def z3s (n r m i : ℤ) : ℝ := I.smooth n (I.ep4 m r) i

/-- `f1s`, lines 923-924. -/
def f1s (n r m i : ℤ) : ℝ := I.smooth n (I.flux r m) i

/-- The sum in parentheses of lines 941 and 946. -/
def explained (n r m i : ℤ) : ℝ :=
  I.z1s n r m i + I.z1s n r (m + 1) i + I.z2s n r m i + I.z2s n r (m + 1) i + I.z3s n r m i + I.z3s n r (m + 1) i

/-- `cgx`, line 939. -/
def cgx (n r m i : ℤ) : ℝ := (I.f1s n r m i + I.f1s n r (m + 1) i) / (I.zs n r m i + I.zs n r (m + 1) i)

/-- `res`, lines 938 and 940-941. -/
def res (n r m i : ℤ) : ℝ := (I.zs n r (m + 1) i - I.zs n r m i - 0.5 * I.dt * I.explained n r m i) / I.dt

/-- `gama`, line 942. -/
def gama (n r m i : ℤ) : ℝ := 2 * I.res n r m i / (I.zs n r m i + I.zs n r (m + 1) i)

/-- `lwa`, lines 928 and 944-946. -/
def lwaSum (n r i : ℤ) : ℝ :=
  doLoop I.m0 (I.m1 - 1) (fun m s => s + 0.5 * I.dt * I.explained n r m i + I.dt * I.res n r m i) 0

/-- `d0` of lines 961-977 for the columns `p` and `q`. -/
def d0 (n r m p q : ℤ) : ℝ :=
  -I.const5 r * 0.5 * ((I.zs n r m p + I.zs n r (m + 1) p) * I.cgx n r m p -
    (I.zs n r m q + I.zs n r (m + 1) q) * I.cgx n r m q)

/-- Lines 959-981: row `m + 1` of `lwa1` from row `m`. -/
def lwa1Step (n r m : ℤ) (L : ℤ → ℤ → ℝ) : ℤ → ℤ → ℝ := fun t i =>
  if t = m + 1 then
    L m i + I.dt * ((if i = 0 then I.d0 n r m 1 (I.nlon - 1) else if i = I.nlon - 1 then I.d0 n r m 0 (I.nlon - 2)
      else I.d0 n r m (i + 1) (i - 1)) + 0.5 * (I.z2s n r (m + 1) i + I.z2s n r m i) +
      0.5 * (I.z3s n r (m + 1) i + I.z3s n r m i) + I.gama n r m i * 0.5 * (I.zs n r m i + I.zs n r (m + 1) i))
  else L t i

/-- `lwa1`, lines 953-981. -/
def lwa1 (n r : ℤ) : ℤ → ℤ → ℝ := doLoop I.m0 (I.m1 - 1) (I.lwa1Step n r) (I.zs n r)

end Grl

/-! ### Figure 5: the experiments with modified damping -/

/-- Modified `gama`, lines 985-997: `gama` times `c` (0.7 or 0) where it is positive in the box of times `ta` to `tb` (84 to 92) and
columns `ia` to `ib` (200 to 220), less `gama`. -/
def gamaChange (c : ℝ) (ta tb ia ib : ℤ) (g : ℤ → ℤ → ℝ) (m i : ℤ) : ℝ :=
  (if (ta ≤ m ∧ m ≤ tb) ∧ (ia ≤ i ∧ i ≤ ib) ∧ 0 < g m i then g m i * c else g m i) - g m i

/-- Lines 1008-1016 for `gamap`, `gama1p`, `gama2p` and `cgxp`, `m0` = 76 and `m1` = 100, and lines 1018-1022 for `lwap` with
`half` = 0 and `m0` = 77: `w` (360) fine steps per interval, `half` (180) fine steps of shift, `len` (8640) fine steps in all. -/
def finer (w half len m0 m1 : ℤ) (g : ℤ → ℤ → ℝ) : ℤ → ℤ → ℝ :=
  doLoop m0 m1 (fun m s => doLoop 0 (w - 1) (fun i s =>
    if 0 ≤ (m - m0) * w + i - half then
      if (m - m0) * w + i - half < len then
        fun t x => if t = (m - m0) * w + i - half then g m x * ((i : ℝ) / w) + g (m - 1) x * (1 - (i : ℝ) / w) else s t x
      else s
    else s) s) (fun _ _ => 0)

/-- What the integration of lines 1024-1089 reads. -/
structure Leap where
  /-- number of longitudes, 360 -/
  nlon : ℤ
  /-- `dt`, 60 -/
  dt : ℝ
  /-- `a` -/
  a : ℝ
  /-- `dl` -/
  dl : ℝ
  /-- `phi`, 49 degrees -/
  phi : ℝ
  /-- `al`, 0 -/
  al : ℝ
  /-- `diff`, 200000 -/
  diff : ℝ
  /-- `cgxp` -/
  cgxp : ℤ → ℤ → ℝ
  /-- `gamap` -/
  gamap : ℤ → ℤ → ℝ
  /-- `gama1p` -/
  gama1p : ℤ → ℤ → ℝ
  /-- `gama2p` -/
  gama2p : ℤ → ℤ → ℝ
  /-- `lwap` -/
  lwap : ℤ → ℤ → ℝ

namespace Leap

variable (L : Leap)

/-- `const`, line 1029. -/
def const : ℝ := 1 / (2 * L.a * cos L.phi * L.dl)

/-- `d1 + d2 + d3 + d4 + d5` of column `i` with the columns `p` and `q` on its two sides, lines 1037-1043 and the other five places;
`g` is `gama1p` or `gama2p`. -/
def rate (g D : ℤ → ℤ → ℝ) (m i p q : ℤ) : ℝ :=
  -L.const * (D m p * (L.cgxp m p - L.al * (D m p + L.lwap m p)) - D m q * (L.cgxp m q - L.al * (D m q + L.lwap m q))) +
    g m i * D m i + L.gamap m i * D m i + g m i * L.lwap m i +
    L.diff * (D (m - 1) p + D (m - 1) q - 2 * D (m - 1) i) / (L.a * L.a * L.dl * L.dl * cos L.phi * cos L.phi)

/-- New value of `dlwap` (row `m + 1`), lines 1044, 1062 and 1080. -/
def new1 (D : ℤ → ℤ → ℝ) (m i : ℤ) : ℝ :=
  if i = 0 then D (m - 1) 0 + 2 * L.dt * L.rate L.gama1p D m 0 1 (L.nlon - 1)
  else if i = L.nlon - 1 then D (m - 1) (L.nlon - 1) + 2 * L.dt * L.rate L.gama1p D m (L.nlon - 1) 0 (L.nlon - 2)
  else D (m - 1) i + 2 * L.dt * L.rate L.gama1p D m i (i + 1) (i - 1)

/-- New value of `dlwap2`, lines 1053, 1071 and 1089. Line 1071 (last column) starts from `dlwap`. -/
def new2 (D E : ℤ → ℤ → ℝ) (m i : ℤ) : ℝ :=
  if i = 0 then E (m - 1) 0 + 2 * L.dt * L.rate L.gama2p E m 0 1 (L.nlon - 1)
  else if i = L.nlon - 1 then D (m - 1) (L.nlon - 1) + 2 * L.dt * L.rate L.gama2p E m (L.nlon - 1) 0 (L.nlon - 2)
  else E (m - 1) i + 2 * L.dt * L.rate L.gama2p E m i (i + 1) (i - 1)

/-- Lines 1036-1089: row `m + 1` of both arrays. The order of the columns does not matter, as rows `m` and `m - 1` are read. -/
def step (m : ℤ) (s : (ℤ → ℤ → ℝ) × (ℤ → ℤ → ℝ)) : (ℤ → ℤ → ℝ) × (ℤ → ℤ → ℝ) :=
  (fun t i => if t = m + 1 then L.new1 s.1 m i else s.1 t i, fun t i => if t = m + 1 then L.new2 s.1 s.2 m i else s.2 t i)

/-- `dlwap` and `dlwap2` after `len` (8640), lines 1032-1089. -/
def run (len : ℤ) : (ℤ → ℤ → ℝ) × (ℤ → ℤ → ℝ) := doLoop 1 (len - 1) L.step (fun _ _ => 0, fun _ _ => 0)

end Leap

end Falwa
