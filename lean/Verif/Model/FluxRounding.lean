import Verif.Model.Flux
import Verif.Model.Rounding

/-!
# The wave activity loop of the Fortran routines with rounding

Source: `/repo/src/falwa/f90_modules/compute_lwa_only_nhn22.f90` lines 18-19, 35, 46-94 (`is_nhem = .true.`). The loop for
`astar1` and `astar2` is the same in `compute_flux_dirinv.f90`, lines 24-26 and 84-116.

All reals are declared `REAL`, and `f90_modules/meson.build` sets no option that changes their kind, so this is single precision. The
result of every operation is passed through the rounding of the machine. The input arrays are those that reach the routine, after f2py
has converted them. Conversions `float(n)` are exact for grids below 2^24 rows. A compiler may contract `s + x*y` to one fused operation
(gfortran does, where the processor has it), so both ways are modelled.

Arrays are read element by element: `Model/Flux.lean` shows the loops around, and `LwaIn.lwaOnly_eq` that each element is written once.
-/

noncomputable section

namespace Falwa

open Real

/-- Arithmetic of the machine. -/
structure Machine where
  /-- rounding after `+ - * /` -/
  fl : ℝ → ℝ
  /-- `cos` of the run-time library -/
  cosFl : ℝ → ℝ
  /-- `exp` of the run-time library -/
  expFl : ℝ → ℝ
  /-- `acos(-1.)`, line 18 -/
  piFl : ℝ
  /-- whether `s + x*y` is one operation -/
  fma : Bool

namespace Machine

variable (m : Machine)

/-- `s + x*y`. -/
def mulAdd (s x y : ℝ) : ℝ := if m.fma then m.fl (s + x * y) else m.fl (s + m.fl (x * y))

/-- `s - x*y`. -/
def mulSub (s x y : ℝ) : ℝ := if m.fma then m.fl (s - x * y) else m.fl (s - m.fl (x * y))

/-- Relative error at most `u` in every operation and library function. -/
structure Standard (u : ℝ) : Prop where
  nonneg : 0 ≤ u
  small : u < 1
  rel : RelativeError u m.fl
  cosRel : ∀ x, |m.cosFl x - cos x| ≤ u * |cos x|
  expRel : ∀ x, |m.expFl x - exp x| ≤ u * exp x
  piRel : |m.piFl - π| ≤ u * π

/-- IEEE single precision, rounding to nearest, correctly rounded library functions, unlimited exponent. -/
def single (fma : Bool) : Machine where
  fl := roundBits 23
  cosFl := fun x => roundBits 23 (cos x)
  expFl := fun x => roundBits 23 (exp x)
  piFl := roundBits 23 π
  fma := fma

/-- Exact arithmetic. -/
def exact (fma : Bool) : Machine where
  fl := id
  cosFl := cos
  expFl := exp
  piFl := π
  fma := fma

end Machine

namespace LwaIn

variable (I : LwaIn) (m : Machine)

/-- Line 19. -/
def dpFl : ℝ := m.fl (m.piFl / ((I.jmax - 1 : ℤ) : ℝ))

/-- Line 61. -/
def phiFl (jj : ℤ) : ℝ := m.fl (I.dpFl m * ((jj - 1 : ℤ) : ℝ))

/-- Line 67. -/
def aaFl (jj : ℤ) : ℝ := m.fl (m.fl (I.a * I.dpFl m) * m.cosFl (I.phiFl m jj))

/-- Line 62, before rounding. -/
def qeEx (i j k jj : ℤ) : ℝ := rd3 I.jmax I.pv i (jj + I.nd - 1) k - rd2 I.nd I.qref j k

/-- Line 62. -/
def qeFl (i j k jj : ℤ) : ℝ := m.fl (I.qeEx i j k jj)

/-- Lines 68-81. -/
def accStepFl (i j k jj : ℤ) (s : ℝ × ℝ) : ℝ × ℝ :=
  let qe := I.qeFl m i j k jj
  let s1 := if qe ≤ 0 ∧ jj ≥ j then (s.1, m.mulSub s.2 qe (I.aaFl m jj)) else s
  if qe > 0 ∧ jj < j then (m.mulAdd s1.1 qe (I.aaFl m jj), s1.2) else s1

/-- Lines 50-82: `astar1(i,j,k)` and `astar2(i,j,k)`. -/
def accFl (i j k : ℤ) : ℝ × ℝ := doLoop 1 I.nd (I.accStepFl m i j k) (0, 0)

/-- The sum of both parts: line 93, and `lwa` after `compute_layerwise_lwa_fluxes` (oopinterface.py lines 1150-1152). -/
def lwaFl (i j k : ℤ) : ℝ := m.fl ((I.accFl m i j k).1 + (I.accFl m i j k).2)

/-- Lines 47, 93-94: the contribution of one level to `astarbaro(i,j)`. -/
def columnStepFl (i j k : ℤ) (s : ℝ) : ℝ :=
  m.mulAdd s (m.fl (I.lwaFl m i j k * m.expFl (m.fl (m.fl (-(m.fl (I.dz * ((k - 1 : ℤ) : ℝ)))) / I.h)))) (m.fl (I.dz / I.prefac))

/-- Lines 33, 46, 93-94: `astarbaro(i,j)`. -/
def columnFl (i j : ℤ) : ℝ := doLoop 2 (I.kmax - 1) (I.columnStepFl m i j) 0

end LwaIn

end Falwa
