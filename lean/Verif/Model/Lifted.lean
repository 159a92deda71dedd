import Verif.Model.Construct
import Verif.Model.Pipeline

/-!
# Data on an evenly spaced pseudoheight grid that does not start at 1000 hPa

Source: `/repo/src/falwa/oopinterface.py`. With `data_on_evenly_spaced_pseudoheight_grid=True` the heights of the object are those of the
data (lines 110-115) and may start anywhere. They are passed to the QGPV routines (lines 1578, 1753) and used in the column averages
(lines 418, 462). The solvers of the reference state and the flux routine compute heights of their own, which start at 0
(compute_reference_states.f90 line 41, compute_qref_and_fawa_first.f90 line 39, upward_sweep.f90 line 62, compute_flux_dirinv.f90 line 130,
oopinterface.py line 1845); so does the normalisation (line 270).

`Model/Pipeline.lean` has heights that start at 0. Here they start at `base`.
-/

noncomputable section

namespace Falwa

namespace QGArgs

/-- Height of the lowest level, lines 114 and 121. -/
def base (x : QGArgs) : ℝ := x.height 0

end QGArgs

namespace Atmos

variable (A : Atmos) (base : ℝ)

/-- `self.height`, line 114, of evenly spaced levels. -/
def heightFrom (k : ℤ) : ℝ := base + A.height k

/-- Arguments of the QGPV routines, lines 1574-1586 and 1747-1762. -/
def qgpvInFrom : QgpvIn := { A.qgpvIn with height := A.heightFrom base }

/-- `qgpv`. -/
def qgpvFrom : Scheme → ℤ → ℤ → ℤ → ℝ
  | .nh18 => (A.qgpvInFrom base).pv18 A.t0 A.stat
  | .nhn22 => (A.qgpvInFrom base).pv22 A.nd A.ts0 A.tn0 A.statS A.statN

/-- Call of `compute_reference_states` for the north, lines 1609-1617, 1655-1675. -/
def refNFrom : RefIn := { A.refN with pv := A.qgpvFrom base .nh18 }

/-- The call for the south, lines 1624-1631. -/
def refSFrom : RefIn := { A.refS with pv := fun i j k => -A.flip (A.qgpvFrom base .nh18) i j k }

/-- Both calls of the direct solver, lines 1782-1806, 1812-1831. -/
def nhnFrom : Nhn22 := { A.nhn with north := { A.nhnN with pv := A.qgpvFrom base .nhn22 } }

/-- The stored `uref`. -/
def urefFrom : Scheme → ℤ → ℤ → ℝ
  | .nh18 => A.storeRef A.nd (A.refNFrom base).uref (A.refSFrom base).uref
  | .nhn22 => A.storeRef A.jd (A.nhnFrom base).north.uref (A.nhnFrom base).south.uref

/-- The stored `ptref`. -/
def ptrefFrom : Scheme → ℤ → ℤ → ℝ
  | .nh18 => A.storeRef A.nd (A.refNFrom base).tref (A.refSFrom base).tref
  | .nhn22 => A.storeRef A.jd (A.nhnFrom base).north.tref (A.nhnFrom base).south.tref

/-- The stored `qref`, times the Coriolis parameter (data_storage.py lines 170-179). -/
def qrefFrom : Scheme → ℤ → ℤ → ℝ
  | .nh18 => fun g k => A.storeRef A.nd (A.refNFrom base).qref (A.refSFrom base).qref g k * 2 * A.om * Real.sin (A.lat (A.outRow g))
  | .nhn22 => fun g k =>
    A.storeRef A.nd (A.nhnFrom base).north.qrefOut (A.nhnFrom base).south.qrefOut g k * 2 * A.om * Real.sin (A.lat (A.outRow g))

/-- What the flux computation starts from, lines 716-793. -/
def analysisFrom (s : Scheme) : QGAnalysis :=
  { A.analysis s with
    qgpv := A.qgpvFrom base s
    qref := A.qrefFrom base s
    uref := A.urefFrom base s
    ptref := A.ptrefFrom base s
    height := A.heightFrom base }

end Atmos

end Falwa
