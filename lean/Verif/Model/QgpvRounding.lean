import Verif.Model.Qgpv
import Verif.Model.Rounding

/-!
# Absolute vorticity and QGPV with rounding

Sources: `/repo/src/falwa/f90_modules/compute_qgpv_direct_inv.f90` (D) and `/repo/src/falwa/f90_modules/compute_qgpv.f90` (C).

All variables of the routines are `REAL`, so the compiler rounds to single precision. The result of every product, quotient, sum and difference is
passed through a function `fl`. Values of the intrinsic functions at the computed arguments are arguments here: `p` is `acos(-1.)`, `sn j` and `cs j` are
`sin(phi0)` and `cos(phi0)` of row `j`, `ex k` is `exp(-height(k)/hh)`, `ey k` is `exp(height(k)/hh)`. The compiler is assumed to keep the order of
the source and not to fuse products with sums. The arrays handed over are taken as exact.
-/

noncomputable section

namespace Falwa

namespace QgpvIn

variable (I : QgpvIn) (fl : ℝ → ℝ) (p : ℝ) (sn cs ex ey : ℤ → ℝ)

/-- `dphi`, D 21. -/
def flDphi : ℝ := fl (p / ((I.nlat - 1 : ℤ) : ℝ))

/-- `phi0`, D 30 and D 77. -/
def flPhi (j : ℤ) : ℝ := fl (fl (-0.5 * p) + fl (fl (p * ((j - 1 : ℤ) : ℝ)) / ((I.nlat - 1 : ℤ) : ℝ)))

/-- `av1` and `f`, D 35 and D 78. -/
def flCor (j : ℤ) : ℝ := fl (fl (2 * I.om) * sn j)

/-- The denominator of `av2` and `av3`, D 36-37. -/
def flDen (j : ℤ) : ℝ := fl (fl (fl (2 * I.a) * cs j) * I.flDphi fl p)

/-- `av1+av2+av3`, D 34-49. -/
def flInner (i j k : ℤ) : ℝ :=
  fl (fl (I.flCor fl sn j + fl (fl (I.dv i j k) / I.flDen fl p cs j)) +
    fl (-fl (fl (I.u i (j + 1) k * cs (j + 1)) - fl (I.u i (j - 1) k * cs (j - 1))) / I.flDen fl p cs j))

/-- `avs` and `avn`, D 52-57. -/
def flPole (j k : ℤ) : ℝ := doLoop 1 I.nlon (fun i s => fl (s + fl (I.flInner fl p sn cs i j k / (I.nlon : ℝ)))) 0

/-- `avort`, D 28-60. -/
def flAvort (i j k : ℤ) : ℝ :=
  if j = I.nlat then I.flPole fl p sn cs (I.nlat - 1) k else if j = 1 then I.flPole fl p sn cs 2 k else I.flInner fl p sn cs i j k

/-- `altp` and `altm`, D 94-95. -/
def flAlt (t0 stat : ℤ → ℝ) (i j k : ℤ) : ℝ := fl (fl (ex k * fl (I.theta i j k - t0 k)) / stat k)

/-- `exp(height(kk)/hh)*strc`, D 96-97. -/
def flStretch (t0 stat : ℤ → ℝ) (i j k : ℤ) : ℝ :=
  fl (ey k * fl (fl (fl (I.flAlt fl ex t0 stat i j (k + 1) - I.flAlt fl ex t0 stat i j (k - 1)) * I.flCor fl sn j) /
    fl (I.height (k + 1) - I.height (k - 1))))

/-- `pv`, D 75-100. -/
def flPv22 (jd : ℤ) (ts0 tn0 stats statn : ℤ → ℝ) (i j k : ℤ) : ℝ :=
  if 2 ≤ k ∧ k ≤ I.kmax - 1 then
    fl (I.flAvort fl p sn cs i j k +
      (if j ≤ jd then I.flStretch fl sn ex ey ts0 stats i j k else I.flStretch fl sn ex ey tn0 statn i j k))
  else 0

/-- `phi0` of `compute_qgpv`, C 61-62 and C 111-112: in degrees, then converted. -/
def flPhi18 (j : ℤ) : ℝ :=
  fl (fl (fl (-90 + fl (fl (((j - 1 : ℤ) : ℝ) * 180) / ((I.nlat - 1 : ℤ) : ℝ))) * p) / 180)

/-- `zmav`, C 98-105. The absolute vorticity of C 59-94 is computed by the same statements as that of D, apart from the latitude. -/
def flZmav (j k : ℤ) : ℝ := doLoop 1 I.nlon (fun i s => fl (s + fl (I.flAvort fl p sn cs i j k / (I.nlon : ℝ)))) 0

/-- `pv` of `compute_qgpv`, C 109-124. -/
def flPv18 (t0 stat : ℤ → ℝ) (i j k : ℤ) : ℝ :=
  if 2 ≤ k ∧ k ≤ I.kmax - 1 then
    fl (I.flAvort fl p sn cs i j k +
      fl (ey k * fl (fl (fl (I.flAlt fl ex t0 stat i j (k + 1) - I.flAlt fl ex t0 stat i j (k - 1)) * I.flZmav fl p sn cs j k) /
        fl (I.height (k + 1) - I.height (k - 1)))))
  else 0

end QgpvIn

end Falwa

end
