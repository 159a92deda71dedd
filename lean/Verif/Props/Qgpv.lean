import Verif.Model.Pipeline
import Verif.Lemmas.Fortran
import Verif.Lemmas.Rotate
import Verif.Lemmas.Telescope
import Mathlib.Analysis.SpecialFunctions.Trigonometric.Basic
import Mathlib.Algebra.BigOperators.Field
import Mathlib.Tactic.FieldSimp
import Mathlib.Tactic.NormNum
import Mathlib.Tactic.Ring

/-!
# Absolute vorticity and QGPV of the analysis (C80 – C82)

`A.avort` and `A.qgpv` are the arrays `interpolated_avort` and `qgpv` of a `QGField` after `interpolate_fields`; `A.u`, `A.v`,
`A.theta` are the interpolated fields. Longitudes `1 … nlon`, rows `1 … nlat` from south to north, levels `1 … kmax`.
-/

set_option linter.unusedSectionVars false

noncomputable section

namespace Falwa

open Real Finset

/-! ### Specification -/

namespace Spec

/-- Eastern neighbour on a circle of `n` points numbered from 1. -/
def eastOf (n i : ℤ) : ℤ := if i = n then 1 else i + 1

/-- Western neighbour. -/
def westOf (n i : ℤ) : ℤ := if i = 1 then n else i - 1

/-- Latitude of row `j` of `n` rows that are evenly spaced from pole to pole. -/
def latitude (n j : ℤ) : ℝ := -(π / 2) + π / ((n - 1 : ℤ) : ℝ) * ((j - 1 : ℤ) : ℝ)

/-- Zonal derivative on the sphere, centred, with the spacing `dlambda`: `(v(i+1) - v(i-1)) / (2 a cos φ dλ)`. -/
def zonalDerivative (nlon : ℤ) (a phi dlambda : ℝ) (v : ℤ → ℝ) (i : ℤ) : ℝ :=
  (v (eastOf nlon i) - v (westOf nlon i)) / (2 * a * cos phi * dlambda)

/-- `1 / (a cos φ) ∂(u cos φ)/∂φ`, centred, with the spacing `dphi`; `c` is the cosine of each row. -/
def meridionalDerivative (a dphi : ℝ) (c u : ℤ → ℝ) (j : ℤ) : ℝ :=
  (u (j + 1) * c (j + 1) - u (j - 1) * c (j - 1)) / (2 * a * c j * dphi)

/-- Absolute vorticity `f + 1/(a cos φ) (∂v/∂λ - ∂(u cos φ)/∂φ)` on a grid of `nlon × nlat` points. -/
def absoluteVorticity (nlon nlat : ℤ) (a om : ℝ) (u v : ℤ → ℤ → ℝ) (i j : ℤ) : ℝ :=
  2 * om * sin (latitude nlat j) +
    zonalDerivative nlon a (latitude nlat j) (2 * π / (nlon : ℝ)) (fun i => v i j) i -
      meridionalDerivative a (π / ((nlat - 1 : ℤ) : ℝ)) (fun j => cos (latitude nlat j)) (fun j => u i j) j

/-- Zonal mean. -/
def circleMean (n : ℤ) (f : ℤ → ℝ) : ℝ := (∑ i ∈ Icc 1 n, f i) / (n : ℝ)

/-- `f exp(z/H) ∂/∂z (exp(-z/H) (θ - θ₀) / (dθ₀/dz))`, centred, on levels `z = (k - 1) dz`. -/
def stretching (f H dz : ℝ) (theta theta0 stat : ℤ → ℝ) (k : ℤ) : ℝ :=
  f * exp (((k - 1 : ℤ) : ℝ) * dz / H) *
    ((exp (-(((k : ℤ) : ℝ) * dz) / H) * ((theta (k + 1) - theta0 (k + 1)) / stat (k + 1)) -
      exp (-(((k - 2 : ℤ) : ℝ) * dz) / H) * ((theta (k - 1) - theta0 (k - 1)) / stat (k - 1))) / (2 * dz))

end Spec

open Spec

namespace Atmos

variable (A : Atmos)

theorem phi_eq (j : ℤ) : A.qgpvIn.phi j = latitude A.nlat j := by
  unfold QgpvIn.phi latitude
  show -(0.5 * π) + π * ((j - 1 : ℤ) : ℝ) / ((A.nlat - 1 : ℤ) : ℝ) = _
  ring

theorem dv_eq (hn : 2 ≤ A.nlon) (i j k : ℤ) :
    A.qgpvIn.dv i j k = A.v (eastOf A.nlon i) j k - A.v (westOf A.nlon i) j k := by
  unfold QgpvIn.dv eastOf westOf
  show (if i = A.nlon then A.v 1 j k - A.v (A.nlon - 1) j k
    else if i = 1 then A.v 2 j k - A.v A.nlon j k else A.v (i + 1) j k - A.v (i - 1) j k) = _
  by_cases h1 : i = A.nlon
  · rw [if_pos h1, if_pos h1, if_neg (by omega), h1]
  · rw [if_neg h1, if_neg h1]
    by_cases h2 : i = 1
    · rw [if_pos h2, if_pos h2, h2]; rfl
    · rw [if_neg h2, if_neg h2]

theorem avort_inner {j : ℤ} (h1 : 2 ≤ j) (h2 : j ≤ A.nlat - 1) (i k : ℤ) : A.avort i j k = A.qgpvIn.inner i j k := by
  show (if j = A.nlat then _ else if j = 1 then _ else _) = _
  rw [if_neg (by omega), if_neg (by omega)]

/-- Absolute vorticity, with the spacing that the routine uses for both derivatives. -/
theorem avort_value (hn : 2 ≤ A.nlon) (i : ℤ) {j : ℤ} (h1 : 2 ≤ j) (h2 : j ≤ A.nlat - 1) (k : ℤ) :
    A.avort i j k = 2 * A.om * sin (latitude A.nlat j) +
      zonalDerivative A.nlon A.a (latitude A.nlat j) (π / ((A.nlat - 1 : ℤ) : ℝ)) (fun i => A.v i j k) i -
        meridionalDerivative A.a (π / ((A.nlat - 1 : ℤ) : ℝ)) (fun j => cos (latitude A.nlat j)) (fun j => A.u i j k) j := by
  rw [A.avort_inner h1 h2]
  unfold QgpvIn.inner QgpvIn.cor QgpvIn.dphi zonalDerivative meridionalDerivative
  rw [A.dv_eq hn]
  simp only [A.phi_eq]
  show 2 * A.om * _ + _ / (2 * A.a * _ * (π / ((A.nlat - 1 : ℤ) : ℝ))) +
    -(A.u i (j + 1) k * _ - A.u i (j - 1) k * _) / (2 * A.a * _ * (π / ((A.nlat - 1 : ℤ) : ℝ))) = _
  ring

/-! ### C80 -/

/-- A small atmosphere: 4 longitudes, 5 rows, wind `v = 1` at the first longitude. -/
def tiny : Atmos where
  nlon := 4
  nlatIn := 5
  nlat := 5
  kmax := 4
  jb := 0
  npart := 5
  maxits := 10
  nhOnly := false
  uField := fun _ _ _ => 0
  vField := fun i _ _ => if i = 1 then 1 else 0
  tField := fun _ _ _ => 0
  ncforce := fun _ _ _ => 0
  zlev := fun _ => 0
  latInterp := fun f => f
  vertInterp := fun f => f
  t0Of := fun _ _ => 0
  statOf := fun _ _ => 1
  a := 1
  om := 0
  dz := 1
  h := 1
  rr := 1
  cp := 1
  eps := 1
  rjac := 0
  unsetN := fun _ _ => 0
  unsetS := fun _ _ => 0
  inv := fun M => M

/-- C80: between the poles the absolute vorticity is the Coriolis parameter plus the centred-difference curl of the wind, each
derivative with the spacing of its own coordinate. -/
def C80_Statement : Prop :=
  ∀ A : Atmos, 2 ≤ A.nlon → 3 ≤ A.nlat → 0 < A.a → ∀ i j k, 1 ≤ i → i ≤ A.nlon → 2 ≤ j → j ≤ A.nlat - 1 →
    A.avort i j k = absoluteVorticity A.nlon A.nlat A.a A.om (fun i j => A.u i j k) (fun i j => A.v i j k) i j

/-- C80, what holds: the zonal derivative comes out multiplied by `dλ / dφ = 2 (nlat - 1) / nlon`; it is right exactly on grids
with the same spacing in both directions. -/
theorem C80_vorticity_partial (A : Atmos) (hn : 2 ≤ A.nlon) (hl : 3 ≤ A.nlat) (i j k : ℤ)
    (h1 : 2 ≤ j) (h2 : j ≤ A.nlat - 1) :
    A.avort i j k = absoluteVorticity A.nlon A.nlat A.a A.om (fun i j => A.u i j k) (fun i j => A.v i j k) i j +
        (2 * ((A.nlat - 1 : ℤ) : ℝ) / (A.nlon : ℝ) - 1) *
          zonalDerivative A.nlon A.a (latitude A.nlat j) (2 * π / (A.nlon : ℝ)) (fun i => A.v i j k) i ∧
    (A.nlon = 2 * (A.nlat - 1) →
      A.avort i j k = absoluteVorticity A.nlon A.nlat A.a A.om (fun i j => A.u i j k) (fun i j => A.v i j k) i j) := by
  have hN : (0 : ℝ) < (A.nlon : ℝ) := by exact_mod_cast (by omega : (0 : ℤ) < A.nlon)
  have hL : (0 : ℝ) < ((A.nlat - 1 : ℤ) : ℝ) := by exact_mod_cast (by omega : (0 : ℤ) < A.nlat - 1)
  have key : A.avort i j k =
      absoluteVorticity A.nlon A.nlat A.a A.om (fun i j => A.u i j k) (fun i j => A.v i j k) i j +
        (2 * ((A.nlat - 1 : ℤ) : ℝ) / (A.nlon : ℝ) - 1) *
          zonalDerivative A.nlon A.a (latitude A.nlat j) (2 * π / (A.nlon : ℝ)) (fun i => A.v i j k) i := by
    rw [A.avort_value hn i h1 h2]
    unfold absoluteVorticity
    have e : zonalDerivative A.nlon A.a (latitude A.nlat j) (π / ((A.nlat - 1 : ℤ) : ℝ)) (fun i => A.v i j k) i =
        2 * ((A.nlat - 1 : ℤ) : ℝ) / (A.nlon : ℝ) *
          zonalDerivative A.nlon A.a (latitude A.nlat j) (2 * π / (A.nlon : ℝ)) (fun i => A.v i j k) i := by
      unfold zonalDerivative
      generalize A.v (eastOf A.nlon i) j k - A.v (westOf A.nlon i) j k = x
      generalize cos (latitude A.nlat j) = c
      by_cases hd : A.a * c = 0
      · rw [show 2 * A.a * c * (π / ((A.nlat - 1 : ℤ) : ℝ)) = 2 * (π / ((A.nlat - 1 : ℤ) : ℝ)) * (A.a * c) by ring,
          show 2 * A.a * c * (2 * π / (A.nlon : ℝ)) = 2 * (2 * π / (A.nlon : ℝ)) * (A.a * c) by ring, hd]
        simp
      · have ha : A.a ≠ 0 := fun h => hd (by rw [h, zero_mul])
        have hc : c ≠ 0 := fun h => hd (by rw [h, mul_zero])
        have := pi_pos.ne'
        field_simp
    rw [e]
    ring
  refine ⟨key, fun h => ?_⟩
  rw [key, h]
  have : (2 * ((A.nlat - 1 : ℤ) : ℝ) / ((2 * (A.nlat - 1) : ℤ) : ℝ) - 1) = 0 := by
    rw [show ((2 * (A.nlat - 1) : ℤ) : ℝ) = 2 * ((A.nlat - 1 : ℤ) : ℝ) by push_cast; ring, div_self (by positivity), sub_self]
  rw [this, zero_mul, add_zero]

example : (2 : ℤ) ≤ tiny.nlon ∧ (3 : ℤ) ≤ tiny.nlat ∧ (3 : ℤ) ≤ tiny.nlat - 1 ∧
    zonalDerivative 4 1 (latitude 5 3) (2 * π / 4) (fun i => tiny.v i 3 2) 2 ≠ 0 := by
  refine ⟨by decide, by decide, by decide, ?_⟩
  have hl : latitude 5 3 = 0 := by unfold latitude; push_cast; ring
  rw [hl]
  unfold zonalDerivative eastOf westOf
  norm_num [tiny, Atmos.v, Atmos.v0, pi_pos.ne']

/-- C80 fails for 4 longitudes and 5 rows: the zonal derivative comes out twice as large. -/
theorem C80_refuted : ¬ C80_Statement := by
  intro h
  have h0 := h tiny (by decide) (by decide) (by norm_num [tiny]) 2 3 2 (by decide) (by decide) (by decide) (by decide)
  rw [(C80_vorticity_partial tiny (by decide) (by decide) 2 3 2 (by decide) (by decide)).1] at h0
  have hl : latitude 5 3 = 0 := by unfold latitude; push_cast; ring
  have e : zonalDerivative tiny.nlon tiny.a (latitude tiny.nlat 3) (2 * π / (tiny.nlon : ℝ)) (fun i => tiny.v i 3 2) 2 ≠ 0 := by
    show zonalDerivative 4 1 (latitude 5 3) (2 * π / ((4 : ℤ) : ℝ)) (fun i => tiny.v i 3 2) 2 ≠ 0
    rw [hl]
    unfold zonalDerivative eastOf westOf
    norm_num [tiny, Atmos.v, Atmos.v0, pi_pos.ne']
  have e2 : (2 * ((tiny.nlat - 1 : ℤ) : ℝ) / (tiny.nlon : ℝ) - 1) = 1 := by norm_num [tiny]
  rw [e2, one_mul] at h0
  exact e (by linarith)

/-! ### C81 -/

/-- Mean profile and stability that belong to row `j`: NH18 uses the averages of both hemispheres, NHN22 the profile of the
hemisphere (the equator counts as southern). -/
def profile (s : Scheme) (j : ℤ) : ℤ → ℝ :=
  match s with | .nh18 => A.t0 | .nhn22 => if j ≤ A.nd then A.ts0 else A.tn0

/-- Its derivative. -/
def stability (s : Scheme) (j : ℤ) : ℤ → ℝ :=
  match s with | .nh18 => A.stat | .nhn22 => if j ≤ A.nd then A.statS else A.statN

/-- C81: between the lowest and the highest level QGPV is the absolute vorticity plus the stretching term with the Coriolis
parameter, for both classes. -/
def C81_Statement : Prop :=
  ∀ (A : Atmos) (s : Scheme), 2 ≤ A.nlon → 3 ≤ A.nlat → 0 < A.dz → ∀ i j k, 1 ≤ i → i ≤ A.nlon → 1 ≤ j → j ≤ A.nlat →
    2 ≤ k → k ≤ A.kmax - 1 →
      A.qgpv s i j k = A.avort i j k +
        stretching (2 * A.om * sin (latitude A.nlat j)) A.h A.dz (fun k => A.theta i j k) (A.profile s j) (A.stability s j) k

theorem stretch_eq (t0 stat : ℤ → ℝ) (c : ℝ) (i j k : ℤ) :
    A.qgpvIn.stretch t0 stat c i j k = stretching c A.h A.dz (fun k => A.theta i j k) t0 stat k := by
  unfold QgpvIn.stretch QgpvIn.alt stretching
  show exp (A.height k / A.h) * ((exp (-A.height (k + 1) / A.h) * (A.theta i j (k + 1) - t0 (k + 1)) / stat (k + 1) -
    exp (-A.height (k - 1) / A.h) * (A.theta i j (k - 1) - t0 (k - 1)) / stat (k - 1)) * c /
      (A.height (k + 1) - A.height (k - 1))) = _
  have e1 : A.height (k + 1) = ((k : ℤ) : ℝ) * A.dz := by unfold height; rw [add_sub_cancel_right]
  have e2 : A.height (k - 1) = ((k - 2 : ℤ) : ℝ) * A.dz := by unfold height; rw [show k - 1 - 1 = k - 2 by ring]
  rw [e1, e2, show ((k : ℤ) : ℝ) * A.dz - ((k - 2 : ℤ) : ℝ) * A.dz = 2 * A.dz by push_cast; ring]
  unfold height
  ring

/-- C81, what holds on the levels between the lowest and the highest: NHN22 as stated; NH18 with the zonal mean of the absolute
vorticity in place of the Coriolis parameter. The lowest and the highest level are zero in both classes. -/
theorem C81_qgpv_partial (A : Atmos) (i j k : ℤ) :
    (2 ≤ k → k ≤ A.kmax - 1 →
      A.qgpv .nhn22 i j k = A.avort i j k + stretching (2 * A.om * sin (latitude A.nlat j)) A.h A.dz
        (fun k => A.theta i j k) (A.profile .nhn22 j) (A.stability .nhn22 j) k ∧
      A.qgpv .nh18 i j k = A.avort i j k + stretching (circleMean A.nlon (fun i => A.avort i j k)) A.h A.dz
        (fun k => A.theta i j k) (A.profile .nh18 j) (A.stability .nh18 j) k) ∧
    (∀ s, k = 1 ∨ k = A.kmax → A.qgpv s i j k = 0) := by
  refine ⟨fun h1 h2 => ⟨?_, ?_⟩, fun s hk => ?_⟩
  · show (if 2 ≤ k ∧ k ≤ A.kmax - 1 then A.qgpvIn.avort i j k + (if j ≤ A.nd then _ else _) else 0) = _
    rw [if_pos ⟨h1, h2⟩]
    unfold profile stability
    dsimp only
    have hc : A.qgpvIn.cor j = 2 * A.om * sin (latitude A.nlat j) := by
      unfold QgpvIn.cor; rw [A.phi_eq]; rfl
    by_cases hj : j ≤ A.nd
    · rw [if_pos hj, if_pos hj, if_pos hj, A.stretch_eq, hc]; rfl
    · rw [if_neg hj, if_neg hj, if_neg hj, A.stretch_eq, hc]; rfl
  · show (if 2 ≤ k ∧ k ≤ A.kmax - 1 then A.qgpvIn.avort i j k + A.qgpvIn.stretch _ _ (A.qgpvIn.zmean A.qgpvIn.avort j k) i j k
      else 0) = _
    rw [if_pos ⟨h1, h2⟩, A.stretch_eq]
    unfold QgpvIn.zmean
    rw [dosum_eq, ← sum_div]
    rfl
  · cases s
    · show (if 2 ≤ k ∧ k ≤ A.kmax - 1 then _ else _) = _
      rw [if_neg (by omega)]
    · show (if 2 ≤ k ∧ k ≤ A.kmax - 1 then _ else _) = _
      rw [if_neg (by omega)]

example : (2 : ℤ) ≤ 3 ∧ (3 : ℤ) ≤ tiny.kmax - 1 := by decide

/-- A stably stratified atmosphere with a zonal wind on one row and a wave-like temperature anomaly, with zero zonal mean, on the
third level. -/
def tinyWave : Atmos where
  nlon := 4
  nlatIn := 5
  nlat := 5
  kmax := 4
  jb := 0
  npart := 5
  maxits := 10
  nhOnly := false
  uField := fun _ j _ => if j = 4 then 1 else 0
  vField := fun _ _ _ => 0
  tField := fun i _ l => (l : ℝ) + if l = 3 then (if i = 1 then 1 else if i = 2 then -1 else 0) else 0
  ncforce := fun _ _ _ => 0
  zlev := fun _ => 0
  latInterp := fun f => f
  vertInterp := fun f => f
  t0Of := fun f => f
  statOf := fun _ _ => 1
  a := 1
  om := 1
  dz := 1
  h := 1
  rr := 1
  cp := 1
  eps := 1
  rjac := 0
  unsetN := fun _ _ => 0
  unsetS := fun _ _ => 0
  inv := fun M => M

theorem tinyWave_theta (i g l : ℤ) : tinyWave.theta i g l =
    (l : ℝ) + if l = 3 then (if i = 1 then 1 else if i = 2 then -1 else 0) else 0 := by
  show ((l : ℝ) + if l = 3 then (if i = 1 then 1 else if i = 2 then -1 else 0) else 0) * exp (1 / 1 * 0 / 1) = _
  norm_num

theorem tinyWave_rowMean (l g : ℤ) : tinyWave.rowMean l g = (l : ℝ) * tinyWave.clat g := by
  unfold rowMean
  show (∑ i ∈ Icc 1 4, tinyWave.theta i g l * tinyWave.clat g) / ((4 : ℤ) : ℝ) = _
  rw [show (Icc 1 4 : Finset ℤ) = {1, 2, 3, 4} by decide]
  rw [sum_insert (by decide), sum_insert (by decide), sum_insert (by decide), sum_singleton]
  simp only [tinyWave_theta]
  by_cases h : l = 3
  · simp only [h, if_true]; norm_num; ring
  · simp only [h, if_false]; norm_num; ring

theorem tinyWave_csm : 0 < tinyWave.csm := by
  unfold csm
  rw [show tinyWave.jd = 3 by decide, show (Icc 1 3 : Finset ℤ) = {1, 2, 3} by decide]
  rw [sum_insert (by decide), sum_insert (by decide), sum_singleton]
  have h3 : tinyWave.clat 3 = 1 := by
    unfold clat lat
    rw [show ((3 - tinyWave.nd : ℤ) : ℝ) = 0 by rw [show tinyWave.nd = 3 by decide]; norm_num]
    simp
  rw [h3]
  have h1 : 0 ≤ tinyWave.clat 1 := abs_nonneg _
  have h2 : 0 ≤ tinyWave.clat 2 := abs_nonneg _
  linarith

theorem tinyWave_csmN : ∑ g ∈ Icc 3 5, tinyWave.clat g = tinyWave.csm := by
  unfold csm
  rw [show tinyWave.jd = 3 by decide, show (Icc 1 3 : Finset ℤ) = {1, 2, 3} by decide,
    show (Icc 3 5 : Finset ℤ) = {3, 4, 5} by decide]
  rw [sum_insert (by decide), sum_insert (by decide), sum_singleton, sum_insert (by decide), sum_insert (by decide),
    sum_singleton]
  have hn : ∀ g : ℤ, tinyWave.lat g = tinyWave.dphi * (g - 3) := by
    intro g; unfold lat; rw [show tinyWave.nd = 3 by decide]; push_cast; ring
  have e1 : tinyWave.clat 5 = tinyWave.clat 1 := by
    unfold clat; rw [hn, hn, ← cos_neg]; congr 2; push_cast; ring
  have e2 : tinyWave.clat 4 = tinyWave.clat 2 := by
    unfold clat; rw [hn, hn, ← cos_neg]; congr 2; push_cast; ring
  rw [e1, e2]; ring

theorem tinyWave_t0 (k : ℤ) : tinyWave.t0 k = k := by
  have hS : tinyWave.ts0 k = k := by
    show (∑ g ∈ Icc 1 tinyWave.jd, tinyWave.rowMean k g) / tinyWave.csm = _
    simp only [tinyWave_rowMean]
    rw [← mul_sum]
    exact mul_div_cancel_right₀ _ tinyWave_csm.ne'
  have hN : tinyWave.tn0 k = k := by
    show (∑ g ∈ Icc 3 5, tinyWave.rowMean k g) / tinyWave.csm = _
    simp only [tinyWave_rowMean]
    rw [← mul_sum, tinyWave_csmN]
    exact mul_div_cancel_right₀ _ tinyWave_csm.ne'
  unfold t0
  rw [hS, hN]; ring

theorem tinyWave_avort (i k : ℤ) : tinyWave.avort i 3 k < 0 := by
  rw [tinyWave.avort_value (by decide) i (by decide) (by decide)]
  show 2 * 1 * sin (latitude 5 3) + zonalDerivative 4 1 (latitude 5 3) _ (fun i => tinyWave.v i 3 k) i -
    meridionalDerivative 1 (π / ((5 - 1 : ℤ) : ℝ)) (fun j => cos (latitude 5 j)) (fun j => tinyWave.u i j k) 3 < 0
  have hl : latitude 5 3 = 0 := by unfold latitude; push_cast; ring
  have hl4 : latitude 5 4 = π / 4 := by unfold latitude; push_cast; ring
  have hc : (0 : ℝ) < cos (π / 4) := cos_pos_of_mem_Ioo ⟨by linarith [pi_pos], by linarith [pi_pos]⟩
  unfold zonalDerivative meridionalDerivative
  simp only [show (3 : ℤ) + 1 = 4 by decide, show (3 : ℤ) - 1 = 2 by decide, hl, hl4]
  have hu4 : tinyWave.u i 4 k = 1 := rfl
  have hu2 : tinyWave.u i 2 k = 0 := rfl
  have hv : ∀ i, tinyWave.v i 3 k = 0 := fun _ => rfl
  rw [hu4, hu2]
  simp only [hv, sin_zero, cos_zero]
  have : 0 < cos (π / 4) / (2 * (π / 4)) := div_pos hc (by positivity)
  norm_num at this ⊢
  linarith

/-- C81 fails in class NH18: with no rotation effect at the equator the stretching term should vanish there, but the zonal mean
vorticity of the flow multiplies it. -/
theorem C81_refuted : ¬ C81_Statement := by
  intro h
  have h0 := h tinyWave .nh18 (by decide) (by decide) (by norm_num [tinyWave]) 1 3 2 (by decide) (by decide) (by decide)
    (by decide) (by decide) (by decide)
  rw [((C81_qgpv_partial tinyWave 1 3 2).1 (by decide) (by decide)).2] at h0
  have h1 := add_left_cancel h0
  have hl : latitude tinyWave.nlat 3 = 0 := by
    show latitude 5 3 = 0
    unfold latitude; push_cast; ring
  rw [hl, sin_zero, mul_zero] at h1
  unfold stretching circleMean at h1
  rw [zero_mul, zero_mul] at h1
  have hz : (∑ i ∈ Icc 1 tinyWave.nlon, tinyWave.avort i 3 2) / (tinyWave.nlon : ℝ) < 0 := by
    apply div_neg_of_neg_of_pos
    · exact sum_neg (fun i _ => tinyWave_avort i 2) ⟨1, by decide⟩
    · norm_num [tinyWave]
  have ht : ∀ k : ℤ, tinyWave.profile .nh18 3 k = k := tinyWave_t0
  have hs : ∀ k : ℤ, tinyWave.stability .nh18 3 k = 1 := by
    intro k
    show 0.5 * ((1 : ℝ) + 1) = 1
    norm_num
  simp only [ht, hs, tinyWave_theta] at h1
  generalize (∑ i ∈ Icc 1 tinyWave.nlon, tinyWave.avort i 3 2) / (tinyWave.nlon : ℝ) = z at hz h1
  norm_num [hz.ne, tinyWave] at h1

/-! ### C82 -/

theorem cos_latitude_pos {n j : ℤ} (h1 : 2 ≤ j) (h2 : j ≤ n - 1) : 0 < cos (latitude n j) := by
  have hL : (0 : ℝ) < ((n - 1 : ℤ) : ℝ) := by exact_mod_cast (by omega : (0 : ℤ) < n - 1)
  have hj : (0 : ℝ) < ((j - 1 : ℤ) : ℝ) := by exact_mod_cast (by omega : (0 : ℤ) < j - 1)
  have hj2 : ((j - 1 : ℤ) : ℝ) < ((n - 1 : ℤ) : ℝ) := by exact_mod_cast (by omega : j - 1 < n - 1)
  unfold latitude
  have e : π / ((n - 1 : ℤ) : ℝ) * ((j - 1 : ℤ) : ℝ) < π := by
    rw [div_mul_eq_mul_div, div_lt_iff₀ hL]
    exact mul_lt_mul_of_pos_left hj2 pi_pos
  have e2 : 0 < π / ((n - 1 : ℤ) : ℝ) * ((j - 1 : ℤ) : ℝ) := mul_pos (div_pos pi_pos hL) hj
  exact cos_pos_of_mem_Ioo ⟨by linarith, by linarith⟩

/-- Going once around a latitude circle the centred differences cancel. -/
theorem sum_around (n : ℤ) (f : ℤ → ℝ) : ∑ i ∈ Icc 1 n, (f (eastOf n i) - f (westOf n i)) = 0 := by
  rw [sum_sub_distrib]
  have e1 : ∑ i ∈ Icc 1 n, f (eastOf n i) = ∑ i ∈ Icc 1 n, f (rot n 1 i) := by
    refine sum_congr rfl fun i hi => ?_
    rw [mem_Icc] at hi
    congr 1
    unfold eastOf rot
    by_cases h : i = n
    · rw [if_pos h, h, show n - 1 + 1 = n by ring, Int.emod_self]; rfl
    · rw [if_neg h, Int.emod_eq_of_lt (by omega) (by omega)]; ring
  have e2 : ∑ i ∈ Icc 1 n, f (westOf n i) = ∑ i ∈ Icc 1 n, f (rot n (-1) i) := by
    refine sum_congr rfl fun i hi => ?_
    rw [mem_Icc] at hi
    congr 1
    unfold westOf rot
    by_cases h : i = 1
    · rw [if_pos h, h, show (1 : ℤ) - 1 + -1 = (n - 1) + n * (-1) by ring, Int.add_mul_emod_self_left,
        Int.emod_eq_of_lt (by omega) (by omega)]; ring
    · rw [if_neg h, Int.emod_eq_of_lt (by omega) (by omega)]; ring
  rw [e1, e2, sum_rot, sum_rot, sub_self]

theorem mean_relative (hn : 2 ≤ A.nlon) (ha : A.a ≠ 0) (k : ℤ) {j : ℤ} (h1 : 2 ≤ j) (h2 : j ≤ A.nlat - 1) :
    cos (latitude A.nlat j) * (2 * A.a * (π / ((A.nlat - 1 : ℤ) : ℝ))) *
        circleMean A.nlon (fun i => A.avort i j k - 2 * A.om * sin (latitude A.nlat j)) =
      circleMean A.nlon (fun i => A.u i (j - 1) k) * cos (latitude A.nlat (j - 1)) -
        circleMean A.nlon (fun i => A.u i (j + 1) k) * cos (latitude A.nlat (j + 1)) := by
  have hc := (cos_latitude_pos h1 h2).ne'
  have hL : ((A.nlat - 1 : ℤ) : ℝ) ≠ 0 := by exact_mod_cast (by omega : A.nlat - 1 ≠ 0)
  have hp := pi_pos.ne'
  unfold circleMean
  have e : ∑ i ∈ Icc 1 A.nlon, (A.avort i j k - 2 * A.om * sin (latitude A.nlat j)) =
      (∑ i ∈ Icc 1 A.nlon, (A.u i (j - 1) k * cos (latitude A.nlat (j - 1)) -
        A.u i (j + 1) k * cos (latitude A.nlat (j + 1)))) /
          (2 * A.a * cos (latitude A.nlat j) * (π / ((A.nlat - 1 : ℤ) : ℝ))) := by
    have hz := sum_around A.nlon (fun i => A.v i j k)
    have : ∀ i ∈ Icc 1 A.nlon, A.avort i j k - 2 * A.om * sin (latitude A.nlat j) =
        (A.v (eastOf A.nlon i) j k - A.v (westOf A.nlon i) j k) /
          (2 * A.a * cos (latitude A.nlat j) * (π / ((A.nlat - 1 : ℤ) : ℝ))) +
        (A.u i (j - 1) k * cos (latitude A.nlat (j - 1)) - A.u i (j + 1) k * cos (latitude A.nlat (j + 1))) /
          (2 * A.a * cos (latitude A.nlat j) * (π / ((A.nlat - 1 : ℤ) : ℝ))) := by
      intro i _
      rw [A.avort_value hn i h1 h2]
      unfold zonalDerivative meridionalDerivative
      ring
    rw [sum_congr rfl this, sum_add_distrib, ← sum_div, ← sum_div, hz, zero_div, zero_add]
  rw [e, sum_sub_distrib, ← sum_mul, ← sum_mul]
  generalize cos (latitude A.nlat j) = c at hc ⊢
  generalize cos (latitude A.nlat (j - 1)) = c1
  generalize cos (latitude A.nlat (j + 1)) = c2
  have hN : (A.nlon : ℝ) ≠ 0 := by exact_mod_cast (by omega : A.nlon ≠ 0)
  field_simp

/-- C82: in a band of rows the area-weighted sum of the zonal-mean relative vorticity is the difference of the circulations along
its edges (each edge is the mean of two neighbouring rows; the common factor 2 is kept on the left). The meridional wind does not
enter. -/
theorem C82_band_circulation (A : Atmos) (hn : 2 ≤ A.nlon) (ha : A.a ≠ 0) (k j1 : ℤ) (n : ℕ) (h1 : 2 ≤ j1)
    (h2 : j1 + n ≤ A.nlat - 1) :
    ∑ j ∈ Icc j1 (j1 + n), cos (latitude A.nlat j) * (2 * A.a * (π / ((A.nlat - 1 : ℤ) : ℝ))) *
        circleMean A.nlon (fun i => A.avort i j k - 2 * A.om * sin (latitude A.nlat j)) =
      (circleMean A.nlon (fun i => A.u i (j1 - 1) k) * cos (latitude A.nlat (j1 - 1)) +
        circleMean A.nlon (fun i => A.u i j1 k) * cos (latitude A.nlat j1)) -
      (circleMean A.nlon (fun i => A.u i (j1 + n) k) * cos (latitude A.nlat (j1 + n)) +
        circleMean A.nlon (fun i => A.u i (j1 + n + 1) k) * cos (latitude A.nlat (j1 + n + 1))) := by
  have e := sum_telescope2 (fun j => circleMean A.nlon (fun i => A.u i j k) * cos (latitude A.nlat j)) j1 n
  rw [sum_congr rfl (fun j hj => A.mean_relative hn ha k (le_trans h1 (mem_Icc.mp hj).1)
    (le_trans (mem_Icc.mp hj).2 h2)), e]
  ring

example : (2 : ℤ) ≤ tinyWave.nlon ∧ tinyWave.a ≠ 0 ∧ (2 : ℤ) + (2 : ℕ) ≤ tinyWave.nlat - 1 ∧ tinyWave.u 1 4 2 ≠ 0 :=
  ⟨by decide, by norm_num [tinyWave], by decide, by show (1 : ℝ) ≠ 0; norm_num⟩

/-- C82: both pole rows hold the zonal mean of the absolute vorticity of the neighbouring row. -/
theorem C82_pole_rows (A : Atmos) (hl : 4 ≤ A.nlat) (i k : ℤ) :
    A.avort i 1 k = circleMean A.nlon (fun i => A.avort i 2 k) ∧
    A.avort i A.nlat k = circleMean A.nlon (fun i => A.avort i (A.nlat - 1) k) := by
  have e : ∀ j, 2 ≤ j → j ≤ A.nlat - 1 → A.qgpvIn.zmean A.qgpvIn.inner j k = circleMean A.nlon (fun i => A.avort i j k) := by
    intro j h1 h2
    unfold QgpvIn.zmean circleMean
    rw [dosum_eq, ← sum_div]
    simp only [A.avort_inner h1 h2]
    rfl
  constructor
  · rw [← e 2 (by omega) (by omega)]
    show (if (1 : ℤ) = A.nlat then _ else if (1 : ℤ) = 1 then _ else _) = _
    rw [if_neg (by omega), if_pos rfl]
  · rw [← e (A.nlat - 1) (by omega) (by omega)]
    show (if A.nlat = A.nlat then _ else _) = _
    rw [if_pos rfl]; rfl

example : (4 : ℤ) ≤ tinyWave.nlat := by decide

/-- C82: solid-body rotation of the air with the speed `U` at the equator. The relative vorticity is `2 (U/a) sin φ`, times
`sin (2 dφ) / (2 dφ)` for the width of the centred difference. -/
theorem C82_solid_body (A : Atmos) (hn : 2 ≤ A.nlon) (ha : A.a ≠ 0) (U : ℝ) (hu : ∀ i j k, A.u i j k = U * cos (latitude A.nlat j))
    (hv : ∀ i i' j k, A.v i j k = A.v i' j k) (i j k : ℤ) (h1 : 2 ≤ j) (h2 : j ≤ A.nlat - 1) :
    A.avort i j k = 2 * A.om * sin (latitude A.nlat j) + 2 * (U / A.a) * sin (latitude A.nlat j) *
      (sin (2 * (π / ((A.nlat - 1 : ℤ) : ℝ))) / (2 * (π / ((A.nlat - 1 : ℤ) : ℝ)))) := by
  rw [A.avort_value hn i h1 h2]
  have hc := (cos_latitude_pos h1 h2).ne'
  have hL : (0 : ℝ) < ((A.nlat - 1 : ℤ) : ℝ) := by exact_mod_cast (by omega : (0 : ℤ) < A.nlat - 1)
  have hd : π / ((A.nlat - 1 : ℤ) : ℝ) ≠ 0 := (div_pos pi_pos hL).ne'
  have hp : latitude A.nlat (j + 1) = latitude A.nlat j + π / ((A.nlat - 1 : ℤ) : ℝ) := by
    unfold latitude; push_cast; ring
  have hm : latitude A.nlat (j - 1) = latitude A.nlat j - π / ((A.nlat - 1 : ℤ) : ℝ) := by
    unfold latitude; push_cast; ring
  unfold zonalDerivative meridionalDerivative
  simp only [hv (eastOf A.nlon i) (westOf A.nlon i), sub_self, zero_div, add_zero, hu, hp, hm]
  generalize π / ((A.nlat - 1 : ℤ) : ℝ) = d at hd ⊢
  generalize latitude A.nlat j = x at hc ⊢
  rw [cos_add, cos_sub, sin_two_mul]
  have e : U * (cos x * cos d - sin x * sin d) * (cos x * cos d - sin x * sin d) -
      U * (cos x * cos d + sin x * sin d) * (cos x * cos d + sin x * sin d) = -(4 * U * sin x * cos x * sin d * cos d) := by ring
  rw [e]
  generalize sin d = sd
  generalize cos d = cd
  generalize cos x = c at hc ⊢
  generalize sin x = sx
  field_simp
  ring

/-- Solid-body rotation. -/
def solidBody : Atmos := { tinyWave with uField := fun _ j _ => 3 * cos (latitude 5 j) }

example : (∀ i j k, solidBody.u i j k = 3 * cos (latitude solidBody.nlat j)) ∧
    (∀ i i' j k, solidBody.v i j k = solidBody.v i' j k) ∧ (2 : ℤ) ≤ solidBody.nlon ∧ solidBody.a ≠ 0 :=
  ⟨fun _ _ _ => rfl, fun _ _ _ _ => rfl, by decide, by norm_num [solidBody, tinyWave]⟩

/-- C82: air at rest has the Coriolis parameter as absolute vorticity. -/
theorem C82_rest (A : Atmos) (hn : 2 ≤ A.nlon) (hu : ∀ i j k, A.u i j k = 0) (hv : ∀ i j k, A.v i j k = 0) (i j k : ℤ)
    (h1 : 2 ≤ j) (h2 : j ≤ A.nlat - 1) : A.avort i j k = 2 * A.om * sin (latitude A.nlat j) := by
  rw [A.avort_value hn i h1 h2]
  unfold zonalDerivative meridionalDerivative
  simp [hu, hv]

/-- Air at rest. -/
def atRest : Atmos := { tinyWave with uField := fun _ _ _ => 0 }

example : (2 : ℤ) ≤ atRest.nlon ∧ (∀ i j k, atRest.u i j k = 0) ∧ (∀ i j k, atRest.v i j k = 0) ∧ atRest.om ≠ 0 :=
  ⟨by decide, fun _ _ _ => rfl, fun _ _ _ => rfl, by norm_num [atRest, tinyWave]⟩

end Atmos

end Falwa
