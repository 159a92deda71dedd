import Verif.Lemmas.Central
import Verif.Model.Utilities
import Verif.Props.Qgpv
import Mathlib.Analysis.SpecialFunctions.Trigonometric.Deriv
import Mathlib.Analysis.SpecialFunctions.Trigonometric.Bounds

/-!
# Finite differences approximate derivatives (C120)

For fields sampled from smooth functions of latitude and longitude (radians), the operators of `utilities.py`, the vorticity of both
QGPV routines and their stretching term differ from the differential operators by terms of second order in the grid spacing.
-/

noncomputable section

namespace Falwa

open Real Spec

/-- A function on a circle of latitude at the neighbours of a grid point, Python indices. -/
theorem periodic_neighbours {f : ℝ → ℝ} (hp : ∀ x, f (x + 2 * π) = f x) {nlon : ℕ} (hn : 2 ≤ nlon) (c : ℕ) :
    (if c = nlon - 1 then f ((0 : ℕ) * (2 * π / nlon)) - f ((nlon - 2 : ℕ) * (2 * π / nlon))
      else if c = 0 then f ((1 : ℕ) * (2 * π / nlon)) - f ((nlon - 1 : ℕ) * (2 * π / nlon))
      else f ((c + 1 : ℕ) * (2 * π / nlon)) - f ((c - 1 : ℕ) * (2 * π / nlon))) =
    f (c * (2 * π / nlon) + 2 * π / nlon) - f (c * (2 * π / nlon) - 2 * π / nlon) := by
  have h0 : (nlon : ℝ) ≠ 0 := by
    have : 0 < nlon := by omega
    positivity
  by_cases h1 : c = nlon - 1
  · have e : (c : ℝ) = nlon - 1 := by rw [h1]; push_cast [Nat.cast_sub (by omega : 1 ≤ nlon)]; ring
    rw [if_pos h1, ← hp (((0 : ℕ) : ℝ) * (2 * π / nlon)), e]
    congr 2
    · push_cast; field_simp; ring
    · push_cast [Nat.cast_sub hn]; ring
  · rw [if_neg h1]
    by_cases h2 : c = 0
    · rw [if_pos h2, h2, ← hp (((0 : ℕ) : ℝ) * (2 * π / nlon) - 2 * π / nlon)]
      congr 2
      · push_cast; ring
      · push_cast [Nat.cast_sub (by omega : 1 ≤ nlon)]; field_simp; ring
    · rw [if_neg h2]
      congr 2
      · push_cast; ring
      · push_cast [Nat.cast_sub (by omega : 1 ≤ c)]; ring

/-- C120. `zonal_convergence` approximates `-1 / (a cos φ) ∂F/∂λ` on all rows whose cosine exceeds the tolerance. -/
theorem C120_zonal_convergence {F F' F'' : ℝ → ℝ → ℝ} {D : ℝ} (φ : ℕ → ℝ) {nlon : ℕ} (hn : 2 ≤ nlon) {a tol : ℝ} (ha : 0 < a)
    (ht : 0 ≤ tol) (r c : ℕ) (hs : Smooth (F (φ r)) (F' (φ r)) (F'' (φ r)) D) (hp : ∀ x, F (φ r) (x + 2 * π) = F (φ r) x)
    (hr : tol < |cos (φ r)|) :
    |zonalConvergence nlon (fun r c => F (φ r) (c * (2 * π / nlon))) (fun r => cos (φ r)) (2 * π / nlon) a tol r c -
      -(F' (φ r) (c * (2 * π / nlon)) / (a * cos (φ r)))| ≤ D * (2 * π / nlon) ^ 2 / (a * |cos (φ r)|) := by
  have hcos : cos (φ r) ≠ 0 := fun h => by rw [h, abs_zero] at hr; linarith
  have hh : 0 < 2 * π / (nlon : ℝ) := by
    have : 0 < nlon := by omega
    positivity
  have q := hs.quotient (c * (2 * π / nlon)) hh (w := a * cos (φ r)) (mul_ne_zero ha.ne' hcos)
  rw [abs_mul, abs_of_pos ha] at q
  unfold zonalConvergence zonalDiff
  rw [if_pos hr, periodic_neighbours hp hn c, ← abs_neg]
  refine le_trans (le_of_eq ?_) q
  congr 1
  ring

/-- C120. `meridional_divergence` approximates `1 / (a cos φ) ∂(F cos φ)/∂φ` on the rows between the first and the last whose cosine
exceeds the tolerance; `G` is `F cos φ`. -/
theorem C120_meridional_divergence {F : ℝ → ℝ → ℝ} {G' G'' : ℝ → ℝ} {D φ0 h : ℝ} {nlat : ℕ} (lon : ℕ → ℝ) {a tol : ℝ} (ha : 0 < a)
    (hh : 0 < h) (ht : 0 ≤ tol) (r c : ℕ) (hs : Smooth (fun x => F x (lon c) * cos x) G' G'' D) (h1 : 0 < r) (h2 : r + 1 < nlat)
    (hr : tol < |cos (φ0 + r * h)|) :
    |meridionalDivergence nlat (fun r c => F (φ0 + r * h) (lon c)) (fun r => cos (φ0 + r * h)) h a tol r c -
      G' (φ0 + r * h) / (a * cos (φ0 + r * h))| ≤ D * h ^ 2 / (a * |cos (φ0 + r * h)|) := by
  have hcos : cos (φ0 + r * h) ≠ 0 := fun e => by rw [e, abs_zero] at hr; linarith
  have q := hs.quotient (φ0 + r * h) hh (w := a * cos (φ0 + r * h)) (mul_ne_zero ha.ne' hcos)
  rw [abs_mul, abs_of_pos ha] at q
  unfold meridionalDivergence meridionalDiff
  rw [if_pos hr, if_neg (by omega), if_neg (by omega)]
  refine le_trans (le_of_eq ?_) q
  congr 2
  beta_reduce
  rw [show φ0 + ((r + 1 : ℕ) : ℝ) * h = φ0 + r * h + h by push_cast; ring,
    show φ0 + ((r - 1 : ℕ) : ℝ) * h = φ0 + r * h - h by push_cast [Nat.cast_sub h1]; ring]
  ring

/-- C120. `curl_2d` approximates `1 / (a cos φ) (∂v/∂λ - ∂(u cos φ)/∂φ)` between the poles. -/
theorem C120_curl {U V V' V'' : ℝ → ℝ → ℝ} {G' G'' : ℝ → ℝ} {D E φ0 h : ℝ} {nlat nlon : ℕ} (hn : 2 ≤ nlon) {a : ℝ} (ha : 0 < a)
    (hh : 0 < h) (r c : ℕ) (hu : Smooth (fun x => U x (c * (2 * π / nlon)) * cos x) G' G'' D)
    (hv : Smooth (V (φ0 + r * h)) (V' (φ0 + r * h)) (V'' (φ0 + r * h)) E) (hp : ∀ x, V (φ0 + r * h) (x + 2 * π) = V (φ0 + r * h) x)
    (h1 : 0 < r) (h2 : r + 1 < nlat) (hcos : cos (φ0 + r * h) ≠ 0) :
    |curl2d nlat nlon (fun r c => U (φ0 + r * h) (c * (2 * π / nlon))) (fun r c => V (φ0 + r * h) (c * (2 * π / nlon)))
        (fun r => cos (φ0 + r * h)) (2 * π / nlon) h a r c -
      (V' (φ0 + r * h) (c * (2 * π / nlon)) - G' (φ0 + r * h)) / (a * cos (φ0 + r * h))| ≤
      (E * (2 * π / nlon) ^ 2 + D * h ^ 2) / (a * |cos (φ0 + r * h)|) := by
  have hl : 0 < 2 * π / (nlon : ℝ) := by
    have : 0 < nlon := by omega
    positivity
  have hw := mul_ne_zero ha.ne' hcos
  have q1 := hv.quotient (c * (2 * π / nlon)) hl hw
  have q2 := hu.quotient (φ0 + r * h) hh hw
  rw [abs_mul, abs_of_pos ha] at q1 q2
  unfold curl2d
  rw [if_neg (by omega), periodic_neighbours hp hn c]
  beta_reduce
  rw [show φ0 + ((r + 1 : ℕ) : ℝ) * h = φ0 + r * h + h by push_cast; ring,
    show φ0 + ((r - 1 : ℕ) : ℝ) * h = φ0 + r * h - h by push_cast [Nat.cast_sub h1]; ring]
  rw [add_div]
  refine le_trans ?_ (add_le_add q1 q2)
  refine le_trans (le_of_eq ?_) (abs_sub _ _)
  congr 1
  generalize V (φ0 + r * h) (c * (2 * π / nlon) + 2 * π / nlon) = A
  generalize V (φ0 + r * h) (c * (2 * π / nlon) - 2 * π / nlon) = B
  generalize 2 * π / (nlon : ℝ) = l at *
  field_simp
  ring

/-- Hypotheses of the three theorems: the fields `cos φ sin λ` and `cos φ`, whose products with `cos φ` are smooth. -/
example : (∀ p, Smooth (fun x => p * sin x) (fun x => p * cos x) (fun x => -(p * sin x)) |p|) ∧
    (∀ p x, p * sin (x + 2 * π) = p * sin x) ∧ Smooth (fun x => sin x * cos x) (fun x => cos (2 * x)) (fun x => -2 * sin (2 * x)) 4 := by
  refine ⟨fun p => ⟨fun x => (hasDerivAt_sin x).const_mul p, fun x => ?_, fun x y => ?_⟩, fun p x => by rw [sin_add_two_pi], ?_⟩
  · have := (hasDerivAt_cos x).const_mul p
    rwa [mul_neg] at this
  · rw [show -(p * sin x) - -(p * sin y) = -(p * (sin x - sin y)) by ring, abs_neg, abs_mul]
    exact mul_le_mul_of_nonneg_left (abs_sin_sub_sin_le x y) (abs_nonneg p)
  · refine ⟨fun x => ?_, fun x => ?_, fun x y => ?_⟩
    · have := (hasDerivAt_sin x).mul (hasDerivAt_cos x)
      refine this.congr_deriv ?_
      rw [cos_two_mul']; ring
    · have := (hasDerivAt_cos (2 * x)).comp x ((hasDerivAt_id x).const_mul 2)
      refine this.congr_deriv ?_
      ring
    · rw [show -2 * sin (2 * x) - -2 * sin (2 * y) = -(2 * (sin (2 * x) - sin (2 * y))) by ring, abs_neg, abs_mul,
        abs_of_pos (by norm_num : (0 : ℝ) < 2)]
      have := abs_sin_sub_sin_le (2 * x) (2 * y)
      rw [show 2 * x - 2 * y = 2 * (x - y) by ring, abs_mul, abs_of_pos (by norm_num : (0 : ℝ) < 2)] at this
      linarith

/-! ## The QGPV routines -/

namespace Atmos

/-- A function on a circle of latitude at the neighbours of a grid point, Fortran indices. -/
theorem periodic_east_west {f : ℝ → ℝ} (hp : ∀ x, f (x + 2 * π) = f x) {n : ℤ} (hn : 2 ≤ n) (i : ℤ) :
    f (((eastOf n i - 1 : ℤ) : ℝ) * (2 * π / n)) = f (((i - 1 : ℤ) : ℝ) * (2 * π / n) + 2 * π / n) ∧
    f (((westOf n i - 1 : ℤ) : ℝ) * (2 * π / n)) = f (((i - 1 : ℤ) : ℝ) * (2 * π / n) - 2 * π / n) := by
  have h0 : (n : ℝ) ≠ 0 := by exact_mod_cast (by omega : n ≠ 0)
  constructor
  · unfold eastOf
    by_cases h : i = n
    · rw [if_pos h, h, ← hp (((1 - 1 : ℤ) : ℝ) * (2 * π / n))]
      congr 1
      push_cast; field_simp; ring
    · rw [if_neg h]; congr 1; push_cast; ring
  · unfold westOf
    by_cases h : i = 1
    · rw [if_pos h, h, ← hp (((1 - 1 : ℤ) : ℝ) * (2 * π / n) - 2 * π / n)]
      congr 1
      push_cast; field_simp; ring
    · rw [if_neg h]; congr 1; push_cast; ring

/-- C120. Absolute vorticity of both classes, for winds sampled from smooth functions on the analysis grid: between the poles it
approximates `f + 1 / (a cos φ) (κ ∂v/∂λ - ∂(u cos φ)/∂φ)` with `κ = 2 (nlat - 1) / nlon`. This is the vorticity if the spacings in
both directions are equal, `κ = 1`, and for no other grid (compare C80). -/
theorem C120_vorticity (A : Atmos) {U V V' V'' : ℝ → ℝ → ℝ} {G' G'' : ℝ → ℝ} {D E : ℝ} (hn : 2 ≤ A.nlon) (hl : 3 ≤ A.nlat)
    (ha : 0 < A.a) (i j k : ℤ) (i1 : 1 ≤ i) (i2 : i ≤ A.nlon) (h1 : 2 ≤ j) (h2 : j ≤ A.nlat - 1)
    (hU : ∀ j, 1 ≤ j → j ≤ A.nlat → A.u i j k = U (latitude A.nlat j) (((i - 1 : ℤ) : ℝ) * (2 * π / A.nlon)))
    (hV : ∀ i, 1 ≤ i → i ≤ A.nlon → A.v i j k = V (latitude A.nlat j) (((i - 1 : ℤ) : ℝ) * (2 * π / A.nlon)))
    (hu : Smooth (fun x => U x (((i - 1 : ℤ) : ℝ) * (2 * π / A.nlon)) * cos x) G' G'' D)
    (hv : Smooth (V (latitude A.nlat j)) (V' (latitude A.nlat j)) (V'' (latitude A.nlat j)) E)
    (hp : ∀ x, V (latitude A.nlat j) (x + 2 * π) = V (latitude A.nlat j) x) :
    |A.avort i j k - (2 * A.om * sin (latitude A.nlat j) +
        (2 * ((A.nlat - 1 : ℤ) : ℝ) / A.nlon * V' (latitude A.nlat j) (((i - 1 : ℤ) : ℝ) * (2 * π / A.nlon)) -
          G' (latitude A.nlat j)) / (A.a * cos (latitude A.nlat j)))| ≤
      (2 * ((A.nlat - 1 : ℤ) : ℝ) / A.nlon * (E * (2 * π / A.nlon) ^ 2) + D * (π / ((A.nlat - 1 : ℤ) : ℝ)) ^ 2) /
        (A.a * cos (latitude A.nlat j)) := by
  have hN : (0 : ℝ) < (A.nlon : ℝ) := by exact_mod_cast (by omega : (0 : ℤ) < A.nlon)
  have hL : (0 : ℝ) < ((A.nlat - 1 : ℤ) : ℝ) := by exact_mod_cast (by omega : (0 : ℤ) < A.nlat - 1)
  have hc := cos_latitude_pos h1 h2
  have hw : 0 < A.a * cos (latitude A.nlat j) := mul_pos ha hc
  have hdl : 0 < 2 * π / (A.nlon : ℝ) := by positivity
  have hdp : 0 < π / ((A.nlat - 1 : ℤ) : ℝ) := by positivity
  have q1 := hv.quotient (((i - 1 : ℤ) : ℝ) * (2 * π / A.nlon)) hdl hw.ne'
  have q2 := hu.quotient (latitude A.nlat j) hdp hw.ne'
  rw [abs_of_pos hw] at q1 q2
  have hlp : latitude A.nlat (j + 1) = latitude A.nlat j + π / ((A.nlat - 1 : ℤ) : ℝ) := by
    unfold latitude; push_cast; ring
  have hlm : latitude A.nlat (j - 1) = latitude A.nlat j - π / ((A.nlat - 1 : ℤ) : ℝ) := by
    unfold latitude; push_cast; ring
  rw [A.avort_value hn i h1 h2]
  unfold zonalDerivative meridionalDerivative
  have he : 1 ≤ eastOf A.nlon i ∧ eastOf A.nlon i ≤ A.nlon := by
    unfold eastOf
    split_ifs <;> omega
  have hwe : 1 ≤ westOf A.nlon i ∧ westOf A.nlon i ≤ A.nlon := by
    unfold westOf
    split_ifs <;> omega
  beta_reduce
  rw [hV _ he.1 he.2, hV _ hwe.1 hwe.2, hU (j + 1) (by omega) (by omega), hU (j - 1) (by omega) (by omega)]
  rw [(periodic_east_west hp hn i).1, (periodic_east_west hp hn i).2, hlp, hlm]
  rw [add_div _ _ (A.a * cos (latitude A.nlat j)), mul_div_assoc _ (E * (2 * π / (A.nlon : ℝ)) ^ 2)]
  have q1' := mul_le_mul_of_nonneg_left q1 (by positivity : (0 : ℝ) ≤ 2 * ((A.nlat - 1 : ℤ) : ℝ) / A.nlon)
  refine le_trans ?_ (add_le_add q1' q2)
  rw [← abs_of_nonneg (by positivity : (0 : ℝ) ≤ 2 * ((A.nlat - 1 : ℤ) : ℝ) / A.nlon), ← abs_mul,
    abs_of_nonneg (by positivity : (0 : ℝ) ≤ 2 * ((A.nlat - 1 : ℤ) : ℝ) / A.nlon)]
  refine le_trans (le_of_eq ?_) (abs_sub _ _)
  congr 1
  generalize V (latitude A.nlat j) (((i - 1 : ℤ) : ℝ) * (2 * π / A.nlon) + 2 * π / A.nlon) = X
  generalize V (latitude A.nlat j) (((i - 1 : ℤ) : ℝ) * (2 * π / A.nlon) - 2 * π / A.nlon) = Y
  generalize V' (latitude A.nlat j) (((i - 1 : ℤ) : ℝ) * (2 * π / A.nlon)) = Z
  generalize ((A.nlat - 1 : ℤ) : ℝ) = N at *
  have hpi := pi_pos.ne'
  have hc' := hc.ne'
  generalize cos (latitude A.nlat j) = C at *
  field_simp
  ring

/-- C120. The stretching term for potential temperature, its reference and the static stability sampled from functions of height:
`f exp(z/H) ∂/∂z (exp(-z/H) (θ - θ₀) / (dθ₀/dz))` with an error of second order. -/
theorem C120_stretching {f H dz D : ℝ} {θ θ0 σ G' G'' : ℝ → ℝ} (hz : 0 < dz) (k : ℤ)
    (hs : Smooth (fun z => exp (-z / H) * ((θ z - θ0 z) / σ z)) G' G'' D) :
    |stretching f H dz (fun k => θ (((k - 1 : ℤ) : ℝ) * dz)) (fun k => θ0 (((k - 1 : ℤ) : ℝ) * dz))
        (fun k => σ (((k - 1 : ℤ) : ℝ) * dz)) k -
      f * exp (((k - 1 : ℤ) : ℝ) * dz / H) * G' (((k - 1 : ℤ) : ℝ) * dz)| ≤
      |f| * exp (((k - 1 : ℤ) : ℝ) * dz / H) * (D * dz ^ 2) := by
  have q := hs.quotient (((k - 1 : ℤ) : ℝ) * dz) hz (w := 1) one_ne_zero
  rw [abs_one, div_one, div_one, mul_one] at q
  unfold stretching
  rw [← mul_sub, abs_mul, abs_mul, abs_of_pos (exp_pos (((k - 1 : ℤ) : ℝ) * dz / H))]
  refine mul_le_mul_of_nonneg_left ?_ (by positivity)
  have e1 : ((k - 1 : ℤ) : ℝ) * dz + dz = ((k + 1 - 1 : ℤ) : ℝ) * dz := by push_cast; ring
  have e2 : ((k - 1 : ℤ) : ℝ) * dz - dz = ((k - 1 - 1 : ℤ) : ℝ) * dz := by push_cast; ring
  rw [e1, e2] at q
  rw [show ((k : ℤ) : ℝ) * dz = ((k + 1 - 1 : ℤ) : ℝ) * dz by push_cast; ring,
    show ((k - 2 : ℤ) : ℝ) * dz = ((k - 1 - 1 : ℤ) : ℝ) * dz by push_cast; ring]
  exact q

/-- C120. QGPV between the lowest and the highest level, for potential temperature, mean profile and stability sampled from functions
of height: the absolute vorticity plus `c exp(z/H) ∂/∂z (exp(-z/H) (θ - θ₀) / (dθ₀/dz))` with an error of second order in `dz`. The
factor `c` is the Coriolis parameter for NHN22 and the zonal mean of the absolute vorticity for NH18. -/
theorem C120_qgpv (A : Atmos) (s : Scheme) {θ θ0 σ G' G'' : ℝ → ℝ} {D : ℝ} (hz : 0 < A.dz) (i j k : ℤ) (h1 : 2 ≤ k)
    (h2 : k ≤ A.kmax - 1) (c : ℝ)
    (hc : c = match s with
      | .nhn22 => 2 * A.om * sin (latitude A.nlat j)
      | .nh18 => circleMean A.nlon (fun i => A.avort i j k))
    (hθ : ∀ l, 1 ≤ l → l ≤ A.kmax → A.theta i j l = θ (((l - 1 : ℤ) : ℝ) * A.dz))
    (h0 : ∀ l, 1 ≤ l → l ≤ A.kmax → A.profile s j l = θ0 (((l - 1 : ℤ) : ℝ) * A.dz))
    (hσ : ∀ l, 1 ≤ l → l ≤ A.kmax → A.stability s j l = σ (((l - 1 : ℤ) : ℝ) * A.dz))
    (hs : Smooth (fun z => exp (-z / A.h) * ((θ z - θ0 z) / σ z)) G' G'' D) :
    |A.qgpv s i j k - (A.avort i j k + c * exp (((k - 1 : ℤ) : ℝ) * A.dz / A.h) * G' (((k - 1 : ℤ) : ℝ) * A.dz))| ≤
      |c| * exp (((k - 1 : ℤ) : ℝ) * A.dz / A.h) * (D * A.dz ^ 2) := by
  have q := C120_stretching (f := c) (H := A.h) hz k hs
  have e : A.qgpv s i j k = A.avort i j k +
      stretching c A.h A.dz (fun k => A.theta i j k) (A.profile s j) (A.stability s j) k := by
    obtain ⟨a, b⟩ := (C81_qgpv_partial A i j k).1 h1 h2
    cases s
    · rw [b, hc]
    · rw [a, hc]
  have e' : stretching c A.h A.dz (fun k => A.theta i j k) (A.profile s j) (A.stability s j) k =
      stretching c A.h A.dz (fun k => θ (((k - 1 : ℤ) : ℝ) * A.dz)) (fun k => θ0 (((k - 1 : ℤ) : ℝ) * A.dz))
        (fun k => σ (((k - 1 : ℤ) : ℝ) * A.dz)) k := by
    unfold stretching
    beta_reduce
    rw [hθ (k + 1) (by omega) (by omega), hθ (k - 1) (by omega) (by omega), h0 (k + 1) (by omega) (by omega),
      h0 (k - 1) (by omega) (by omega), hσ (k + 1) (by omega) (by omega), hσ (k - 1) (by omega) (by omega)]
  rw [e, e', add_sub_add_left_eq_sub]
  exact q

/-- Solid rotation with a meridional wave, and a temperature wave that grows with height. -/
def sampled : Atmos :=
  { tinyWave with
    uField := fun _ j _ => cos (latitude 5 j)
    vField := fun i _ _ => sin (((i - 1 : ℤ) : ℝ) * (2 * π / ((4 : ℤ) : ℝ)))
    tField := fun i _ l => (l : ℝ) +
      exp (((l - 1 : ℤ) : ℝ) * 1) * (((l - 1 : ℤ) : ℝ) * 1) * (if i = 1 then 1 else if i = 2 then -1 else 0) }

theorem sampled_theta (i g l : ℤ) : sampled.theta i g l = (l : ℝ) +
    exp (((l - 1 : ℤ) : ℝ) * 1) * (((l - 1 : ℤ) : ℝ) * 1) * (if i = 1 then 1 else if i = 2 then -1 else 0) := by
  show ((l : ℝ) + exp (((l - 1 : ℤ) : ℝ) * 1) * (((l - 1 : ℤ) : ℝ) * 1) * (if i = 1 then 1 else if i = 2 then -1 else 0)) *
    exp (1 / 1 * 0 / 1) = _
  rw [show (1 : ℝ) / 1 * 0 / 1 = 0 by norm_num, exp_zero, mul_one]

theorem sampled_ts0 (k : ℤ) : sampled.ts0 k = k := by
  have hr : ∀ g, sampled.rowMean k g = (k : ℝ) * sampled.clat g := by
    intro g
    unfold rowMean
    show (∑ i ∈ Finset.Icc 1 4, sampled.theta i g k * sampled.clat g) / ((4 : ℤ) : ℝ) = _
    rw [show (Finset.Icc 1 4 : Finset ℤ) = {1, 2, 3, 4} by decide]
    rw [Finset.sum_insert (by decide), Finset.sum_insert (by decide), Finset.sum_insert (by decide), Finset.sum_singleton]
    simp only [sampled_theta]
    generalize exp (((k - 1 : ℤ) : ℝ) * 1) = e
    norm_num
    ring
  show (∑ g ∈ Finset.Icc 1 sampled.jd, sampled.rowMean k g) / sampled.csm = _
  simp only [hr]
  rw [← Finset.mul_sum]
  exact mul_div_cancel_right₀ _ tinyWave_csm.ne'

/-- Hypotheses of `C120_vorticity` and `C120_qgpv` on the second row; the height derivative of the wave is not zero. -/
example : (∀ j k, sampled.u 1 j k = cos (latitude sampled.nlat j)) ∧
    (∀ i k, sampled.v i 2 k = sin (((i - 1 : ℤ) : ℝ) * (2 * π / sampled.nlon))) ∧
    (∀ l, sampled.theta 1 2 l = (((l - 1 : ℤ) : ℝ) * sampled.dz + 1) +
      exp (((l - 1 : ℤ) : ℝ) * sampled.dz) * (((l - 1 : ℤ) : ℝ) * sampled.dz)) ∧
    (∀ l, sampled.profile .nhn22 2 l = ((l - 1 : ℤ) : ℝ) * sampled.dz + 1) ∧
    (∀ l, sampled.stability .nhn22 2 l = 1) ∧
    Smooth (fun z => exp (-z / sampled.h) * (((z + 1) + exp z * z - (z + 1)) / 1)) (fun _ => 1) (fun _ => 0) 0 := by
  refine ⟨fun _ _ => rfl, fun _ _ => rfl, fun l => ?_, fun l => ?_, fun _ => rfl, ?_⟩
  · rw [sampled_theta, if_pos rfl]
    show _ = (((l - 1 : ℤ) : ℝ) * 1 + 1) + exp (((l - 1 : ℤ) : ℝ) * 1) * (((l - 1 : ℤ) : ℝ) * 1)
    push_cast; ring
  · unfold profile
    dsimp only
    rw [if_pos (show (2 : ℤ) ≤ sampled.nd by decide), sampled_ts0]
    show _ = ((l - 1 : ℤ) : ℝ) * 1 + 1
    push_cast; ring
  · have e : (fun z : ℝ => exp (-z / sampled.h) * (((z + 1) + exp z * z - (z + 1)) / 1)) = fun z => z := by
      funext z
      show exp (-z / 1) * (((z + 1) + exp z * z - (z + 1)) / 1) = z
      rw [div_one, div_one, show z + 1 + exp z * z - (z + 1) = exp z * z by ring, ← mul_assoc, ← exp_add, neg_add_cancel, exp_zero,
        one_mul]
    rw [e]
    exact ⟨fun x => hasDerivAt_id x, fun x => hasDerivAt_const x 1, fun x y => by simp⟩

end Atmos

end Falwa
