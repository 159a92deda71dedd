import Verif.Props.QgpvRounding
import Verif.Lemmas.Central

/-!
# C213: total error of the absolute vorticity on a given grid
-/

noncomputable section

namespace Falwa

open Real Spec

namespace QgpvIn

variable {I : QgpvIn} {fl : ℝ → ℝ} {u p W a om D ε : ℝ} {sn cs ex ey : ℤ → ℝ} {i j k : ℤ} {U V G G' G'' V' V'' : ℝ → ℝ → ℝ}

/-- A wind on the sphere whose derivatives in the vorticity are smooth. `G` is the zonal wind times the cosine of latitude. -/
structure SmoothWind (U V G G' G'' V' V'' : ℝ → ℝ → ℝ) (D : ℝ) : Prop where
  product : ∀ x l, G x l = U x l * cos x
  north : ∀ l, Smooth (fun x => G x l) (fun x => G' x l) (fun x => G'' x l) D
  east : ∀ x, Smooth (fun l => V x l) (fun l => V' x l) (fun l => V'' x l) D
  periodic : ∀ x l, V x (l + 2 * π) = V x l

/-- The arrays hold the wind at the grid points of level `k` up to `ε`; both spacings are the same. -/
structure Holds (I : QgpvIn) (U V : ℝ → ℝ → ℝ) (k : ℤ) (ε : ℝ) : Prop where
  square : I.nlon = 2 * (I.nlat - 1)
  zonal : ∀ i j, 1 ≤ i → i ≤ I.nlon → 1 ≤ j → j ≤ I.nlat → |I.u i j k - U (I.phi j) (((i - 1 : ℤ) : ℝ) * I.dphi)| ≤ ε
  meridional : ∀ i j, 1 ≤ i → i ≤ I.nlon → 1 ≤ j → j ≤ I.nlat → |I.v i j k - V (I.phi j) (((i - 1 : ℤ) : ℝ) * I.dphi)| ≤ ε

theorem phi_step (I : QgpvIn) (j m : ℤ) : I.phi (j + m) = I.phi j + m * I.dphi := by
  unfold phi dphi
  push_cast
  ring

/-- The difference of the meridional wind between the neighbouring columns, across the date line too. -/
theorem dv_error (hw : SmoothWind U V G G' G'' V' V'' D) (hh : I.Holds U V k ε) (hi1 : 1 ≤ i) (hi2 : i ≤ I.nlon) (h1 : 2 ≤ j) (h2 : j ≤ I.nlat - 1) :
    |I.dv i j k - (V (I.phi j) (((i - 1 : ℤ) : ℝ) * I.dphi + I.dphi) - V (I.phi j) (((i - 1 : ℤ) : ℝ) * I.dphi - I.dphi))| ≤ 2 * ε := by
  have hs := hh.square
  have hN : (0 : ℝ) < ((I.nlat - 1 : ℤ) : ℝ) := by exact_mod_cast (by omega : 0 < I.nlat - 1)
  have two : ∀ {x y X Y : ℝ}, |x - X| ≤ ε → |y - Y| ≤ ε → |x - y - (X - Y)| ≤ 2 * ε := by
    intro x y X Y hx hy
    rw [abs_le] at hx hy ⊢
    constructor <;> linarith [hx.1, hx.2, hy.1, hy.2]
  have circle : (I.nlon : ℝ) * I.dphi = 2 * π := by
    have : (I.nlon : ℝ) = 2 * ((I.nlat - 1 : ℤ) : ℝ) := by exact_mod_cast hs
    rw [this]
    unfold dphi
    field_simp
  have v : ∀ g, 1 ≤ g → g ≤ I.nlon → ∀ l, ((g - 1 : ℤ) : ℝ) * I.dphi = l → |I.v g j k - V (I.phi j) l| ≤ ε := fun g g1 g2 l e =>
    e ▸ hh.meridional g j g1 g2 (by omega) (by omega)
  unfold dv
  split_ifs with c1 c2
  · refine two ?_ (v (I.nlon - 1) (by omega) (by omega) _ (by rw [c1]; push_cast; ring))
    have e : ((i - 1 : ℤ) : ℝ) * I.dphi + I.dphi = 0 + 2 * π := by rw [c1, ← circle]; push_cast; ring
    rw [e, hw.periodic]
    exact v 1 le_rfl (by omega) 0 (by simp)
  · refine two (v 2 (by omega) (by omega) _ (by rw [c2]; push_cast; ring)) ?_
    rw [← hw.periodic _ (((i - 1 : ℤ) : ℝ) * I.dphi - I.dphi)]
    exact v I.nlon (by omega) le_rfl _ (by rw [c2, ← circle]; push_cast; ring)
  · exact two (v (i + 1) (by omega) (by omega) _ (by push_cast; ring)) (v (i - 1) (by omega) (by omega) _ (by push_cast; ring))

theorem du_error (hw : SmoothWind U V G G' G'' V' V'' D) (hh : I.Holds U V k ε) (hi1 : 1 ≤ i) (hi2 : i ≤ I.nlon) (h1 : 2 ≤ j) (h2 : j ≤ I.nlat - 1) :
    |I.u i (j + 1) k * cos (I.phi (j + 1)) - I.u i (j - 1) k * cos (I.phi (j - 1)) -
      (G (I.phi j + I.dphi) (((i - 1 : ℤ) : ℝ) * I.dphi) - G (I.phi j - I.dphi) (((i - 1 : ℤ) : ℝ) * I.dphi))| ≤ 2 * ε := by
  have one : ∀ g, 1 ≤ g → g ≤ I.nlat → |I.u i g k * cos (I.phi g) - G (I.phi g) (((i - 1 : ℤ) : ℝ) * I.dphi)| ≤ ε := fun g g1 g2 => by
    rw [hw.product, ← sub_mul, abs_mul]
    exact (mul_le_of_le_one_right (abs_nonneg _) (abs_cos_le_one _)).trans (hh.zonal i g hi1 hi2 g1 g2)
  have a1 := one (j + 1) (by omega) (by omega)
  have a2 := one (j - 1) (by omega) (by omega)
  have e1 : I.phi (j + 1) = I.phi j + I.dphi := by have := I.phi_step j 1; push_cast at this; rw [this]; ring
  have e2 : I.phi (j - 1) = I.phi j - I.dphi := by have := I.phi_step j (-1); push_cast at this; rw [← sub_eq_add_neg] at this; rw [this]; ring
  rw [e1] at a1 ⊢
  rw [e2] at a2 ⊢
  rw [abs_le] at a1 a2 ⊢
  constructor <;> linarith [a1.1, a1.2, a2.1, a2.2]

/-- **C213 (second order).** On a grid with equal spacings the absolute vorticity that the finite differences give between the poles differs from that of the flow by at
most `2 D dphi² / (a cos φ)`, plus what the errors of the wind make of it. -/
theorem C213_truncation (hw : SmoothWind U V G G' G'' V' V'' D) (hh : I.Holds U V k ε) (ha : 0 < I.a) (hi1 : 1 ≤ i) (hi2 : i ≤ I.nlon) (h1 : 2 ≤ j)
    (h2 : j ≤ I.nlat - 1) :
    |I.avort i j k - (2 * I.om * sin (I.phi j) +
        (V' (I.phi j) (((i - 1 : ℤ) : ℝ) * I.dphi) - G' (I.phi j) (((i - 1 : ℤ) : ℝ) * I.dphi)) / (I.a * cos (I.phi j)))| ≤
      2 * D * I.dphi ^ 2 / (I.a * cos (I.phi j)) + 2 * ε / (I.a * cos (I.phi j) * I.dphi) := by
  have hN : (0 : ℝ) < ((I.nlat - 1 : ℤ) : ℝ) := by exact_mod_cast (by omega : 0 < I.nlat - 1)
  have hd : 0 < I.dphi := div_pos pi_pos hN
  have k0 : 0 < cos (I.phi j) := by
    have hc := cos_phi_ge (I := I) h1 h2
    by_contra hn
    have := mul_nonpos_of_nonpos_of_nonneg (not_lt.1 hn) hN.le
    linarith
  have e : I.avort i j k = I.inner i j k := by
    unfold avort
    rw [if_neg (by omega), if_neg (by omega)]
  rw [e]
  have b1 := dv_error hw hh hi1 hi2 h1 h2
  have b2 := du_error hw hh hi1 hi2 h1 h2
  have c1 := (hw.east (I.phi j)).central (((i - 1 : ℤ) : ℝ) * I.dphi) hd.le
  have c2 := (hw.north (((i - 1 : ℤ) : ℝ) * I.dphi)).central (I.phi j) hd.le
  beta_reduce at c1 c2
  unfold inner cor
  set l := ((i - 1 : ℤ) : ℝ) * I.dphi with hl
  set κ := cos (I.phi j) with hκ
  set h := I.dphi with hhd
  set A := I.dv i j k with hA
  set B := I.u i (j + 1) k * cos (I.phi (j + 1)) - I.u i (j - 1) k * cos (I.phi (j - 1)) with hB
  have e1 : 2 * I.om * sin (I.phi j) + A / (2 * I.a * κ * h) + -B / (2 * I.a * κ * h) - (2 * I.om * sin (I.phi j) + (V' (I.phi j) l - G' (I.phi j) l) / (I.a * κ)) =
      (A - 2 * h * V' (I.phi j) l - (B - 2 * h * G' (I.phi j) l)) / (2 * I.a * κ * h) := by
    field_simp
    ring
  have e2 : 2 * D * h ^ 2 / (I.a * κ) + 2 * ε / (I.a * κ * h) = (4 * D * h ^ 3 + 4 * ε) / (2 * I.a * κ * h) := by
    field_simp
    ring
  rw [e1, e2, abs_div, abs_of_pos (by positivity : 0 < 2 * I.a * κ * h)]
  refine div_le_div_of_nonneg_right ?_ (by positivity)
  rw [abs_le] at b1 b2 c1 c2 ⊢
  constructor <;> linarith [b1.1, b1.2, b2.1, b2.2, c1.1, c1.2, c2.1, c2.2]

/-- **C213 (single precision).** The absolute vorticity that the machine returns differs from that of the flow by at most the truncation error, the error of the wind and
the rounding error: the first falls with the square of the spacing, the other two grow with its inverse. -/
theorem C213_total (hw : SmoothWind U V G G' G'' V' V'' D) (hh : I.Holds U V k ε) (h : I.Computed u fl p sn cs ex ey) (hU : ∀ i j k, |I.u i j k| ≤ W)
    (hV : ∀ i j k, |I.v i j k| ≤ W) (hi1 : 1 ≤ i) (hi2 : i ≤ I.nlon) (h1 : 2 ≤ j) (h2 : j ≤ I.nlat - 1) :
    |I.flAvort fl p sn cs i j k - (2 * I.om * sin (I.phi j) +
        (V' (I.phi j) (((i - 1 : ℤ) : ℝ) * I.dphi) - G' (I.phi j) (((i - 1 : ℤ) : ℝ) * I.dphi)) / (I.a * cos (I.phi j)))| ≤
      2 * D * I.dphi ^ 2 / (I.a * cos (I.phi j)) + 2 * ε / (I.a * cos (I.phi j) * I.dphi) +
        144 * u * (|I.om| + W / (I.a * cos (I.phi j) ^ 2 * I.dphi)) := by
  have t1 := C213_truncation hw hh h.radius hi1 hi2 h1 h2
  have t2 := C212_vorticity h hU hV h1 h2 i k
  refine (abs_sub_le _ (I.avort i j k) _).trans ?_
  linarith

/-- A wave of the wavenumber one, in single precision on the one-degree grid of the Earth. -/
def wavy : QgpvIn where
  nlon := 360
  nlat := 181
  kmax := 49
  u i j _ := roundBits 23 (10 * cos (earth.phi j) * sin (((i - 1 : ℤ) : ℝ) * earth.dphi))
  v i _ _ := roundBits 23 (10 * cos (((i - 1 : ℤ) : ℝ) * earth.dphi))
  theta _ _ k := 300 + 2 * k
  height k := 1000 * ((k : ℝ) - 1)
  a := 6378000
  om := 7.29 / 100000
  h := 7000

theorem wavy_smooth : SmoothWind (fun x l => 10 * cos x * sin l) (fun _ l => 10 * cos l) (fun x l => 10 * cos x * sin l * cos x)
    (fun x l => -(10 * sin (2 * x)) * sin l) (fun x l => -(20 * cos (2 * x)) * sin l) (fun _ l => -(10 * sin l)) (fun _ l => -(10 * cos l)) 40 where
  product x l := rfl
  north l := by
    have t : ∀ x : ℝ, HasDerivAt (fun x : ℝ => 2 * x) 2 x := fun x => by simpa using (hasDerivAt_id x).const_mul (2 : ℝ)
    refine ⟨fun x => ?_, fun x => ?_, fun x y => ?_⟩
    · refine ((((hasDerivAt_cos x).const_mul 10).mul_const (sin l)).mul (hasDerivAt_cos x)).congr_deriv ?_
      rw [sin_two_mul]
      ring
    · refine (((((hasDerivAt_sin (2 * x)).comp x (t x)).const_mul 10).neg).mul_const (sin l)).congr_deriv ?_
      ring
    · have h1 := abs_cos_sub_cos_le (2 * x) (2 * y)
      have h2 := abs_sin_le_one l
      have e : -(20 * cos (2 * x)) * sin l - -(20 * cos (2 * y)) * sin l = -20 * ((cos (2 * x) - cos (2 * y)) * sin l) := by ring
      have e2 : |2 * x - 2 * y| = 2 * |x - y| := by rw [← mul_sub, abs_mul]; norm_num
      rw [e2] at h1
      rw [e, abs_mul, abs_mul, show |(-20 : ℝ)| = 20 by norm_num]
      have h3 := mul_le_of_le_one_right (abs_nonneg (cos (2 * x) - cos (2 * y))) h2
      linarith
  east x := by
    refine ⟨fun l => ?_, fun l => ?_, fun l m => ?_⟩
    · exact ((hasDerivAt_cos l).const_mul 10).congr_deriv (by ring)
    · exact ((hasDerivAt_sin l).const_mul 10).neg
    · have h1 := abs_cos_sub_cos_le l m
      have e : -(10 * cos l) - -(10 * cos m) = -10 * (cos l - cos m) := by ring
      rw [e, abs_mul, show |(-10 : ℝ)| = 10 by norm_num]
      linarith [abs_nonneg (l - m)]
  periodic x l := by rw [cos_add_two_pi]

theorem wavy_holds (k : ℤ) : wavy.Holds (fun x l => 10 * cos x * sin l) (fun _ l => 10 * cos l) k (10 * (1 / 2) ^ 24) ∧ (∀ i j k, |wavy.u i j k| ≤ 11) ∧ (∀ i j k, |wavy.v i j k| ≤ 11) ∧
    wavy.Computed ((1 / 2) ^ 24) (roundBits 23) (roundBits 23 π) (fun j => roundBits 23 (sin (wavy.phi j))) (fun j => roundBits 23 (cos (wavy.phi j)))
      (fun k => roundBits 23 (exp (-wavy.height k / wavy.h))) (fun k => roundBits 23 (exp (wavy.height k / wavy.h))) := by
  have r : RelativeError ((1 / 2) ^ 24) (roundBits (K := ℝ) 23) := relativeError_roundBits (K := ℝ) 23
  have unit : ∀ x : ℝ, |x| ≤ 1 → |roundBits 23 x - x| ≤ 16 * (1 / 2) ^ 24 := fun x hx => (r x).trans (by nlinarith)
  have pos : ∀ x : ℝ, 0 < x → |roundBits 23 x - x| ≤ 16 * (1 / 2) ^ 24 * x := fun x hx => (r x).trans (by rw [abs_of_pos hx]; nlinarith)
  have ten : ∀ x : ℝ, |x| ≤ 10 → |roundBits 23 x - x| ≤ 10 * (1 / 2) ^ 24 := fun x hx => (r x).trans (by nlinarith)
  have size : ∀ x : ℝ, |x| ≤ 10 → |roundBits 23 x| ≤ 11 := fun x hx => by
    have h1 := abs_sub_abs_le_abs_sub (roundBits 23 x) x
    have h2 := ten x hx
    norm_num at h2
    linarith
  have su : ∀ x l : ℝ, |10 * cos x * sin l| ≤ 10 := fun x l => by
    rw [abs_mul, abs_mul, abs_of_pos (by norm_num : (0 : ℝ) < 10)]
    have h3 := mul_le_mul (abs_cos_le_one x) (abs_sin_le_one l) (abs_nonneg _) zero_le_one
    linarith
  have sv : ∀ l : ℝ, |10 * cos l| ≤ 10 := fun l => by
    rw [abs_mul, abs_of_pos (by norm_num : (0 : ℝ) < 10)]
    linarith [abs_cos_le_one l]
  refine ⟨⟨by norm_num [wavy], fun i j _ _ _ _ => ten _ (su _ _), fun i j _ _ _ _ => ten _ (sv _)⟩, fun i j k => size _ (su _ _), fun i j k => size _ (sv _),
    by positivity, r, ?_, fun j _ _ => unit _ (abs_sin_le_one _), fun j _ _ => unit _ (abs_cos_le_one _), fun k => pos _ (exp_pos _),
    fun k => pos _ (exp_pos _), by norm_num [wavy], by norm_num [wavy]⟩
  have := r π
  rwa [abs_of_pos pi_pos] at this

/-- The hypotheses of C213 hold together. -/
example : SmoothWind (fun x l => 10 * cos x * sin l) (fun _ l => 10 * cos l) (fun x l => 10 * cos x * sin l * cos x)
    (fun x l => -(10 * sin (2 * x)) * sin l) (fun x l => -(20 * cos (2 * x)) * sin l) (fun _ l => -(10 * sin l)) (fun _ l => -(10 * cos l)) 40 ∧
    wavy.Holds (fun x l => 10 * cos x * sin l) (fun _ l => 10 * cos l) 1 (10 * (1 / 2) ^ 24) :=
  ⟨wavy_smooth, (wavy_holds 1).1⟩

end QgpvIn

end Falwa

end
