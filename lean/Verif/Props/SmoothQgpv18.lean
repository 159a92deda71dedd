import Verif.Props.SmoothQgpv
import Verif.Props.Continuum
import Verif.Lemmas.Uniform
import Mathlib.MeasureTheory.Integral.IntervalIntegral.FundThmCalculus

/-!
# C169: the limit of the QGPV of NH18

The stretching term of `compute_qgpv` has the zonal mean of the absolute vorticity as a factor. The limit is a QGPV with this factor and
differs from that of the flow.
-/

noncomputable section

namespace Falwa

open Real Finset Spec Filter

/-- Means along circles of latitude tend to the integral, uniformly in latitude and height. -/
theorem circle_error {w : ℝ → ℝ → ℝ → ℝ} (hw : Continuous fun p : ℝ × ℝ × ℝ => w p.1 p.2.1 p.2.2) (top : ℝ) {m : ℕ → ℤ} (hm1 : ∀ n, 1 ≤ m n)
    (hm : Tendsto m atTop atTop) :
    ∃ d : ℕ → ℝ, Tendsto d atTop (nhds 0) ∧ (∀ n, 0 ≤ d n) ∧ ∀ n, ∀ φ ∈ Set.Icc (-(π / 2)) (π / 2), ∀ z ∈ Set.Icc 0 top,
      |circleMean (m n) (fun i => w φ (2 * π / (m n : ℝ) * ((i : ℝ) - 1)) z) - (∫ l in (0 : ℝ)..2 * π, w φ l z) / (2 * π)| ≤ d n := by
  have hpi := pi_pos
  have hm' : ∀ n, (0 : ℝ) < (m n : ℝ) := fun n => by exact_mod_cast (by have := hm1 n; omega : 0 < m n)
  have hh : Tendsto (fun n => 2 * π / (m n : ℝ)) atTop (nhds 0) :=
    tendsto_const_nhds.div_atTop (tendsto_intCast_atTop_atTop.comp hm)
  have hK : IsCompact (Set.Icc (-(π / 2)) (π / 2) ×ˢ (Set.Icc (0 : ℝ) (2 * π) ×ˢ (Set.Icc 0 top ×ˢ Set.Icc (0 : ℝ) 1))) :=
    isCompact_Icc.prod (isCompact_Icc.prod (isCompact_Icc.prod isCompact_Icc))
  have hf : Continuous fun p : ℝ × (ℝ × ℝ × ℝ × ℝ) =>
      (fun (t : ℝ) (x : ℝ × ℝ × ℝ × ℝ) => w x.1 (x.2.1 + t * x.2.2.2) x.2.2.1) p.1 p.2 :=
    hw.comp (f := fun p : ℝ × (ℝ × ℝ × ℝ × ℝ) => (p.2.1, p.2.2.1 + p.1 * p.2.2.2.2, p.2.2.2.1)) (by fun_prop)
  obtain ⟨d, d0, dp, hd⟩ := parameter_error (f := fun (t : ℝ) (x : ℝ × ℝ × ℝ × ℝ) => w x.1 (x.2.1 + t * x.2.2.2) x.2.2.1) hK hf hh
  refine ⟨d, d0, dp, fun n φ hφ z hz => ?_⟩
  set h : ℝ := 2 * π / (m n : ℝ) with hh'
  have h0 : 0 < h := by have := hm' n; positivity
  have hmul : h * (m n : ℝ) = 2 * π := div_mul_cancel₀ _ (hm' n).ne'
  have hwc : Continuous fun l => w φ l z := hw.comp (f := fun l : ℝ => (φ, l, z)) (by fun_prop)
  obtain ⟨N, hN⟩ : ∃ N : ℕ, m n = 1 + (N : ℤ) := ⟨(m n - 1).toNat, by have := hm1 n; omega⟩
  have hN' : (m n : ℝ) = ((N + 1 : ℕ) : ℝ) := by rw [hN]; push_cast; ring
  have hsum : ∑ i ∈ Icc 1 (m n), w φ (h * ((i : ℝ) - 1)) z = ∑ r ∈ range (N + 1), w φ (h * (r : ℝ)) z := by
    rw [hN, QGAnalysis.sum_Icc_range]
    refine sum_congr rfl fun r _ => ?_
    push_cast
    rw [add_sub_cancel_left]
  have hint : ∫ l in (0 : ℝ)..2 * π, w φ l z = ∑ r ∈ range (N + 1), ∫ l in h * (r : ℝ)..h * ((r + 1 : ℕ) : ℝ), w φ l z := by
    rw [intervalIntegral.sum_integral_adjacent_intervals (a := fun r : ℕ => h * (r : ℝ)) fun r _ => hwc.intervalIntegrable _ _]
    rw [← hN', hmul]
    norm_num
  have hcell : ∀ r ∈ range (N + 1), |w φ (h * (r : ℝ)) z * h - ∫ l in h * (r : ℝ)..h * ((r + 1 : ℕ) : ℝ), w φ l z| ≤ d n * h := by
    intro r hr
    have hr2 : (r : ℝ) + 1 ≤ (m n : ℝ) := by
      rw [hN']
      exact_mod_cast (by have := mem_range.1 hr; omega : r + 1 ≤ N + 1)
    have hr0 : (0 : ℝ) ≤ (r : ℝ) := by positivity
    have e1 : h * ((r + 1 : ℕ) : ℝ) - h * (r : ℝ) = h := by push_cast; ring
    have e : w φ (h * (r : ℝ)) z * h - ∫ l in h * (r : ℝ)..h * ((r + 1 : ℕ) : ℝ), w φ l z =
        -∫ l in h * (r : ℝ)..h * ((r + 1 : ℕ) : ℝ), (w φ l z - w φ (h * (r : ℝ)) z) := by
      rw [intervalIntegral.integral_sub (hwc.intervalIntegrable _ _) intervalIntegrable_const, intervalIntegral.integral_const, smul_eq_mul, e1]
      ring
    rw [e, abs_neg, ← Real.norm_eq_abs]
    have := intervalIntegral.norm_integral_le_of_norm_le_const (a := h * (r : ℝ)) (b := h * ((r + 1 : ℕ) : ℝ)) (C := d n)
      (f := fun l => w φ l z - w φ (h * (r : ℝ)) z) (fun l hl => by
        rw [Set.uIoc_of_le (by rw [← sub_nonneg, e1]; exact h0.le)] at hl
        have e2 : h * ((r + 1 : ℕ) : ℝ) = h * r + h := by push_cast; ring
        have hl1 := hl.1
        have hl2 := hl.2
        rw [e2] at hl2
        have hs : (l - h * r) / h ∈ Set.Icc (0 : ℝ) 1 :=
          ⟨div_nonneg (by linarith) h0.le, by rw [div_le_one h0]; linarith⟩
        have hlon : h * (r : ℝ) ∈ Set.Icc (0 : ℝ) (2 * π) := ⟨by positivity, by rw [← hmul]; exact mul_le_mul_of_nonneg_left (by linarith) h0.le⟩
        have := hd n (φ, h * (r : ℝ), z, (l - h * r) / h) ⟨hφ, hlon, hz, hs⟩
        beta_reduce at this
        dsimp only at this
        rw [← hh', mul_div_cancel₀ _ h0.ne', zero_mul, add_zero, add_sub_cancel] at this
        exact this)
    rw [e1, abs_of_pos h0] at this
    exact this
  have hmean : circleMean (m n) (fun i => w φ (h * ((i : ℝ) - 1)) z) - (∫ l in (0 : ℝ)..2 * π, w φ l z) / (2 * π) =
      (∑ r ∈ range (N + 1), (w φ (h * (r : ℝ)) z * h - ∫ l in h * (r : ℝ)..h * ((r + 1 : ℕ) : ℝ), w φ l z)) / (2 * π) := by
    rw [sum_sub_distrib, ← sum_mul, sub_div, ← hint]
    unfold circleMean
    rw [hsum]
    congr 1
    rw [div_eq_div_iff (hm' n).ne' (by positivity), mul_assoc, hmul]
  rw [hmean, abs_div, abs_of_pos (by positivity : 0 < 2 * π), div_le_iff₀ (by positivity)]
  refine (abs_sum_le_sum_abs _ _).trans ((sum_le_sum hcell).trans (le_of_eq ?_))
  rw [sum_const, card_range, nsmul_eq_mul, ← hN', mul_comm (d n) h, ← mul_assoc, mul_comm _ h, hmul]
  ring

namespace Atmos

variable {F : Flow} {θ : ℝ → ℝ → ℝ → ℝ} {N S : Layers}

/-- Statement of C169: the QGPV of NH18 tends to the QGPV of the flow with the mean state of both hemispheres. -/
def C169_Statement : Prop :=
  ∀ (F : Flow) (θ : ℝ → ℝ → ℝ → ℝ) (N S L : Layers) (a om H top : ℝ) (A : ℕ → Atmos) (ε : ℕ → ℝ), F.IsCurl a top → L.Of θ H top →
    (∀ z, L.mean z = (N.mean z + S.mean z) / 2) → (∀ z, L.stability z = (N.stability z + S.stability z) / 2) →
    (∃ G, ∀ φ l z, 0 ≤ z → z ≤ top → |L.g φ l z| ≤ G) → Refines a om H top A → (∀ n, (A n).Observes F θ N S (ε n)) →
    (∀ n, 2 * ε n ≤ L.s) → Tendsto (fun n => ε n / (A n).dz) atTop (nhds 0) →
    ∃ e : ℕ → ℝ, Tendsto e atTop (nhds 0) ∧ ∀ n k, 2 ≤ k → k ≤ (A n).kmax - 1 →
      (A n).sphere.Samples (fun x l => F.qgpv om H L L x l ((A n).height k)) (e n) fun i j => (A n).qgpv .nh18 i j k

/-- **C169, what holds.** It tends to the QGPV with the zonal mean of the absolute vorticity in the stretching term. -/
theorem C169_limit_partial {L : Layers} {a om H top G : ℝ} {A : ℕ → Atmos} {ε : ℕ → ℝ} (hF : F.IsCurl a top) (hL : L.Of θ H top)
    (hmean : ∀ z, L.mean z = (N.mean z + S.mean z) / 2) (hstat : ∀ z, L.stability z = (N.stability z + S.stability z) / 2)
    (hG : ∀ φ l z, 0 ≤ z → z ≤ top → |L.g φ l z| ≤ G) (hA : Refines a om H top A) (hO : ∀ n, (A n).Observes F θ N S (ε n))
    (hεL : ∀ n, 2 * ε n ≤ L.s) (hε : Tendsto (fun n => ε n / (A n).dz) atTop (nhds 0)) :
    ∃ e : ℕ → ℝ, Tendsto e atTop (nhds 0) ∧ ∀ n k, 2 ≤ k → k ≤ (A n).kmax - 1 →
      (A n).sphere.Samples (fun x l => F.qgpvZonal om H L x l ((A n).height k)) (e n) fun i j => (A n).qgpv .nh18 i j k := by
  have hpi := pi_pos
  obtain ⟨e, e0, he⟩ := C168_vorticity hF hA hO
  have hcols : Tendsto (fun n => (A n).nlon) atTop atTop := by
    refine tendsto_atTop_mono (fun n => ?_) hA.rows
    have h1 := hA.square n
    have h2 := (hA.regular n).nd3
    have h3 := (hA.regular n).odd
    omega
  have hw : Continuous fun p : ℝ × ℝ × ℝ => (fun x l z => 2 * om * sin x + F.vort x l z) p.1 p.2.1 p.2.2 := by
    have := hF.continuous
    fun_prop
  obtain ⟨d, d0, dp, hd⟩ := circle_error (w := fun x l z => 2 * om * sin x + F.vort x l z) hw top (fun n => (hA.regular n).nlon1) hcols
  have hK : IsCompact (Set.Icc (-(π / 2)) (π / 2) ×ˢ (Set.Icc (0 : ℝ) (2 * π) ×ˢ Set.Icc 0 top)) :=
    isCompact_Icc.prod (isCompact_Icc.prod isCompact_Icc)
  obtain ⟨W, hW⟩ := hK.exists_bound_of_continuousOn hw.continuousOn
  set C : ℝ := 2 / L.s + 2 * L.M / L.s ^ 2 with hC
  have hdzs : Tendsto (fun n => (A n).dz ^ 2) atTop (nhds 0) := by
    have := hA.levels.pow 2
    rwa [zero_pow two_ne_zero] at this
  refine ⟨fun n => e n + ((W + e n) * exp (top / H) * (L.D * (A n).dz ^ 2 + C * (ε n / (A n).dz)) + (e n + d n) * (exp (top / H) * G)), ?_, ?_⟩
  · have t1 := (((e0.const_add W).mul_const (exp (top / H))).mul ((hdzs.const_mul L.D).add (hε.const_mul C)))
    have t2 := (e0.add d0).mul_const (exp (top / H) * G)
    have := e0.add (t1.add t2)
    simpa using this
  intro n k k1 k2 i j hm
  have hz := hA.height_mem n (k := k) (by omega) (by omega)
  have h1 := he n k (by omega) (by omega) i j hm
  have hgrid : ∀ i', 1 ≤ i' → i' ≤ (A n).nlon → (A n).sphere.Mem i' j := fun i' a1 a2 => ⟨⟨a1, a2⟩, hm.2⟩
  have hrow : ∀ i', 1 ≤ i' → i' ≤ (A n).nlon → |(A n).avort i' j k - (2 * om * sin ((A n).sphere.latitude j) +
      F.vort ((A n).sphere.latitude j) ((A n).sphere.longitude i') ((A n).height k))| ≤ e n :=
    fun i' a1 a2 => he n k (by omega) (by omega) i' j (hgrid i' a1 a2)
  beta_reduce at h1 ⊢
  rw [((C81_qgpv_partial (A n) i j k).1 k1 k2).2, hA.scale n]
  have hn2 : 2 ≤ (A n).sphere.n := by
    have h2 := (hA.regular n).nd3
    have h3 := (hA.regular n).odd
    show 2 ≤ (A n).nlat
    omega
  have hband := grid_mem_band hn2 (hA.regular n).nlon1 hm
  set φ := (A n).sphere.latitude j with hφ
  set l := (A n).sphere.longitude i with hl
  set z := (A n).height k with hzdef
  set c := circleMean (A n).nlon (fun i => (A n).avort i j k) with hc
  have hnl : (0 : ℝ) < ((A n).nlon : ℝ) := by exact_mod_cast (by have := (hA.regular n).nlon1; omega : 0 < (A n).nlon)
  have hcard : ((Icc 1 (A n).nlon).card : ℝ) = (A n).nlon := by
    rw [Int.card_Icc, ← Int.cast_natCast, Int.toNat_of_nonneg (by have := (hA.regular n).nlon1; omega)]
    push_cast
    ring
  have hφm : φ ∈ Set.Icc (-(π / 2)) (π / 2) := hband.1
  -- the mean of the row
  have hc1 : |c - circleMean (A n).nlon (fun i' => 2 * om * sin φ + F.vort φ ((A n).sphere.longitude i') z)| ≤ e n := by
    rw [hc]
    unfold circleMean
    rw [← sub_div, ← sum_sub_distrib, abs_div, abs_of_pos hnl, div_le_iff₀ hnl]
    refine (abs_sum_le_sum_abs _ _).trans ((sum_le_sum fun i' hi' => hrow i' (mem_Icc.1 hi').1 (mem_Icc.1 hi').2).trans (le_of_eq ?_))
    rw [sum_const, nsmul_eq_mul, hcard, mul_comm]
  have hc2 := hd n φ hφm z hz
  have hzv : (∫ l in (0 : ℝ)..2 * π, (2 * om * sin φ + F.vort φ l z)) / (2 * π) = 2 * om * sin φ + F.zonalVort φ z := by
    have hvc : Continuous fun l => F.vort φ l z := hF.continuous.comp (f := fun l : ℝ => (φ, l, z)) (by fun_prop)
    unfold Flow.zonalVort
    rw [intervalIntegral.integral_add intervalIntegrable_const (hvc.intervalIntegrable _ _), intervalIntegral.integral_const, smul_eq_mul,
      sub_zero, add_div, mul_div_cancel_left₀ _ (by positivity)]
  rw [hzv] at hc2
  have hc3 : |c - (2 * om * sin φ + F.zonalVort φ z)| ≤ e n + d n := (abs_sub_le _ _ _).trans (add_le_add hc1 hc2)
  have hc4 : |c| ≤ W + e n := by
    have hb : |circleMean (A n).nlon (fun i' => 2 * om * sin φ + F.vort φ ((A n).sphere.longitude i') z)| ≤ W := by
      unfold circleMean
      rw [abs_div, abs_of_pos hnl, div_le_iff₀ hnl]
      refine (abs_sum_le_sum_abs _ _).trans ((sum_le_sum (g := fun _ => W) fun i' hi' => ?_).trans (le_of_eq ?_))
      · have hb' := grid_mem_band hn2 (hA.regular n).nlon1 (hgrid i' (mem_Icc.1 hi').1 (mem_Icc.1 hi').2)
        exact hW (φ, (A n).sphere.longitude i', z) ⟨hφm, hb'.2, hz⟩
      · rw [sum_const, nsmul_eq_mul, hcard, mul_comm]
    have := abs_sub_abs_le_abs_sub c (circleMean (A n).nlon (fun i' => 2 * om * sin φ + F.vort φ ((A n).sphere.longitude i') z))
    linarith
  have hε0 : 0 ≤ ε n := (abs_nonneg _).trans ((hO n).meanN k (by omega) (by omega))
  have hdz := hA.dz0 n
  have pos : 0 ≤ L.D * (A n).dz ^ 2 + C * (ε n / (A n).dz) := by
    have hD := (hL.smooth φ l).nonneg
    have hM : 0 ≤ L.M := (abs_nonneg _).trans (hL.anomaly φ l _ hz.1 hz.2)
    have := hL.s0
    positivity
  have half : ∀ x y u v b : ℝ, |x - u| ≤ b → |y - v| ≤ b → |0.5 * (x + y) - (v + u) / 2| ≤ b := by
    intro x y u v b a1 a2
    rw [abs_le] at a1 a2 ⊢
    constructor <;> linarith
  have hst := stretching_error (f := c) (K := (A n).kmax) (t0 := (A n).t0) (stat := (A n).stat) (th := fun k => (A n).theta i j k)
    (φ := φ) (l := l) hL hA.scale0 hdz (hεL n) k1 k2 (hA.top n)
    (fun k a1 a2 => (hO n).theta i j k hm a1 a2)
    (fun k a1 a2 => by rw [hmean]; exact half _ _ _ _ _ ((hO n).meanS k a1 a2) ((hO n).meanN k a1 a2))
    (fun k a1 a2 => by rw [hstat]; exact half _ _ _ _ _ ((hO n).statS k a1 a2) ((hO n).statN k a1 a2))
  have hst2 := hst.trans (mul_le_mul_of_nonneg_right (mul_le_mul_of_nonneg_right hc4 (exp_pos (top / H)).le) pos)
  have hg : |exp (z / H) * L.g φ l z| ≤ exp (top / H) * G := by
    rw [abs_mul, abs_of_pos (exp_pos _)]
    exact mul_le_mul (exp_le_exp.2 (div_le_div_of_nonneg_right hz.2 hA.scale0.le)) (hG φ l z hz.1 hz.2) (abs_nonneg _) (exp_pos _).le
  have hprod : |c * (exp (z / H) * L.g φ l z) - (2 * om * sin φ + F.zonalVort φ z) * (exp (z / H) * L.g φ l z)| ≤
      (e n + d n) * (exp (top / H) * G) := by
    rw [← sub_mul, abs_mul]
    exact mul_le_mul hc3 hg (abs_nonneg _) ((abs_nonneg _).trans hc3)
  unfold Flow.qgpvZonal
  have hp : (A n).profile .nh18 j = (A n).t0 := rfl
  have hs' : (A n).stability .nh18 j = (A n).stat := rfl
  rw [hp, hs']
  have tri : ∀ X Y Z V : ℝ, |X + Y - (Z + V)| ≤ |X - Z| + |Y - V| := fun X Y Z V => by
    rw [show X + Y - (Z + V) = (X - Z) + (Y - V) by ring]
    exact abs_add_le _ _
  refine (tri _ _ _ _).trans (add_le_add h1 ?_)
  exact (abs_sub_le _ _ _).trans (add_le_add hst2 hprod)

/-! ### A planet whose air rotates faster than the ground -/

/-- Solid rotation. -/
def solid : Flow where
  U := fun φ _ _ => cos φ
  V := fun _ _ _ => 0
  vort := fun φ _ _ => 2 * sin φ
  dU := fun φ _ _ => -sin (2 * φ)
  ddU := fun φ _ _ => -(2 * cos (2 * φ))
  dV := fun _ _ _ => 0
  ddV := fun _ _ _ => 0
  D := 4

theorem solid_curl : solid.IsCurl 1 1 where
  zonal := fun _ _ _ _ => ⟨fun x => hasDerivAt_const x 0, fun x => hasDerivAt_const x 0, fun x y => by
    show |(0 : ℝ) - 0| ≤ 4 * |x - y|
    rw [sub_self, abs_zero]
    positivity⟩
  meridional := fun l _ _ _ => ⟨fun x => by
    have := (hasDerivAt_cos x).mul (hasDerivAt_cos x)
    refine this.congr_deriv ?_
    show _ = -sin (2 * x)
    rw [sin_two_mul]
    ring, fun x => by
    have := ((hasDerivAt_sin (2 * x)).comp x ((hasDerivAt_id x).const_mul 2)).neg
    refine this.congr_deriv ?_
    show _ = -(2 * cos (2 * x))
    ring, fun x y => by
    show |-(2 * cos (2 * x)) - -(2 * cos (2 * y))| ≤ 4 * |x - y|
    have h1 := abs_cos_sub_cos_le (2 * x) (2 * y)
    rw [show 2 * x - 2 * y = 2 * (x - y) by ring, abs_mul, abs_of_pos (by norm_num : (0 : ℝ) < 2)] at h1
    rw [show -(2 * cos (2 * x)) - -(2 * cos (2 * y)) = -(2 * (cos (2 * x) - cos (2 * y))) by ring, abs_neg, abs_mul,
      abs_of_pos (by norm_num : (0 : ℝ) < 2)]
    linarith⟩
  periodic := fun _ _ _ => rfl
  curl := fun φ l _ _ _ _ _ => by
    show 1 * cos φ * (2 * sin φ) = 0 - -sin (2 * φ)
    rw [sin_two_mul]
    ring
  continuous := by
    show Continuous fun p : ℝ × ℝ × ℝ => 2 * sin p.1
    fun_prop
  north := fun _ _ _ => rfl
  south := fun _ _ _ => rfl

/-- Solid rotation and the temperature wave of `polarWave`, sampled. -/
def solidWave (n : ℕ) : Atmos :=
  { polarWave n with
    uField := fun _ j _ => cos (SphereGrid.latitude ⟨4 * n + 8, 2 * n + 5, 1⟩ j)
    vField := fun _ _ _ => 0 }

theorem solidWave_refines : Refines 1 (1 / 2) 1 1 solidWave where
  regular := fun n => ⟨(polarWave_regular n).nlon1, (polarWave_regular n).odd, (polarWave_regular n).jb0, (polarWave_regular n).jd3,
    (polarWave_regular n).kmax3, (polarWave_regular n).npart2, (polarWave_regular n).a0, (polarWave_regular n).om0⟩
  square := polarWave_refines.square
  radius := polarWave_refines.radius
  rotation := polarWave_refines.rotation
  scale := polarWave_refines.scale
  scale0 := one_pos
  dz0 := polarWave_refines.dz0
  top := polarWave_refines.top
  rows := polarWave_refines.rows
  levels := polarWave_refines.levels

theorem solidWave_observes (n : ℕ) : (solidWave n).Observes solid thermalWave evenLayers evenLayers 0 where
  u := fun _ _ _ _ _ _ => rfl
  v := fun _ _ _ _ _ _ => rfl
  theta := (polarWave_observes n).theta
  meanN := (polarWave_observes n).meanN
  meanS := (polarWave_observes n).meanS
  statN := (polarWave_observes n).statN
  statS := (polarWave_observes n).statS

theorem evenLayers_bound (φ l z : ℝ) (_ : 0 ≤ z) (_ : z ≤ 1) : |evenLayers.g φ l z| ≤ 1 := by
  show |cos φ * cos l| ≤ 1
  rw [abs_mul]
  exact mul_le_one₀ (abs_cos_le_one φ) (abs_nonneg _) (abs_cos_le_one l)

/-- Hypotheses of `C169_limit_partial`. -/
theorem solidWave_limit : ∃ e : ℕ → ℝ, Tendsto e atTop (nhds 0) ∧ ∀ n k, 2 ≤ k → k ≤ (solidWave n).kmax - 1 →
    (solidWave n).sphere.Samples (fun x l => solid.qgpvZonal (1 / 2) 1 evenLayers x l ((solidWave n).height k)) (e n)
      fun i j => (solidWave n).qgpv .nh18 i j k :=
  C169_limit_partial (N := evenLayers) (S := evenLayers) solid_curl evenLayers_of (fun z => (add_self_div_two z).symm) (fun z => (add_self_div_two (1 : ℝ)).symm) evenLayers_bound
    solidWave_refines solidWave_observes (fun _ => by show 2 * (0 : ℝ) ≤ 1; norm_num) (by simp)

/-- **C169, refuted.** In solid rotation the difference stays at least 1 at 45°N, where the wave is warmest. -/
theorem C169_refuted : ¬ C169_Statement := by
  intro H
  have hpi := pi_pos
  obtain ⟨e, e0, he⟩ := H solid thermalWave evenLayers evenLayers evenLayers 1 (1 / 2) 1 1 solidWave (fun _ => 0) solid_curl evenLayers_of
    (fun z => (add_self_div_two z).symm) (fun z => (add_self_div_two (1 : ℝ)).symm) ⟨1, evenLayers_bound⟩
    solidWave_refines solidWave_observes (fun _ => by show 2 * (0 : ℝ) ≤ 1; norm_num) (by simp)
  obtain ⟨d, d0, hd⟩ := solidWave_limit
  have hsum : Tendsto (fun n => e n + d n) atTop (nhds 0) := by
    have := e0.add d0
    rwa [add_zero] at this
  have hev := hsum.eventually (gt_mem_nhds (by norm_num : (0 : ℝ) < 1))
  obtain ⟨M, hM⟩ := eventually_atTop.1 hev
  have h1 := hM (2 * M) (by omega)
  have hmem : (solidWave (2 * M)).sphere.Mem 1 (3 * M + 4) := by
    refine ⟨⟨le_rfl, ?_⟩, ?_, ?_⟩
    · show (1 : ℤ) ≤ 4 * ((2 * M : ℕ) : ℤ) + 8
      omega
    · omega
    · show (3 * M + 4 : ℤ) ≤ 2 * ((2 * M : ℕ) : ℤ) + 5
      omega
  have hk : (2 : ℤ) ≤ (solidWave (2 * M)).kmax - 1 := by
    show (2 : ℤ) ≤ ((2 * M : ℕ) : ℤ) + 3 - 1
    omega
  have a1 := he (2 * M) 2 le_rfl hk 1 (3 * M + 4) hmem
  have a2 := hd (2 * M) 2 le_rfl hk 1 (3 * M + 4) hmem
  beta_reduce at a1 a2
  have hlat : (solidWave (2 * M)).sphere.latitude (3 * M + 4) = π / 4 := by
    show -(π / 2) + π / (((2 * ((2 * M : ℕ) : ℤ) + 5 : ℤ) : ℝ) - 1) * (((3 * M + 4 : ℤ) : ℝ) - 1) = π / 4
    have e1 : (((2 * ((2 * M : ℕ) : ℤ) + 5 : ℤ) : ℝ) - 1) = 4 * ((M : ℝ) + 1) := by push_cast; ring
    have e2 : (((3 * M + 4 : ℤ) : ℝ) - 1) = 3 * ((M : ℝ) + 1) := by push_cast; ring
    rw [e1, e2]
    have : (0 : ℝ) < (M : ℝ) + 1 := by positivity
    generalize (M : ℝ) + 1 = x at *
    field_simp
    ring
  have hlon : (solidWave (2 * M)).sphere.longitude 1 = 0 := by
    show 2 * π / (((solidWave (2 * M)).sphere.m : ℤ) : ℝ) * (((1 : ℤ) : ℝ) - 1) = 0
    norm_num
  have hz : 0 ≤ (solidWave (2 * M)).height 2 := (solidWave_refines.height_mem (2 * M) (k := 2) (by omega) (by omega)).1
  rw [hlat, hlon] at a1 a2
  generalize (solidWave (2 * M)).height 2 = z at *
  have hzon : solid.zonalVort (π / 4) z = 2 * sin (π / 4) := by
    unfold Flow.zonalVort
    show (∫ _ in (0 : ℝ)..2 * π, 2 * sin (π / 4)) / (2 * π) = _
    rw [intervalIntegral.integral_const, smul_eq_mul, sub_zero, mul_div_cancel_left₀ _ (by positivity)]
  have hdiff : solid.qgpvZonal (1 / 2) 1 evenLayers (π / 4) 0 z - solid.qgpv (1 / 2) 1 evenLayers evenLayers (π / 4) 0 z = exp z := by
    unfold Flow.qgpvZonal Flow.qgpv
    rw [hzon, ite_self, div_one]
    show 2 * (1 / 2) * sin (π / 4) + 2 * sin (π / 4) + (2 * (1 / 2) * sin (π / 4) + 2 * sin (π / 4)) * (exp z * (cos (π / 4) * cos 0)) -
      (2 * (1 / 2) * sin (π / 4) + 2 * sin (π / 4) + 2 * (1 / 2) * sin (π / 4) * (exp z * (cos (π / 4) * cos 0))) = _
    rw [cos_zero, sin_pi_div_four, cos_pi_div_four]
    have : √2 * √2 = 2 := mul_self_sqrt (by norm_num)
    linear_combination (exp z / 2) * this
  have hexp : 1 ≤ exp z := one_le_exp hz
  rw [abs_le] at a1 a2
  linarith [a1.1, a1.2, a2.1, a2.2]

end Atmos

end Falwa
