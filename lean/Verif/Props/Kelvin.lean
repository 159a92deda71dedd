import Verif.Props.Circulation
import Verif.Props.RearrangeSamples
import Verif.Props.DirectInv

/-!
# C166: the boundary wind of the direct inversion and Kelvin's circulation

The unknown of the inversion is the zonal wind times the cosine of latitude. A wind `w` on a latitude circle has the circulation
`2 π a cos φ (w + Ω a cos φ)`, so the boundary value that belongs to the circulation `C` is `C / (2 π a) - Ω a cos² φ`. The code subtracts
`Ω a cos φ`.
-/

noncomputable section

namespace Falwa

open Finset Spec MeasureTheory

/-! ### Air at rest -/

section planetary

variable {a om φ : ℝ}

theorem planetary_continuous : Continuous fun p : ℝ × ℝ => (fun x _ : ℝ => 2 * om * Real.sin x) p.1 p.2 := by fun_prop

/-- Area of the points where the planetary vorticity is at most `w`. -/
theorem areaAtMost_planetary (hom : 0 < om) {w : ℝ} (h1 : -(2 * om) ≤ w) (h2 : w ≤ 2 * om) :
    areaAtMost a (fun x _ => 2 * om * Real.sin x) (-(Real.pi / 2)) (Real.pi / 2) w = 2 * Real.pi * a ^ 2 * (1 + w / (2 * om)) := by
  have h3 : -1 ≤ w / (2 * om) := by rw [le_div_iff₀ (by positivity)]; linarith
  have h4 : w / (2 * om) ≤ 1 := by rw [div_le_one (by positivity)]; linarith
  rw [areaAtMost_zonal (f := fun x => 2 * om * Real.sin x) (Real.neg_pi_div_two_le_arcsin (w / (2 * om)))
    (Real.arcsin_le_pi_div_two (w / (2 * om))) (fun x hx => by
      rw [← sin_le_iff hx h3 h4, le_div_iff₀ (by positivity), mul_comm]), Real.sin_arcsin h3 h4]

/-- The planetary vorticity at latitude `φ` encloses the area south of it. -/
theorem planetary_encloses (ha : 0 < a) (hom : 0 < om) (hφ0 : 0 ≤ φ) (hφ : φ < Real.pi / 2) :
    Encloses a (fun x _ => 2 * om * Real.sin x) (-(Real.pi / 2)) (Real.pi / 2) (southCap a φ) (2 * om * Real.sin φ) := by
  have hpi := Real.pi_pos
  have s0 : 0 ≤ Real.sin φ := Real.sin_nonneg_of_nonneg_of_le_pi hφ0 (by linarith)
  have s1 : Real.sin φ < 1 := by
    have := Real.strictMonoOn_sin (a := φ) (b := Real.pi / 2) ⟨by linarith, hφ.le⟩ ⟨by linarith, le_rfl⟩ hφ
    rwa [Real.sin_pi_div_two] at this
  have hc : 0 < 2 * Real.pi * a ^ 2 := by positivity
  constructor
  · intro w hw
    have h1 : max w (-(2 * om)) < 2 * om * Real.sin φ := max_lt hw (by nlinarith)
    have h3 : max w (-(2 * om)) ≤ 2 * om := by nlinarith
    have h2 := areaAtMost_mono (a := a) (q := fun x _ => 2 * om * Real.sin x) (planetary_continuous (om := om)) le_rfl le_rfl (le_max_left w (-(2 * om)))
    rw [areaAtMost_planetary hom (le_max_right _ _) h3] at h2
    refine h2.trans_lt ?_
    unfold southCap
    have : max w (-(2 * om)) / (2 * om) < Real.sin φ := by rw [div_lt_iff₀ (by positivity)]; linarith
    nlinarith
  · intro w hw
    have h1 : 2 * om * Real.sin φ < min w (2 * om) := lt_min hw (by nlinarith)
    have h3 : -(2 * om) ≤ min w (2 * om) := by nlinarith
    have h2 := areaAtMost_mono (a := a) (q := fun x _ => 2 * om * Real.sin x) (planetary_continuous (om := om)) le_rfl le_rfl (min_le_left w (2 * om))
    rw [areaAtMost_planetary hom h3 (min_le_right _ _)] at h2
    refine lt_of_lt_of_le ?_ h2
    unfold southCap
    have : Real.sin φ < min w (2 * om) / (2 * om) := by rw [lt_div_iff₀ (by positivity)]; linarith
    nlinarith

theorem planetary_highest (hom : 0 < om) : volume (highest fun x _ => 2 * om * Real.sin x) = 0 := by
  have : highest (fun x _ => 2 * om * Real.sin x) = highest fun x _ => Real.sin x := by
    unfold highest
    have h : ∀ x y : ℝ, 2 * om * Real.sin x ≤ 2 * om * Real.sin y ↔ Real.sin x ≤ Real.sin y := fun x y =>
      mul_le_mul_iff_of_pos_left (by positivity)
    simp only [h]
  rw [this]
  exact Atmos.sin_highest

/-- The circulation of the planetary vorticity is Kelvin's circulation of air at rest. -/
theorem planetary_circulation (hom : 0 < om) (hφ0 : 0 ≤ φ) (hφ : φ < Real.pi / 2) :
    refCirculation a (fun x _ => 2 * om * Real.sin x) (northCap a φ) (2 * om * Real.sin φ) = kelvin a om φ 0 := by
  have hpi := Real.pi_pos
  rw [refCirculation_eq planetary_continuous]
  have hF : Continuous fun p : ℝ × ℝ => (fun x _ : ℝ => 2 * om * (Real.sin x - Real.sin φ) * (a ^ 2 * Real.cos x)) p.1 p.2 := by fun_prop
  have e1 : (∫ p in band (-(Real.pi / 2)) (Real.pi / 2), max (2 * om * Real.sin p.1 - 2 * om * Real.sin φ) 0 * (a ^ 2 * Real.cos p.1)) =
      ∫ p in band (-(Real.pi / 2)) (Real.pi / 2),
        (band φ (Real.pi / 2)).indicator (fun p => 2 * om * (Real.sin p.1 - Real.sin φ) * (a ^ 2 * Real.cos p.1)) p := by
    refine setIntegral_congr_fun (measurableSet_band _ _) fun p hp => ?_
    have hmono := Real.strictMonoOn_sin
    by_cases h3 : φ ≤ p.1
    · have h4 : Real.sin φ ≤ Real.sin p.1 := hmono.monotoneOn ⟨by linarith, by linarith⟩ hp.1 h3
      rw [Set.indicator_of_mem (show p ∈ band φ (Real.pi / 2) from ⟨⟨h3, hp.1.2⟩, hp.2⟩), max_eq_left (by nlinarith)]
      ring
    · have h4 : Real.sin p.1 ≤ Real.sin φ := hmono.monotoneOn hp.1 ⟨by linarith, by linarith⟩ (not_le.1 h3).le
      rw [Set.indicator_of_notMem (fun h5 : p ∈ band φ (Real.pi / 2) => h3 h5.1.1), max_eq_right (by nlinarith), zero_mul]
  have e2 : band (-(Real.pi / 2)) (Real.pi / 2) ∩ band φ (Real.pi / 2) = band φ (Real.pi / 2) :=
    Set.inter_eq_right.2 fun p hp => ⟨⟨by linarith [hp.1.1], hp.1.2⟩, hp.2⟩
  have e3 := iterated_eq (F := fun x _ => 2 * om * (Real.sin x - Real.sin φ) * (a ^ 2 * Real.cos x)) hF hφ.le
    (by positivity : (0 : ℝ) ≤ 2 * Real.pi)
  have e4 : (∫ x in φ..Real.pi / 2, 2 * Real.pi * (2 * om * (Real.sin x - Real.sin φ) * (a ^ 2 * Real.cos x))) =
      2 * Real.pi * om * a ^ 2 * (1 - Real.sin φ) ^ 2 := by
    have := intervalIntegral.integral_eq_sub_of_hasDerivAt (a := φ) (b := Real.pi / 2)
      (f := fun x => 2 * Real.pi * om * a ^ 2 * (Real.sin x - Real.sin φ) ^ 2)
      (f' := fun x => 2 * Real.pi * (2 * om * (Real.sin x - Real.sin φ) * (a ^ 2 * Real.cos x)))
      (fun x _ => by
        have h1 := (((Real.hasDerivAt_sin x).sub_const (Real.sin φ)).pow 2).const_mul (2 * Real.pi * om * a ^ 2)
        refine h1.congr_deriv ?_
        norm_num
        ring)
      (Continuous.intervalIntegrable (by fun_prop) _ _)
    rw [this, Real.sin_pi_div_two, sub_self]
    ring
  rw [e1, setIntegral_indicator (measurableSet_band _ _), e2, band, ← e3]
  simp only [intervalIntegral.integral_const, sub_zero, smul_eq_mul]
  rw [e4]
  unfold northCap kelvin
  have h2 := Real.sin_sq_add_cos_sq φ
  linear_combination (-(2 * Real.pi * a ^ 2 * om)) * h2

end planetary

namespace Atmos

/-- The absolute vorticity of air at rest samples the planetary vorticity, up to the rows of the poles. -/
theorem rest_samples {A : Atmos} (hA : A.Regular) (hn : 2 ≤ A.nlon) (hom : 0 < A.om) (hu : ∀ i j k, A.u i j k = 0)
    (hv : ∀ i j k, A.v i j k = 0) (k : ℤ) :
    A.sphere.Samples (fun x _ => 2 * A.om * Real.sin x) (2 * A.om * A.dphi) fun x y => A.avort x y k := by
  intro x y hm
  have h3 := hA.nd3
  have hodd := hA.odd
  have h4 : (4 : ℤ) ≤ A.nlat := by omega
  have hd : 0 ≤ A.dphi := by
    have : (0 : ℝ) ≤ ((A.nlat - 1 : ℤ) : ℝ) := by exact_mod_cast (by omega : 0 ≤ A.nlat - 1)
    have := Real.pi_pos
    unfold Atmos.dphi
    positivity
  have hstep : ∀ r, A.lat (r + 1) - A.lat r = A.dphi := by
    intro r
    unfold lat
    push_cast
    ring
  have hinner : ∀ x r, 2 ≤ r → r ≤ A.nlat - 1 → A.avort x r k = 2 * A.om * Real.sin (A.lat r) := by
    intro x r r1 r2
    have hl : latitude A.nlat r = A.lat r := by
      unfold latitude lat Atmos.dphi
      rw [hodd]
      have : (((2 * A.nd - 1 : ℤ) : ℝ) - 1) ≠ 0 := by
        have : (3 : ℝ) ≤ (A.nd : ℝ) := by exact_mod_cast h3
        push_cast
        intro h
        linarith
      push_cast at this ⊢
      field_simp
      ring
    rw [C82_rest A hn hu hv x r k r1 r2, hl]
  have hmean : ∀ r, 2 ≤ r → r ≤ A.nlat - 1 → circleMean A.nlon (fun x => A.avort x r k) = 2 * A.om * Real.sin (A.lat r) := by
    intro r r1 r2
    have h0' : (0 : ℝ) < (A.nlon : ℝ) := by exact_mod_cast (by omega : 0 < A.nlon)
    have hc : ((Icc (1 : ℤ) A.nlon).card : ℝ) = A.nlon := by
      rw [Int.card_Icc]
      have : ((A.nlon + 1 - 1).toNat : ℤ) = A.nlon := by omega
      exact_mod_cast this
    unfold circleMean
    simp only [hinner _ r r1 r2]
    rw [sum_const, nsmul_eq_mul, hc, mul_div_cancel_left₀ _ h0'.ne']
  have habs : ∀ s t : ℝ, |2 * A.om * Real.sin s - 2 * A.om * Real.sin t| ≤ 2 * A.om * |s - t| := by
    intro s t
    rw [← mul_sub, abs_mul, abs_of_pos (by positivity : 0 < 2 * A.om)]
    exact mul_le_mul_of_nonneg_left (Real.abs_sin_sub_sin_le _ _) (by positivity)
  show |A.avort x y k - 2 * A.om * Real.sin (A.sphere.latitude y)| ≤ _
  rw [lat_sphere hA]
  have hy1 : 1 ≤ y := hm.2.1
  have hy2 : y ≤ A.nlat := hm.2.2
  rcases eq_or_lt_of_le hy1 with e1 | e1
  · rw [← e1, (C82_pole_rows A h4 x k).1, hmean 2 le_rfl (by omega)]
    refine (habs _ _).trans ?_
    have := hstep 1
    rw [show (1 : ℤ) + 1 = 2 by norm_num] at this
    rw [this, abs_of_nonneg hd]
  · rcases eq_or_lt_of_le hy2 with e2 | e2
    · rw [e2, (C82_pole_rows A h4 x k).2, hmean _ (by omega) le_rfl]
      refine (habs _ _).trans ?_
      have := hstep (A.nlat - 1)
      rw [show A.nlat - 1 + 1 = A.nlat by ring] at this
      rw [abs_sub_comm, this, abs_of_nonneg hd]
    · rw [hinner x y (by omega) (by omega), sub_self, abs_zero]
      positivity

end Atmos

/-! ### The boundary condition -/

namespace NhnIn

/-- The wind on the equatorward boundary is the one that has the circulation of the reference state. -/
def C166_Statement : Prop :=
  ∀ (I : NhnIn), I.Geometry → I.Physical → ∀ (k : ℤ), 2 ≤ k → k ≤ I.kmax - 1 → ∀ w : ℝ,
    I.ckref (I.jb + 1) k = kelvin I.a I.om (I.dphi * (I.jb : ℝ)) w → I.bound k = w * Real.cos (I.dphi * (I.jb : ℝ))

variable {I : NhnIn}

/-- **C166 (what the boundary value is).** It is too small by `Ω a cos φ (1 - cos φ)`. -/
theorem C166_exact (hG : I.Geometry) (hP : I.Physical) (k : ℤ) (w : ℝ)
    (h : I.ckref (I.jb + 1) k = kelvin I.a I.om (I.dphi * (I.jb : ℝ)) w) :
    I.bound k = w * Real.cos (I.dphi * (I.jb : ℝ)) -
      I.om * I.a * Real.cos (I.dphi * (I.jb : ℝ)) * (1 - Real.cos (I.dphi * (I.jb : ℝ))) := by
  have ha := hP.a0
  have hpi := Real.pi_pos
  unfold bound
  rw [h, dp_eq hG]
  unfold kelvin
  field_simp
  ring

/-- The boundary row of a geometry is in the open northern hemisphere unless `jb` is 0. -/
theorem boundary_range (hG : I.Geometry) : 0 ≤ I.dphi * (I.jb : ℝ) ∧ I.dphi * (I.jb : ℝ) < Real.pi / 2 ∧
    (I.dphi * (I.jb : ℝ) = 0 ↔ I.jb = 0) := by
  have hpi := Real.pi_pos
  have h0 := hG.jb0
  have h3 := hG.jd3
  have hodd := hG.odd
  have hjd : I.jd = I.nd - I.jb := rfl
  have e1 : ((I.jmax : ℝ) - 1) = 2 * ((I.nd : ℝ) - 1) := by rw [hodd]; push_cast; ring
  have n1 : (0 : ℝ) < (I.nd : ℝ) - 1 := by
    have : (1 : ℝ) < (I.nd : ℝ) := by exact_mod_cast (by omega : 1 < I.nd)
    linarith
  have hd : I.dphi = Real.pi / (2 * ((I.nd : ℝ) - 1)) := by rw [hG.dphiEq, e1]
  have hd0 : 0 < I.dphi := by rw [hd]; positivity
  have hj : (0 : ℝ) ≤ (I.jb : ℝ) := by exact_mod_cast h0
  refine ⟨by positivity, ?_, ?_⟩
  · have hlt : (I.jb : ℝ) < (I.nd : ℝ) - 1 := by
      have : (I.jb : ℝ) < ((I.nd - 1 : ℤ) : ℝ) := by exact_mod_cast (by omega : I.jb < I.nd - 1)
      push_cast at this
      exact this
    rw [hd, div_mul_eq_mul_div, div_lt_div_iff₀ (by positivity) (by norm_num)]
    nlinarith
  · rw [mul_eq_zero]
    exact ⟨fun h => by
      rcases h with h | h
      · exact absurd h hd0.ne'
      · exact_mod_cast h, fun h => Or.inr (by exact_mod_cast h)⟩

/-- **C166 (when it is right).** Only if the boundary is the equator. -/
theorem C166_iff (hG : I.Geometry) (hP : I.Physical) (k : ℤ) (w : ℝ)
    (h : I.ckref (I.jb + 1) k = kelvin I.a I.om (I.dphi * (I.jb : ℝ)) w) :
    I.bound k = w * Real.cos (I.dphi * (I.jb : ℝ)) ↔ I.jb = 0 := by
  obtain ⟨r1, r2, r3⟩ := boundary_range hG
  have hpi := Real.pi_pos
  have hc : 0 < Real.cos (I.dphi * (I.jb : ℝ)) := Real.cos_pos_of_mem_Ioo ⟨by linarith, r2⟩
  have ha := hP.a0
  have ho := hP.om0
  rw [C166_exact hG hP k w h, ← r3]
  constructor
  · intro h1
    have h2 : I.om * I.a * Real.cos (I.dphi * (I.jb : ℝ)) * (1 - Real.cos (I.dphi * (I.jb : ℝ))) = 0 := by linarith
    have h3 : 1 - Real.cos (I.dphi * (I.jb : ℝ)) = 0 := by
      rcases mul_eq_zero.1 h2 with h4 | h4
      · exact absurd h4 (by positivity)
      · exact h4
    exact Real.injOn_cos ⟨r1, by linarith⟩ ⟨le_rfl, hpi.le⟩ (by rw [Real.cos_zero]; linarith)
  · intro h1
    rw [h1, Real.cos_zero]
    ring

/-- There is always exactly one wind with a given circulation. -/
theorem kelvin_wind {a om φ C : ℝ} (ha : 0 < a) (hc : 0 < Real.cos φ) (w : ℝ) :
    C = kelvin a om φ w ↔ w = C / (2 * Real.pi * a * Real.cos φ) - om * a * Real.cos φ := by
  have hpi := Real.pi_pos
  unfold kelvin
  constructor
  · rintro rfl
    field_simp
    ring
  · rintro rfl
    field_simp
    ring

/-- **C166 (refuted).** A sample with the boundary at 22.5 degrees. -/
theorem C166_refuted : ¬ C166_Statement := by
  intro h
  have hG : (sample 1).Geometry := sample_geometry 1
  have hP : (sample 1).Physical := sample_physical (by norm_num)
  obtain ⟨r1, r2, _⟩ := boundary_range hG
  have hpi := Real.pi_pos
  have hc : 0 < Real.cos ((sample 1).dphi * ((sample 1).jb : ℝ)) := Real.cos_pos_of_mem_Ioo ⟨by linarith, r2⟩
  have hw := (kelvin_wind (om := (sample 1).om) (C := (sample 1).ckref ((sample 1).jb + 1) 2) hP.a0 hc _).2 rfl
  have := (C166_iff hG hP 2 _ hw).1 (h _ hG hP 2 le_rfl (by show (2 : ℤ) ≤ 3 - 1; decide) _ hw)
  exact absurd this (by show (1 : ℤ) ≠ 0; decide)

end NhnIn

namespace Atmos

/-- **C166 (air at rest).** On ever finer grids, the boundary value for air at rest tends to an easterly wind, unless the boundary tends to
the equator. -/
theorem C166_rest {A : ℕ → Atmos} {k : ℕ → ℤ} {a om φ : ℝ} (ha : 0 < a) (hom0 : 0 < om) (hA : ∀ i, (A i).Regular)
    (hk : ∀ i, 2 ≤ k i ∧ k i ≤ (A i).kmax - 1) (hr : ∀ i, (A i).a = a) (hom : ∀ i, (A i).om = om)
    (hn : ∀ i, 2 ≤ (A i).nlon) (hu : ∀ i x y l, (A i).u x y l = 0) (hv : ∀ i x y l, (A i).v x y l = 0)
    (hrows : Filter.Tendsto (fun i => (A i).nlat) Filter.atTop Filter.atTop)
    (hcols : Filter.Tendsto (fun i => (A i).nlon) Filter.atTop Filter.atTop)
    (hb : Filter.Tendsto (fun i => (A i).lat ((A i).nd + (A i).jb)) Filter.atTop (nhds φ)) (hφ0 : 0 ≤ φ) (hφ : φ < Real.pi / 2) :
    Filter.Tendsto (fun i => (A i).nhnN.bound (k i)) Filter.atTop (nhds (-(om * a * Real.cos φ * (1 - Real.cos φ)))) := by
  have hpi := Real.pi_pos
  have hdphi : Filter.Tendsto (fun i => (A i).dphi) Filter.atTop (nhds 0) := by
    unfold Atmos.dphi
    refine tendsto_const_nhds.div_atTop (tendsto_intCast_atTop_atTop.comp ?_)
    exact Filter.tendsto_atTop_add_const_right _ (-1) hrows
  have he : Filter.Tendsto (fun i => 2 * om * (A i).dphi) Filter.atTop (nhds 0) := by
    have := hdphi.const_mul (2 * om)
    rwa [mul_zero] at this
  have key := (C165_boundary ha (planetary_continuous (om := om)) (planetary_highest hom0) hA hk hr hom hrows hcols
    (fun i => by
      have := rest_samples (hA i) (hn i) (by rw [hom i]; exact hom0) (hu i) (hv i) (k i)
      rwa [hom i] at this) he hb hφ0 hφ (planetary_encloses ha hom0 hφ0 hφ)).2
  rw [planetary_circulation hom0 hφ0 hφ] at key
  have e : kelvin a om φ 0 / (2 * Real.pi * a) - om * a * Real.cos φ = -(om * a * Real.cos φ * (1 - Real.cos φ)) := by
    unfold kelvin
    field_simp
    ring
  rwa [e] at key

/-- Air at rest with the boundary at 45 degrees. -/
def restHigh (i : ℕ) : Atmos := { still (2 * i + 4) with jb := i + 3 }

theorem restHigh_nd (i : ℕ) : (restHigh i).nd = 2 * i + 7 := by
  show (2 * ((2 * i + 4 : ℕ) : ℤ) + 5) / 2 + (2 * ((2 * i + 4 : ℕ) : ℤ) + 5) % 2 = 2 * i + 7
  omega

theorem restHigh_regular (i : ℕ) : (restHigh i).Regular where
  nlon1 := by show (1 : ℤ) ≤ ((2 * i + 4 : ℕ) : ℤ) + 2; omega
  odd := by rw [restHigh_nd]; show (2 * ((2 * i + 4 : ℕ) : ℤ) + 5 : ℤ) = _; push_cast; ring
  jb0 := by show (0 : ℤ) ≤ i + 3; omega
  jd3 := by unfold jd; rw [restHigh_nd]; show (3 : ℤ) ≤ 2 * i + 7 - (i + 3); omega
  kmax3 := by show (3 : ℤ) ≤ 4; omega
  npart2 := by show (2 : ℤ) ≤ 2 * ((2 * i + 4 : ℕ) : ℤ) + 5; omega
  a0 := by show (0 : ℝ) < 1; norm_num
  om0 := by show (1 / 2 : ℝ) ≠ 0; norm_num

theorem restHigh_boundary (i : ℕ) : (restHigh i).lat ((restHigh i).nd + (restHigh i).jb) = Real.pi / 4 := by
  unfold lat Atmos.dphi
  rw [add_sub_cancel_left]
  show Real.pi / ((2 * ((2 * i + 4 : ℕ) : ℤ) + 5 - 1 : ℤ) : ℝ) * ((i + 3 : ℤ) : ℝ) = _
  have : (0 : ℝ) < (i : ℝ) + 3 := by positivity
  push_cast
  rw [show (2 * (2 * (i : ℝ) + 4) + 5 - 1) = 4 * ((i : ℝ) + 3) by ring]
  field_simp

theorem restHigh_rows : Filter.Tendsto (fun i => (restHigh i).nlat) Filter.atTop Filter.atTop :=
  Filter.tendsto_atTop_mono (fun i => by show (i : ℤ) ≤ 2 * ((2 * i + 4 : ℕ) : ℤ) + 5; omega) tendsto_natCast_atTop_atTop

theorem restHigh_cols : Filter.Tendsto (fun i => (restHigh i).nlon) Filter.atTop Filter.atTop :=
  Filter.tendsto_atTop_mono (fun i => by show (i : ℤ) ≤ ((2 * i + 4 : ℕ) : ℤ) + 2; omega) tendsto_natCast_atTop_atTop

/-- Hypotheses of C165 and C166: air at rest, boundary at 45 degrees. -/
example : (∀ i, (restHigh i).Regular) ∧ (∀ i, (restHigh i).a = 1) ∧ (∀ i, (restHigh i).om = 1 / 2) ∧
    (∀ i, 2 ≤ (2 : ℤ) ∧ 2 ≤ (restHigh i).kmax - 1) ∧ (∀ i, 2 ≤ (restHigh i).nlon) ∧
    (∀ i x y l, (restHigh i).u x y l = 0) ∧ (∀ i x y l, (restHigh i).v x y l = 0) ∧
    Filter.Tendsto (fun i => (restHigh i).nlat) Filter.atTop Filter.atTop ∧
    Filter.Tendsto (fun i => (restHigh i).nlon) Filter.atTop Filter.atTop ∧
    Filter.Tendsto (fun i => (restHigh i).lat ((restHigh i).nd + (restHigh i).jb)) Filter.atTop (nhds (Real.pi / 4)) ∧
    (∀ i, (restHigh i).sphere.Samples (fun x _ => 2 * (1 / 2) * Real.sin x) (2 * (1 / 2) * (restHigh i).dphi)
      fun x y => (restHigh i).avort x y 2) ∧
    volume (highest fun x _ => 2 * (1 / 2) * Real.sin x) = 0 ∧
    Encloses 1 (fun x _ => 2 * (1 / 2) * Real.sin x) (-(Real.pi / 2)) (Real.pi / 2) (southCap 1 (Real.pi / 4))
      (2 * (1 / 2) * Real.sin (Real.pi / 4)) := by
  have hpi := Real.pi_pos
  refine ⟨restHigh_regular, fun _ => rfl, fun _ => rfl, fun _ => ⟨le_rfl, by show (2 : ℤ) ≤ 4 - 1; omega⟩,
    fun i => by show (2 : ℤ) ≤ ((2 * i + 4 : ℕ) : ℤ) + 2; omega, fun _ _ _ _ => rfl, fun _ _ _ _ => rfl, restHigh_rows, restHigh_cols, ?_,
    fun i => rest_samples (restHigh_regular i) (by show (2 : ℤ) ≤ ((2 * i + 4 : ℕ) : ℤ) + 2; omega)
      (by show (0 : ℝ) < 1 / 2; norm_num) (fun _ _ _ => rfl) (fun _ _ _ => rfl) 2,
    planetary_highest (by norm_num), planetary_encloses (by norm_num) (by norm_num) (by positivity) (by linarith)⟩
  exact tendsto_const_nhds.congr fun i => (restHigh_boundary i).symm

/-- The value of the sample is not 0. -/
example : -((1 / 2 : ℝ) * 1 * Real.cos (Real.pi / 4) * (1 - Real.cos (Real.pi / 4))) < 0 := by
  rw [Real.cos_pi_div_four]
  have h1 : 0 < Real.sqrt 2 := by positivity
  have h2 : Real.sqrt 2 < 2 := by rw [Real.sqrt_lt' (by norm_num)]; norm_num
  nlinarith

end Atmos

end Falwa
