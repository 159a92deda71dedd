import Verif.Spec.Barotropic
import Verif.Props.Conserved
import Verif.Props.Circulation
import Verif.Lemmas.Bands

/-!
# C192, C193: zonal wind and wave activity of barotropic flow
-/

noncomputable section

namespace Falwa

open MeasureTheory Filter Set Real Spec

variable {a om φ v : ℝ} {U V q : ℝ → ℝ → ℝ}

/-- Stokes' theorem for a polar cap. -/
theorem cap_stokes (h : AbsoluteVorticity a om U V q) (h1 : -(π / 2) ≤ φ) (h2 : φ ≤ π / 2) :
    ∫ l in (0 : ℝ)..2 * π, ∫ x in φ..π / 2, q x l * (a * cos x) =
      (∫ l in (0 : ℝ)..2 * π, U φ l * cos φ) + 2 * π * (a * om * cos φ ^ 2) := by
  obtain ⟨dU, dV, hU, hV, cU, cV, hc⟩ := h.curl
  have cU' : ∀ l, Continuous fun x => dU x l := fun l => cU.comp (f := fun x : ℝ => (x, l)) (by fun_prop)
  have cV' : ∀ l, Continuous fun x => dV x l := fun l => cV.comp (f := fun x : ℝ => (x, l)) (by fun_prop)
  have cV2 : ∀ x, Continuous fun l => dV x l := fun x => cV.comp (f := fun l : ℝ => (x, l)) (by fun_prop)
  have inner : ∀ l, ∫ x in φ..π / 2, q x l * (a * cos x) = (∫ x in φ..π / 2, dV x l) + (U φ l * cos φ + a * om * cos φ ^ 2) := by
    intro l
    have e : ∫ x in φ..π / 2, q x l * (a * cos x) = ∫ x in φ..π / 2, (dV x l - dU x l + a * om * (2 * sin x * cos x)) := by
      refine intervalIntegral.integral_congr fun x hx => ?_
      rw [uIcc_of_le h2] at hx
      have := hc x l (h1.trans hx.1) hx.2
      linear_combination this
    have iU : ∫ x in φ..π / 2, dU x l = -(U φ l * cos φ) := by
      rw [intervalIntegral.integral_eq_sub_of_hasDerivAt (fun x _ => hU x l) ((cU' l).intervalIntegrable _ _), cos_pi_div_two]
      ring
    have iS : ∫ x in φ..π / 2, 2 * sin x * cos x = cos φ ^ 2 := by
      rw [intervalIntegral.integral_eq_sub_of_hasDerivAt (f := fun x => sin x ^ 2) (fun x _ => by
        have := (hasDerivAt_sin x).mul (hasDerivAt_sin x)
        refine (this.congr_deriv (by ring)).congr_of_eventuallyEq (Eventually.of_forall fun y => ?_)
        exact pow_two (sin y)) ((by fun_prop : Continuous fun x => 2 * sin x * cos x).intervalIntegrable _ _), sin_pi_div_two]
      have := sin_sq_add_cos_sq φ
      linarith
    have i1 := (cV' l).intervalIntegrable (μ := volume) φ (π / 2)
    have i2 := (cU' l).intervalIntegrable (μ := volume) φ (π / 2)
    have i3 := (by fun_prop : Continuous fun x => a * om * (2 * sin x * cos x)).intervalIntegrable (μ := volume) φ (π / 2)
    rw [e, intervalIntegral.integral_add (i1.sub i2) i3, intervalIntegral.integral_sub i1 i2, iU, intervalIntegral.integral_const_mul, iS]
    ring
  have zero : ∫ l in (0 : ℝ)..2 * π, ∫ x in φ..π / 2, dV x l = 0 := by
    rw [intervalIntegral_intervalIntegral_swap]
    · have : ∀ x, ∫ l in (0 : ℝ)..2 * π, dV x l = 0 := fun x => by
        rw [intervalIntegral.integral_eq_sub_of_hasDerivAt (fun l _ => hV x l) ((cV2 x).intervalIntegrable _ _)]
        have := h.periodic x 0
        rw [zero_add] at this
        rw [this, sub_self]
      simp only [this, intervalIntegral.integral_zero]
    · have c : Continuous fun p : ℝ × ℝ => dV p.2 p.1 := cV.comp (f := fun p : ℝ × ℝ => (p.2, p.1)) (by fun_prop)
      exact (c.continuousOn.integrableOn_compact (isCompact_uIcc.prod isCompact_uIcc)).mono_set (Set.prod_mono uIoc_subset_uIcc uIoc_subset_uIcc)
  simp only [inner]
  have c1 : Continuous fun l => ∫ x in φ..π / 2, dV x l :=
    intervalIntegral.continuous_parametric_intervalIntegral_of_continuous' (f := fun l x => dV x l)
      (cV.comp (f := fun p : ℝ × ℝ => (p.2, p.1)) (by fun_prop)) _ _
  have c2 : Continuous fun l => U φ l * cos φ :=
    (h.wind.comp (f := fun l : ℝ => (φ, l)) (by fun_prop)).mul continuous_const
  have c3 : Continuous fun l => U φ l * cos φ + a * om * cos φ ^ 2 := c2.add continuous_const
  rw [intervalIntegral.integral_add (c1.intervalIntegrable _ _) (c3.intervalIntegrable _ _), zero,
    intervalIntegral.integral_add (c2.intervalIntegrable _ _) intervalIntegrable_const, intervalIntegral.integral_const, smul_eq_mul]
  ring

/-- Wave activity of a meridian: the excess over the reference value less the integral of the anomaly over the polar cap. -/
theorem meridional_excess {f : ℝ → ℝ} (hf : Continuous f) (w φ' : ℝ) :
    meridionalWaveActivity a f w (-(π / 2)) (π / 2) φ' =
      (∫ x in -(π / 2)..π / 2, max (f x - w) 0 * (a * cos x)) - ((∫ x in φ'..π / 2, f x * (a * cos x)) - w * ∫ x in φ'..π / 2, a * cos x) := by
  have c1 : Continuous fun x => max (f x - w) 0 * (a * cos x) := by fun_prop
  have c2 : Continuous fun x => max (w - f x) 0 * (a * cos x) := by fun_prop
  have c3 : Continuous fun x => f x * (a * cos x) := by fun_prop
  have c4 : Continuous fun x => w * (a * cos x) := by fun_prop
  have c5 : Continuous fun x => f x * (a * cos x) - w * (a * cos x) := c3.sub c4
  have s := intervalIntegral.integral_add_adjacent_intervals (c1.intervalIntegrable (μ := volume) (-(π / 2)) φ')
    (c1.intervalIntegrable (μ := volume) φ' (π / 2))
  have e : ∫ x in φ'..π / 2, max (w - f x) 0 * (a * cos x) =
      (∫ x in φ'..π / 2, max (f x - w) 0 * (a * cos x)) - ((∫ x in φ'..π / 2, f x * (a * cos x)) - ∫ x in φ'..π / 2, w * (a * cos x)) := by
    rw [← intervalIntegral.integral_sub (c3.intervalIntegrable _ _) (c4.intervalIntegrable _ _),
      ← intervalIntegral.integral_sub (c1.intervalIntegrable _ _) (c5.intervalIntegrable _ _)]
    refine intervalIntegral.integral_congr fun x _ => ?_
    rcases le_total (f x) w with h | h
    · rw [max_eq_left (sub_nonneg.2 h), max_eq_right (sub_nonpos.2 h)]; ring
    · rw [max_eq_right (sub_nonpos.2 h), max_eq_left (sub_nonneg.2 h)]; ring
  unfold meridionalWaveActivity
  rw [e, ← s, intervalIntegral.integral_const_mul]
  ring

theorem waveActivity_continuous (hq : Continuous fun p : ℝ × ℝ => q p.1 p.2) (φ' : ℝ) :
    Continuous fun l => meridionalWaveActivity a (fun x => q x l) v (-(π / 2)) (π / 2) φ' := by
  have hs : Continuous fun p : ℝ × ℝ => q p.2 p.1 := hq.comp (f := fun p : ℝ × ℝ => (p.2, p.1)) (by fun_prop)
  unfold meridionalWaveActivity
  refine Continuous.add ?_ ?_
  · exact intervalIntegral.continuous_parametric_intervalIntegral_of_continuous' (f := fun l x => max (v - q x l) 0 * (a * cos x))
      (((continuous_const.sub hs).max continuous_const).mul (by fun_prop)) _ _
  · exact intervalIntegral.continuous_parametric_intervalIntegral_of_continuous' (f := fun l x => max (q x l - v) 0 * (a * cos x))
      (((hs.sub continuous_const).max continuous_const).mul (by fun_prop)) _ _

/-- The circulation of the reference state by the total excess over the reference value. -/
theorem refCirculation_excess (hq : Continuous fun p : ℝ × ℝ => q p.1 p.2) (T v : ℝ) :
    refCirculation a q T v = a * excess a q v + v * T := by
  have c : Continuous fun p : ℝ × ℝ => max (q p.1 p.2 - v) 0 * (a ^ 2 * cos p.1) := by fun_prop
  rw [refCirculation_eq hq, band_swap c]
  unfold excess
  rw [← intervalIntegral.integral_const_mul]
  congr 1
  refine intervalIntegral.integral_congr fun l _ => ?_
  rw [← intervalIntegral.integral_const_mul]
  refine intervalIntegral.integral_congr fun x _ => ?_
  ring

/-- **C192 on the sphere.** The zonal mean of the zonal wind plus the zonal mean of wave activity (over `cos φ`) is the zonal wind whose
circulation is that of the reference state. -/
theorem C192_sphere (h : AbsoluteVorticity a om U V q) (h1 : -(π / 2) < φ) (h2 : φ < π / 2) (v : ℝ) :
    kelvin a om φ (longitudeMean (U φ) + longitudeMean (fun l => meridionalWaveActivity a (fun x => q x l) v (-(π / 2)) (π / 2) φ) / cos φ) =
      refCirculation a q (northCap a φ) v := by
  have hpi := pi_pos
  have hcos : cos φ ≠ 0 := (cos_pos_of_mem_Ioo ⟨h1, h2⟩).ne'
  have hq := h.continuous
  have hs : Continuous fun p : ℝ × ℝ => q p.2 p.1 := hq.comp (f := fun p : ℝ × ℝ => (p.2, p.1)) (by fun_prop)
  have st := cap_stokes h h1.le h2.le
  have hm : ∀ l, Continuous fun x => q x l := fun l => hq.comp (f := fun x : ℝ => (x, l)) (by fun_prop)
  have hcap : ∫ x in φ..π / 2, a * cos x = a * (1 - sin φ) := by
    rw [intervalIntegral.integral_const_mul, integral_cos, sin_pi_div_two]
  have hex : Continuous fun l => ∫ x in -(π / 2)..π / 2, max (q x l - v) 0 * (a * cos x) :=
    intervalIntegral.continuous_parametric_intervalIntegral_of_continuous' (f := fun l x => max (q x l - v) 0 * (a * cos x))
      (((hs.sub continuous_const).max continuous_const).mul (by fun_prop)) _ _
  have hin : Continuous fun l => ∫ x in φ..π / 2, q x l * (a * cos x) :=
    intervalIntegral.continuous_parametric_intervalIntegral_of_continuous' (f := fun l x => q x l * (a * cos x))
      (hs.mul (by fun_prop)) _ _
  have wave : ∫ l in (0 : ℝ)..2 * π, meridionalWaveActivity a (fun x => q x l) v (-(π / 2)) (π / 2) φ =
      excess a q v - ((∫ l in (0 : ℝ)..2 * π, U φ l * cos φ) + 2 * π * (a * om * cos φ ^ 2)) + 2 * π * (v * (a * (1 - sin φ))) := by
    simp only [fun l => meridional_excess (a := a) (hm l) v φ, hcap]
    have hin' : Continuous fun l => (∫ x in φ..π / 2, q x l * (a * cos x)) - v * (a * (1 - sin φ)) := hin.sub continuous_const
    rw [intervalIntegral.integral_sub (hex.intervalIntegrable _ _) (hin'.intervalIntegrable _ _),
      intervalIntegral.integral_sub (hin.intervalIntegrable _ _) intervalIntegrable_const, st, intervalIntegral.integral_const, smul_eq_mul]
    unfold excess
    ring
  have ref := refCirculation_excess (a := a) hq (northCap a φ) v
  have hU : ∫ l in (0 : ℝ)..2 * π, U φ l * cos φ = (∫ l in (0 : ℝ)..2 * π, U φ l) * cos φ := intervalIntegral.integral_mul_const _ _
  rw [ref]
  unfold kelvin longitudeMean northCap
  rw [wave, hU]
  field_simp
  ring

/-- Means over all columns tend to the mean along the circle. -/
theorem circle_tends {nlon : ℕ → ℕ} {X : ℕ → ℕ → ℝ} {f : ℝ → ℝ} (h2 : ∀ i, 1 ≤ nlon i) (hlon : Tendsto nlon atTop atTop)
    (h : ∀ l ∈ Icc 0 (2 * π), ∀ c : ℕ → ℕ, (∀ i, c i < nlon i) → Tendsto (fun i => 2 * π * c i / nlon i) atTop (nhds l) →
      Tendsto (fun i => X i (c i)) atTop (nhds (f l))) :
    Tendsto (fun i => (∑ c ∈ Finset.range (nlon i), X i c) / nlon i) atTop (nhds (longitudeMean f)) := by
  have hpi := pi_pos
  have hN1 : ∀ i, (1 : ℤ) ≤ (nlon i : ℤ) := fun i => by exact_mod_cast h2 i
  have hN : Tendsto (fun i => (nlon i : ℤ)) atTop atTop := tendsto_natCast_atTop_atTop.comp hlon
  have ht : Bands.Tend (fun i => (nlon i : ℤ)) (fun i k => X i (k - 1).toNat) f := by
    intro l x hx hl
    have hmem : l ∈ Icc 0 (2 * π) := isClosed_Icc.mem_of_tendsto hl (Eventually.of_forall fun i =>
      Bands.lon_mem (hN1 i) (hx i).1 ((hx i).2.trans (Int.le_add_one le_rfl)))
    refine h l hmem (fun i => (x i - 1).toNat) (fun i => by have h1 := (hx i).1; have h2 : x i ≤ (nlon i : ℤ) := (hx i).2; omega) (hl.congr fun i => ?_)
    have e : (((x i - 1).toNat : ℕ) : ℝ) = (x i : ℝ) - 1 := by
      have : (((x i - 1).toNat : ℕ) : ℤ) = x i - 1 := Int.toNat_of_nonneg (by have := (hx i).1; omega)
      exact_mod_cast congrArg (fun z : ℤ => (z : ℝ)) this
    unfold Bands.lon
    rw [e]
    push_cast
    ring
  have hb := ht.band hN1 hN (x1 := fun _ => 1) (x2 := fun i => (nlon i : ℤ) + 1) (fun _ => le_rfl) (fun i => by have := hN1 i; omega)
    (fun _ => le_rfl) (l1 := 0) (l2 := 2 * π) (by simp [Bands.lon]) (by
      refine tendsto_const_nhds.congr fun i => ?_
      have : (nlon i : ℝ) ≠ 0 := by have := h2 i; positivity
      unfold Bands.lon
      push_cast
      field_simp
      ring)
  refine (hb.div_const (2 * π)).congr fun i => ?_
  have e : ∑ k ∈ Finset.Ico (1 : ℤ) ((nlon i : ℤ) + 1), X i (k - 1).toNat * (2 * π / ((nlon i : ℤ) : ℝ)) =
      ∑ c ∈ Finset.range (nlon i), X i c * (2 * π / (nlon i : ℝ)) := by
    refine Finset.sum_bij' (fun k _ => (k - 1).toNat) (fun c _ => (c : ℤ) + 1) ?_ ?_ ?_ ?_ ?_
    · intro k hk; rw [Finset.mem_Ico] at hk; rw [Finset.mem_range]; omega
    · intro c hc; rw [Finset.mem_range] at hc; rw [Finset.mem_Ico]; omega
    · intro k hk; rw [Finset.mem_Ico] at hk; omega
    · intro c _; omega
    · intro k _; push_cast; ring
  rw [e, ← Finset.sum_mul]
  have : (nlon i : ℝ) ≠ 0 := by have := h2 i; positivity
  field_simp

/-- Sequences of ever finer regular grids with ever more partitions, and rows that tend to the latitude `φ` strictly between the poles. -/
structure Finer (nlat nlon : ℕ → ℕ) (np : ℕ → Option ℕ) (j : ℕ → ℕ) (φ : ℝ) : Prop where
  rows : ∀ i, 3 ≤ nlat i
  columns : ∀ i, 1 ≤ nlon i
  parts : ∀ i, 2 ≤ (np i).getD (nlat i)
  moreRows : Tendsto nlat atTop atTop
  moreColumns : Tendsto nlon atTop atTop
  moreParts : Tendsto (fun i => (np i).getD (nlat i)) atTop atTop
  row : ∀ i, j i + 1 < nlat i
  toward : Tendsto (fun i => regularLat (nlat i) (j i) * π / 180) atTop (nhds φ)
  north : φ < π / 2
  south : -(π / 2) < φ

/-- What `BarotropicField(...).lwa` gives for the field sampled on a regular grid. -/
def GivesLwa (a : ℝ) (q : ℝ → ℝ → ℝ) (nlat nlon : ℕ) (np : Option ℕ) (A : ℕ → ℕ → ℝ) : Prop :=
  (baroStep (baroInit nlat nlon (regularLat nlat) a false none none np) (baroFresh (sampled q nlat nlon)) .readLwa).2 = .lwa (.ok (.total A))

variable {nlat nlon : ℕ → ℕ} {np : ℕ → Option ℕ} {j : ℕ → ℕ} {L : ℝ}

/-- The zonal mean of the local wave activity that the package gives tends to the zonal mean of wave activity. -/
theorem lwa_mean_tends (ha : 0 < a) (hq : Continuous fun p : ℝ × ℝ => q p.1 p.2) (hG : Finer nlat nlon np j φ) (hL : 0 ≤ L)
    (hg : ∀ l ∈ Icc 0 (2 * π), GradientBound (fun x => q x l) L (-(π / 2)) (π / 2)) :
    ∃ (v : ℝ) (A : ℕ → ℕ → ℕ → ℝ), Encloses a q (-(π / 2)) (π / 2) (southCap a φ) v ∧
      (∀ w, Encloses a q (-(π / 2)) (π / 2) (southCap a φ) w → w = v) ∧
      (∀ i, GivesLwa a q (nlat i) (nlon i) (np i) (A i)) ∧
      Tendsto (fun i => (∑ c ∈ Finset.range (nlon i), A i (j i) c) / nlon i) atTop
        (nhds (longitudeMean fun l => meridionalWaveActivity a (fun x => q x l) v (-(π / 2)) (π / 2) φ)) := by
  have hpi := pi_pos
  obtain ⟨v, -, A, ⟨hv, hu⟩, -, hA, -, -⟩ := C159_analysis (l := 0) (c := fun _ => 0) ha hq hG.rows hG.columns hG.parts hG.moreRows hG.moreColumns
    hG.moreParts hG.row (fun i => hG.columns i) hG.toward (by simp) hG.north hG.south hL (hg 0 ⟨le_rfl, by positivity⟩)
  refine ⟨v, A, hv, hu, hA, circle_tends hG.columns hG.moreColumns fun l hl c hc hcl => ?_⟩
  obtain ⟨v', -, A', ⟨hv', -⟩, -, hA', -, ht⟩ := C159_analysis (l := l) ha hq hG.rows hG.columns hG.parts hG.moreRows hG.moreColumns
    hG.moreParts hG.row hc hG.toward hcl hG.north hG.south hL (hg l hl)
  rw [hu v' hv'] at ht
  refine ht.congr fun i => ?_
  have := (hA' i).symm.trans (hA i)
  have e : A' i = A i := by simpa using this
  rw [e]

/-- **C192.** Let the absolute vorticity of a wind on the rotating sphere be sampled on ever finer regular grids and given to
`BarotropicField`. Where rows tend to a latitude, the zonal mean of the zonal wind plus the zonal mean of `lwa` over the cosine of latitude
tends to the zonal wind `w` of the reference state: the one whose circulation is that of the same vorticity put in order of its values from
pole to pole. It is never less than the zonal mean of the wind itself. -/
theorem C192_package (ha : 0 < a) (h : AbsoluteVorticity a om U V q) (hG : Finer nlat nlon np j φ) (hL : 0 ≤ L)
    (hg : ∀ l ∈ Icc 0 (2 * π), GradientBound (fun x => q x l) L (-(π / 2)) (π / 2)) :
    ∃ (v w : ℝ) (A : ℕ → ℕ → ℕ → ℝ), Encloses a q (-(π / 2)) (π / 2) (southCap a φ) v ∧
      kelvin a om φ w = refCirculation a q (northCap a φ) v ∧
      (∀ i, GivesLwa a q (nlat i) (nlon i) (np i) (A i)) ∧
      Tendsto (fun i => (∑ c ∈ Finset.range (nlon i), sampled U (nlat i) (nlon i) (j i) c) / nlon i +
        (∑ c ∈ Finset.range (nlon i), A i (j i) c) / nlon i / cos (regularLat (nlat i) (j i) * π / 180)) atTop (nhds w) ∧
      longitudeMean (U φ) ≤ w := by
  have hpi := pi_pos
  have hcos : 0 < cos φ := cos_pos_of_mem_Ioo ⟨hG.south, hG.north⟩
  obtain ⟨v, A, hv, -, hA, ht⟩ := lwa_mean_tends ha h.continuous hG hL hg
  refine ⟨v, _, A, hv, C192_sphere h hG.south hG.north v, hA, ?_, ?_⟩
  · refine Tendsto.add (circle_tends hG.columns hG.moreColumns fun l hl c hc hcl => ?_)
      (ht.div ((continuous_cos.tendsto φ).comp hG.toward) hcos.ne')
    exact (h.wind.tendsto (φ, l)).comp (hG.toward.prodMk_nhds hcl)
  · refine le_add_of_nonneg_right (div_nonneg (div_nonneg ?_ (by positivity)) hcos.le)
    refine intervalIntegral.integral_nonneg (by positivity) fun l _ => add_nonneg ?_ ?_ <;>
      refine intervalIntegral.integral_nonneg ?_ fun x hx => mul_nonneg (le_max_right _ _) (mul_nonneg ha.le (cos_nonneg_of_mem_Icc ?_))
    · exact hG.north.le
    · exact ⟨hG.south.le.trans hx.1, hx.2⟩
    · exact hG.south.le
    · exact ⟨hx.1, hx.2.trans hG.north.le⟩

variable {M : Motion}

/-- The gradient along meridians is bounded. -/
theorem gradient_bounded (h : M.Obeys a) (t : ℝ) :
    ∃ L, 0 ≤ L ∧ ∀ l ∈ Icc 0 (2 * π), GradientBound (fun x => M.q t x l) L (-(π / 2)) (π / 2) := by
  have hc : Continuous fun p : ℝ × ℝ => M.qf t p.1 p.2 :=
    Continuous.comp (g := fun p : ℝ × ℝ × ℝ => M.qf p.1 p.2.1 p.2.2) h.cqf (f := fun p : ℝ × ℝ => (t, p.1, p.2)) (by fun_prop)
  obtain ⟨C, hC⟩ := (isCompact_Icc.prod isCompact_Icc : IsCompact (Icc (-(π / 2)) (π / 2) ×ˢ Icc 0 (2 * π))).exists_bound_of_continuousOn
    hc.continuousOn
  refine ⟨max C 0, le_max_right _ _, fun l hl x hx y hy => ?_⟩
  have := (convex_Icc (-(π / 2)) (π / 2)).norm_image_sub_le_of_norm_hasDerivWithin_le (f := fun x => M.q t x l) (C := max C 0)
    (fun x _ => (h.df t x l).hasDerivWithinAt) (fun x hx => (hC (x, l) ⟨hx, hl⟩).trans (le_max_left _ _)) hy hx
  simpa [Real.norm_eq_abs] using this

/-- **C193 on the sphere.** The circulation of the reference state does not change. -/
theorem C193_sphere (h : M.Obeys a) (hS : ∀ t φ l, M.S t φ l = 0) (t1 t2 T v : ℝ) :
    refCirculation a (M.q t1) T v = refCirculation a (M.q t2) T v := by
  rw [refCirculation_excess (level_continuous h t1), refCirculation_excess (level_continuous h t2)]
  rcases le_total t1 t2 with ht | ht
  · rw [excess_conserved h hS ht]
  · rw [excess_conserved h hS ht]

/-- **C193.** Let absolute vorticity be carried by its own wind without sources. Sampled at two times, each time on ever finer grids of
its own, the zonal mean of the zonal wind plus the zonal mean of `lwa` over the cosine of latitude has the same limit: what the zonal mean
of the wind loses is what wave activity gains. -/
theorem C193_package (ha : 0 < a) (h : M.Obeys a) (hS : ∀ t φ l, M.S t φ l = 0)
    (hq : ∀ t, AbsoluteVorticity a om (M.U t) (M.V t) (M.q t)) (hG : Finer nlat nlon np j φ) {nlat' nlon' : ℕ → ℕ} {np' : ℕ → Option ℕ}
    {j' : ℕ → ℕ} (hG' : Finer nlat' nlon' np' j' φ) (t1 t2 : ℝ) :
    ∃ (w : ℝ) (A B : ℕ → ℕ → ℕ → ℝ),
      (∀ i, GivesLwa a (M.q t1) (nlat i) (nlon i) (np i) (A i)) ∧ (∀ i, GivesLwa a (M.q t2) (nlat' i) (nlon' i) (np' i) (B i)) ∧
      Tendsto (fun i => (∑ c ∈ Finset.range (nlon i), sampled (M.U t1) (nlat i) (nlon i) (j i) c) / nlon i +
        (∑ c ∈ Finset.range (nlon i), A i (j i) c) / nlon i / cos (regularLat (nlat i) (j i) * π / 180)) atTop (nhds w) ∧
      Tendsto (fun i => (∑ c ∈ Finset.range (nlon' i), sampled (M.U t2) (nlat' i) (nlon' i) (j' i) c) / nlon' i +
        (∑ c ∈ Finset.range (nlon' i), B i (j' i) c) / nlon' i / cos (regularLat (nlat' i) (j' i) * π / 180)) atTop (nhds w) := by
  have hcos : 0 < cos φ := cos_pos_of_mem_Ioo ⟨hG.south, hG.north⟩
  have hpi := pi_pos
  obtain ⟨L1, hL1, hg1⟩ := gradient_bounded h t1
  obtain ⟨L2, hL2, hg2⟩ := gradient_bounded h t2
  obtain ⟨v1, w1, A, hv1, hk1, hA, ht1, -⟩ := C192_package ha (hq t1) hG hL1 hg1
  obtain ⟨v2, w2, B, hv2, hk2, hB, ht2, -⟩ := C192_package ha (hq t2) hG' hL2 hg2
  obtain ⟨v, -, -, hu, -⟩ := lwa_mean_tends ha (hq t2).continuous hG' hL2 hg2
  have ev : v1 = v2 := (hu _ (C179_sphere h hS t1 t2 _ _ hv1)).trans (hu _ hv2).symm
  have ew : w1 = w2 := by
    have e : kelvin a om φ w1 = kelvin a om φ w2 := by rw [hk1, hk2, ev, C193_sphere h hS t1 t2]
    unfold kelvin at e
    have := mul_left_cancel₀ (by positivity : 2 * π * a * cos φ ≠ 0) e
    linarith
  exact ⟨w2, A, B, hA, hB, ew ▸ ht1, ht2⟩

/-- Rotation as a rigid body with the speed `2` about an axis that is fixed in space and tilted to that of the planet, whose rate is `1`
and radius `1`: a wave that moves westward. `3 / 5` and `4 / 5` are the cosine and sine of the tilt. -/
def tilted : Motion where
  q t φ l := 4 * (3 / 5 * sin φ + 4 / 5 * cos φ * cos (l + t))
  qt t φ l := 4 * (4 / 5 * cos φ * -sin (l + t))
  qf t φ l := 4 * (3 / 5 * cos φ - 4 / 5 * sin φ * cos (l + t))
  ql t φ l := 4 * (4 / 5 * cos φ * -sin (l + t))
  U t φ l := 2 * (3 / 5 * cos φ - 4 / 5 * sin φ * cos (l + t)) - cos φ
  Ul t φ l := 2 * (4 / 5 * sin φ * sin (l + t))
  V t _ l := 2 * (4 / 5 * sin (l + t))
  Vf t φ l := 2 * (4 / 5 * sin (l + t)) * -sin φ
  S _ _ _ := 0

theorem sin_shift (t l : ℝ) : HasDerivAt (fun x => sin (x + t)) (cos (l + t)) l := by
  simpa using (hasDerivAt_sin (l + t)).comp_add_const l t

theorem cos_shift (t l : ℝ) : HasDerivAt (fun x => cos (x + t)) (-sin (l + t)) l := by
  simpa using (hasDerivAt_cos (l + t)).comp_add_const l t

theorem cos_shift' (t l : ℝ) : HasDerivAt (fun s => cos (l + s)) (-sin (l + t)) t := by
  have := cos_shift l t
  simp only [add_comm l]
  exact this

theorem tilted_obeys : tilted.Obeys 1 where
  dt t φ l := ((((cos_shift' t l).const_mul (4 / 5 * cos φ)).const_add (3 / 5 * sin φ)).const_mul 4)
  df t φ l := by
    refine ((((hasDerivAt_sin φ).const_mul (3 / 5)).add (((hasDerivAt_cos φ).const_mul (4 / 5)).mul_const (cos (l + t)))).const_mul 4).congr_deriv ?_
    show _ = 4 * (3 / 5 * cos φ - 4 / 5 * sin φ * cos (l + t))
    ring
  dl t φ l := ((((cos_shift t l).const_mul (4 / 5 * cos φ)).const_add (3 / 5 * sin φ)).const_mul 4)
  dU t φ l := by
    refine (((((cos_shift t l).const_mul (4 / 5 * sin φ)).const_sub (3 / 5 * cos φ)).const_mul 2).sub_const (cos φ)).congr_deriv ?_
    show _ = 2 * (4 / 5 * sin φ * sin (l + t))
    ring
  dV t φ l := (hasDerivAt_cos φ).const_mul (2 * (4 / 5 * sin (l + t)))
  cq := by unfold Jointly tilted; fun_prop
  cqt := by unfold Jointly tilted; fun_prop
  cqf := by unfold Jointly tilted; fun_prop
  cql := by unfold Jointly tilted; fun_prop
  cU := by unfold Jointly tilted; fun_prop
  cUl := by unfold Jointly tilted; fun_prop
  cV := by unfold Jointly tilted; fun_prop
  cVf := by unfold Jointly tilted; fun_prop
  cS := by unfold Jointly tilted; fun_prop
  mass t φ l _ _ := by simp only [tilted]; ring
  law t φ l _ _ := by simp only [tilted]; ring
  periodicq t φ l := by
    simp only [tilted]
    rw [add_right_comm, cos_add_two_pi]
  periodicU t φ l := by
    simp only [tilted]
    rw [add_right_comm, cos_add_two_pi]

theorem tilted_vorticity (t : ℝ) : AbsoluteVorticity 1 1 (tilted.U t) (tilted.V t) (tilted.q t) where
  curl := by
    refine ⟨fun φ l => 2 * (3 / 5 * -sin φ - 4 / 5 * cos φ * cos (l + t)) * cos φ - -sin φ * cos φ +
      (2 * (3 / 5 * cos φ - 4 / 5 * sin φ * cos (l + t)) - cos φ) * -sin φ, fun _ l => 2 * (4 / 5 * cos (l + t)), fun φ l => ?_,
      fun φ l => ((sin_shift t l).const_mul (4 / 5)).const_mul 2, by fun_prop, by fun_prop, fun φ l _ _ => ?_⟩
    · refine ((((((hasDerivAt_cos φ).const_mul (3 / 5)).sub (((hasDerivAt_sin φ).const_mul (4 / 5)).mul_const (cos (l + t)))).const_mul
        2).sub (hasDerivAt_cos φ)).mul (hasDerivAt_cos φ)).congr_deriv ?_
      simp only [Pi.sub_apply]
      ring
    · simp only [tilted]
      linear_combination (8 / 5 * cos (l + t)) * sin_sq_add_cos_sq φ
  continuous := by unfold tilted; fun_prop
  wind := by unfold tilted; fun_prop
  periodic φ l := by
    simp only [tilted]
    rw [add_right_comm, sin_add_two_pi]

/-- Rows at 45 degrees north of ever finer grids. -/
theorem northern_finer : Finer (fun i => 4 * (i + 1) + 1) (fun i => i + 1) (fun _ => none) (fun i => 3 * (i + 1)) (π / 4) where
  rows i := by omega
  columns i := by omega
  parts i := by simp only [Option.getD_none]; omega
  moreRows := tendsto_atTop_mono (fun i => by simp only [id]; omega) tendsto_id
  moreColumns := tendsto_atTop_mono (fun i => by simp only [id]; omega) tendsto_id
  moreParts := tendsto_atTop_mono (fun i => by simp only [Option.getD_none, id]; omega) tendsto_id
  row i := by omega
  toward := by
    refine tendsto_const_nhds.congr fun i => ?_
    have : ((i : ℝ) + 1) ≠ 0 := by positivity
    unfold regularLat
    push_cast
    field_simp
    ring
  north := by have := pi_pos; linarith
  south := by have := pi_pos; linarith

example : ∃ L, 0 ≤ L ∧ AbsoluteVorticity 1 1 (tilted.U 0) (tilted.V 0) (tilted.q 0) ∧
    (∀ l ∈ Icc 0 (2 * π), GradientBound (fun x => tilted.q 0 x l) L (-(π / 2)) (π / 2)) :=
  (gradient_bounded tilted_obeys 0).imp fun _ h => ⟨h.1, tilted_vorticity 0, h.2⟩

example := C193_package one_pos tilted_obeys (fun _ _ _ => rfl) tilted_vorticity northern_finer northern_finer 0 1

end Falwa

end
