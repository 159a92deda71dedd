import Verif.Props.Impulse

/-!
# C194: budget of the wave activity of `BarotropicField`
-/

noncomputable section

namespace Falwa

open MeasureTheory Filter Set Real Spec

variable {a φ : ℝ} {q : ℝ → ℝ → ℝ} {M : Motion} {nlat nlon nlat' nlon' : ℕ → ℕ} {np np' : ℕ → Option ℕ} {j j' : ℕ → ℕ}

/-- The columns from `c1` on and before `c2` fill the longitudes from `l1` to `l2` in the limit. -/
structure Filling (nlon c1 c2 : ℕ → ℕ) (l1 l2 : ℝ) : Prop where
  order : ∀ i, c1 i ≤ c2 i
  last : ∀ i, c2 i ≤ nlon i
  west : Tendsto (fun i => 2 * π * c1 i / nlon i) atTop (nhds l1)
  east : Tendsto (fun i => 2 * π * c2 i / nlon i) atTop (nhds l2)

theorem Filling.le {c1 c2 : ℕ → ℕ} {l1 l2 : ℝ} (h : Filling nlon c1 c2 l1 l2) : l1 ≤ l2 :=
  le_of_tendsto_of_tendsto' h.west h.east fun i => by
    have : (c1 i : ℝ) ≤ c2 i := by exact_mod_cast h.order i
    have hpi := pi_pos
    gcongr

/-- All columns fill the circle. -/
theorem Filling.circle (h2 : ∀ i, 1 ≤ nlon i) : Filling nlon (fun _ => 0) nlon 0 (2 * π) where
  order _ := Nat.zero_le _
  last _ := le_rfl
  west := by simp
  east := tendsto_const_nhds.congr fun i => by
    have : (nlon i : ℝ) ≠ 0 := by have := h2 i; positivity
    field_simp

/-- Sums over the columns of a band tend to the integral. -/
theorem filling_tends {X : ℕ → ℕ → ℝ} {f : ℝ → ℝ} {c1 c2 : ℕ → ℕ} {l1 l2 : ℝ} (h2 : ∀ i, 1 ≤ nlon i) (hlon : Tendsto nlon atTop atTop)
    (hF : Filling nlon c1 c2 l1 l2)
    (h : ∀ l ∈ Icc 0 (2 * π), ∀ c : ℕ → ℕ, (∀ i, c i < nlon i) → Tendsto (fun i => 2 * π * c i / nlon i) atTop (nhds l) →
      Tendsto (fun i => X i (c i)) atTop (nhds (f l))) :
    Tendsto (fun i => 2 * π / nlon i * ∑ c ∈ Finset.Ico (c1 i) (c2 i), X i c) atTop (nhds (∫ l in l1..l2, f l)) := by
  have hN1 : ∀ i, (1 : ℤ) ≤ (nlon i : ℤ) := fun i => by exact_mod_cast h2 i
  have hN : Tendsto (fun i => (nlon i : ℤ)) atTop atTop := tendsto_natCast_atTop_atTop.comp hlon
  have ht : Bands.Tend (fun i => (nlon i : ℤ)) (fun i k => X i (k - 1).toNat) f := by
    intro l x hx hl
    have hmem : l ∈ Icc 0 (2 * π) := isClosed_Icc.mem_of_tendsto hl (Eventually.of_forall fun i =>
      Bands.lon_mem (hN1 i) (hx i).1 ((hx i).2.trans (Int.le_add_one le_rfl)))
    refine h l hmem (fun i => (x i - 1).toNat) (fun i => by
      have h1 := (hx i).1
      have h2 : x i ≤ (nlon i : ℤ) := (hx i).2
      omega) (hl.congr fun i => ?_)
    have e : (((x i - 1).toNat : ℕ) : ℝ) = (x i : ℝ) - 1 := by
      have : (((x i - 1).toNat : ℕ) : ℤ) = x i - 1 := Int.toNat_of_nonneg (by have := (hx i).1; omega)
      exact_mod_cast congrArg (fun z : ℤ => (z : ℝ)) this
    unfold Bands.lon
    rw [e]
    push_cast
    ring
  have hend : ∀ {c : ℕ → ℕ} {l : ℝ}, Tendsto (fun i => 2 * π * c i / nlon i) atTop (nhds l) →
      Tendsto (fun i => Bands.lon (nlon i : ℤ) ((c i : ℤ) + 1)) atTop (nhds l) := fun hc => hc.congr fun i => by
    unfold Bands.lon
    push_cast
    ring
  have hb := ht.band hN1 hN (x1 := fun i => (c1 i : ℤ) + 1) (x2 := fun i => (c2 i : ℤ) + 1) (fun i => by omega)
    (fun i => by have := hF.order i; omega) (fun i => by have := hF.last i; show (c2 i : ℤ) + 1 ≤ (nlon i : ℤ) + 1; omega)
    (hend hF.west) (hend hF.east)
  refine hb.congr fun i => ?_
  rw [Finset.mul_sum]
  refine Finset.sum_bij' (fun k _ => (k - 1).toNat) (fun c _ => (c : ℤ) + 1) ?_ ?_ ?_ ?_ ?_
  · intro k hk; rw [Finset.mem_Ico] at hk ⊢; omega
  · intro c hc; rw [Finset.mem_Ico] at hc ⊢; omega
  · intro k hk; rw [Finset.mem_Ico] at hk; omega
  · intro c _; omega
  · intro k _; push_cast; ring

/-- The local wave activity that the package gives, cell by cell, tends to that of the sphere. -/
theorem lwa_tends {L v : ℝ} (ha : 0 < a) (hq : Continuous fun p : ℝ × ℝ => q p.1 p.2) (hG : Finer nlat nlon np j φ) (hL : 0 ≤ L)
    (hg : ∀ l ∈ Icc 0 (2 * π), GradientBound (fun x => q x l) L (-(π / 2)) (π / 2))
    (hv : Encloses a q (-(π / 2)) (π / 2) (southCap a φ) v) :
    ∃ A : ℕ → ℕ → ℕ → ℝ, (∀ i, GivesLwa a q (nlat i) (nlon i) (np i) (A i)) ∧
      ∀ l ∈ Icc 0 (2 * π), ∀ c : ℕ → ℕ, (∀ i, c i < nlon i) → Tendsto (fun i => 2 * π * c i / nlon i) atTop (nhds l) →
        Tendsto (fun i => A i (j i) (c i)) atTop (nhds (meridionalWaveActivity a (fun x => q x l) v (-(π / 2)) (π / 2) φ)) := by
  have hpi := pi_pos
  obtain ⟨_, -, A, -, -, hA, -, -⟩ := C159_analysis (l := 0) (c := fun _ => 0) ha hq hG.rows hG.columns hG.parts hG.moreRows hG.moreColumns
    hG.moreParts hG.row (fun i => hG.columns i) hG.toward (by simp) hG.north hG.south hL (hg 0 ⟨le_rfl, by positivity⟩)
  refine ⟨A, hA, fun l hl c hc hcl => ?_⟩
  obtain ⟨v', -, A', ⟨-, hu⟩, -, hA', -, ht⟩ := C159_analysis (l := l) ha hq hG.rows hG.columns hG.parts hG.moreRows hG.moreColumns
    hG.moreParts hG.row hc hG.toward hcl hG.north hG.south hL (hg l hl)
  rw [hu v hv]
  refine ht.congr fun i => ?_
  have := (hA' i).symm.trans (hA i)
  have e : A' i = A i := by simpa using this
  rw [e]

variable {v v' : ℝ → ℝ}

/-- **C194.** Vorticity on the sphere is carried by a wind without divergence and has the source `S`; `v t` is the value whose contour
encloses the area south of `φ`. The field is sampled at two times, each time on ever finer grids of its own, and given to
`BarotropicField`. The sums of `lwa` over the columns between two longitudes have limits, whose difference is made of the zonal transport of
displaced vorticity through both ends, the flux `V (q - Q)` through the circle of latitude, and the source less the change of the
reference value over the displaced air. -/
theorem C194_band (ha : 0 < a) (h : M.Obeys a) (hv : ∀ t, HasDerivAt v (v' t) t) (cv : Continuous v')
    (he : ∀ t, Encloses a (M.q t) (-(π / 2)) (π / 2) (southCap a φ) (v t)) (hG : Finer nlat nlon np j φ) (hG' : Finer nlat' nlon' np' j' φ)
    {c1 c2 c1' c2' : ℕ → ℕ} {l1 l2 : ℝ} (hF : Filling nlon c1 c2 l1 l2) (hF' : Filling nlon' c1' c2' l1 l2) {t1 t2 : ℝ} (ht : t1 ≤ t2) :
    ∃ (A B : ℕ → ℕ → ℕ → ℝ) (X Y : ℝ), (∀ i, GivesLwa a (M.q t1) (nlat i) (nlon i) (np i) (A i)) ∧
      (∀ i, GivesLwa a (M.q t2) (nlat' i) (nlon' i) (np' i) (B i)) ∧
      Tendsto (fun i => 2 * π / nlon i * ∑ c ∈ Finset.Ico (c1 i) (c2 i), A i (j i) c) atTop (nhds X) ∧
      Tendsto (fun i => 2 * π / nlon' i * ∑ c ∈ Finset.Ico (c1' i) (c2' i), B i (j' i) c) atTop (nhds Y) ∧
      Y - X = (∫ t in t1..t2, (meridionalTransport a (fun x => M.q t x l1) (fun x => M.U t x l1) (v t) (-(π / 2)) (π / 2) φ -
          meridionalTransport a (fun x => M.q t x l2) (fun x => M.U t x l2) (v t) (-(π / 2)) (π / 2) φ) / a) -
        (∫ t in t1..t2, ∫ l in l1..l2, M.V t φ l * cos φ * (M.q t φ l - v t)) +
        ∫ t in t1..t2, ∫ l in l1..l2, meridionalSource a (fun x => M.q t x l) (fun x => M.S t x l - v' t) (v t) (-(π / 2)) (π / 2) φ := by
  obtain ⟨L1, hL1, hg1⟩ := gradient_bounded h t1
  obtain ⟨L2, hL2, hg2⟩ := gradient_bounded h t2
  obtain ⟨A, hA, hAt⟩ := lwa_tends ha (level_continuous h t1) hG hL1 hg1 (he t1)
  obtain ⟨B, hB, hBt⟩ := lwa_tends ha (level_continuous h t2) hG' hL2 hg2 (he t2)
  refine ⟨A, B, _, _, hA, hB, filling_tends hG.columns hG.moreColumns hF hAt, filling_tends hG'.columns hG'.moreColumns hF' hBt, ?_⟩
  have hb := C180_budget h ha.ne' hv cv ht hF.le le_rfl hG.south.le hG.north.le le_rfl
  rw [intervalIntegral.integral_sub ((waveActivity_continuous (level_continuous h t2) φ).intervalIntegrable _ _)
    ((waveActivity_continuous (level_continuous h t1) φ).intervalIntegrable _ _)] at hb
  rw [hb]
  have e : ∀ t l, meridionalOutflow (fun x => M.q t x l) (fun x => M.V t x l) (v t) (-(π / 2)) (π / 2) φ =
      M.V t φ l * cos φ * (M.q t φ l - v t) := fun t l => by
    unfold meridionalOutflow
    rw [cos_neg, cos_pi_div_two]
    ring
  simp only [e]

/-- No air crosses a circle of latitude on balance. -/
theorem no_net_wind (h : M.Obeys a) (t : ℝ) (h1 : -(π / 2) ≤ φ) (h2 : φ ≤ π / 2) : ∫ l in (0 : ℝ)..2 * π, M.V t φ l * cos φ = 0 := by
  have cVf : Continuous fun p : ℝ × ℝ => M.Vf t p.2 p.1 :=
    Continuous.comp (g := fun p : ℝ × ℝ × ℝ => M.Vf p.1 p.2.1 p.2.2) h.cVf (f := fun p : ℝ × ℝ => (t, p.2, p.1)) (by fun_prop)
  have cVf1 : ∀ l, Continuous fun x => M.Vf t x l := fun l => cVf.comp (f := fun x : ℝ => (l, x)) (by fun_prop)
  have cUl : ∀ x, Continuous fun l => M.Ul t x l := fun x =>
    Continuous.comp (g := fun p : ℝ × ℝ × ℝ => M.Ul p.1 p.2.1 p.2.2) h.cUl (f := fun l : ℝ => (t, x, l)) (by fun_prop)
  have inner : ∀ l, M.V t φ l * cos φ = -∫ x in φ..π / 2, M.Vf t x l := fun l => by
    rw [intervalIntegral.integral_eq_sub_of_hasDerivAt (fun x _ => h.dV t x l) ((cVf1 l).intervalIntegrable _ _), cos_pi_div_two]
    ring
  simp only [inner]
  rw [intervalIntegral.integral_neg, intervalIntegral_intervalIntegral_swap, neg_eq_zero]
  · refine (intervalIntegral.integral_congr fun x hx => ?_).trans (intervalIntegral.integral_zero (a := φ) (b := π / 2))
    rw [uIcc_of_le h2] at hx
    have e : ∀ l, M.Vf t x l = -M.Ul t x l := fun l => by have := h.mass t x l (h1.trans hx.1) hx.2; linarith
    simp only [e]
    rw [intervalIntegral.integral_neg, intervalIntegral.integral_eq_sub_of_hasDerivAt (fun l _ => h.dU t x l) ((cUl x).intervalIntegrable _ _)]
    have := h.periodicU t x 0
    rw [zero_add] at this
    rw [this, sub_self, neg_zero]
  · exact (cVf.continuousOn.integrableOn_compact (isCompact_uIcc.prod isCompact_uIcc)).mono_set (Set.prod_mono uIoc_subset_uIcc uIoc_subset_uIcc)

/-- **C194 on the whole circle.** Without sources the zonal mean of `lwa` loses what the wind carries of vorticity across the circle. -/
theorem C194_circle (ha : 0 < a) (h : M.Obeys a) (hS : ∀ t φ l, M.S t φ l = 0) (hG : Finer nlat nlon np j φ)
    (hG' : Finer nlat' nlon' np' j' φ) {t1 t2 : ℝ} (ht : t1 ≤ t2) :
    ∃ (A B : ℕ → ℕ → ℕ → ℝ) (X Y : ℝ), (∀ i, GivesLwa a (M.q t1) (nlat i) (nlon i) (np i) (A i)) ∧
      (∀ i, GivesLwa a (M.q t2) (nlat' i) (nlon' i) (np' i) (B i)) ∧
      Tendsto (fun i => (∑ c ∈ Finset.range (nlon i), A i (j i) c) / nlon i) atTop (nhds X) ∧
      Tendsto (fun i => (∑ c ∈ Finset.range (nlon' i), B i (j' i) c) / nlon' i) atTop (nhds Y) ∧
      Y - X = -∫ t in t1..t2, longitudeMean fun l => M.V t φ l * M.q t φ l * cos φ := by
  have hpi := pi_pos
  obtain ⟨L1, hL1, hg1⟩ := gradient_bounded h t1
  obtain ⟨v, -, hv, -⟩ := lwa_mean_tends ha (level_continuous h t1) hG hL1 hg1
  obtain ⟨A, B, X, Y, hA, hB, tA, tB, hXY⟩ := C194_band (v := fun _ => v) (v' := fun _ => 0) ha h (fun t => hasDerivAt_const t v) continuous_const
    (fun t => C179_sphere h hS t1 t _ _ hv) hG hG' (Filling.circle hG.columns) (Filling.circle hG'.columns) ht
  refine ⟨A, B, X / (2 * π), Y / (2 * π), hA, hB, (tA.div_const (2 * π)).congr fun i => ?_, (tB.div_const (2 * π)).congr fun i => ?_, ?_⟩
  · rw [← Finset.range_eq_Ico]
    field_simp
  · rw [← Finset.range_eq_Ico]
    field_simp
  have p : ∀ t, (fun x => M.q t x (2 * π)) = (fun x => M.q t x 0) ∧ (fun x => M.U t x (2 * π)) = fun x => M.U t x 0 := fun t => by
    constructor <;> funext x
    · have := h.periodicq t x 0
      rwa [zero_add] at this
    · have := h.periodicU t x 0
      rwa [zero_add] at this
  have s : ∀ t l, meridionalSource a (fun x => M.q t x l) (fun x => M.S t x l - 0) v (-(π / 2)) (π / 2) φ = 0 := fun t l => by
    unfold meridionalSource
    simp [hS]
  have o : ∀ t, ∫ l in (0 : ℝ)..2 * π, M.V t φ l * cos φ * (M.q t φ l - v) = 2 * π * longitudeMean fun l => M.V t φ l * M.q t φ l * cos φ := by
    intro t
    have cV : Continuous fun l => M.V t φ l :=
      Continuous.comp (g := fun p : ℝ × ℝ × ℝ => M.V p.1 p.2.1 p.2.2) h.cV (f := fun l : ℝ => (t, φ, l)) (by fun_prop)
    have cq : Continuous fun l => M.q t φ l := (level_continuous h t).comp (f := fun l : ℝ => (φ, l)) (by fun_prop)
    have e : ∀ l, M.V t φ l * cos φ * (M.q t φ l - v) = M.V t φ l * M.q t φ l * cos φ - v * (M.V t φ l * cos φ) := fun l => by ring
    simp only [e]
    rw [intervalIntegral.integral_sub ((by fun_prop : Continuous fun l => M.V t φ l * M.q t φ l * cos φ).intervalIntegrable _ _)
      ((by fun_prop : Continuous fun l => v * (M.V t φ l * cos φ)).intervalIntegrable _ _), intervalIntegral.integral_const_mul,
      no_net_wind h t hG.south.le hG.north.le]
    unfold longitudeMean
    rw [mul_zero, sub_zero]
    generalize (∫ l in (0 : ℝ)..2 * π, M.V t φ l * M.q t φ l * cos φ) = I
    field_simp
  simp only [(p _).1, (p _).2, sub_self, zero_div, intervalIntegral.integral_zero, s, o, add_zero, zero_sub,
    intervalIntegral.integral_const_mul] at hXY
  rw [← sub_div, hXY, neg_div, mul_div_cancel_left₀ _ (by positivity)]

example := C194_circle one_pos tilted_obeys (fun _ _ _ => rfl) northern_finer northern_finer zero_le_one

/-- Half of the circle; with `tilted` it meets the hypotheses of `C194_band`. -/
theorem half_filling : Filling (fun i => 2 * (i + 1)) (fun _ => 0) (fun i => i + 1) 0 π where
  order _ := Nat.zero_le _
  last i := by omega
  west := by simp
  east := tendsto_const_nhds.congr fun i => by
    have : (i : ℝ) + 1 ≠ 0 := by positivity
    push_cast
    field_simp

theorem northern_half : Finer (fun i => 4 * (i + 1) + 1) (fun i => 2 * (i + 1)) (fun _ => none) (fun i => 3 * (i + 1)) (π / 4) :=
  { northern_finer with
    columns := fun i => by omega
    moreColumns := tendsto_atTop_mono (fun i => by simp only [id]; omega) tendsto_id }

example : ∃ v, (∀ t, Encloses 1 (tilted.q t) (-(π / 2)) (π / 2) (southCap 1 (π / 4)) v) ∧ ∃ A B : ℕ → ℕ → ℕ → ℝ, ∃ X Y : ℝ,
    (∀ i, GivesLwa 1 (tilted.q 0) (4 * (i + 1) + 1) (2 * (i + 1)) none (A i)) ∧
    (∀ i, GivesLwa 1 (tilted.q 1) (4 * (i + 1) + 1) (2 * (i + 1)) none (B i)) ∧
    Tendsto (fun i : ℕ => 2 * π / (2 * (i + 1) : ℕ) * ∑ c ∈ Finset.Ico 0 (i + 1), A i (3 * (i + 1)) c) atTop (nhds X) ∧
    Tendsto (fun i : ℕ => 2 * π / (2 * (i + 1) : ℕ) * ∑ c ∈ Finset.Ico 0 (i + 1), B i (3 * (i + 1)) c) atTop (nhds Y) := by
  obtain ⟨L, hL, hg⟩ := gradient_bounded tilted_obeys 0
  obtain ⟨v, -, hv, -⟩ := lwa_mean_tends one_pos (level_continuous tilted_obeys 0) northern_half hL hg
  have he := fun t => C179_sphere tilted_obeys (fun _ _ _ => rfl) 0 t _ _ hv
  obtain ⟨A, B, X, Y, h1, h2, h3, h4, -⟩ := C194_band (v := fun _ => v) (v' := fun _ => 0) one_pos tilted_obeys
    (fun t => hasDerivAt_const t v) continuous_const he northern_half northern_half half_filling half_filling zero_le_one
  exact ⟨v, he, A, B, X, Y, h1, h2, h3, h4⟩

end Falwa

end
