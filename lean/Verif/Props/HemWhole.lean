import Verif.Lemmas.Parts
import Verif.Props.RearrangeSamples
import Verif.Props.SmoothWindSouth

/-!
# C197: the hemispheric wrappers compared with the analysis from pole to pole
-/

noncomputable section

namespace Falwa

open MeasureTheory Filter Set Real Spec

variable {a φ σ L : ℝ} {q : ℝ → ℝ → ℝ} {nlat nlon : ℕ → ℕ} {S np np' : ℕ → Option ℕ} {j : ℕ → ℕ}
  {Q R : ℕ → ℕ → ℝ} {A B : ℕ → ℕ → ℕ → ℝ}

/-- The same field on the same grids, given to both: `Q` and `A` are `equivalent_latitudes` and `lwa` of `BarotropicField`, `R` and `B` what
`qgpv_eqlat_lwa` returns. -/
structure BothResults (a : ℝ) (q : ℝ → ℝ → ℝ) (nlat nlon : ℕ → ℕ) (np S np' : ℕ → Option ℕ) (Q : ℕ → ℕ → ℝ) (A : ℕ → ℕ → ℕ → ℝ)
    (R : ℕ → ℕ → ℝ) (B : ℕ → ℕ → ℕ → ℝ) : Prop where
  profile : ∀ i, (baroStep (baroInit (nlat i) (nlon i) (regularLat (nlat i)) a false none none (np i))
    (baroFresh (sampled q (nlat i) (nlon i))) .readEqv).2 = .eqv (.ok (Q i))
  lwa : ∀ i, GivesLwa a q (nlat i) (nlon i) (np i) (A i)
  part : ∀ i, (hemOn a q (nlat i) (nlon i) (S i) (np' i)).qgpvEqlatLwa = .ok (R i, B i)

/-- **C197 (results exist).** -/
theorem C197_exists (ha : 0 < a) (hq : Continuous fun p : ℝ × ℝ => q p.1 p.2) (hG : Finer nlat nlon np j φ) (hL : 0 ≤ L)
    (hb : ∀ l ∈ Icc 0 (2 * π), GradientBound (fun x => q x l) L (-(π / 2)) (π / 2)) (hg : HemGrids nlat nlon S np' σ) :
    ∃ Q A R B, BothResults a q nlat nlon np S np' Q A R B := by
  have hpi := pi_pos
  obtain ⟨_, Q, A, -, hQ, hA, -, -⟩ := C159_analysis (l := 0) (c := fun _ => 0) ha hq hG.rows hG.columns hG.parts hG.moreRows hG.moreColumns
    hG.moreParts hG.row (fun i => hG.columns i) hG.toward (by simp) hG.north hG.south hL (hb 0 ⟨le_rfl, by positivity⟩)
  choose R B C h1 h2 using fun i => C195_exists (q := q) (G := fun _ _ => 0) hg ha i
  exact ⟨Q, A, R, B, hQ, hA, h2⟩

/-- Limits of the analysis from pole to pole. -/
theorem BothResults.whole (hR : BothResults a q nlat nlon np S np' Q A R B) (ha : 0 < a) (hq : Continuous fun p : ℝ × ℝ => q p.1 p.2)
    (hG : Finer nlat nlon np j φ) (hL : 0 ≤ L) (hb : ∀ l ∈ Icc 0 (2 * π), GradientBound (fun x => q x l) L (-(π / 2)) (π / 2)) :
    ∃ v, Encloses a q (-(π / 2)) (π / 2) (southCap a φ) v ∧ Tendsto (fun i => Q i (j i)) atTop (nhds v) ∧
      ∀ l ∈ Icc 0 (2 * π), ∀ c : ℕ → ℕ, (∀ i, c i < nlon i) → Tendsto (fun i => 2 * π * c i / nlon i) atTop (nhds l) →
        Tendsto (fun i => A i (j i) (c i)) atTop (nhds (meridionalWaveActivity a (fun x => q x l) v (-(π / 2)) (π / 2) φ)) := by
  have hpi := pi_pos
  obtain ⟨v, Q', _, ⟨hv, -⟩, hQ', -, ht, -⟩ := C159_analysis (l := 0) (c := fun _ => 0) ha hq hG.rows hG.columns hG.parts hG.moreRows hG.moreColumns
    hG.moreParts hG.row (fun i => hG.columns i) hG.toward (by simp) hG.north hG.south hL (hb 0 ⟨le_rfl, by positivity⟩)
  obtain ⟨A', hA', hAt⟩ := lwa_tends ha hq hG hL hb hv
  have eQ : ∀ i, Q' i = Q i := fun i => by simpa using (hQ' i).symm.trans (hR.profile i)
  have eA : ∀ i, A' i = A i := fun i => by
    have := (hA' i).symm.trans (hR.lwa i)
    simpa using this
  exact ⟨v, hv, ht.congr fun i => by rw [eQ], fun l hl c hc hcl => (hAt l hl c hc hcl).congr fun i => by rw [eA]⟩

/-- Limits of the wrapper in the northern part. -/
theorem BothResults.north (hR : BothResults a q nlat nlon np S np' Q A R B) (ha : 0 < a) (hq : Continuous fun p : ℝ × ℝ => q p.1 p.2)
    (hg : HemGrids nlat nlon S np' σ) (hr : NorthRows nlat S j σ φ) :
    ∃ w, Encloses a q (-σ) (π / 2) (southCap a φ - 2 * π * a ^ 2 * (1 + sin (-σ))) w ∧
      Encloses a q (-σ) (π / 2) (2 * π * a ^ 2 * (sin φ - sin (-σ))) w ∧ Tendsto (fun i => R i (j i)) atTop (nhds w) ∧
      ∀ l, ∀ c : ℕ → ℕ, Tendsto (fun i => 2 * π * c i / nlon i) atTop (nhds l) →
        Tendsto (fun i => B i (j i) (c i)) atTop (nhds (meridionalWaveActivity a (fun x => q x l) w (-σ) (π / 2) φ)) := by
  have hpi := pi_pos
  have hs := hg.south
  have hn := hg.north
  have l1 : sin (-σ) < sin φ := sin_lt_sin_of_lt_of_le_pi_div_two (by linarith) hr.north.le hr.south
  have l2 : sin φ < 1 := by
    rw [← sin_pi_div_two]
    exact sin_lt_sin_of_lt_of_le_pi_div_two (by have := hr.south; linarith) le_rfl hr.north
  have ha2 : 0 < 2 * π * a ^ 2 := by positivity
  obtain ⟨w, hw, -⟩ := C159_reference_exists (s := -σ) (n := π / 2) (T := 2 * π * a ^ 2 * (sin φ - sin (-σ))) ha hq (by linarith) (by linarith) le_rfl
    (mul_pos ha2 (by linarith)) (mul_lt_mul_of_pos_left (by rw [sin_pi_div_two]; linarith) ha2)
  have hw' : Encloses a q (-σ) (π / 2) (2 * π * a ^ 2 * (sin φ + sin σ)) w := by
    have := hw
    rwa [sin_neg, sub_neg_eq_add] at this
  refine ⟨w, by rwa [southCap, show 2 * π * a ^ 2 * (1 + sin φ) - 2 * π * a ^ 2 * (1 + sin (-σ)) = 2 * π * a ^ 2 * (sin φ - sin (-σ)) by ring], hw, ?_, ?_⟩
  all_goals
    choose R' B' C' h1 h2 using fun i => C195_exists (q := q) (G := fun _ _ => 0) hg ha i
    have e : ∀ i, R' i = R i ∧ B' i = B i := fun i => by simpa using (h2 i).symm.trans (hR.part i)
  · refine (C195_north (l := 0) (c := fun _ => 0) (G := fun _ _ => 0) ha hq continuous_const hg hr.part hr.toward hr.south hr.north (by simp) hw' h1).1.congr fun i => ?_
    rw [(e i).1]
  · intro l c hc
    refine (C195_north (G := fun _ _ => 0) ha hq continuous_const hg hr.part hr.toward hr.south hr.north hc hw' h1).2.1.congr fun i => ?_
    rw [(e i).2]

/-- Limits of the wrapper in the southern part. -/
theorem BothResults.south (hR : BothResults a q nlat nlon np S np' Q A R B) (ha : 0 < a) (hq : Continuous fun p : ℝ × ℝ => q p.1 p.2)
    (hg : HemGrids nlat nlon S np' σ) (hr : SouthRows nlat S j σ φ) :
    ∃ w, Encloses a q (-(π / 2)) σ (southCap a φ) w ∧ Tendsto (fun i => R i (j i)) atTop (nhds w) ∧
      ∀ l, ∀ c : ℕ → ℕ, Tendsto (fun i => 2 * π * c i / nlon i) atTop (nhds l) →
        Tendsto (fun i => B i (j i) (c i)) atTop (nhds (meridionalWaveActivity a (fun x => q x l) w (-(π / 2)) σ φ)) := by
  have hpi := pi_pos
  have hs := hg.south
  have hn := hg.north
  have l1 : sin φ < sin σ := sin_lt_sin_of_lt_of_le_pi_div_two hr.south.le hn hr.north
  have l2 : -1 < sin φ := by
    rw [← sin_pi_div_two, ← sin_neg]
    exact sin_lt_sin_of_lt_of_le_pi_div_two le_rfl (by have := hr.north; linarith) hr.south
  have ha2 : 0 < 2 * π * a ^ 2 := by positivity
  obtain ⟨w, hw, -⟩ := C159_reference_exists (s := -(π / 2)) (n := σ) (T := southCap a φ) ha hq le_rfl hs hn
    (mul_pos ha2 (by linarith)) (mul_lt_mul_of_pos_left (by rw [sin_neg, sin_pi_div_two]; linarith) ha2)
  refine ⟨w, hw, ?_, ?_⟩
  all_goals
    choose R' B' C' h1 h2 using fun i => C195_exists (q := q) (G := fun _ _ => 0) hg ha i
    have e : ∀ i, R' i = R i ∧ B' i = B i := fun i => by simpa using (h2 i).symm.trans (hR.part i)
  · refine (C195_south (l := 0) (c := fun _ => 0) (G := fun _ _ => 0) ha hq continuous_const hg hr.part hr.toward hr.south hr.north (by simp) hw h1).1.congr fun i => ?_
    rw [(e i).1]
  · intro l c hc
    refine (C195_south (G := fun _ _ => 0) ha hq continuous_const hg hr.part hr.toward hr.south hr.north hc hw h1).2.1.congr fun i => ?_
    rw [(e i).2]

/-- **C197 (reference values, north).** In the limit of fine grids the reference value of the wrapper at a latitude of the northern part is at most
that of `BarotropicField`. They are equal if no value south of the part exceeds it, and, where the contour covers no area, only then. -/
theorem C197_north_value (hR : BothResults a q nlat nlon np S np' Q A R B) (ha : 0 < a) (hq : Continuous fun p : ℝ × ℝ => q p.1 p.2)
    (hG : Finer nlat nlon np j φ) (hL : 0 ≤ L) (hb : ∀ l ∈ Icc 0 (2 * π), GradientBound (fun x => q x l) L (-(π / 2)) (π / 2))
    (hg : HemGrids nlat nlon S np' σ) (hr : NorthRows nlat S j σ φ) :
    ∃ v w, Tendsto (fun i => Q i (j i)) atTop (nhds v) ∧ Tendsto (fun i => R i (j i)) atTop (nhds w) ∧ w ≤ v ∧
      ((∀ p ∈ band (-(π / 2)) (-σ), q p.1 p.2 ≤ w) → w = v) ∧
      (σ < π / 2 → volume {p | p ∈ band (-σ) (π / 2) ∧ q p.1 p.2 = v} = 0 → w = v → ∀ p ∈ band (-(π / 2)) (-σ), q p.1 p.2 ≤ w) := by
  have s1 : -(π / 2) ≤ -σ := by have := hg.north; linarith
  have s2 : -σ ≤ π / 2 := by have := hg.south; linarith
  obtain ⟨v, hv, hQ, -⟩ := hR.whole ha hq hG hL hb
  obtain ⟨w, hw, -, hRt, -⟩ := hR.north ha hq hg hr
  refine ⟨v, w, hQ, hRt, north_value_le hq s1 s2 hw hv, north_value_eq hq s1 s2 hw hv, fun h1 h0 e => ?_⟩
  subst e
  exact north_value_ne ha hq (by linarith) s2 hw hv h0

/-- **C197 (wave activity, north).** If no value south of the part exceeds the reference value, then profile and wave activity of both agree in
the limit, at every longitude. -/
theorem C197_north_lwa (hR : BothResults a q nlat nlon np S np' Q A R B) (ha : 0 < a) (hq : Continuous fun p : ℝ × ℝ => q p.1 p.2)
    (hG : Finer nlat nlon np j φ) (hL : 0 ≤ L) (hb : ∀ l ∈ Icc 0 (2 * π), GradientBound (fun x => q x l) L (-(π / 2)) (π / 2))
    (hg : HemGrids nlat nlon S np' σ) (hr : NorthRows nlat S j σ φ) {w : ℝ} (hw : Tendsto (fun i => R i (j i)) atTop (nhds w))
    (h : ∀ p ∈ band (-(π / 2)) (-σ), q p.1 p.2 ≤ w) {c : ℕ → ℕ} {l : ℝ} (hc : ∀ i, c i < nlon i)
    (hcl : Tendsto (fun i => 2 * π * c i / nlon i) atTop (nhds l)) :
    Tendsto (fun i => Q i (j i) - R i (j i)) atTop (nhds 0) ∧ Tendsto (fun i => A i (j i) (c i) - B i (j i) (c i)) atTop (nhds 0) := by
  have hpi := pi_pos
  have s1 : -(π / 2) ≤ -σ := by have := hg.north; linarith
  have s2 : -σ ≤ π / 2 := by have := hg.south; linarith
  have hl : l ∈ Icc 0 (2 * π) := by
    refine isClosed_Icc.mem_of_tendsto hcl (Eventually.of_forall fun i => ⟨by positivity, ?_⟩)
    have h1 : (0 : ℝ) < nlon i := by exact_mod_cast hG.columns i
    have h2 : (c i : ℝ) ≤ nlon i := by exact_mod_cast (hc i).le
    rw [div_le_iff₀ h1]
    gcongr
  obtain ⟨v, hv, hQ, hA⟩ := hR.whole ha hq hG hL hb
  obtain ⟨w', hw', -, hRt, hB⟩ := hR.north ha hq hg hr
  obtain rfl := tendsto_nhds_unique hw hRt
  obtain rfl := north_value_eq hq s1 s2 hw' hv h
  refine ⟨by simpa using hQ.sub hRt, ?_⟩
  have := (hA l hl c hc hcl).sub (hB l c hcl)
  rwa [activity_north_eq (f := fun x => q x l) (s := -σ) (hq.comp (f := fun x : ℝ => (x, l)) (by fun_prop)) s1 (fun x hx => h (x, l) ⟨hx, hl⟩),
    sub_self] at this

/-- **C197 (zonal means, north).** The zonal mean of the wave activity of the wrapper is, in the limit, at most that of `BarotropicField`. -/
theorem C197_north_mean (hR : BothResults a q nlat nlon np S np' Q A R B) (ha : 0 < a) (hq : Continuous fun p : ℝ × ℝ => q p.1 p.2)
    (hG : Finer nlat nlon np j φ) (hL : 0 ≤ L) (hb : ∀ l ∈ Icc 0 (2 * π), GradientBound (fun x => q x l) L (-(π / 2)) (π / 2))
    (hg : HemGrids nlat nlon S np' σ) (hr : NorthRows nlat S j σ φ) :
    ∃ X Y, Tendsto (fun i => (∑ c ∈ Finset.range (nlon i), A i (j i) c) / nlon i) atTop (nhds X) ∧
      Tendsto (fun i => (∑ c ∈ Finset.range (nlon i), B i (j i) c) / nlon i) atTop (nhds Y) ∧ Y ≤ X := by
  have hpi := pi_pos
  have s1 : -(π / 2) ≤ -σ := by have := hg.north; linarith
  have s2 : -σ ≤ π / 2 := by have := hg.south; linarith
  obtain ⟨v, hv, -, hA⟩ := hR.whole ha hq hG hL hb
  obtain ⟨w, -, hw, -, hB⟩ := hR.north ha hq hg hr
  refine ⟨_, _, circle_tends hG.columns hG.moreColumns hA, circle_tends hG.columns hG.moreColumns fun l _ c _ hc => hB l c hc, ?_⟩
  unfold longitudeMean
  refine div_le_div_of_nonneg_right ?_ (by positivity)
  refine (activity_least ha hq s1 le_rfl hr.south.le hr.north.le hw v).trans ?_
  refine intervalIntegral.integral_mono_on (by positivity) ((partActivity_continuous hq φ).intervalIntegrable _ _)
    ((partActivity_continuous hq φ).intervalIntegrable _ _) fun l _ => ?_
  exact activity_part_le ha.le (hq.comp (f := fun x : ℝ => (x, l)) (by fun_prop)) s1 s2 (by linarith) le_rfl

/-- **C197 (reference values, south).** In the southern part the reference value of the wrapper is at least that of `BarotropicField`. They are equal
if no value north of the part is less, and, where the contour covers no area, only then. -/
theorem C197_south_value (hR : BothResults a q nlat nlon np S np' Q A R B) (ha : 0 < a) (hq : Continuous fun p : ℝ × ℝ => q p.1 p.2)
    (hG : Finer nlat nlon np j φ) (hL : 0 ≤ L) (hb : ∀ l ∈ Icc 0 (2 * π), GradientBound (fun x => q x l) L (-(π / 2)) (π / 2))
    (hg : HemGrids nlat nlon S np' σ) (hr : SouthRows nlat S j σ φ) :
    ∃ v w, Tendsto (fun i => Q i (j i)) atTop (nhds v) ∧ Tendsto (fun i => R i (j i)) atTop (nhds w) ∧ v ≤ w ∧
      ((∀ p ∈ band σ (π / 2), w ≤ q p.1 p.2) → w = v) ∧
      (σ < π / 2 → volume {p | p ∈ band (-(π / 2)) σ ∧ q p.1 p.2 = v} = 0 → w = v → ∀ p ∈ band σ (π / 2), w ≤ q p.1 p.2) := by
  obtain ⟨v, hv, hQ, -⟩ := hR.whole ha hq hG hL hb
  obtain ⟨w, hw, hRt, -⟩ := hR.south ha hq hg hr
  refine ⟨v, w, hQ, hRt, south_value_ge hq hg.south.le hg.north hw hv, south_value_eq hq hg.south.le hg.north hw hv, fun h1 h0 e => ?_⟩
  subst e
  exact south_value_ne ha hq hg.south.le h1 hw hv h0

/-- **C197 (wave activity, south).** If no value north of the part is less than the reference value, then profile and wave activity of both agree
in the limit, at every longitude. -/
theorem C197_south_lwa (hR : BothResults a q nlat nlon np S np' Q A R B) (ha : 0 < a) (hq : Continuous fun p : ℝ × ℝ => q p.1 p.2)
    (hG : Finer nlat nlon np j φ) (hL : 0 ≤ L) (hb : ∀ l ∈ Icc 0 (2 * π), GradientBound (fun x => q x l) L (-(π / 2)) (π / 2))
    (hg : HemGrids nlat nlon S np' σ) (hr : SouthRows nlat S j σ φ) {w : ℝ} (hw : Tendsto (fun i => R i (j i)) atTop (nhds w))
    (h : ∀ p ∈ band σ (π / 2), w ≤ q p.1 p.2) {c : ℕ → ℕ} {l : ℝ} (hc : ∀ i, c i < nlon i)
    (hcl : Tendsto (fun i => 2 * π * c i / nlon i) atTop (nhds l)) :
    Tendsto (fun i => Q i (j i) - R i (j i)) atTop (nhds 0) ∧ Tendsto (fun i => A i (j i) (c i) - B i (j i) (c i)) atTop (nhds 0) := by
  have hpi := pi_pos
  have hl : l ∈ Icc 0 (2 * π) := by
    refine isClosed_Icc.mem_of_tendsto hcl (Eventually.of_forall fun i => ⟨by positivity, ?_⟩)
    have h1 : (0 : ℝ) < nlon i := by exact_mod_cast hG.columns i
    have h2 : (c i : ℝ) ≤ nlon i := by exact_mod_cast (hc i).le
    rw [div_le_iff₀ h1]
    gcongr
  obtain ⟨v, hv, hQ, hA⟩ := hR.whole ha hq hG hL hb
  obtain ⟨w', hw', hRt, hB⟩ := hR.south ha hq hg hr
  obtain rfl := tendsto_nhds_unique hw hRt
  obtain rfl := south_value_eq hq hg.south.le hg.north hw' hv h
  refine ⟨by simpa using hQ.sub hRt, ?_⟩
  have := (hA l hl c hc hcl).sub (hB l c hcl)
  rwa [activity_south_eq (f := fun x => q x l) (n := σ) (hq.comp (f := fun x : ℝ => (x, l)) (by fun_prop)) hg.north (fun x hx => h (x, l) ⟨hx, hl⟩),
    sub_self] at this

/-- **C197 (zonal means, south).** -/
theorem C197_south_mean (hR : BothResults a q nlat nlon np S np' Q A R B) (ha : 0 < a) (hq : Continuous fun p : ℝ × ℝ => q p.1 p.2)
    (hG : Finer nlat nlon np j φ) (hL : 0 ≤ L) (hb : ∀ l ∈ Icc 0 (2 * π), GradientBound (fun x => q x l) L (-(π / 2)) (π / 2))
    (hg : HemGrids nlat nlon S np' σ) (hr : SouthRows nlat S j σ φ) :
    ∃ X Y, Tendsto (fun i => (∑ c ∈ Finset.range (nlon i), A i (j i) c) / nlon i) atTop (nhds X) ∧
      Tendsto (fun i => (∑ c ∈ Finset.range (nlon i), B i (j i) c) / nlon i) atTop (nhds Y) ∧ Y ≤ X := by
  have hpi := pi_pos
  obtain ⟨v, hv, -, hA⟩ := hR.whole ha hq hG hL hb
  obtain ⟨w, hw, -, hB⟩ := hR.south ha hq hg hr
  refine ⟨_, _, circle_tends hG.columns hG.moreColumns hA, circle_tends hG.columns hG.moreColumns fun l _ c _ hc => hB l c hc, ?_⟩
  unfold longitudeMean
  refine div_le_div_of_nonneg_right ?_ (by positivity)
  have hw' : Encloses a q (-(π / 2)) σ (2 * π * a ^ 2 * (sin φ - sin (-(π / 2)))) w := by
    rwa [sin_neg, sin_pi_div_two, show 2 * π * a ^ 2 * (sin φ - -1) = southCap a φ by unfold southCap; ring]
  refine (activity_least ha hq le_rfl hg.north hr.south.le hr.north.le hw' v).trans ?_
  refine intervalIntegral.integral_mono_on (by positivity) ((partActivity_continuous hq φ).intervalIntegrable _ _)
    ((partActivity_continuous hq φ).intervalIntegrable _ _) fun l _ => ?_
  exact activity_part_le ha.le (hq.comp (f := fun x : ℝ => (x, l)) (by fun_prop)) le_rfl (by linarith) hg.south.le hg.north

/-! ### They do not agree in general -/

/-- Values that fall from the South Pole to the North Pole. -/
theorem falling_encloses (a : ℝ) (ha : 0 < a) (h1 : -(π / 2) < φ) (h2 : φ < π / 2) :
    Encloses a (fun x _ => -sin x) (-(π / 2)) (π / 2) (southCap a φ) (sin φ) := by
  have hpi := pi_pos
  have ha2 : 0 < 2 * π * a ^ 2 := by positivity
  have b1 : -1 < sin φ := by
    rw [← sin_pi_div_two, ← sin_neg]; exact sin_lt_sin_of_lt_of_le_pi_div_two le_rfl h2.le h1
  have b2 : sin φ < 1 := by
    rw [← sin_pi_div_two]; exact sin_lt_sin_of_lt_of_le_pi_div_two h1.le le_rfl h2
  have hq : Continuous fun p : ℝ × ℝ => (fun x _ : ℝ => sin x) p.1 p.2 := by fun_prop
  have h : Encloses a (fun x _ => sin x) (-(π / 2)) (π / 2) (southCap a φ) (sin φ) := by
    constructor
    · intro w hw
      refine (areaAtMost_mono (a := a) hq le_rfl le_rfl (le_max_left w (-1))).trans_lt ?_
      rw [areaAtMost_sin (le_max_right _ _) (max_le (hw.trans b2).le (by norm_num))]
      exact mul_lt_mul_of_pos_left (by linarith [max_lt hw b1]) ha2
    · intro w hw
      refine lt_of_lt_of_le ?_ (areaAtMost_mono (a := a) hq le_rfl le_rfl (min_le_left w 1))
      rw [areaAtMost_sin (le_min (b1.trans hw).le (by norm_num)) (min_le_right _ _)]
      exact mul_lt_mul_of_pos_left (by linarith [lt_min hw b2]) ha2
  have := encloses_reflect h
  simpa only [sin_neg] using this

/-- **C197 (they differ).** For a field that falls from the South Pole to the North Pole the reference values differ in the limit at every latitude of
the Northern Hemisphere. -/
theorem C197_differ (hR : BothResults a (fun x _ => -sin x) nlat nlon np S np' Q A R B) (ha : 0 < a) (hG : Finer nlat nlon np j φ)
    (hg : HemGrids nlat nlon S np' 0) (hr : NorthRows nlat S j 0 φ) :
    ∃ v w, Tendsto (fun i => Q i (j i)) atTop (nhds v) ∧ Tendsto (fun i => R i (j i)) atTop (nhds w) ∧ w < v := by
  have hpi := pi_pos
  have hq : Continuous fun p : ℝ × ℝ => (fun x _ : ℝ => -sin x) p.1 p.2 := by fun_prop
  have h0 : 0 < φ := by have := hr.south; linarith
  have hsin : 0 < sin φ := sin_pos_of_pos_of_lt_pi h0 (by have := hr.north; linarith)
  have b2 : sin φ < 1 := by
    rw [← sin_pi_div_two]; exact sin_lt_sin_of_lt_of_le_pi_div_two hG.south.le le_rfl hr.north
  have hb : ∀ l ∈ Icc 0 (2 * π), GradientBound ((fun l x => (fun x _ : ℝ => -sin x) x l) l) 1 (-(π / 2)) (π / 2) := fun l _ x _ y _ => by
    show |-sin x - -sin y| ≤ 1 * |x - y|
    rw [one_mul, neg_sub_neg, abs_sub_comm]
    exact abs_sin_sub_sin_le x y
  obtain ⟨v, w, hQ, hRt, hle, -, hne⟩ := C197_north_value hR ha hq hG zero_le_one hb hg hr
  have hv : v = sin φ := by
    obtain ⟨v', hv', hQ', -⟩ := hR.whole ha hq hG zero_le_one hb
    obtain rfl := tendsto_nhds_unique hQ hQ'
    rcases lt_trichotomy v (sin φ) with h | h | h
    · have h1 := hv'.above ((v + sin φ) / 2) (by linarith)
      have h2 := (falling_encloses a ha hG.south hG.north).below ((v + sin φ) / 2) (by linarith)
      linarith
    · exact h
    · have h1 := hv'.below ((v + sin φ) / 2) (by linarith)
      have h2 := (falling_encloses a ha hG.south hG.north).above ((v + sin φ) / 2) (by linarith)
      linarith
  refine ⟨v, w, hQ, hRt, lt_of_le_of_ne hle fun e => ?_⟩
  have hnull : volume {p : ℝ × ℝ | p ∈ band (-0) (π / 2) ∧ (fun x _ : ℝ => -sin x) p.1 p.2 = v} = 0 := by
    convert measure_empty (μ := (volume : Measure (ℝ × ℝ)))
    refine eq_empty_iff_forall_notMem.2 fun p hp => ?_
    have h1 : 0 ≤ sin p.1 := sin_nonneg_of_nonneg_of_le_pi (by have := hp.1.1.1; linarith) (by have := hp.1.1.2; linarith)
    have h2 : -sin p.1 = v := hp.2
    linarith
  have h1 : -sin (-(π / 2)) ≤ w := hne (by linarith) hnull e (-(π / 2), 0) ⟨⟨le_rfl, by linarith⟩, ⟨le_rfl, by positivity⟩⟩
  rw [sin_neg, sin_pi_div_two] at h1
  linarith

/-! ### Non-vacuity -/

theorem quarter_finer : Finer (fun i => 4 * (i + 2) + 1) (fun i => i + 1) (fun _ => none) (fun i => 3 * (i + 2)) (π / 4) where
  rows i := by omega
  columns i := by omega
  parts i := by simp only [Option.getD_none]; omega
  moreRows := tendsto_atTop_mono (fun i => by simp only [id]; omega) tendsto_id
  moreColumns := tendsto_atTop_mono (fun i => by simp only [id]; omega) tendsto_id
  moreParts := tendsto_atTop_mono (fun i => by simp only [Option.getD_none, id]; omega) tendsto_id
  row i := by omega
  toward := quarter_north.toward
  north := quarter_north.north
  south := by have := pi_pos; linarith

theorem quarter_finer_south : Finer (fun i => 4 * (i + 2) + 1) (fun i => i + 1) (fun _ => none) (fun i => 1 * (i + 2)) (-(π / 4)) :=
  { quarter_finer with
    row := fun i => by omega
    toward := quarter_south.toward
    north := by have := pi_pos; linarith
    south := quarter_south.south }

/-- A wave that vanishes at the equator. -/
def equatorWave (x l : ℝ) : ℝ := sin x * (2 + cos l)

theorem equatorWave_continuous : Continuous fun p : ℝ × ℝ => equatorWave p.1 p.2 := by unfold equatorWave; fun_prop

theorem equatorWave_gradient : ∀ l ∈ Icc 0 (2 * π), GradientBound (fun x => equatorWave x l) 3 (-(π / 2)) (π / 2) := fun l _ x _ y _ => by
  show |sin x * (2 + cos l) - sin y * (2 + cos l)| ≤ 3 * |x - y|
  have h1 := neg_one_le_cos l
  have h2 := cos_le_one l
  rw [← sub_mul, abs_mul, abs_of_nonneg (by linarith : 0 ≤ 2 + cos l), mul_comm]
  exact mul_le_mul (by linarith) (abs_sin_sub_sin_le x y) (abs_nonneg _) (by norm_num)

/-- Hypotheses of the northern theorems, with a wave whose contours do not cross the equator. -/
example : ∃ Q A R B, BothResults 1 equatorWave (fun i => 4 * (i + 2) + 1) (fun i => i + 1) (fun _ => none) (fun _ => none) (fun _ => none) Q A R B ∧
    ∃ w, Tendsto (fun i => R i (3 * (i + 2))) atTop (nhds w) ∧ ∀ p ∈ band (-(π / 2)) (-0), equatorWave p.1 p.2 ≤ w := by
  have hpi := pi_pos
  obtain ⟨Q, A, R, B, hR⟩ := C197_exists one_pos equatorWave_continuous quarter_finer (by norm_num) equatorWave_gradient quarter_grids
  obtain ⟨w, -, hw, ht, -⟩ := hR.north one_pos equatorWave_continuous quarter_grids quarter_north
  refine ⟨Q, A, R, B, hR, w, ht, fun p hp => ?_⟩
  have h0 : 0 ≤ w := by
    by_contra hneg
    push Not at hneg
    have h1 := hw.above (w / 2) (by linarith)
    have h3 : 0 < sin (π / 4) := sin_pos_of_pos_of_lt_pi (by positivity) (by linarith)
    rw [areaAtMost_none fun p hp => ?_, neg_zero, sin_zero] at h1
    · have : 0 < 2 * π * 1 ^ 2 * (sin (π / 4) - 0) := by rw [sub_zero]; positivity
      linarith
    · have h2 : 0 ≤ sin p.1 := sin_nonneg_of_nonneg_of_le_pi (by have := hp.1.1; linarith) (by have := hp.1.2; linarith)
      have : 0 ≤ equatorWave p.1 p.2 := mul_nonneg h2 (by have := neg_one_le_cos p.2; linarith)
      linarith
  have h2 : sin p.1 ≤ 0 := sin_nonpos_of_nonpos_of_neg_pi_le (by have := hp.1.2; linarith) (by have := hp.1.1; linarith)
  exact (mul_nonpos_of_nonpos_of_nonneg h2 (by have := neg_one_le_cos p.2; linarith)).trans h0

/-- Hypotheses of the southern theorems. -/
example : ∃ Q A R B, BothResults 1 equatorWave (fun i => 4 * (i + 2) + 1) (fun i => i + 1) (fun _ => none) (fun _ => none) (fun _ => none) Q A R B ∧
    ∃ w, Tendsto (fun i => R i (1 * (i + 2))) atTop (nhds w) ∧ ∀ p ∈ band 0 (π / 2), w ≤ equatorWave p.1 p.2 := by
  have hpi := pi_pos
  obtain ⟨Q, A, R, B, hR⟩ := C197_exists one_pos equatorWave_continuous quarter_finer_south (by norm_num) equatorWave_gradient quarter_grids
  obtain ⟨w, hw, ht, -⟩ := hR.south one_pos equatorWave_continuous quarter_grids quarter_south
  refine ⟨Q, A, R, B, hR, w, ht, fun p hp => ?_⟩
  have h0 : w ≤ 0 := by
    by_contra hpos
    push Not at hpos
    have h1 := hw.below (w / 2) (by linarith)
    have h3 : 0 < sin (π / 4) := sin_pos_of_pos_of_lt_pi (by positivity) (by linarith)
    rw [areaAtMost_all fun p hp => ?_, band_area (by linarith), southCap, sin_zero, sin_neg, sin_neg, sin_pi_div_two] at h1
    · have : 2 * π * 1 ^ 2 * (1 + -sin (π / 4)) < 2 * π * 1 ^ 2 * (0 - -1) := mul_lt_mul_of_pos_left (by linarith) (by positivity)
      linarith
    · have h2 : sin p.1 ≤ 0 := sin_nonpos_of_nonpos_of_neg_pi_le (by have := hp.1.2; linarith) (by have := hp.1.1; linarith)
      have : equatorWave p.1 p.2 ≤ 0 := mul_nonpos_of_nonpos_of_nonneg h2 (by have := neg_one_le_cos p.2; linarith)
      linarith
  have h2 : 0 ≤ sin p.1 := sin_nonneg_of_nonneg_of_le_pi (by have := hp.1.1; linarith) (by have := hp.1.2; linarith)
  exact h0.trans (mul_nonneg h2 (by have := neg_one_le_cos p.2; linarith))

/-- Hypotheses of `C197_differ`. -/
example : ∃ Q A R B, BothResults 1 (fun x _ => -sin x) (fun i => 4 * (i + 2) + 1) (fun i => i + 1) (fun _ => none) (fun _ => none) (fun _ => none)
    Q A R B ∧ ∃ v w, Tendsto (fun i => Q i (3 * (i + 2))) atTop (nhds v) ∧ Tendsto (fun i => R i (3 * (i + 2))) atTop (nhds w) ∧ w < v := by
  have hq : Continuous fun p : ℝ × ℝ => (fun x _ : ℝ => -sin x) p.1 p.2 := by fun_prop
  obtain ⟨Q, A, R, B, hR⟩ := C197_exists (q := fun x _ => -sin x) (L := 1) one_pos hq quarter_finer (by norm_num) (fun l _ x _ y _ => by
    show |-sin x - -sin y| ≤ 1 * |x - y|
    rw [one_mul, neg_sub_neg, abs_sub_comm]
    exact abs_sin_sub_sin_le x y) quarter_grids
  exact ⟨Q, A, R, B, hR, C197_differ hR one_pos quarter_finer quarter_grids quarter_north⟩

end Falwa
