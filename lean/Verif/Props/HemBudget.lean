import Verif.Props.BarotropicBudget
import Verif.Props.HemLimit
import Mathlib.MeasureTheory.Integral.IntervalIntegral.Periodic

/-!
# C196: budget of the wave activity of the hemispheric wrappers
-/

noncomputable section

namespace Falwa

open MeasureTheory Filter Set Real Spec

variable {a φ σ : ℝ} {q : ℝ → ℝ → ℝ} {M : Motion} {nlat nlon nlat' nlon' : ℕ → ℕ} {S np S' np' : ℕ → Option ℕ} {j j' : ℕ → ℕ}

/-- `A` is the wave activity that `qgpv_eqlat_lwa` returns for a field on a regular grid. -/
def GivesHemLwa (a : ℝ) (q : ℝ → ℝ → ℝ) (nlat nlon : ℕ) (S np : Option ℕ) (A : ℕ → ℕ → ℝ) : Prop :=
  ∃ Q, (hemOn a q nlat nlon S np).qgpvEqlatLwa = .ok (Q, A)

/-- Rows of the northern part that tend to a latitude inside it. -/
structure NorthRows (nlat : ℕ → ℕ) (S : ℕ → Option ℕ) (j : ℕ → ℕ) (σ φ : ℝ) : Prop where
  part : ∀ i, nlat i - (S i).getD (nlat i / 2) ≤ j i ∧ j i + 1 < nlat i
  toward : Tendsto (fun i => regularLat (nlat i) (j i) * π / 180) atTop (nhds φ)
  south : -σ < φ
  north : φ < π / 2

/-- Rows of the southern part that tend to a latitude inside it. -/
structure SouthRows (nlat : ℕ → ℕ) (S : ℕ → Option ℕ) (j : ℕ → ℕ) (σ φ : ℝ) : Prop where
  part : ∀ i, j i + 1 < (S i).getD (nlat i / 2) ∧ j i < nlat i - (S i).getD (nlat i / 2)
  toward : Tendsto (fun i => regularLat (nlat i) (j i) * π / 180) atTop (nhds φ)
  south : -(π / 2) < φ
  north : φ < σ

theorem hem_north_tends {v : ℝ} (ha : 0 < a) (hq : Continuous fun p : ℝ × ℝ => q p.1 p.2) (hg : HemGrids nlat nlon S np σ)
    (hr : NorthRows nlat S j σ φ) (hv : Encloses a q (-σ) (π / 2) (2 * π * a ^ 2 * (sin φ + sin σ)) v) :
    ∃ A : ℕ → ℕ → ℕ → ℝ, (∀ i, GivesHemLwa a q (nlat i) (nlon i) (S i) (np i) (A i)) ∧
      ∀ l ∈ Icc 0 (2 * π), ∀ c : ℕ → ℕ, (∀ i, c i < nlon i) → Tendsto (fun i => 2 * π * c i / nlon i) atTop (nhds l) →
        Tendsto (fun i => A i (j i) (c i)) atTop (nhds (meridionalWaveActivity a (fun x => q x l) v (-σ) (π / 2) φ)) := by
  choose Q A C h1 h2 using fun i => C195_exists (q := q) (G := fun _ _ => 0) hg ha i
  exact ⟨A, fun i => ⟨Q i, h2 i⟩, fun l _ c _ hc =>
    (C195_north (G := fun _ _ => 0) ha hq continuous_const hg hr.part hr.toward hr.south hr.north hc hv h1).2.1⟩

theorem hem_south_tends {v : ℝ} (ha : 0 < a) (hq : Continuous fun p : ℝ × ℝ => q p.1 p.2) (hg : HemGrids nlat nlon S np σ)
    (hr : SouthRows nlat S j σ φ) (hv : Encloses a q (-(π / 2)) σ (southCap a φ) v) :
    ∃ A : ℕ → ℕ → ℕ → ℝ, (∀ i, GivesHemLwa a q (nlat i) (nlon i) (S i) (np i) (A i)) ∧
      ∀ l ∈ Icc 0 (2 * π), ∀ c : ℕ → ℕ, (∀ i, c i < nlon i) → Tendsto (fun i => 2 * π * c i / nlon i) atTop (nhds l) →
        Tendsto (fun i => A i (j i) (c i)) atTop (nhds (meridionalWaveActivity a (fun x => q x l) v (-(π / 2)) σ φ)) := by
  choose Q A C h1 h2 using fun i => C195_exists (q := q) (G := fun _ _ => 0) hg ha i
  exact ⟨A, fun i => ⟨Q i, h2 i⟩, fun l _ c _ hc =>
    (C195_south (G := fun _ _ => 0) ha hq continuous_const hg hr.part hr.toward hr.south hr.north hc hv h1).2.1⟩

theorem partActivity_continuous {v s n : ℝ} (hq : Continuous fun p : ℝ × ℝ => q p.1 p.2) (φ' : ℝ) :
    Continuous fun l => meridionalWaveActivity a (fun x => q x l) v s n φ' := by
  have hs : Continuous fun p : ℝ × ℝ => q p.2 p.1 := hq.comp (f := fun p : ℝ × ℝ => (p.2, p.1)) (by fun_prop)
  unfold meridionalWaveActivity
  refine Continuous.add ?_ ?_
  · exact intervalIntegral.continuous_parametric_intervalIntegral_of_continuous' (f := fun l x => max (v - q x l) 0 * (a * cos x))
      (((continuous_const.sub hs).max continuous_const).mul (by fun_prop)) _ _
  · exact intervalIntegral.continuous_parametric_intervalIntegral_of_continuous' (f := fun l x => max (q x l - v) 0 * (a * cos x))
      (((hs.sub continuous_const).max continuous_const).mul (by fun_prop)) _ _

variable {v v' : ℝ → ℝ}

/-- **C196 (north).** QGPV is carried by a wind without divergence and has the source `M.S`; `v t` is the value whose contour encloses, in the part
north of `-σ`, the area south of `φ`. The sums over the columns between two longitudes of the wave activity that `qgpv_eqlat_lwa` returns at two
times have limits. Their difference is the zonal transport of displaced QGPV through the ends, less the flux `V (q - Q)` through the circle of
latitude, plus what air with values above the reference carries in through the edge at `-σ`, plus the source less the change of the reference
value over the displaced air. -/
theorem C196_north (ha : 0 < a) (h : M.Obeys a) (hv : ∀ t, HasDerivAt v (v' t) t) (cv : Continuous v')
    (he : ∀ t, Encloses a (M.q t) (-σ) (π / 2) (2 * π * a ^ 2 * (sin φ + sin σ)) (v t))
    (hg : HemGrids nlat nlon S np σ) (hg' : HemGrids nlat' nlon' S' np' σ) (hr : NorthRows nlat S j σ φ) (hr' : NorthRows nlat' S' j' σ φ)
    {c1 c2 c1' c2' : ℕ → ℕ} {l1 l2 : ℝ} (hF : Filling nlon c1 c2 l1 l2) (hF' : Filling nlon' c1' c2' l1 l2) {t1 t2 : ℝ} (ht : t1 ≤ t2) :
    ∃ (A B : ℕ → ℕ → ℕ → ℝ) (X Y : ℝ), (∀ i, GivesHemLwa a (M.q t1) (nlat i) (nlon i) (S i) (np i) (A i)) ∧
      (∀ i, GivesHemLwa a (M.q t2) (nlat' i) (nlon' i) (S' i) (np' i) (B i)) ∧
      Tendsto (fun i => 2 * π / nlon i * ∑ c ∈ Finset.Ico (c1 i) (c2 i), A i (j i) c) atTop (nhds X) ∧
      Tendsto (fun i => 2 * π / nlon' i * ∑ c ∈ Finset.Ico (c1' i) (c2' i), B i (j' i) c) atTop (nhds Y) ∧
      Y - X = (∫ t in t1..t2, (meridionalTransport a (fun x => M.q t x l1) (fun x => M.U t x l1) (v t) (-σ) (π / 2) φ -
          meridionalTransport a (fun x => M.q t x l2) (fun x => M.U t x l2) (v t) (-σ) (π / 2) φ) / a) -
        (∫ t in t1..t2, ∫ l in l1..l2, (M.V t φ l * cos φ * (M.q t φ l - v t) - M.V t (-σ) l * cos σ * max (M.q t (-σ) l - v t) 0)) +
        ∫ t in t1..t2, ∫ l in l1..l2, meridionalSource a (fun x => M.q t x l) (fun x => M.S t x l - v' t) (v t) (-σ) (π / 2) φ := by
  have hpi := pi_pos
  obtain ⟨A, hA, hAt⟩ := hem_north_tends ha (level_continuous h t1) hg hr (he t1)
  obtain ⟨B, hB, hBt⟩ := hem_north_tends ha (level_continuous h t2) hg' hr' (he t2)
  refine ⟨A, B, _, _, hA, hB, filling_tends hg.columns hg.moreColumns hF hAt, filling_tends hg'.columns hg'.moreColumns hF' hBt, ?_⟩
  have hb := C180_budget h ha.ne' hv cv ht hF.le (by have := hg.north; linarith : -(π / 2) ≤ -σ) hr.south.le hr.north.le le_rfl
  rw [intervalIntegral.integral_sub ((partActivity_continuous (level_continuous h t2) φ).intervalIntegrable _ _)
    ((partActivity_continuous (level_continuous h t1) φ).intervalIntegrable _ _)] at hb
  rw [hb]
  have e : ∀ t l, meridionalOutflow (fun x => M.q t x l) (fun x => M.V t x l) (v t) (-σ) (π / 2) φ =
      M.V t φ l * cos φ * (M.q t φ l - v t) - M.V t (-σ) l * cos σ * max (M.q t (-σ) l - v t) 0 := fun t l => by
    unfold meridionalOutflow
    rw [cos_neg, cos_pi_div_two]
    ring
  simp only [e]

/-- **C196 (south).** The same for the part south of `σ`; here air with values below the reference enters or leaves through the edge. -/
theorem C196_south (ha : 0 < a) (h : M.Obeys a) (hv : ∀ t, HasDerivAt v (v' t) t) (cv : Continuous v')
    (he : ∀ t, Encloses a (M.q t) (-(π / 2)) σ (southCap a φ) (v t))
    (hg : HemGrids nlat nlon S np σ) (hg' : HemGrids nlat' nlon' S' np' σ) (hr : SouthRows nlat S j σ φ) (hr' : SouthRows nlat' S' j' σ φ)
    {c1 c2 c1' c2' : ℕ → ℕ} {l1 l2 : ℝ} (hF : Filling nlon c1 c2 l1 l2) (hF' : Filling nlon' c1' c2' l1 l2) {t1 t2 : ℝ} (ht : t1 ≤ t2) :
    ∃ (A B : ℕ → ℕ → ℕ → ℝ) (X Y : ℝ), (∀ i, GivesHemLwa a (M.q t1) (nlat i) (nlon i) (S i) (np i) (A i)) ∧
      (∀ i, GivesHemLwa a (M.q t2) (nlat' i) (nlon' i) (S' i) (np' i) (B i)) ∧
      Tendsto (fun i => 2 * π / nlon i * ∑ c ∈ Finset.Ico (c1 i) (c2 i), A i (j i) c) atTop (nhds X) ∧
      Tendsto (fun i => 2 * π / nlon' i * ∑ c ∈ Finset.Ico (c1' i) (c2' i), B i (j' i) c) atTop (nhds Y) ∧
      Y - X = (∫ t in t1..t2, (meridionalTransport a (fun x => M.q t x l1) (fun x => M.U t x l1) (v t) (-(π / 2)) σ φ -
          meridionalTransport a (fun x => M.q t x l2) (fun x => M.U t x l2) (v t) (-(π / 2)) σ φ) / a) -
        (∫ t in t1..t2, ∫ l in l1..l2, (M.V t φ l * cos φ * (M.q t φ l - v t) + M.V t σ l * cos σ * max (v t - M.q t σ l) 0)) +
        ∫ t in t1..t2, ∫ l in l1..l2, meridionalSource a (fun x => M.q t x l) (fun x => M.S t x l - v' t) (v t) (-(π / 2)) σ φ := by
  obtain ⟨A, hA, hAt⟩ := hem_south_tends ha (level_continuous h t1) hg hr (he t1)
  obtain ⟨B, hB, hBt⟩ := hem_south_tends ha (level_continuous h t2) hg' hr' (he t2)
  refine ⟨A, B, _, _, hA, hB, filling_tends hg.columns hg.moreColumns hF hAt, filling_tends hg'.columns hg'.moreColumns hF' hBt, ?_⟩
  have hb := C180_budget h ha.ne' hv cv ht hF.le le_rfl hr.south.le hr.north.le hg.north
  rw [intervalIntegral.integral_sub ((partActivity_continuous (level_continuous h t2) φ).intervalIntegrable _ _)
    ((partActivity_continuous (level_continuous h t1) φ).intervalIntegrable _ _)] at hb
  rw [hb]
  have e : ∀ t l, meridionalOutflow (fun x => M.q t x l) (fun x => M.V t x l) (v t) (-(π / 2)) σ φ =
      M.V t φ l * cos φ * (M.q t φ l - v t) + M.V t σ l * cos σ * max (v t - M.q t σ l) 0 := fun t l => by
    unfold meridionalOutflow
    rw [cos_neg, cos_pi_div_two]
    ring
  simp only [e]

/-! ### Non-vacuity: the tilted rotation, seen from either hemisphere, only turns about the axis of the planet -/

/-- The areas do not change when a field is turned about the axis. -/
theorem areaAtMost_turned {s n w t : ℝ} (hq : Continuous fun p : ℝ × ℝ => q p.1 p.2) (hp : ∀ x l, q x (l + 2 * π) = q x l) :
    areaAtMost a (fun x l => q x (l + t)) s n w = areaAtMost a q s n w := by
  classical
  have hpi := pi_pos
  have hqt : Continuous fun p : ℝ × ℝ => (fun x l => q x (l + t)) p.1 p.2 :=
    hq.comp (f := fun p : ℝ × ℝ => (p.1, p.2 + t)) (by fun_prop)
  have i1 := areaAtMost_integrable (q := fun x l => q x (l + t)) hqt a s n w
  have i2 := areaAtMost_integrable hq a s n w
  unfold areaAtMost
  unfold band at i1 i2 ⊢
  rw [Measure.volume_eq_prod] at i1 i2 ⊢
  rw [setIntegral_prod _ i1, setIntegral_prod _ i2]
  refine setIntegral_congr_fun measurableSet_Icc fun x _ => ?_
  show (∫ l in Icc 0 (2 * π), if q x (l + t) ≤ w then a ^ 2 * cos x else 0) = ∫ l in Icc 0 (2 * π), if q x l ≤ w then a ^ 2 * cos x else 0
  rw [integral_Icc_eq_integral_Ioc, integral_Icc_eq_integral_Ioc, ← intervalIntegral.integral_of_le (by positivity),
    ← intervalIntegral.integral_of_le (by positivity)]
  have per : Function.Periodic (fun l => if q x l ≤ w then a ^ 2 * cos x else 0) (2 * π) := fun l => by
    show (if q x (l + 2 * π) ≤ w then a ^ 2 * cos x else 0) = _
    rw [hp]
  rw [intervalIntegral.integral_comp_add_right (fun l => if q x l ≤ w then a ^ 2 * cos x else 0) t, zero_add, add_comm (2 * π) t,
    per.intervalIntegral_add_eq t 0, zero_add]

theorem encloses_turned {s n T w t : ℝ} (hq : Continuous fun p : ℝ × ℝ => q p.1 p.2) (hp : ∀ x l, q x (l + 2 * π) = q x l)
    (h : Encloses a q s n T w) : Encloses a (fun x l => q x (l + t)) s n T w where
  below w' hw := by rw [areaAtMost_turned hq hp]; exact h.below w' hw
  above w' hw := by rw [areaAtMost_turned hq hp]; exact h.above w' hw

theorem tilted_turned {s n T w : ℝ} (h : Encloses 1 (tilted.q 0) s n T w) (t : ℝ) : Encloses 1 (tilted.q t) s n T w := by
  have := encloses_turned (t := t) (level_continuous tilted_obeys 0) (fun x l => tilted_obeys.periodicq 0 x l) h
  have e : tilted.q t = fun x l => tilted.q 0 x (l + t) := by
    funext x l
    simp only [tilted, add_zero]
  rw [e]
  exact this

theorem quarter_half : HemGrids (fun i => 4 * (i + 2) + 1) (fun i => 2 * (i + 1)) (fun _ => none) (fun _ => none) 0 :=
  C195_default_edge (fun i => by omega) (fun i => by omega)
    (tendsto_atTop_mono (fun i => (by omega : i ≤ 4 * (i + 2) + 1)) tendsto_id)
    (tendsto_atTop_mono (fun i => (by omega : i ≤ 2 * (i + 1))) tendsto_id)

theorem quarter_north : NorthRows (fun i => 4 * (i + 2) + 1) (fun _ => none) (fun i => 3 * (i + 2)) 0 (π / 4) where
  part i := ⟨by show 4 * (i + 2) + 1 - (4 * (i + 2) + 1) / 2 ≤ 3 * (i + 2); omega, by omega⟩
  toward := tendsto_const_nhds.congr fun i => by
    rw [quarter_row]
    push_cast
    ring
  south := by have := pi_pos; rw [neg_zero]; positivity
  north := by have := pi_pos; linarith

theorem quarter_south : SouthRows (fun i => 4 * (i + 2) + 1) (fun _ => none) (fun i => 1 * (i + 2)) 0 (-(π / 4)) where
  part i := ⟨by show 1 * (i + 2) + 1 < (4 * (i + 2) + 1) / 2; omega,
    by show 1 * (i + 2) < 4 * (i + 2) + 1 - (4 * (i + 2) + 1) / 2; omega⟩
  toward := tendsto_const_nhds.congr fun i => by
    rw [quarter_row]
    push_cast
    ring
  south := by have := pi_pos; linarith
  north := by have := pi_pos; linarith

/-- Hypotheses of `C196_north` and `C196_south` for the western half of the circle. -/
example : (∃ v, ∀ t, Encloses 1 (tilted.q t) (-0) (π / 2) (2 * π * 1 ^ 2 * (sin (π / 4) + sin 0)) v) ∧
    (∃ v, ∀ t, Encloses 1 (tilted.q t) (-(π / 2)) 0 (southCap 1 (-(π / 4))) v) ∧ Filling (fun i => 2 * (i + 1)) (fun _ => 0) (fun i => i + 1) 0 π := by
  have hpi := pi_pos
  have hs : 0 < sin (π / 4) := sin_pos_of_pos_of_lt_pi (by linarith) (by linarith)
  have hs' : sin (π / 4) < 1 := by
    rw [← sin_pi_div_two]
    exact sin_lt_sin_of_lt_of_le_pi_div_two (by linarith) le_rfl (by linarith)
  refine ⟨?_, ?_, half_filling⟩
  · obtain ⟨v, hv, _⟩ := C159_reference_exists (a := 1) (s := -0) (n := π / 2) (T := 2 * π * 1 ^ 2 * (sin (π / 4) + sin 0)) one_pos
      (level_continuous tilted_obeys 0) (by rw [neg_zero]; linarith) (by rw [neg_zero]; positivity) le_rfl
      (by rw [sin_zero, add_zero]; positivity) (by rw [neg_zero, sin_zero, sin_pi_div_two]; nlinarith)
    exact ⟨v, tilted_turned hv⟩
  · obtain ⟨v, hv, _⟩ := C159_reference_exists (a := 1) (s := -(π / 2)) (n := 0) (T := southCap 1 (-(π / 4))) one_pos
      (level_continuous tilted_obeys 0) le_rfl (by linarith) (by positivity)
      (by unfold southCap; rw [sin_neg]; exact mul_pos (by positivity) (by linarith))
      (by unfold southCap; rw [sin_zero, sin_neg, sin_neg, sin_pi_div_two]; nlinarith)
    exact ⟨v, tilted_turned hv⟩

end Falwa

end
