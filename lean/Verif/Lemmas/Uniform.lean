import Verif.Props.Circulation
import Mathlib.Topology.Order.Compact
import Mathlib.Topology.Sequences

/-! # From limits along sequences of rows and levels to uniform limits -/

noncomputable section

namespace Falwa

open Finset Spec MeasureTheory Filter

/-- If a quantity has limits along all sequences of labels whose positions converge in a compact set, and these limits are within `b` of a
continuous function of the position, it is eventually within any `b + δ` of the function, uniformly in the labels. -/
theorem uniformly_of_sequences {X ι : Type*} [TopologicalSpace X] [FirstCountableTopology X] {K : Set X} (hK : IsCompact K)
    {P : ℕ → ι → Prop} {x : ℕ → ι → X} {F : ℕ → ι → ℝ} {V : X → ℝ} {b : ℝ} (hV : Continuous V) (hx : ∀ i t, P i t → x i t ∈ K)
    (h : ∀ (f : ℕ → ℕ) (t : ℕ → ι) (c : X), c ∈ K → Tendsto f atTop atTop → (∀ n, P (f n) (t n)) →
      Tendsto (fun n => x (f n) (t n)) atTop (nhds c) → ∃ L, Tendsto (fun n => F (f n) (t n)) atTop (nhds L) ∧ |L - V c| ≤ b)
    {δ : ℝ} (hδ : 0 < δ) : ∀ᶠ i in atTop, ∀ t, P i t → |F i t - V (x i t)| < b + δ := by
  by_contra hcon
  have hfreq : ∃ᶠ i in atTop, ∃ t, P i t ∧ b + δ ≤ |F i t - V (x i t)| := by
    rw [Filter.Frequently]
    intro hn
    refine hcon (hn.mono fun i hi t ht => ?_)
    by_contra hlt
    exact hi ⟨t, ht, not_lt.1 hlt⟩
  obtain ⟨f, hf, hfp⟩ := extraction_of_frequently_atTop hfreq
  choose t ht hbad using hfp
  obtain ⟨c, hc, g, hg, hlim⟩ := hK.tendsto_subseq (fun n => hx (f n) (t n) (ht n))
  obtain ⟨L, hL, hLb⟩ := h (fun n => f (g n)) (fun n => t (g n)) c hc (hf.tendsto_atTop.comp hg.tendsto_atTop) (fun n => ht (g n)) hlim
  have hd : Tendsto (fun n => |F (f (g n)) (t (g n)) - V (x (f (g n)) (t (g n)))|) atTop (nhds |L - V c|) :=
    (hL.sub ((hV.tendsto c).comp hlim)).abs
  have := ge_of_tendsto hd (Eventually.of_forall fun n => hbad (g n))
  linarith

/-- A continuous field on ever closer levels: samples of the levels are samples of the limit level. -/
theorem level_error {q : ℝ → ℝ → ℝ → ℝ} (hq : Continuous fun p : ℝ × ℝ × ℝ => q p.1 p.2.1 p.2.2) {z : ℕ → ℝ} {c : ℝ}
    (hz : Tendsto z atTop (nhds c)) :
    ∃ d : ℕ → ℝ, Tendsto d atTop (nhds 0) ∧ ∀ n, ∀ p ∈ band (-(Real.pi / 2)) (Real.pi / 2), |q p.1 p.2 (z n) - q p.1 p.2 c| ≤ d n := by
  have hpi := Real.pi_pos
  have hK := isCompact_band (-(Real.pi / 2)) (Real.pi / 2)
  set f : ℝ → ℝ × ℝ → ℝ := fun s p => |q p.1 p.2 s - q p.1 p.2 c| with hf
  have hfc : Continuous (Function.uncurry f) := by
    have h1 : Continuous fun y : ℝ × ℝ × ℝ => q y.2.1 y.2.2 y.1 :=
      hq.comp (f := fun y : ℝ × ℝ × ℝ => (y.2.1, y.2.2, y.1)) (by fun_prop)
    have h2 : Continuous fun y : ℝ × ℝ × ℝ => q y.2.1 y.2.2 c :=
      hq.comp (f := fun y : ℝ × ℝ × ℝ => (y.2.1, y.2.2, c)) (by fun_prop)
    exact (h1.sub h2).abs
  have hM := hK.continuous_sSup (f := f) hfc
  refine ⟨fun n => sSup (f (z n) '' band (-(Real.pi / 2)) (Real.pi / 2)), ?_, fun n p hp => ?_⟩
  · have h0 : sSup (f c '' band (-(Real.pi / 2)) (Real.pi / 2)) = 0 := by
      have : f c = fun _ => 0 := by funext p; simp [hf]
      have hne : (band (-(Real.pi / 2)) (Real.pi / 2)).Nonempty := ⟨((0 : ℝ), (0 : ℝ)), ⟨⟨by show -(Real.pi / 2) ≤ (0 : ℝ); linarith,
        by show (0 : ℝ) ≤ Real.pi / 2; linarith⟩, le_rfl, by show (0 : ℝ) ≤ 2 * Real.pi; linarith⟩⟩
      rw [this, hne.image_const]
      exact csSup_singleton 0
    have := (hM.tendsto c).comp hz
    rw [h0] at this
    exact this
  · have hc : Continuous (f (z n)) := hfc.comp (f := fun p => (z n, p)) (by fun_prop)
    exact le_csSup (hK.bddAbove_image hc.continuousOn) ⟨p, hp, rfl⟩

/-- Points of a grid lie on the sphere. -/
theorem grid_mem_band {G : SphereGrid} (hn : 2 ≤ G.n) (hm : 1 ≤ G.m) {x y : ℤ} (h : G.Mem x y) :
    (G.latitude y, G.longitude x) ∈ band (-(Real.pi / 2)) (Real.pi / 2) := by
  have hpi := Real.pi_pos
  have hn' : (0 : ℝ) < (G.n : ℝ) - 1 := by
    have : (2 : ℝ) ≤ G.n := by exact_mod_cast hn
    linarith
  have hm' : (0 : ℝ) < G.m := by exact_mod_cast (by omega : 0 < G.m)
  have y1 : (1 : ℝ) ≤ y := by exact_mod_cast h.2.1
  have y2 : (y : ℝ) ≤ G.n := by exact_mod_cast h.2.2
  have x1 : (1 : ℝ) ≤ x := by exact_mod_cast h.1.1
  have x2 : (x : ℝ) ≤ G.m := by exact_mod_cast h.1.2
  have hl : Real.pi / ((G.n : ℝ) - 1) * ((y : ℝ) - 1) ≤ Real.pi := by
    rw [div_mul_eq_mul_div, div_le_iff₀ hn']
    nlinarith
  have hl0 : 0 ≤ Real.pi / ((G.n : ℝ) - 1) * ((y : ℝ) - 1) := mul_nonneg (by positivity) (by linarith)
  have hlo : 2 * Real.pi / (G.m : ℝ) * ((x : ℝ) - 1) ≤ 2 * Real.pi := by
    rw [div_mul_eq_mul_div, div_le_iff₀ hm']
    nlinarith
  have hlo0 : 0 ≤ 2 * Real.pi / (G.m : ℝ) * ((x : ℝ) - 1) := mul_nonneg (by positivity) (by linarith)
  unfold SphereGrid.latitude SphereGrid.longitude
  exact ⟨⟨by show -(Real.pi / 2) ≤ -(Real.pi / 2) + _; linarith, by show -(Real.pi / 2) + _ ≤ Real.pi / 2; linarith⟩, hlo0, hlo⟩

/-- If the values that enclose the areas south of latitudes close to the pole have a limit, it is the greatest value of the field. -/
theorem enclosing_top {a s : ℝ} {q : ℝ → ℝ → ℝ} {V : ℝ → ℝ} (ha : 0 < a) (hq : Continuous fun p : ℝ × ℝ => q p.1 p.2)
    (hs : s < Real.pi / 2) (hV : Continuous V)
    (hE : ∀ φ, s ≤ φ → φ < Real.pi / 2 → Encloses a q (-(Real.pi / 2)) (Real.pi / 2) (southCap a φ) (V φ)) {p : ℝ × ℝ}
    (hp : p ∈ band (-(Real.pi / 2)) (Real.pi / 2)) (hmax : ∀ p' ∈ band (-(Real.pi / 2)) (Real.pi / 2), q p'.1 p'.2 ≤ q p.1 p.2) :
    V (Real.pi / 2) = q p.1 p.2 := by
  classical
  have hpi := Real.pi_pos
  have hb : ∀ w, areaAtMost a q (-(Real.pi / 2)) (Real.pi / 2) w ≤ 4 * Real.pi * a ^ 2 := by
    intro w
    have h1 := areaAtMost_mono (a := a) (s := -(Real.pi / 2)) (n := Real.pi / 2) hq le_rfl le_rfl (le_max_left w (q p.1 p.2))
    have h2 : areaAtMost a q (-(Real.pi / 2)) (Real.pi / 2) (max w (q p.1 p.2)) = 4 * Real.pi * a ^ 2 := by
      rw [← sphere_area]
      refine setIntegral_congr_fun (measurableSet_band _ _) fun p' hp' => ?_
      exact if_pos ((hmax p' hp').trans (le_max_right _ _))
    rwa [h2] at h1
  have hnear : Tendsto (fun n : ℕ => Real.pi / 2 - (Real.pi / 2 - s) / ((n : ℝ) + 1)) atTop (nhds (Real.pi / 2)) := by
    have h1 : Tendsto (fun n : ℕ => (Real.pi / 2 - s) / ((n : ℝ) + 1)) atTop (nhds 0) :=
      tendsto_const_nhds.div_atTop (tendsto_atTop_add_const_right _ 1 tendsto_natCast_atTop_atTop)
    have := h1.const_sub (Real.pi / 2)
    rwa [sub_zero] at this
  have hrange : ∀ n : ℕ, s ≤ Real.pi / 2 - (Real.pi / 2 - s) / ((n : ℝ) + 1) ∧
      Real.pi / 2 - (Real.pi / 2 - s) / ((n : ℝ) + 1) < Real.pi / 2 := by
    intro n
    have h0 : (0 : ℝ) < (n : ℝ) + 1 := by positivity
    have h1 : (Real.pi / 2 - s) / ((n : ℝ) + 1) ≤ Real.pi / 2 - s := by
      rw [div_le_iff₀ h0]
      have : (0 : ℝ) ≤ n := Nat.cast_nonneg n
      nlinarith
    have h2 : 0 < (Real.pi / 2 - s) / ((n : ℝ) + 1) := div_pos (by linarith) h0
    constructor <;> linarith
  have hVn := (hV.tendsto (Real.pi / 2)).comp hnear
  refine le_antisymm ?_ ?_
  · refine le_of_tendsto hVn (Eventually.of_forall fun n => ?_)
    obtain ⟨r1, r2⟩ := hrange n
    by_contra hlt
    have := (hE _ r1 r2).below (q p.1 p.2) (not_le.1 hlt)
    have h2 : areaAtMost a q (-(Real.pi / 2)) (Real.pi / 2) (q p.1 p.2) = 4 * Real.pi * a ^ 2 := by
      rw [← sphere_area]
      exact setIntegral_congr_fun (measurableSet_band _ _) fun p' hp' => if_pos (hmax p' hp')
    rw [h2] at this
    unfold southCap at this
    have := Real.sin_le_one (Real.pi / 2 - (Real.pi / 2 - s) / ((n : ℝ) + 1))
    have h3 : 0 < 2 * Real.pi * a ^ 2 := by positivity
    nlinarith
  · by_contra hlt
    obtain ⟨w, h1, h2⟩ := exists_between (not_le.1 hlt)
    have hpos := area_above_pos ha hq hp h2
    have hcap : Tendsto (fun n : ℕ => southCap a (Real.pi / 2 - (Real.pi / 2 - s) / ((n : ℝ) + 1))) atTop (nhds (4 * Real.pi * a ^ 2)) := by
      have hc : Continuous (southCap a) := by unfold southCap; fun_prop
      have := (hc.tendsto (Real.pi / 2)).comp hnear
      rwa [show southCap a (Real.pi / 2) = 4 * Real.pi * a ^ 2 by unfold southCap; rw [Real.sin_pi_div_two]; ring] at this
    obtain ⟨n, hn1, hn2⟩ := ((hcap.eventually (lt_mem_nhds hpos)).and (hVn.eventually (gt_mem_nhds h1))).exists
    obtain ⟨r1, r2⟩ := hrange n
    have := (hE _ r1 r2).above w hn2
    exact absurd hn1 (not_lt.2 this.le)

namespace AreaIn

/-- The reference values of rows that tend to the pole tend to the greatest value of the field. -/
theorem qref_pole {a : ℝ} {q : ℝ → ℝ → ℝ} (ha : 0 < a) (hq : Continuous fun p : ℝ × ℝ => q p.1 p.2)
    (htop : volume (highest q) = 0) {I : ℕ → AreaIn} {e : ℕ → ℝ} (hI : ∀ᶠ i in atTop, (I i).Valid)
    (hG : Refining a fun i => (I i).grid) (hf : ∀ i, (I i).grid.Samples q (e i) (I i).q) (he : Tendsto e atTop (nhds 0))
    (hnp : Tendsto (fun i => (I i).npart) atTop atTop) {j : ℕ → ℤ}
    (hrow : Tendsto (fun i => (I i).grid.latitude (j i + (I i).nd - 1)) atTop (nhds (Real.pi / 2))) {p : ℝ × ℝ}
    (hp : p ∈ band (-(Real.pi / 2)) (Real.pi / 2)) (hmax : ∀ p' ∈ band (-(Real.pi / 2)) (Real.pi / 2), q p'.1 p'.2 ≤ q p.1 p.2) :
    Tendsto (fun i => (I i).qref (j i)) atTop (nhds (q p.1 p.2)) := by
  classical
  have hpi := Real.pi_pos
  have hplaced := placed_eventually ha hq htop hI hG hf he hnp hrow (by positivity) le_rfl
  have hcap : Tendsto (fun i => (I i).grid.polarCap ((I i).grid.latitude (j i + (I i).nd - 1))) atTop (nhds 0) := by
    have := caps_tendsto hG hrow
    rwa [Real.sin_pi_div_two, sub_self, mul_zero] at this
  rw [tendsto_order]
  constructor
  · intro w hw
    obtain ⟨w1, h1, h2⟩ := exists_between hw
    have hpos := area_above_pos ha hq hp h2
    obtain ⟨η, hη, hlt⟩ : ∃ η, 0 < η ∧ 3 * η < 4 * Real.pi * a ^ 2 - areaAtMost a q (-(Real.pi / 2)) (Real.pi / 2) w1 :=
      ⟨(4 * Real.pi * a ^ 2 - areaAtMost a q (-(Real.pi / 2)) (Real.pi / 2) w1) / 4, by linarith, by linarith⟩
    filter_upwards [hI, hplaced, hcap.eventually (gt_mem_nhds hη), first_partition ha hq htop hG hf he hnp hη,
      lt_area_above hG hq hf he h1 hlt] with i hi i2 i3 i4 i5
    by_cases i1 : j i = (I i).nd
    · obtain ⟨x, y, hm, hxy⟩ := exists_above (by linarith : 0 < (I i).grid.area (fun x y => w < (I i).q x y))
      have m1 : 1 ≤ (I i).imax := hG.cols i
      have m2 : 1 ≤ (I i).jmax := by have : 2 ≤ (I i).jmax := hG.rows i; omega
      obtain ⟨hle, _⟩ := maxval_spec (A := (I i).q) m1 m2
      have := hle x y hm.1.1 hm.1.2 hm.2.1 hm.2.2
      unfold qref
      rw [if_pos i1]
      unfold qmax
      linarith
    · obtain ⟨n, n1, n2, n3, n4⟩ := qref_of_placed hi i1 i2
      have hb := hi.value_between n3
      rw [← n4] at hb
      by_contra hcon
      push Not at hcon
      have hf1 := n3.1
      rw [aan_area hi n1 (by omega), hi.alat_eq] at hf1
      have : (I i).grid.area (fun i' j' => w < (I i).q i' j') ≤ (I i).grid.area (fun i' j' => (I i).qn (n + 1) < (I i).q i' j') :=
        area_mono hi fun _ _ _ h => lt_of_le_of_lt (hb.1.trans hcon) h
      linarith
  · intro w hw
    filter_upwards [hI, hplaced, he.eventually (gt_mem_nhds (by linarith : (0 : ℝ) < w - q p.1 p.2))] with i hi i2 i3
    have h1 := ((C49_monotone_partial hi).1 (j i) (Or.inr i2)).2
    have m1 : 1 ≤ (I i).imax := hG.cols i
    have m2 : 1 ≤ (I i).jmax := by have : 2 ≤ (I i).jmax := hG.rows i; omega
    obtain ⟨_, x, y, x1, x2, y1, y2, ex⟩ := maxval_spec (A := (I i).q) m1 m2
    have hm : (I i).grid.Mem x y := ⟨⟨x1, x2⟩, y1, y2⟩
    have h2 := (abs_le.1 (hf i x y hm)).2
    have h3 := hmax _ (grid_mem_band (hG.rows i) (hG.cols i) hm)
    have h4 : (I i).qmax = (I i).q x y := ex.symm
    simp only at h3
    linarith

/-- C160 including the pole, if the enclosing values are continuous up to it. -/
theorem qref_rows {a s φ : ℝ} {q : ℝ → ℝ → ℝ} {V : ℝ → ℝ} (ha : 0 < a) (hq : Continuous fun p : ℝ × ℝ => q p.1 p.2)
    (htop : volume (highest q) = 0) {I : ℕ → AreaIn} {e : ℕ → ℝ} (hI : ∀ᶠ i in atTop, (I i).Valid)
    (hG : Refining a fun i => (I i).grid) (hf : ∀ i, (I i).grid.Samples q (e i) (I i).q) (he : Tendsto e atTop (nhds 0))
    (hnp : Tendsto (fun i => (I i).npart) atTop atTop) (hs0 : 0 ≤ s) (hs : s < Real.pi / 2) (hV : Continuous V)
    (hE : ∀ φ, s ≤ φ → φ < Real.pi / 2 → Encloses a q (-(Real.pi / 2)) (Real.pi / 2) (southCap a φ) (V φ)) {j : ℕ → ℤ}
    (hrow : Tendsto (fun i => (I i).grid.latitude (j i + (I i).nd - 1)) atTop (nhds φ)) (h1 : s ≤ φ) (h2 : φ ≤ Real.pi / 2) :
    Tendsto (fun i => (I i).qref (j i)) atTop (nhds (V φ)) := by
  have hpi := Real.pi_pos
  rcases h2.lt_or_eq with h | rfl
  · exact C160_reference_partial ha hq htop hI hG hf he hnp hrow (hs0.trans h1) h (hE φ h1 h)
  · obtain ⟨p, hp, hmax⟩ := (isCompact_band (-(Real.pi / 2)) (Real.pi / 2)).exists_isMaxOn
      ⟨(0, 0), ⟨by constructor <;> simp <;> positivity, by constructor <;> simp; positivity⟩⟩ hq.continuousOn
    rw [enclosing_top ha hq hs hV hE hp hmax]
    exact qref_pole ha hq htop hI hG hf he hnp hrow hp hmax

end AreaIn

end Falwa
