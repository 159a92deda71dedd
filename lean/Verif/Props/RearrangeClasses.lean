import Verif.Props.RearrangeQG
import Verif.Lemmas.RowSums
import Verif.Props.Stability
import Mathlib.MeasureTheory.Measure.Haar.Unique

/-!
# C160: the reference QGPV and the wave activity of the QG classes tend to those of the sphere
-/

noncomputable section

namespace Falwa

open Finset Spec MeasureTheory

/-! ### The mirrored sphere -/

/-- The field with north and south exchanged and the sign changed. -/
def Spec.mirrored (q : ℝ → ℝ → ℝ) : ℝ → ℝ → ℝ := fun x y => -q (-x) y

theorem mirrored_continuous {q : ℝ → ℝ → ℝ} (hq : Continuous fun p : ℝ × ℝ => q p.1 p.2) :
    Continuous fun p : ℝ × ℝ => mirrored q p.1 p.2 := by
  unfold mirrored
  have : Continuous fun p : ℝ × ℝ => (-p.1, p.2) := by fun_prop
  exact (hq.comp this).neg

/-- Reflection at the equator. -/
def reflect : ℝ × ℝ ≃ᵐ ℝ × ℝ := (MeasurableEquiv.neg ℝ).prodCongr (MeasurableEquiv.refl ℝ)

theorem reflect_preserving : MeasurePreserving reflect (volume : Measure (ℝ × ℝ)) volume :=
  (Measure.measurePreserving_neg (volume : Measure ℝ)).prod (MeasurePreserving.id (volume : Measure ℝ))

theorem reflect_band : reflect ⁻¹' band (-(Real.pi / 2)) (Real.pi / 2) = band (-(Real.pi / 2)) (Real.pi / 2) := by
  ext p
  show ((-(Real.pi / 2) ≤ -p.1 ∧ -p.1 ≤ Real.pi / 2) ∧ _) ↔ ((-(Real.pi / 2) ≤ p.1 ∧ p.1 ≤ Real.pi / 2) ∧ _)
  constructor
  · rintro ⟨⟨h1, h2⟩, h3⟩; exact ⟨⟨by linarith, by linarith⟩, h3⟩
  · rintro ⟨⟨h1, h2⟩, h3⟩; exact ⟨⟨by linarith, by linarith⟩, h3⟩

theorem integral_reflect (F : ℝ × ℝ → ℝ) : ∫ p in band (-(Real.pi / 2)) (Real.pi / 2), F (reflect p) =
    ∫ p in band (-(Real.pi / 2)) (Real.pi / 2), F p := by
  have := reflect_preserving.setIntegral_preimage_emb reflect.measurableEmbedding F (band (-(Real.pi / 2)) (Real.pi / 2))
  rw [reflect_band] at this
  exact this

/-- Where the mirrored field is small the field is large. -/
theorem areaAtMost_mirrored {a : ℝ} {q : ℝ → ℝ → ℝ} (hq : Continuous fun p : ℝ × ℝ => q p.1 p.2) {w w' : ℝ} (h : w' < -w) :
    areaAtMost a (mirrored q) (-(Real.pi / 2)) (Real.pi / 2) w ≤
      4 * Real.pi * a ^ 2 - areaAtMost a q (-(Real.pi / 2)) (Real.pi / 2) w' := by
  classical
  have hb := isCompact_band (-(Real.pi / 2)) (Real.pi / 2)
  have hc : Continuous fun p : ℝ × ℝ => a ^ 2 * Real.cos p.1 := by fun_prop
  rw [← sphere_area, areaAtMost, areaAtMost, ← integral_sub (hc.continuousOn.integrableOn_compact hb) (areaAtMost_integrable hq a _ _ w'),
    ← integral_reflect (fun p => a ^ 2 * Real.cos p.1 - if q p.1 p.2 ≤ w' then a ^ 2 * Real.cos p.1 else 0)]
  refine setIntegral_mono_on (areaAtMost_integrable (mirrored_continuous hq) a _ _ w) ?_ (measurableSet_band _ _) fun p hp => ?_
  · have := ((hc.continuousOn.integrableOn_compact (μ := volume) hb).sub (areaAtMost_integrable hq a (-(Real.pi / 2)) (Real.pi / 2) w'))
    have h2 := (reflect_preserving.integrableOn_comp_preimage reflect.measurableEmbedding).2 this
    rw [reflect_band] at h2
    exact h2
  · have hcos := band_cos_nonneg le_rfl le_rfl hp
    have ha : 0 ≤ a ^ 2 * Real.cos p.1 := mul_nonneg (sq_nonneg a) hcos
    show (if -q (-p.1) p.2 ≤ w then a ^ 2 * Real.cos p.1 else 0) ≤
      a ^ 2 * Real.cos (-p.1) - if q (-p.1) p.2 ≤ w' then a ^ 2 * Real.cos (-p.1) else 0
    rw [Real.cos_neg]
    by_cases h1 : -q (-p.1) p.2 ≤ w
    · rw [if_pos h1, if_neg (by linarith), sub_zero]
    · rw [if_neg h1]
      split_ifs
      · rw [sub_self]
      · rw [sub_zero]; exact ha

theorem areaAtMost_mirrored' {a : ℝ} {q : ℝ → ℝ → ℝ} (hq : Continuous fun p : ℝ × ℝ => q p.1 p.2) {w w' : ℝ} (h : -w < w') :
    4 * Real.pi * a ^ 2 - areaAtMost a q (-(Real.pi / 2)) (Real.pi / 2) w' ≤
      areaAtMost a (mirrored q) (-(Real.pi / 2)) (Real.pi / 2) w := by
  classical
  have hb := isCompact_band (-(Real.pi / 2)) (Real.pi / 2)
  have hc : Continuous fun p : ℝ × ℝ => a ^ 2 * Real.cos p.1 := by fun_prop
  rw [← sphere_area, areaAtMost, areaAtMost, ← integral_sub (hc.continuousOn.integrableOn_compact hb) (areaAtMost_integrable hq a _ _ w'),
    ← integral_reflect (fun p => a ^ 2 * Real.cos p.1 - if q p.1 p.2 ≤ w' then a ^ 2 * Real.cos p.1 else 0)]
  refine setIntegral_mono_on ?_ (areaAtMost_integrable (mirrored_continuous hq) a _ _ w) (measurableSet_band _ _) fun p hp => ?_
  · have := ((hc.continuousOn.integrableOn_compact (μ := volume) hb).sub (areaAtMost_integrable hq a (-(Real.pi / 2)) (Real.pi / 2) w'))
    have h2 := (reflect_preserving.integrableOn_comp_preimage reflect.measurableEmbedding).2 this
    rw [reflect_band] at h2
    exact h2
  · have hcos := band_cos_nonneg le_rfl le_rfl hp
    have ha : 0 ≤ a ^ 2 * Real.cos p.1 := mul_nonneg (sq_nonneg a) hcos
    show a ^ 2 * Real.cos (-p.1) - (if q (-p.1) p.2 ≤ w' then a ^ 2 * Real.cos (-p.1) else 0) ≤
      if -q (-p.1) p.2 ≤ w then a ^ 2 * Real.cos p.1 else 0
    rw [Real.cos_neg]
    by_cases h1 : q (-p.1) p.2 ≤ w'
    · rw [if_pos h1, sub_self]
      split_ifs
      · exact ha
      · exact le_rfl
    · rw [if_neg h1, if_pos (by linarith), sub_zero]

/-- The mirrored value encloses the mirrored cap. -/
theorem Spec.Encloses.mirror {a φ v : ℝ} {q : ℝ → ℝ → ℝ} (hq : Continuous fun p : ℝ × ℝ => q p.1 p.2)
    (h : Encloses a q (-(Real.pi / 2)) (Real.pi / 2) (southCap a φ) v) :
    Encloses a (mirrored q) (-(Real.pi / 2)) (Real.pi / 2) (southCap a (-φ)) (-v) := by
  have e : southCap a (-φ) = 4 * Real.pi * a ^ 2 - southCap a φ := by
    unfold southCap
    rw [Real.sin_neg]
    ring
  constructor
  · intro w hw
    obtain ⟨w', h1, h2⟩ := exists_between (by linarith : v < -w)
    have := h.above w' h1
    have := areaAtMost_mirrored (a := a) hq h2
    linarith
  · intro w hw
    obtain ⟨w', h1, h2⟩ := exists_between (by linarith : -w < v)
    have := h.below w' h2
    have := areaAtMost_mirrored' (a := a) hq h1
    linarith

theorem highest_mirrored {q : ℝ → ℝ → ℝ} (h : volume (lowest q) = 0) : volume (highest (mirrored q)) = 0 := by
  have e : highest (mirrored q) = reflect ⁻¹' lowest q := by
    ext p
    have hm : ∀ p : ℝ × ℝ, (-p.1, p.2) ∈ band (-(Real.pi / 2)) (Real.pi / 2) ↔ p ∈ band (-(Real.pi / 2)) (Real.pi / 2) := fun p => by
      have := Set.ext_iff.1 reflect_band p
      exact this
    constructor
    · rintro ⟨h1, h2⟩
      refine ⟨(hm p).2 h1, fun p' hp' => ?_⟩
      have := h2 (-p'.1, p'.2) ((hm p').2 hp')
      simp only [mirrored, neg_neg] at this
      show q (-p.1) p.2 ≤ _
      linarith
    · rintro ⟨h1, h2⟩
      refine ⟨(hm p).1 h1, fun p' hp' => ?_⟩
      have : q (-p.1) p.2 ≤ q (-p'.1) p'.2 := h2 (-p'.1, p'.2) ((hm p').2 hp')
      simp only [mirrored]
      linarith
  rw [e, reflect_preserving.measure_preimage_equiv]
  exact h

/-! ### The classes -/

namespace Atmos

/-- The analysis grid on the sphere. -/
def sphere (A : Atmos) : SphereGrid := ⟨A.nlon, A.nlat, A.a⟩

/-- A sequence of atmospheres of one class on finer and finer grids whose QGPV on the levels `k i` approaches a field `q` on the
sphere, with an error `e i` that tends to zero. -/
structure Approaches (c : Scheme) (a : ℝ) (q : ℝ → ℝ → ℝ) (A : ℕ → Atmos) (k : ℕ → ℤ) (e : ℕ → ℝ) : Prop where
  regular : ∀ i, (A i).Regular
  level : ∀ i, 2 ≤ k i ∧ k i ≤ (A i).kmax - 1
  radius : ∀ i, (A i).a = a
  moreRows : Filter.Tendsto (fun i => (A i).nlat) Filter.atTop Filter.atTop
  moreCols : Filter.Tendsto (fun i => (A i).nlon) Filter.atTop Filter.atTop
  moreParts : c = .nh18 → Filter.Tendsto (fun i => (A i).npart) Filter.atTop Filter.atTop
  samples : ∀ i, (A i).sphere.Samples q (e i) fun x y => (A i).qgpv c x y (k i)
  error : Filter.Tendsto e Filter.atTop (nhds 0)

variable {c : Scheme} {a : ℝ} {q : ℝ → ℝ → ℝ} {A : ℕ → Atmos} {k : ℕ → ℤ} {e : ℕ → ℝ}

theorem lat_sphere {A : Atmos} (h : A.Regular) (r : ℤ) : A.sphere.latitude r = A.lat r := by
  have hodd := h.odd
  have hn := h.nd3
  have e1 : (A.nlat : ℝ) - 1 = 2 * ((A.nd : ℝ) - 1) := by rw [hodd]; push_cast; ring
  have hp : (0 : ℝ) < (A.nd : ℝ) - 1 := by
    have : (3 : ℝ) ≤ A.nd := by exact_mod_cast hn
    linarith
  unfold SphereGrid.latitude lat dphi sphere
  push_cast
  rw [e1]
  field_simp
  ring

theorem lat_neg {A : Atmos} (h : A.Regular) (r : ℤ) : A.lat (A.nlat + 1 - r) = -A.lat r := by
  have hodd := h.odd
  unfold lat
  rw [show A.nlat + 1 - r - A.nd = -(r - A.nd) by omega]
  push_cast
  ring

theorem Approaches.refining (h : Approaches c a q A k e) : Refining a fun i => (A i).sphere where
  rows i := by show 2 ≤ (A i).nlat; have := (h.regular i).odd; have := (h.regular i).nd3; omega
  cols i := (h.regular i).nlon1
  radius := h.radius
  moreRows := h.moreRows
  moreCols := h.moreCols

theorem Approaches.partsN (h : Approaches c a q A k e) : Filter.Tendsto (fun i => ((A i).levelN c (k i)).npart) Filter.atTop Filter.atTop := by
  cases c
  · exact h.moreParts rfl
  · exact h.moreRows

theorem Approaches.partsS (h : Approaches c a q A k e) : Filter.Tendsto (fun i => ((A i).levelS c (k i)).npart) Filter.atTop Filter.atTop := by
  cases c
  · exact h.moreParts rfl
  · exact h.moreRows

theorem Approaches.gridN (_ : Approaches c a q A k e) (i : ℕ) : ((A i).levelN c (k i)).grid = (A i).sphere := by cases c <;> rfl

theorem Approaches.gridS (_ : Approaches c a q A k e) (i : ℕ) : ((A i).levelS c (k i)).grid = (A i).sphere := by cases c <;> rfl

theorem Approaches.samplesN (h : Approaches c a q A k e) (i : ℕ) :
    ((A i).levelN c (k i)).grid.Samples q (e i) ((A i).levelN c (k i)).q := by
  rw [h.gridN i]
  intro x y hm
  rw [levelN_field]
  exact h.samples i x y hm

theorem Approaches.samplesS (h : Approaches c a q A k e) (i : ℕ) :
    ((A i).levelS c (k i)).grid.Samples (mirrored q) (e i) ((A i).levelS c (k i)).q := by
  rw [h.gridS i]
  intro x y hm
  have hm2 : 1 ≤ y ∧ y ≤ (A i).nlat := hm.2
  have := h.samples i x ((A i).nlat + 1 - y) ⟨hm.1, by show 1 ≤ (A i).nlat + 1 - y; omega, by show (A i).nlat + 1 - y ≤ (A i).nlat; omega⟩
  rw [levelS_field]
  unfold mirrored
  rw [lat_sphere (h.regular i)] at this ⊢
  rw [lat_neg (h.regular i)] at this
  rw [show -(A i).qgpv c x ((A i).nlat + 1 - y) (k i) - -q (-(A i).lat y) ((A i).sphere.longitude x) =
    -((A i).qgpv c x ((A i).nlat + 1 - y) (k i) - q (-(A i).lat y) ((A i).sphere.longitude x)) by ring, abs_neg]
  exact this

end Atmos

/-- Fine samples of a field that is greatest on a null set only are not constant. -/
theorem AreaIn.spread_eventually {a : ℝ} {q : ℝ → ℝ → ℝ} (ha : 0 < a) (hq : Continuous fun p : ℝ × ℝ => q p.1 p.2)
    (htop : volume (highest q) = 0) {I : ℕ → AreaIn} {e : ℕ → ℝ} (hG : Refining a fun i => (I i).grid)
    (hf : ∀ i, (I i).grid.Samples q (e i) (I i).q) (he : Filter.Tendsto e Filter.atTop (nhds 0)) :
    ∀ᶠ i in Filter.atTop, (I i).qmin < (I i).qmax := by
  classical
  have hpi := Real.pi_pos
  have hη : 0 < Real.pi * a ^ 2 := by positivity
  obtain ⟨w, ⟨p, hp, hw⟩, hB⟩ := top_small (a := a) hq htop hη
  obtain ⟨w2, h1, h2⟩ := exists_between hw
  obtain ⟨w1, h3, h4⟩ := exists_between h1
  obtain ⟨w3, h5, h6⟩ := exists_between h2
  have hpos := area_above_pos ha hq hp h6
  have lim := grid_sums_tendsto (a := a) (χ := fun _ => 1) hq continuous_const hG.rows hG.cols hG.radius hG.moreRows hG.moreCols
  simp only [one_mul] at lim
  rw [sphere_area] at lim
  filter_upwards [area_above_lt hG hq hf he h3 hB, lt_area_above hG hq hf he h5 (sub_pos.2 hpos),
    lim.eventually (lt_mem_nhds (by linarith : Real.pi * a ^ 2 < 4 * Real.pi * a ^ 2))] with i i1 i2 i3
  obtain ⟨x, y, hm, hx⟩ := exists_above i2
  have m1 : 1 ≤ (I i).imax := hG.cols i
  have m2 : 1 ≤ (I i).jmax := by have : 2 ≤ (I i).jmax := hG.rows i; omega
  have hle := (maxval_spec (A := (I i).q) m1 m2).1 x y hm.1.1 hm.1.2 hm.2.1 hm.2.2
  obtain ⟨x', y', hm', hx'⟩ : ∃ x y, (I i).grid.Mem x y ∧ (I i).q x y ≤ w1 := by
    by_contra hcon
    push Not at hcon
    have : (I i).grid.area (fun x y => w1 < (I i).q x y) = ∑ y ∈ Icc 1 (I i).grid.n, ∑ x ∈ Icc 1 (I i).grid.m, (I i).grid.cell y := by
      unfold SphereGrid.area
      refine sum_congr rfl fun y hy => sum_congr rfl fun x hx => ?_
      rw [mem_Icc] at hx hy
      rw [if_pos (hcon x y ⟨hx, hy⟩)]
    linarith
  have hge := (minval_spec (A := (I i).q) m1 m2).1 x' y' hm'.1.1 hm'.1.2 hm'.2.1 hm'.2.2
  unfold qmin qmax
  linarith

namespace Atmos

variable {c : Scheme} {a : ℝ} {q : ℝ → ℝ → ℝ} {A : ℕ → Atmos} {k : ℕ → ℤ} {e : ℕ → ℝ}

theorem Approaches.validN (h : Approaches c a q A k e) (ha : 0 < a) (hq : Continuous fun p : ℝ × ℝ => q p.1 p.2)
    (htop : volume (highest q) = 0) : ∀ᶠ i in Filter.atTop, ((A i).levelN c (k i)).Valid := by
  have hG : Refining a fun i => ((A i).levelN c (k i)).grid := by
    simp only [h.gridN]; exact h.refining
  filter_upwards [AreaIn.spread_eventually ha hq htop hG h.samplesN h.error] with i hsp
  have hr := h.regular i
  have hn := hr.nd3
  have hodd := hr.odd
  cases c
  · exact ⟨hr.nlon1, by show 2 ≤ (A i).nd; omega, hodd, hr.npart2, rfl, rfl, hr.a0, hsp⟩
  · exact ⟨hr.nlon1, by show 2 ≤ (A i).nd; omega, hodd, by show 2 ≤ (A i).nlat; omega, rfl, rfl, hr.a0, hsp⟩

theorem Approaches.validS (h : Approaches c a q A k e) (ha : 0 < a) (hq : Continuous fun p : ℝ × ℝ => q p.1 p.2)
    (hlow : volume (lowest q) = 0) : ∀ᶠ i in Filter.atTop, ((A i).levelS c (k i)).Valid := by
  have hG : Refining a fun i => ((A i).levelS c (k i)).grid := by
    simp only [h.gridS]; exact h.refining
  filter_upwards [AreaIn.spread_eventually ha (mirrored_continuous hq) (highest_mirrored hlow) hG h.samplesS h.error] with i hsp
  have hr := h.regular i
  have hn := hr.nd3
  have hodd := hr.odd
  cases c
  · exact ⟨hr.nlon1, by show 2 ≤ (A i).nd; omega, hodd, hr.npart2, rfl, rfl, hr.a0, hsp⟩
  · exact ⟨hr.nlon1, by show 2 ≤ (A i).nd; omega, hodd, by show 2 ≤ (A i).nlat; omega, rfl, rfl, hr.a0, hsp⟩

/-- **C160, Northern Hemisphere, both classes.** If the QGPV approaches a continuous field on the sphere that is greatest on a null set
only, and the latitudes of the rows `g i` of the output tend to `φ`, the property `qref` at these rows tends to the value whose contour
encloses the area south of `φ`. -/
theorem C160_north_partial {φ v : ℝ} (ha : 0 < a) (hq : Continuous fun p : ℝ × ℝ => q p.1 p.2) (htop : volume (highest q) = 0)
    (h : Approaches c a q A k e) {g : ℕ → ℤ} (hg : ∀ i, (A i).nd < (A i).outRow (g i) ∧ (A i).outRow (g i) ≤ (A i).nlat)
    (hrow : Filter.Tendsto (fun i => (A i).lat ((A i).outRow (g i))) Filter.atTop (nhds φ)) (hφ0 : 0 ≤ φ) (hφ : φ < Real.pi / 2)
    (hv : Encloses a q (-(Real.pi / 2)) (Real.pi / 2) (southCap a φ) v) :
    Filter.Tendsto (fun i => (A i).qref c (g i) (k i)) Filter.atTop (nhds v) := by
  have hG : Refining a fun i => ((A i).levelN c (k i)).grid := by
    simp only [h.gridN]; exact h.refining
  have key := AreaIn.C160_reference_partial ha hq htop (h.validN ha hq htop) hG h.samplesN h.error h.partsN
    (j := fun i => (A i).outRow (g i) - (A i).nd + 1) (φ := φ) (v := v) (hrow.congr fun i => by
      obtain ⟨_, _, d⟩ := levelN_dims (A := A i) c (k i)
      rw [h.gridN i, d, lat_sphere (h.regular i)]
      congr 1
      ring) hφ0 hφ hv
  refine key.congr fun i => ?_
  have hr := h.regular i
  have hodd := hr.odd
  have := qref_north hr c (j := (A i).outRow (g i) - (A i).nd + 1) (by have := hg i; omega) (by have := hg i; omega) (h.level i)
  rw [← this]
  congr 1
  unfold outRow
  omega

/-- **C160, Southern Hemisphere.** The same if the field is smallest on a null set only. -/
theorem C160_south_partial {φ v : ℝ} (ha : 0 < a) (hq : Continuous fun p : ℝ × ℝ => q p.1 p.2) (hlow : volume (lowest q) = 0)
    (h : Approaches c a q A k e) (hgl : ∀ i, (A i).nhOnly = false) {g : ℕ → ℤ} (hg : ∀ i, 1 ≤ g i ∧ g i < (A i).nd)
    (hrow : Filter.Tendsto (fun i => (A i).lat (g i)) Filter.atTop (nhds φ)) (hφ0 : φ ≤ 0) (hφ : -(Real.pi / 2) < φ)
    (hv : Encloses a q (-(Real.pi / 2)) (Real.pi / 2) (southCap a φ) v) :
    Filter.Tendsto (fun i => (A i).qref c (g i) (k i)) Filter.atTop (nhds v) := by
  have hG : Refining a fun i => ((A i).levelS c (k i)).grid := by
    simp only [h.gridS]; exact h.refining
  have key := AreaIn.C160_reference_partial ha (mirrored_continuous hq) (highest_mirrored hlow) (h.validS ha hq hlow) hG h.samplesS h.error h.partsS
    (j := fun i => (A i).nd + 1 - g i) (φ := -φ) (v := -v) (hrow.neg.congr fun i => by
      obtain ⟨_, _, d⟩ := levelS_dims (A := A i) c (k i)
      have hodd := (h.regular i).odd
      rw [h.gridS i, d, lat_sphere (h.regular i), ← lat_neg (h.regular i)]
      congr 1
      omega) (by linarith) (by linarith) (hv.mirror hq)
  have key2 := key.neg
  rw [neg_neg] at key2
  refine key2.congr fun i => ?_
  exact (qref_south (h.regular i) (hgl i) c (hg i).1 (hg i).2 (h.level i)).symm

/-- The limit of the columns is a longitude. -/
theorem Approaches.longitude_mem (h : Approaches c a q A k e) {x : ℕ → ℤ} (hx : ∀ i, 1 ≤ x i ∧ x i ≤ (A i).nlon) (i : ℕ) :
    (A i).sphere.longitude (x i) ∈ Set.Icc 0 (2 * Real.pi) := by
  have hpi := Real.pi_pos
  have hm' : (0 : ℝ) < (A i).nlon := by exact_mod_cast (by have := (h.regular i).nlon1; omega : 0 < (A i).nlon)
  have x1 : (1 : ℝ) ≤ x i := by exact_mod_cast (hx i).1
  have x2 : (x i : ℝ) ≤ (A i).nlon := by exact_mod_cast (hx i).2
  show 0 ≤ 2 * Real.pi / ((A i).nlon : ℝ) * ((x i : ℝ) - 1) ∧ 2 * Real.pi / ((A i).nlon : ℝ) * ((x i : ℝ) - 1) ≤ 2 * Real.pi
  constructor
  · exact mul_nonneg (by positivity) (by linarith)
  · rw [div_mul_eq_mul_div, div_le_iff₀ hm']
    nlinarith

theorem lat_mem {A : Atmos} (h : A.Regular) {r : ℤ} (r1 : 1 ≤ r) (r2 : r ≤ A.nlat) : A.lat r ∈ Set.Icc (-(Real.pi / 2)) (Real.pi / 2) := by
  have hpi := Real.pi_pos
  have hn' : (0 : ℝ) < (A.nlat : ℝ) - 1 := by
    have : (2 : ℝ) ≤ A.nlat := by exact_mod_cast (by have := h.odd; have := h.nd3; omega : 2 ≤ A.nlat)
    linarith
  have y1 : (1 : ℝ) ≤ r := by exact_mod_cast r1
  have y2 : (r : ℝ) ≤ A.nlat := by exact_mod_cast r2
  rw [← lat_sphere h]
  show -(Real.pi / 2) ≤ -(Real.pi / 2) + Real.pi / ((A.nlat : ℝ) - 1) * ((r : ℝ) - 1) ∧
    -(Real.pi / 2) + Real.pi / ((A.nlat : ℝ) - 1) * ((r : ℝ) - 1) ≤ Real.pi / 2
  have h1 : Real.pi / ((A.nlat : ℝ) - 1) * ((r : ℝ) - 1) ≤ Real.pi := by
    rw [div_mul_eq_mul_div, div_le_iff₀ hn']
    nlinarith
  have h2 : 0 ≤ Real.pi / ((A.nlat : ℝ) - 1) * ((r : ℝ) - 1) := mul_nonneg (by positivity) (by linarith)
  constructor <;> linarith

/-- Number of cells of a hemisphere. -/
def cells (A : Atmos) : ℕ := (A.nd - 1).toNat

theorem cells_eq {A : Atmos} (h : A.Regular) : (A.cells : ℤ) = A.nd - 1 := by
  have := h.nd3
  unfold cells
  omega

theorem cells_width {A : Atmos} (h : A.Regular) : Real.pi / 2 / (A.cells : ℝ) = A.dphi := by
  have e : ((A.cells : ℤ) : ℝ) = ((A.nd - 1 : ℤ) : ℝ) := by rw [cells_eq h]
  have e2 : ((A.nlat - 1 : ℤ) : ℝ) = 2 * ((A.nd - 1 : ℤ) : ℝ) := by rw [h.odd]; push_cast; ring
  unfold dphi
  rw [e2, ← e]
  push_cast
  rw [div_div]

theorem lat_north {A : Atmos} (h : A.Regular) (r : ℕ) : 0 + (r : ℝ) * ((Real.pi / 2 - 0) / A.cells) = A.lat (A.nd + r) := by
  rw [sub_zero, cells_width h]
  unfold lat
  push_cast
  ring

theorem lat_south {A : Atmos} (h : A.Regular) (r : ℕ) : -(Real.pi / 2) + (r : ℝ) * ((0 - -(Real.pi / 2)) / A.cells) = A.lat (1 + r) := by
  have e : ((A.cells : ℤ) : ℝ) = ((A.nd - 1 : ℤ) : ℝ) := by rw [cells_eq h]
  have h0 : (0 : ℝ) < ((A.nd - 1 : ℤ) : ℝ) := by exact_mod_cast (by have := h.nd3; omega : 0 < A.nd - 1)
  have h3 : Real.pi / 2 = A.dphi * ((A.nd - 1 : ℤ) : ℝ) := by
    rw [← cells_width h, ← e]
    push_cast at e h0 ⊢
    rw [← e] at h0
    field_simp
  rw [zero_sub, neg_neg, cells_width h, h3]
  unfold lat
  push_cast
  ring

theorem Approaches.cells (h : Approaches c a q A k e) : Filter.Tendsto (fun i => (A i).cells) Filter.atTop Filter.atTop := by
  have h1 : Filter.Tendsto (fun i => 2 * ((A i).cells : ℤ) + 1) Filter.atTop Filter.atTop := by
    refine h.moreRows.congr fun i => ?_
    rw [cells_eq (h.regular i), (h.regular i).odd]
    ring
  refine Filter.tendsto_atTop.2 fun b => ?_
  filter_upwards [h1.eventually_ge_atTop (2 * b + 1)] with i hi
  omega

/-- The QGPV on rows that tend to a latitude. -/
theorem Approaches.row_limit (h : Approaches c a q A k e) (hq : Continuous fun p : ℝ × ℝ => q p.1 p.2) {x r : ℕ → ℤ} {l y : ℝ}
    (hx : ∀ i, 1 ≤ x i ∧ x i ≤ (A i).nlon) (hr : ∀ᶠ i in Filter.atTop, 1 ≤ r i ∧ r i ≤ (A i).nlat)
    (hcol : Filter.Tendsto (fun i => (A i).sphere.longitude (x i)) Filter.atTop (nhds l))
    (hrow : Filter.Tendsto (fun i => (A i).lat (r i)) Filter.atTop (nhds y)) :
    Filter.Tendsto (fun i => (A i).qgpv c (x i) (r i) (k i)) Filter.atTop (nhds (q y l)) := by
  have h1 : Filter.Tendsto (fun i => q ((A i).lat (r i)) ((A i).sphere.longitude (x i))) Filter.atTop (nhds (q y l)) :=
    (hq.tendsto (y, l)).comp (hrow.prodMk_nhds hcol)
  have h2 : Filter.Tendsto (fun i => (A i).qgpv c (x i) (r i) (k i) - q ((A i).lat (r i)) ((A i).sphere.longitude (x i))) Filter.atTop (nhds 0) := by
    refine squeeze_zero_norm' (hr.mono fun i hi => ?_) h.error
    have s1 := h.samples i (x i) (r i) ⟨hx i, hi⟩
    rw [lat_sphere (h.regular i)] at s1
    rwa [Real.norm_eq_abs]
  have := h2.add h1
  simpa using this

/-- The QGPV of all rows is bounded. -/
theorem Approaches.bounded (h : Approaches c a q A k e) (hq : Continuous fun p : ℝ × ℝ => q p.1 p.2) {x : ℕ → ℤ}
    (hx : ∀ i, 1 ≤ x i ∧ x i ≤ (A i).nlon) :
    ∃ M, ∀ᶠ i in Filter.atTop, ∀ r, 1 ≤ r → r ≤ (A i).nlat → |(A i).qgpv c (x i) r (k i)| ≤ M := by
  have hK : IsCompact (Set.Icc (-(Real.pi / 2)) (Real.pi / 2) ×ˢ Set.Icc (0 : ℝ) (2 * Real.pi)) := isCompact_Icc.prod isCompact_Icc
  obtain ⟨M, hM⟩ := hK.exists_bound_of_continuousOn hq.continuousOn
  refine ⟨M + 1, ?_⟩
  filter_upwards [h.error.eventually (gt_mem_nhds one_pos)] with i hi r r1 r2
  have s1 := h.samples i (x i) r ⟨hx i, r1, r2⟩
  rw [lat_sphere (h.regular i)] at s1
  have s2 := hM ((A i).lat r, (A i).sphere.longitude (x i)) ⟨lat_mem (h.regular i) r1 r2, h.longitude_mem hx i⟩
  rw [Real.norm_eq_abs] at s2
  have := abs_sub_abs_le_abs_sub ((A i).qgpv c (x i) r (k i)) (q ((A i).lat r) ((A i).sphere.longitude (x i)))
  linarith

theorem Approaches.rows_north (h : Approaches c a q A k e) (hq : Continuous fun p : ℝ × ℝ => q p.1 p.2) {x : ℕ → ℤ} {l : ℝ}
    (hx : ∀ i, 1 ≤ x i ∧ x i ≤ (A i).nlon) (hcol : Filter.Tendsto (fun i => (A i).sphere.longitude (x i)) Filter.atTop (nhds l)) :
    RowLimit 0 (Real.pi / 2) (fun i => (A i).cells) (fun i r => (A i).qgpv c (x i) ((A i).nd + r) (k i)) fun y => q y l where
  continuous := hq.comp (f := fun y : ℝ => (y, l)) (by fun_prop)
  bound := by
    obtain ⟨M, hM⟩ := h.bounded hq hx
    refine ⟨M, hM.mono fun i hi r hr => hi _ ?_ ?_⟩
    · have := (h.regular i).nd3; omega
    · have := cells_eq (h.regular i); have := (h.regular i).odd; omega
  limit := fun y _ r hr hy => by
    refine h.row_limit hq hx (hr.mono fun i hi => ?_) hcol (hy.congr fun i => lat_north (h.regular i) (r i))
    have := cells_eq (h.regular i); have := (h.regular i).odd; have := (h.regular i).nd3
    omega

theorem Approaches.rows_south (h : Approaches c a q A k e) (hq : Continuous fun p : ℝ × ℝ => q p.1 p.2) {x : ℕ → ℤ} {l : ℝ}
    (hx : ∀ i, 1 ≤ x i ∧ x i ≤ (A i).nlon) (hcol : Filter.Tendsto (fun i => (A i).sphere.longitude (x i)) Filter.atTop (nhds l)) :
    RowLimit (-(Real.pi / 2)) 0 (fun i => (A i).cells) (fun i r => (A i).qgpv c (x i) (1 + r) (k i)) fun y => q y l where
  continuous := hq.comp (f := fun y : ℝ => (y, l)) (by fun_prop)
  bound := by
    obtain ⟨M, hM⟩ := h.bounded hq hx
    refine ⟨M, hM.mono fun i hi r hr => hi _ ?_ ?_⟩
    · omega
    · have := cells_eq (h.regular i); have := (h.regular i).odd; have := (h.regular i).nd3; omega
  limit := fun y _ r hr hy => by
    refine h.row_limit hq hx (hr.mono fun i hi => ?_) hcol (hy.congr fun i => lat_south (h.regular i) (r i))
    have := cells_eq (h.regular i); have := (h.regular i).odd; have := (h.regular i).nd3
    omega

/-- Sums over the displaced rows of the Northern Hemisphere with any weight tend to the integrals over the displaced latitudes. -/
theorem Approaches.displaced_north {φ v l : ℝ} (ha : 0 < a) (hq : Continuous fun p : ℝ × ℝ => q p.1 p.2) (htop : volume (highest q) = 0)
    (h : Approaches c a q A k e) {g x : ℕ → ℤ} (hx : ∀ i, 1 ≤ x i ∧ x i ≤ (A i).nlon)
    (hg : ∀ i, (A i).nd < (A i).outRow (g i) ∧ (A i).outRow (g i) ≤ (A i).nlat)
    (hrow : Filter.Tendsto (fun i => (A i).lat ((A i).outRow (g i))) Filter.atTop (nhds φ)) (hφ0 : 0 ≤ φ) (hφ : φ < Real.pi / 2)
    (hcol : Filter.Tendsto (fun i => (A i).sphere.longitude (x i)) Filter.atTop (nhds l))
    (hv : Encloses a q (-(Real.pi / 2)) (Real.pi / 2) (southCap a φ) v) {W : ℕ → ℤ → ℝ} {w : ℝ → ℝ}
    (hW : RowLimit 0 (Real.pi / 2) (fun i => (A i).cells) (fun i r => W i ((A i).nd + r)) w) :
    Filter.Tendsto (fun i => waveActivityNorth (Icc (A i).nd (A i).nlat) (fun r => (A i).qgpv c (x i) r (k i)) ((A i).qref c (g i) (k i))
      (fun r => W i r * (A i).dphi) ((A i).outRow (g i))) Filter.atTop
      (nhds ((∫ y in φ..Real.pi / 2, max (v - q y l) 0 * w y) + ∫ y in (0 : ℝ)..φ, max (q y l - v) 0 * w y)) := by
  have hpi := Real.pi_pos
  have hQ := C160_north_partial ha hq htop h hg hrow hφ0 hφ hv
  have hj : ∀ i, (A i).nd + (((A i).outRow (g i) - (A i).nd).toNat : ℤ) = (A i).outRow (g i) := fun i => by have := hg i; omega
  refine (north_rows_limit (by positivity : (0 : ℝ) < Real.pi / 2) ⟨hφ0, hφ.le⟩ h.cells (b := fun i => (A i).nd)
    (j := fun i => ((A i).outRow (g i) - (A i).nd).toNat) (q := fun i r => (A i).qgpv c (x i) r (k i)) (h.rows_north hq hx hcol) hW hQ
    (hrow.congr fun i => by rw [lat_north (h.regular i), hj i])).congr fun i => ?_
  rw [hj i, sub_zero, cells_width (h.regular i)]
  congr 2
  have := cells_eq (h.regular i); have := (h.regular i).odd
  omega

/-- The same in the Southern Hemisphere. -/
theorem Approaches.displaced_south {φ v l : ℝ} (ha : 0 < a) (hq : Continuous fun p : ℝ × ℝ => q p.1 p.2) (hlow : volume (lowest q) = 0)
    (h : Approaches c a q A k e) (hgl : ∀ i, (A i).nhOnly = false) {g x : ℕ → ℤ} (hx : ∀ i, 1 ≤ x i ∧ x i ≤ (A i).nlon)
    (hg : ∀ i, 1 ≤ g i ∧ g i < (A i).nd)
    (hrow : Filter.Tendsto (fun i => (A i).lat (g i)) Filter.atTop (nhds φ)) (hφ0 : φ ≤ 0) (hφ : -(Real.pi / 2) < φ)
    (hcol : Filter.Tendsto (fun i => (A i).sphere.longitude (x i)) Filter.atTop (nhds l))
    (hv : Encloses a q (-(Real.pi / 2)) (Real.pi / 2) (southCap a φ) v) {W : ℕ → ℤ → ℝ} {w : ℝ → ℝ}
    (hW : RowLimit (-(Real.pi / 2)) 0 (fun i => (A i).cells) (fun i r => W i (1 + r)) w) :
    Filter.Tendsto (fun i => waveActivitySouth (Icc 1 (A i).nd) (fun r => (A i).qgpv c (x i) r (k i)) ((A i).qref c (g i) (k i))
      (fun r => W i r * (A i).dphi) (g i)) Filter.atTop
      (nhds ((∫ y in φ..0, max (v - q y l) 0 * w y) + ∫ y in (-(Real.pi / 2))..φ, max (q y l - v) 0 * w y)) := by
  have hpi := Real.pi_pos
  have hQ := C160_south_partial ha hq hlow h hgl hg hrow hφ0 hφ hv
  have hj : ∀ i, 1 + ((g i - 1).toNat : ℤ) = g i := fun i => by have := hg i; omega
  refine (south_rows_limit (by linarith : -(Real.pi / 2) < 0) ⟨hφ.le, hφ0⟩ h.cells (b := fun i => 1)
    (j := fun i => (g i - 1).toNat) (q := fun i r => (A i).qgpv c (x i) r (k i)) (h.rows_south hq hx hcol) hW hQ
    (hrow.congr fun i => by rw [lat_south (h.regular i), hj i])).congr fun i => ?_
  rw [hj i, zero_sub, neg_neg, cells_width (h.regular i)]
  congr 2
  have := cells_eq (h.regular i)
  omega

theorem cos_rows_north (ha : 0 < a) (hr : ∀ i, (A i).Regular) (h : ∀ i, (A i).a = a) :
    RowLimit 0 (Real.pi / 2) (fun i => (A i).cells) (fun i r => (A i).a * Real.cos ((A i).lat ((A i).nd + r))) fun y => a * Real.cos y where
  continuous := by fun_prop
  bound := ⟨a, Filter.Eventually.of_forall fun i r _ => by
    rw [h i, abs_mul, abs_of_pos ha]
    exact mul_le_of_le_one_right ha.le (Real.abs_cos_le_one _)⟩
  limit := fun y _ r _ hy => by
    refine (((Real.continuous_cos.tendsto y).comp hy).const_mul a).congr fun i => ?_
    rw [h i, ← lat_north (hr i)]
    rfl

theorem cos_rows_south (ha : 0 < a) (hr : ∀ i, (A i).Regular) (h : ∀ i, (A i).a = a) :
    RowLimit (-(Real.pi / 2)) 0 (fun i => (A i).cells) (fun i r => (A i).a * Real.cos ((A i).lat (1 + r))) fun y => a * Real.cos y where
  continuous := by fun_prop
  bound := ⟨a, Filter.Eventually.of_forall fun i r _ => by
    rw [h i, abs_mul, abs_of_pos ha]
    exact mul_le_of_le_one_right ha.le (Real.abs_cos_le_one _)⟩
  limit := fun y _ r _ hy => by
    refine (((Real.continuous_cos.tendsto y).comp hy).const_mul a).congr fun i => ?_
    rw [h i, ← lat_south (hr i)]
    rfl

/-- Small spacings. -/
theorem Approaches.dphi (h : Approaches c a q A k e) : Filter.Tendsto (fun i => (A i).dphi) Filter.atTop (nhds 0) := by
  unfold Atmos.dphi
  exact tendsto_const_nhds.div_atTop (tendsto_intCast_atTop_atTop.comp (Filter.tendsto_atTop_add_const_right _ (-1) h.moreRows))

theorem north_mode {A : Atmos} {g : ℤ} (hg : A.nd < A.outRow g) : A.nhOnly = true ∨ A.nd < g := by
  by_cases hb : A.nhOnly = true
  · exact Or.inl hb
  · right
    have h1 : A.rows = A.nlat := by unfold rows; rw [if_neg hb]
    have h2 : A.outRow g = A.nlat - A.rows + g := rfl
    omega

/-- **C160, wave activity, Northern Hemisphere, both classes.** If moreover the columns tend to a longitude `l`, the local wave activity
tends to the integral between equator and pole that defines it, with the value that encloses the cap as reference. -/
theorem C160_wave_north_partial {φ v l : ℝ} (ha : 0 < a) (hq : Continuous fun p : ℝ × ℝ => q p.1 p.2) (htop : volume (highest q) = 0)
    (h : Approaches c a q A k e) {g x : ℕ → ℤ} (hx : ∀ i, 1 ≤ x i ∧ x i ≤ (A i).nlon)
    (hg : ∀ i, (A i).nd < (A i).outRow (g i) ∧ (A i).nd + (A i).jb ≤ (A i).outRow (g i) ∧ (A i).outRow (g i) < (A i).nlat)
    (hrow : Filter.Tendsto (fun i => (A i).lat ((A i).outRow (g i))) Filter.atTop (nhds φ)) (hφ0 : 0 ≤ φ) (hφ : φ < Real.pi / 2)
    (hcol : Filter.Tendsto (fun i => (A i).sphere.longitude (x i)) Filter.atTop (nhds l))
    (hv : Encloses a q (-(Real.pi / 2)) (Real.pi / 2) (southCap a φ) v) :
    Filter.Tendsto (fun i => ((A i).analysis c).lwa (x i) (g i) (k i)) Filter.atTop
      (nhds (meridionalWaveActivity a (fun y => q y l) v 0 (Real.pi / 2) φ)) := by
  refine (h.displaced_north ha hq htop hx (fun i => ⟨(hg i).1, (hg i).2.2.le⟩) hrow hφ0 hφ hcol hv
    (W := fun i r => (A i).a * Real.cos ((A i).lat r)) (cos_rows_north ha h.regular h.radius)).congr fun i => ?_
  rw [QGAnalysis.C42_north ((h.regular i).valid c) (x i) (g i) (k i) (hx i) (h.level i) ⟨(hg i).2.1, (hg i).2.2⟩ (north_mode (hg i).1)]
  rfl

/-- **C160, wave activity, Southern Hemisphere.** -/
theorem C160_wave_south_partial {φ v l : ℝ} (ha : 0 < a) (hq : Continuous fun p : ℝ × ℝ => q p.1 p.2) (hlow : volume (lowest q) = 0)
    (h : Approaches c a q A k e) (hgl : ∀ i, (A i).nhOnly = false) {g x : ℕ → ℤ} (hx : ∀ i, 1 ≤ x i ∧ x i ≤ (A i).nlon)
    (hg : ∀ i, 1 < g i ∧ g i < (A i).nd ∧ g i ≤ (A i).nd - (A i).jb)
    (hrow : Filter.Tendsto (fun i => (A i).lat (g i)) Filter.atTop (nhds φ)) (hφ0 : φ ≤ 0) (hφ : -(Real.pi / 2) < φ)
    (hcol : Filter.Tendsto (fun i => (A i).sphere.longitude (x i)) Filter.atTop (nhds l))
    (hv : Encloses a q (-(Real.pi / 2)) (Real.pi / 2) (southCap a φ) v) :
    Filter.Tendsto (fun i => ((A i).analysis c).lwa (x i) (g i) (k i)) Filter.atTop
      (nhds (meridionalWaveActivity a (fun y => q y l) v (-(Real.pi / 2)) 0 φ)) := by
  refine (h.displaced_south ha hq hlow hgl hx (fun i => ⟨(hg i).1.le, (hg i).2.1⟩) hrow hφ0 hφ hcol hv
    (W := fun i r => (A i).a * Real.cos ((A i).lat r)) (cos_rows_south ha h.regular h.radius)).congr fun i => ?_
  rw [QGAnalysis.C42_south ((h.regular i).valid c) (hgl i) (x i) (g i) (k i) (hx i) (h.level i) ⟨(hg i).1, (hg i).2.2⟩]
  rfl

end Atmos

end Falwa
