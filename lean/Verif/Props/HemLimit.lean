import Verif.Lemmas.HemGrid

/-!
# C195: the results of the hemispheric wrappers tend to those of the hemispheres of the sphere
-/

noncomputable section

namespace Falwa

open Finset Spec MeasureTheory Filter

/-- Area of a cell of a regular grid from pole to pole. -/
def Spec.regularArea (a : ℝ) (nlat nlon : ℕ) (r _ : ℕ) : ℝ :=
  a ^ 2 * Real.cos (regularLat nlat r * Real.pi / 180) * (Real.pi / ((nlat - 1 : ℕ) : ℝ) * (2 * Real.pi / nlon))

/-- Length of a row times the cosine of its latitude. -/
def Spec.regularLength (a : ℝ) (nlat : ℕ) (r : ℕ) : ℝ :=
  a * Real.cos (regularLat nlat r * Real.pi / 180) * (Real.pi / ((nlat - 1 : ℕ) : ℝ))

/-- A call of a hemispheric wrapper with a field on a regular grid from pole to pole. -/
def hemOn (a : ℝ) (q : ℝ → ℝ → ℝ) (nlat nlon : ℕ) (S np : Option ℕ) : HemInput :=
  hemArgs nlat nlon (regularLat nlat) (sampled q nlat nlon) (regularArea a nlat nlon) (regularLength a nlat) S np a

/-- Ever finer grids, on which `nlat_s` rows reach from a pole to latitudes that tend to `σ` (in the Northern Hemisphere to `-σ`). -/
structure HemGrids (nlat nlon : ℕ → ℕ) (S np : ℕ → Option ℕ) (σ : ℝ) : Prop where
  rows : ∀ i, 3 ≤ nlat i
  columns : ∀ i, 1 ≤ nlon i
  some : ∀ i, 0 < (S i).getD (nlat i / 2)
  extent : ∀ i, (S i).getD (nlat i / 2) ≤ nlat i
  parts : ∀ i, 2 ≤ (np i).getD ((S i).getD (nlat i / 2))
  moreRows : Tendsto nlat atTop atTop
  moreColumns : Tendsto nlon atTop atTop
  moreParts : Tendsto (fun i => (np i).getD ((S i).getD (nlat i / 2))) atTop atTop
  south : -(Real.pi / 2) < σ
  north : σ ≤ Real.pi / 2
  edge : Tendsto (fun i => (S i).getD (nlat i / 2) * (Real.pi / ((nlat i - 1 : ℕ) : ℝ))) atTop (nhds (σ + Real.pi / 2))

theorem regularLat_step {nlat : ℕ} (r : ℕ) : regularLat nlat r * Real.pi / 180 = -(Real.pi / 2) + r * (Real.pi / ((nlat - 1 : ℕ) : ℝ)) := by
  rw [regularLat_rad, show Real.pi / 2 - -(Real.pi / 2) = Real.pi by ring]

theorem regularLat_range {nlat r : ℕ} (h : 3 ≤ nlat) (hr : r < nlat) : -90 ≤ regularLat nlat r ∧ regularLat nlat r ≤ 90 := by
  have hn0 : (0 : ℝ) < ((nlat - 1 : ℕ) : ℝ) := by exact_mod_cast (by omega : 0 < nlat - 1)
  unfold regularLat
  have hle : (r : ℝ) ≤ ((nlat - 1 : ℕ) : ℝ) := by exact_mod_cast (by omega : r ≤ nlat - 1)
  constructor
  · have : 0 ≤ 180 * (r : ℝ) / ((nlat - 1 : ℕ) : ℝ) := by positivity
    linarith
  · have : 180 * (r : ℝ) / ((nlat - 1 : ℕ) : ℝ) ≤ 180 := by rw [div_le_iff₀ hn0]; linarith
    linarith

theorem regularLat_opposite {nlat r : ℕ} (h : 3 ≤ nlat) (hr : r < nlat) : regularLat nlat (nlat - 1 - r) = -regularLat nlat r := by
  have hn0 : ((nlat - 1 : ℕ) : ℝ) ≠ 0 := by exact_mod_cast (by omega : nlat - 1 ≠ 0)
  unfold regularLat
  rw [Nat.cast_sub (by omega : r ≤ nlat - 1)]
  field_simp
  ring

theorem lwaTotal_sum {N : ℕ} {vort : ℕ → ℕ → ℝ} {Q dmu : ℕ → ℝ} {j c : ℕ} (h : j + 1 < N) : lwaTotal N vort Q dmu j c =
    ∑ r ∈ range N, (if j < r then max (Q j - vort r c) 0 else max (vort r c - Q j) 0) * dmu r := by
  rw [lwaTotal_eq_spec h, waveActivity_eq_add, deficit_eq, surplus_eq, ← sum_add_distrib]
  refine sum_congr rfl fun r _ => ?_
  by_cases hr : j < r
  · rw [if_pos hr, if_pos hr, if_neg (by omega)]; ring
  · rw [if_neg hr, if_neg hr, if_pos (by omega)]; ring

theorem lwaBigsigma_sum {N : ℕ} {vort G : ℕ → ℕ → ℝ} {Q dmu : ℕ → ℝ} {j c : ℕ} (h : j + 1 < N) : lwaBigsigma N vort Q dmu G j c =
    ∑ r ∈ range N, (if j < r then (if vort r c < Q j then -1 else 0) else if Q j < vort r c then 1 else 0) * (G r c * dmu r) := by
  unfold lwaBigsigma
  rw [if_pos (by omega)]
  refine sum_congr rfl fun r _ => ?_
  unfold anticyclonicMask cyclonicMask vortE
  by_cases hr : j < r
  · have hn : ¬ r < j + 1 := by omega
    simp only [if_neg hn, if_pos hr]
    by_cases h1 : vort r c < Q j
    · rw [if_pos h1, if_pos (by linarith)]; ring
    · rw [if_neg h1, if_neg (by linarith)]; ring
  · have hn : r < j + 1 := by omega
    simp only [if_pos hn, if_neg hr]
    by_cases h1 : Q j < vort r c
    · rw [if_pos h1, if_pos (by linarith)]; ring
    · rw [if_neg h1, if_neg (by linarith)]; ring

section

variable {a φ σ v l : ℝ} {q G : ℝ → ℝ → ℝ} {nlat nlon : ℕ → ℕ} {S np : ℕ → Option ℕ} {j c : ℕ → ℕ}

theorem HemGrids.sensible (hg : HemGrids nlat nlon S np σ) (ha : 0 < a) (q : ℝ → ℝ → ℝ) (i : ℕ) :
    HemSensible (hemOn a q (nlat i) (nlon i) (S i) (np i)) := by
  obtain ⟨c1, c2, _⟩ := C12_default_areas_fit (nlat i) (nlon i) a (hg.rows i) (hg.columns i) ha false none (by simp) (sampled q (nlat i) (nlon i))
  have harea : (baroInit (nlat i) (nlon i) (regularLat (nlat i)) a false none none none).area = regularArea a (nlat i) (nlon i) := by
    funext r c
    show 2 * Real.pi * a ^ 2 * (Real.cos (regularLat (nlat i) r * Real.pi / 180) * (Real.pi / ((nlat i - 1 : ℕ) : ℝ))) / nlon i = _
    unfold regularArea
    ring
  rw [harea] at c1 c2
  have hS := hg.extent i
  exact
    { nlatS_pos := hg.some i
      nlatS_le := hS
      nlon_pos := hg.columns i
      nPoints_pos := show 0 < (np i).getD _ from by have := hg.parts i; omega
      radius_ne := ha.ne'
      area_nonneg := fun r hr c hc => c1 (r, c) (mem_cells.2 ⟨lt_of_lt_of_le hr hS, hc⟩)
      area_fits := by
        refine (sum_le_sum_of_subset_of_nonneg (fun p hp => ?_) fun p hp _ => c1 p hp).trans c2
        obtain ⟨h1, h2⟩ := mem_cells.1 hp
        exact mem_cells.2 ⟨lt_of_lt_of_le h1 hS, h2⟩ }

theorem HemGrids.moreS (hg : HemGrids nlat nlon S np σ) : Tendsto (fun i => (S i).getD (nlat i / 2)) atTop atTop := by
  have hpi := Real.pi_pos
  have hN : Tendsto (fun i => ((nlat i - 1 : ℕ) : ℝ)) atTop atTop :=
    tendsto_natCast_atTop_atTop.comp ((tendsto_sub_atTop_nat 1).comp hg.moreRows)
  have h1 := hN.atTop_mul_pos (show 0 < (σ + Real.pi / 2) / Real.pi from div_pos (by have := hg.south; linarith) hpi)
    (hg.edge.div_const Real.pi)
  refine tendsto_natCast_atTop_iff.1 (h1.congr fun i => ?_)
  have h3 : ((nlat i - 1 : ℕ) : ℝ) ≠ 0 := by exact_mod_cast (by have := hg.rows i; omega : nlat i - 1 ≠ 0)
  field_simp

theorem HemGrids.step_nonneg (_ : HemGrids nlat nlon S np σ) (i : ℕ) : 0 ≤ Real.pi / ((nlat i - 1 : ℕ) : ℝ) := by
  have hpi := Real.pi_pos
  positivity

theorem HemGrids.below_pole (hg : HemGrids nlat nlon S np σ) (i r : ℕ) (hr : r < (S i).getD (nlat i / 2)) :
    -(Real.pi / 2) + r * (Real.pi / ((nlat i - 1 : ℕ) : ℝ)) ≤ Real.pi / 2 := by
  have hpi := Real.pi_pos
  have h3 : (0 : ℝ) < ((nlat i - 1 : ℕ) : ℝ) := by exact_mod_cast (by have := hg.rows i; omega : 0 < nlat i - 1)
  have h4 : (r : ℝ) ≤ ((nlat i - 1 : ℕ) : ℝ) := by exact_mod_cast (by have := hg.extent i; omega : r ≤ nlat i - 1)
  have : (r : ℝ) * (Real.pi / ((nlat i - 1 : ℕ) : ℝ)) ≤ Real.pi := by
    rw [← mul_div_assoc, div_le_iff₀ h3]
    nlinarith
  linarith

/-- The profile of one of the two calls of `eqvlat_fawa`, for a field `p` on the southern part. -/
theorem HemGrids.profile (hg : HemGrids nlat nlon S np σ) (ha : 0 < a) {p : ℝ → ℝ → ℝ} (hp : Continuous fun x : ℝ × ℝ => p x.1 x.2)
    {F : ℕ → ℕ → ℕ → ℝ} (hF : ∀ i, ∀ r < (S i).getD (nlat i / 2), ∀ c, F i r c =
      p (-(Real.pi / 2) + r * (Real.pi / ((nlat i - 1 : ℕ) : ℝ))) (c * (2 * Real.pi / nlon i)))
    (hj : ∀ i, j i < nlat i) (hrow : Tendsto (fun i => regularLat (nlat i) (j i) * Real.pi / 180) atTop (nhds φ)) (hφ : φ < σ)
    (hφ' : -(Real.pi / 2) < φ) (hv : Encloses a p (-(Real.pi / 2)) σ (southCap a φ) v) {Q : ℕ → ℕ → ℝ}
    (hQ : ∀ i, ((hemOn a q (nlat i) (nlon i) (S i) (np i)).southInput (F i)).qref = .ok (Q i)) :
    Tendsto (fun i => Q i (j i)) atTop (nhds v) := by
  refine profile_near ha hp hg.north (h := fun i => Real.pi / ((nlat i - 1 : ℕ) : ℝ)) (N := fun i => (S i).getD (nlat i / 2)) (M := nlon)
    hg.step_nonneg hg.moreS hg.moreColumns (by rw [sub_neg_eq_add]; exact hg.edge) hg.below_pole
    (I := fun i => (hemOn a q (nlat i) (nlon i) (S i) (np i)).southInput (F i)) (fun i => (hg.sensible ha q i).south _)
    (fun _ => rfl) (fun _ => rfl) (fun i r hr c _ => hF i r hr c) (fun i r _ c _ => ?_) (fun _ => rfl) hg.parts hg.moreParts
    (fun i => regularLat_range (hg.rows i) (hj i)) hrow hφ hφ' hv hQ
  show regularArea a (nlat i) (nlon i) r c = _
  unfold regularArea
  rw [regularLat_step]

theorem HemGrids.result (hg : HemGrids nlat nlon S np σ) (ha : 0 < a) (i : ℕ) (G : ℝ → ℝ → ℝ) : ∃ f g : ℕ → ℝ,
    ((hemOn a q (nlat i) (nlon i) (S i) (np i)).southInput (hemOn a q (nlat i) (nlon i) (S i) (np i)).vort).qref = .ok f ∧
    ((hemOn a q (nlat i) (nlon i) (S i) (np i)).southInput (hemOn a q (nlat i) (nlon i) (S i) (np i)).flippedNeg).qref = .ok g ∧
    ∀ Q A C, (hemOn a q (nlat i) (nlon i) (S i) (np i)).qgpvEqlatLwaNcforce (sampled G (nlat i) (nlon i)) = .ok (Q, A, C) →
      Q = (hemOn a q (nlat i) (nlon i) (S i) (np i)).assemble f (fun r => -g ((S i).getD (nlat i / 2) - 1 - r)) ∧
      A = (hemOn a q (nlat i) (nlon i) (S i) (np i)).lwaBoth f Q ∧
      C = (hemOn a q (nlat i) (nlon i) (S i) (np i)).capsigmaBoth (sampled G (nlat i) (nlon i)) f Q := by
  obtain ⟨f, hf⟩ := ((hg.sensible ha q i).south (hemOn a q (nlat i) (nlon i) (S i) (np i)).vort).ok
  obtain ⟨g, hgg⟩ := ((hg.sensible ha q i).south (hemOn a q (nlat i) (nlon i) (S i) (np i)).flippedNeg).ok
  refine ⟨f, g, hf, hgg, fun Q A C h => ?_⟩
  unfold HemInput.qgpvEqlatLwaNcforce HemInput.qref at h
  rw [hf, hgg] at h
  injection h with h
  injection h with h1 h2
  injection h2 with h2 h3
  subst h1
  exact ⟨rfl, h2.symm, h3.symm⟩

/-- **C195 (results exist).** On such grids both wrappers succeed and agree on the profile and the wave activity. -/
theorem C195_exists (hg : HemGrids nlat nlon S np σ) (ha : 0 < a) (i : ℕ) : ∃ Q A C,
    (hemOn a q (nlat i) (nlon i) (S i) (np i)).qgpvEqlatLwaNcforce (sampled G (nlat i) (nlon i)) = .ok (Q, A, C) ∧
    (hemOn a q (nlat i) (nlon i) (S i) (np i)).qgpvEqlatLwa = .ok (Q, A) := by
  obtain ⟨f, hf⟩ := ((hg.sensible ha q i).south (hemOn a q (nlat i) (nlon i) (S i) (np i)).vort).ok
  obtain ⟨g, hgg⟩ := ((hg.sensible ha q i).south (hemOn a q (nlat i) (nlon i) (S i) (np i)).flippedNeg).ok
  set H := hemOn a q (nlat i) (nlon i) (S i) (np i) with hH
  refine ⟨H.assemble f (fun r => -g (H.nlatS - 1 - r)), H.lwaBoth f (H.assemble f (fun r => -g (H.nlatS - 1 - r))),
    H.capsigmaBoth (sampled G (nlat i) (nlon i)) f (H.assemble f (fun r => -g (H.nlatS - 1 - r))), ?_, ?_⟩
  · unfold HemInput.qgpvEqlatLwaNcforce HemInput.qref
    rw [hf, hgg]
    rfl
  · unfold HemInput.qgpvEqlatLwa HemInput.qref
    rw [hf, hgg]
    rfl

/-- **C195 (edge).** With the default `nlat_s` the two parts of ever finer grids, of an even or an odd number of latitudes, meet at the equator. -/
theorem C195_default_edge (h1 : ∀ i, 4 ≤ nlat i) (h2 : ∀ i, 1 ≤ nlon i) (hlat : Tendsto nlat atTop atTop) (hlon : Tendsto nlon atTop atTop) :
    HemGrids nlat nlon (fun _ => none) (fun _ => none) 0 := by
  have hpi := Real.pi_pos
  have half : Tendsto (fun i => nlat i / 2) atTop atTop := (Nat.tendsto_div_const_atTop two_ne_zero).comp hlat
  refine ⟨fun i => by have := h1 i; omega, h2, fun i => ?_, fun i => ?_, fun i => ?_, hlat, hlon, half, by linarith, by positivity, ?_⟩
  · show 0 < nlat i / 2
    have := h1 i; omega
  · show nlat i / 2 ≤ nlat i
    omega
  · show 2 ≤ nlat i / 2
    have := h1 i; omega
  · show Tendsto (fun i => ((nlat i / 2 : ℕ) : ℝ) * (Real.pi / ((nlat i - 1 : ℕ) : ℝ))) atTop (nhds (0 + Real.pi / 2))
    have hN : Tendsto (fun i => Real.pi / ((nlat i - 1 : ℕ) : ℝ)) atTop (nhds 0) :=
      tendsto_const_nhds.div_atTop (tendsto_natCast_atTop_atTop.comp ((tendsto_sub_atTop_nat 1).comp hlat))
    have hd : Tendsto (fun i => ((nlat i / 2 : ℕ) : ℝ) * (Real.pi / ((nlat i - 1 : ℕ) : ℝ)) - Real.pi / 2) atTop (nhds 0) := by
      refine squeeze_zero_norm (fun i => ?_) hN
      have h3 : (0 : ℝ) < ((nlat i - 1 : ℕ) : ℝ) := by exact_mod_cast (by have := h1 i; omega : 0 < nlat i - 1)
      have e : ((nlat i / 2 : ℕ) : ℝ) * (Real.pi / ((nlat i - 1 : ℕ) : ℝ)) - Real.pi / 2 =
          (2 * ((nlat i / 2 : ℕ) : ℝ) - ((nlat i - 1 : ℕ) : ℝ)) / 2 * (Real.pi / ((nlat i - 1 : ℕ) : ℝ)) := by field_simp
      have b1 : 2 * ((nlat i / 2 : ℕ) : ℝ) ≤ ((nlat i - 1 : ℕ) : ℝ) + 1 := by exact_mod_cast (by have := h1 i; omega : 2 * (nlat i / 2) ≤ nlat i - 1 + 1)
      have b2 : ((nlat i - 1 : ℕ) : ℝ) ≤ 2 * ((nlat i / 2 : ℕ) : ℝ) := by exact_mod_cast (by omega : nlat i - 1 ≤ 2 * (nlat i / 2))
      have hp : 0 ≤ Real.pi / ((nlat i - 1 : ℕ) : ℝ) := by positivity
      rw [e, Real.norm_eq_abs, abs_mul, abs_of_nonneg hp]
      exact mul_le_of_le_one_left hp (abs_le.2 ⟨by linarith, by linarith⟩)
    have := hd.add_const (Real.pi / 2)
    simpa using this

theorem HemGrids.off (hg : HemGrids nlat nlon S np σ) : Tendsto (fun i => |(S i).getD (nlat i / 2) * (Real.pi / ((nlat i - 1 : ℕ) : ℝ)) -
    (σ + Real.pi / 2)|) atTop (nhds 0) := by
  have := (hg.edge.sub_const (σ + Real.pi / 2)).abs
  rwa [sub_self, abs_zero] at this

theorem off_le {m r : ℕ} (hm : m ≠ 0) (hr : r ≤ m) (h d : ℝ) : |r * h - r * (d / m)| ≤ |m * h - d| := by
  have m0 : (0 : ℝ) < m := by exact_mod_cast Nat.pos_of_ne_zero hm
  have hr' : (r : ℝ) ≤ m := by exact_mod_cast hr
  have e : (r : ℝ) * h - r * (d / m) = r / m * (m * h - d) := by field_simp
  rw [e, abs_mul, abs_of_nonneg (by positivity : (0 : ℝ) ≤ r / m)]
  exact mul_le_of_le_one_left (abs_nonneg _) ((div_le_one m0).2 hr')

/-- **C195 (south).** Let a continuous field and a continuous source be sampled on ever finer regular grids. At rows of the southern part that tend to
the latitude `φ`, and columns that tend to the longitude `l`, the results of the wrappers tend to: the value whose contour encloses in the part
south of `σ` the area south of `φ`; the wave activity of this part along the meridian; and the source of wave activity, if the meridian meets
the contour in a null set. -/
theorem C195_south (ha : 0 < a) (hq : Continuous fun p : ℝ × ℝ => q p.1 p.2) (hG : Continuous fun p : ℝ × ℝ => G p.1 p.2)
    (hg : HemGrids nlat nlon S np σ)
    (hj : ∀ i, j i + 1 < (S i).getD (nlat i / 2) ∧ j i < nlat i - (S i).getD (nlat i / 2))
    (hrow : Tendsto (fun i => regularLat (nlat i) (j i) * Real.pi / 180) atTop (nhds φ)) (hφ' : -(Real.pi / 2) < φ) (hφ : φ < σ)
    (hcol : Tendsto (fun i => 2 * Real.pi * c i / nlon i) atTop (nhds l)) (hv : Encloses a q (-(Real.pi / 2)) σ (southCap a φ) v)
    {Q : ℕ → ℕ → ℝ} {A C : ℕ → ℕ → ℕ → ℝ} (hR : ∀ i, (hemOn a q (nlat i) (nlon i) (S i) (np i)).qgpvEqlatLwaNcforce
      (sampled G (nlat i) (nlon i)) = .ok (Q i, A i, C i)) :
    Tendsto (fun i => Q i (j i)) atTop (nhds v) ∧
    Tendsto (fun i => A i (j i) (c i)) atTop (nhds (meridionalWaveActivity a (fun y => q y l) v (-(Real.pi / 2)) σ φ)) ∧
    (volume {y | y ∈ Set.Icc (-(Real.pi / 2)) σ ∧ q y l = v} = 0 →
      Tendsto (fun i => C i (j i) (c i)) atTop
        (nhds (meridionalSource a (fun y => q y l) (fun y => G y l) v (-(Real.pi / 2)) σ φ))) := by
  choose f g hf _ hfg using fun i => hg.result (q := q) ha i G
  have hrow' : Tendsto (fun i => -(Real.pi / 2) + (j i : ℝ) * (Real.pi / ((nlat i - 1 : ℕ) : ℝ))) atTop (nhds φ) :=
    hrow.congr fun i => regularLat_step _
  have hjn : ∀ i, j i < nlat i := fun i => by have := hj i; omega
  have hfl : Tendsto (fun i => f i (j i)) atTop (nhds v) := by
    refine hg.profile ha hq (fun i r _ c => ?_) hjn hrow hφ hφ' hv hf
    show sampled q (nlat i) (nlon i) r c = _
    unfold sampled
    rw [regularLat_step]
    congr 1
    ring
  have hass : ∀ i {α : Type} [Zero α] (x y : ℕ → α), (hemOn a q (nlat i) (nlon i) (S i) (np i)).assemble x y (j i) = x (j i) := by
    intro i α _ x y
    have h1 := (hj i).1
    have h2 := (hj i).2
    unfold HemInput.assemble
    have n1 : ¬ ((hemOn a q (nlat i) (nlon i) (S i) (np i)).nlat - (hemOn a q (nlat i) (nlon i) (S i) (np i)).nlatS ≤ j i ∧
        0 < (hemOn a q (nlat i) (nlon i) (S i) (np i)).nlatS) := fun h => by
      have : nlat i - (S i).getD (nlat i / 2) ≤ j i := h.1
      omega
    have n2 : j i < (hemOn a q (nlat i) (nlon i) (S i) (np i)).nlatS := by
      show j i < (S i).getD (nlat i / 2)
      omega
    rw [if_neg n1, if_pos n2]
  have rows : NearRows (-(Real.pi / 2)) σ φ l (fun i => (S i).getD (nlat i / 2)) j
      (fun i r => -(Real.pi / 2) + r * (Real.pi / ((nlat i - 1 : ℕ) : ℝ)))
      (fun i => |(S i).getD (nlat i / 2) * (Real.pi / ((nlat i - 1 : ℕ) : ℝ)) - (σ + Real.pi / 2)|)
      (fun i => Real.pi / ((nlat i - 1 : ℕ) : ℝ)) (fun i => 2 * Real.pi * c i / nlon i) :=
    { wide := hg.south
      inside := ⟨hφ'.le, hφ.le⟩
      many := hg.moreS
      small := hg.off
      near := fun i r hr => by
        rw [show -(Real.pi / 2) + (r : ℝ) * (Real.pi / ((nlat i - 1 : ℕ) : ℝ)) - (-(Real.pi / 2) + r * ((σ - -(Real.pi / 2)) /
          (((S i).getD (nlat i / 2) : ℕ) : ℝ))) = r * (Real.pi / ((nlat i - 1 : ℕ) : ℝ)) - r * ((σ + Real.pi / 2) /
          (((S i).getD (nlat i / 2) : ℕ) : ℝ)) by ring]
        exact off_le (hg.some i).ne' hr _ _
      whole := by rw [sub_neg_eq_add]; exact hg.edge
      column := hcol
      upper := fun i => by have := hj i; omega
      row := hrow' }
  refine ⟨hfl.congr fun i => ?_, ?_, fun hnull => ?_⟩
  · rw [(hfg i _ _ _ (hR i)).1, hass]
  · refine (rows.activity (a := a) hq hfl (D := fun i r => r = (S i).getD (nlat i / 2)) fun i r h => Or.inr h).congr fun i => ?_
    rw [(hfg i _ _ _ (hR i)).2.1]
    unfold HemInput.lwaBoth
    rw [hass]
    show _ = lwaTotal ((S i).getD (nlat i / 2)) (sampled q (nlat i) (nlon i)) (f i) (regularLength a (nlat i)) (j i) (c i)
    rw [lwaTotal_sum (hj i).1, sum_range_succ, if_pos rfl, mul_zero, add_zero]
    refine sum_congr rfl fun r hr => ?_
    rw [if_neg (mem_range.1 hr).ne]
    unfold sampled regularLength
    rw [regularLat_step]
  · refine (rows.source (a := a) hq hG hfl hnull (D := fun i r => r = (S i).getD (nlat i / 2)) fun i r h => Or.inr h).congr fun i => ?_
    rw [(hfg i _ _ _ (hR i)).2.2]
    unfold HemInput.capsigmaBoth
    rw [hass]
    show _ = lwaBigsigma ((S i).getD (nlat i / 2)) (sampled q (nlat i) (nlon i)) (f i) (regularLength a (nlat i)) (sampled G (nlat i) (nlon i))
      (j i) (c i)
    rw [lwaBigsigma_sum (hj i).1, sum_range_succ, if_pos rfl, mul_zero, add_zero]
    refine sum_congr rfl fun r hr => ?_
    rw [if_neg (mem_range.1 hr).ne]
    unfold sampled regularLength
    rw [regularLat_step]
    ring

/-- **C195 (north).** The same for rows of the northern part, where the contour encloses in the part north of `-σ` the area south of `φ`. -/
theorem C195_north (ha : 0 < a) (hq : Continuous fun p : ℝ × ℝ => q p.1 p.2) (hG : Continuous fun p : ℝ × ℝ => G p.1 p.2)
    (hg : HemGrids nlat nlon S np σ)
    (hj : ∀ i, nlat i - (S i).getD (nlat i / 2) ≤ j i ∧ j i + 1 < nlat i)
    (hrow : Tendsto (fun i => regularLat (nlat i) (j i) * Real.pi / 180) atTop (nhds φ)) (hφ' : -σ < φ) (hφ : φ < Real.pi / 2)
    (hcol : Tendsto (fun i => 2 * Real.pi * c i / nlon i) atTop (nhds l))
    (hv : Encloses a q (-σ) (Real.pi / 2) (2 * Real.pi * a ^ 2 * (Real.sin φ + Real.sin σ)) v)
    {Q : ℕ → ℕ → ℝ} {A C : ℕ → ℕ → ℕ → ℝ} (hR : ∀ i, (hemOn a q (nlat i) (nlon i) (S i) (np i)).qgpvEqlatLwaNcforce
      (sampled G (nlat i) (nlon i)) = .ok (Q i, A i, C i)) :
    Tendsto (fun i => Q i (j i)) atTop (nhds v) ∧
    Tendsto (fun i => A i (j i) (c i)) atTop (nhds (meridionalWaveActivity a (fun y => q y l) v (-σ) (Real.pi / 2) φ)) ∧
    (volume {y | y ∈ Set.Icc (-σ) (Real.pi / 2) ∧ q y l = v} = 0 →
      Tendsto (fun i => C i (j i) (c i)) atTop
        (nhds (meridionalSource a (fun y => q y l) (fun y => G y l) v (-σ) (Real.pi / 2) φ))) := by
  have hpi := Real.pi_pos
  have hsouth := hg.south
  have hnorth := hg.north
  choose f g hf hgg hfg using fun i => hg.result (q := q) ha i G
  set p : ℝ → ℝ → ℝ := fun x l => -q (-x) l with hp
  have hpc : Continuous fun x : ℝ × ℝ => p x.1 x.2 := (hq.comp (f := fun x : ℝ × ℝ => (-x.1, x.2)) (by fun_prop)).neg
  have hvp : Encloses a p (-(Real.pi / 2)) σ (southCap a (-φ)) (-v) := by
    have hback : (fun x l => -p (-x) l) = q := by
      funext x l
      simp only [hp, neg_neg]
    have := encloses_mirror (a := a) (s := -σ) (n := Real.pi / 2) (q := p) hpc (by linarith) (by linarith) le_rfl (by rw [hback]; exact hv)
    rw [neg_neg, show 2 * Real.pi * a ^ 2 * (Real.sin (Real.pi / 2) - Real.sin (-σ)) - 2 * Real.pi * a ^ 2 * (Real.sin φ + Real.sin σ) =
      southCap a (-φ) by rw [Real.sin_pi_div_two, Real.sin_neg]; unfold southCap; rw [Real.sin_neg]; ring] at this
    exact this
  have hstep : ∀ i, ((nlat i - 1 : ℕ) : ℝ) * (Real.pi / ((nlat i - 1 : ℕ) : ℝ)) = Real.pi := fun i => by
    have h3 : ((nlat i - 1 : ℕ) : ℝ) ≠ 0 := by exact_mod_cast (by have := hg.rows i; omega : nlat i - 1 ≠ 0)
    rw [mul_div_cancel₀ _ h3]
  have hgl : Tendsto (fun i => g i (nlat i - 1 - j i)) atTop (nhds (-v)) := by
    refine hg.profile ha hpc (fun i r hr c => ?_) (j := fun i => nlat i - 1 - j i) (fun i => by have := hg.rows i; omega) ?_
      (by linarith : -φ < σ) (by linarith) hvp hgg
    · have hrn : r < nlat i := lt_of_lt_of_le hr (hg.extent i)
      show -(sampled q (nlat i) (nlon i) (nlat i - 1 - r) c) = -q (-(-(Real.pi / 2) + r * (Real.pi / ((nlat i - 1 : ℕ) : ℝ)))) (c * (2 * Real.pi / nlon i))
      unfold sampled
      rw [regularLat_opposite (hg.rows i) hrn, ← regularLat_step]
      congr 2 <;> ring
    · refine hrow.neg.congr fun i => ?_
      rw [regularLat_opposite (hg.rows i) (by have := hj i; omega)]
      ring
  have hass : ∀ i {α : Type} [Zero α] (x y : ℕ → α), (hemOn a q (nlat i) (nlon i) (S i) (np i)).assemble x y (j i) =
      y (j i - (nlat i - (S i).getD (nlat i / 2))) := by
    intro i α _ x y
    unfold HemInput.assemble
    have n1 : (hemOn a q (nlat i) (nlon i) (S i) (np i)).nlat - (hemOn a q (nlat i) (nlon i) (S i) (np i)).nlatS ≤ j i ∧
        0 < (hemOn a q (nlat i) (nlon i) (S i) (np i)).nlatS := ⟨(hj i).1, hg.some i⟩
    rw [if_pos n1]
    rfl
  have hQl : Tendsto (fun i => Q i (j i)) atTop (nhds v) := by
    have := hgl.neg
    rw [neg_neg] at this
    refine this.congr fun i => ?_
    rw [(hfg i _ _ _ (hR i)).1, hass]
    congr 2
    have := hj i
    have := hg.extent i
    omega
  have hxr : ∀ i, ∀ r < (S i).getD (nlat i / 2), regularLat (nlat i) (nlat i - (S i).getD (nlat i / 2) + r) * Real.pi / 180 =
      Real.pi / 2 - (((S i).getD (nlat i / 2) : ℕ) - ((r + 1 : ℕ) : ℝ)) * (Real.pi / ((nlat i - 1 : ℕ) : ℝ)) := by
    intro i r hr
    have hS := hg.extent i
    have e : nlat i - (S i).getD (nlat i / 2) + r = nlat i - 1 - ((S i).getD (nlat i / 2) - (r + 1)) := by omega
    rw [regularLat_step, e, Nat.cast_sub (by omega : (S i).getD (nlat i / 2) - (r + 1) ≤ nlat i - 1), sub_mul, hstep,
      Nat.cast_sub (by omega : r + 1 ≤ (S i).getD (nlat i / 2))]
    ring
  have rows : NearRows (-σ) (Real.pi / 2) φ l (fun i => (S i).getD (nlat i / 2)) (fun i => j i - (nlat i - (S i).getD (nlat i / 2)) + 1)
      (fun i r => Real.pi / 2 - (((S i).getD (nlat i / 2) : ℕ) - (r : ℝ)) * (Real.pi / ((nlat i - 1 : ℕ) : ℝ)))
      (fun i => |(S i).getD (nlat i / 2) * (Real.pi / ((nlat i - 1 : ℕ) : ℝ)) - (σ + Real.pi / 2)|)
      (fun i => Real.pi / ((nlat i - 1 : ℕ) : ℝ)) (fun i => 2 * Real.pi * c i / nlon i) :=
    { wide := by linarith
      inside := ⟨hφ'.le, hφ.le⟩
      many := hg.moreS
      small := hg.off
      near := fun i r hr => by
        have m0 : (((S i).getD (nlat i / 2) : ℕ) : ℝ) ≠ 0 := by exact_mod_cast (hg.some i).ne'
        have e : Real.pi / 2 - ((((S i).getD (nlat i / 2) : ℕ) : ℝ) - (r : ℝ)) * (Real.pi / ((nlat i - 1 : ℕ) : ℝ)) -
            (-σ + r * ((Real.pi / 2 - -σ) / (((S i).getD (nlat i / 2) : ℕ) : ℝ))) =
            -((((S i).getD (nlat i / 2) - r : ℕ) : ℝ) * (Real.pi / ((nlat i - 1 : ℕ) : ℝ)) -
              (((S i).getD (nlat i / 2) - r : ℕ) : ℝ) * ((σ + Real.pi / 2) / (((S i).getD (nlat i / 2) : ℕ) : ℝ))) := by
          rw [Nat.cast_sub hr, sub_mul _ _ ((σ + Real.pi / 2) / _), mul_div_cancel₀ _ m0]
          ring
        rw [e, abs_neg]
        exact off_le (hg.some i).ne' (Nat.sub_le _ _) _ _
      whole := by rw [sub_neg_eq_add, add_comm]; exact hg.edge
      column := hcol
      upper := fun i => by have := hj i; have := hg.extent i; have := hg.some i; omega
      row := hrow.congr fun i => by
        have h1 := hj i
        have h2 := hg.extent i
        rw [← hxr i _ (by omega)]
        congr 3
        omega }
  have hjS : ∀ i, j i - (nlat i - (S i).getD (nlat i / 2)) + 1 < (S i).getD (nlat i / 2) := fun i => by
    have := hj i; have := hg.extent i; omega
  have hnq : ∀ i, (hemOn a q (nlat i) (nlon i) (S i) (np i)).north (Q i) (j i - (nlat i - (S i).getD (nlat i / 2))) = Q i (j i) := fun i => by
    show Q i (nlat i - (S i).getD (nlat i / 2) + (j i - (nlat i - (S i).getD (nlat i / 2)))) = _
    congr 1
    have := hj i; omega
  refine ⟨hQl, ?_, fun hnull => ?_⟩
  · refine (rows.activity (a := a) hq hQl (D := fun i r => r = 0) fun i r h => Or.inl h).congr fun i => ?_
    rw [(hfg i _ _ _ (hR i)).2.1]
    unfold HemInput.lwaBoth
    rw [hass]
    show _ = lwaTotal ((S i).getD (nlat i / 2)) ((hemOn a q (nlat i) (nlon i) (S i) (np i)).north (sampled q (nlat i) (nlon i)))
      ((hemOn a q (nlat i) (nlon i) (S i) (np i)).north (Q i)) ((hemOn a q (nlat i) (nlon i) (S i) (np i)).north (regularLength a (nlat i)))
      (j i - (nlat i - (S i).getD (nlat i / 2))) (c i)
    rw [lwaTotal_sum (hjS i), sum_range_succ', if_pos rfl, mul_zero, add_zero, hnq]
    refine sum_congr rfl fun r hr => ?_
    rw [if_neg (Nat.succ_ne_zero r)]
    simp only [Nat.add_lt_add_iff_right]
    rw [← hxr i r (mem_range.1 hr)]
    rfl
  · refine (rows.source (a := a) hq hG hQl hnull (D := fun i r => r = 0) fun i r h => Or.inl h).congr fun i => ?_
    rw [(hfg i _ _ _ (hR i)).2.2]
    unfold HemInput.capsigmaBoth
    rw [hass]
    show _ = lwaBigsigma ((S i).getD (nlat i / 2)) ((hemOn a q (nlat i) (nlon i) (S i) (np i)).north (sampled q (nlat i) (nlon i)))
      ((hemOn a q (nlat i) (nlon i) (S i) (np i)).north (Q i)) ((hemOn a q (nlat i) (nlon i) (S i) (np i)).north (regularLength a (nlat i)))
      ((hemOn a q (nlat i) (nlon i) (S i) (np i)).north (sampled G (nlat i) (nlon i)))
      (j i - (nlat i - (S i).getD (nlat i / 2))) (c i)
    rw [lwaBigsigma_sum (hjS i), sum_range_succ', if_pos rfl, mul_zero, add_zero, hnq]
    refine sum_congr rfl fun r hr => ?_
    rw [if_neg (Nat.succ_ne_zero r)]
    simp only [Nat.add_lt_add_iff_right]
    rw [← hxr i r (mem_range.1 hr)]
    refine congrArg₂ (· * ·) rfl ?_
    show a * Real.cos (regularLat (nlat i) (nlat i - (S i).getD (nlat i / 2) + r) * Real.pi / 180) *
        G (regularLat (nlat i) (nlat i - (S i).getD (nlat i / 2) + r) * Real.pi / 180) (2 * Real.pi * (c i : ℝ) / nlon i) *
        (Real.pi / ((nlat i - 1 : ℕ) : ℝ)) =
      G (regularLat (nlat i) (nlat i - (S i).getD (nlat i / 2) + r) * Real.pi / 180) (2 * Real.pi * (c i : ℝ) / nlon i) *
        (a * Real.cos (regularLat (nlat i) (nlat i - (S i).getD (nlat i / 2) + r) * Real.pi / 180) * (Real.pi / ((nlat i - 1 : ℕ) : ℝ)))
    ring

end

/-! ### Non-vacuity: all default arguments, rows at 45 degrees, any continuous field -/

theorem quarter_grids : HemGrids (fun i => 4 * (i + 2) + 1) (fun i => i + 1) (fun _ => none) (fun _ => none) 0 :=
  C195_default_edge (fun i => by omega) (fun i => by omega)
    (tendsto_atTop_mono (fun i => (by omega : i ≤ 4 * (i + 2) + 1)) tendsto_id) (tendsto_add_atTop_nat 1)

theorem quarter_row (k i : ℕ) : regularLat (4 * (i + 2) + 1) (k * (i + 2)) * Real.pi / 180 = -(Real.pi / 2) + k * (Real.pi / 4) := by
  rw [regularLat_step]
  have h : ((4 * (i + 2) + 1 - 1 : ℕ) : ℝ) = 4 * ((i : ℝ) + 2) := by push_cast [Nat.add_sub_cancel]; ring
  rw [h]
  push_cast
  field_simp

/-- Hypotheses of `C195_south` and of `C195_exists`. -/
example {a : ℝ} {q : ℝ → ℝ → ℝ} (ha : 0 < a) (hq : Continuous fun p : ℝ × ℝ => q p.1 p.2) : ∃ v,
    HemGrids (fun i => 4 * (i + 2) + 1) (fun i => i + 1) (fun _ => none) (fun _ => none) 0 ∧
    (∀ i : ℕ, 1 * (i + 2) + 1 < (4 * (i + 2) + 1) / 2 ∧ 1 * (i + 2) < 4 * (i + 2) + 1 - (4 * (i + 2) + 1) / 2) ∧
    Tendsto (fun i : ℕ => regularLat (4 * (i + 2) + 1) (1 * (i + 2)) * Real.pi / 180) atTop (nhds (-(Real.pi / 4))) ∧
    -(Real.pi / 2) < -(Real.pi / 4) ∧ -(Real.pi / 4) < 0 ∧
    Tendsto (fun i : ℕ => 2 * Real.pi * ((0 : ℕ) : ℝ) / ((i + 1 : ℕ) : ℝ)) atTop (nhds 0) ∧
    Encloses a q (-(Real.pi / 2)) 0 (southCap a (-(Real.pi / 4))) v := by
  have hpi := Real.pi_pos
  have hs : Real.sin (-(Real.pi / 4)) < 0 := Real.sin_neg_of_neg_of_neg_pi_lt (by linarith) (by linarith)
  have hs' : -1 < Real.sin (-(Real.pi / 4)) := by
    rw [← Real.sin_pi_div_two, ← Real.sin_neg]
    exact Real.sin_lt_sin_of_lt_of_le_pi_div_two le_rfl (by linarith) (by linarith)
  have hw : 0 < 2 * Real.pi * a ^ 2 := by positivity
  obtain ⟨v, hv, _⟩ := C159_reference_exists (a := a) (s := -(Real.pi / 2)) (n := 0) (T := southCap a (-(Real.pi / 4))) ha hq le_rfl
    (by linarith) (by positivity) (by unfold southCap; exact mul_pos hw (by linarith)) (by
      unfold southCap
      rw [Real.sin_zero, Real.sin_neg (Real.pi / 2), Real.sin_pi_div_two]
      nlinarith)
  refine ⟨v, quarter_grids, fun i => ⟨by omega, by omega⟩, ?_, by linarith, by linarith, by simp, hv⟩
  refine tendsto_const_nhds.congr fun i => ?_
  rw [quarter_row]
  push_cast
  ring

/-- Hypotheses of `C195_north`. -/
example {a : ℝ} {q : ℝ → ℝ → ℝ} (ha : 0 < a) (hq : Continuous fun p : ℝ × ℝ => q p.1 p.2) : ∃ v,
    HemGrids (fun i => 4 * (i + 2) + 1) (fun i => i + 1) (fun _ => none) (fun _ => none) 0 ∧
    (∀ i : ℕ, 4 * (i + 2) + 1 - (4 * (i + 2) + 1) / 2 ≤ 3 * (i + 2) ∧ 3 * (i + 2) + 1 < 4 * (i + 2) + 1) ∧
    Tendsto (fun i : ℕ => regularLat (4 * (i + 2) + 1) (3 * (i + 2)) * Real.pi / 180) atTop (nhds (Real.pi / 4)) ∧
    -(0 : ℝ) < Real.pi / 4 ∧ Real.pi / 4 < Real.pi / 2 ∧
    Encloses a q (-0) (Real.pi / 2) (2 * Real.pi * a ^ 2 * (Real.sin (Real.pi / 4) + Real.sin 0)) v := by
  have hpi := Real.pi_pos
  have hs : 0 < Real.sin (Real.pi / 4) := Real.sin_pos_of_pos_of_lt_pi (by linarith) (by linarith)
  have hs' : Real.sin (Real.pi / 4) < 1 := by
    rw [← Real.sin_pi_div_two]
    exact Real.sin_lt_sin_of_lt_of_le_pi_div_two (by linarith) le_rfl (by linarith)
  have hw : 0 < 2 * Real.pi * a ^ 2 := by positivity
  obtain ⟨v, hv, _⟩ := C159_reference_exists (a := a) (s := -0) (n := Real.pi / 2)
    (T := 2 * Real.pi * a ^ 2 * (Real.sin (Real.pi / 4) + Real.sin 0)) ha hq (by rw [neg_zero]; linarith) (by rw [neg_zero]; positivity) le_rfl
    (by rw [Real.sin_zero, add_zero]; exact mul_pos hw hs) (by
      rw [neg_zero, Real.sin_zero, Real.sin_pi_div_two]
      nlinarith)
  refine ⟨v, quarter_grids, fun i => ⟨by omega, by omega⟩, ?_, by rw [neg_zero]; linarith, by linarith, hv⟩
  refine tendsto_const_nhds.congr fun i => ?_
  rw [quarter_row]
  push_cast
  ring

/-- The null-set condition of `C195_south` and `C195_north` holds for solid-body rotation at every longitude: the meridian meets a contour at one
latitude. -/
example (v l : ℝ) : volume {y | y ∈ Set.Icc (-(0 : ℝ)) (Real.pi / 2) ∧ (fun x _ : ℝ => Real.sin x) y l = v} = 0 := by
  have hpi := Real.pi_pos
  refine Set.Subsingleton.measure_zero (fun x hx y hy => ?_) _
  have hx1 := hx.1.1
  have hy1 := hy.1.1
  exact Real.injOn_sin ⟨by linarith, hx.1.2⟩ ⟨by linarith, hy.1.2⟩ (hx.2.trans hy.2.symm)

end Falwa

end
