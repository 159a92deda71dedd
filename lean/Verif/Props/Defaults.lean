import Verif.Model.Defaults
import Verif.Props.Barotropic
import Verif.Props.Wrapper

/-!
# Default arguments: `BarotropicField` against the procedural API (C108), hemispheric wrappers (C109)
-/

namespace Falwa

open Finset

/-! ## C108 -/

/-- The length element of the documentation of `barotropic_eqlat_lwa`: `dmu = planet_radius * cos(lat) * d(lat)`. -/
noncomputable def Spec.lengthElement (radius : ℝ) (ylat dlat : ℕ → ℝ) (j : ℕ) : ℝ :=
  radius * |Real.cos (ylat j * Real.pi / 180)| * dlat j

/-- The area of a cell of a longitude-latitude grid: `a² cos(lat) d(lat) d(lon)` with `d(lon) = 2 pi / nlon`. -/
noncomputable def Spec.cellArea (radius : ℝ) (nlon : ℕ) (ylat dlat : ℕ → ℝ) (j : ℕ) (_c : ℕ) : ℝ :=
  radius ^ 2 * Real.cos (ylat j * Real.pi / 180) * dlat j * (2 * Real.pi / nlon)

/-- The spacing of a grid of `nlat` latitudes from pole to pole. -/
noncomputable def Spec.poleToPole (nlat : ℕ) (_j : ℕ) : ℝ := Real.pi / ((nlat - 1 : ℕ) : ℝ)

/-- C108. Reading `equivalent_latitudes` and `lwa` of a new `BarotropicField` gives the two results of
`barotropic_eqlat_lwa` for the same field, with the areas and length elements of the sphere where the user gave none, for
every choice of the optional arguments. -/
theorem C108_object_agrees_with_function (nlat nlon : ℕ) (ylat : ℕ → ℝ) (pv : ℕ → ℕ → ℝ) (radius : ℝ) (part : Bool)
    (area : Option (ℕ → ℕ → ℝ)) (dphi : Option (ℕ → ℝ)) (np : Option ℕ) :
    (baroStep (baroInit nlat nlon ylat radius part area dphi np) (baroFresh pv) .readEqv).2 =
      .eqv ((barotropicCall nlat nlon ylat pv
        (area.getD (Spec.cellArea radius nlon ylat (dphi.getD (Spec.poleToPole nlat))))
        (Spec.lengthElement radius ylat (dphi.getD (Spec.poleToPole nlat))) np radius part).map Prod.fst) ∧
    (baroStep (baroInit nlat nlon ylat radius part area dphi np) (baroFresh pv) .readLwa).2 =
      .lwa ((barotropicCall nlat nlon ylat pv
        (area.getD (Spec.cellArea radius nlon ylat (dphi.getD (Spec.poleToPole nlat))))
        (Spec.lengthElement radius ylat (dphi.getD (Spec.poleToPole nlat))) np radius part).map Prod.snd) := by
  have hmm : ∀ {α β γ : Type} (o : Outcome α) (f : α → β) (g : β → γ),
      (o.map f).map g = o.map (fun a => g (f a)) := by
    intro α β γ o f g; cases o <;> rfl
  have hin : (baroInit nlat nlon ylat radius part area dphi np).eqvInput pv =
      { nlat, nlon, ylat, vort := pv
        area := area.getD (Spec.cellArea radius nlon ylat (dphi.getD (Spec.poleToPole nlat)))
        nPoints := np.getD nlat, radius } := by
    unfold baroInit BaroConfig.eqvInput
    simp only [EqvInput.mk.injEq, true_and, and_true]
    cases area with
    | some a => rfl
    | none =>
      funext j c
      show 2 * Real.pi * radius ^ 2 * (Real.cos (ylat j * Real.pi / 180) * _) / (nlon : ℝ) =
        radius ^ 2 * Real.cos (ylat j * Real.pi / 180) * _ * (2 * Real.pi / nlon)
      rw [show dphi.getD (fun _ => Real.pi / ((nlat - 1 : ℕ) : ℝ)) = dphi.getD (Spec.poleToPole nlat) from rfl]
      ring
  obtain ⟨h1, h2⟩ := C25_read_values (baroInit nlat nlon ylat radius part area dphi np) pv
  rw [h1, h2, hin]
  constructor
  · unfold barotropicCall
    rw [hmm]
    congr 1
    generalize EqvInput.qref _ = o
    cases o <;> rfl
  · unfold barotropicCall
    rw [hmm]
    rfl

/-- C108, in numbers: `lwa[j, c]` of a new object with default arguments is the sum over the displaced rows of
`|q - Q(j)| a cos(lat) pi/(nlat-1)`, except in the last row. -/
theorem C108_value (nlat nlon : ℕ) (ylat : ℕ → ℝ) (pv : ℕ → ℕ → ℝ) (radius : ℝ) (q : ℕ → ℝ) (l : ℕ → ℕ → ℝ)
    (hq : (baroStep (baroInit nlat nlon ylat radius false none none none) (baroFresh pv) .readEqv).2 = .eqv (.ok q))
    (hl : (baroStep (baroInit nlat nlon ylat radius false none none none) (baroFresh pv) .readLwa).2 = .lwa (.ok (.total l)))
    (j c : ℕ) (hj : j + 1 < nlat) :
    l j c = ∑ r ∈ (range nlat).filter (fun r => Spec.Displaced pv q j r c),
      |pv r c - q j| * (radius * |Real.cos (ylat r * Real.pi / 180)| * (Real.pi / ((nlat - 1 : ℕ) : ℝ))) := by
  obtain ⟨h1, h2⟩ := C108_object_agrees_with_function nlat nlon ylat pv radius false none none none
  rw [h1] at hq
  rw [h2] at hl
  injection hq with hq
  injection hl with hl
  unfold barotropicCall at hq hl
  revert hq hl
  generalize EqvInput.qref _ = o
  intro hq hl
  cases o with
  | valueError => cases hq
  | nan => cases hq
  | ok f =>
    have e1 : f = q := by injection hq
    subst e1
    have e2 : lwaTotal nlat pv f (Spec.lengthElement radius ylat (Spec.poleToPole nlat)) = l := by
      injection hl with hl
      injection hl
    rw [← e2, lwaTotal_eq_spec hj]
    rfl

example (pv : ℕ → ℕ → ℝ) : ∃ q l,
    (baroStep (baroInit 5 8 (regularLat 5) 1 false none none none) (baroFresh pv) .readEqv).2 = .eqv (.ok q) ∧
    (baroStep (baroInit 5 8 (regularLat 5) 1 false none none none) (baroFresh pv) .readLwa).2 = .lwa (.ok (.total l)) ∧
    1 + 1 < 5 := by
  obtain ⟨_, _, f, hf⟩ := C12_default_areas_fit 5 8 1 (by norm_num) (by norm_num) one_pos false none (by simp) pv
  obtain ⟨h1, h2⟩ := C25_read_values (baroInit 5 8 (regularLat 5) 1 false none none none) pv
  rw [h1, h2, hf]
  exact ⟨f, _, rfl, rfl, by norm_num⟩

/-! ## C109 -/

/-- The hypotheses of C109 on the arguments: a non-empty grid with at least two latitudes, cell areas that fit the sphere. -/
structure HemSensible (H : HemInput) : Prop where
  nlatS_pos : 0 < H.nlatS
  nlatS_le : H.nlatS ≤ H.nlat
  nlon_pos : 0 < H.nlon
  nPoints_pos : 0 < H.nPoints
  radius_ne : H.radius ≠ 0
  area_nonneg : ∀ r < H.nlatS, ∀ c < H.nlon, 0 ≤ H.area r c
  area_fits : ∑ p ∈ cells H.nlatS H.nlon, H.area p.1 p.2 ≤ 4 * Real.pi * H.radius ^ 2

theorem HemSensible.south {H : HemInput} (hH : HemSensible H) (f : ℕ → ℕ → ℝ) : (H.southInput f).Sensible where
  nlat_pos := hH.nlatS_pos
  nlon_pos := hH.nlon_pos
  nPoints_pos := hH.nPoints_pos
  radius_ne := hH.radius_ne
  area_nonneg := fun p hp => by
    rw [mem_cells] at hp
    exact hH.area_nonneg _ hp.1 _ hp.2
  area_fits := hH.area_fits

/-- C109, full statement: with the default `nlat_s` the profile of `qgpv_eqlat_lwa` lies at every latitude between the
smallest and the largest value of the field. -/
def C109_Statement : Prop :=
  ∀ (nlat nlon : ℕ) (ylat : ℕ → ℝ) (vort area : ℕ → ℕ → ℝ) (dmu : ℕ → ℝ) (np : Option ℕ) (radius lo hi : ℝ),
    HemSensible (hemArgs nlat nlon ylat vort area dmu none np radius) →
    (∀ r < nlat, ∀ c < nlon, lo ≤ vort r c ∧ vort r c ≤ hi) →
    ∀ q l, (hemArgs nlat nlon ylat vort area dmu none np radius).qgpvEqlatLwa = .ok (q, l) →
      ∀ j < nlat, lo ≤ q j ∧ q j ≤ hi

theorem qref_bounds {I : EqvInput} (hI : I.Sensible) {f : ℕ → ℝ} (hf : I.qref = .ok f) {lo hi : ℝ}
    (h : ∀ r < I.nlat, ∀ c < I.nlon, lo ≤ I.vort r c ∧ I.vort r c ≤ hi) (j : ℕ) : lo ≤ f j ∧ f j ≤ hi := by
  -- the bounds do not depend on the order of the latitudes
  have key := EqvInput.interpToYlat_ok hI.nlat_pos hI.nlon_pos hI.nPoints_pos hI.radius_ne hI.area_nonneg hI.area_fits I.bins
  have e : I.qref = _ := key
  rw [hf] at e
  injection e with e
  rw [e]
  constructor
  · refine le_trans ?_ (npInterp_bounds hI.nPoints_pos (fun a b hab _ => I.bins_mono hab) _).1
    rw [I.bins_zero]
    obtain ⟨p, hp, e⟩ := exists_amin (vort := I.vort) (cells_nonempty hI.nlat_pos hI.nlon_pos)
    rw [e]; rw [mem_cells] at hp; exact (h _ hp.1 _ hp.2).1
  · refine le_trans (npInterp_bounds hI.nPoints_pos (fun a b hab _ => I.bins_mono hab) _).2 ?_
    refine le_trans (linspace_le_hi amin_le_amax (by have := hI.nPoints_pos; omega)) ?_
    obtain ⟨p, hp, e⟩ := exists_amax (vort := I.vort) (cells_nonempty hI.nlat_pos hI.nlon_pos)
    rw [e]; rw [mem_cells] at hp; exact (h _ hp.1 _ hp.2).2

/-- C109, which rows are analysed, for any `nlat_s`: a row of the southern `nlat_s` rows or of the northern `nlat_s` rows lies
between the bounds of the field in its own hemisphere; the rows between them are zero in the profile and in the wave
activity, whatever the field. -/
theorem C109_rows (H : HemInput) (hH : HemSensible H) (h2 : 2 * H.nlatS ≤ H.nlat) :
    ∃ q l, H.qgpvEqlatLwa = .ok (q, l) ∧
      (∀ lo hi, (∀ r < H.nlatS, ∀ c < H.nlon, lo ≤ H.vort r c ∧ H.vort r c ≤ hi) →
        ∀ j < H.nlatS, lo ≤ q j ∧ q j ≤ hi) ∧
      (∀ lo hi, (∀ r, H.nlat - H.nlatS ≤ r → r < H.nlat → ∀ c < H.nlon, lo ≤ H.vort r c ∧ H.vort r c ≤ hi) →
        ∀ j, H.nlat - H.nlatS ≤ j → j < H.nlat → lo ≤ q j ∧ q j ≤ hi) ∧
      (∀ j, H.nlatS ≤ j → j < H.nlat - H.nlatS → q j = 0 ∧ ∀ c, l j c = 0) := by
  have hn := hH.nlatS_pos
  obtain ⟨f, hf⟩ := (hH.south H.vort).ok
  obtain ⟨g, hg⟩ := (hH.south H.flippedNeg).ok
  have hall : H.qgpvEqlatLwa = .ok (H.assemble f (fun r => - g (H.nlatS - 1 - r)),
      H.lwaBoth f (H.assemble f (fun r => - g (H.nlatS - 1 - r)))) := by
    unfold HemInput.qgpvEqlatLwa HemInput.qref
    rw [hf, hg]; rfl
  refine ⟨_, _, hall, ?_, ?_, ?_⟩
  · intro lo hi h j hj
    have e : H.assemble f (fun r => - g (H.nlatS - 1 - r)) j = f j := by
      unfold HemInput.assemble
      rw [if_neg (by omega), if_pos hj]
    rw [e]
    exact qref_bounds (hH.south H.vort) hf h j
  · intro lo hi h j hj1 hj2
    have e : H.assemble f (fun r => - g (H.nlatS - 1 - r)) j = - g (H.nlatS - 1 - (j - (H.nlat - H.nlatS))) := by
      unfold HemInput.assemble
      rw [if_pos ⟨hj1, hn⟩]
    rw [e]
    have := qref_bounds (hH.south H.flippedNeg) hg (lo := -hi) (hi := -lo) (fun r hr c hc => by
      have hr' : r < H.nlatS := hr
      have := h (H.nlat - 1 - r) (by omega) (by omega) c hc
      show -hi ≤ - H.vort (H.nlat - 1 - r) c ∧ - H.vort (H.nlat - 1 - r) c ≤ -lo
      constructor <;> linarith [this.1, this.2]) (H.nlatS - 1 - (j - (H.nlat - H.nlatS)))
    constructor <;> linarith [this.1, this.2]
  · intro j hj1 hj2
    have e : ∀ {α : Type} [Zero α] (s n : ℕ → α), H.assemble s n j = 0 := by
      intro α _ s n
      unfold HemInput.assemble
      rw [if_neg (by omega), if_neg (by omega)]
    refine ⟨e _ _, fun c => ?_⟩
    show (H.assemble (α := ℕ → ℝ) _ _ j) c = 0
    rw [e]; rfl

/-- C109 for `theta_lwa`: the rows of each domain lie between the bounds of the temperature of that domain, rows between the
domains are zero. -/
theorem C109_theta_rows (H : HemInput) (hH : HemSensible H) (h2 : 2 * H.nlatS ≤ H.nlat) :
    ∃ q l, H.thetaLwa = .ok (q, l) ∧
      (∀ lo hi, (∀ r < H.nlatS, ∀ c < H.nlon, lo ≤ H.vort r c ∧ H.vort r c ≤ hi) →
        ∀ j < H.nlatS, lo ≤ q j ∧ q j ≤ hi) ∧
      (∀ lo hi, (∀ r, H.nlat - H.nlatS ≤ r → r < H.nlat → ∀ c < H.nlon, lo ≤ H.vort r c ∧ H.vort r c ≤ hi) →
        ∀ j, H.nlat - H.nlatS ≤ j → j < H.nlat → lo ≤ q j ∧ q j ≤ hi) ∧
      (∀ j, H.nlatS ≤ j → j < H.nlat - H.nlatS → q j = 0 ∧ ∀ c, l j c = 0) := by
  have hn := hH.nlatS_pos
  obtain ⟨f, hf⟩ := (hH.south H.vort).ok
  obtain ⟨g, hg⟩ := (hH.south H.flipped).ok
  have hall : H.thetaLwa = .ok (H.assemble f (fun r => g (H.nlatS - 1 - r)),
      H.lwaBoth f (H.assemble f (fun r => g (H.nlatS - 1 - r)))) := by
    unfold HemInput.thetaLwa HemInput.thetaQref
    rw [hf, hg]; rfl
  refine ⟨_, _, hall, ?_, ?_, ?_⟩
  · intro lo hi h j hj
    have e : H.assemble f (fun r => g (H.nlatS - 1 - r)) j = f j := by
      unfold HemInput.assemble
      rw [if_neg (by omega), if_pos hj]
    rw [e]
    exact qref_bounds (hH.south H.vort) hf h j
  · intro lo hi h j hj1 hj2
    have e : H.assemble f (fun r => g (H.nlatS - 1 - r)) j = g (H.nlatS - 1 - (j - (H.nlat - H.nlatS))) := by
      unfold HemInput.assemble
      rw [if_pos ⟨hj1, hn⟩]
    rw [e]
    refine qref_bounds (hH.south H.flipped) hg (fun r hr c hc => ?_) _
    have hr' : r < H.nlatS := hr
    exact h (H.nlat - 1 - r) (by omega) (by omega) c hc
  · intro j hj1 hj2
    have e : ∀ {α : Type} [Zero α] (s n : ℕ → α), H.assemble s n j = 0 := by
      intro α _ s n
      unfold HemInput.assemble
      rw [if_neg (by omega), if_neg (by omega)]
    refine ⟨e _ _, fun c => ?_⟩
    show (H.assemble (α := ℕ → ℝ) _ _ j) c = 0
    rw [e]; rfl

/-- Five latitudes 60S to 60N, one longitude, unit areas and unit sphere, no optional arguments. -/
noncomputable def oddSample : HemInput :=
  hemArgs 5 1 (fun j => 30 * j - 60) (fun _ _ => 1) (fun _ _ => 1) (fun _ => 1) none none 1

theorem oddSample_sensible : HemSensible oddSample where
  nlatS_pos := by norm_num [oddSample, hemArgs, hemDefaults]
  nlatS_le := by norm_num [oddSample, hemArgs, hemDefaults]
  nlon_pos := by norm_num [oddSample, hemArgs]
  nPoints_pos := by norm_num [oddSample, hemArgs, hemDefaults]
  radius_ne := by norm_num [oddSample, hemArgs]
  area_nonneg := fun _ _ _ _ => by norm_num [oddSample, hemArgs]
  area_fits := by
    have := Real.pi_gt_three
    simp only [oddSample, hemArgs, hemDefaults, cells, sum_const, card_product, card_range]
    norm_num
    linarith

example : HemSensible oddSample ∧ 2 * oddSample.nlatS ≤ oddSample.nlat :=
  ⟨oddSample_sensible, by norm_num [oddSample, hemArgs, hemDefaults]⟩

/-- C109 fails on grids with an odd number of latitudes, that is with a row on the equator: for a field that is 1 everywhere
the profile at the equator is 0. -/
theorem C109_refuted : ¬ C109_Statement := by
  intro h
  have hS : oddSample.nlatS = 2 := rfl
  have hn : oddSample.nlat = 5 := rfl
  obtain ⟨q, l, hq, _, _, h0⟩ := C109_rows oddSample oddSample_sensible (by rw [hS, hn]; norm_num)
  have := (h 5 1 _ _ _ _ none 1 1 1 oddSample_sensible (fun _ _ _ _ => ⟨le_rfl, le_rfl⟩) q l hq 2 (by norm_num)).1
  have h2 := (h0 2 (by rw [hS]) (by rw [hS, hn]; norm_num)).1
  rw [h2] at this
  norm_num at this

/-- C109, partial: with the default `nlat_s` every row other than a row on the equator lies between the bounds of the field,
so all rows do if the number of latitudes is even. A row on the equator, which exists if the number is odd, is zero in
profile and wave activity for every field. Missing: the equator row. -/
theorem C109_bounds_partial (nlat nlon : ℕ) (ylat : ℕ → ℝ) (vort area : ℕ → ℕ → ℝ) (dmu : ℕ → ℝ) (np : Option ℕ)
    (radius lo hi : ℝ) (hH : HemSensible (hemArgs nlat nlon ylat vort area dmu none np radius))
    (hv : ∀ r < nlat, ∀ c < nlon, lo ≤ vort r c ∧ vort r c ≤ hi) :
    ∃ q l, (hemArgs nlat nlon ylat vort area dmu none np radius).qgpvEqlatLwa = .ok (q, l) ∧
      (∀ j < nlat, 2 * j + 1 ≠ nlat → lo ≤ q j ∧ q j ≤ hi) ∧
      (∀ j, 2 * j + 1 = nlat → q j = 0 ∧ ∀ c, l j c = 0) := by
  have hS : (hemArgs nlat nlon ylat vort area dmu none np radius).nlatS = nlat / 2 := rfl
  have hn : (hemArgs nlat nlon ylat vort area dmu none np radius).nlat = nlat := rfl
  obtain ⟨q, l, h, a, b, c⟩ := C109_rows _ hH (by rw [hS, hn]; omega)
  rw [hS, hn] at b c
  rw [hS] at a
  refine ⟨q, l, h, fun j hj hne => ?_, fun j hj => c j (by omega) (by omega)⟩
  by_cases hlt : j < nlat / 2
  · exact a lo hi (fun r hr => hv r (by omega)) j hlt
  · exact b lo hi (fun r _ hr => hv r hr) j (by omega) hj

/-- C109 for a given `nlat_s` that covers the equator row, `nlat ≤ 2 nlat_s`: then every row is analysed. -/
theorem C109_covering (H : HemInput) (hH : HemSensible H) (h2 : H.nlat ≤ 2 * H.nlatS) (lo hi : ℝ)
    (hv : ∀ r < H.nlat, ∀ c < H.nlon, lo ≤ H.vort r c ∧ H.vort r c ≤ hi) :
    ∃ q l, H.qgpvEqlatLwa = .ok (q, l) ∧ ∀ j < H.nlat, lo ≤ q j ∧ q j ≤ hi := by
  have hn := hH.nlatS_pos
  have hle := hH.nlatS_le
  obtain ⟨f, hf⟩ := (hH.south H.vort).ok
  obtain ⟨g, hg⟩ := (hH.south H.flippedNeg).ok
  have hall : H.qgpvEqlatLwa = .ok (H.assemble f (fun r => - g (H.nlatS - 1 - r)),
      H.lwaBoth f (H.assemble f (fun r => - g (H.nlatS - 1 - r)))) := by
    unfold HemInput.qgpvEqlatLwa HemInput.qref
    rw [hf, hg]; rfl
  refine ⟨_, _, hall, fun j hj => ?_⟩
  unfold HemInput.assemble
  by_cases hN : H.nlat - H.nlatS ≤ j
  · rw [if_pos ⟨hN, hn⟩]
    have := qref_bounds (hH.south H.flippedNeg) hg (lo := -hi) (hi := -lo) (fun r hr c hc => by
      have hr' : r < H.nlatS := hr
      have := hv (H.nlat - 1 - r) (by omega) c hc
      show -hi ≤ - H.vort (H.nlat - 1 - r) c ∧ - H.vort (H.nlat - 1 - r) c ≤ -lo
      constructor <;> linarith [this.1, this.2]) (H.nlatS - 1 - (j - (H.nlat - H.nlatS)))
    constructor <;> linarith [this.1, this.2]
  · rw [if_neg (by omega), if_pos (by omega)]
    exact qref_bounds (hH.south H.vort) hf (fun r hr => hv r (lt_of_lt_of_le hr hle)) j

example : HemSensible { oddSample with nlatS := 3 } ∧ oddSample.nlat ≤ 2 * 3 where
  left :=
    { nlatS_pos := by norm_num
      nlatS_le := by norm_num [oddSample, hemArgs, hemDefaults]
      nlon_pos := by norm_num [oddSample, hemArgs]
      nPoints_pos := by norm_num [oddSample, hemArgs, hemDefaults]
      radius_ne := by norm_num [oddSample, hemArgs]
      area_nonneg := fun _ _ _ _ => by norm_num [oddSample, hemArgs]
      area_fits := by
        have := Real.pi_gt_three
        simp only [oddSample, hemArgs, hemDefaults, cells, sum_const, card_product, card_range]
        norm_num
        linarith }
  right := by norm_num [oddSample, hemArgs]

/-- C14 with the default `nlat_s`: the hemispheres do not overlap, so the profile of the mirror image is the mirror image of
the profile on every grid, and the wave activity is mirrored as in `C14_mirror_partial`. -/
theorem C14_default_domain_partial (nlat nlon : ℕ) (ylat : ℕ → ℝ) (vort area : ℕ → ℕ → ℝ) (dmu : ℕ → ℝ) (np : Option ℕ)
    (radius : ℝ) (hdmu : ∀ r < nlat, dmu (nlat - 1 - r) = dmu r) (q : ℕ → ℝ) (l : ℕ → ℕ → ℝ)
    (h : (hemArgs nlat nlon ylat vort area dmu none np radius).qgpvEqlatLwa = .ok (q, l)) :
    ∃ q' l', (hemArgs nlat nlon ylat (fun r c => - vort (nlat - 1 - r) c) area dmu none np radius).qgpvEqlatLwa =
        .ok (q', l') ∧
      (∀ j < nlat, q' j = - q (nlat - 1 - j)) ∧
      (∀ j c, 1 ≤ j → j + 1 < nlat / 2 → l' (nlat - 1 - j) c = l j c + (q j - vort j c) * dmu j) :=
  C14_mirror_partial (hemArgs nlat nlon ylat vort area dmu none np radius)
    (by show 2 * (nlat / 2) ≤ nlat; omega) hdmu q l h

example : ∃ q l, oddSample.qgpvEqlatLwa = .ok (q, l) := by
  obtain ⟨q, l, h, _⟩ := C109_rows oddSample oddSample_sensible (by norm_num [oddSample, hemArgs, hemDefaults])
  exact ⟨q, l, h⟩

end Falwa
