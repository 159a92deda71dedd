import Verif.Lemmas.Wrapper

/-!
# Properties of the wrapper functions (C14-C17, C71)
-/

namespace Falwa

open Finset

/-! ### A concrete hemispheric input used as witness -/

/-- Four latitudes 30S, 10S, 10N, 30N, one longitude, `nlat_s = 2`, unit areas and unit sphere. -/
noncomputable def hemSample (field : ℕ → ℝ) : HemInput where
  nlat := 4
  nlon := 1
  ylat := fun j => 20 * j - 30
  vort := fun r _ => field r
  area := fun _ _ => 1
  dmu := fun _ => 1
  nlatS := 2
  nPoints := 2
  radius := 1

theorem hemSample_sensible (field : ℕ → ℝ) (v : ℕ → ℕ → ℝ) :
    ((hemSample field).southInput v).Sensible where
  nlat_pos := by norm_num [hemSample, HemInput.southInput]
  nlon_pos := by norm_num [hemSample, HemInput.southInput]
  nPoints_pos := by norm_num [hemSample, HemInput.southInput]
  radius_ne := by norm_num [hemSample, HemInput.southInput]
  area_nonneg := fun _ _ => by norm_num [hemSample, HemInput.southInput]
  area_fits := by
    have := Real.pi_gt_three
    simp only [hemSample, HemInput.southInput, cells, sum_const, card_product, card_range]
    norm_num
    linarith

theorem EqvInput.Sensible.ok {I : EqvInput} (hI : I.Sensible) : ∃ f, I.qref = .ok f :=
  ⟨_, EqvInput.interpToYlat_ok hI.nlat_pos hI.nlon_pos hI.nPoints_pos hI.radius_ne
    hI.area_nonneg hI.area_fits _⟩

theorem amax_eq_of {nlat nlon : ℕ} {v : ℕ → ℕ → ℝ} {m : ℝ} {r c : ℕ} (hr : r < nlat) (hc : c < nlon)
    (hm : v r c = m) (h : ∀ r < nlat, ∀ c < nlon, v r c ≤ m) : amax nlat nlon v = m := by
  apply le_antisymm
  · obtain ⟨p, hp, e⟩ := exists_amax (vort := v) (cells_nonempty (show 0 < nlat by omega) (show 0 < nlon by omega))
    rw [mem_cells] at hp
    rw [e]; exact h _ hp.1 _ hp.2
  · rw [← hm]; exact le_amax (p := (r, c)) (mem_cells.2 ⟨hr, hc⟩)

/-- The profile of the sample is the maximum of the hemispheric rows. -/
theorem hemSample_qref (field : ℕ → ℝ) (v : ℕ → ℕ → ℝ) {f : ℕ → ℝ}
    (hf : ((hemSample field).southInput v).qref = .ok f) (j : ℕ) : f j = amax 2 1 v := by
  refine EqvInput.qref_eq_max_of_small _ (hemSample_sensible field v) (by norm_num [hemSample, HemInput.southInput])
    hf ?_ ?_
  · simp only [hemSample, HemInput.southInput]
    have : (0 : ℝ) ≤ j := Nat.cast_nonneg _
    linarith
  · have := Real.pi_gt_three
    simp only [hemSample, HemInput.southInput, cells, sum_const, card_product, card_range]
    norm_num
    linarith

/-! ## C14 -/

/-- The mirror image of the field about the equator, with a sign change. -/
def HemInput.mirror (H : HemInput) : HemInput := { H with vort := fun r c => - H.vort (H.nlat - 1 - r) c }

/-- C14, full statement: mirroring the field mirrors profile (with sign change) and wave activity. -/
def C14_Statement : Prop :=
  ∀ H : HemInput, 2 * H.nlatS ≤ H.nlat → (∀ r < H.nlat, H.dmu (H.nlat - 1 - r) = H.dmu r) →
    (∀ r < H.nlat, ∀ c, H.area (H.nlat - 1 - r) c = H.area r c) →
    ∀ q l, H.qgpvEqlatLwa = .ok (q, l) →
      ∃ q' l', H.mirror.qgpvEqlatLwa = .ok (q', l') ∧
        (∀ j < H.nlat, q' j = - q (H.nlat - 1 - j)) ∧
        (∀ j < H.nlat, ∀ c < H.nlon, l' j c = l (H.nlat - 1 - j) c)

theorem HemInput.mirror_inputs (H : HemInput) (hS : H.nlatS ≤ H.nlat) :
    (H.mirror.southInput H.mirror.vort).qref = (H.southInput H.flippedNeg).qref ∧
    (H.mirror.southInput H.mirror.flippedNeg).qref = (H.southInput H.vort).qref := by
  refine ⟨rfl, ?_⟩
  refine EqvInput.qref_congr (H.southInput H.vort) H.mirror.flippedNeg fun r hr c _ => ?_
  have hr' : r < H.nlatS := hr
  show - - H.vort (H.nlat - 1 - (H.nlat - 1 - r)) c = H.vort r c
  rw [neg_neg, show H.nlat - 1 - (H.nlat - 1 - r) = r by omega]

/-- `basis.lwa` only looks at the rows of its grid. -/
theorem lwaTotal_congr {n : ℕ} {f g : ℕ → ℕ → ℝ} {P Q d e : ℕ → ℝ} {j c : ℕ} (hj : j < n)
    (hf : ∀ r < n, f r c = g r c) (hQ : ∀ r < n, P r = Q r) (hd : ∀ r < n, d r = e r) :
    lwaTotal n f P d j c = lwaTotal n g Q e j c := by
  unfold lwaTotal lwaAnticyclonic lwaCyclonic anticyclonicMask cyclonicMask vortE
  rw [hQ j hj]
  split_ifs
  · congr 1 <;> exact sum_congr rfl fun r hr => by rw [hf r (mem_range.1 hr), hd r (mem_range.1 hr)]
  · rfl

theorem lwaTotal_congr_c {n : ℕ} {f g : ℕ → ℕ → ℝ} {P Q d e : ℕ → ℝ} {j c c' : ℕ} (hj : j < n)
    (hf : ∀ r < n, f r c = g r c') (hQ : ∀ r < n, P r = Q r) (hd : ∀ r < n, d r = e r) :
    lwaTotal n f P d j c = lwaTotal n g Q e j c' := by
  unfold lwaTotal lwaAnticyclonic lwaCyclonic anticyclonicMask cyclonicMask vortE
  rw [hQ j hj]
  split_ifs
  · congr 1 <;> exact sum_congr rfl fun r hr => by rw [hf r (mem_range.1 hr), hd r (mem_range.1 hr)]
  · rfl

/-- C14, partial: the profile is mirrored exactly. The wave activity is mirrored up to the contribution of the
row itself, `(Q - q) dmu`, on the southern rows that are not at the edge of the hemispheric domain.
Missing: exact mirror symmetry, which fails (see `C14_refuted`). -/
theorem C14_mirror_partial (H : HemInput) (hS : 2 * H.nlatS ≤ H.nlat)
    (hdmu : ∀ r < H.nlat, H.dmu (H.nlat - 1 - r) = H.dmu r)
    (q : ℕ → ℝ) (l : ℕ → ℕ → ℝ) (h : H.qgpvEqlatLwa = .ok (q, l)) :
    ∃ q' l', H.mirror.qgpvEqlatLwa = .ok (q', l') ∧
      (∀ j < H.nlat, q' j = - q (H.nlat - 1 - j)) ∧
      (∀ j c, 1 ≤ j → j + 1 < H.nlatS →
        l' (H.nlat - 1 - j) c = l j c + (q j - H.vort j c) * H.dmu j) := by
  obtain ⟨q1, qq, h1, h2, h3⟩ := Outcome.map2_ok h
  obtain ⟨q1', q2, h1', h4, h5⟩ := Outcome.map2_ok h2
  rw [h1] at h1'
  injection h1' with h1'
  subst h1'
  simp only [Prod.mk.injEq] at h3
  obtain ⟨h3, h3l⟩ := h3
  subst h3
  obtain ⟨m1, m2⟩ := H.mirror_inputs (by omega)
  have hq' : H.mirror.qref = .ok (H.assemble q2 (fun r => - q1 (H.nlatS - 1 - r))) := by
    unfold HemInput.qref
    rw [m1, m2, h1, h4]; rfl
  have hall : H.mirror.qgpvEqlatLwa =
      .ok (H.assemble q2 (fun r => - q1 (H.nlatS - 1 - r)),
        H.mirror.lwaBoth q2 (H.assemble q2 (fun r => - q1 (H.nlatS - 1 - r)))) := by
    unfold HemInput.qgpvEqlatLwa
    rw [hq', m1, h4]; rfl
  refine ⟨_, _, hall, ?_, ?_⟩
  · intro j hj
    rw [← h5]
    unfold HemInput.assemble
    split_ifs with a b c d e f
    all_goals beta_reduce
    all_goals first
      | omega
      | (congr 2; omega)
      | (rw [neg_neg]; congr 1; omega)
      | simp
  · intro j c hj1 hj2
    have hn : H.nlatS ≤ H.nlat := by omega
    have hl : l j c = lwaTotal H.nlatS H.vort q1 H.dmu j c := by
      rw [← h3l]
      unfold HemInput.lwaBoth HemInput.assemble
      rw [if_neg (by omega), if_pos (by omega)]
    have hqj : qq j = q1 j := by
      rw [← h5]; unfold HemInput.assemble
      rw [if_neg (by omega), if_pos (by omega)]
    have hl' : H.mirror.lwaBoth q2 (H.assemble q2 (fun r => - q1 (H.nlatS - 1 - r))) (H.nlat - 1 - j) c =
        lwaTotal H.nlatS (fun r c => - H.vort (H.nlatS - 1 - r) c) (fun r => - q1 (H.nlatS - 1 - r))
          (fun r => H.dmu (H.nlatS - 1 - r)) (H.nlatS - 1 - j) c := by
      have e0 : H.nlat - 1 - j - (H.nlat - H.nlatS) = H.nlatS - 1 - j := by omega
      show (H.assemble (α := ℕ → ℝ) _ _ (H.nlat - 1 - j)) c = _
      unfold HemInput.assemble
      rw [if_pos (by omega), e0]
      have em : H.mirror.nlatS = H.nlatS := rfl
      refine lwaTotal_congr (by omega) (fun r hr => ?_) (fun r hr => ?_) (fun r hr => ?_) <;> rw [em] at hr
      · show - H.vort (H.nlat - 1 - (H.nlat - H.nlatS + r)) c = _
        rw [show H.nlat - 1 - (H.nlat - H.nlatS + r) = H.nlatS - 1 - r by omega]
      · show H.assemble q2 (fun r => - q1 (H.nlatS - 1 - r)) (H.nlat - H.nlatS + r) = _
        unfold HemInput.assemble
        rw [if_pos (by omega), show H.nlat - H.nlatS + r - (H.nlat - H.nlatS) = r by omega]
      · show H.dmu (H.nlat - H.nlatS + r) = _
        rw [← hdmu (H.nlatS - 1 - r) (by omega)]
        congr 1; omega
    rw [hl', lwaTotal_mirror _ _ _ _ _ _ hj1 hj2, hl, hqj]

/-- The hypotheses are met by the sample with values 1, 0, 0, 0. -/
example : 2 * (hemSample (fun r => if r = 0 then 1 else 0)).nlatS ≤ (hemSample (fun r => if r = 0 then 1 else 0)).nlat ∧
    (∃ q l, (hemSample (fun r => if r = 0 then 1 else 0)).qgpvEqlatLwa = .ok (q, l)) := by
  refine ⟨by norm_num [hemSample], ?_⟩
  obtain ⟨f, hf⟩ := (hemSample_sensible (fun r => if r = 0 then 1 else 0) (hemSample (fun r => if r = 0 then 1 else 0)).vort).ok
  obtain ⟨g, hg⟩ := (hemSample_sensible (fun r => if r = 0 then 1 else 0) (hemSample (fun r => if r = 0 then 1 else 0)).flippedNeg).ok
  unfold HemInput.qgpvEqlatLwa HemInput.qref
  rw [hf, hg]; exact ⟨_, _, rfl⟩

/-- C14 fails for the wave activity: with values 1, 0, 0, 0 from south to north the southernmost row has
wave activity 1, but for the mirrored field the northernmost row, which is never computed, has 0. -/
theorem C14_refuted : ¬ C14_Statement := by
  intro hst
  set fld : ℕ → ℝ := fun r => if r = 0 then 1 else 0 with hfld
  set H := hemSample fld with hH
  obtain ⟨f, hf⟩ := (hemSample_sensible fld H.vort).ok
  obtain ⟨g, hg⟩ := (hemSample_sensible fld H.flippedNeg).ok
  have hq : H.qref = .ok (H.assemble f (fun r => - g (H.nlatS - 1 - r))) := by
    unfold HemInput.qref; rw [hH, hf, hg]; rfl
  have hall : H.qgpvEqlatLwa = .ok (H.assemble f (fun r => - g (H.nlatS - 1 - r)),
      H.lwaBoth f (H.assemble f (fun r => - g (H.nlatS - 1 - r)))) := by
    unfold HemInput.qgpvEqlatLwa; rw [hq, hH, hf]; rfl
  obtain ⟨q', l', h1, _, h3⟩ := hst H (by norm_num [hH, hemSample]) (fun _ _ => rfl) (fun _ _ _ => rfl) _ _ hall
  have h30 := h3 3 (by norm_num [hH, hemSample]) 0 (by norm_num [hH, hemSample])
  -- the northernmost row of the mirrored field is not computed
  have hl' : l' 3 0 = 0 := by
    obtain ⟨q1, q2, _, _, e⟩ := Outcome.map2_ok h1
    simp only [Prod.mk.injEq] at e
    rw [← e.2]
    show (H.assemble (α := ℕ → ℝ) _ _ 3) 0 = 0
    unfold HemInput.assemble
    rw [if_pos (by norm_num [hH, hemSample])]
    exact lwaTotal_eq_of_ge (by norm_num [hH, hemSample, HemInput.mirror])
  -- the southernmost row of the original field has wave activity 1
  have hmax : amax 2 1 H.vort = 1 := by
    refine amax_eq_of (r := 0) (c := 0) (by norm_num) (by norm_num) (by simp [hH, hemSample, hfld]) ?_
    intro r _ c _
    show fld r ≤ 1
    rw [hfld]; beta_reduce; split_ifs <;> norm_num
  have hf0 := hemSample_qref fld H.vort hf
  have hl : H.lwaBoth f (H.assemble f (fun r => - g (H.nlatS - 1 - r))) 0 0 = 1 := by
    show (H.assemble (α := ℕ → ℝ) _ _ 0) 0 = 1
    unfold HemInput.assemble
    rw [if_neg (by norm_num [hH, hemSample]), if_pos (by norm_num [hH, hemSample])]
    have e2 : H.nlatS = 2 := rfl
    rw [e2]
    unfold lwaTotal lwaAnticyclonic lwaCyclonic anticyclonicMask cyclonicMask vortE
    simp only [hf0, hmax]
    simp [sum_range_succ, hH, hemSample, hfld]
  have e3 : H.nlat - 1 - 3 = 0 := rfl
  rw [hl', e3, hl] at h30
  exact zero_ne_one h30

/-! ## C15 -/

/-- C15, full statement: all wrappers return the same profile. -/
def C15_Statement : Prop := ∀ H : HemInput, H.nlatS ≤ H.nlat → H.eqvlatHemispheric = H.qref

/-- C15, partial: the three wave-activity wrappers agree on profile and wave activity for every input, and
the forcing terms of the two wrappers that return one agree.
Missing: `eqvlat_hemispheric`, see the next theorem and `C15_refuted`. -/
theorem C15_wrappers_agree_partial (H : HemInput) (nc : ℕ → ℕ → ℝ) :
    (H.qgpvEqlatLwaNcforce nc).map (fun r => (r.1, r.2.1)) = H.qgpvEqlatLwa ∧
    (∀ o : Option (ℕ → ℕ → ℝ), ∃ r, qgpvEqlatLwaOptions H none o = .ok r ∧
      r.map (fun d => (d.qref, d.lwa)) = H.qgpvEqlatLwa) ∧
    (∃ r, qgpvEqlatLwaOptions H none (some nc) = .ok r ∧
      r.map (fun d => (d.qref, d.lwa, d.capsigma)) =
        (H.qgpvEqlatLwaNcforce nc).map (fun r => (r.1, r.2.1, some r.2.2))) := by
  have hkw : ∀ I : EqvInput, eqvlatFawaCall I [] = .ok (I.qref, I.fawa) := fun I => by
    unfold eqvlatFawaCall callWithKeywords; rw [if_pos (by decide)]
  refine ⟨?_, ?_, ?_⟩
  · unfold HemInput.qgpvEqlatLwaNcforce HemInput.qgpvEqlatLwa
    cases (H.southInput H.vort).qref <;> cases H.qref <;> rfl
  · intro o
    refine ⟨Outcome.map2 (optionsResult H o) (H.southInput H.vort).qref H.qref, ?_, ?_⟩
    · unfold qgpvEqlatLwaOptions
      simp only [Option.isSome_none, Bool.false_eq_true, if_false, hkw]
      rfl
    · unfold HemInput.qgpvEqlatLwa
      cases (H.southInput H.vort).qref <;> cases H.qref <;> rfl
  · refine ⟨Outcome.map2 (optionsResult H (some nc)) (H.southInput H.vort).qref H.qref, ?_, ?_⟩
    · unfold qgpvEqlatLwaOptions
      simp only [Option.isSome_none, Bool.false_eq_true, if_false, hkw]
      rfl
    · unfold HemInput.qgpvEqlatLwaNcforce
      cases (H.southInput H.vort).qref <;> cases H.qref <;> rfl

/-- C15, what `eqvlat_hemispheric` returns instead: the same values on the southern rows and the values with the
opposite sign on all `nlat_s` northern rows. -/
theorem C15_hemispheric_sign_partial (H : HemInput) (hpos : 0 < H.nlatS) (q : ℕ → ℝ) (h : H.qref = .ok q) :
    ∃ q', H.eqvlatHemispheric = .ok q' ∧
      (∀ j < H.nlat - H.nlatS, q' j = q j) ∧ (∀ j, H.nlat - H.nlatS ≤ j → q' j = - q j) := by
  obtain ⟨q1, q2, h1, h2, h3⟩ := Outcome.map2_ok h
  refine ⟨H.assemble q1 (fun r => q2 (H.nlatS - 1 - r)), ?_, fun j hj => ?_, fun j hj => ?_⟩
  · unfold HemInput.eqvlatHemispheric; rw [h1, h2]; rfl
  · have hc : ¬ (H.nlat - H.nlatS ≤ j ∧ 0 < H.nlatS) := by omega
    rw [← h3]; unfold HemInput.assemble; simp only [hc, if_false]
  · rw [← h3]; unfold HemInput.assemble; rw [if_pos ⟨hj, hpos⟩, if_pos ⟨hj, hpos⟩, neg_neg]

/-- C15 fails for `eqvlat_hemispheric`: for the field that is -1 everywhere the northern profile should be -1
but is returned as +1. -/
theorem C15_refuted : ¬ C15_Statement := by
  intro hst
  set H := hemSample (fun _ => -1) with hH
  obtain ⟨f, hf⟩ := (hemSample_sensible (fun _ => -1) H.vort).ok
  obtain ⟨g, hg⟩ := (hemSample_sensible (fun _ => -1) H.flippedNeg).ok
  have hq : H.qref = .ok (H.assemble f (fun r => - g (H.nlatS - 1 - r))) := by
    unfold HemInput.qref; rw [hH, hf, hg]; rfl
  obtain ⟨q', h1, _, h3⟩ := C15_hemispheric_sign_partial H (by norm_num [hH, hemSample]) _ hq
  have := hst H (by norm_num [hH, hemSample])
  rw [h1, hq] at this
  injection this with this
  have h33 := h3 3 (by norm_num [hH, hemSample])
  have hmax : amax 2 1 H.flippedNeg = 1 := by
    refine amax_eq_of (r := 0) (c := 0) (by norm_num) (by norm_num) ?_ ?_
    · simp [hH, hemSample, HemInput.flippedNeg]
    · intro r _ c _; simp [hH, hemSample, HemInput.flippedNeg]
  rw [this] at h33
  unfold HemInput.assemble at h33
  rw [if_pos (by norm_num [hH, hemSample])] at h33
  beta_reduce at h33
  rw [hemSample_qref _ _ hg, hmax] at h33
  norm_num at h33

example : 0 < (hemSample (fun _ => -1)).nlatS ∧ ∃ q, (hemSample (fun _ => -1)).qref = .ok q := by
  refine ⟨by norm_num [hemSample], ?_⟩
  obtain ⟨f, hf⟩ := (hemSample_sensible (fun _ => -1) (hemSample (fun _ => -1)).vort).ok
  obtain ⟨g, hg⟩ := (hemSample_sensible (fun _ => -1) (hemSample (fun _ => -1)).flippedNeg).ok
  unfold HemInput.qref; rw [hf, hg]; exact ⟨_, rfl⟩

/-! ## C16 -/

/-- C16, full statement: with `vgrad` given, both entry points return (a value, NaN or a `ValueError` of the
analysis, but not a `TypeError`). -/
def C16_Statement : Prop :=
  ∀ (H : HemInput) (v : ℕ → ℕ → ℝ), (∃ r, eqvlatBracketHemispheric H (some v) = .ok r) ∧
    (∀ nc, ∃ r, qgpvEqlatLwaOptions H (some v) nc = .ok r)

/-- C16 fails for every argument: `eqvlat_bracket_hemispheric` raises `TypeError` whatever it is given, with or
without `vgrad`, and `qgpv_eqlat_lwa_options` does so whenever `vgrad` is given. -/
theorem C16_always_type_error (H : HemInput) (v : Option (ℕ → ℕ → ℝ)) (w : ℕ → ℕ → ℝ) (nc : Option (ℕ → ℕ → ℝ)) :
    eqvlatBracketHemispheric H v = .error .typeError ∧
    qgpvEqlatLwaOptions H (some w) nc = .error .typeError := by
  have hkw : ∀ I : EqvInput, eqvlatFawaCall I ["vgrad"] = .error .typeError := fun I => by
    unfold eqvlatFawaCall callWithKeywords; rw [if_neg (by decide)]
  constructor
  · unfold eqvlatBracketHemispheric; rw [hkw]; rfl
  · unfold qgpvEqlatLwaOptions; simp only [Option.isSome_some, if_true, hkw]; rfl

theorem C16_refuted : ¬ C16_Statement := by
  intro h
  obtain ⟨r, hr⟩ := (h (hemSample fun _ => 0) (fun _ _ => 0)).1
  rw [(C16_always_type_error (hemSample fun _ => 0) (some fun _ _ => 0) (fun _ _ => 0) none).1] at hr
  cases hr

/-- C16, partial: without `vgrad`, `qgpv_eqlat_lwa_options` never raises `TypeError` and its dictionary has no entry
for the bracket, and an entry for the forcing exactly if a forcing is given. Missing: the call with `vgrad`. -/
theorem C16_options_without_vgrad_partial (H : HemInput) (nc : Option (ℕ → ℕ → ℝ)) :
    ∃ r, qgpvEqlatLwaOptions H none nc = .ok r ∧
      ∀ d, r = .ok d → d.brac = none ∧ (d.capsigma.isSome ↔ nc.isSome) := by
  have hkw : ∀ I : EqvInput, eqvlatFawaCall I [] = .ok (I.qref, I.fawa) := fun I => by
    unfold eqvlatFawaCall callWithKeywords; rw [if_pos (by decide)]
  refine ⟨Outcome.map2 (optionsResult H nc) (H.southInput H.vort).qref H.qref, ?_, ?_⟩
  · unfold qgpvEqlatLwaOptions
    simp only [Option.isSome_none, Bool.false_eq_true, if_false, hkw]
    rfl
  · intro d hd
    obtain ⟨a, b, _, _, e⟩ := Outcome.map2_ok hd
    subst e
    cases nc <;> simp [optionsResult]

/-! ## C17 -/

/-- C17, full statement for the barotropic pair: the prescribed-profile call returns the array of the
derived-profile call. -/
def C17_Statement : Prop :=
  ∀ (I : EqvInput) (dmu q : ℕ → ℝ) (l : PyReturn (ℕ → ℕ → ℝ)), barotropicEqlatLwa I dmu = .ok (q, l) →
    barotropicInputQref I.nlat I.vort q dmu = l

/-- C17, hemispheric pair: on disjoint hemispheres the prescribed-profile call with the derived profile returns the
derived wave activity at every grid point. -/
theorem C17_prescribed_profile_hemispheric (H : HemInput) (hS : 2 * H.nlatS ≤ H.nlat)
    (q : ℕ → ℝ) (l : ℕ → ℕ → ℝ) (h : H.qgpvEqlatLwa = .ok (q, l)) (j c : ℕ) :
    H.qgpvInputQref q j c = l j c := by
  obtain ⟨q1, qq, h1, h2, h3⟩ := Outcome.map2_ok h
  obtain ⟨q1', q2, h1', h4, h5⟩ := Outcome.map2_ok h2
  rw [h1] at h1'
  injection h1' with h1'
  subst h1'
  simp only [Prod.mk.injEq] at h3
  obtain ⟨h3, h3l⟩ := h3
  subst h3
  rw [← h3l]
  unfold HemInput.qgpvInputQref HemInput.lwaBoth HemInput.assemble
  split_ifs with a b
  · rfl
  · refine lwaTotal_congr b (fun _ _ => rfl) (fun r hr => ?_) (fun _ _ => rfl)
    rw [← h5]; unfold HemInput.assemble
    rw [if_neg (by omega), if_pos hr]
  · rfl

/-- C17, barotropic pair, partial: the call returns the tuple `(wave activity, None)` whose first component is
the derived wave activity. Missing: the documented return type, an array (see `C17_refuted`). -/
theorem C17_prescribed_profile_barotropic_partial (I : EqvInput) (dmu q : ℕ → ℝ) (l : PyReturn (ℕ → ℕ → ℝ))
    (h : barotropicEqlatLwa I dmu = .ok (q, l)) :
    ∃ f, l = .array f ∧ barotropicInputQref I.nlat I.vort q dmu = .tuple f none := by
  obtain ⟨q1, _, h2⟩ := Outcome.map_ok h
  simp only [Prod.mk.injEq] at h2
  obtain ⟨rfl, rfl⟩ := h2
  exact ⟨_, rfl, rfl⟩

/-- C17 fails for the barotropic pair: the return value is a tuple for every input. -/
theorem C17_refuted : ¬ C17_Statement := by
  intro hst
  obtain ⟨f, hf⟩ := (sampleInput_sensible).ok
  have h : barotropicEqlatLwa sampleInput (fun _ => 1) =
      .ok (f, .array (lwaTotal sampleInput.nlat sampleInput.vort f (fun _ => 1))) := by
    unfold barotropicEqlatLwa; rw [hf]; rfl
  have := hst _ _ _ _ h
  obtain ⟨g, _, h2⟩ := C17_prescribed_profile_barotropic_partial _ _ _ _ h
  rw [h2] at this
  cases this

example : ∃ q l, barotropicEqlatLwa sampleInput (fun _ => 1) = .ok (q, l) := by
  obtain ⟨f, hf⟩ := (sampleInput_sensible).ok
  exact ⟨f, _, by unfold barotropicEqlatLwa; rw [hf]; rfl⟩

/-! ## C71 -/

/-- C71, full statement: a temperature field that does not vary with longitude, decreases toward both poles and
equals the profile that `theta_lwa` derives has no wave activity. -/
def C71_Statement : Prop :=
  ∀ H : HemInput, 2 * H.nlatS ≤ H.nlat →
    (∀ r < H.nlat, ∀ c c', H.vort r c = H.vort r c') →
    (∀ r s, r ≤ s → s < H.nlatS → H.vort r 0 ≤ H.vort s 0) →
    (∀ r s, H.nlat - H.nlatS ≤ r → r ≤ s → s < H.nlat → H.vort s 0 ≤ H.vort r 0) →
    ∀ q l, H.thetaLwa = .ok (q, l) →
      (∀ r, (r < H.nlatS ∨ H.nlat - H.nlatS ≤ r ∧ r < H.nlat) → q r = H.vort r 0) →
      ∀ j < H.nlat, ∀ c < H.nlon, l j c = 0

/-- C71, partial: the southern rows are free of wave activity in this situation. On a northern row that is not the
last one, every row further poleward counts as displaced, so the result is the sum of
`(theta at the row - theta at the poleward row) dmu`. Missing: the northern rows, where the claim fails. -/
theorem C71_theta_wave_free_partial (H : HemInput) (hS : 2 * H.nlatS ≤ H.nlat)
    (hsym : ∀ r < H.nlat, ∀ c c', H.vort r c = H.vort r c')
    (hsouth : ∀ r s, r ≤ s → s < H.nlatS → H.vort r 0 ≤ H.vort s 0)
    (hnorth : ∀ r s, H.nlat - H.nlatS ≤ r → r ≤ s → s < H.nlat → H.vort s 0 ≤ H.vort r 0)
    (q : ℕ → ℝ) (l : ℕ → ℕ → ℝ) (h : H.thetaLwa = .ok (q, l))
    (hq : ∀ r, (r < H.nlatS ∨ H.nlat - H.nlatS ≤ r ∧ r < H.nlat) → q r = H.vort r 0) :
    (∀ j < H.nlatS, ∀ c, l j c = 0) ∧
    (∀ i c, i + 1 < H.nlatS → l (H.nlat - H.nlatS + i) c =
      ∑ r ∈ range H.nlatS, if i < r then
        (H.vort (H.nlat - H.nlatS + i) 0 - H.vort (H.nlat - H.nlatS + r) 0) * H.dmu (H.nlat - H.nlatS + r)
      else (H.vort (H.nlat - H.nlatS + r) 0 - H.vort (H.nlat - H.nlatS + i) 0) * H.dmu (H.nlat - H.nlatS + r)) := by
  obtain ⟨q1, qq, h1, h2, h3⟩ := Outcome.map2_ok h
  obtain ⟨q1', q2, h1', h4, h5⟩ := Outcome.map2_ok h2
  rw [h1] at h1'
  injection h1' with h1'
  subst h1'
  simp only [Prod.mk.injEq] at h3
  obtain ⟨h3, h3l⟩ := h3
  subst h3
  have hq1 : ∀ r < H.nlatS, q1 r = H.vort r 0 := fun r hr => by
    rw [← hq r (Or.inl hr), ← h5]; unfold HemInput.assemble
    rw [if_neg (by omega), if_pos hr]
  constructor
  · intro j hj c
    rw [← h3l]
    unfold HemInput.lwaBoth HemInput.assemble
    rw [if_neg (by omega), if_pos hj]
    by_cases hj' : j + 1 < H.nlatS
    · rw [lwaTotal_eq_spec hj', waveActivity_eq_zero]
      rintro r hr (⟨a, b⟩ | ⟨a, b⟩)
      · rw [hq1 j hj, hsym r (by omega) c 0] at b
        exact absurd (hsouth j r a.le hr) (not_le.2 b)
      · rw [hq1 j hj, hsym r (by omega) c 0] at b
        exact absurd (hsouth r j a hj) (not_le.2 b)
    · exact lwaTotal_eq_of_ge (by omega)
  · intro i c hi
    rw [← h3l]
    unfold HemInput.lwaBoth HemInput.assemble
    rw [if_pos (by omega), show H.nlat - H.nlatS + i - (H.nlat - H.nlatS) = i by omega,
      lwaTotal_eq_spec hi, waveActivity_eq_add]
    unfold Spec.deficitPoleward Spec.surplusEquatorward HemInput.north
    rw [sum_filter, sum_filter, ← sum_add_distrib]
    refine sum_congr rfl fun r hr => ?_
    rw [mem_range] at hr
    rw [hq (H.nlat - H.nlatS + i) (Or.inr (by omega)), hsym (H.nlat - H.nlatS + r) (by omega) c 0]
    by_cases hir : i < r
    · have hle := hnorth (H.nlat - H.nlatS + i) (H.nlat - H.nlatS + r) (by omega) (by omega) (by omega)
      rw [if_pos hir]
      rcases hle.eq_or_lt with heq | hlt
      · rw [heq]; simp
      · rw [if_pos ⟨hir, hlt⟩, if_neg (by omega), add_zero]
    · have hle := hnorth (H.nlat - H.nlatS + r) (H.nlat - H.nlatS + i) (by omega) (by omega) (by omega)
      rw [if_neg hir]
      rcases hle.eq_or_lt with heq | hlt
      · rw [heq]; simp
      · rw [if_neg (by omega), if_pos ⟨by omega, hlt⟩, zero_add]

/-- Latitudes 90S, 30S, 30N, 90N with temperatures 0, 1, 1, 0. -/
noncomputable def thetaSample : HemInput where
  nlat := 4
  nlon := 1
  ylat := fun j => 60 * j - 90
  vort := fun r _ => if r = 0 then 0 else if r = 3 then 0 else 1
  area := fun _ _ => 1
  dmu := fun _ => 1
  nlatS := 2
  nPoints := 2
  radius := 1

theorem thetaSample_sensible (v : ℕ → ℕ → ℝ) : (thetaSample.southInput v).Sensible where
  nlat_pos := by norm_num [thetaSample, HemInput.southInput]
  nlon_pos := by norm_num [thetaSample, HemInput.southInput]
  nPoints_pos := by norm_num [thetaSample, HemInput.southInput]
  radius_ne := by norm_num [thetaSample, HemInput.southInput]
  area_nonneg := fun _ _ => by norm_num [thetaSample, HemInput.southInput]
  area_fits := by
    have := Real.pi_gt_three
    simp only [thetaSample, HemInput.southInput, cells, sum_const, card_product, card_range]
    norm_num
    linarith

/-- For rows 0, 1 with values 0, 1 the profile at the two southern latitudes is 0, 1. -/
theorem thetaSample_profile (v : ℕ → ℕ → ℝ) (h0 : v 0 0 = 0) (h1 : v 1 0 = 1) {f : ℕ → ℝ}
    (hf : (thetaSample.southInput v).qref = .ok f) : f 0 = 0 ∧ f 1 = 1 := by
  have hs := thetaSample_sensible v
  have hcell : ∀ p ∈ cells 2 1, p = (0, 0) ∨ p = (1, 0) := by
    rintro ⟨r, c⟩ hp
    rw [mem_cells] at hp
    obtain ⟨hp1, hp2⟩ := hp
    simp only at hp1 hp2
    have : c = 0 := by omega
    subst this
    interval_cases r <;> simp
  have hmax : amax 2 1 v = 1 := by
    refine amax_eq_of (r := 1) (c := 0) (by norm_num) (by norm_num) h1 ?_
    intro r hr c hc
    have : c = 0 := by omega
    subst this
    interval_cases r
    · rw [h0]; norm_num
    · rw [h1]
  have hmin : amin 2 1 v = 0 := by
    apply le_antisymm
    · rw [← h0]; exact amin_le (p := (0, 0)) (by simp [mem_cells])
    · obtain ⟨p, hp, e⟩ := exists_amin (vort := v) (cells_nonempty (show 0 < 2 by norm_num) (show 0 < 1 by norm_num))
      rw [e]
      rcases hcell p hp with rfl | rfl
      · simp only; rw [h0]
      · simp only; rw [h1]; norm_num
  have hn : 2 ≤ (thetaSample.southInput v).nPoints := by norm_num [thetaSample, HemInput.southInput]
  constructor
  · rw [EqvInput.qref_eq_min _ hs hn hf (j := 0) (by norm_num [thetaSample, HemInput.southInput])]
    · exact hmin
    · have hk := (C11_area_bookkeeping (thetaSample.southInput v) hn hs.area_nonneg).2.2.1 1
        (by norm_num [thetaSample, HemInput.southInput])
      have hb : (thetaSample.southInput v).bins 1 = amax 2 1 v := linspace_last _ _ hn
      rw [hk]
      have hmem : ((0, 0) : ℕ × ℕ) ∈ (cells (thetaSample.southInput v).nlat (thetaSample.southInput v).nlon).filter
          (fun p => (thetaSample.southInput v).vort p.1 p.2 < (thetaSample.southInput v).bins 1) := by
        rw [mem_filter, hb, hmax, mem_cells]
        refine ⟨by norm_num [thetaSample, HemInput.southInput], ?_⟩
        show v 0 0 < 1
        rw [h0]; norm_num
      have := single_le_sum (f := fun p : ℕ × ℕ => (thetaSample.southInput v).area p.1 p.2)
        (fun p _ => by norm_num [thetaSample, HemInput.southInput]) hmem
      refine lt_of_lt_of_le ?_ this
      norm_num [thetaSample, HemInput.southInput]
  · rw [EqvInput.qref_eq_max_of_small _ hs hn hf (j := 1) (by norm_num [thetaSample, HemInput.southInput])]
    · exact hmax
    · have := Real.pi_gt_three
      simp only [thetaSample, HemInput.southInput, cells, sum_const, card_product, card_range]
      norm_num
      linarith

/-- The sample is a wave-free state in the sense of C71. -/
theorem thetaSample_facts : ∃ q l, thetaSample.thetaLwa = .ok (q, l) ∧
    (∀ r, (r < thetaSample.nlatS ∨ thetaSample.nlat - thetaSample.nlatS ≤ r ∧ r < thetaSample.nlat) →
      q r = thetaSample.vort r 0) := by
  obtain ⟨f, hf⟩ := (thetaSample_sensible thetaSample.vort).ok
  obtain ⟨g, hg⟩ := (thetaSample_sensible thetaSample.flipped).ok
  have ef := thetaSample_profile _ (by norm_num [thetaSample]) (by norm_num [thetaSample]) hf
  have eg := thetaSample_profile _ (by norm_num [thetaSample, HemInput.flipped])
    (by norm_num [thetaSample, HemInput.flipped]) hg
  refine ⟨thetaSample.assemble f (fun r => g (thetaSample.nlatS - 1 - r)),
    thetaSample.lwaBoth f (thetaSample.assemble f (fun r => g (thetaSample.nlatS - 1 - r))), ?_, ?_⟩
  · unfold HemInput.thetaLwa HemInput.thetaQref
    rw [hf, hg]; rfl
  · intro r hr
    have e1 : thetaSample.nlatS = 2 := rfl
    have e2 : thetaSample.nlat = 4 := rfl
    rw [e1, e2] at hr
    have : r < 4 := by omega
    unfold HemInput.assemble
    rw [e1, e2]
    interval_cases r <;> simp [ef, eg, thetaSample]

/-- The hypotheses of C71 hold for the sample. -/
example : 2 * thetaSample.nlatS ≤ thetaSample.nlat ∧
    (∀ r < thetaSample.nlat, ∀ c c', thetaSample.vort r c = thetaSample.vort r c') ∧
    (∀ r s, r ≤ s → s < thetaSample.nlatS → thetaSample.vort r 0 ≤ thetaSample.vort s 0) := by
  refine ⟨by norm_num [thetaSample], fun _ _ _ _ => rfl, fun r s hrs hs => ?_⟩
  have e1 : thetaSample.nlatS = 2 := rfl
  rw [e1] at hs
  interval_cases s <;> interval_cases r <;> simp [thetaSample]

/-- C71 fails: in the sample the row at 30N has wave activity 1. -/
theorem C71_refuted : ¬ C71_Statement := by
  intro hst
  obtain ⟨q, l, h, hq⟩ := thetaSample_facts
  have e1 : thetaSample.nlatS = 2 := rfl
  have e2 : thetaSample.nlat = 4 := rfl
  have hS : 2 * thetaSample.nlatS ≤ thetaSample.nlat := by norm_num [thetaSample]
  have hsym : ∀ r < thetaSample.nlat, ∀ c c', thetaSample.vort r c = thetaSample.vort r c' := fun _ _ _ _ => rfl
  have hsouth : ∀ r s, r ≤ s → s < thetaSample.nlatS → thetaSample.vort r 0 ≤ thetaSample.vort s 0 := by
    intro r s hrs hs
    rw [e1] at hs
    interval_cases s <;> interval_cases r <;> simp [thetaSample]
  have hnorth : ∀ r s, thetaSample.nlat - thetaSample.nlatS ≤ r → r ≤ s → s < thetaSample.nlat →
      thetaSample.vort s 0 ≤ thetaSample.vort r 0 := by
    intro r s hr hrs hs
    rw [e1, e2] at hr
    rw [e2] at hs
    have : r < 4 := by omega
    have : 2 ≤ s := by omega
    interval_cases s <;> interval_cases r <;> simp_all [thetaSample]
  have hz := hst thetaSample hS hsym hsouth hnorth q l h hq 2 (by norm_num [thetaSample]) 0 (by norm_num [thetaSample])
  have hv := (C71_theta_wave_free_partial thetaSample hS hsym hsouth hnorth q l h hq).2 0 0 (by norm_num [thetaSample])
  rw [e1, e2] at hv
  norm_num [thetaSample, sum_range_succ] at hv
  rw [hz] at hv
  exact zero_ne_one hv

end Falwa
