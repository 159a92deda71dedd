import Verif.Props.Mirror

/-! # Where mirror symmetry fails (C48) -/

set_option linter.unusedSectionVars false
set_option linter.unusedSimpArgs false
set_option linter.unusedVariables false

noncomputable section

namespace Falwa

open Real Finset

namespace Atmos

/-- C48 as stated for one class: mirroring the input mirrors vorticity and QGPV with a change of sign, and mirrors the
reference states, wave activity and fluxes, on every row. (The reference QGPV changes sign like the QGPV.) -/
def C48_Statement (c : Scheme) : Prop :=
  ∀ A : Atmos, A.MirrorOk → 3 ≤ A.kmax → (c = .nh18 → A.jb = 0) → ∀ i g k : ℤ,
    (1 ≤ i ∧ i ≤ A.nlon) → (1 ≤ g ∧ g ≤ A.nlat) → (1 ≤ k ∧ k ≤ A.kmax) →
    A.mirror.avort i g k = -A.avort i (A.nlat + 1 - g) k ∧
    A.mirror.qgpv c i g k = -A.qgpv c i (A.nlat + 1 - g) k ∧
    A.mirror.qref c g k = -A.qref c (A.nlat + 1 - g) k ∧
    A.mirror.uref c g k = A.uref c (A.nlat + 1 - g) k ∧
    A.mirror.ptref c g k = A.ptref c (A.nlat + 1 - g) k ∧
    (A.mirror.analysis c).lwa i g k = (A.analysis c).lwa i (A.nlat + 1 - g) k ∧
    (A.mirror.analysis c).advFluxF1 i g = (A.analysis c).advFluxF1 i (A.nlat + 1 - g) ∧
    (A.mirror.analysis c).advFluxF2 i g = (A.analysis c).advFluxF2 i (A.nlat + 1 - g) ∧
    (A.mirror.analysis c).advFluxF3 i g = (A.analysis c).advFluxF3 i (A.nlat + 1 - g) ∧
    (A.mirror.analysis c).heatFlux i g = (A.analysis c).heatFlux i (A.nlat + 1 - g) ∧
    (A.mirror.analysis c).divEddyMomentumFlux i g = (A.analysis c).divEddyMomentumFlux i (A.nlat + 1 - g)

/-! ### `QGFieldNH18`: the equator -/

/-- On the equator the stored wave activity is that of the southern call. -/
theorem lwa_equator {A : Atmos} (h : A.MirrorOk) (c : Scheme) (i k : ℤ) :
    (A.analysis c).lwa i A.nd k =
      |(A.analysis c).southIn.fluxDirinv.astar1 i 1 k + (A.analysis c).southIn.fluxDirinv.astar2 i 1 k| := by
  have ho := h.odd
  unfold QGAnalysis.lwa
  rw [QGAnalysis.store_south (S := A.analysis c) h.global (show A.nd ≤ A.nd from le_rfl)]
  show |(A.analysis c).southIn.fluxDirinv.astar1 i (A.nd + 1 - A.nd) k +
    (A.analysis c).southIn.fluxDirinv.astar2 i (A.nd + 1 - A.nd) k| = _
  rw [show A.nd + 1 - A.nd = 1 by ring]

/-- So the wave activity is mirrored on the equator only if both hemispheric calls agree there. -/
theorem C48_equator_condition {A : Atmos} (h : A.MirrorOk) (c : Scheme) (i k : ℤ) :
    (A.mirror.analysis c).lwa i A.nd k = (A.analysis c).lwa i A.nd k ↔
      |(A.analysis c).northIn.fluxDirinv.astar1 i 1 k + (A.analysis c).northIn.fluxDirinv.astar2 i 1 k| =
        |(A.analysis c).southIn.fluxDirinv.astar1 i 1 k + (A.analysis c).southIn.fluxDirinv.astar2 i 1 k| := by
  have e : (A.mirror.analysis c).lwa i A.nd k =
      |(A.mirror.analysis c).southIn.fluxDirinv.astar1 i 1 k + (A.mirror.analysis c).southIn.fluxDirinv.astar2 i 1 k| := by
    unfold QGAnalysis.lwa
    rw [QGAnalysis.store_south (S := A.mirror.analysis c) h.global (show A.nd ≤ A.nd from le_rfl)]
    show |(A.mirror.analysis c).southIn.fluxDirinv.astar1 i (A.nd + 1 - A.nd) k +
      (A.mirror.analysis c).southIn.fluxDirinv.astar2 i (A.nd + 1 - A.nd) k| = _
    rw [show A.nd + 1 - A.nd = 1 by ring]
  rw [e, lwa_equator h, (mirror_hem h c i 1 k).2.1, (mirror_hem h c i 1 k).2.2.1]

/-- If the temperature depends on height only, the domain mean profiles are that temperature. -/
theorem means_of_uniform {A : Atmos} (h : A.MirrorOk) (hc : A.csm ≠ 0) (τ : ℤ → ℝ) (ht : ∀ i g l, A.theta0 i g l = τ l) :
    A.meanS = τ ∧ A.meanN = τ := by
  have hn : (A.nlon : ℝ) ≠ 0 := by have := h.nlon2; exact_mod_cast (by omega : A.nlon ≠ 0)
  have hcard : ((Icc 1 A.nlon).card : ℝ) = (A.nlon : ℝ) := by
    rw [Int.card_Icc, add_sub_cancel_right]
    have := h.nlon2
    exact_mod_cast Int.toNat_of_nonneg (by omega : 0 ≤ A.nlon)
  have hr : ∀ l g, A.rowMean l g = τ l * A.clat g := by
    intro l g
    unfold rowMean
    simp only [ht, sum_const, nsmul_eq_mul, hcard]
    field_simp
  have hs : A.meanS = τ := by
    funext l
    unfold meanS
    simp only [hr]
    rw [← mul_sum]
    exact mul_div_cancel_right₀ _ hc
  refine ⟨hs, ?_⟩
  have hm : A.mirror.meanS = τ := by
    have hr' : ∀ l g, A.mirror.rowMean l g = τ l * A.clat g := by
      intro l g; rw [mirror_rowMean h, hr, clat_flip h]
    funext l
    unfold meanS
    simp only [hr']
    rw [← mul_sum]
    exact mul_div_cancel_right₀ _ hc
  rw [← (mirror_means h).1, hm]

/-- A jet at 45N over a stably stratified rest state: five latitudes, two longitudes, three levels. -/
def jet : Atmos :=
  { sample with
    nlon := 2
    nlatIn := 5
    nlat := 5
    kmax := 3
    jb := 0
    npart := 5
    uField := fun _ j _ => if j = 4 then 1 else 0
    vField := fun _ _ _ => 0
    tField := fun _ _ l => l }

theorem jet_nd : jet.nd = 3 := by decide

theorem jet_ok : jet.MirrorOk :=
  ⟨by decide, by decide, by decide, by decide, by show (0 : ℝ) ≤ 1; norm_num, rfl, fun _ _ => rfl, fun _ _ => rfl, fun _ _ => rfl⟩

theorem jet_csm : jet.csm ≠ 0 := by
  have hp : 0 < jet.clat 3 := by
    unfold clat lat
    rw [jet_nd]
    norm_num
  have : (0 : ℝ) < jet.csm := by
    unfold csm
    refine lt_of_lt_of_le hp (single_le_sum (f := jet.clat) (fun g _ => abs_nonneg _) ?_)
    decide
  exact this.ne'

theorem jet_pv (i j : ℤ) : jet.qgpv .nh18 i j 2 = jet.qgpvIn.avort i j 2 := by
  have hm := means_of_uniform jet_ok jet_csm (fun l => (l : ℝ) * exp (1 / 2 * l / 1)) (fun _ _ _ => rfl)
  have ht : ∀ k, jet.theta i j k = jet.t0 k := by
    intro k
    have e1 : jet.ts0 k = (k : ℝ) * exp (1 / 2 * k / 1) := by unfold ts0; rw [hm.1]; rfl
    have e2 : jet.tn0 k = (k : ℝ) * exp (1 / 2 * k / 1) := by unfold tn0; rw [hm.2]; rfl
    unfold t0
    rw [e1, e2]
    show (k : ℝ) * exp (1 / 2 * k / 1) = _
    ring
  show jet.qgpvIn.pv18 jet.t0 jet.stat i j 2 = _
  unfold QgpvIn.pv18
  rw [if_pos (by decide)]
  have ha : ∀ k, jet.qgpvIn.alt jet.t0 jet.stat i j k = 0 := by
    intro k
    unfold QgpvIn.alt
    show exp _ * (jet.theta i j k - jet.t0 k) / _ = 0
    rw [ht]; simp
  unfold QgpvIn.stretch
  rw [ha, ha]; simp

theorem jet_phi (j : ℤ) : jet.qgpvIn.phi j = π / 4 * ((j : ℝ) - 3) := by
  unfold QgpvIn.phi
  show -(0.5 * π) + π * ((j - 1 : ℤ) : ℝ) / ((5 - 1 : ℤ) : ℝ) = _
  push_cast; ring

theorem jet_inner (i j : ℤ) : jet.qgpvIn.inner i j 2 = 2 * sin (π / 4 * ((j : ℝ) - 3)) +
    -((if j + 1 = 4 then 1 else 0) * cos (π / 4 * ((j : ℝ) + 1 - 3)) -
      (if j - 1 = 4 then 1 else 0) * cos (π / 4 * ((j : ℝ) - 1 - 3))) / (2 * cos (π / 4 * ((j : ℝ) - 3)) * (π / 4)) := by
  have hv : jet.qgpvIn.dv i j 2 = 0 := by
    unfold QgpvIn.dv
    show (if _ then (0 : ℝ) - 0 else if _ then (0 : ℝ) - 0 else (0 : ℝ) - 0) = 0
    simp
  have hd : jet.qgpvIn.dphi = π / 4 := by
    unfold QgpvIn.dphi
    show π / ((5 - 1 : ℤ) : ℝ) = _
    push_cast; norm_num
  unfold QgpvIn.inner QgpvIn.cor
  rw [hv, hd, jet_phi, jet_phi, jet_phi]
  show 2 * 1 * _ + 0 / _ + -((if j + 1 = 4 then (1 : ℝ) else 0) * _ - (if j - 1 = 4 then (1 : ℝ) else 0) * _) / (2 * 1 * _ * _) = _
  push_cast
  ring

theorem jet_avort3 (i : ℤ) : jet.qgpvIn.avort i 3 2 < 0 := by
  unfold QgpvIn.avort
  rw [if_neg (by decide), if_neg (by decide), jet_inner]
  rw [if_pos (by norm_num), if_neg (by norm_num)]
  have h1 : π / 4 * (((3 : ℤ) : ℝ) - 3) = 0 := by push_cast; ring
  have h2 : π / 4 * (((3 : ℤ) : ℝ) + 1 - 3) = π / 4 := by push_cast; ring
  rw [h1, h2, sin_zero, cos_zero]
  have := pi_pos
  have hc : 0 < cos (π / 4) := cos_pos_of_mem_Ioo ⟨by linarith, by linarith⟩
  have : 0 < cos (π / 4) / (2 * (π / 4)) := by positivity
  have e : 2 * 0 + -(1 * cos (π / 4) - 0 * cos (π / 4 * (((3 : ℤ) : ℝ) - 1 - 3))) / (2 * 1 * (π / 4)) =
      -(cos (π / 4) / (2 * (π / 4))) := by ring
  rw [e]; linarith

theorem jet_inner2 (i : ℤ) : jet.qgpvIn.inner i 2 2 = -(2 * sin (π / 4)) := by
  rw [jet_inner, if_neg (by norm_num), if_neg (by norm_num)]
  have h1 : π / 4 * (((2 : ℤ) : ℝ) - 3) = -(π / 4) := by push_cast; ring
  rw [h1, sin_neg]; simp

theorem jet_south (i j : ℤ) (hj : j = 1 ∨ j = 2) : jet.qgpvIn.avort i j 2 = -(2 * sin (π / 4)) := by
  rcases hj with rfl | rfl
  · unfold QgpvIn.avort
    rw [if_neg (by decide), if_pos rfl]
    unfold QgpvIn.zmean
    simp only [jet_inner2]
    rw [dosum_eq]
    show ∑ _i ∈ Icc 1 (2 : ℤ), -(2 * sin (π / 4)) / ((2 : ℤ) : ℝ) = _
    rw [sum_const]
    simp
    ring
  · unfold QgpvIn.avort
    rw [if_neg (by decide), if_neg (by decide), jet_inner2]

theorem jet_qref : jet.qref .nh18 3 2 = 0 := by
  unfold qref
  have : jet.lat (jet.outRow 3) = 0 := by
    rw [outRow_eq jet_ok]
    unfold lat
    rw [jet_nd]; simp
  rw [this, sin_zero, mul_zero]

theorem jet_lwa_south : (jet.analysis .nh18).lwa 1 3 2 = 0 := by
  have hv := analysis_valid jet_ok .nh18
  have hs : (jet.analysis .nh18).southIn.Shaped := hv.south
  have e := lwa_equator jet_ok .nh18 1 2
  rw [jet_nd] at e
  have hq : ∀ jj, 1 ≤ jj → jj ≤ 3 → 0 < (jet.analysis .nh18).southIn.qe 1 1 2 jj := by
    intro jj h1 h2
    have hpos : 0 < sin (π / 4) := sin_pos_of_pos_of_lt_pi (by linarith [pi_pos]) (by linarith [pi_pos])
    rw [hs.qe_eq h1 (by show jj ≤ jet.nd; rw [jet_nd]; exact h2) (by norm_num) (by show 1 ≤ jet.nd; rw [jet_nd]; norm_num)]
    show 0 < -jet.qgpv .nh18 1 (5 + 1 - (jj + jet.nd - 1)) 2 - -jet.qref .nh18 (jet.nd + 1 - 1) 2
    rw [jet_nd, show (3 + 1 - 1 : ℤ) = 3 by norm_num, jet_qref, jet_pv]
    rcases (by omega : jj = 1 ∨ jj = 2 ∨ jj = 3) with rfl | rfl | rfl
    · have := jet_avort3 1
      norm_num; linarith
    · rw [jet_south 1 _ (by norm_num)]; linarith
    · rw [jet_south 1 _ (by norm_num)]; linarith
  rw [e, FluxIn.astar1_eq _ (by decide), FluxIn.astar2_eq _ (by decide)]
  have hI : FluxIn.Iter (jet.analysis .nh18).southIn 1 1 2 :=
    ⟨⟨by decide, by decide⟩, ⟨by decide, by decide⟩, by decide, by decide⟩
  rw [if_pos hI, if_pos hI, FluxIn.acc_total]
  rw [sum_eq_zero, abs_zero]
  intro jj hjj
  rw [mem_Icc] at hjj
  have h2 : jj ≤ 3 := by have := hjj.2; have h : (jet.analysis .nh18).southIn.nd = 3 := jet_nd; omega
  have := hq jj hjj.1 h2
  rw [if_neg]
  rintro (c | c)
  · linarith [c.2]
  · omega

theorem jet_lwa_north : 0 < |(jet.analysis .nh18).northIn.fluxDirinv.astar1 1 1 2 +
    (jet.analysis .nh18).northIn.fluxDirinv.astar2 1 1 2| := by
  have hv := analysis_valid jet_ok .nh18
  have hs : (jet.analysis .nh18).northIn.Shaped := hv.north
  have hq : (jet.analysis .nh18).northIn.qe 1 1 2 1 < 0 := by
    rw [hs.qe_eq (by norm_num) (by show 1 ≤ jet.nd; rw [jet_nd]; norm_num) (by norm_num) (by show 1 ≤ jet.nd; rw [jet_nd]; norm_num)]
    show jet.qgpv .nh18 1 (1 + jet.nd - 1) 2 - jet.qref .nh18 (jet.rows - jet.nd + 1) 2 < 0
    rw [rows_eq jet_ok, jet_nd, show jet.nlat - 3 + 1 = 3 by decide, jet_qref, jet_pv]
    have := jet_avort3 1
    norm_num; linarith
  rw [FluxIn.astar1_eq _ (by decide), FluxIn.astar2_eq _ (by decide)]
  have hI : FluxIn.Iter (jet.analysis .nh18).northIn 1 1 2 :=
    ⟨⟨by decide, by decide⟩, ⟨by decide, by decide⟩, by decide, by decide⟩
  rw [if_pos hI, if_pos hI, FluxIn.acc_total]
  refine abs_pos.2 (ne_of_gt ?_)
  have hw : ∀ jj ∈ Icc 1 (jet.analysis .nh18).northIn.nd,
      0 ≤ (jet.analysis .nh18).northIn.a * (jet.analysis .nh18).northIn.dp * cos ((jet.analysis .nh18).northIn.phi jj) := by
    intro jj hjj
    rw [mem_Icc] at hjj
    exact mul_nonneg (mul_nonneg jet_ok.a0 hs.dp_pos.le) (hs.cos_nonneg hjj.1 hjj.2)
  refine lt_of_lt_of_le ?_ (single_le_sum (a := (1 : ℤ)) (fun jj hjj => ?_) ?_)
  · rw [if_pos (Or.inl ⟨le_rfl, hq⟩)]
    have hphi : (jet.analysis .nh18).northIn.phi 1 = 0 := by unfold FluxIn.phi; simp
    have ha : (jet.analysis .nh18).northIn.a = 1 := rfl
    rw [hphi, cos_zero, ha]
    have := hs.dp_pos
    have := abs_pos.2 hq.ne
    positivity
  · split_ifs
    · exact mul_nonneg (abs_nonneg _) (hw jj hjj)
    · exact le_rfl
  · rw [mem_Icc]; exact ⟨le_rfl, by show 1 ≤ jet.nd; rw [jet_nd]; norm_num⟩

/-- C48 is violated for `QGFieldNH18`: the wave activity on the equator is that of the southern call, so a jet in the Northern
Hemisphere and its mirror image give different values there. -/
theorem C48_nh18_refuted : ¬ C48_Statement .nh18 := by
  intro H
  obtain ⟨_, _, _, _, _, hl, _⟩ := H jet jet_ok (by decide) (fun _ => rfl) 1 3 2 (by decide) (by decide) (by decide)
  rw [show jet.nlat + 1 - 3 = 3 by decide, jet_lwa_south] at hl
  have hc := (C48_equator_condition jet_ok .nh18 1 2)
  rw [jet_nd, hl, jet_lwa_south] at hc
  have e := lwa_equator jet_ok .nh18 1 2
  rw [jet_nd, jet_lwa_south] at e
  have := hc.1 rfl
  rw [← e] at this
  exact absurd this jet_lwa_north.ne'

/-! ### `QGFieldNHN22`: the reference temperature -/

theorem nhnN_geometry {A : Atmos} (h : A.MirrorOk) (hk : 3 ≤ A.kmax) (hj : 3 ≤ A.jd) : A.nhnN.Geometry where
  imax1 := by have := h.nlon2; show 1 ≤ A.nlon; omega
  jb0 := h.jb0
  jd3 := hj
  kmax3 := hk
  odd := h.odd
  dphiEq := by
    show π / ((A.nlat - 1 : ℤ) : ℝ) = π / ((A.nlat : ℝ) - 1)
    push_cast; rfl

theorem rowMean_congr (P : Spec.Planet) (lo hi : ℤ) (S T : ℤ → ℝ) (h : ∀ j, lo ≤ j → j ≤ hi → S j = T j) :
    P.rowMean lo hi S = P.rowMean lo hi T := by
  unfold Spec.Planet.rowMean
  congr 1
  refine sum_congr rfl fun j hj => ?_
  rw [mem_Icc] at hj
  rw [h j hj.1 hj.2]

/-- Reference temperatures of both calls if they were mirrored. -/
theorem tref_of_mirrored {A : Atmos} (h : A.MirrorOk) (hj : 3 ≤ A.jd) (hb : 1 ≤ A.jb) {k : ℤ}
    (hcon : ∀ g, 1 ≤ g → g ≤ A.nlat → A.mirror.ptref .nhn22 g k = A.ptref .nhn22 (A.nlat + 1 - g) k) (j : ℤ)
    (j1 : 1 ≤ j) (j2 : j ≤ A.jd) : A.mirror.nhnN.tref j k = A.nhn.south.tref j k := by
  have ho := h.odd
  have hjd : A.jd = A.nd - A.jb := rfl
  have hr := rows_eq h
  have hr' : A.mirror.rows = A.nlat := hr
  have := hcon (A.nlat - A.jd + j) (by omega) (by omega)
  have e1 : A.mirror.ptref .nhn22 (A.nlat - A.jd + j) k = A.mirror.nhnN.tref j k := by
    show A.mirror.storeRef A.jd _ _ _ k = _
    unfold storeRef
    rw [hr', if_neg (by rintro ⟨_, x⟩; omega), if_pos (by omega)]
    congr 1; omega
  have e2 : A.ptref .nhn22 (A.nlat + 1 - (A.nlat - A.jd + j)) k = A.nhn.south.tref j k := by
    show A.storeRef A.jd _ _ _ k = _
    unfold storeRef
    rw [if_pos ⟨h.global, by omega⟩]
    congr 1; omega
  rw [e1, e2] at this
  exact this

/-- For `QGFieldNHN22` the reference temperature is mirrored for no atmosphere whose two hemispheric profiles differ on some
level: both solver calls use the northern profile. -/
theorem C48_nhn22_never {A : Atmos} (h : A.MirrorOk) (hk : 3 ≤ A.kmax) (hj : 3 ≤ A.jd) (hb : 1 ≤ A.jb) {k : ℤ}
    (hd : A.ts0 k ≠ A.tn0 k) :
    ∃ g, 1 ≤ g ∧ g ≤ A.nlat ∧ A.mirror.ptref .nhn22 g k ≠ A.ptref .nhn22 (A.nlat + 1 - g) k := by
  by_contra hcon
  push Not at hcon
  have ho := h.odd
  have hjd : A.jd = A.nd - A.jb := rfl
  have e := tref_of_mirrored h hj hb hcon
  have hg := nhnN_geometry h hk hj
  have hg' : A.mirror.nhnN.Geometry := ⟨hg.imax1, hg.jb0, hg.jd3, hg.kmax3, hg.odd, hg.dphiEq⟩
  have m1 := NhnIn.C52_mean_nhn22 hg' k
  have m2 := Nhn22.C57_north_profile_partial (F := A.nhn) hg k
  have htb : A.mirror.nhnN.tb k = A.ts0 k := congr_fun (C48_profiles h).2.1 k
  have htb2 : A.nhn.north.tb k = A.tn0 k := rfl
  rw [htb] at m1
  rw [htb2] at m2
  apply hd
  rw [← m1, ← m2]
  have hp : A.mirror.nhnN.planet = A.nhn.south.planet := rfl
  have hb1 : A.mirror.nhnN.jb = A.jb := rfl
  have hb2 : A.nhn.south.jb = A.jb := rfl
  have hn1 : A.mirror.nhnN.nd = A.nd := rfl
  have hn2 : A.nhn.south.nd = A.nd := rfl
  rw [hp, hb1, hb2, hn1, hn2]
  exact rowMean_congr _ _ _ _ _ fun j h1 h2 => e _ (by omega) (by omega)

theorem sample_ok : sample.MirrorOk :=
  ⟨by decide, by decide, by decide, by decide, by show (0 : ℝ) ≤ 1; norm_num, rfl, fun _ _ => rfl, fun _ _ => rfl, fun _ _ => rfl⟩

theorem sample_nd : sample.nd = 5 := by decide
theorem sample_jd : sample.jd = 4 := by decide

theorem sample_profiles : sample.ts0 1 ≠ sample.tn0 1 := by
  have hth : ∀ i g, sample.theta0 i g 1 = (if i = 4 ∧ g = 7 then 2 else 1) * exp (1 / 2 * 1 / 1) := by
    intro i g
    show (if i = 4 ∧ g = 7 then (1 : ℝ) + ((1 : ℤ) : ℝ) else ((1 : ℤ) : ℝ)) * exp (1 / 2 * ((1 : ℤ) : ℝ) / 1) = _
    push_cast; norm_num
  have hlow : ∀ g, sample.rowMean 1 g = (if g = 7 then 5 / 4 else 1) * exp (1 / 2 * 1 / 1) * sample.clat g := by
    intro g
    unfold rowMean
    simp only [hth]
    show (∑ i ∈ Icc (1 : ℤ) 4, _) / ((4 : ℤ) : ℝ) = _
    rw [show Icc (1 : ℤ) 4 = {1, 2, 3, 4} by decide]
    rw [sum_insert (by decide), sum_insert (by decide), sum_insert (by decide), sum_singleton]
    by_cases hg : g = 7
    · simp [hg]; ring
    · simp [hg]; ring
  have hS : sample.meanS 1 = (∑ g ∈ Icc (1 : ℤ) 4, exp (1 / 2 * 1 / 1) * sample.clat g) / sample.csm := by
    unfold meanS
    rw [sample_jd]
    congr 1
    refine sum_congr rfl fun g hg => ?_
    rw [mem_Icc] at hg
    rw [hlow, if_neg (by omega), one_mul]
  have hN : sample.meanN 1 = (∑ g ∈ Icc (6 : ℤ) 9, (if g = 7 then 5 / 4 else 1) * exp (1 / 2 * 1 / 1) * sample.clat g) / sample.csm := by
    unfold meanN
    rw [sample_jd]
    show (∑ g ∈ Icc (9 - 4 + 1 : ℤ) 9, _) / _ = _
    simp only [hlow]
    rfl
  have hsym : ∀ g, sample.clat g = sample.clat (10 - g) := fun g => (clat_flip sample_ok g).symm
  have h7 : 0 < sample.clat 7 := by
    unfold clat lat dphi
    rw [sample_nd]
    show 0 < |cos (π / ((9 - 1 : ℤ) : ℝ) * ((7 - 5 : ℤ) : ℝ))|
    have : π / ((9 - 1 : ℤ) : ℝ) * ((7 - 5 : ℤ) : ℝ) = π / 4 := by push_cast; ring
    rw [this]
    exact abs_pos.2 (cos_pos_of_mem_Ioo ⟨by linarith [pi_pos], by linarith [pi_pos]⟩).ne'
  have h3 : 0 < sample.clat 3 := by rw [hsym 3]; exact h7
  have hcsm : 0 < sample.csm := by
    unfold csm
    refine lt_of_lt_of_le h3 (single_le_sum (f := sample.clat) (fun g _ => abs_nonneg _) ?_)
    rw [sample_jd]; decide
  show sample.meanS 1 ≠ sample.meanN 1
  rw [hS, hN]
  intro hc
  rw [div_left_inj' hcsm.ne'] at hc
  rw [show Icc (1 : ℤ) 4 = {1, 2, 3, 4} by decide, show Icc (6 : ℤ) 9 = {6, 7, 8, 9} by decide,
    sum_insert (by decide), sum_insert (by decide), sum_insert (by decide), sum_singleton,
    sum_insert (by decide), sum_insert (by decide), sum_insert (by decide), sum_singleton] at hc
  rw [hsym 6, hsym 8, hsym 9, hsym 3] at hc
  norm_num at hc
  have he := exp_pos (1 / 2 : ℝ)
  have : 0 < exp (1 / 2) * sample.clat 7 := mul_pos he h7
  linarith

/-- C48 is violated for `QGFieldNHN22`. -/
theorem C48_nhn22_refuted : ¬ C48_Statement .nhn22 := by
  intro H
  obtain ⟨g, g1, g2, hne⟩ := C48_nhn22_never sample_ok (by decide) (by rw [sample_jd]; norm_num) (by decide) sample_profiles
  exact hne (H sample sample_ok (by decide) (fun h => by cases h) 1 g 1 (by decide) ⟨g1, g2⟩ (by decide)).2.2.2.2.1

/-- The hypotheses of the partial theorems hold for both samples. -/
example : jet.MirrorOk ∧ jet.jb = 0 ∧ sample.MirrorOk ∧ (2 : ℤ) ≠ jet.nd := ⟨jet_ok, rfl, sample_ok, by rw [jet_nd]; norm_num⟩

end Atmos

end Falwa
