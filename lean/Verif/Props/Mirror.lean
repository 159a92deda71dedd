import Verif.Lemmas.Mirror
import Verif.Props.Rotation
import Verif.Props.DirectInv

/-! # Mirror image of the atmosphere (C48) -/

set_option linter.unusedSectionVars false
set_option linter.unusedSimpArgs false
set_option linter.unusedVariables false

noncomputable section

namespace Falwa

open Real Finset

attribute [ext] FluxIn

namespace NhnIn

/-- The reference QGPV of the direct solver depends on the QGPV and the grid only. -/
theorem qrefOut_congr (I J : NhnIn) (h1 : I.imax = J.imax) (h2 : I.jmax = J.jmax) (h3 : I.kmax = J.kmax) (h4 : I.nd = J.nd)
    (h5 : I.nnd = J.nnd) (h6 : I.a = J.a) (h7 : I.dphi = J.dphi) (h8 : I.dlambda = J.dlambda) (h9 : I.om = J.om)
    (hpv : I.pv = J.pv) : I.qrefOut = J.qrefOut := by
  have ha : ∀ k, I.area I.pv k = J.area J.pv k := by
    intro k; unfold area; rw [h1, h2, h4, h5, h6, h7, h8, hpv]
  funext j k
  unfold qrefOut qref qrefNorm qrefRaw
  simp only [ha, h3, h7, h9]

end NhnIn

namespace Atmos

variable (A : Atmos)

/-- The mirror image about the equator: `u` and temperature mirrored, `v` and the forcing of QGPV mirrored and negated. The two
hemispheric calls exchange their places, and so does the unset memory that they see. -/
def mirror : Atmos :=
  { A with
    uField := fun i j l => A.uField i (A.nlatIn + 1 - j) l
    vField := fun i j l => -A.vField i (A.nlatIn + 1 - j) l
    tField := fun i j l => A.tField i (A.nlatIn + 1 - j) l
    ncforce := fun i j k => -A.ncforce i (A.nlat + 1 - j) k
    unsetN := A.unsetS
    unsetS := A.unsetN }

/-- Conditions: an analysis grid with an equator, global mode, and interpolation that respects mirroring and signs. -/
structure MirrorOk : Prop where
  nlon2 : 2 ≤ A.nlon
  odd : A.nlat = 2 * A.nd - 1
  jb0 : 0 ≤ A.jb
  jbnd : A.jb + 2 ≤ A.nd
  a0 : 0 ≤ A.a
  global : A.nhOnly = false
  lat : ∀ f g, A.latInterp (fun j => f (A.nlatIn + 1 - j)) g = A.latInterp f (A.nlat + 1 - g)
  latNeg : ∀ f g, A.latInterp (fun j => -f j) g = -A.latInterp f g
  vertNeg : ∀ f k, A.vertInterp (fun l => -f l) k = -A.vertInterp f k

variable {A} (h : A.MirrorOk)
include h

theorem MirrorOk.nlat3 : 3 ≤ A.nlat := by have := h.odd; have := h.jbnd; have := h.jb0; omega

theorem mirror_u (i g k : ℤ) : A.mirror.u i g k = A.u i (A.nlat + 1 - g) k := by
  have : A.mirror.u0 i g = A.u0 i (A.nlat + 1 - g) := by
    funext l; exact h.lat (fun j => A.uField i j l) g
  show A.vertInterp (A.mirror.u0 i g) k = _
  rw [this]; rfl

theorem mirror_theta0 (i g l : ℤ) : A.mirror.theta0 i g l = A.theta0 i (A.nlat + 1 - g) l :=
  h.lat (fun j => A.tField i j l * exp (A.rr / A.cp * A.zlev l / A.h)) g

theorem mirror_theta (i g k : ℤ) : A.mirror.theta i g k = A.theta i (A.nlat + 1 - g) k := by
  have : A.mirror.theta0 i g = A.theta0 i (A.nlat + 1 - g) := by
    funext l; exact mirror_theta0 h i g l
  show A.vertInterp (A.mirror.theta0 i g) k = _
  rw [this]; rfl

theorem mirror_v (i g k : ℤ) : A.mirror.v i g k = -A.v i (A.nlat + 1 - g) k := by
  have : A.mirror.v0 i g = fun l => -A.v0 i (A.nlat + 1 - g) l := by
    funext l
    exact (h.lat (fun j => -A.vField i j l) g).trans (h.latNeg _ _)
  show A.vertInterp (A.mirror.v0 i g) k = _
  rw [this, h.vertNeg]; rfl

theorem lat_flip (g : ℤ) : A.lat (A.nlat + 1 - g) = -A.lat g := by
  unfold lat
  have := h.odd
  rw [show A.nlat + 1 - g - A.nd = -(g - A.nd) by omega]
  push_cast; ring

theorem clat_flip (g : ℤ) : A.clat (A.nlat + 1 - g) = A.clat g := by
  unfold clat; rw [lat_flip h, cos_neg]

theorem mirror_rowMean (l g : ℤ) : A.mirror.rowMean l g = A.rowMean l (A.nlat + 1 - g) := by
  unfold rowMean
  simp only [mirror_theta0 h, clat_flip h]; rfl

theorem mirror_means : A.mirror.meanS = A.meanN ∧ A.mirror.meanN = A.meanS := by
  constructor <;> funext l
  · unfold meanS meanN
    simp only [mirror_rowMean h]
    show (∑ g ∈ Icc 1 A.jd, A.rowMean l (A.nlat + 1 - g)) / A.csm = _
    congr 1
    refine sum_nbij' (fun g => A.nlat + 1 - g) (fun g => A.nlat + 1 - g) ?_ ?_ ?_ ?_ ?_ <;> intro x hx <;>
      simp only [mem_Icc] at * <;> omega
  · unfold meanS meanN
    simp only [mirror_rowMean h]
    show (∑ g ∈ Icc (A.nlat - A.jd + 1) A.nlat, A.rowMean l (A.nlat + 1 - g)) / A.csm = _
    congr 1
    refine sum_nbij' (fun g => A.nlat + 1 - g) (fun g => A.nlat + 1 - g) ?_ ?_ ?_ ?_ ?_ <;> intro x hx <;>
      simp only [mem_Icc] at * <;> omega

/-- C48, profiles: the southern and northern profiles and stabilities change places. -/
theorem C48_profiles : A.mirror.ts0 = A.tn0 ∧ A.mirror.tn0 = A.ts0 ∧ A.mirror.statS = A.statN ∧ A.mirror.statN = A.statS := by
  obtain ⟨h1, h2⟩ := mirror_means h
  unfold ts0 tn0 statS statN
  rw [h1, h2]; exact ⟨rfl, rfl, rfl, rfl⟩

theorem mirror_t0 : A.mirror.t0 = A.t0 := by
  obtain ⟨h1, h2, _⟩ := C48_profiles h
  funext k; unfold t0; rw [h1, h2]; ring

theorem mirror_stat : A.mirror.stat = A.stat := by
  obtain ⟨_, _, h1, h2⟩ := C48_profiles h
  funext k; unfold stat; rw [h1, h2]; ring

theorem mirror_qgpvIn : A.mirror.qgpvIn = A.qgpvIn.mirror := by
  have e1 : A.mirror.u = fun i j k => A.u i (A.nlat + 1 - j) k := by funext i j k; exact mirror_u h i j k
  have e2 : A.mirror.v = fun i j k => -A.v i (A.nlat + 1 - j) k := by funext i j k; exact mirror_v h i j k
  have e3 : A.mirror.theta = fun i j k => A.theta i (A.nlat + 1 - j) k := by funext i j k; exact mirror_theta h i j k
  unfold qgpvIn
  rw [e1, e2, e3]; rfl

/-- C48, vorticity and QGPV: they are mirrored with a change of sign, on every row, in both classes. -/
theorem C48_qgpv (c : Scheme) (i j k : ℤ) :
    A.mirror.avort i j k = -A.avort i (A.nlat + 1 - j) k ∧ A.mirror.qgpv c i j k = -A.qgpv c i (A.nlat + 1 - j) k := by
  have h2 : 2 ≤ A.qgpvIn.nlat := by have := h.nlat3; show 2 ≤ A.nlat; omega
  constructor
  · unfold avort
    rw [mirror_qgpvIn h]; exact A.qgpvIn.mirror_avort h2 i j k
  · cases c
    · show A.mirror.qgpvIn.pv18 A.mirror.t0 A.mirror.stat i j k = _
      rw [mirror_qgpvIn h, mirror_t0 h, mirror_stat h]; exact A.qgpvIn.mirror_pv18 h2 _ _ i j k
    · show A.mirror.qgpvIn.pv22 A.nd A.mirror.ts0 A.mirror.tn0 A.mirror.statS A.mirror.statN i j k = _
      obtain ⟨a, b, c, d⟩ := C48_profiles h
      rw [mirror_qgpvIn h, a, b, c, d]; exact A.qgpvIn.mirror_pv22 h2 _ h.odd _ _ _ _ i j k

theorem mirror_qgpv_neg (c : Scheme) : A.mirror.qgpv c = fun i j k => -A.flip (A.qgpv c) i j k := by
  funext i j k; exact (C48_qgpv h c i j k).2

theorem flip_mirror_u : A.mirror.u = A.flip A.u := by funext i j k; exact mirror_u h i j k
theorem flip_mirror_theta : A.mirror.theta = A.flip A.theta := by funext i j k; exact mirror_theta h i j k

theorem flip_flip (X : ℤ → ℤ → ℤ → ℝ) : A.flip (A.flip X) = X := by
  funext i j k; unfold flip; rw [show A.nlat + 1 - (A.nlat + 1 - j) = j by ring]

/-- The northern call for the mirror image is the southern call for the atmosphere. -/
theorem mirror_refN : A.mirror.refN = A.refS := by
  unfold refN refS
  rw [mirror_qgpv_neg h, flip_mirror_u h, flip_mirror_theta h, mirror_stat h]; rfl

/-- And the other way round. -/
theorem mirror_refS : A.mirror.refS = A.refN := by
  have e : (fun i j k => -A.mirror.flip (A.mirror.qgpv .nh18) i j k) = A.qgpv .nh18 := by
    rw [mirror_qgpv_neg h]
    funext i j k
    show - -A.qgpv .nh18 i (A.nlat + 1 - (A.nlat + 1 - j)) k = _
    rw [neg_neg, show A.nlat + 1 - (A.nlat + 1 - j) = j by ring]
  have e1 : A.mirror.flip A.mirror.u = A.u := by
    rw [flip_mirror_u h]; exact flip_flip h A.u
  have e2 : A.mirror.flip A.mirror.theta = A.theta := by
    rw [flip_mirror_theta h]; exact flip_flip h A.theta
  unfold refN refS
  rw [e, e1, e2, mirror_stat h]; rfl

theorem mirror_nhn_qref : A.mirror.nhnN.qrefOut = A.nhn.south.qrefOut ∧ A.mirror.nhn.south.qrefOut = A.nhnN.qrefOut := by
  constructor
  · refine NhnIn.qrefOut_congr _ _ rfl rfl rfl rfl rfl rfl rfl rfl rfl ?_
    exact mirror_qgpv_neg h .nhn22
  · refine NhnIn.qrefOut_congr _ _ rfl rfl rfl rfl rfl rfl rfl rfl rfl ?_
    funext i j k
    show -A.mirror.qgpv .nhn22 i (A.nlat + 1 - j) k = A.qgpv .nhn22 i j k
    rw [(C48_qgpv h .nhn22 _ _ _).2, neg_neg, show A.nlat + 1 - (A.nlat + 1 - j) = j by ring]

theorem rows_eq : A.rows = A.nlat := by unfold rows; rw [h.global]; rfl

/-- A reference array of the mirror image, away from the equator. -/
theorem mirror_storeRef (n' s' n s : ℤ → ℤ → ℝ) (h1 : n' = s) (h2 : s' = n) {g : ℤ} (k : ℤ)
    (hg : g ≠ A.nd) : A.mirror.storeRef A.nd n' s' g k = A.storeRef A.nd n s (A.nlat + 1 - g) k := by
  have ho := h.odd
  have hr := rows_eq h
  have hr' : A.mirror.rows = A.nlat := hr
  have hn' : A.mirror.nhOnly = false := h.global
  unfold storeRef
  rw [hr, hr', h1, h2]
  rcases lt_or_gt_of_ne hg with hg | hg
  · rw [if_pos ⟨hn', by omega⟩, if_neg (by rintro ⟨_, x⟩; omega), if_pos (by omega)]
    congr 1; omega
  · rw [if_neg (by rintro ⟨_, x⟩; omega), if_pos (by omega), if_pos ⟨h.global, by omega⟩]
    congr 1; omega

theorem outRow_eq (g : ℤ) : A.outRow g = g := by unfold outRow; rw [rows_eq h]; ring

/-- C48, reference QGPV: mirrored with a change of sign on every row, in both classes. -/
theorem C48_qref (c : Scheme) (g k : ℤ) (g1 : 1 ≤ g) (g2 : g ≤ A.nlat) :
    A.mirror.qref c g k = -A.qref c (A.nlat + 1 - g) k := by
  have ho := h.odd
  have hrow' : A.mirror.outRow g = g := outRow_eq h g
  have hl : A.mirror.lat g = A.lat g := rfl
  have hom : A.mirror.om = A.om := rfl
  unfold qref
  rw [hrow', outRow_eq h, hl, hom, lat_flip h, sin_neg]
  by_cases hg : g = A.nd
  · have : A.lat g = 0 := by unfold lat; rw [hg]; simp
    rw [this, sin_zero]; simp
  · have : A.mirror.qrefStored c g k = A.qrefStored c (A.nlat + 1 - g) k := by
      cases c
      · exact mirror_storeRef h _ _ _ _ (by rw [mirror_refN h]) (by rw [mirror_refS h]) k hg
      · exact mirror_storeRef h _ _ _ _ (mirror_nhn_qref h).1 (mirror_nhn_qref h).2 k hg
    rw [this]; ring

/-- C48, `QGFieldNH18`: the reference wind is mirrored on every row, the reference temperature on every row but the equator.
The number of sweeps of each hemispheric call is that of the other. -/
theorem C48_nh18_reference_partial (g k : ℤ) (g1 : 1 ≤ g) (g2 : g ≤ A.nlat) :
    A.mirror.uref .nh18 g k = A.uref .nh18 (A.nlat + 1 - g) k ∧
    (g ≠ A.nd → A.mirror.ptref .nh18 g k = A.ptref .nh18 (A.nlat + 1 - g) k) ∧
    A.mirror.refN.numOfIter = A.refS.numOfIter ∧ A.mirror.refS.numOfIter = A.refN.numOfIter := by
  have ho := h.odd
  have hb := h.jbnd
  have hb0 := h.jb0
  refine ⟨?_, fun hg => ?_, by rw [mirror_refN h], by rw [mirror_refS h]⟩
  · by_cases hg : g = A.nd
    · have e1 : A.mirror.uref .nh18 g k = A.refN.uref 1 k := by
        show A.mirror.storeRef A.nd A.mirror.refN.uref A.mirror.refS.uref g k = _
        have hn' : A.mirror.nhOnly = false := h.global
        unfold storeRef
        rw [if_pos ⟨hn', by omega⟩, mirror_refS h, hg, show A.nd + 1 - A.nd = 1 by ring]
      have e2 : A.uref .nh18 (A.nlat + 1 - g) k = A.refS.uref 1 k := by
        show A.storeRef A.nd A.refN.uref A.refS.uref _ k = _
        unfold storeRef
        rw [if_pos ⟨h.global, by omega⟩, show A.nd + 1 - (A.nlat + 1 - g) = 1 by omega]
      have r : ∀ I : RefIn, I.jd ≠ 1 → I.uref 1 k = I.ubar 1 k := by
        intro I hI
        unfold RefIn.uref RefIn.windRows
        rw [if_neg (Ne.symm hI), if_pos rfl]
      rw [e1, e2, r _ (by show A.nd ≠ 1; omega), r _ (by show A.nd ≠ 1; omega)]
      unfold RefIn.ubar RefIn.zmean
      show dosum 1 A.nlon (fun i => A.u i (1 + (A.nd - 1)) k / (A.nlon : ℝ)) =
        dosum 1 A.nlon (fun i => A.u i (A.nlat + 1 - (1 + (A.nd - 1))) k / (A.nlon : ℝ))
      rw [show A.nlat + 1 - (1 + (A.nd - 1)) = 1 + (A.nd - 1) by omega]
    · exact mirror_storeRef h _ _ _ _ (by rw [mirror_refN h]) (by rw [mirror_refS h]) k hg
  · exact mirror_storeRef h _ _ _ _ (by rw [mirror_refN h]) (by rw [mirror_refS h]) k hg

/-! ### Hemispheric calls of the flux routine -/

theorem analysis_valid (c : Scheme) : (A.analysis c).Valid := ⟨h.odd, h.jb0, h.jbnd, rfl, h.a0⟩

theorem mirror_northIn (c : Scheme) :
    (A.mirror.analysis c).northIn = (A.analysis c).southIn.withRefs (A.mirror.analysis c).northIn.qref
      (A.mirror.analysis c).northIn.uref (A.mirror.analysis c).northIn.tref (A.mirror.analysis c).northIn.ncforce := by
  apply FluxIn.ext <;> try rfl
  · funext i j k; exact (C48_qgpv h c i j k).2
  · funext i j k; exact mirror_u h i j k
  · funext i j k; exact mirror_v h i j k
  · funext i j k; exact mirror_theta h i j k
  · cases c
    · exact mirror_t0 h
    · exact (C48_profiles h).2.1

theorem mirror_southIn (c : Scheme) :
    (A.mirror.analysis c).southIn = (A.analysis c).northIn.withRefs (A.mirror.analysis c).southIn.qref
      (A.mirror.analysis c).southIn.uref (A.mirror.analysis c).southIn.tref (A.mirror.analysis c).southIn.ncforce := by
  have e : ∀ j, A.nlat + 1 - (A.nlat + 1 - j) = j := fun j => by ring
  apply FluxIn.ext <;> try rfl
  · funext i j k
    show -A.mirror.qgpv c i (A.nlat + 1 - j) k = A.qgpv c i j k
    rw [(C48_qgpv h c _ _ _).2, e, neg_neg]
  · funext i j k
    show A.mirror.u i (A.nlat + 1 - j) k = A.u i j k
    rw [mirror_u h, e]
  · funext i j k
    show -A.mirror.v i (A.nlat + 1 - j) k = A.v i j k
    rw [mirror_v h, e, neg_neg]
  · funext i j k
    show A.mirror.theta i (A.nlat + 1 - j) k = A.theta i j k
    rw [mirror_theta h, e]
  · cases c
    · exact mirror_t0 h
    · exact (C48_profiles h).1

theorem mirror_north_qref (c : Scheme) (j k : ℤ) (h1 : 1 ≤ j) (h2 : j ≤ A.nd) :
    (A.mirror.analysis c).northIn.qref j k = (A.analysis c).southIn.qref j k := by
  have ho := h.odd
  have hr : (A.mirror.analysis c).rows = A.nlat := rows_eq (A := A) h
  show A.mirror.qref c ((A.mirror.analysis c).rows - A.nd + j) k = -A.qref c (A.nd + 1 - j) k
  rw [hr, C48_qref h c _ k (by omega) (by omega)]
  congr 2; omega

theorem mirror_south_qref (c : Scheme) (j k : ℤ) (h1 : 1 ≤ j) (h2 : j ≤ A.nd) :
    (A.mirror.analysis c).southIn.qref j k = (A.analysis c).northIn.qref j k := by
  have ho := h.odd
  have hr : (A.analysis c).rows = A.nlat := rows_eq h
  show -A.mirror.qref c (A.nd + 1 - j) k = A.qref c ((A.analysis c).rows - A.nd + j) k
  rw [hr, C48_qref h c _ k (by omega) (by omega), neg_neg]
  congr 1; omega

theorem mirror_north_nc (c : Scheme) (i j k : ℤ) :
    (A.mirror.analysis c).northIn.ncforce i j k = -(A.analysis c).southIn.ncforce i j k := rfl

theorem mirror_south_nc (c : Scheme) (i j k : ℤ) :
    (A.mirror.analysis c).southIn.ncforce i j k = -(A.analysis c).northIn.ncforce i j k := by
  show -A.ncforce i (A.nlat + 1 - (A.nlat + 1 - j)) k = -A.ncforce i j k
  rw [show A.nlat + 1 - (A.nlat + 1 - j) = j by ring]

/-- Hemispheric wave activity and forcing, both classes. -/
theorem mirror_hem (c : Scheme) (i j k : ℤ) :
    ((A.mirror.analysis c).northIn.fluxDirinv.astar1 i j k = (A.analysis c).southIn.fluxDirinv.astar1 i j k ∧
      (A.mirror.analysis c).northIn.fluxDirinv.astar2 i j k = (A.analysis c).southIn.fluxDirinv.astar2 i j k ∧
      (A.mirror.analysis c).northIn.fluxDirinv.ncforce3d i j k = -(A.analysis c).southIn.fluxDirinv.ncforce3d i j k) ∧
    ((A.mirror.analysis c).southIn.fluxDirinv.astar1 i j k = (A.analysis c).northIn.fluxDirinv.astar1 i j k ∧
      (A.mirror.analysis c).southIn.fluxDirinv.astar2 i j k = (A.analysis c).northIn.fluxDirinv.astar2 i j k ∧
      (A.mirror.analysis c).southIn.fluxDirinv.ncforce3d i j k = -(A.analysis c).northIn.fluxDirinv.ncforce3d i j k) := by
  have hs := (analysis_valid h c).south
  have hn := (analysis_valid h c).north
  constructor
  · rw [mirror_northIn h]
    have a := FluxIn.withRefs_astar _ (A.mirror.analysis c).northIn.qref (A.mirror.analysis c).northIn.uref
      (A.mirror.analysis c).northIn.tref (A.mirror.analysis c).northIn.ncforce hs (mirror_north_qref h c) i j k
    exact ⟨a.1, a.2, FluxIn.withRefs_ncforce3d _ _ _ _ _ hs (mirror_north_qref h c) (mirror_north_nc h c) i j k⟩
  · rw [mirror_southIn h]
    have a := FluxIn.withRefs_astar _ (A.mirror.analysis c).southIn.qref (A.mirror.analysis c).southIn.uref
      (A.mirror.analysis c).southIn.tref (A.mirror.analysis c).southIn.ncforce hn (mirror_south_qref h c) i j k
    exact ⟨a.1, a.2, FluxIn.withRefs_ncforce3d _ _ _ _ _ hn (mirror_south_qref h c) (mirror_south_nc h c) i j k⟩

/-- A stored array of the mirror image, away from the equator. -/
theorem mirror_store (c : Scheme) (n' s' n s : ℤ → ℝ) (h1 : ∀ j, 2 ≤ j → n' j = s j) (h2 : ∀ j, 2 ≤ j → s' j = n j)
    {g : ℤ} (g1 : 1 ≤ g) (g2 : g ≤ A.nlat) (hg : g ≠ A.nd) :
    (A.mirror.analysis c).store n' s' g = (A.analysis c).store n s (A.nlat + 1 - g) := by
  have ho := h.odd
  have hr : (A.analysis c).rows = A.nlat := rows_eq h
  have hr' : (A.mirror.analysis c).rows = A.nlat := rows_eq (A := A) h
  have hn : (A.analysis c).nhOnly = false := h.global
  have hd : (A.analysis c).nd = A.nd := rfl
  have hd' : (A.mirror.analysis c).nd = A.nd := rfl
  rcases lt_or_gt_of_ne hg with hg | hg
  · rw [QGAnalysis.store_south (S := A.mirror.analysis c) h.global (by omega),
      QGAnalysis.store_north (Or.inr (by omega)) (by omega), hr, hd, hd', h2 _ (by omega)]
    congr 1; omega
  · rw [QGAnalysis.store_north (S := A.mirror.analysis c) (Or.inr (by omega)) (by omega),
      QGAnalysis.store_south hn (by omega), hr', hd, hd', h1 _ (by omega)]
    congr 1; omega

theorem avg_neg (c : Scheme) (f : ℤ → ℝ) :
    (A.analysis c).verticalAverage (fun k => -f k) = -(A.analysis c).verticalAverage f := by
  unfold QGAnalysis.verticalAverage
  rw [← sum_neg_distrib]
  exact sum_congr rfl fun k _ => by ring

/-- C48, what holds for both classes: wave activity, its column average, the barotropic wind and the forcing are mirrored on
every row except the equator. -/
theorem C48_lwa_partial (c : Scheme) (i g : ℤ) (g1 : 1 ≤ g) (g2 : g ≤ A.nlat) (hg : g ≠ A.nd) :
    (∀ k, (A.mirror.analysis c).lwa i g k = (A.analysis c).lwa i (A.nlat + 1 - g) k) ∧
    (A.mirror.analysis c).lwaBaro i g = (A.analysis c).lwaBaro i (A.nlat + 1 - g) ∧
    (A.mirror.analysis c).uBaro i g = (A.analysis c).uBaro i (A.nlat + 1 - g) ∧
    (A.mirror.analysis c).ncforceBaro i g = (A.analysis c).ncforceBaro i (A.nlat + 1 - g) := by
  have H := fun j k => mirror_hem h c i j k
  have va : (A.mirror.analysis c).verticalAverage = (A.analysis c).verticalAverage := rfl
  refine ⟨fun k => ?_, ?_, ?_, ?_⟩
  · refine mirror_store h c _ _ _ _ (fun j _ => ?_) (fun j _ => ?_) g1 g2 hg
    · rw [(H j k).1.1, (H j k).1.2.1]
    · rw [(H j k).2.1, (H j k).2.2.1]
  · unfold QGAnalysis.lwaBaro QGAnalysis.baro
    refine congr_arg₂ (· + ·) ?_ ?_ <;> refine mirror_store h c _ _ _ _ (fun j _ => ?_) (fun j _ => ?_) g1 g2 hg <;> rw [va]
    · simp only [(H j _).1.1]
    · simp only [(H j _).2.1]
    · simp only [(H j _).1.2.1]
    · simp only [(H j _).2.2.1]
  · refine mirror_store h c _ _ _ _ (fun j _ => ?_) (fun j _ => ?_) g1 g2 hg <;> rw [va] <;> congr 1 <;> funext k
    · exact mirror_u h _ _ _
    · show A.mirror.u i (A.nlat + 1 - (A.nlat - A.nd + j)) k = A.u i (A.nlat - A.nd + j) k
      rw [mirror_u h, show A.nlat + 1 - (A.nlat + 1 - (A.nlat - A.nd + j)) = A.nlat - A.nd + j by ring]
  · refine mirror_store h c _ _ _ _ (fun j _ => ?_) (fun j _ => ?_) g1 g2 hg <;> rw [va]
    · simp only [(H j _).1.2.2]; exact avg_neg h c _
    · simp only [(H j _).2.2.2]; rw [avg_neg h c, neg_neg]

omit h in
/-- The hemispheric flux terms change places away from the equator. -/
def HemMirrored (A : Atmos) (c : Scheme) : Prop :=
  ∀ i j k, 2 ≤ j →
    ((A.mirror.analysis c).northIn.fluxDirinv.ua1 i j k = (A.analysis c).southIn.fluxDirinv.ua1 i j k ∧
      (A.mirror.analysis c).northIn.fluxDirinv.ua2 i j k = (A.analysis c).southIn.fluxDirinv.ua2 i j k ∧
      (A.mirror.analysis c).northIn.fluxDirinv.ep1 i j k = (A.analysis c).southIn.fluxDirinv.ep1 i j k ∧
      (A.mirror.analysis c).northIn.fluxDirinv.ep2 i j k = (A.analysis c).southIn.fluxDirinv.ep2 i j k ∧
      (A.mirror.analysis c).northIn.fluxDirinv.ep3 i j k = (A.analysis c).southIn.fluxDirinv.ep3 i j k ∧
      (A.mirror.analysis c).northIn.fluxDirinv.ep4 i j = (A.analysis c).southIn.fluxDirinv.ep4 i j) ∧
    ((A.mirror.analysis c).southIn.fluxDirinv.ua1 i j k = (A.analysis c).northIn.fluxDirinv.ua1 i j k ∧
      (A.mirror.analysis c).southIn.fluxDirinv.ua2 i j k = (A.analysis c).northIn.fluxDirinv.ua2 i j k ∧
      (A.mirror.analysis c).southIn.fluxDirinv.ep1 i j k = (A.analysis c).northIn.fluxDirinv.ep1 i j k ∧
      (A.mirror.analysis c).southIn.fluxDirinv.ep2 i j k = (A.analysis c).northIn.fluxDirinv.ep2 i j k ∧
      (A.mirror.analysis c).southIn.fluxDirinv.ep3 i j k = (A.analysis c).northIn.fluxDirinv.ep3 i j k ∧
      (A.mirror.analysis c).southIn.fluxDirinv.ep4 i j = (A.analysis c).northIn.fluxDirinv.ep4 i j)

/-- Hemispheric flux terms, if the reference states change places. Rows from `m` on are needed for the temperature. -/
theorem hemMirrored_of (c : Scheme) (m : ℤ) (hm : 1 ≤ m) (hj1 : 1 ≤ A.jd)
    (un : ∀ j k, 1 ≤ j → j ≤ A.jd → (A.mirror.analysis c).northIn.uref j k = (A.analysis c).southIn.uref j k)
    (us : ∀ j k, 1 ≤ j → j ≤ A.jd → (A.mirror.analysis c).southIn.uref j k = (A.analysis c).northIn.uref j k)
    (tn : ∀ j k, m ≤ j → j ≤ A.jd → (A.mirror.analysis c).northIn.tref j k = (A.analysis c).southIn.tref j k)
    (ts : ∀ j k, m ≤ j → j ≤ A.jd → (A.mirror.analysis c).southIn.tref j k = (A.analysis c).northIn.tref j k)
    (i j k : ℤ) (hj : A.jb + m ≤ j ∨ j ≤ A.jb) :
    ((A.mirror.analysis c).northIn.fluxDirinv.ua1 i j k = (A.analysis c).southIn.fluxDirinv.ua1 i j k ∧
      (A.mirror.analysis c).northIn.fluxDirinv.ua2 i j k = (A.analysis c).southIn.fluxDirinv.ua2 i j k ∧
      (A.mirror.analysis c).northIn.fluxDirinv.ep1 i j k = (A.analysis c).southIn.fluxDirinv.ep1 i j k ∧
      (A.mirror.analysis c).northIn.fluxDirinv.ep2 i j k = (A.analysis c).southIn.fluxDirinv.ep2 i j k ∧
      (A.mirror.analysis c).northIn.fluxDirinv.ep3 i j k = (A.analysis c).southIn.fluxDirinv.ep3 i j k ∧
      (A.mirror.analysis c).northIn.fluxDirinv.ep4 i j = (A.analysis c).southIn.fluxDirinv.ep4 i j) ∧
    ((A.mirror.analysis c).southIn.fluxDirinv.ua1 i j k = (A.analysis c).northIn.fluxDirinv.ua1 i j k ∧
      (A.mirror.analysis c).southIn.fluxDirinv.ua2 i j k = (A.analysis c).northIn.fluxDirinv.ua2 i j k ∧
      (A.mirror.analysis c).southIn.fluxDirinv.ep1 i j k = (A.analysis c).northIn.fluxDirinv.ep1 i j k ∧
      (A.mirror.analysis c).southIn.fluxDirinv.ep2 i j k = (A.analysis c).northIn.fluxDirinv.ep2 i j k ∧
      (A.mirror.analysis c).southIn.fluxDirinv.ep3 i j k = (A.analysis c).northIn.fluxDirinv.ep3 i j k ∧
      (A.mirror.analysis c).southIn.fluxDirinv.ep4 i j = (A.analysis c).northIn.fluxDirinv.ep4 i j) := by
  have hs := (analysis_valid h c).south
  have hn := (analysis_valid h c).north
  have hout : j ≤ A.jb → ∀ I : FluxIn, I.jb = A.jb → 0 ≤ I.jb → I.fluxDirinv.ep1 i j k = 0 ∧ I.fluxDirinv.ep4 i j = 0 := by
    intro hj I hI hb
    have hc : ∀ k, ¬ FluxIn.Iter I i j k := fun k x => by have := x.2.2.1; omega
    rw [I.ep1_eq hb, I.ep4_eq hb, if_neg (hc k), if_neg (hc 2)]
    exact ⟨rfl, rfl⟩
  constructor
  · have e : (A.mirror.analysis c).northIn.fluxDirinv = _ := congr_arg FluxIn.fluxDirinv (mirror_northIn h c)
    rw [e]
    have a := FluxIn.withRefs_ua _ _ _ (A.mirror.analysis c).northIn.tref (A.mirror.analysis c).northIn.ncforce hs
      (mirror_north_qref h c) un i j k
    have b := FluxIn.withRefs_ep23 _ _ _ (A.mirror.analysis c).northIn.tref (A.mirror.analysis c).northIn.ncforce hs
      (mirror_north_qref h c) un hj1 i j k
    rcases hj with hj | hj
    · have d := FluxIn.withRefs_ep14 _ _ _ _ (A.mirror.analysis c).northIn.ncforce hs
        (mirror_north_qref h c) un m hm tn i j k hj
      exact ⟨a.1, a.2, d.1, b.1, b.2, d.2⟩
    · have d := hout hj (A.analysis c).southIn rfl h.jb0
      have d' := hout hj _ (show ((A.analysis c).southIn.withRefs (A.mirror.analysis c).northIn.qref
        (A.mirror.analysis c).northIn.uref (A.mirror.analysis c).northIn.tref (A.mirror.analysis c).northIn.ncforce).jb = A.jb
        from rfl) h.jb0
      exact ⟨a.1, a.2, d'.1.trans d.1.symm, b.1, b.2, d'.2.trans d.2.symm⟩
  · have e : (A.mirror.analysis c).southIn.fluxDirinv = _ := congr_arg FluxIn.fluxDirinv (mirror_southIn h c)
    rw [e]
    have a := FluxIn.withRefs_ua _ _ _ (A.mirror.analysis c).southIn.tref (A.mirror.analysis c).southIn.ncforce hn
      (mirror_south_qref h c) us i j k
    have b := FluxIn.withRefs_ep23 _ _ _ (A.mirror.analysis c).southIn.tref (A.mirror.analysis c).southIn.ncforce hn
      (mirror_south_qref h c) us hj1 i j k
    rcases hj with hj | hj
    · have d := FluxIn.withRefs_ep14 _ _ _ _ (A.mirror.analysis c).southIn.ncforce hn
        (mirror_south_qref h c) us m hm ts i j k hj
      exact ⟨a.1, a.2, d.1, b.1, b.2, d.2⟩
    · have d := hout hj (A.analysis c).northIn rfl h.jb0
      have d' := hout hj _ (show ((A.analysis c).northIn.withRefs (A.mirror.analysis c).southIn.qref
        (A.mirror.analysis c).southIn.uref (A.mirror.analysis c).southIn.tref (A.mirror.analysis c).southIn.ncforce).jb = A.jb
        from rfl) h.jb0
      exact ⟨a.1, a.2, d'.1.trans d.1.symm, b.1, b.2, d'.2.trans d.2.symm⟩

/-- Hemispheric flux terms of `QGFieldNH18`. -/
theorem mirror_hem18 (h0 : A.jb = 0) : A.HemMirrored .nh18 := by
  intro i j k hj
  have ho := h.odd
  have hs := (analysis_valid h .nh18).south
  have hn := (analysis_valid h .nh18).north
  have hjd : A.jd = A.nd := by unfold jd; omega
  have hr : (A.analysis .nh18).rows = A.nlat := rows_eq h
  have hr' : (A.mirror.analysis .nh18).rows = A.nlat := rows_eq (A := A) h
  have hjs : (A.analysis .nh18).southIn.jb = 0 := h0
  have hjn : (A.analysis .nh18).northIn.jb = 0 := h0
  have hj1 : 1 ≤ A.jd := by have := h.jbnd; omega
  have un : ∀ j k, 1 ≤ j → j ≤ A.jd → (A.mirror.analysis .nh18).northIn.uref j k = (A.analysis .nh18).southIn.uref j k := by
    intro j k j1 j2
    show A.mirror.uref .nh18 ((A.mirror.analysis .nh18).rows - A.jd + j) k = A.uref .nh18 (A.jd + 1 - j) k
    rw [hr', (C48_nh18_reference_partial h _ k (by omega) (by omega)).1]
    congr 1; omega
  have us : ∀ j k, 1 ≤ j → j ≤ A.jd → (A.mirror.analysis .nh18).southIn.uref j k = (A.analysis .nh18).northIn.uref j k := by
    intro j k j1 j2
    show A.mirror.uref .nh18 (A.jd + 1 - j) k = A.uref .nh18 ((A.analysis .nh18).rows - A.jd + j) k
    rw [hr, (C48_nh18_reference_partial h _ k (by omega) (by omega)).1]
    congr 1; omega
  have tn : ∀ j k, 2 ≤ j → j ≤ A.jd → (A.mirror.analysis .nh18).northIn.tref j k = (A.analysis .nh18).southIn.tref j k := by
    intro j k j1 j2
    show A.mirror.ptref .nh18 ((A.mirror.analysis .nh18).rows - A.jd + j) k = A.ptref .nh18 (A.jd + 1 - j) k
    rw [hr', (C48_nh18_reference_partial h _ k (by omega) (by omega)).2.1 (by omega)]
    congr 1; omega
  have ts : ∀ j k, 2 ≤ j → j ≤ A.jd → (A.mirror.analysis .nh18).southIn.tref j k = (A.analysis .nh18).northIn.tref j k := by
    intro j k j1 j2
    show A.mirror.ptref .nh18 (A.jd + 1 - j) k = A.ptref .nh18 ((A.analysis .nh18).rows - A.jd + j) k
    rw [hr, (C48_nh18_reference_partial h _ k (by omega) (by omega)).2.1 (by omega)]
    congr 1; omega
  exact hemMirrored_of h .nh18 2 (by norm_num) hj1 un us tn ts i j k (Or.inl (by omega))

theorem mirror_baro (c : Scheme) (x : FluxOut → ℤ → ℤ → ℤ → ℝ) (i : ℤ) {g : ℤ} (g1 : 1 ≤ g) (g2 : g ≤ A.nlat) (hg : g ≠ A.nd)
    (h1 : ∀ j k, 2 ≤ j → x (A.mirror.analysis c).northIn.fluxDirinv i j k = x (A.analysis c).southIn.fluxDirinv i j k)
    (h2 : ∀ j k, 2 ≤ j → x (A.mirror.analysis c).southIn.fluxDirinv i j k = x (A.analysis c).northIn.fluxDirinv i j k) :
    (A.mirror.analysis c).baro x i g = (A.analysis c).baro x i (A.nlat + 1 - g) := by
  have va : (A.mirror.analysis c).verticalAverage = (A.analysis c).verticalAverage := rfl
  unfold QGAnalysis.baro
  refine mirror_store h c _ _ _ _ (fun j hj => ?_) (fun j hj => ?_) g1 g2 hg
  · simp only [va, h1 j _ hj]
  · simp only [va, h2 j _ hj]

theorem store_neg (c : Scheme) (n s : ℤ → ℝ) (g : ℤ) :
    (A.analysis c).store (fun j => -n j) (fun j => -s j) g = -(A.analysis c).store n s g := by
  unfold QGAnalysis.store; split_ifs <;> simp

theorem mirror_ep2baro (c : Scheme) (H : A.HemMirrored c) (i g : ℤ) (g1 : 1 ≤ g) (g2 : g ≤ A.nlat) (hg : g ≠ A.nd) :
    (A.mirror.analysis c).ep2baro i g = -(A.analysis c).ep3baro i (A.nlat + 1 - g) := by
  have va : (A.mirror.analysis c).verticalAverage = (A.analysis c).verticalAverage := rfl
  unfold QGAnalysis.ep3baro QGAnalysis.ep2baro
  rw [← store_neg h]
  refine mirror_store h c _ _ _ _ (fun j hj => ?_) (fun j hj => ?_) g1 g2 hg
  · have : ∀ k, _ := fun k => (H i j k hj).1.2.2.2.1
    simp only [va, this, neg_neg]
  · have : ∀ k, _ := fun k => (H i j k hj).2.2.2.2.2.1
    simp only [va, this]

theorem mirror_ep3baro (c : Scheme) (H : A.HemMirrored c) (i g : ℤ) (g1 : 1 ≤ g) (g2 : g ≤ A.nlat) (hg : g ≠ A.nd) :
    (A.mirror.analysis c).ep3baro i g = -(A.analysis c).ep2baro i (A.nlat + 1 - g) := by
  have va : (A.mirror.analysis c).verticalAverage = (A.analysis c).verticalAverage := rfl
  unfold QGAnalysis.ep3baro QGAnalysis.ep2baro
  rw [← store_neg h]
  refine mirror_store h c _ _ _ _ (fun j hj => ?_) (fun j hj => ?_) g1 g2 hg
  · have : ∀ k, _ := fun k => (H i j k hj).1.2.2.2.2.1
    simp only [va, this, neg_neg]
  · have : ∀ k, _ := fun k => (H i j k hj).2.2.2.2.1
    simp only [va, this]

theorem mirror_F123 (c : Scheme) (H : A.HemMirrored c) (i g : ℤ) (g1 : 1 ≤ g) (g2 : g ≤ A.nlat) (hg : g ≠ A.nd) :
    (A.mirror.analysis c).advFluxF1 i g = (A.analysis c).advFluxF1 i (A.nlat + 1 - g) ∧
    (A.mirror.analysis c).advFluxF2 i g = (A.analysis c).advFluxF2 i (A.nlat + 1 - g) ∧
    (A.mirror.analysis c).advFluxF3 i g = (A.analysis c).advFluxF3 i (A.nlat + 1 - g) := by
  refine ⟨?_, ?_, ?_⟩
  · exact mirror_baro h c FluxOut.ua1 i g1 g2 hg (fun j k hj => (H i j k hj).1.1)
      (fun j k hj => (H i j k hj).2.1)
  · exact mirror_baro h c FluxOut.ua2 i g1 g2 hg (fun j k hj => (H i j k hj).1.2.1)
      (fun j k hj => (H i j k hj).2.2.1)
  · exact mirror_baro h c FluxOut.ep1 i g1 g2 hg (fun j k hj => (H i j k hj).1.2.2.1)
      (fun j k hj => (H i j k hj).2.2.2.1)

/-- The barotropic flux terms, if the hemispheric ones change places. -/
theorem fluxes_of (c : Scheme) (H : A.HemMirrored c) (i g : ℤ) (g1 : 1 ≤ g) (g2 : g ≤ A.nlat) (hg : g ≠ A.nd) :
    (A.mirror.analysis c).advFluxF1 i g = (A.analysis c).advFluxF1 i (A.nlat + 1 - g) ∧
    (A.mirror.analysis c).advFluxF2 i g = (A.analysis c).advFluxF2 i (A.nlat + 1 - g) ∧
    (A.mirror.analysis c).advFluxF3 i g = (A.analysis c).advFluxF3 i (A.nlat + 1 - g) ∧
    (A.mirror.analysis c).zonalFluxSum i g = (A.analysis c).zonalFluxSum i (A.nlat + 1 - g) ∧
    (A.mirror.analysis c).heatFlux i g = (A.analysis c).heatFlux i (A.nlat + 1 - g) ∧
    (A.mirror.analysis c).ep2baro i g = -(A.analysis c).ep3baro i (A.nlat + 1 - g) ∧
    (A.mirror.analysis c).ep3baro i g = -(A.analysis c).ep2baro i (A.nlat + 1 - g) ∧
    (A.mirror.analysis c).divEddyMomentumFlux i g = (A.analysis c).divEddyMomentumFlux i (A.nlat + 1 - g) := by
  obtain ⟨f1, f2, f3⟩ := mirror_F123 h c H i g g1 g2 hg
  have e2 := mirror_ep2baro h c H i g g1 g2 hg
  have e3 := mirror_ep3baro h c H i g g1 g2 hg
  refine ⟨f1, f2, f3, ?_, ?_, e2, e3, ?_⟩
  · exact congr_arg₂ (· + ·) (congr_arg₂ (· + ·) f1 f2) f3
  · unfold QGAnalysis.heatFlux
    exact mirror_store h c _ _ _ _ (fun j hj => (H i j 0 hj).1.2.2.2.2.2)
      (fun j hj => (H i j 0 hj).2.2.2.2.2.2) g1 g2 hg
  · unfold QGAnalysis.divEddyMomentumFlux
    rw [e2, e3]
    have hl : (A.mirror.analysis c).lat ((A.mirror.analysis c).outRow g) = A.lat (A.outRow g) := rfl
    have hl' : (A.analysis c).lat ((A.analysis c).outRow (A.nlat + 1 - g)) = A.lat (A.outRow (A.nlat + 1 - g)) := rfl
    have hd : (A.mirror.analysis c).dphi = (A.analysis c).dphi := rfl
    have ha : (A.mirror.analysis c).a = (A.analysis c).a := rfl
    rw [hl, hl', hd, ha, outRow_eq h, outRow_eq h, lat_flip h, cos_neg]
    ring

/-- C48, `QGFieldNH18`: every flux term is mirrored on every row except the equator. The momentum fluxes at the two
neighbouring rows (`ep2baro` north, `ep3baro` south) change places and sign; their divergence is mirrored. -/
theorem C48_nh18_fluxes_partial (h0 : A.jb = 0) (i g : ℤ) (g1 : 1 ≤ g) (g2 : g ≤ A.nlat) (hg : g ≠ A.nd) :
    (A.mirror.analysis .nh18).advFluxF1 i g = (A.analysis .nh18).advFluxF1 i (A.nlat + 1 - g) ∧
    (A.mirror.analysis .nh18).advFluxF2 i g = (A.analysis .nh18).advFluxF2 i (A.nlat + 1 - g) ∧
    (A.mirror.analysis .nh18).advFluxF3 i g = (A.analysis .nh18).advFluxF3 i (A.nlat + 1 - g) ∧
    (A.mirror.analysis .nh18).zonalFluxSum i g = (A.analysis .nh18).zonalFluxSum i (A.nlat + 1 - g) ∧
    (A.mirror.analysis .nh18).heatFlux i g = (A.analysis .nh18).heatFlux i (A.nlat + 1 - g) ∧
    (A.mirror.analysis .nh18).ep2baro i g = -(A.analysis .nh18).ep3baro i (A.nlat + 1 - g) ∧
    (A.mirror.analysis .nh18).ep3baro i g = -(A.analysis .nh18).ep2baro i (A.nlat + 1 - g) ∧
    (A.mirror.analysis .nh18).divEddyMomentumFlux i g = (A.analysis .nh18).divEddyMomentumFlux i (A.nlat + 1 - g) :=
  fluxes_of h .nh18 (mirror_hem18 h h0) i g g1 g2 hg

/-- The zonal convergence, if the hemispheric flux terms change places. -/
theorem convergence_of (c : Scheme) (H : A.HemMirrored c) (r x : ℕ) (hr : r < A.nlat.toNat) (hg : (r : ℤ) + 1 ≠ A.nd) :
    (A.mirror.analysis c).convergenceZonal r x = (A.analysis c).convergenceZonal (A.nlat.toNat - 1 - r) x := by
  have h3 := h.nlat3
  have e : ∀ y : ℕ, (A.mirror.analysis c).zonalFluxSum (y + 1) (r + 1) =
      (A.analysis c).zonalFluxSum (y + 1) (((A.nlat.toNat - 1 - r : ℕ) : ℤ) + 1) := by
    intro y
    rw [(fluxes_of h c H _ _ (by omega) (by omega) hg).2.2.2.1]
    congr 1; omega
  have el : cos ((A.mirror.analysis c).lat ((A.mirror.analysis c).outRow ((r : ℤ) + 1))) =
      cos ((A.analysis c).lat ((A.analysis c).outRow (((A.nlat.toNat - 1 - r : ℕ) : ℤ) + 1))) := by
    show cos (A.lat (A.outRow _)) = cos (A.lat (A.outRow _))
    rw [outRow_eq h, outRow_eq h, show (((A.nlat.toNat - 1 - r : ℕ) : ℤ) + 1) = A.nlat + 1 - ((r : ℤ) + 1) by omega,
      lat_flip h, cos_neg]
  unfold QGAnalysis.convergenceZonal zonalConvergence zonalDiff
  beta_reduce
  rw [el]
  simp only [e]
  rfl

/-- C48, `QGFieldNH18`: the zonal convergence is mirrored on every row except the equator (Python rows). -/
theorem C48_nh18_convergence_partial (h0 : A.jb = 0) (r x : ℕ) (hr : r < A.nlat.toNat) (hg : (r : ℤ) + 1 ≠ A.nd) :
    (A.mirror.analysis .nh18).convergenceZonal r x = (A.analysis .nh18).convergenceZonal (A.nlat.toNat - 1 - r) x :=
  convergence_of h .nh18 (mirror_hem18 h h0) r x hr hg

end Atmos

end Falwa
