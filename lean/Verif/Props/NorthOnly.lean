import Verif.Props.MirrorFail
import Verif.Props.Flux

/-! # `northern_hemisphere_results_only` (C139)

The option is documented as a choice of output. Compared are two objects made from the same arrays on a grid with an
equator: one returns all `nlat` rows, the other the `nd` rows from the equator to the pole. Row `g` of the second should be
row `nlat - nd + g = nd - 1 + g` of the first. -/

set_option linter.unusedSectionVars false
set_option linter.unusedSimpArgs false
set_option linter.unusedVariables false

noncomputable section

namespace Falwa

open Real Finset

namespace FluxIn

/-- The forcing term of the routine depends on the reference states through `qref` on rows `1 … nd` only. -/
theorem withRefs_ncforce3d_same (I : FluxIn) (q u t : ℤ → ℤ → ℝ) (hI : I.Shaped)
    (hq : ∀ j k, 1 ≤ j → j ≤ I.nd → q j k = I.qref j k) (i j k : ℤ) :
    (I.withRefs q u t I.ncforce).fluxDirinv.ncforce3d i j k = I.fluxDirinv.ncforce3d i j k := by
  have hb := hI.jb0
  rw [(I.withRefs q u t I.ncforce).ncforce3d_eq hb, I.ncforce3d_eq hb]
  by_cases hc : Iter I i j k
  · have hc' : Iter (I.withRefs q u t I.ncforce) i j k := hc
    rw [if_pos hc, if_pos hc', acc_nc, acc_nc]
    refine sum_congr rfl fun jj _ => ?_
    unfold sgn
    rw [I.withRefs_qe q u t I.ncforce hI hq (by have := hc.2.2.1; omega) (by have := hc.2.2.2; omega)]
    rfl
  · have hc' : ¬ Iter (I.withRefs q u t I.ncforce) i j k := hc
    rw [if_neg hc, if_neg hc']

end FluxIn

namespace Atmos

/-- The same object with `northern_hemisphere_results_only=True`, oopinterface.py line 209. -/
def northOnly (A : Atmos) : Atmos := { A with nhOnly := true }

/-- A grid with an equator, global mode. -/
structure Global (A : Atmos) : Prop where
  odd : A.nlat = 2 * A.nd - 1
  jb0 : 0 ≤ A.jb
  jbnd : A.jb + 2 ≤ A.nd
  a0 : 0 ≤ A.a
  global : A.nhOnly = false

/-- The option only restricts the output: every array that is returned in northern mode is the northern part of the array
that is returned in global mode, the equator included. -/
def C139_Statement : Prop :=
  ∀ (A : Atmos) (c : Scheme), A.Global → ∀ i g k, 1 ≤ g → g ≤ A.nd →
    A.northOnly.qref c g k = A.qref c (A.nd - 1 + g) k ∧
    A.northOnly.uref c g k = A.uref c (A.nd - 1 + g) k ∧
    A.northOnly.ptref c g k = A.ptref c (A.nd - 1 + g) k ∧
    (A.northOnly.analysis c).lwa i g k = (A.analysis c).lwa i (A.nd - 1 + g) k ∧
    (A.northOnly.analysis c).lwaBaro i g = (A.analysis c).lwaBaro i (A.nd - 1 + g) ∧
    (A.northOnly.analysis c).uBaro i g = (A.analysis c).uBaro i (A.nd - 1 + g) ∧
    (A.northOnly.analysis c).ncforceBaro i g = (A.analysis c).ncforceBaro i (A.nd - 1 + g) ∧
    (A.northOnly.analysis c).advFluxF1 i g = (A.analysis c).advFluxF1 i (A.nd - 1 + g) ∧
    (A.northOnly.analysis c).advFluxF2 i g = (A.analysis c).advFluxF2 i (A.nd - 1 + g) ∧
    (A.northOnly.analysis c).advFluxF3 i g = (A.analysis c).advFluxF3 i (A.nd - 1 + g) ∧
    (A.northOnly.analysis c).heatFlux i g = (A.analysis c).heatFlux i (A.nd - 1 + g) ∧
    (A.northOnly.analysis c).divEddyMomentumFlux i g = (A.analysis c).divEddyMomentumFlux i (A.nd - 1 + g)

variable {A : Atmos} (h : A.Global)
include h

theorem Global.rows : A.rows = A.nlat := by unfold Atmos.rows; rw [h.global]; rfl

omit h in
theorem northOnly_rows : A.northOnly.rows = A.nd := rfl

theorem Global.valid (c : Scheme) : (A.analysis c).Valid := ⟨h.odd, h.jb0, h.jbnd, rfl, h.a0⟩

theorem Global.validN (c : Scheme) : (A.northOnly.analysis c).Valid := ⟨h.odd, h.jb0, h.jbnd, rfl, h.a0⟩

/-- A reference array with `n` rows per hemisphere: northern rows that the southern assignment does not touch. -/
theorem northOnly_storeRef (n : ℤ) (hn : n ≤ A.nd) (x y : ℤ → ℤ → ℝ) (g k : ℤ) (g1 : 1 ≤ g) (hg : 2 ≤ g ∨ n < A.nd) :
    A.northOnly.storeRef n x y g k = A.storeRef n x y (A.nd - 1 + g) k := by
  have ho := h.odd
  have c1 : ¬ (A.northOnly.nhOnly = false ∧ g ≤ n) := by rintro ⟨z, _⟩; exact absurd z (by simp [northOnly])
  have c2 : ¬ (A.nhOnly = false ∧ A.nd - 1 + g ≤ n) := by rintro ⟨_, z⟩; omega
  unfold storeRef
  rw [h.rows, northOnly_rows, if_neg c1, if_neg c2]
  by_cases hx : A.nd - n + 1 ≤ g
  · rw [if_pos hx, if_pos (by omega)]
    congr 1; omega
  · rw [if_neg hx, if_neg (by omega)]

theorem northOnly_outRow (g : ℤ) : A.northOnly.outRow g = A.nd - 1 + g ∧ A.outRow (A.nd - 1 + g) = A.nd - 1 + g := by
  have ho := h.odd
  unfold outRow
  rw [h.rows, northOnly_rows]
  constructor
  · show A.nlat - A.nd + g = _; omega
  · omega

/-- C139, reference QGPV: agrees on every row, the equator included, in both classes. -/
theorem C139_qref (c : Scheme) (g k : ℤ) (g1 : 1 ≤ g) : A.northOnly.qref c g k = A.qref c (A.nd - 1 + g) k := by
  obtain ⟨e1, e2⟩ := northOnly_outRow h g
  unfold qref
  rw [e1, e2]
  show A.northOnly.qrefStored c g k * 2 * A.om * sin (A.lat (A.nd - 1 + g)) = _
  by_cases hg : g = 1
  · have : A.lat (A.nd - 1 + g) = 0 := by unfold lat; rw [hg]; simp
    rw [this, sin_zero, mul_zero, mul_zero]
  · have : A.northOnly.qrefStored c g k = A.qrefStored c (A.nd - 1 + g) k := by
      cases c
      · exact northOnly_storeRef h A.nd le_rfl A.refN.qref A.refS.qref g k g1 (Or.inl (by omega))
      · exact northOnly_storeRef h A.nd le_rfl A.nhnN.qrefOut A.nhn.south.qrefOut g k g1 (Or.inl (by omega))
    rw [this]

/-- C139, reference wind of `QGFieldNH18`: agrees on every row; at the equator both solver calls give the zonal mean wind. -/
theorem C139_nh18_uref (g k : ℤ) (g1 : 1 ≤ g) : A.northOnly.uref .nh18 g k = A.uref .nh18 (A.nd - 1 + g) k := by
  have ho := h.odd
  have hb := h.jbnd
  have hb0 := h.jb0
  by_cases hg : g = 1
  · have e1 : A.northOnly.uref .nh18 g k = A.refN.uref 1 k := by
      show A.northOnly.storeRef A.nd A.refN.uref A.refS.uref g k = _
      unfold storeRef
      rw [northOnly_rows, if_neg (by rintro ⟨z, _⟩; exact absurd z (by simp [northOnly])), if_pos (by omega)]
      congr 1; omega
    have e2 : A.uref .nh18 (A.nd - 1 + g) k = A.refS.uref 1 k := by
      show A.storeRef A.nd A.refN.uref A.refS.uref _ k = _
      unfold storeRef
      rw [if_pos ⟨h.global, by omega⟩, show A.nd + 1 - (A.nd - 1 + g) = 1 by omega]
    have r : ∀ I : RefIn, I.jd ≠ 1 → I.uref 1 k = I.ubar 1 k := by
      intro I hI
      unfold RefIn.uref RefIn.windRows
      rw [if_neg (Ne.symm hI), if_pos rfl]
    rw [e1, e2, r _ (by show A.nd ≠ 1; omega), r _ (by show A.nd ≠ 1; omega)]
    unfold RefIn.ubar RefIn.zmean
    show dosum 1 A.nlon (fun i => A.u i (1 + (A.nd - 1)) k / (A.nlon : ℝ)) =
      dosum 1 A.nlon (fun i => A.u i (A.nlat + 1 - (1 + (A.nd - 1))) k / (A.nlon : ℝ))
    rw [show A.nlat + 1 - (1 + (A.nd - 1)) = 1 + (A.nd - 1) by omega]
  · exact northOnly_storeRef h A.nd le_rfl A.refN.uref A.refS.uref g k g1 (Or.inl (by omega))

/-- C139, reference temperature of `QGFieldNH18`: agrees away from the equator. -/
theorem C139_nh18_ptref_partial (g k : ℤ) (g2 : 2 ≤ g) : A.northOnly.ptref .nh18 g k = A.ptref .nh18 (A.nd - 1 + g) k :=
  northOnly_storeRef h A.nd le_rfl A.refN.tref A.refS.tref g k (by omega) (Or.inl g2)

/-- C139, reference wind and temperature of `QGFieldNHN22`: they agree on every row if `eq_boundary_index` is positive. -/
theorem C139_nhn22_reference (hb : 1 ≤ A.jb) (g k : ℤ) (g1 : 1 ≤ g) :
    A.northOnly.uref .nhn22 g k = A.uref .nhn22 (A.nd - 1 + g) k ∧
    A.northOnly.ptref .nhn22 g k = A.ptref .nhn22 (A.nd - 1 + g) k := by
  have hj : A.jd < A.nd := by unfold jd; omega
  exact ⟨northOnly_storeRef h A.jd hj.le A.nhnN.uref A.nhn.south.uref g k g1 (Or.inr hj),
    northOnly_storeRef h A.jd hj.le A.nhnN.tref A.nhn.south.tref g k g1 (Or.inr hj)⟩

/-! ### The flux routine -/

theorem northOnly_northIn (c : Scheme) :
    (A.northOnly.analysis c).northIn = (A.analysis c).northIn.withRefs (A.northOnly.analysis c).northIn.qref
      (A.northOnly.analysis c).northIn.uref (A.northOnly.analysis c).northIn.tref (A.analysis c).northIn.ncforce := by
  apply FluxIn.ext <;> rfl

theorem northOnly_north_qref (c : Scheme) (j k : ℤ) (h1 : 1 ≤ j) (h2 : j ≤ A.nd) :
    (A.northOnly.analysis c).northIn.qref j k = (A.analysis c).northIn.qref j k := by
  have ho := h.odd
  show A.northOnly.qref c (A.northOnly.rows - A.nd + j) k = A.qref c (A.rows - A.nd + j) k
  rw [h.rows, northOnly_rows, C139_qref h c _ k (by omega)]
  congr 1; omega

/-- Wave activity and forcing of the northern call do not depend on the option. -/
theorem northOnly_astar (c : Scheme) (i j k : ℤ) :
    (A.northOnly.analysis c).northIn.fluxDirinv.astar1 i j k = (A.analysis c).northIn.fluxDirinv.astar1 i j k ∧
    (A.northOnly.analysis c).northIn.fluxDirinv.astar2 i j k = (A.analysis c).northIn.fluxDirinv.astar2 i j k ∧
    (A.northOnly.analysis c).northIn.fluxDirinv.ncforce3d i j k = (A.analysis c).northIn.fluxDirinv.ncforce3d i j k := by
  have hn := (h.valid c).north
  rw [northOnly_northIn h]
  have a := FluxIn.withRefs_astar _ (A.northOnly.analysis c).northIn.qref (A.northOnly.analysis c).northIn.uref
    (A.northOnly.analysis c).northIn.tref (A.analysis c).northIn.ncforce hn (northOnly_north_qref h c) i j k
  exact ⟨a.1, a.2, FluxIn.withRefs_ncforce3d_same _ _ _ _ hn (northOnly_north_qref h c) i j k⟩

/-- The classes as they are used: NH18 has no boundary index, NHN22 a positive one. -/
def _root_.Falwa.Scheme.Boundary (c : Scheme) (jb : ℤ) : Prop := (c = .nh18 ∧ jb = 0) ∨ (c = .nhn22 ∧ 1 ≤ jb)

/-- The other terms of the northern call do not depend on the option either, away from the equator. -/
theorem northOnly_terms (c : Scheme) (hc : c.Boundary A.jb) (i j k : ℤ) (hj : 2 ≤ j) :
    (A.northOnly.analysis c).northIn.fluxDirinv.ua1 i j k = (A.analysis c).northIn.fluxDirinv.ua1 i j k ∧
    (A.northOnly.analysis c).northIn.fluxDirinv.ua2 i j k = (A.analysis c).northIn.fluxDirinv.ua2 i j k ∧
    (A.northOnly.analysis c).northIn.fluxDirinv.ep1 i j k = (A.analysis c).northIn.fluxDirinv.ep1 i j k ∧
    (A.northOnly.analysis c).northIn.fluxDirinv.ep2 i j k = (A.analysis c).northIn.fluxDirinv.ep2 i j k ∧
    (A.northOnly.analysis c).northIn.fluxDirinv.ep3 i j k = (A.analysis c).northIn.fluxDirinv.ep3 i j k ∧
    (A.northOnly.analysis c).northIn.fluxDirinv.ep4 i j = (A.analysis c).northIn.fluxDirinv.ep4 i j := by
  have ho := h.odd
  have hb := h.jbnd
  have hb0 := h.jb0
  have hn := (h.valid c).north
  have hjd : A.jd = A.nd - A.jb := rfl
  have hj1 : 1 ≤ A.jd := by omega
  have hu : ∀ j k, 1 ≤ j → j ≤ A.jd → (A.northOnly.analysis c).northIn.uref j k = (A.analysis c).northIn.uref j k := by
    intro j k j1 j2
    show A.northOnly.uref c (A.northOnly.rows - A.jd + j) k = A.uref c (A.rows - A.jd + j) k
    rw [h.rows, northOnly_rows]
    rcases hc with ⟨rfl, _⟩ | ⟨rfl, hb1⟩
    · rw [C139_nh18_uref h _ k (by omega)]; congr 1; omega
    · rw [(C139_nhn22_reference h hb1 _ k (by omega)).1]; congr 1; omega
  have ht : ∀ j k, 1 ≤ j → 2 ≤ A.jb + j → j ≤ A.jd →
      (A.northOnly.analysis c).northIn.tref j k = (A.analysis c).northIn.tref j k := by
    intro j k j1 j2 j3
    show A.northOnly.ptref c (A.northOnly.rows - A.jd + j) k = A.ptref c (A.rows - A.jd + j) k
    rw [h.rows, northOnly_rows]
    rcases hc with ⟨rfl, hb1⟩ | ⟨rfl, hb1⟩
    · rw [C139_nh18_ptref_partial h _ k (by omega)]; congr 1; omega
    · rw [(C139_nhn22_reference h hb1 _ k (by omega)).2]; congr 1; omega
  have e : (A.northOnly.analysis c).northIn.fluxDirinv = _ := congr_arg FluxIn.fluxDirinv (northOnly_northIn h c)
  rw [e]
  have a := FluxIn.withRefs_ua _ _ _ (A.northOnly.analysis c).northIn.tref (A.analysis c).northIn.ncforce hn
    (northOnly_north_qref h c) hu i j k
  have b := FluxIn.withRefs_ep23 _ _ _ (A.northOnly.analysis c).northIn.tref (A.analysis c).northIn.ncforce hn
    (northOnly_north_qref h c) hu hj1 i j k
  by_cases hjb : j ≤ A.jb
  · have hout : ∀ I : FluxIn, I.jb = A.jb → I.fluxDirinv.ep1 i j k = 0 ∧ I.fluxDirinv.ep4 i j = 0 := by
      intro I hI
      have hc : ∀ k, ¬ FluxIn.Iter I i j k := fun k x => by have := x.2.2.1; omega
      rw [I.ep1_eq (by omega), I.ep4_eq (by omega), if_neg (hc k), if_neg (hc 2)]
      exact ⟨rfl, rfl⟩
    have d := hout (A.analysis c).northIn rfl
    have d' := hout ((A.analysis c).northIn.withRefs (A.northOnly.analysis c).northIn.qref
      (A.northOnly.analysis c).northIn.uref (A.northOnly.analysis c).northIn.tref (A.analysis c).northIn.ncforce) rfl
    exact ⟨a.1, a.2, d'.1.trans d.1.symm, b.1, b.2, d'.2.trans d.2.symm⟩
  · rcases hc with ⟨rfl, hb1⟩ | ⟨rfl, hb1⟩
    · have d := FluxIn.withRefs_ep14 _ _ _ _ (A.analysis .nh18).northIn.ncforce hn
        (northOnly_north_qref h .nh18) hu 2 (by norm_num) (fun j k j1 j2 => ht j k (by omega) (by omega) j2) i j k
        (show A.jb + 2 ≤ j by omega)
      exact ⟨a.1, a.2, d.1, b.1, b.2, d.2⟩
    · have d := FluxIn.withRefs_ep14 _ _ _ _ (A.analysis .nhn22).northIn.ncforce hn
        (northOnly_north_qref h .nhn22) hu 1 (by norm_num) (fun j k j1 j2 => ht j k j1 (by omega) j2) i j k
        (show A.jb + 1 ≤ j by omega)
      exact ⟨a.1, a.2, d.1, b.1, b.2, d.2⟩

/-- A stored array away from the equator. -/
theorem northOnly_store (c : Scheme) (n' s' n s : ℤ → ℝ) {g : ℤ} (g2 : 2 ≤ g) (e : n' g = n g) :
    (A.northOnly.analysis c).store n' s' g = (A.analysis c).store n s (A.nd - 1 + g) := by
  have ho := h.odd
  have hr : (A.analysis c).rows = A.nlat := h.rows
  have hr' : (A.northOnly.analysis c).rows = A.nd := rfl
  have hd : (A.analysis c).nd = A.nd := rfl
  have hd' : (A.northOnly.analysis c).nd = A.nd := rfl
  rw [QGAnalysis.store_north (S := A.northOnly.analysis c) (Or.inl rfl) (by omega),
    QGAnalysis.store_north (Or.inr (by omega)) (by omega), hr, hr', hd, hd', show g - (A.nd - A.nd) = g by ring, e]
  congr 1; omega

/-- C139, away from the equator: wave activity, its column average, the barotropic wind and the forcing, of
`compute_lwa_and_barotropic_fluxes`; both classes, any boundary index. -/
theorem C139_lwa_partial (c : Scheme) (i g : ℤ) (g2 : 2 ≤ g) :
    (∀ k, (A.northOnly.analysis c).lwa i g k = (A.analysis c).lwa i (A.nd - 1 + g) k) ∧
    (A.northOnly.analysis c).lwaBaro i g = (A.analysis c).lwaBaro i (A.nd - 1 + g) ∧
    (A.northOnly.analysis c).uBaro i g = (A.analysis c).uBaro i (A.nd - 1 + g) ∧
    (A.northOnly.analysis c).ncforceBaro i g = (A.analysis c).ncforceBaro i (A.nd - 1 + g) := by
  have H := fun j k => northOnly_astar h c i j k
  have va : (A.northOnly.analysis c).verticalAverage = (A.analysis c).verticalAverage := rfl
  refine ⟨fun k => ?_, ?_, ?_, ?_⟩
  · refine northOnly_store h c _ _ _ _ g2 ?_
    rw [(H g k).1, (H g k).2.1]
  · unfold QGAnalysis.lwaBaro QGAnalysis.baro
    refine congr_arg₂ (· + ·) ?_ ?_ <;> refine northOnly_store h c _ _ _ _ g2 ?_ <;> rw [va]
    · simp only [(H g _).1]
    · simp only [(H g _).2.1]
  · exact northOnly_store h c _ _ _ _ g2 rfl
  · refine northOnly_store h c _ _ _ _ g2 ?_
    rw [va]; simp only [(H g _).2.2]

/-- C139, away from the equator: the flux terms. -/
theorem C139_fluxes_partial (c : Scheme) (hc : c.Boundary A.jb) (i g : ℤ) (g2 : 2 ≤ g) :
    (A.northOnly.analysis c).advFluxF1 i g = (A.analysis c).advFluxF1 i (A.nd - 1 + g) ∧
    (A.northOnly.analysis c).advFluxF2 i g = (A.analysis c).advFluxF2 i (A.nd - 1 + g) ∧
    (A.northOnly.analysis c).advFluxF3 i g = (A.analysis c).advFluxF3 i (A.nd - 1 + g) ∧
    (A.northOnly.analysis c).zonalFluxSum i g = (A.analysis c).zonalFluxSum i (A.nd - 1 + g) ∧
    (A.northOnly.analysis c).heatFlux i g = (A.analysis c).heatFlux i (A.nd - 1 + g) ∧
    (A.northOnly.analysis c).ep2baro i g = (A.analysis c).ep2baro i (A.nd - 1 + g) ∧
    (A.northOnly.analysis c).ep3baro i g = (A.analysis c).ep3baro i (A.nd - 1 + g) ∧
    (A.northOnly.analysis c).divEddyMomentumFlux i g = (A.analysis c).divEddyMomentumFlux i (A.nd - 1 + g) := by
  have H := fun k => northOnly_terms h c hc i g k g2
  have va : (A.northOnly.analysis c).verticalAverage = (A.analysis c).verticalAverage := rfl
  have b1 : (A.northOnly.analysis c).baro FluxOut.ua1 i g = (A.analysis c).baro FluxOut.ua1 i (A.nd - 1 + g) :=
    northOnly_store h c _ _ _ _ g2 (by rw [va]; simp only [(H _).1])
  have b2 : (A.northOnly.analysis c).baro FluxOut.ua2 i g = (A.analysis c).baro FluxOut.ua2 i (A.nd - 1 + g) :=
    northOnly_store h c _ _ _ _ g2 (by rw [va]; simp only [(H _).2.1])
  have b3 : (A.northOnly.analysis c).baro FluxOut.ep1 i g = (A.analysis c).baro FluxOut.ep1 i (A.nd - 1 + g) :=
    northOnly_store h c _ _ _ _ g2 (by rw [va]; simp only [(H _).2.2.1])
  have b4 : (A.northOnly.analysis c).ep2baro i g = (A.analysis c).ep2baro i (A.nd - 1 + g) :=
    northOnly_store h c _ _ _ _ g2 (by rw [va]; simp only [(H _).2.2.2.1])
  have b5 : (A.northOnly.analysis c).ep3baro i g = (A.analysis c).ep3baro i (A.nd - 1 + g) :=
    northOnly_store h c _ _ _ _ g2 (by rw [va]; simp only [(H _).2.2.2.2.1])
  refine ⟨b1, b2, b3, ?_, northOnly_store h c _ _ _ _ g2 (H 1).2.2.2.2.2, b4, b5, ?_⟩
  · unfold QGAnalysis.zonalFluxSum; rw [b1, b2, b3]
  · obtain ⟨e1, e2⟩ := northOnly_outRow h g
    have e1' : (A.northOnly.analysis c).outRow g = A.nd - 1 + g := e1
    have e2' : (A.analysis c).outRow (A.nd - 1 + g) = A.nd - 1 + g := e2
    unfold QGAnalysis.divEddyMomentumFlux
    rw [b4, b5, e1', e2']; rfl

/-- C139, away from the equator: the zonal convergence (Python rows, the equator is row 0 of the northern array and row
`nd - 1` of the global one). -/
theorem C139_convergence_partial (c : Scheme) (hc : c.Boundary A.jb) (r x : ℕ) (hr : 1 ≤ r) :
    (A.northOnly.analysis c).convergenceZonal r x = (A.analysis c).convergenceZonal (A.nd.toNat - 1 + r) x := by
  have hb := h.jbnd
  have hb0 := h.jb0
  have er : (((A.nd.toNat - 1 + r : ℕ) : ℤ) + 1) = A.nd - 1 + ((r : ℤ) + 1) := by omega
  have e : ∀ y : ℕ, (A.northOnly.analysis c).zonalFluxSum (y + 1) (r + 1) =
      (A.analysis c).zonalFluxSum (y + 1) (((A.nd.toNat - 1 + r : ℕ) : ℤ) + 1) := by
    intro y
    rw [(C139_fluxes_partial h c hc _ _ (by omega)).2.2.2.1, er]
  have el : cos ((A.northOnly.analysis c).lat ((A.northOnly.analysis c).outRow ((r : ℤ) + 1))) =
      cos ((A.analysis c).lat ((A.analysis c).outRow (((A.nd.toNat - 1 + r : ℕ) : ℤ) + 1))) := by
    obtain ⟨e1, e2⟩ := northOnly_outRow h ((r : ℤ) + 1)
    show cos (A.lat (A.northOnly.outRow _)) = cos (A.lat (A.outRow _))
    rw [er, e1, e2]
  unfold QGAnalysis.convergenceZonal zonalConvergence zonalDiff
  beta_reduce
  rw [el]
  simp only [e]
  rfl

/-- A stored array at the equator, where global mode keeps the southern value. -/
theorem northOnly_store_equator (c : Scheme) (n' s' n s : ℤ → ℝ) (e : n' 1 = s 1) :
    (A.northOnly.analysis c).store n' s' 1 = (A.analysis c).store n s A.nd := by
  have hr' : (A.northOnly.analysis c).rows = A.nd := rfl
  have hd : (A.analysis c).nd = A.nd := rfl
  have hd' : (A.northOnly.analysis c).nd = A.nd := rfl
  rw [QGAnalysis.store_north (S := A.northOnly.analysis c) (Or.inl rfl) (by omega),
    QGAnalysis.store_south (S := A.analysis c) h.global (by rw [hd]), hr', hd, hd']
  rw [show (1 : ℤ) - (A.nd - A.nd) = 1 by ring, show A.nd + 1 - A.nd = 1 by ring, e]

/-- C139, `QGFieldNHN22` at the equator: with `eq_boundary_index ≥ 2` the equator agrees as well; every term is zero there
and the wind is the wind. -/
theorem C139_nhn22_equator (hb : 2 ≤ A.jb) (i : ℤ) :
    (∀ k, (A.northOnly.analysis .nhn22).lwa i 1 k = (A.analysis .nhn22).lwa i A.nd k) ∧
    (A.northOnly.analysis .nhn22).lwaBaro i 1 = (A.analysis .nhn22).lwaBaro i A.nd ∧
    (A.northOnly.analysis .nhn22).uBaro i 1 = (A.analysis .nhn22).uBaro i A.nd ∧
    (A.northOnly.analysis .nhn22).ncforceBaro i 1 = (A.analysis .nhn22).ncforceBaro i A.nd ∧
    (A.northOnly.analysis .nhn22).advFluxF1 i 1 = (A.analysis .nhn22).advFluxF1 i A.nd ∧
    (A.northOnly.analysis .nhn22).advFluxF2 i 1 = (A.analysis .nhn22).advFluxF2 i A.nd ∧
    (A.northOnly.analysis .nhn22).advFluxF3 i 1 = (A.analysis .nhn22).advFluxF3 i A.nd ∧
    (A.northOnly.analysis .nhn22).heatFlux i 1 = (A.analysis .nhn22).heatFlux i A.nd ∧
    (A.northOnly.analysis .nhn22).ep2baro i 1 = (A.analysis .nhn22).ep2baro i A.nd ∧
    (A.northOnly.analysis .nhn22).ep3baro i 1 = (A.analysis .nhn22).ep3baro i A.nd := by
  have ho := h.odd
  have va : (A.northOnly.analysis .nhn22).verticalAverage = (A.analysis .nhn22).verticalAverage := rfl
  have v0 : (A.analysis .nhn22).verticalAverage (fun _ => 0) = 0 := by
    unfold QGAnalysis.verticalAverage; simp
  have Z : ∀ I : FluxIn, I.jb = A.jb → I.nd = A.nd → ∀ k,
      I.fluxDirinv.astar1 i 1 k = 0 ∧ I.fluxDirinv.astar2 i 1 k = 0 ∧ I.fluxDirinv.ncforce3d i 1 k = 0 ∧
      I.fluxDirinv.ua1 i 1 k = 0 ∧ I.fluxDirinv.ua2 i 1 k = 0 ∧ I.fluxDirinv.ep1 i 1 k = 0 ∧ I.fluxDirinv.ep4 i 1 = 0 ∧
      I.fluxDirinv.ep2 i 1 k = 0 ∧ I.fluxDirinv.ep3 i 1 k = 0 := by
    intro I hI hnd k
    have hb0 : 0 ≤ I.jb := by omega
    have hjb := h.jbnd
    have hc : ∀ k, ¬ FluxIn.Iter I i 1 k := fun k x => by have := x.2.2.1; omega
    have hw : (1 : ℤ) ≠ wrapJ I.nd I.jb := by unfold wrapJ; rw [Int.emod_eq_of_lt (by omega) (by omega)]; omega
    have z := I.ep23_zero (i := i) (j := 1) (k := k) hb0 (by omega) (by omega) hw
    rw [I.astar1_eq hb0, I.astar2_eq hb0, I.ncforce3d_eq hb0, I.ua1_eq hb0, I.ua2_eq hb0, I.ep1_eq hb0, I.ep4_eq hb0,
      if_neg (hc k), if_neg (hc k), if_neg (hc k), if_neg (hc k), if_neg (hc k), if_neg (hc k), if_neg (hc 2)]
    exact ⟨rfl, rfl, rfl, rfl, rfl, rfl, rfl, z.1, z.2⟩
  have N := Z (A.northOnly.analysis .nhn22).northIn rfl rfl
  have S := Z (A.analysis .nhn22).southIn rfl rfl
  refine ⟨fun k => ?_, ?_, ?_, ?_, ?_, ?_, ?_, ?_, ?_, ?_⟩
  · refine northOnly_store_equator h .nhn22 _ _ _ _ ?_
    rw [(N k).1, (N k).2.1, (S k).1, (S k).2.1]
  · unfold QGAnalysis.lwaBaro QGAnalysis.baro
    refine congr_arg₂ (· + ·) ?_ ?_ <;> refine northOnly_store_equator h .nhn22 _ _ _ _ ?_ <;> rw [va]
    · simp only [(N _).1, (S _).1]
    · simp only [(N _).2.1, (S _).2.1]
  · refine northOnly_store_equator h .nhn22 _ _ _ _ ?_
    rw [va]; congr 1; funext k
    show A.u i (A.nlat - A.nd + 1) k = A.u i (A.nlat + 1 - (A.nlat - A.nd + 1)) k
    congr 1; omega
  · refine northOnly_store_equator h .nhn22 _ _ _ _ ?_
    rw [va]; simp only [(N _).2.2.1, (S _).2.2.1, v0, neg_zero]
  · unfold QGAnalysis.advFluxF1 QGAnalysis.baro
    refine northOnly_store_equator h .nhn22 _ _ _ _ ?_
    rw [va]; simp only [(N _).2.2.2.1, (S _).2.2.2.1]
  · unfold QGAnalysis.advFluxF2 QGAnalysis.baro
    refine northOnly_store_equator h .nhn22 _ _ _ _ ?_
    rw [va]; simp only [(N _).2.2.2.2.1, (S _).2.2.2.2.1]
  · unfold QGAnalysis.advFluxF3 QGAnalysis.baro
    refine northOnly_store_equator h .nhn22 _ _ _ _ ?_
    rw [va]; simp only [(N _).2.2.2.2.2.1, (S _).2.2.2.2.2.1]
  · refine northOnly_store_equator h .nhn22 _ _ _ _ ?_
    rw [(N 1).2.2.2.2.2.2.1, (S 1).2.2.2.2.2.2.1]
  · refine northOnly_store_equator h .nhn22 _ _ _ _ ?_
    rw [va]; simp only [(N _).2.2.2.2.2.2.2.1, (S _).2.2.2.2.2.2.2.2, v0, neg_zero]
  · refine northOnly_store_equator h .nhn22 _ _ _ _ ?_
    rw [va]; simp only [(N _).2.2.2.2.2.2.2.2, (S _).2.2.2.2.2.2.2.1, v0, neg_zero]

/-- C139, the equator of both classes: wave activity agrees there exactly if the two hemispheric calls do. -/
theorem C139_equator_condition (c : Scheme) (i k : ℤ) :
    (A.northOnly.analysis c).lwa i 1 k = (A.analysis c).lwa i A.nd k ↔
      |(A.analysis c).northIn.fluxDirinv.astar1 i 1 k + (A.analysis c).northIn.fluxDirinv.astar2 i 1 k| =
      |(A.analysis c).southIn.fluxDirinv.astar1 i 1 k + (A.analysis c).southIn.fluxDirinv.astar2 i 1 k| := by
  have H := northOnly_astar h c i 1 k
  have hr' : (A.northOnly.analysis c).rows = A.nd := rfl
  have hd : (A.analysis c).nd = A.nd := rfl
  have hd' : (A.northOnly.analysis c).nd = A.nd := rfl
  unfold QGAnalysis.lwa
  rw [QGAnalysis.store_north (S := A.northOnly.analysis c) (Or.inl rfl) (by omega),
    QGAnalysis.store_south (S := A.analysis c) h.global (by rw [hd]), hr', hd, hd',
    show (1 : ℤ) - (A.nd - A.nd) = 1 by ring, show A.nd + 1 - A.nd = 1 by ring, H.1, H.2.1]

omit h in
theorem jet_global : jet.Global := ⟨jet_ok.odd, jet_ok.jb0, jet_ok.jbnd, jet_ok.a0, jet_ok.global⟩

omit h in
/-- C139 fails at the equator: the northern jet `jet` has positive wave activity on the equator in northern mode, and none
in global mode, where the southern call writes the row last. -/
theorem C139_jet : 0 < (jet.northOnly.analysis .nh18).lwa 1 1 2 ∧ (jet.analysis .nh18).lwa 1 jet.nd 2 = 0 := by
  have H := northOnly_astar jet_global .nh18 1 1 2
  refine ⟨?_, by rw [jet_nd]; exact jet_lwa_south⟩
  have hr' : (jet.northOnly.analysis .nh18).rows = jet.nd := rfl
  have hd' : (jet.northOnly.analysis .nh18).nd = jet.nd := rfl
  unfold QGAnalysis.lwa
  rw [QGAnalysis.store_north (S := jet.northOnly.analysis .nh18) (Or.inl rfl) (by omega), hr', hd',
    show (1 : ℤ) - (jet.nd - jet.nd) = 1 by ring, H.1, H.2.1]
  exact jet_lwa_north

omit h in
theorem C139_refuted : ¬ C139_Statement := by
  intro hS
  have e := (hS jet .nh18 jet_global 1 1 2 le_rfl (by rw [jet_nd]; norm_num)).2.2.2.1
  rw [show jet.nd - 1 + 1 = jet.nd by ring, C139_jet.2] at e
  exact absurd e C139_jet.1.ne'

omit h in
/-- The hypotheses of C139 are met by the jet in both classes of conditions. -/
example : jet.Global ∧ Scheme.Boundary .nh18 jet.jb := ⟨jet_global, Or.inl ⟨rfl, rfl⟩⟩

omit h in
/-- And by a grid of nine rows with `eq_boundary_index = 2`. -/
example : ({ jet with nlatIn := 9, nlat := 9, jb := 2 } : Atmos).Global ∧
    Scheme.Boundary .nhn22 ({ jet with nlatIn := 9, nlat := 9, jb := 2 } : Atmos).jb :=
  ⟨⟨by decide, by decide, by decide, jet_ok.a0, rfl⟩, Or.inr ⟨rfl, by decide⟩⟩

end Atmos

end Falwa
