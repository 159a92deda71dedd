import Verif.Lemmas.UnitsFlux
import Verif.Props.Rotation
import Verif.Props.Interp
import Verif.Props.FluxTerms

/-! # Units of length and time (C107) -/

set_option linter.unusedSectionVars false

noncomputable section

namespace Falwa

open Real Finset

namespace Atmos

variable (A : Atmos) (L F : ℝ)

/-- The same atmosphere in other units: a length that was `x` is now `L x`, a frequency that was `y` is now `F y`.
Temperatures keep their unit. Heights, the scale height, the level spacing and the planet radius are lengths, winds are
`L F`, the gas constant and the heat capacity `L² F²` per kelvin, a source of QGPV `F²`; the derivative of the temperature
spline is per length; unset memory is taken as a circulation. -/
def inUnits : Atmos :=
  { A with
    uField := fun i j l => L * F * A.uField i j l
    vField := fun i j l => L * F * A.vField i j l
    ncforce := fun i j k => F ^ 2 * A.ncforce i j k
    zlev := fun l => L * A.zlev l
    statOf := fun f k => A.statOf f k / L
    a := L * A.a
    om := F * A.om
    dz := L * A.dz
    h := L * A.h
    rr := L ^ 2 * F ^ 2 * A.rr
    cp := L ^ 2 * F ^ 2 * A.cp
    unsetN := fun j k => L ^ 2 * F * A.unsetN j k
    unsetS := fun j k => L ^ 2 * F * A.unsetS j k }

/-- The interpolation of a multiple is the multiple of the interpolation. -/
structure Homogeneous : Prop where
  lat : ∀ (c : ℝ) (f : ℤ → ℝ) (g : ℤ), A.latInterp (fun j => c * f j) g = c * A.latInterp f g
  vert : ∀ (c : ℝ) (f : ℤ → ℝ) (k : ℤ), A.vertInterp (fun l => c * f l) k = c * A.vertInterp f k

variable {A L F} (hA : A.Homogeneous) (hL : 0 < L) (hF : 0 < F)
include hA hL hF

theorem inUnits_u (i g k : ℤ) : (A.inUnits L F).u i g k = L * F * A.u i g k := by
  have h : (A.inUnits L F).u0 i g = fun l => L * F * A.u0 i g l := by
    funext l
    exact hA.lat (L * F) (fun j => A.uField i j l) g
  unfold u
  rw [h]
  exact hA.vert _ _ _

theorem inUnits_v (i g k : ℤ) : (A.inUnits L F).v i g k = L * F * A.v i g k := by
  have h : (A.inUnits L F).v0 i g = fun l => L * F * A.v0 i g l := by
    funext l
    exact hA.lat (L * F) (fun j => A.vField i j l) g
  unfold v
  rw [h]
  exact hA.vert _ _ _

theorem inUnits_theta0 : (A.inUnits L F).theta0 = A.theta0 := by
  funext i g l
  unfold theta0
  show A.latInterp (fun j => A.tField i j l * exp (L ^ 2 * F ^ 2 * A.rr / (L ^ 2 * F ^ 2 * A.cp) * (L * A.zlev l) / (L * A.h))) g = _
  rw [mul_div_mul_left _ _ (by positivity : L ^ 2 * F ^ 2 ≠ 0),
    show A.rr / A.cp * (L * A.zlev l) = L * (A.rr / A.cp * A.zlev l) by ring, mul_div_mul_left _ _ hL.ne']

theorem inUnits_theta : (A.inUnits L F).theta = A.theta := by
  funext i g k
  unfold theta
  rw [inUnits_theta0 hA hL hF]
  rfl

theorem inUnits_means : (A.inUnits L F).meanS = A.meanS ∧ (A.inUnits L F).meanN = A.meanN := by
  constructor <;> funext l
  · unfold meanS rowMean
    rw [inUnits_theta0 hA hL hF]
    rfl
  · unfold meanN rowMean
    rw [inUnits_theta0 hA hL hF]
    rfl

theorem inUnits_ts0 : (A.inUnits L F).ts0 = A.ts0 := by
  unfold ts0
  rw [(inUnits_means hA hL hF).1]
  rfl

theorem inUnits_tn0 : (A.inUnits L F).tn0 = A.tn0 := by
  unfold tn0
  rw [(inUnits_means hA hL hF).2]
  rfl

theorem inUnits_t0 : (A.inUnits L F).t0 = A.t0 := by
  funext k
  unfold t0
  rw [inUnits_ts0 hA hL hF, inUnits_tn0 hA hL hF]

theorem inUnits_statS : (A.inUnits L F).statS = fun k => A.statS k / L := by
  unfold statS
  rw [(inUnits_means hA hL hF).1]
  rfl

theorem inUnits_statN : (A.inUnits L F).statN = fun k => A.statN k / L := by
  unfold statN
  rw [(inUnits_means hA hL hF).2]
  rfl

theorem inUnits_stat : (A.inUnits L F).stat = fun k => A.stat k / L := by
  funext k
  unfold stat
  rw [inUnits_statS hA hL hF, inUnits_statN hA hL hF]
  ring

theorem inUnits_height (k : ℤ) : (A.inUnits L F).height k = L * A.height k := by
  show ((k - 1 : ℤ) : ℝ) * (L * A.dz) = _
  unfold height
  ring

theorem inUnits_qgpvIn : (A.inUnits L F).qgpvIn = A.qgpvIn.units L F := by
  unfold qgpvIn
  rw [inUnits_theta hA hL hF]
  unfold QgpvIn.units
  simp only [QgpvIn.mk.injEq]
  repeat' apply And.intro
  all_goals try first | trivial | rfl
  · funext i g k; exact inUnits_u hA hL hF i g k
  · funext i g k; exact inUnits_v hA hL hF i g k
  · funext k; exact inUnits_height hA hL hF k

theorem inUnits_avort : (A.inUnits L F).avort = fun i j k => F * A.avort i j k := by
  funext i j k
  unfold avort
  rw [inUnits_qgpvIn hA hL hF, A.qgpvIn.units_avort hL hF]

theorem inUnits_qgpv (c : Scheme) : (A.inUnits L F).qgpv c = fun i j k => F * A.qgpv c i j k := by
  funext i j k
  cases c
  · show (A.inUnits L F).qgpvIn.pv18 (A.inUnits L F).t0 (A.inUnits L F).stat i j k = _
    rw [inUnits_qgpvIn hA hL hF, inUnits_t0 hA hL hF, inUnits_stat hA hL hF, A.qgpvIn.units_pv18 hL hF]
    rfl
  · show (A.inUnits L F).qgpvIn.pv22 A.nd (A.inUnits L F).ts0 (A.inUnits L F).tn0 (A.inUnits L F).statS
      (A.inUnits L F).statN i j k = _
    rw [inUnits_qgpvIn hA hL hF, inUnits_ts0 hA hL hF, inUnits_tn0 hA hL hF, inUnits_statS hA hL hF,
      inUnits_statN hA hL hF, A.qgpvIn.units_pv22 hL hF]
    rfl

theorem inUnits_refN : (A.inUnits L F).refN = A.refN.units L F := by
  unfold refN
  rw [inUnits_qgpv hA hL hF, inUnits_stat hA hL hF, inUnits_theta hA hL hF,
    show (A.inUnits L F).u = fun i g k => L * F * A.u i g k from
      funext fun i => funext fun g => funext fun k => inUnits_u hA hL hF i g k]
  rfl

theorem inUnits_refS : (A.inUnits L F).refS = A.refS.units L F := by
  unfold refS
  rw [inUnits_qgpv hA hL hF, inUnits_stat hA hL hF, inUnits_theta hA hL hF,
    show (A.inUnits L F).u = fun i g k => L * F * A.u i g k from
      funext fun i => funext fun g => funext fun k => inUnits_u hA hL hF i g k]
  unfold RefIn.units
  simp only [RefIn.mk.injEq]
  repeat' apply And.intro
  all_goals try first | trivial | rfl
  funext i j k
  exact (mul_neg _ _).symm

theorem inUnits_nhnN : (A.inUnits L F).nhnN = A.nhnN.units L F := by
  unfold nhnN
  rw [inUnits_qgpv hA hL hF, inUnits_avort hA hL hF, inUnits_statN hA hL hF, inUnits_theta hA hL hF,
    inUnits_tn0 hA hL hF, show (A.inUnits L F).u = fun i g k => L * F * A.u i g k from
      funext fun i => funext fun g => funext fun k => inUnits_u hA hL hF i g k]
  rfl

theorem inUnits_nhnS : (A.inUnits L F).nhn.south = A.nhn.south.units L F := by
  unfold nhn
  rw [inUnits_nhnN hA hL hF, inUnits_statS hA hL hF]
  unfold Nhn22.south NhnIn.units
  simp only [NhnIn.mk.injEq]
  repeat' apply And.intro
  all_goals try first | trivial | rfl
  funext i j k
  exact (mul_neg _ _).symm

theorem inUnits_storeRef {n n' s s' : ℤ → ℤ → ℝ} {c : ℝ} (m : ℤ) (hn : ∀ j k, n' j k = c * n j k)
    (hs : ∀ j k, s' j k = c * s j k) (g k : ℤ) : (A.inUnits L F).storeRef m n' s' g k = c * A.storeRef m n s g k := by
  unfold storeRef
  simp only [hn, hs]
  show (if A.nhOnly = false ∧ g ≤ m then _ else if A.rows - m + 1 ≤ g then c * n (g - (A.rows - m)) k else 0) = _
  split_ifs <;> simp

theorem inUnits_qrefStored (c : Scheme) (g k : ℤ) : (A.inUnits L F).qrefStored c g k = A.qrefStored c g k := by
  rw [← one_mul (A.qrefStored c g k)]
  cases c
  · refine inUnits_storeRef hA hL hF _ (fun j k => ?_) (fun j k => ?_) g k
    · rw [inUnits_refN hA hL hF, A.refN.units_qref hL hF, one_mul]
    · rw [inUnits_refS hA hL hF, A.refS.units_qref hL hF, one_mul]
  · refine inUnits_storeRef hA hL hF _ (fun j k => ?_) (fun j k => ?_) g k
    · rw [inUnits_nhnN hA hL hF, A.nhnN.units_qrefOut hL hF, one_mul]
    · rw [inUnits_nhnS hA hL hF, A.nhn.south.units_qrefOut hL hF, one_mul]

/-- C107, interpolated fields: potential temperature does not change, winds change as velocities, absolute vorticity and QGPV
as frequencies. -/
theorem C107_fields (c : Scheme) (i j k : ℤ) :
    (A.inUnits L F).theta i j k = A.theta i j k ∧ (A.inUnits L F).u i j k = L * F * A.u i j k ∧
    (A.inUnits L F).v i j k = L * F * A.v i j k ∧ (A.inUnits L F).avort i j k = F * A.avort i j k ∧
    (A.inUnits L F).qgpv c i j k = F * A.qgpv c i j k := by
  refine ⟨?_, inUnits_u hA hL hF i j k, inUnits_v hA hL hF i j k, ?_, ?_⟩
  · rw [inUnits_theta hA hL hF]
  · rw [inUnits_avort hA hL hF]
  · rw [inUnits_qgpv hA hL hF]

/-- C107, reference states of both classes: the reference QGPV changes as a frequency, the reference wind as a velocity, the
reference potential temperature not at all, and the iterative solver makes the same number of sweeps. -/
theorem C107_reference_states (c : Scheme) :
    (∀ g k, (A.inUnits L F).qref c g k = F * A.qref c g k) ∧
    (∀ g k, (A.inUnits L F).uref c g k = L * F * A.uref c g k) ∧
    (∀ g k, (A.inUnits L F).ptref c g k = A.ptref c g k) ∧
    (A.inUnits L F).refN.numOfIter = A.refN.numOfIter ∧ (A.inUnits L F).refS.numOfIter = A.refS.numOfIter := by
  refine ⟨fun g k => ?_, fun g k => ?_, fun g k => ?_, ?_, ?_⟩
  · unfold qref
    rw [inUnits_qrefStored hA hL hF]
    show A.qrefStored c g k * 2 * (F * A.om) * sin (A.lat (A.outRow g)) = _
    ring
  · cases c
    · refine inUnits_storeRef hA hL hF _ (fun j k => ?_) (fun j k => ?_) g k
      · rw [inUnits_refN hA hL hF, A.refN.units_uref hL hF]
      · rw [inUnits_refS hA hL hF, A.refS.units_uref hL hF]
    · refine inUnits_storeRef hA hL hF _ (fun j k => ?_) (fun j k => ?_) g k
      · rw [inUnits_nhnN hA hL hF, A.nhnN.units_uref hL hF]
      · rw [inUnits_nhnS hA hL hF, A.nhn.south.units_uref hL hF]
  · rw [← one_mul (A.ptref c g k)]
    cases c
    · refine inUnits_storeRef hA hL hF _ (fun j k => ?_) (fun j k => ?_) g k
      · rw [inUnits_refN hA hL hF, A.refN.units_tref hL hF, one_mul]
      · rw [inUnits_refS hA hL hF, A.refS.units_tref hL hF, one_mul]
    · refine inUnits_storeRef hA hL hF _ (fun j k => ?_) (fun j k => ?_) g k
      · rw [inUnits_nhnN hA hL hF, A.nhnN.units_tref hL hF, one_mul]
      · rw [inUnits_nhnS hA hL hF, A.nhn.south.units_tref hL hF, one_mul]
  · rw [inUnits_refN hA hL hF, A.refN.units_numOfIter hL hF]
  · rw [inUnits_refS hA hL hF, A.refS.units_numOfIter hL hF]

theorem inUnits_analysis (c : Scheme) : (A.inUnits L F).analysis c = (A.analysis c).units L F := by
  obtain ⟨h1, h2, h3, _⟩ := C107_reference_states hA hL hF c
  unfold analysis QGAnalysis.units
  rw [inUnits_qgpv hA hL hF, inUnits_theta hA hL hF, inUnits_t0 hA hL hF, inUnits_tn0 hA hL hF, inUnits_ts0 hA hL hF]
  simp only [QGAnalysis.mk.injEq]
  repeat' apply And.intro
  all_goals try first | trivial | rfl
  · funext i g k; exact inUnits_u hA hL hF i g k
  · funext i g k; exact inUnits_v hA hL hF i g k
  · funext g k; exact h1 g k
  · funext g k; exact h2 g k
  · funext g k; exact h3 g k
  · funext k; exact inUnits_height hA hL hF k

/-- C107, wave activity and barotropic wind, from either method: they change as velocities. -/
theorem C107_wave_activity (c : Scheme) (i g : ℤ) :
    (∀ k, ((A.inUnits L F).analysis c).lwa i g k = L * F * (A.analysis c).lwa i g k) ∧
    ((A.inUnits L F).analysis c).lwaBaro i g = L * F * (A.analysis c).lwaBaro i g ∧
    ((A.inUnits L F).analysis c).uBaro i g = L * F * (A.analysis c).uBaro i g ∧
    (∀ k, ((A.inUnits L F).analysis c).lwaOfLwaOnly i g k = L * F * (A.analysis c).lwaOfLwaOnly i g k) ∧
    ((A.inUnits L F).analysis c).lwaBaroOfLwaOnly i g = L * F * (A.analysis c).lwaBaroOfLwaOnly i g ∧
    ((A.inUnits L F).analysis c).uBaroOfLwaOnly i g = L * F * (A.analysis c).uBaroOfLwaOnly i g := by
  rw [inUnits_analysis hA hL hF c]
  exact ⟨(A.analysis c).units_lwa hL hF i g, (A.analysis c).units_lwaBaro hL hF i g, (A.analysis c).units_uBaro hL hF i g,
    (A.analysis c).units_lwaOfLwaOnly hL hF i g, (A.analysis c).units_lwaBaroOfLwaOnly hL hF i g,
    (A.analysis c).units_uBaroOfLwaOnly hL hF i g⟩

/-- C107, fluxes: they change as squared velocities. -/
theorem C107_fluxes (c : Scheme) (i g : ℤ) :
    ((A.inUnits L F).analysis c).advFluxF1 i g = (L * F) ^ 2 * (A.analysis c).advFluxF1 i g ∧
    ((A.inUnits L F).analysis c).advFluxF2 i g = (L * F) ^ 2 * (A.analysis c).advFluxF2 i g ∧
    ((A.inUnits L F).analysis c).advFluxF3 i g = (L * F) ^ 2 * (A.analysis c).advFluxF3 i g ∧
    ((A.inUnits L F).analysis c).zonalFluxSum i g = (L * F) ^ 2 * (A.analysis c).zonalFluxSum i g ∧
    ((A.inUnits L F).analysis c).ep2baro i g = (L * F) ^ 2 * (A.analysis c).ep2baro i g ∧
    ((A.inUnits L F).analysis c).ep3baro i g = (L * F) ^ 2 * (A.analysis c).ep3baro i g := by
  rw [inUnits_analysis hA hL hF c, mul_pow]
  exact ⟨(A.analysis c).units_ua1 hL hF i g, (A.analysis c).units_ua2 hL hF i g, (A.analysis c).units_ep1 hL hF i g,
    (A.analysis c).units_zonalFluxSum hL hF i g, (A.analysis c).units_ep2baro hL hF i g,
    (A.analysis c).units_ep3baro hL hF i g⟩

/-- C107, tendencies: the heat flux term, the momentum flux divergence and the forcing change as accelerations. -/
theorem C107_tendencies (c : Scheme) (i g : ℤ) :
    ((A.inUnits L F).analysis c).heatFlux i g = L * F ^ 2 * (A.analysis c).heatFlux i g ∧
    ((A.inUnits L F).analysis c).divEddyMomentumFlux i g = L * F ^ 2 * (A.analysis c).divEddyMomentumFlux i g ∧
    ((A.inUnits L F).analysis c).ncforceBaro i g = L * F ^ 2 * (A.analysis c).ncforceBaro i g := by
  rw [inUnits_analysis hA hL hF c]
  exact ⟨(A.analysis c).units_heatFlux hL hF i g, (A.analysis c).units_divEddyMomentumFlux hL hF i g,
    (A.analysis c).units_ncforceBaro hL hF i g⟩

omit hA hL hF in
/-- The zonal flux is not computed on the pole rows, so it is zero there. -/
theorem zonalFluxSum_pole {S : QGAnalysis} (hv : S.Valid) (i g : ℤ)
    (hg : S.outRow g = S.nlat ∨ S.nhOnly = false ∧ g = 1) : S.zonalFluxSum i g = 0 := by
  have key : ∀ I : FluxIn, 0 ≤ I.jb → ∀ k, I.fluxDirinv.ua1 i I.nd k = 0 ∧ I.fluxDirinv.ua2 i I.nd k = 0 ∧
      I.fluxDirinv.ep1 i I.nd k = 0 := by
    intro I h0 k
    have h : ¬ FluxIn.Iter I i I.nd k := fun h => by have := h.2.2.2; omega
    rw [I.ua1_eq h0, I.ua2_eq h0, I.ep1_eq h0, if_neg h, if_neg h, if_neg h]
    exact ⟨rfl, rfl, rfl⟩
  have hnd := hv.jbnd
  have kN := key S.northIn hv.jb0
  have kS := key S.southIn hv.jb0
  unfold QGAnalysis.zonalFluxSum QGAnalysis.baro
  rcases hg with hg | ⟨hm, rfl⟩
  · obtain ⟨a, b, c⟩ := hv.pole_cases hg
    rw [QGAnalysis.store_north a b, QGAnalysis.store_north a b, QGAnalysis.store_north a b, c]
    have e : S.northIn.nd = S.nd := rfl
    rw [e] at kN
    simp only [(kN _).1, (kN _).2.1, (kN _).2.2, QGAnalysis.verticalAverage_zero, add_zero]
  · have hjb := hv.jb0
    rw [QGAnalysis.store_south hm (by omega), QGAnalysis.store_south hm (by omega), QGAnalysis.store_south hm (by omega),
      show S.nd + 1 - 1 = S.nd by ring]
    have e : S.southIn.nd = S.nd := rfl
    rw [e] at kS
    simp only [(kS _).1, (kS _).2.1, (kS _).2.2, QGAnalysis.verticalAverage_zero, add_zero]

/-- C107, convergence of the zonal flux: it changes as an acceleration on every row that is either a pole or further than the
tolerance `1e-5` (in the cosine of latitude) from it. -/
theorem C107_convergence (c : Scheme) (r x : ℕ)
    (hr : 1 / 100000 < |cos (A.lat (A.outRow (r + 1)))| ∨
      (A.analysis c).Valid ∧ (A.outRow (r + 1) = A.nlat ∨ A.nhOnly = false ∧ r = 0)) :
    ((A.inUnits L F).analysis c).convergenceZonal r x = L * F ^ 2 * (A.analysis c).convergenceZonal r x := by
  rw [inUnits_analysis hA hL hF c]
  rcases hr with hr | ⟨hv, hr⟩
  · exact (A.analysis c).units_convergenceZonal hL hF r x hr
  · have hz : ∀ i, (A.analysis c).zonalFluxSum i (r + 1) = 0 := by
      intro i
      refine zonalFluxSum_pole hv i _ ?_
      rcases hr with hr | ⟨hm, h0⟩
      · exact Or.inl hr
      · refine Or.inr ⟨hm, ?_⟩
        rw [h0]; rfl
    have hz' : ∀ i, ((A.analysis c).units L F).zonalFluxSum i (r + 1) = 0 := by
      intro i
      rw [(A.analysis c).units_zonalFluxSum hL hF, hz, mul_zero]
    unfold QGAnalysis.convergenceZonal zonalConvergence zonalDiff
    simp only [hz, hz', sub_self, ite_self, zero_mul, mul_zero]

/-- The assumptions hold for the atmosphere of the rotation property, whose interpolations are trivial. -/
example : sample.Homogeneous ∧ (0 : ℝ) < 1000 ∧ (0 : ℝ) < 1 / 86400 ∧ (sample.analysis .nh18).Valid ∧
    sample.outRow (8 + 1) = sample.nlat ∧ sample.uField 2 3 1 ≠ 0 := by
  refine ⟨⟨fun _ _ _ => rfl, fun _ _ _ => rfl⟩, by norm_num, by norm_num,
    ⟨by rfl, by decide, by decide, by rfl, by show (0 : ℝ) ≤ 1; norm_num⟩, by decide, ?_⟩
  show (if (2 : ℤ) = 2 ∧ (3 : ℤ) = 3 then (1 : ℝ) else 0) ≠ 0
  norm_num

end Atmos

/-! ### The interpolations satisfy the assumptions -/

/-- The same vertical grid in another unit of length. -/
def VertGrid.inUnits (V : VertGrid) (L : ℝ) : VertGrid := { V with h := L * V.h, dz := L * V.dz }

/-- C107, vertical interpolation: heights and levels change together, so the interpolated column does not. -/
theorem C107_column (V : VertGrid) {L : ℝ} (hL : 0 < L) (y : ℕ → ℝ) (k : ℕ) : (V.inUnits L).column y k = V.column y k := by
  have hz : ∀ l, (V.inUnits L).z l = L * V.z l := by
    intro l
    show -(L * V.h) * Real.log (V.plev l / 1000) = _
    unfold VertGrid.z
    ring
  have hk : (V.inUnits L).level k = L * V.level k := by
    show (k : ℝ) * (L * V.dz) = _
    unfold VertGrid.level
    ring
  have hn : (V.inUnits L).nlev = V.nlev := rfl
  have hu : upperNode V.nlev (V.inUnits L).z (L * V.level k) = upperNode V.nlev V.z (V.level k) := by
    unfold upperNode searchLeft
    simp only [hz, mul_lt_mul_iff_right₀ hL]
  unfold VertGrid.column
  rw [hn, hk]
  unfold interp1d
  rw [hu]
  simp only [hz]
  rw [← mul_sub, ← mul_sub]
  generalize V.z (upperNode V.nlev V.z (V.level k)) - V.z (upperNode V.nlev V.z (V.level k) - 1) = D
  generalize V.level k - V.z (upperNode V.nlev V.z (V.level k) - 1) = T
  have hL0 := hL.ne'
  congr 1
  rw [mul_comm L D, ← div_div]
  field_simp

/-- C107, the assumption on the vertical interpolation: a multiple of a column is interpolated to the multiple. -/
theorem C107_column_homogeneous (V : VertGrid) (c : ℝ) (y : ℕ → ℝ) (k : ℕ) :
    V.column (fun l => c * y l) k = c * V.column y k := by
  have h := VertGrid.C91_linear V y y c 0 k
  simpa using h

/-- C107, the assumption on the interpolation in latitude. -/
theorem C107_latitude_homogeneous (n : ℕ) (ylat y : ℕ → ℝ) (c : ℝ) (r : ℕ) :
    toAnalysis n ylat (fun j => c * y j) r = c * toAnalysis n ylat y r := by
  have h := interp1d_linear (n := n) (x := ylat) y y c 0 (analysisLat n r)
  simpa [toAnalysis] using h

end Falwa
