import Verif.Lemmas.Offset
import Verif.Props.Heating
import Verif.Props.Rotation
import Verif.Props.Interp

/-! # Only differences of potential temperature matter (C111) -/

set_option linter.unusedSectionVars false

noncomputable section

namespace Falwa

open Real Finset

namespace Atmos

variable (A : Atmos) (c : ℝ)

/-- The same atmosphere with a potential temperature that is higher by `c` everywhere: the temperature of level `l` is raised
by `c` times the Exner factor of the level. -/
def warmer : Atmos := { A with tField := fun i j l => A.tField i j l + c * exp (-(A.rr / A.cp * A.zlev l / A.h)) }

/-- What is assumed: adding a constant to the data adds it to the interpolated values and to the smoothed mean profile, and
does not change the derivative of the smoothed profile. The other conditions are on the grid. -/
structure KeepsConstants : Prop where
  lat : ∀ (c : ℝ) (f : ℤ → ℝ) (g : ℤ), A.latInterp (fun j => f j + c) g = A.latInterp f g + c
  vert : ∀ (c : ℝ) (f : ℤ → ℝ) (k : ℤ), A.vertInterp (fun l => f l + c) k = A.vertInterp f k + c
  t0 : ∀ (c : ℝ) (f : ℤ → ℝ) (k : ℤ), A.t0Of (fun l => f l + c) k = A.t0Of f k + c
  stat : ∀ (c : ℝ) (f : ℤ → ℝ) (k : ℤ), A.statOf (fun l => f l + c) k = A.statOf f k
  lons : 1 ≤ A.nlon
  odd : A.nlat = 2 * A.nd - 1
  jb0 : 0 ≤ A.jb
  jd2 : 2 ≤ A.jd

variable {A} (hA : A.KeepsConstants)
include hA

theorem warmer_theta0 (i g l : ℤ) : (A.warmer c).theta0 i g l = A.theta0 i g l + c := by
  unfold theta0
  show A.latInterp (fun j => (A.tField i j l + c * exp (-(A.rr / A.cp * A.zlev l / A.h))) *
    exp (A.rr / A.cp * A.zlev l / A.h)) g = _
  rw [← hA.lat]
  congr 1
  funext j
  rw [add_mul, mul_assoc, ← exp_add, neg_add_cancel, exp_zero, mul_one]

theorem warmer_theta : (A.warmer c).theta = fun i g k => A.theta i g k + c := by
  funext i g k
  unfold theta
  rw [show (A.warmer c).theta0 i g = fun l => A.theta0 i g l + c from funext fun l => warmer_theta0 c hA i g l]
  exact hA.vert _ _ _

theorem warmer_rowMean (l g : ℤ) : (A.warmer c).rowMean l g = A.rowMean l g + c * A.clat g := by
  have h1 := hA.lons
  have hN : (A.nlon : ℝ) ≠ 0 := by exact_mod_cast (by omega : A.nlon ≠ 0)
  have hcard : ((Icc 1 A.nlon).card : ℝ) = (A.nlon : ℝ) := by
    have : ((Icc 1 A.nlon).card : ℤ) = A.nlon := by rw [Int.card_Icc]; omega
    exact_mod_cast this
  unfold rowMean
  simp only [warmer_theta0 c hA]
  show (∑ i ∈ Icc 1 A.nlon, (A.theta0 i g l + c) * A.clat g) / (A.nlon : ℝ) = _
  simp only [add_mul]
  rw [sum_add_distrib, sum_const, nsmul_eq_mul, hcard, add_div, mul_div_cancel_left₀ _ hN]

theorem warmer_meanS : (A.warmer c).meanS = fun l => A.meanS l + c := by
  funext l
  unfold meanS
  simp only [warmer_rowMean c hA]
  show (∑ g ∈ Icc 1 A.jd, (A.rowMean l g + c * A.clat g)) / A.csm = _
  rw [sum_add_distrib, ← mul_sum, add_div]
  congr 1
  exact mul_div_cancel_right₀ _ (csm_pos hA.odd hA.jb0 hA.jd2).ne'

theorem warmer_meanN : (A.warmer c).meanN = fun l => A.meanN l + c := by
  funext l
  unfold meanN
  simp only [warmer_rowMean c hA]
  show (∑ g ∈ Icc (A.nlat - A.jd + 1) A.nlat, (A.rowMean l g + c * A.clat g)) / A.csm = _
  rw [sum_add_distrib, ← mul_sum, add_div, sum_mirror hA.odd]
  congr 1
  exact mul_div_cancel_right₀ _ (csm_pos hA.odd hA.jb0 hA.jd2).ne'

theorem warmer_ts0 : (A.warmer c).ts0 = fun k => A.ts0 k + c := by
  funext k
  unfold ts0
  rw [warmer_meanS c hA]
  exact hA.t0 _ _ _

theorem warmer_tn0 : (A.warmer c).tn0 = fun k => A.tn0 k + c := by
  funext k
  unfold tn0
  rw [warmer_meanN c hA]
  exact hA.t0 _ _ _

theorem warmer_t0 : (A.warmer c).t0 = fun k => A.t0 k + c := by
  funext k
  unfold t0
  rw [warmer_ts0 c hA, warmer_tn0 c hA]
  ring

theorem warmer_statS : (A.warmer c).statS = A.statS := by
  funext k
  unfold statS
  rw [warmer_meanS c hA]
  exact hA.stat _ _ _

theorem warmer_statN : (A.warmer c).statN = A.statN := by
  funext k
  unfold statN
  rw [warmer_meanN c hA]
  exact hA.stat _ _ _

theorem warmer_stat : (A.warmer c).stat = A.stat := by
  funext k
  unfold stat
  rw [warmer_statS c hA, warmer_statN c hA]

theorem warmer_qgpvIn : (A.warmer c).qgpvIn = A.qgpvIn.warmer c := by
  unfold qgpvIn
  rw [warmer_theta c hA]
  rfl

theorem warmer_avort : (A.warmer c).avort = A.avort := by
  unfold avort
  rw [warmer_qgpvIn c hA]
  rfl

theorem warmer_qgpv (s : Scheme) : (A.warmer c).qgpv s = A.qgpv s := by
  cases s
  · show (A.warmer c).qgpvIn.pv18 (A.warmer c).t0 (A.warmer c).stat = _
    rw [warmer_qgpvIn c hA, warmer_t0 c hA, warmer_stat c hA, A.qgpvIn.warmer_pv18]
    rfl
  · show (A.warmer c).qgpvIn.pv22 A.nd (A.warmer c).ts0 (A.warmer c).tn0 (A.warmer c).statS (A.warmer c).statN = _
    rw [warmer_qgpvIn c hA, warmer_ts0 c hA, warmer_tn0 c hA, warmer_statS c hA, warmer_statN c hA, A.qgpvIn.warmer_pv22]
    rfl

theorem warmer_refN : (A.warmer c).refN = A.refN.warmer c := by
  unfold refN
  rw [warmer_qgpv c hA, warmer_stat c hA, warmer_theta c hA]
  rfl

theorem warmer_refS : (A.warmer c).refS = A.refS.warmer c := by
  unfold refS
  rw [warmer_qgpv c hA, warmer_stat c hA, warmer_theta c hA]
  rfl

theorem warmer_nhnN : (A.warmer c).nhnN = A.nhnN.warmer c := by
  unfold nhnN
  rw [warmer_qgpv c hA, warmer_avort c hA, warmer_statN c hA, warmer_theta c hA, warmer_tn0 c hA]
  rfl

theorem warmer_nhnS : (A.warmer c).nhn.south = A.nhn.south.warmer c := by
  unfold nhn
  rw [warmer_nhnN c hA, warmer_statS c hA]
  rfl

/-- The weights of the mean profile of the iterative solver do not add up to zero. -/
theorem cos_sum_pos : dosum A.refN.jd A.refN.nlat (fun j => cos (A.refN.phiN j)) ≠ 0 := by
  have hodd := hA.odd
  have hjb := hA.jb0
  have hjd := hA.jd2
  have hnd : 2 ≤ A.nd := by unfold jd at hjd; omega
  have hL : (0 : ℝ) < ((A.nlat - 1 : ℤ) : ℝ) := by exact_mod_cast (by omega : (0 : ℤ) < A.nlat - 1)
  have hphi : ∀ j, A.refN.phiN j = π * (((j - 1 : ℤ) : ℝ) / ((A.nlat - 1 : ℤ) : ℝ) - 1 / 2) := by
    intro j
    show π / ((A.nlat - 1 : ℤ) : ℝ) * ((j - 1 : ℤ) : ℝ) - 0.5 * π = _
    ring
  have hnn : ∀ j ∈ Icc A.nd A.nlat, 0 ≤ cos (A.refN.phiN j) := by
    intro j hj
    rw [mem_Icc] at hj
    have e0 : (0 : ℝ) ≤ ((j - 1 : ℤ) : ℝ) := by exact_mod_cast (by omega : (0 : ℤ) ≤ j - 1)
    have e1 : ((j - 1 : ℤ) : ℝ) ≤ ((A.nlat - 1 : ℤ) : ℝ) := by exact_mod_cast (by omega : j - 1 ≤ A.nlat - 1)
    have d0 : 0 ≤ ((j - 1 : ℤ) : ℝ) / ((A.nlat - 1 : ℤ) : ℝ) := div_nonneg e0 hL.le
    have d1 : ((j - 1 : ℤ) : ℝ) / ((A.nlat - 1 : ℤ) : ℝ) ≤ 1 := (div_le_one hL).2 e1
    rw [hphi]
    refine cos_nonneg_of_mem_Icc ⟨?_, ?_⟩ <;> nlinarith [pi_pos]
  have h1 : cos (A.refN.phiN A.nd) = 1 := by
    have e : ((A.nd - 1 : ℤ) : ℝ) / ((A.nlat - 1 : ℤ) : ℝ) = 1 / 2 := by
      rw [div_eq_div_iff hL.ne' two_ne_zero]
      exact_mod_cast (by omega : (A.nd - 1) * 2 = 1 * (A.nlat - 1))
    rw [hphi, e, sub_self, mul_zero, cos_zero]
  rw [dosum_eq]
  refine (lt_of_lt_of_le one_pos ?_).ne'
  rw [← h1]
  exact single_le_sum (f := fun j => cos (A.refN.phiN j)) hnn (mem_Icc.2 ⟨le_rfl, by omega⟩)

/-- C111, interpolated fields and mean profiles: the potential temperature and its profiles rise by `c`; static stability,
absolute vorticity and QGPV of both classes do not change. -/
theorem C111_fields (s : Scheme) :
    (∀ i g k, (A.warmer c).theta i g k = A.theta i g k + c) ∧
    (∀ k, (A.warmer c).ts0 k = A.ts0 k + c ∧ (A.warmer c).tn0 k = A.tn0 k + c ∧ (A.warmer c).t0 k = A.t0 k + c) ∧
    (∀ k, (A.warmer c).statS k = A.statS k ∧ (A.warmer c).statN k = A.statN k ∧ (A.warmer c).stat k = A.stat k) ∧
    (∀ i g k, (A.warmer c).avort i g k = A.avort i g k ∧ (A.warmer c).qgpv s i g k = A.qgpv s i g k) := by
  rw [warmer_theta c hA, warmer_ts0 c hA, warmer_tn0 c hA, warmer_t0 c hA, warmer_statS c hA, warmer_statN c hA,
    warmer_stat c hA, warmer_avort c hA, warmer_qgpv c hA]
  exact ⟨fun _ _ _ => rfl, fun _ => ⟨rfl, rfl, rfl⟩, fun _ => ⟨rfl, rfl, rfl⟩, fun _ _ _ => ⟨rfl, rfl⟩⟩

/-- The rows of the reference state that each class computes. -/
def refRows (A : Atmos) (s : Scheme) : ℤ := match s with | .nh18 => A.nd | .nhn22 => A.jd

/-- C111, reference states: reference QGPV, reference wind and the number of sweeps do not change; the reference potential
temperature rises by `c` on every row that is computed, north and south. -/
theorem C111_reference_states (s : Scheme) :
    (∀ g k, (A.warmer c).qref s g k = A.qref s g k) ∧
    (∀ g k, (A.warmer c).uref s g k = A.uref s g k) ∧
    (∀ g k, A.rows - A.refRows s + 1 ≤ g ∨ A.nhOnly = false ∧ g ≤ A.refRows s →
      (A.warmer c).ptref s g k = A.ptref s g k + c) ∧
    (A.warmer c).refN.numOfIter = A.refN.numOfIter ∧ (A.warmer c).refS.numOfIter = A.refS.numOfIter := by
  have hN : 1 ≤ A.refN.nlon := hA.lons
  have hS : 1 ≤ A.refS.nlon := hA.lons
  have hM : 1 ≤ A.nhnN.imax := hA.lons
  have hM' : 1 ≤ A.nhn.south.imax := hA.lons
  have hc : dosum A.refN.jd A.refN.nlat (fun j => cos (A.refN.phiN j)) ≠ 0 := cos_sum_pos hA
  have hc' : dosum A.refS.jd A.refS.nlat (fun j => cos (A.refS.phiN j)) ≠ 0 := hc
  have hst : ∀ (m : ℤ) (n n' t t' : ℤ → ℤ → ℝ), (∀ j k, n' j k = n j k + c) → (∀ j k, t' j k = t j k + c) → ∀ g k,
      A.rows - m + 1 ≤ g ∨ A.nhOnly = false ∧ g ≤ m → (A.warmer c).storeRef m n' t' g k = A.storeRef m n t g k + c := by
    intro m n n' t t' h1 h2 g k hg
    show (if A.nhOnly = false ∧ g ≤ m then t' (m + 1 - g) k else if A.rows - m + 1 ≤ g then n' (g - (A.rows - m)) k
      else 0) = _
    unfold storeRef
    by_cases hs : A.nhOnly = false ∧ g ≤ m
    · rw [if_pos hs, if_pos hs, h2]
    · have hn : A.rows - m + 1 ≤ g := hg.resolve_right hs
      rw [if_neg hs, if_neg hs, if_pos hn, if_pos hn, h1]
  refine ⟨fun g k => ?_, fun g k => ?_, fun g k hg => ?_, ?_, ?_⟩
  · cases s
    · show A.storeRef A.nd (A.warmer c).refN.qref (A.warmer c).refS.qref g k * 2 * A.om * sin (A.lat (A.outRow g)) = _
      rw [warmer_refN c hA, warmer_refS c hA]
      rfl
    · show A.storeRef A.nd (A.warmer c).nhnN.qrefOut (A.warmer c).nhn.south.qrefOut g k * 2 * A.om *
        sin (A.lat (A.outRow g)) = _
      rw [warmer_nhnN c hA, warmer_nhnS c hA]
      rfl
  · cases s
    · show A.storeRef A.nd (A.warmer c).refN.uref (A.warmer c).refS.uref g k = _
      rw [warmer_refN c hA, warmer_refS c hA, RefIn.warmer_uref c hN, RefIn.warmer_uref c hS]
      rfl
    · show A.storeRef A.jd (A.warmer c).nhnN.uref (A.warmer c).nhn.south.uref g k = _
      rw [warmer_nhnN c hA, warmer_nhnS c hA, NhnIn.warmer_uref c hM, NhnIn.warmer_uref c hM']
      rfl
  · cases s
    · refine hst A.nd _ _ _ _ (fun j k => ?_) (fun j k => ?_) g k hg
      · rw [warmer_refN c hA, RefIn.warmer_tref c hN hc]
      · rw [warmer_refS c hA, RefIn.warmer_tref c hS hc']
    · refine hst A.jd _ _ _ _ (fun j k => ?_) (fun j k => ?_) g k hg
      · rw [warmer_nhnN c hA, NhnIn.warmer_tref c hM]
      · rw [warmer_nhnS c hA, NhnIn.warmer_tref c hM']
  · rw [warmer_refN c hA, RefIn.warmer_numOfIter c hN]
  · rw [warmer_refS c hA, RefIn.warmer_numOfIter c hS]

theorem warmer_analysis (s : Scheme) :
    (A.warmer c).analysis s = (A.analysis s).warmer c ((A.warmer c).ptref s) := by
  obtain ⟨h1, h2, _⟩ := C111_reference_states c hA s
  unfold analysis QGAnalysis.warmer
  rw [warmer_qgpv c hA, warmer_theta c hA, warmer_t0 c hA, warmer_tn0 c hA, warmer_ts0 c hA,
    show (A.warmer c).qref s = A.qref s from funext fun g => funext fun k => h1 g k,
    show (A.warmer c).uref s = A.uref s from funext fun g => funext fun k => h2 g k]
  cases s <;> rfl

theorem warmer_shifted (s : Scheme) : (A.analysis s).Shifted c ((A.warmer c).ptref s) := by
  obtain ⟨_, _, h3, _⟩ := C111_reference_states c hA s
  have hjb := hA.jb0
  have hle : A.jd ≤ A.refRows s := by
    cases s
    · show A.jd ≤ A.nd
      unfold jd; omega
    · exact le_rfl
  refine ⟨fun g k a _ => h3 g k (Or.inl ?_), fun hm g k _ b => h3 g k (Or.inr ⟨hm, ?_⟩)⟩
  · have a' : A.rows - A.jd + 1 ≤ g := a
    omega
  · have b' : g ≤ A.jd := b
    omega

/-- C111, wave activity and barotropic wind, from either method: no change. -/
theorem C111_wave_activity (s : Scheme) (i g : ℤ) :
    (∀ k, ((A.warmer c).analysis s).lwa i g k = (A.analysis s).lwa i g k) ∧
    ((A.warmer c).analysis s).lwaBaro i g = (A.analysis s).lwaBaro i g ∧
    ((A.warmer c).analysis s).uBaro i g = (A.analysis s).uBaro i g ∧
    (∀ k, ((A.warmer c).analysis s).lwaOfLwaOnly i g k = (A.analysis s).lwaOfLwaOnly i g k) ∧
    ((A.warmer c).analysis s).lwaBaroOfLwaOnly i g = (A.analysis s).lwaBaroOfLwaOnly i g ∧
    ((A.warmer c).analysis s).uBaroOfLwaOnly i g = (A.analysis s).uBaroOfLwaOnly i g := by
  rw [warmer_analysis c hA s]
  have hj : (A.analysis s).jd = (A.analysis s).nd - (A.analysis s).jb := rfl
  have hs := warmer_shifted c hA s
  refine ⟨fun k => ?_, ?_, rfl, fun k => rfl, rfl, rfl⟩
  · exact QGAnalysis.warmer_store hj hs (fun o j => |o.astar1 i j k + o.astar2 i j k|)
      (fun o j => |o.astar1 i j k + o.astar2 i j k|) g
  · exact congrArg₂ (· + ·)
      (QGAnalysis.warmer_store hj hs (fun o j => (A.analysis s).verticalAverage (fun k => o.astar1 i j k))
        (fun o j => (A.analysis s).verticalAverage (fun k => o.astar1 i j k)) g)
      (QGAnalysis.warmer_store hj hs (fun o j => (A.analysis s).verticalAverage (fun k => o.astar2 i j k))
        (fun o j => (A.analysis s).verticalAverage (fun k => o.astar2 i j k)) g)

theorem warmer_baro (s : Scheme) (x : FluxOut → ℤ → ℤ → ℤ → ℝ) (i g : ℤ) :
    ((A.warmer c).analysis s).baro x i g = (A.analysis s).baro x i g := by
  rw [warmer_analysis c hA s]
  exact QGAnalysis.warmer_store rfl (warmer_shifted c hA s)
    (fun o j => (A.analysis s).verticalAverage (fun k => x o i j k))
    (fun o j => (A.analysis s).verticalAverage (fun k => x o i j k)) g

theorem warmer_zonalFluxSum (s : Scheme) (i g : ℤ) :
    ((A.warmer c).analysis s).zonalFluxSum i g = (A.analysis s).zonalFluxSum i g := by
  unfold QGAnalysis.zonalFluxSum
  rw [warmer_baro c hA, warmer_baro c hA, warmer_baro c hA]

/-- C111, fluxes and tendencies: no change. -/
theorem C111_fluxes (s : Scheme) (i g : ℤ) :
    ((A.warmer c).analysis s).advFluxF1 i g = (A.analysis s).advFluxF1 i g ∧
    ((A.warmer c).analysis s).advFluxF2 i g = (A.analysis s).advFluxF2 i g ∧
    ((A.warmer c).analysis s).advFluxF3 i g = (A.analysis s).advFluxF3 i g ∧
    ((A.warmer c).analysis s).zonalFluxSum i g = (A.analysis s).zonalFluxSum i g ∧
    ((A.warmer c).analysis s).heatFlux i g = (A.analysis s).heatFlux i g ∧
    ((A.warmer c).analysis s).divEddyMomentumFlux i g = (A.analysis s).divEddyMomentumFlux i g ∧
    ((A.warmer c).analysis s).ncforceBaro i g = (A.analysis s).ncforceBaro i g ∧
    (∀ r x : ℕ, ((A.warmer c).analysis s).convergenceZonal r x = (A.analysis s).convergenceZonal r x) := by
  have hz := warmer_zonalFluxSum c hA s
  have hb := warmer_baro c hA s
  have hj : (A.analysis s).jd = (A.analysis s).nd - (A.analysis s).jb := rfl
  have hs := warmer_shifted c hA s
  refine ⟨hb _ _ _, hb _ _ _, hb _ _ _, hz _ _, ?_, ?_, ?_, fun r x => ?_⟩
  · rw [warmer_analysis c hA s]
    exact QGAnalysis.warmer_store hj hs (fun o j => o.ep4 i j) (fun o j => o.ep4 i j) g
  · rw [warmer_analysis c hA s]
    have h2 : ((A.analysis s).warmer c ((A.warmer c).ptref s)).ep2baro i g = (A.analysis s).ep2baro i g :=
      QGAnalysis.warmer_store hj hs (fun o j => (A.analysis s).verticalAverage (fun k => o.ep2 i j k))
        (fun o j => -(A.analysis s).verticalAverage (fun k => o.ep3 i j k)) g
    have h3 : ((A.analysis s).warmer c ((A.warmer c).ptref s)).ep3baro i g = (A.analysis s).ep3baro i g :=
      QGAnalysis.warmer_store hj hs (fun o j => (A.analysis s).verticalAverage (fun k => o.ep3 i j k))
        (fun o j => -(A.analysis s).verticalAverage (fun k => o.ep2 i j k)) g
    unfold QGAnalysis.divEddyMomentumFlux
    rw [h2, h3]
    rfl
  · rw [warmer_analysis c hA s]
    exact QGAnalysis.warmer_store hj hs (fun o j => (A.analysis s).verticalAverage (fun k => o.ncforce3d i j k))
      (fun o j => -(A.analysis s).verticalAverage (fun k => o.ncforce3d i j k)) g
  · unfold QGAnalysis.convergenceZonal
    simp only [hz]
    rfl

omit hA in
/-- The assumptions hold for the atmosphere of the rotation property, and the shift is not trivial. -/
example : sample.KeepsConstants ∧ (sample.warmer 300).tField 1 1 1 ≠ sample.tField 1 1 1 := by
  refine ⟨⟨fun _ _ _ => rfl, fun _ _ _ => rfl, fun _ _ _ => rfl, fun c f k => ?_, by decide, by rfl, by decide, by decide⟩, ?_⟩
  · show f (k + 1) + c - (f k + c) = f (k + 1) - f k
    ring
  · show sample.tField 1 1 1 + 300 * exp (-(sample.rr / sample.cp * sample.zlev 1 / sample.h)) ≠ sample.tField 1 1 1
    have := exp_pos (-(sample.rr / sample.cp * sample.zlev 1 / sample.h))
    intro h
    linarith

end Atmos

/-! ### The interpolations satisfy the assumptions -/

/-- C111, the assumption on the vertical interpolation: a constant added to a column is added to the interpolated column. -/
theorem C111_column (V : VertGrid) (c : ℝ) (y : ℕ → ℝ) (k : ℕ) : V.column (fun l => y l + c) k = V.column y k + c := by
  unfold VertGrid.column interp1d
  ring

/-- C111, the assumption on the interpolation in latitude. -/
theorem C111_latitude (n : ℕ) (ylat y : ℕ → ℝ) (c : ℝ) (r : ℕ) :
    toAnalysis n ylat (fun j => y j + c) r = toAnalysis n ylat y r + c := by
  unfold toAnalysis interp1d
  ring

end Falwa
