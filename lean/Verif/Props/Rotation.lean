import Verif.Lemmas.RotatePipeline
import Verif.Props.Utilities

/-! # Rotation of the atmosphere (C47) -/

set_option linter.unusedSectionVars false
set_option linter.unusedSimpArgs false

noncomputable section

namespace Falwa

open Real Finset

namespace Atmos

variable (A : Atmos) (s : ℤ)

/-- The same atmosphere with all fields rotated: column `i` has the values of the column `s` places further east. -/
def rotate : Atmos :=
  { A with
    uField := fun i j l => A.uField (rot A.nlon s i) j l
    vField := fun i j l => A.vField (rot A.nlon s i) j l
    tField := fun i j l => A.tField (rot A.nlon s i) j l
    ncforce := fun i j k => A.ncforce (rot A.nlon s i) j k }

theorem rotate_rowMean : (A.rotate s).rowMean = A.rowMean := by
  funext l g
  unfold rowMean
  rw [← sum_rot (n := A.nlon) s (fun i => A.theta0 i g l * A.clat g)]; rfl

theorem rotate_means : (A.rotate s).meanS = A.meanS ∧ (A.rotate s).meanN = A.meanN := by
  constructor <;> funext l
  · unfold meanS; rw [A.rotate_rowMean]; rfl
  · unfold meanN; rw [A.rotate_rowMean]; rfl

/-- C47, profiles: the mean profiles and static stabilities do not change. -/
theorem C47_profiles : (A.rotate s).ts0 = A.ts0 ∧ (A.rotate s).tn0 = A.tn0 ∧ (A.rotate s).statS = A.statS ∧
    (A.rotate s).statN = A.statN := by
  obtain ⟨h1, h2⟩ := A.rotate_means s
  unfold ts0 tn0 statS statN
  rw [h1, h2]
  exact ⟨rfl, rfl, rfl, rfl⟩

theorem rotate_t0 : (A.rotate s).t0 = A.t0 := by
  obtain ⟨h1, h2, _⟩ := A.C47_profiles s
  funext k; unfold t0; rw [h1, h2]

theorem rotate_stat : (A.rotate s).stat = A.stat := by
  obtain ⟨_, _, h1, h2⟩ := A.C47_profiles s
  funext k; unfold stat; rw [h1, h2]

theorem rotate_qgpvIn : (A.rotate s).qgpvIn = A.qgpvIn.rotate s := rfl

/-- C47, vorticity and QGPV: they rotate with the atmosphere, in both classes. -/
theorem C47_qgpv (hn : 2 ≤ A.nlon) (c : Scheme) :
    (∀ i j k, (A.rotate s).avort i j k = A.avort (rot A.nlon s i) j k) ∧
    (∀ i j k, (A.rotate s).qgpv c i j k = A.qgpv c (rot A.nlon s i) j k) := by
  constructor
  · intro i j k
    unfold avort
    rw [rotate_qgpvIn, A.qgpvIn.rotate_avort s hn]; rfl
  · intro i j k
    cases c
    · show (A.rotate s).qgpvIn.pv18 (A.rotate s).t0 (A.rotate s).stat i j k = _
      rw [rotate_qgpvIn, rotate_t0, rotate_stat, A.qgpvIn.rotate_pv18 s hn]; rfl
    · show (A.rotate s).qgpvIn.pv22 (A.rotate s).nd (A.rotate s).ts0 (A.rotate s).tn0 (A.rotate s).statS
        (A.rotate s).statN i j k = _
      obtain ⟨h1, h2, h3, h4⟩ := A.C47_profiles s
      rw [rotate_qgpvIn, h1, h2, h3, h4, A.qgpvIn.rotate_pv22 s hn]; rfl

theorem rotate_qgpv (hn : 2 ≤ A.nlon) (c : Scheme) : (A.rotate s).qgpv c = rot3 A.nlon s (A.qgpv c) := by
  funext i j k; exact (A.C47_qgpv s hn c).2 i j k

theorem rotate_avort (hn : 2 ≤ A.nlon) : (A.rotate s).avort = rot3 A.nlon s A.avort := by
  funext i j k; exact (A.C47_qgpv s hn .nh18).1 i j k

theorem rotate_refN (hn : 2 ≤ A.nlon) : (A.rotate s).refN = A.refN.rotate s := by
  unfold refN; rw [A.rotate_qgpv s hn, A.rotate_stat]; rfl

theorem rotate_refS (hn : 2 ≤ A.nlon) : (A.rotate s).refS = A.refS.rotate s := by
  unfold refS; rw [A.rotate_qgpv s hn, A.rotate_stat]; rfl

theorem rotate_nhnN (hn : 2 ≤ A.nlon) : (A.rotate s).nhnN = A.nhnN.rotate s := by
  obtain ⟨_, h1, _, h2⟩ := A.C47_profiles s
  unfold nhnN; rw [A.rotate_qgpv s hn, A.rotate_avort s hn, h1, h2]; rfl

theorem rotate_nhnS (hn : 2 ≤ A.nlon) : (A.rotate s).nhn.south = A.nhn.south.rotate s := by
  obtain ⟨h1, _, h2, _⟩ := A.C47_profiles s
  unfold nhn; rw [A.rotate_nhnN s hn, h1, h2]; rfl

/-- C47, reference states: they and the number of sweeps do not change. -/
theorem C47_reference_states (hn : 2 ≤ A.nlon) (hl : 1 ≤ A.nlat) (c : Scheme) :
    (A.rotate s).qref c = A.qref c ∧ (A.rotate s).uref c = A.uref c ∧ (A.rotate s).ptref c = A.ptref c ∧
    (A.rotate s).refN.numOfIter = A.refN.numOfIter ∧ (A.rotate s).refS.numOfIter = A.refS.numOfIter := by
  have hn1 : 1 ≤ A.nlon := by omega
  refine ⟨?_, ?_, ?_, ?_, ?_⟩
  · have : (A.rotate s).qrefStored c = A.qrefStored c := by
      cases c
      · show (A.rotate s).storeRef _ (A.rotate s).refN.qref (A.rotate s).refS.qref = _
        rw [A.rotate_refN s hn, A.rotate_refS s hn, A.refN.rotate_qref s hn1 hl, A.refS.rotate_qref s hn1 hl]; rfl
      · show (A.rotate s).storeRef _ (A.rotate s).nhnN.qrefOut (A.rotate s).nhn.south.qrefOut = _
        rw [A.rotate_nhnN s hn, A.rotate_nhnS s hn, A.nhnN.rotate_qrefOut s hn1 hl,
          A.nhn.south.rotate_qrefOut s hn1 hl]; rfl
    funext g k
    unfold qref
    rw [this]; rfl
  · cases c
    · show (A.rotate s).storeRef _ (A.rotate s).refN.uref (A.rotate s).refS.uref = _
      rw [A.rotate_refN s hn, A.rotate_refS s hn, A.refN.rotate_uref s hn1 hl, A.refS.rotate_uref s hn1 hl]; rfl
    · show (A.rotate s).storeRef _ (A.rotate s).nhnN.uref (A.rotate s).nhn.south.uref = _
      rw [A.rotate_nhnN s hn, A.rotate_nhnS s hn, A.nhnN.rotate_uref s hn1 hl, A.nhn.south.rotate_uref s hn1 hl]; rfl
  · cases c
    · show (A.rotate s).storeRef _ (A.rotate s).refN.tref (A.rotate s).refS.tref = _
      rw [A.rotate_refN s hn, A.rotate_refS s hn, A.refN.rotate_tref s hn1 hl, A.refS.rotate_tref s hn1 hl]; rfl
    · show (A.rotate s).storeRef _ (A.rotate s).nhnN.tref (A.rotate s).nhn.south.tref = _
      rw [A.rotate_nhnN s hn, A.rotate_nhnS s hn, A.nhnN.rotate_tref s hn1 hl, A.nhn.south.rotate_tref s hn1 hl]; rfl
  · rw [A.rotate_refN s hn, A.refN.rotate_numOfIter s hn1 hl]
  · rw [A.rotate_refS s hn, A.refS.rotate_numOfIter s hn1 hl]

theorem rotate_analysis (hn : 2 ≤ A.nlon) (hl : 1 ≤ A.nlat) (c : Scheme) :
    (A.rotate s).analysis c = (A.analysis c).rotate s := by
  obtain ⟨h1, h2, h3, _⟩ := A.C47_reference_states s hn hl c
  obtain ⟨h4, h5, _⟩ := A.C47_profiles s
  unfold analysis
  rw [A.rotate_qgpv s hn, h1, h2, h3, h4, h5, A.rotate_t0]; rfl

/-- C47, wave activity and fluxes: every local result of the rotated atmosphere is the rotated result. -/
theorem C47_local_results (hn : 2 ≤ A.nlon) (hl : 1 ≤ A.nlat) (hjb : 0 ≤ A.jb) (hnd : A.jb + 1 ≤ A.nd) (c : Scheme)
    (i : ℤ) (hi : 1 ≤ i ∧ i ≤ A.nlon) (g : ℤ) :
    let R := (A.rotate s).analysis c
    let S := A.analysis c
    let i' := rot A.nlon s i
    (∀ k, R.lwa i g k = S.lwa i' g k) ∧ R.lwaBaro i g = S.lwaBaro i' g ∧ R.uBaro i g = S.uBaro i' g ∧
    R.advFluxF1 i g = S.advFluxF1 i' g ∧ R.advFluxF2 i g = S.advFluxF2 i' g ∧ R.advFluxF3 i g = S.advFluxF3 i' g ∧
    R.zonalFluxSum i g = S.zonalFluxSum i' g ∧ R.heatFlux i g = S.heatFlux i' g ∧
    R.ep2baro i g = S.ep2baro i' g ∧ R.ep3baro i g = S.ep3baro i' g ∧
    R.divEddyMomentumFlux i g = S.divEddyMomentumFlux i' g ∧ R.ncforceBaro i g = S.ncforceBaro i' g ∧
    (∀ k, R.lwaOfLwaOnly i g k = S.lwaOfLwaOnly i' g k) ∧ R.lwaBaroOfLwaOnly i g = S.lwaBaroOfLwaOnly i' g ∧
    R.uBaroOfLwaOnly i g = S.uBaroOfLwaOnly i' g := by
  intro R S i'
  have e : R = S.rotate s := A.rotate_analysis s hn hl c
  rw [e]
  have o := S.rotate_lwaOnlyResults s hjb hi g
  exact ⟨S.rotate_lwa s hjb hi g, S.rotate_lwaBaro s hjb hi g, S.rotate_uBaro s hjb hi g, S.rotate_advFluxF1 s hjb hi g,
    S.rotate_advFluxF2 s hjb hi g, S.rotate_advFluxF3 s hjb hi g, S.rotate_zonalFluxSum s hjb hi g,
    S.rotate_heatFlux s hjb hi g, (S.rotate_ep23baro s hjb hi g hnd).1, (S.rotate_ep23baro s hjb hi g hnd).2,
    S.rotate_divEddyMomentumFlux s hjb hi g hnd, S.rotate_ncforceBaro s hjb hi g, o.1, o.2.1, o.2.2⟩

/-- C47, zonal convergence: row `r` and column `c` of the Python array. -/
theorem C47_convergence (hn : 2 ≤ A.nlon) (hl : 1 ≤ A.nlat) (hjb : 0 ≤ A.jb) (c : Scheme) (s r x : ℕ)
    (hx : x < A.nlon.toNat) :
    ((A.rotate s).analysis c).convergenceZonal r x = (A.analysis c).convergenceZonal r ((x + s) % A.nlon.toNat) := by
  rw [A.rotate_analysis s hn hl c]
  obtain ⟨n, hN⟩ : ∃ n : ℕ, A.nlon = n := ⟨A.nlon.toNat, by omega⟩
  have hn2 : 2 ≤ n := by omega
  have hnn : A.nlon.toNat = n := by omega
  rw [hnn] at hx
  have hcol : ∀ y : ℕ, rot A.nlon s ((y : ℤ) + 1) = (((y + s) % n : ℕ) : ℤ) + 1 := by
    intro y
    unfold rot
    rw [hN]; push_cast
    rw [show (y : ℤ) + 1 - 1 + s = y + s by ring]
  have hf : ∀ q y : ℕ, y < n → ((A.analysis c).rotate s).zonalFluxSum (y + 1) (q + 1) =
      (fun q y : ℕ => (A.analysis c).zonalFluxSum (y + 1) (q + 1)) q ((y + s) % n) := by
    intro q y hy
    have := (A.analysis c).rotate_zonalFluxSum s hjb (i := (y : ℤ) + 1) ⟨by omega, by show (y : ℤ) + 1 ≤ A.nlon; omega⟩
      ((q : ℤ) + 1)
    rw [this]
    show (A.analysis c).zonalFluxSum (rot A.nlon s ((y : ℤ) + 1)) _ = _
    rw [hcol]
  have key := C19_rotation n s hn2 (fun q y : ℕ => (A.analysis c).zonalFluxSum (y + 1) (q + 1))
    (fun r : ℕ => cos ((A.analysis c).lat ((A.analysis c).outRow (r + 1)))) (2 * π / (A.nlon : ℝ)) A.a (1 / 100000) r x hx
  unfold QGAnalysis.convergenceZonal
  show zonalConvergence A.nlon.toNat (fun q y : ℕ => ((A.analysis c).rotate s).zonalFluxSum (y + 1) (q + 1)) _ _ _ _ r x =
    zonalConvergence A.nlon.toNat _ _ _ _ _ r ((x + s) % A.nlon.toNat)
  rw [hnn]
  refine Eq.trans ?_ key
  unfold zonalConvergence
  rw [zonalDiff_eq n _ hn2 r x hx, zonalDiff_eq n _ hn2 r x hx]
  rw [hf r _ (east_lt (by omega) x), hf r _ (west_lt (by omega) x)]
  rfl

/-- A small atmosphere with a field that is not symmetric. -/
def sample : Atmos where
  nlon := 4
  nlatIn := 9
  nlat := 9
  kmax := 5
  jb := 1
  npart := 9
  maxits := 10
  nhOnly := false
  uField := fun i j _ => if i = 2 ∧ j = 3 then 1 else 0
  vField := fun i j _ => if i = 1 ∧ j = 6 then 1 else 0
  tField := fun i j l => if i = 4 ∧ j = 7 then 1 + l else l
  ncforce := fun _ _ _ => 0
  zlev := fun l => l
  latInterp := id
  vertInterp := id
  t0Of := id
  statOf := fun f k => f (k + 1) - f k
  a := 1
  om := 1
  dz := 1
  h := 1
  rr := 1
  cp := 2
  eps := 1
  rjac := 1 / 2
  unsetN := fun _ _ => 0
  unsetS := fun _ _ => 0
  inv := fun M => M

example : 2 ≤ sample.nlon ∧ 1 ≤ sample.nlat ∧ 0 ≤ sample.jb ∧ sample.jb + 1 ≤ sample.nd ∧
    rot sample.nlon 3 2 = 1 ∧ (1 : ℕ) < sample.nlon.toNat := by decide

end Atmos

/-- C47, `static_stability`: the domain means and stabilities do not change if the temperature is rotated. -/
theorem C47_static_stability {K : Type*} [Field K] (kmax nlat nlon s : ℕ) (height : ℕ → K) (area : ℕ → ℕ → K)
    (theta : ℕ → ℕ → ℕ → K) (sEt nEt : Option ℕ) :
    staticStability kmax nlat nlon height area (fun k j c => theta k j ((c + s) % nlon)) sEt nEt =
      staticStability kmax nlat nlon height area theta sEt nEt := by
  have : ∀ k j, zonalMean nlon (fun c => theta k j ((c + s) % nlon)) = zonalMean nlon (theta k j) := by
    intro k j
    unfold zonalMean
    rw [sum_rotate]
  unfold staticStability
  simp only [this]

end Falwa
