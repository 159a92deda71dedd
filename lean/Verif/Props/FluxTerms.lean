import Verif.Props.Flux

/-! # Flux terms (C44 – C46, C74, C75) -/

set_option linter.unusedSectionVars false
set_option linter.unusedSimpArgs false

noncomputable section

namespace Falwa

open Real Finset Spec

namespace QGAnalysis

variable {S : QGAnalysis}

/-! ### C44 -/

/-- C44: F1 is the column average of the reference wind times the wave activity, on every row, in both hemispheres. -/
theorem C44_f1 (hv : S.Valid) (i g : ℤ) (hg1 : 1 ≤ g) :
    S.advFluxF1 i g = S.verticalAverage (fun k => S.uref g k * S.lwa i g k) := by
  have hodd := hv.odd
  have hjb := hv.jb0
  have hjbnd := hv.jbnd
  have hjd := hv.jdEq
  unfold advFluxF1 baro lwa
  by_cases hs : S.nhOnly = false ∧ g ≤ S.nd
  · rw [store_south hs.1 hs.2]
    congr 1
    funext k
    rw [store_south hs.1 hs.2, lwa_hem _ hv.south hv.a0, S.southIn.ua1_eq hv.jb0]
    by_cases hc : FluxIn.Iter S.southIn i (S.nd + 1 - g) k
    · rw [if_pos hc, if_pos hc]
      obtain ⟨_, _, h1, h2⟩ := hc
      have e1 : S.southIn.jb = S.jb := rfl
      have e2 : S.southIn.nd = S.nd := rfl
      have e3 : S.southIn.jd = S.jd := rfl
      rw [rd2_of_mem (by omega) (by omega)]
      show S.uref (S.jd + 1 - (S.nd + 1 - g - S.jb)) k * _ = _
      rw [show S.jd + 1 - (S.nd + 1 - g - S.jb) = g by omega]
    · rw [if_neg hc, if_neg hc, mul_zero]
  · have hn : S.nhOnly = true ∨ S.nd < g := by
      cases hb : S.nhOnly
      · right; by_contra hx; exact hs ⟨hb, by omega⟩
      · left; rfl
    have hr : S.rows - S.nd + 1 ≤ g := by
      rcases hn with h | h
      · have : S.rows = S.nd := by simp [rows, h]
        omega
      · unfold rows; split_ifs <;> omega
    rw [store_north hn hr]
    congr 1
    funext k
    rw [store_north hn hr, lwa_hem _ hv.north hv.a0, S.northIn.ua1_eq hv.jb0]
    by_cases hc : FluxIn.Iter S.northIn i (g - (S.rows - S.nd)) k
    · rw [if_pos hc, if_pos hc]
      obtain ⟨_, _, h1, h2⟩ := hc
      have e1 : S.northIn.jb = S.jb := rfl
      have e2 : S.northIn.nd = S.nd := rfl
      have e3 : S.northIn.jd = S.jd := rfl
      rw [rd2_of_mem (by omega) (by omega)]
      show S.uref (S.rows - S.jd + (g - (S.rows - S.nd) - S.jb)) k * _ = _
      rw [show S.rows - S.jd + (g - (S.rows - S.nd) - S.jb) = g by omega]
    · rw [if_neg hc, if_neg hc, mul_zero]

/-- C44: the flux vector is the sum of the three advective fluxes. -/
theorem C44_sum (i g : ℤ) : S.zonalFluxSum i g = S.advFluxF1 i g + S.advFluxF2 i g + S.advFluxF3 i g := rfl

/-- C44: the reported convergence is the negative zonal derivative of that sum on a sphere, away from the pole rows, and
sums to zero over each latitude circle. -/
theorem C44_convergence (hn : 2 ≤ S.nlon) (r : ℕ) :
    ∑ c ∈ range S.nlon.toNat, S.convergenceZonal r c = 0 ∧
    (1 / 100000 < |cos (S.lat (S.outRow (r + 1)))| → ∀ c < S.nlon.toNat, S.convergenceZonal r c =
      -((S.zonalFluxSum ((east S.nlon.toNat c : ℕ) + 1) (r + 1) - S.zonalFluxSum ((west S.nlon.toNat c : ℕ) + 1) (r + 1)) /
        (2 * (2 * π / (S.nlon : ℝ)))) / (S.a * cos (S.lat (S.outRow (r + 1))))) := by
  have h := C18_zonal_total_partial S.nlon.toNat (fun r c => S.zonalFluxSum (c + 1) (r + 1))
    (fun r => cos (S.lat (S.outRow (r + 1)))) (2 * π / (S.nlon : ℝ)) S.a (1 / 100000) (by omega) r
  exact ⟨h.1, h.2.2.1⟩

example : sample.Valid ∧ 2 ≤ sample.nlon ∧ 1 ≤ (4 : ℤ) :=
  ⟨sample_valid, by decide, by decide⟩

/-! ### C45 -/

/-- A hemisphere without eddies, as the routine sees it. -/
structure _root_.Falwa.FluxIn.NoEddies (I : FluxIn) : Prop where
  pv : ∀ i j k, 1 ≤ i → i ≤ I.imax → 1 ≤ j → j ≤ I.nd → 1 ≤ k → k ≤ I.kmax → I.pv i (j + I.nd - 1) k = I.qref j k
  mono : ∀ j j' k, 1 ≤ j → j ≤ j' → j' ≤ I.nd → 1 ≤ k → k ≤ I.kmax → I.qref j k ≤ I.qref j' k
  uu : ∀ i j k, 1 ≤ i → i ≤ I.imax → I.jb + 1 ≤ j → j ≤ I.nd → 1 ≤ k → k ≤ I.kmax →
    I.uu i (j + I.nd - 1) k = I.uref (j - I.jb) k
  pt : ∀ i j k, 1 ≤ i → i ≤ I.imax → I.jb + 1 ≤ j → j ≤ I.nd → 1 ≤ k → k ≤ I.kmax →
    I.pt i (j + I.nd - 1) k = I.tref (j - I.jb) k
  vv : ∀ i j k, 1 ≤ i → i ≤ I.imax → 1 ≤ j → j ≤ I.jmax → 1 ≤ k → k ≤ I.kmax → I.vv i j k = 0

theorem noEddies_zero (I : FluxIn) (h : I.Shaped) (hk3 : 3 ≤ I.kmax) (H : I.NoEddies) (i j k : ℤ) :
    I.fluxDirinv.astar1 i j k = 0 ∧ I.fluxDirinv.astar2 i j k = 0 ∧ I.fluxDirinv.ua1 i j k = 0 ∧
    I.fluxDirinv.ua2 i j k = 0 ∧ I.fluxDirinv.ep1 i j k = 0 ∧ I.fluxDirinv.ep2 i j k = 0 ∧
    I.fluxDirinv.ep3 i j k = 0 ∧ I.fluxDirinv.ep4 i j = 0 := by
  have hodd := h.odd
  have hjb := h.jb0
  have hjbnd := h.jbnd
  have hjd := h.jdEq
  have hnd := h.nd2
  -- displaced rows carry no anomaly
  have hq : FluxIn.Iter I i j k → ∀ jj ∈ Icc 1 I.nd,
      (I.qe i j k jj > 0 ∧ jj < j → False) ∧ (I.qe i j k jj ≤ 0 ∧ jj ≥ j → I.qe i j k jj = 0) := by
    rintro ⟨⟨k1, k2⟩, ⟨i1, i2⟩, j1, j2⟩ jj hjj
    rw [mem_Icc] at hjj
    rw [h.qe_eq hjj.1 hjj.2 (by omega) (by omega), H.pv i jj k i1 i2 hjj.1 hjj.2 (by omega) (by omega)]
    constructor
    · rintro ⟨a, b⟩
      have := H.mono jj j k hjj.1 (by omega) (by omega) (by omega) (by omega)
      linarith
    · rintro ⟨a, b⟩
      have := H.mono j jj k (by omega) (by omega) hjj.2 (by omega) (by omega)
      linarith
  have ha1 : FluxIn.Iter I i j k → (I.acc i j k).astar1 = 0 := fun hc => by
    rw [FluxIn.acc_astar1]
    refine sum_eq_zero fun jj hjj => ?_
    rw [if_neg (fun x => (hq hc jj hjj).1 x)]
  have ha2 : FluxIn.Iter I i j k → (I.acc i j k).astar2 = 0 := fun hc => by
    rw [FluxIn.acc_astar2]
    refine sum_eq_zero fun jj hjj => ?_
    split_ifs with x
    · rw [(hq hc jj hjj).2 x]; ring
    · rfl
  have hu2 : FluxIn.Iter I i j k → (I.acc i j k).ua2 = 0 := fun hc => by
    rw [FluxIn.acc_ua2]
    refine sum_eq_zero fun jj hjj => ?_
    unfold FluxIn.sgn
    split_ifs with x y
    · rw [(hq hc jj hjj).2 x]; ring
    · exact absurd y (fun y => (hq hc jj hjj).1 y)
    · ring
  have hvz : ∀ r k, 1 ≤ i → i ≤ I.imax → 1 ≤ r → r ≤ I.jmax → 1 ≤ k → k ≤ I.kmax → rd3 I.jmax I.vv i r k = 0 := by
    intro r k i1 i2 r1 r2 k1 k2
    rw [rd3_of_mem r1 r2, H.vv i r k i1 i2 r1 r2 k1 k2]
  have hpz : ∀ k, 1 ≤ i → i ≤ I.imax → I.jb + 1 ≤ j → j ≤ I.nd - 1 → 1 ≤ k → k ≤ I.kmax →
      rd3 I.jmax I.pt i (j + I.nd - 1) k - rd2 I.jd I.tref (j - I.jb) k = 0 := by
    intro k i1 i2 j1 j2 k1 k2
    rw [rd3_of_mem (by omega) (by omega), rd2_of_mem (by omega) (by omega), H.pt i j k i1 i2 j1 (by omega) k1 k2, sub_self]
  have huz : ∀ k, 1 ≤ i → i ≤ I.imax → I.jb + 1 ≤ j → j ≤ I.nd - 1 → 1 ≤ k → k ≤ I.kmax →
      rd3 I.jmax I.uu i (j + I.nd - 1) k - rd2 I.jd I.uref (j - I.jb) k = 0 := by
    intro k i1 i2 j1 j2 k1 k2
    rw [rd3_of_mem (by omega) (by omega), rd2_of_mem (by omega) (by omega), H.uu i j k i1 i2 j1 (by omega) k1 k2, sub_self]
  refine ⟨?_, ?_, ?_, ?_, ?_, ?_⟩
  · rw [I.astar1_eq hjb]; split_ifs with hc
    · exact ha1 hc
    · rfl
  · rw [I.astar2_eq hjb]; split_ifs with hc
    · exact ha2 hc
    · rfl
  · rw [I.ua1_eq hjb]; split_ifs with hc
    · rw [ha1 hc, ha2 hc]; ring
    · rfl
  · rw [I.ua2_eq hjb]; split_ifs with hc
    · exact hu2 hc
    · rfl
  · rw [I.ep1_eq hjb]; split_ifs with hc
    · obtain ⟨⟨k1, k2⟩, ⟨i1, i2⟩, j1, j2⟩ := hc
      unfold FluxIn.ep1Val
      simp only [huz k i1 i2 j1 j2 (by omega) (by omega), hpz k i1 i2 j1 j2 (by omega) (by omega),
        hvz (j + I.nd - 1) k i1 i2 (by omega) (by omega) (by omega) (by omega)]
      ring
    · rfl
  · have h23 : I.fluxDirinv.ep2 i j k = 0 ∧ I.fluxDirinv.ep3 i j k = 0 := by
      by_cases hj : I.jb + 1 ≤ j ∧ j ≤ I.nd - 1
      · rw [I.ep2_eq hjb (by omega) hj.1 hj.2, I.ep3_eq hjb (by omega) hj.1 hj.2]
        constructor <;> split_ifs with hc
        · obtain ⟨⟨k1, k2⟩, ⟨i1, i2⟩, j1, j2⟩ := hc
          unfold FluxIn.ep2Val
          simp only [hvz (j + I.nd) k i1 i2 (by omega) (by omega) (by omega) (by omega), mul_zero]
        · rfl
        · obtain ⟨⟨k1, k2⟩, ⟨i1, i2⟩, j1, j2⟩ := hc
          unfold FluxIn.ep3Val
          simp only [hvz (j + I.nd - 2) k i1 i2 (by omega) (by omega) (by omega) (by omega), mul_zero]
        · rfl
      · by_cases hw : j = wrapJ I.nd I.jb
        · have tail : ∀ k₁, (2 ≤ k₁ ∧ k₁ ≤ I.kmax - 1) ∧ 1 ≤ i ∧ i ≤ I.imax → I.ep2Tail i k₁ = 0 ∧ I.ep3Tail i k₁ = 0 := by
            rintro k₁ ⟨⟨k1, k2⟩, i1, i2⟩
            unfold FluxIn.ep2Tail FluxIn.ep3Tail
            simp only [hvz (I.nd + I.jb + 1) k₁ i1 i2 (by omega) (by omega) (by omega) (by omega),
              hvz (I.nd + I.jb) k₁ i1 i2 (by omega) (by omega) (by omega) (by omega), mul_zero, and_self]
          have fin : ∀ k₁, (∀ k', (j = wrapJ I.nd I.jb ∧ k = wrapK I.nd I.jb k') ↔ k' = k₁) →
              I.fluxDirinv.ep2 i j k = 0 ∧ I.fluxDirinv.ep3 i j k = 0 := by
            intro k₁ hk₁
            have := I.ep23_other (i := i) hjb (by omega) hj hk₁
            rw [this.1, this.2]
            constructor <;> split_ifs with hc
            · exact (tail k₁ hc).1
            · rfl
            · exact (tail k₁ hc).2
            · rfl
          rcases eq_or_lt_of_le hjb with h0 | h0
          · refine fin (k + 1) fun k' => ⟨?_, ?_⟩
            · rintro ⟨_, b⟩; rw [← h0, wrapK_zero (by omega)] at b; omega
            · rintro rfl; exact ⟨hw, by rw [← h0, wrapK_zero (by omega)]; omega⟩
          · refine fin k fun k' => ⟨?_, ?_⟩
            · rintro ⟨_, b⟩; rw [wrapK_of_mem (by omega) (by omega)] at b; omega
            · rintro rfl; exact ⟨hw, by rw [wrapK_of_mem (by omega) (by omega)]⟩
        · exact I.ep23_zero hjb (by omega) hj hw
    refine ⟨h23.1, h23.2, ?_⟩
    rw [I.ep4_eq hjb]; split_ifs with hc
    · obtain ⟨⟨k1, k2⟩, ⟨i1, i2⟩, j1, j2⟩ := hc
      unfold FluxIn.ep4Val
      simp only [hvz (j + I.nd - 1) 1 i1 i2 (by omega) (by omega) (by omega) (by omega),
        hvz (j + I.nd - 1) 2 i1 i2 (by omega) (by omega) (by omega) (by omega)]
      ring
    · rfl

/-- A state without eddies: on every level the wind and potential temperature equal their references on all rows from the
boundary row to the pole, the meridional wind vanishes, QGPV equals its reference, and that does not decrease northward. -/
structure NoEddies (S : QGAnalysis) : Prop where
  q : ∀ i g k, 1 ≤ i → i ≤ S.nlon → 1 ≤ g → g ≤ S.rows → 1 ≤ k → k ≤ S.kmax → S.qgpv i (S.outRow g) k = S.qref g k
  mono : ∀ g g' k, 1 ≤ g → g ≤ g' → g' ≤ S.rows → 1 ≤ k → k ≤ S.kmax → S.qref g k ≤ S.qref g' k
  u : ∀ i g k, 1 ≤ i → i ≤ S.nlon → 1 ≤ g → g ≤ S.rows → S.nd + S.jb ≤ S.outRow g ∨ S.outRow g ≤ S.nd - S.jb →
    1 ≤ k → k ≤ S.kmax → S.u i (S.outRow g) k = S.uref g k
  theta : ∀ i g k, 1 ≤ i → i ≤ S.nlon → 1 ≤ g → g ≤ S.rows → S.nd + S.jb ≤ S.outRow g ∨ S.outRow g ≤ S.nd - S.jb →
    1 ≤ k → k ≤ S.kmax → S.theta i (S.outRow g) k = S.ptref g k
  v : ∀ i g k, 1 ≤ i → i ≤ S.nlon → 1 ≤ g → g ≤ S.nlat → 1 ≤ k → k ≤ S.kmax → S.v i g k = 0

theorem Valid.rows_cases (hv : S.Valid) : S.nd ≤ S.rows ∧ (S.rows = S.nd ∨ S.rows = S.nlat) ∧
    (S.nhOnly = false → S.rows = S.nlat) := by
  have := hv.odd
  have := hv.jb0
  have := hv.jbnd
  unfold rows
  cases S.nhOnly
  · simp; omega
  · simp

theorem north_noEddies (hv : S.Valid) (H : S.NoEddies) : S.northIn.NoEddies := by
  have hodd := hv.odd
  have hjb := hv.jb0
  have hjbnd := hv.jbnd
  have hjd := hv.jdEq
  obtain ⟨hr1, hr2, _⟩ := hv.rows_cases
  constructor
  · intro i j k i1 i2 j1 j2 k1 k2
    have j2' : j ≤ S.nd := j2
    have := H.q i (S.rows - S.nd + j) k i1 i2 (by omega) (by omega) k1 k2
    show S.qgpv i (j + S.nd - 1) k = S.qref (S.rows - S.nd + j) k
    rw [← this, outRow]
    congr 1; omega
  · intro j j' k j1 j2 j3 k1 k2
    have j3' : j' ≤ S.nd := j3
    exact H.mono _ _ k (by omega) (by omega) (by omega) k1 k2
  · intro i j k i1 i2 j1 j2 k1 k2
    have j1' : S.jb + 1 ≤ j := j1
    have j2' : j ≤ S.nd := j2
    have := H.u i (S.rows - S.nd + j) k i1 i2 (by omega) (by omega) (by unfold outRow; omega) k1 k2
    show S.u i (j + S.nd - 1) k = S.uref (S.rows - S.jd + (j - S.jb)) k
    rw [show S.rows - S.jd + (j - S.jb) = S.rows - S.nd + j by omega, ← this, outRow]
    congr 1; omega
  · intro i j k i1 i2 j1 j2 k1 k2
    have j1' : S.jb + 1 ≤ j := j1
    have j2' : j ≤ S.nd := j2
    have := H.theta i (S.rows - S.nd + j) k i1 i2 (by omega) (by omega) (by unfold outRow; omega) k1 k2
    show S.theta i (j + S.nd - 1) k = S.ptref (S.rows - S.jd + (j - S.jb)) k
    rw [show S.rows - S.jd + (j - S.jb) = S.rows - S.nd + j by omega, ← this, outRow]
    congr 1; omega
  · intro i j k i1 i2 j1 j2 k1 k2
    exact H.v i j k i1 i2 j1 j2 k1 k2

theorem south_noEddies (hv : S.Valid) (hm : S.nhOnly = false) (H : S.NoEddies) : S.southIn.NoEddies := by
  have hodd := hv.odd
  have hjb := hv.jb0
  have hjbnd := hv.jbnd
  have hjd := hv.jdEq
  have hr := hv.rows_cases.2.2 hm
  have hout : ∀ g, S.outRow g = g := fun g => by unfold outRow; omega
  constructor
  · intro i j k i1 i2 j1 j2 k1 k2
    have j2' : j ≤ S.nd := j2
    have := H.q i (S.nd + 1 - j) k i1 i2 (by omega) (by omega) k1 k2
    show -S.qgpv i (S.nlat + 1 - (j + S.nd - 1)) k = -S.qref (S.nd + 1 - j) k
    rw [← this, hout, show S.nlat + 1 - (j + S.nd - 1) = S.nd + 1 - j by omega]
  · intro j j' k j1 j2 j3 k1 k2
    have j3' : j' ≤ S.nd := j3
    exact neg_le_neg (H.mono (S.nd + 1 - j') (S.nd + 1 - j) k (by omega) (by omega) (by omega) k1 k2)
  · intro i j k i1 i2 j1 j2 k1 k2
    have j1' : S.jb + 1 ≤ j := j1
    have j2' : j ≤ S.nd := j2
    have := H.u i (S.nd + 1 - j) k i1 i2 (by omega) (by omega) (by rw [hout]; omega) k1 k2
    show S.u i (S.nlat + 1 - (j + S.nd - 1)) k = S.uref (S.jd + 1 - (j - S.jb)) k
    rw [show S.jd + 1 - (j - S.jb) = S.nd + 1 - j by omega, ← this, hout,
      show S.nlat + 1 - (j + S.nd - 1) = S.nd + 1 - j by omega]
  · intro i j k i1 i2 j1 j2 k1 k2
    have j1' : S.jb + 1 ≤ j := j1
    have j2' : j ≤ S.nd := j2
    have := H.theta i (S.nd + 1 - j) k i1 i2 (by omega) (by omega) (by rw [hout]; omega) k1 k2
    show S.theta i (S.nlat + 1 - (j + S.nd - 1)) k = S.ptref (S.jd + 1 - (j - S.jb)) k
    rw [show S.jd + 1 - (j - S.jb) = S.nd + 1 - j by omega, ← this, hout,
      show S.nlat + 1 - (j + S.nd - 1) = S.nd + 1 - j by omega]
  · intro i j k i1 i2 j1 j2 k1 k2
    have j2' : j ≤ S.nlat := j2
    show -S.v i (S.nlat + 1 - j) k = 0
    rw [H.v i _ k i1 i2 (by omega) (by omega) k1 k2, neg_zero]

theorem verticalAverage_zero : S.verticalAverage (fun _ => 0) = 0 := by
  unfold verticalAverage
  exact sum_eq_zero fun k _ => by ring

/-- C45: without eddies the wave activity and every flux vanish, on every row, including the momentum-flux terms that read
outside their arrays (they are multiplied by `v = 0`). -/
theorem C45_no_eddies (hv : S.Valid) (hk : 3 ≤ S.kmax) (H : S.NoEddies) (i g k : ℤ) :
    S.lwa i g k = 0 ∧ S.lwaBaro i g = 0 ∧ S.advFluxF1 i g = 0 ∧ S.advFluxF2 i g = 0 ∧ S.advFluxF3 i g = 0 ∧
    S.ep2baro i g = 0 ∧ S.ep3baro i g = 0 ∧ S.heatFlux i g = 0 ∧ S.divEddyMomentumFlux i g = 0 ∧
    S.zonalFluxSum i g = 0 := by
  have hN := fun i j k => noEddies_zero S.northIn hv.north hk (north_noEddies hv H) i j k
  have main : S.lwa i g k = 0 ∧ S.baro FluxOut.astar1 i g = 0 ∧ S.baro FluxOut.astar2 i g = 0 ∧
      S.baro FluxOut.ua1 i g = 0 ∧ S.baro FluxOut.ua2 i g = 0 ∧ S.baro FluxOut.ep1 i g = 0 ∧ S.ep2baro i g = 0 ∧
      S.ep3baro i g = 0 ∧ S.heatFlux i g = 0 := by
    unfold lwa baro ep2baro ep3baro heatFlux store
    by_cases hs : S.nhOnly = false ∧ g ≤ S.nd
    · have hS := fun i j k => noEddies_zero S.southIn hv.south hk (south_noEddies hv hs.1 H) i j k
      simp only [if_pos hs, (hS _ _ _).1, (hS _ _ _).2.1, (hS _ _ _).2.2.1, (hS _ _ _).2.2.2.1, (hS _ _ _).2.2.2.2.1,
        (hS _ _ _).2.2.2.2.2.1, (hS _ _ _).2.2.2.2.2.2.1, (hS _ _ 0).2.2.2.2.2.2.2, verticalAverage_zero]
      simp
    · simp only [if_neg hs, (hN _ _ _).1, (hN _ _ _).2.1, (hN _ _ _).2.2.1, (hN _ _ _).2.2.2.1, (hN _ _ _).2.2.2.2.1,
        (hN _ _ _).2.2.2.2.2.1, (hN _ _ _).2.2.2.2.2.2.1, (hN _ _ 0).2.2.2.2.2.2.2, verticalAverage_zero]
      simp
  obtain ⟨h1, h2, h3, h4, h5, h6, h7, h8, h9⟩ := main
  refine ⟨h1, ?_, h4, h5, h6, h7, h8, h9, ?_, ?_⟩
  · rw [lwaBaro, h2, h3, add_zero]
  · rw [divEddyMomentumFlux, h7, h8]; simp
  · rw [zonalFluxSum, h4, h5, h6]; ring

/-- A state without eddies in which QGPV and the reference wind vary. -/
def calm : QGAnalysis :=
  { sample with
    qgpv := fun _ g k => (g : ℝ) * k, qref := fun g k => (g : ℝ) * k, u := fun _ g k => (g : ℝ) + k,
    uref := fun g k => (g : ℝ) + k, v := fun _ _ _ => 0, theta := fun _ g k => (k : ℝ) - g, ptref := fun g k => (k : ℝ) - g }

example : calm.Valid ∧ 3 ≤ calm.kmax ∧ calm.NoEddies := by
  have hout : ∀ g, calm.outRow g = g := fun g => by simp [outRow, rows, calm, sample]
  refine ⟨⟨by rfl, by decide, by decide, by rfl, by norm_num [calm, sample]⟩, by decide, ⟨?_, ?_, ?_, ?_, ?_⟩⟩
  · intro i g k _ _ _ _ _ _; rw [hout]; rfl
  · intro g g' k _ h _ hk _
    have a : (g : ℝ) ≤ g' := by exact_mod_cast h
    have b : (0 : ℝ) ≤ k := by exact_mod_cast (by omega : (0 : ℤ) ≤ k)
    exact mul_le_mul_of_nonneg_right a b
  · intro i g k _ _ _ _ _ _ _; rw [hout]; rfl
  · intro i g k _ _ _ _ _ _ _; rw [hout]; rfl
  · intro i g k _ _ _ _ _ _; rfl

/-! ### C46 -/

/-- C46: every array reference of the loop nest is inside the declared bounds. -/
def C46_Statement : Prop :=
  ∀ I : FluxIn, I.Shaped → 1 ≤ I.imax → 3 ≤ I.kmax →
    ∀ line x i j k, FluxIn.Touches I line x i j k → I.declared x i j k

/-- C46, what holds: a reference outside the declared bounds is either `uref(0, k)` on line 152, or `ep2(i, 0, k)`,
`ep3(i, 0, k)` on lines 177-178 when `jb = 0`. Everything else is in bounds. -/
theorem C46_bounds_partial (I : FluxIn) (h : I.Shaped) (line : ℕ) (x : FluxIn.Arr) (i j k : ℤ)
    (ht : FluxIn.Touches I line x i j k) :
    I.declared x i j k ∨ (line = 152 ∧ x = .uref ∧ i = 0) ∨
      (line = 177 ∧ (x = .ep2 ∨ x = .ep3) ∧ j = 0 ∧ I.jb = 0) := by
  have hodd := h.odd
  have hjb := h.jb0
  have hjbnd := h.jbnd
  have hjd := h.jdEq
  cases ht with
  | out hh x hx =>
    obtain ⟨a, b, c⟩ := hh
    left
    fin_cases hx <;> exact ⟨⟨b.1, b.2⟩, ⟨by omega, by omega⟩, by omega, by omega⟩
  | pv88 hh hj => obtain ⟨a, b, c⟩ := hh; left; exact ⟨⟨b.1, b.2⟩, ⟨by omega, by omega⟩, by omega, by omega⟩
  | qref88 hh _ => obtain ⟨a, b, c⟩ := hh; left; exact ⟨⟨by omega, by omega⟩, ⟨by omega, by omega⟩, rfl⟩
  | work hh hj x hx =>
    obtain ⟨a, b, c⟩ := hh
    left
    fin_cases hx <;> exact ⟨⟨b.1, b.2⟩, ⟨by omega, by omega⟩, rfl⟩
  | nc89 hh hj => obtain ⟨a, b, c⟩ := hh; left; exact ⟨⟨b.1, b.2⟩, ⟨by omega, by omega⟩, by omega, by omega⟩
  | uu90 hh hj => obtain ⟨a, b, c⟩ := hh; left; exact ⟨⟨b.1, b.2⟩, ⟨by omega, by omega⟩, by omega, by omega⟩
  | uref90 hh => obtain ⟨a, b, c⟩ := hh; left; exact ⟨⟨by omega, by omega⟩, ⟨by omega, by omega⟩, rfl⟩
  | here121 hh x hx =>
    obtain ⟨a, b, c⟩ := hh
    left
    fin_cases hx <;> exact ⟨⟨b.1, b.2⟩, ⟨by omega, by omega⟩, by omega, by omega⟩
  | tref123 hh => obtain ⟨a, b, c⟩ := hh; left; exact ⟨⟨by omega, by omega⟩, ⟨by omega, by omega⟩, rfl⟩
  | tg132a hh => obtain ⟨a, b, c⟩ := hh; left; exact ⟨⟨by omega, by omega⟩, rfl, rfl⟩
  | tg132b hh => obtain ⟨a, b, c⟩ := hh; left; exact ⟨⟨by omega, by omega⟩, rfl, rfl⟩
  | north151 hh x hx =>
    obtain ⟨a, b, c⟩ := hh
    left
    fin_cases hx <;> exact ⟨⟨b.1, b.2⟩, ⟨by omega, by omega⟩, by omega, by omega⟩
  | uref151 hh => obtain ⟨a, b, c⟩ := hh; left; exact ⟨⟨by omega, by omega⟩, ⟨by omega, by omega⟩, rfl⟩
  | south152 hh x hx =>
    obtain ⟨a, b, c⟩ := hh
    left
    fin_cases hx <;> exact ⟨⟨b.1, b.2⟩, ⟨by omega, by omega⟩, by omega, by omega⟩
  | @uref152 i' j' k' hh =>
    obtain ⟨a, b, c⟩ := hh
    by_cases h0 : j' - I.jb - 1 = 0
    · right; left; exact ⟨rfl, rfl, h0⟩
    · left; exact ⟨⟨by omega, by omega⟩, ⟨by omega, by omega⟩, rfl⟩
  | low163 hh hk x hx =>
    obtain ⟨a, b, c⟩ := hh
    left
    fin_cases hx <;> exact ⟨⟨b.1, b.2⟩, ⟨by omega, by omega⟩, by omega, by omega⟩
  | tref163 hh hk => obtain ⟨a, b, c⟩ := hh; left; exact ⟨⟨by omega, by omega⟩, ⟨by omega, by omega⟩, rfl⟩
  | tg163 hh hk => obtain ⟨a, b, c⟩ := hh; left; exact ⟨⟨by omega, by omega⟩, rfl, rfl⟩
  | ep4 hh => obtain ⟨a, b, c⟩ := hh; left; exact ⟨⟨by omega, by omega⟩, ⟨by omega, by omega⟩, rfl⟩
  | out177 hk hi x hx =>
    by_cases h0 : I.jb = 0
    · right; right
      refine ⟨rfl, ?_, h0, h0⟩
      fin_cases hx <;> simp
    · left
      fin_cases hx <;> exact ⟨⟨hi.1, hi.2⟩, ⟨by omega, by omega⟩, by omega, by omega⟩
  | in177 hk hi x hx =>
    left
    fin_cases hx <;> exact ⟨⟨hi.1, hi.2⟩, ⟨by omega, by omega⟩, by omega, by omega⟩
  | uref177 hk hi => left; exact ⟨⟨by omega, by omega⟩, ⟨by omega, by omega⟩, rfl⟩
  | in178 hk hi x hx =>
    left
    fin_cases hx <;> exact ⟨⟨hi.1, hi.2⟩, ⟨by omega, by omega⟩, by omega, by omega⟩
  | uref178 hk hi => left; exact ⟨⟨by omega, by omega⟩, ⟨by omega, by omega⟩, rfl⟩

/-- C46 fails on every grid, not just on some: line 152 reads `uref(0, k)` in the first row of the loop. -/
theorem C46_always_violated (I : FluxIn) (h : I.Shaped) (hi : 1 ≤ I.imax) (hk : 3 ≤ I.kmax) :
    ∃ line x i j k, FluxIn.Touches I line x i j k ∧ ¬ I.declared x i j k := by
  have hjb := h.jb0
  have hjbnd := h.jbnd
  have ht : FluxIn.Touches I 152 .uref (I.jb + 1 - I.jb - 1) 2 1 :=
    FluxIn.Touches.uref152 (i := 1) (j := I.jb + 1) (k := 2) ⟨⟨le_rfl, by omega⟩, ⟨le_rfl, hi⟩, ⟨le_rfl, by omega⟩⟩
  refine ⟨152, .uref, _, 2, 1, ht, ?_⟩
  rintro ⟨⟨a, _⟩, _⟩
  omega

theorem C46_refuted : ¬ C46_Statement := by
  intro h
  obtain ⟨l, x, i, j, k, h1, h2⟩ := C46_always_violated sample.northIn sample_valid.north (by decide) (by decide)
  exact h2 (h sample.northIn sample_valid.north (by decide) (by decide) l x i j k h1)

example : sample.northIn.Shaped ∧ 1 ≤ sample.northIn.imax ∧ 3 ≤ sample.northIn.kmax :=
  ⟨sample_valid.north, by decide, by decide⟩

/-! ### C74: pole rows -/

/-- C74: the terms of the momentum-flux divergence vanish on the pole rows, which are not analysed. -/
def C74_Statement : Prop :=
  ∀ S : QGAnalysis, S.Valid → 3 ≤ S.kmax → ∀ i g, 1 ≤ i → i ≤ S.nlon →
    (S.outRow g = S.nlat ∨ S.nhOnly = false ∧ g = 1) → S.ep2baro i g = 0 ∧ S.ep3baro i g = 0

theorem Valid.pole_cases (hv : S.Valid) {g : ℤ} (h : S.outRow g = S.nlat) :
    (S.nhOnly = true ∨ S.nd < g) ∧ S.rows - S.nd + 1 ≤ g ∧ g - (S.rows - S.nd) = S.nd := by
  have hodd := hv.odd
  have hjb := hv.jb0
  have hjbnd := hv.jbnd
  have hr := hv.rows_cases
  unfold outRow at h
  refine ⟨?_, by omega, by omega⟩
  cases hb : S.nhOnly
  · right; have := hr.2.2 hb; omega
  · left; rfl

/-- C74 holds for `eq_boundary_index ≥ 1`. -/
theorem C74_pole_partial (hv : S.Valid) (hjb : 1 ≤ S.jb) (i g : ℤ)
    (hg : S.outRow g = S.nlat ∨ S.nhOnly = false ∧ g = 1) : S.ep2baro i g = 0 ∧ S.ep3baro i g = 0 := by
  have hnd := hv.jbnd
  have key : ∀ I : FluxIn, I.Shaped → 1 ≤ I.jb → ∀ k, I.fluxDirinv.ep2 i I.nd k = 0 ∧ I.fluxDirinv.ep3 i I.nd k = 0 := by
    intro I h h1 k
    have := h.jbnd
    exact I.ep23_zero h.jb0 (by omega) (by omega) (by rw [wrapJ_of_mem h1 (by omega)]; omega)
  unfold ep2baro ep3baro
  rcases hg with hg | ⟨hm, rfl⟩
  · obtain ⟨a, b, c⟩ := hv.pole_cases hg
    have kN : ∀ k, S.northIn.fluxDirinv.ep2 i S.nd k = 0 ∧ S.northIn.fluxDirinv.ep3 i S.nd k = 0 :=
      key S.northIn hv.north hjb
    rw [store_north a b, store_north a b, c]
    simp only [(kN _).1, (kN _).2]
    exact ⟨verticalAverage_zero, verticalAverage_zero⟩
  · have kS : ∀ k, S.southIn.fluxDirinv.ep2 i S.nd k = 0 ∧ S.southIn.fluxDirinv.ep3 i S.nd k = 0 :=
      key S.southIn hv.south hjb
    rw [store_south hm (by omega), store_south hm (by omega), show S.nd + 1 - 1 = S.nd by ring]
    simp only [(kS _).1, (kS _).2, verticalAverage_zero, neg_zero, and_self]

/-- For `eq_boundary_index = 0` (`QGFieldNH18`), what the pole row holds instead: at each level the wind at the first row
north of the equator, one level higher. -/
theorem C74_pole_content (hv : S.Valid) (hjb : S.jb = 0) (i g : ℤ) (hi : 1 ≤ i ∧ i ≤ S.nlon)
    (hg : S.outRow g = S.nlat) :
    S.ep2baro i g = S.verticalAverage (fun k => if 1 ≤ k ∧ k ≤ S.kmax - 2 then
      (S.u i (S.nd + 1) (k + 1) - S.uref (S.rows - S.nd + 2) (k + 1)) * S.v i (S.nd + 1) (k + 1) else 0) := by
  have hodd := hv.odd
  have hnd := hv.jbnd
  have hjd := hv.jdEq
  obtain ⟨a, b, c⟩ := hv.pole_cases hg
  unfold ep2baro
  rw [store_north a b, c]
  congr 1
  funext k
  have e0 : S.northIn.jb = 0 := hjb
  have e1 : S.northIn.nd = S.nd := rfl
  have h := (S.northIn.ep23_other (i := i) (j := S.nd) (k := k) (k₁ := k + 1) hv.jb0 (by omega) (by omega)
    (fun k' => by rw [e0, e1, wrapJ_zero (by omega), wrapK_zero (by omega)]; omega)).1
  rw [h]
  have e2 : S.northIn.kmax = S.kmax := rfl
  have e3 : S.northIn.imax = S.nlon := rfl
  by_cases hc : 1 ≤ k ∧ k ≤ S.kmax - 2
  · rw [if_pos hc, if_pos ⟨by omega, by omega⟩]
    unfold FluxIn.ep2Tail
    rw [e0]
    show (rd3 S.nlat S.u i (S.nd + 0 + 1) (k + 1) - rd2 S.jd (fun j k => S.uref (S.rows - S.jd + j) k) 2 (k + 1)) * _ * _ *
      rd3 S.nlat S.v i (S.nd + 0 + 1) (k + 1) = _
    rw [rd3_of_mem (by omega) (by omega), rd3_of_mem (by omega) (by omega), rd2_of_mem (by omega) (by omega)]
    rw [show S.nd + 0 + 1 = S.nd + 1 by ring, show S.rows - S.jd + 2 = S.rows - S.nd + 2 by omega]
    simp
  · rw [if_neg hc, if_neg (by omega)]

/-- The sample with one more level. -/
def sample4 : QGAnalysis := { sample with kmax := 4 }

theorem sample4_valid : sample4.Valid := ⟨by rfl, by decide, by decide, by rfl, by norm_num [sample4, sample]⟩

/-- C74 fails for `QGFieldNH18`: the out-of-range writes of lines 177-178 land on the pole row. -/
theorem C74_refuted : ¬ C74_Statement := by
  intro h
  have h1 := (h sample4 sample4_valid (by decide) 1 5 (by decide) (by decide) (Or.inl (by decide))).1
  rw [C74_pole_content sample4_valid rfl 1 5 (by decide) (by decide)] at h1
  have hp : 0 < sample4.prefactor := prefactor_pos (by norm_num [sample4, sample]) (by decide)
  have hdz : (0 : ℝ) < sample4.dz := by norm_num [sample4, sample]
  have h2 := (C41_linear_monotone sample4 (fun _ => 0) (fun k => if 1 ≤ k ∧ k ≤ sample4.kmax - 2 then
      (sample4.u 1 (sample4.nd + 1) (k + 1) - sample4.uref (sample4.rows - sample4.nd + 2) (k + 1)) *
        sample4.v 1 (sample4.nd + 1) (k + 1) else 0) 0 0).2.2 hdz (by decide) (fun k _ _ => by
          split_ifs <;> norm_num [sample4, sample]) ⟨2, by decide, by decide, by
            rw [if_pos (by decide)]; norm_num [sample4, sample]⟩
  rw [verticalAverage_zero, h1] at h2
  exact lt_irrefl _ h2

example : ∃ S : QGAnalysis, S.Valid ∧ 1 ≤ S.jb ∧ S.outRow 5 = S.nlat :=
  ⟨{ sample with jb := 1, jd := 2 }, ⟨by rfl, by decide, by decide, by rfl, by norm_num [sample]⟩, by decide, by decide⟩

/-! ### C75: momentum-flux divergence as a centred difference -/

/-- Eddy momentum flux `(u - uref) v cos² φ` at row `g` of the output. -/
def eddyMomentumFlux (S : QGAnalysis) (i g k : ℤ) : ℝ :=
  (S.u i (S.outRow g) k - S.uref g k) * cos (S.lat (S.outRow g)) ^ 2 * S.v i (S.outRow g) k

/-- Column average over the interior levels of the difference of `f` between the rows north and south of `g`. -/
def centredDifference (S : QGAnalysis) (f : ℤ → ℤ → ℝ) (g : ℤ) : ℝ :=
  S.verticalAverage (fun k => if k < S.kmax then f (g + 1) k - f (g - 1) k else 0)

/-- C75: on every analysed row with two neighbours in the output the divergence is the centred difference of `(u - uref) v cos² φ`, divided by
`2 a dφ cos φ`. -/
def C75_Statement : Prop :=
  ∀ S : QGAnalysis, S.Valid → 3 ≤ S.kmax → ∀ i g, 1 ≤ i → i ≤ S.nlon → 2 ≤ g → g ≤ S.rows - 1 →
    (S.nd + S.jb ≤ S.outRow g ∧ S.outRow g < S.nlat ∧ (S.nhOnly = true ∨ S.nd < g)) ∨
      (S.nhOnly = false ∧ 1 < g ∧ g ≤ S.nd - S.jb) →
    S.divEddyMomentumFlux i g =
      S.centredDifference (S.eddyMomentumFlux i) g / (2 * S.a * S.dphi * cos (S.lat (S.outRow g)))

theorem verticalAverage_sub (f g : ℤ → ℝ) :
    S.verticalAverage f - S.verticalAverage g = S.verticalAverage (fun k => f k - g k) := by
  have := (C41_linear_monotone S f g 1 (-1)).1
  rw [sub_eq_add_neg, ← neg_one_mul]
  have h1 : S.verticalAverage f = 1 * S.verticalAverage f := by ring
  rw [h1, ← this]
  congr 1
  funext k
  ring

theorem verticalAverage_congr {f g : ℤ → ℝ} (h : ∀ k, 2 ≤ k → k ≤ S.kmax → f k = g k) :
    S.verticalAverage f = S.verticalAverage g := by
  unfold verticalAverage
  refine sum_congr rfl fun k hk => ?_
  rw [mem_Icc] at hk
  rw [h k hk.1 hk.2]

/-- C75 holds on all analysed rows but the one next to the equatorward boundary. -/
theorem C75_divergence_partial (hv : S.Valid) (i g : ℤ) (hi : 1 ≤ i ∧ i ≤ S.nlon)
    (hg : (S.nd + S.jb < S.outRow g ∧ S.outRow g < S.nlat ∧ (S.nhOnly = true ∨ S.nd < g)) ∨
      (S.nhOnly = false ∧ 1 < g ∧ g < S.nd - S.jb)) :
    S.divEddyMomentumFlux i g =
      S.centredDifference (S.eddyMomentumFlux i) g / (2 * S.a * S.dphi * cos (S.lat (S.outRow g))) := by
  have hodd := hv.odd
  have hjb := hv.jb0
  have hjbnd := hv.jbnd
  have hjd := hv.jdEq
  have hr := hv.rows_cases
  unfold divEddyMomentumFlux
  congr 1
  unfold ep2baro ep3baro centredDifference
  rcases hg with ⟨h1, h2, h3⟩ | ⟨hm, h1, h2⟩
  · unfold outRow at h1 h2
    rw [store_north h3 (by omega), store_north h3 (by omega), verticalAverage_sub]
    refine verticalAverage_congr fun k k1 k2 => ?_
    have e1 : S.northIn.jb = S.jb := rfl
    have e2 : S.northIn.nd = S.nd := rfl
    have e3 : S.northIn.kmax = S.kmax := rfl
    rw [S.northIn.ep2_eq hjb (by omega) (by omega) (by omega), S.northIn.ep3_eq hjb (by omega) (by omega) (by omega)]
    by_cases hk : k < S.kmax
    · have hIter : FluxIn.Iter S.northIn i (g - (S.rows - S.nd)) k := ⟨by omega, hi, by omega⟩
      rw [if_pos hIter, if_pos hIter, if_pos hk]
      unfold FluxIn.ep2Val FluxIn.ep3Val eddyMomentumFlux outRow
      show (rd3 S.nlat S.u i (g - (S.rows - S.nd) + S.nd) k -
          rd2 S.jd (fun j k => S.uref (S.rows - S.jd + j) k) (g - (S.rows - S.nd) - S.jb + 1) k) *
          cos (S.dphi * ((g - (S.rows - S.nd) : ℤ) : ℝ)) * cos (S.dphi * ((g - (S.rows - S.nd) : ℤ) : ℝ)) *
          rd3 S.nlat S.v i (g - (S.rows - S.nd) + S.nd) k -
        (rd3 S.nlat S.u i (g - (S.rows - S.nd) + S.nd - 2) k -
          rd2 S.jd (fun j k => S.uref (S.rows - S.jd + j) k) (g - (S.rows - S.nd) - S.jb - 1) k) *
          cos (S.dphi * ((g - (S.rows - S.nd) - 2 : ℤ) : ℝ)) * cos (S.dphi * ((g - (S.rows - S.nd) - 2 : ℤ) : ℝ)) *
          rd3 S.nlat S.v i (g - (S.rows - S.nd) + S.nd - 2) k = _
      rw [rd3_of_mem (by omega) (by omega), rd3_of_mem (by omega) (by omega), rd3_of_mem (by omega) (by omega),
        rd3_of_mem (by omega) (by omega), rd2_of_mem (by omega) (by omega), rd2_of_mem (by omega) (by omega),
        show g - (S.rows - S.nd) + S.nd - 2 = S.nlat - S.rows + (g - 1) by omega,
        show g - (S.rows - S.nd) + S.nd = S.nlat - S.rows + (g + 1) by omega,
        show S.rows - S.jd + (g - (S.rows - S.nd) - S.jb + 1) = g + 1 by omega,
        show S.rows - S.jd + (g - (S.rows - S.nd) - S.jb - 1) = g - 1 by omega]
      unfold lat
      rw [show S.nlat - S.rows + (g + 1) - S.nd = g - (S.rows - S.nd) by omega,
        show S.nlat - S.rows + (g - 1) - S.nd = g - (S.rows - S.nd) - 2 by omega]
      ring
    · have hIter : ¬ FluxIn.Iter S.northIn i (g - (S.rows - S.nd)) k := fun x => by
        have := x.1; omega
      rw [if_neg hIter, if_neg hIter, if_neg hk, sub_zero]
  · have hrows := hr.2.2 hm
    have hout : ∀ g, S.outRow g = g := fun g => by unfold outRow; omega
    rw [store_south hm (by omega), store_south hm (by omega), neg_sub_neg, verticalAverage_sub]
    refine verticalAverage_congr fun k k1 k2 => ?_
    have e1 : S.southIn.jb = S.jb := rfl
    have e2 : S.southIn.nd = S.nd := rfl
    have e3 : S.southIn.kmax = S.kmax := rfl
    rw [S.southIn.ep2_eq hjb (by omega) (by omega) (by omega), S.southIn.ep3_eq hjb (by omega) (by omega) (by omega)]
    by_cases hk : k < S.kmax
    · have hIter : FluxIn.Iter S.southIn i (S.nd + 1 - g) k := ⟨by omega, hi, by omega⟩
      rw [if_pos hIter, if_pos hIter, if_pos hk]
      unfold FluxIn.ep2Val FluxIn.ep3Val eddyMomentumFlux
      rw [hout, hout]
      show (rd3 S.nlat (fun i j k => S.u i (S.nlat + 1 - j) k) i (S.nd + 1 - g + S.nd) k -
          rd2 S.jd (fun j k => S.uref (S.jd + 1 - j) k) (S.nd + 1 - g - S.jb + 1) k) *
          cos (S.dphi * ((S.nd + 1 - g : ℤ) : ℝ)) * cos (S.dphi * ((S.nd + 1 - g : ℤ) : ℝ)) *
          rd3 S.nlat (fun i j k => -S.v i (S.nlat + 1 - j) k) i (S.nd + 1 - g + S.nd) k -
        (rd3 S.nlat (fun i j k => S.u i (S.nlat + 1 - j) k) i (S.nd + 1 - g + S.nd - 2) k -
          rd2 S.jd (fun j k => S.uref (S.jd + 1 - j) k) (S.nd + 1 - g - S.jb - 1) k) *
          cos (S.dphi * ((S.nd + 1 - g - 2 : ℤ) : ℝ)) * cos (S.dphi * ((S.nd + 1 - g - 2 : ℤ) : ℝ)) *
          rd3 S.nlat (fun i j k => -S.v i (S.nlat + 1 - j) k) i (S.nd + 1 - g + S.nd - 2) k = _
      rw [rd3_of_mem (by omega) (by omega), rd3_of_mem (by omega) (by omega), rd3_of_mem (by omega) (by omega),
        rd3_of_mem (by omega) (by omega), rd2_of_mem (by omega) (by omega), rd2_of_mem (by omega) (by omega),
        show S.nlat + 1 - (S.nd + 1 - g + S.nd) = g - 1 by omega,
        show S.nlat + 1 - (S.nd + 1 - g + S.nd - 2) = g + 1 by omega,
        show S.jd + 1 - (S.nd + 1 - g - S.jb + 1) = g - 1 by omega,
        show S.jd + 1 - (S.nd + 1 - g - S.jb - 1) = g + 1 by omega]
      unfold lat
      have c1 : cos (S.dphi * ((S.nd + 1 - g : ℤ) : ℝ)) = cos (S.dphi * ((g - 1 - S.nd : ℤ) : ℝ)) := by
        rw [← cos_neg]; congr 1; push_cast; ring
      have c2 : cos (S.dphi * ((S.nd + 1 - g - 2 : ℤ) : ℝ)) = cos (S.dphi * ((g + 1 - S.nd : ℤ) : ℝ)) := by
        rw [← cos_neg]; congr 1; push_cast; ring
      rw [c1, c2]
      ring
    · have hIter : ¬ FluxIn.Iter S.southIn i (S.nd + 1 - g) k := fun x => by
        have := x.1; omega
      rw [if_neg hIter, if_neg hIter, if_neg hk, sub_zero]

/-- The hypotheses of C75 can be met: a grid with 7 rows, row 6 in the north and row 2 in the south. -/
example : ∃ S : QGAnalysis, S.Valid ∧ (S.nd + S.jb < S.outRow 6 ∧ S.outRow 6 < S.nlat ∧ S.nd < 6) ∧
    (S.nhOnly = false ∧ (1 : ℤ) < 2 ∧ 2 < S.nd - S.jb) :=
  ⟨{ sample with nlat := 7, nd := 4, jd := 4 }, ⟨by rfl, by decide, by decide, by rfl, by norm_num [sample]⟩, by decide,
    by decide⟩

/-- The sample with a reference wind that varies. -/
def sampleU : QGAnalysis := { sample with uref := fun j k => (j : ℝ) + 10 * k }

theorem sampleU_valid : sampleU.Valid := ⟨by rfl, by decide, by decide, by rfl, by norm_num [sampleU, sample]⟩

/-- The momentum-flux terms of the sample in the first row of the southern loop. -/
theorem sampleU_values : sampleU.southIn.ep2Val 1 1 2 = 21 * cos (π / 4) ^ 2 ∧
    sampleU.southIn.ep3Val 1 1 2 = 10 * cos (π / 4) ^ 2 := by
  have hdp : sampleU.southIn.dp = π / 4 := by
    unfold FluxIn.dp
    norm_num [southIn, sampleU, sample]
  unfold FluxIn.ep2Val FluxIn.ep3Val
  rw [hdp]
  constructor
  · norm_num [southIn, sampleU, sample, rd2, rd3, wrapJ, wrapK, rows]
    ring
  · norm_num [southIn, sampleU, sample, rd2, rd3, wrapJ, wrapK, rows]
    ring

/-- C75 fails in the first analysed row: the routine takes the reference wind of the pole, one level below. -/
theorem C75_refuted : ¬ C75_Statement := by
  intro h
  have h1 := h sampleU sampleU_valid (by decide) 1 3 (by decide) (by decide) (by decide) (by decide)
    (Or.inr ⟨rfl, by decide, by decide⟩)
  have hdphi : sampleU.dphi = π / 4 := by
    unfold dphi
    norm_num [sampleU, sample]
  have hden : 2 * sampleU.a * sampleU.dphi * cos (sampleU.lat (sampleU.outRow 3)) ≠ 0 := by
    have : sampleU.lat (sampleU.outRow 3) = 0 := by simp [lat, outRow, rows, sampleU, sample]
    rw [this, cos_zero, hdphi]
    have : sampleU.a = 1 := rfl
    rw [this]
    positivity
  unfold divEddyMomentumFlux at h1
  rw [div_left_inj' hden] at h1
  unfold ep2baro ep3baro centredDifference at h1
  rw [store_south rfl (by decide), store_south rfl (by decide), neg_sub_neg, verticalAverage_sub] at h1
  have hw : ∀ f : ℤ → ℝ, f 3 = 0 → sampleU.verticalAverage f =
      f 2 * (exp (-sampleU.height 2 / sampleU.h) * (sampleU.dz / sampleU.prefactor)) := by
    intro f hf
    rw [verticalAverage_interior f (by decide) hf, show Icc 2 (sampleU.kmax - 1) = {2} by decide, sum_singleton, mul_assoc]
  have hp : 0 < sampleU.prefactor := prefactor_pos (by norm_num [sampleU, sample]) (by decide)
  have hwpos : 0 < exp (-sampleU.height 2 / sampleU.h) * (sampleU.dz / sampleU.prefactor) :=
    mul_pos (exp_pos _) (div_pos (by norm_num [sampleU, sample]) hp)
  have hrow : sampleU.nd + 1 - 3 = 1 := by decide
  rw [hrow, hw, hw] at h1
  · have h2 := mul_right_cancel₀ hwpos.ne' h1
    rw [sampleU.southIn.ep2_eq (by decide) (by decide) (by decide) (by decide),
      sampleU.southIn.ep3_eq (by decide) (by decide) (by decide) (by decide), if_pos (by decide), if_pos (by decide),
      if_pos (by decide), sampleU_values.1, sampleU_values.2] at h2
    unfold eddyMomentumFlux at h2
    have l1 : sampleU.lat (sampleU.outRow (3 + 1)) = π / 4 := by
      unfold lat; rw [hdphi]; norm_num [outRow, rows, sampleU, sample]
    have l0 : sampleU.lat (sampleU.outRow (3 - 1)) = -(π / 4) := by
      unfold lat; rw [hdphi]; norm_num [outRow, rows, sampleU, sample]
    rw [l1, l0, cos_neg] at h2
    have hc : 0 < cos (π / 4) ^ 2 := by
      rw [cos_pi_div_four]; positivity
    norm_num [sampleU, sample] at h2
    rw [cos_pi_div_four] at hc
    linarith
  · rw [if_neg (by decide)]
  · rw [sampleU.southIn.ep2_eq (by decide) (by decide) (by decide) (by decide),
      sampleU.southIn.ep3_eq (by decide) (by decide) (by decide) (by decide), if_neg (by decide), if_neg (by decide), sub_zero]

end QGAnalysis

end Falwa
