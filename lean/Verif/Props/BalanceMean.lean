import Verif.Lemmas.BalanceMean
import Verif.Props.Balance

/-! # The reference wind tends to the solution of the balance equation when the reference QGPV does: C163 -/

noncomputable section

namespace Falwa

open Real Finset Spec Filter Topology

namespace NhnIn

/-- C163, direct solver. For every smooth solution of the balance equation there is a constant such that on every grid the wind of
`compute_reference_states` differs from the solution, in the mean square over height weighted with density and whatever row is
looked at on each level, by at most the constant times the errors of the boundary circulation, of the reference QGPV itself (not of
its slope) and of the shear prescribed at the top, plus `dφ² + dz`. -/
theorem C163_direct {B : BalancedState} (hB : B.Solves) (hQ : ContDiff ℝ 3 B.Q) : ∃ C, 0 ≤ C ∧ ∀ I : NhnIn, I.Geometry → 4 ≤ I.jd →
    I.InvCorrect → B.Grid I.planet I.statn (I.jb + 1) I.nd I.kmax → ∀ β ε τ : ℝ, 0 ≤ β → 0 ≤ ε → 0 ≤ τ →
    (∀ k, 2 ≤ k → k ≤ I.kmax - 1 → |(I.area I.vort k).ckref (I.jb + 1) / (2 * π * I.a) -
      (B.u (I.planet.lat (I.jb + 1), I.planet.height k) + I.om * I.a) * cos (I.planet.lat (I.jb + 1))| ≤ β) →
    (∀ j k, I.jb + 1 ≤ j → j ≤ I.nd → 2 ≤ k → k ≤ I.kmax - 1 →
      |I.qrefOut j k - B.Q (I.planet.lat j, I.planet.height k)| ≤ ε) →
    (∀ j, I.jb + 2 ≤ j → j ≤ I.nd - 1 →
      |-(I.topFactor j * (I.tbar (j - I.jb + 1) I.kmax - I.tbar (j - I.jb - 1) I.kmax)) -
        cos (I.planet.lat j) * B.shear (I.planet.lat j) B.top| ≤ τ) →
    ∀ J : ℤ → ℤ, (∀ k, 2 ≤ J k ∧ J k ≤ I.jd - 1) →
      I.dz * ∑ k ∈ Icc 2 (I.kmax - 1), exp (-(I.planet.height k / I.h)) *
        (|I.uref (J k) k - B.u (I.planet.lat ((J k + I.jb : ℤ) : ℝ), I.planet.height k)| *
          cos (I.planet.lat ((J k + I.jb : ℤ) : ℝ))) ^ 2 ≤
        C * (β + (I.dphi ^ 2 + I.dz + τ) + ε) ^ 2 := by
  obtain ⟨C, C0, hC⟩ := hB.mean_error hQ
  refine ⟨C, C0, fun I h h4 hc hg β ε τ β0 ε0 τ0 hβ hε hτ J hJ => ?_⟩
  have hjd : I.jd = I.nd - I.jb := rfl
  have hkm := h.kmax3
  have hp : I.Physical := ⟨by have := hg.a; change I.a = B.a at this; rw [this]; exact hB.a0,
    by have := hg.om; change I.om = B.om at this; rw [this]; exact hB.om0,
    by have := hg.h; change I.h = B.h at this; rw [this]; exact hB.h0,
    by have := hg.r; change I.rr = B.r at this; rw [this]; exact hB.r0, hg.dz, (hg.stable hB).stat⟩
  obtain ⟨a1, a2, a3, a4⟩ := NhnIn.C54_interior_partial h h4 hp.om0.ne' (NhnIn.C79_exact h hp hc)
  have key := hC I.planet I.statn (I.jb + 1) I.nd I.kmax (I.kmax - 1) hg (Or.inl rfl) I.qrefOut I.solution β ε τ β0 ε0 τ0
    (fun j k c1 c2 c3 c4 => a1 j k (by omega) (by omega) (by omega) (by omega))
    (fun j k c1 c2 c3 c4 => hε j k (by omega) (by omega) (by omega) (by omega))
    (fun k c1 c2 => by
      have q := hβ k (by omega) (by omega)
      rw [a2 k (by omega) (by omega)]
      push_cast
      refine le_trans (le_of_eq ?_) q
      congr 1
      ring)
    (fun k _ _ => a3 k) (fun j c1 c2 => a4 j (by omega) (by omega))
    (fun j c1 c2 => by
      have q := hτ j (by omega) (by omega)
      rw [NhnIn.top_eq h hp (by omega) (by omega)]
      refine le_trans (le_of_eq ?_) q
      congr 2
      rw [show I.kmax - (I.kmax - 1) = 1 by ring]
      have : I.planet.dz = I.dz := rfl
      rw [this]
      have := hp.dz0.ne'
      push_cast
      field_simp)
    (fun k => J k + I.jb) (fun k _ _ => ⟨by have := (hJ k).1; show I.jb + 1 < J k + I.jb; omega,
      by have := (hJ k).2; show J k + I.jb < I.nd; omega⟩)
  have i : Ioo 1 (I.kmax - 1 + 1) = Icc 2 (I.kmax - 1) := by ext x; simp only [mem_Ioo, mem_Icc]; omega
  rw [i] at key
  refine le_trans (le_of_eq ?_) key
  show I.dz * _ = I.dz * _
  congr 1
  refine sum_congr rfl fun k _ => ?_
  obtain ⟨u1, hcos⟩ := NhnIn.uref_solution h (hJ k).1 (hJ k).2 k
  show exp (-(I.planet.height k / I.h)) * _ = exp (-(I.planet.height k / I.h)) * _
  congr 2
  rw [u1, ← abs_of_pos hcos, ← abs_mul, abs_of_pos hcos]
  congr 1
  field_simp

end NhnIn

namespace RefIn

/-- C163, iterative solver. The same for the limit of the sweeps, without the highest interior level. -/
theorem C163_iterative {B : BalancedState} (hB : B.Solves) (hQ : ContDiff ℝ 3 B.Q) : ∃ C, 0 ≤ C ∧ ∀ I : RefIn, I.Geometry →
    I.rjac ^ 2 < 1 → B.Grid I.planet I.stat 1 I.jd I.kmax → ∀ β ε τ : ℝ, 0 ≤ β → 0 ≤ ε → 0 ≤ τ →
    (∀ k, 2 ≤ k → k ≤ I.kmax - 1 → |I.bound k - B.u (0, I.planet.height k)| ≤ β) →
    (∀ j k, 1 ≤ j → j ≤ I.jd → 2 ≤ k → k ≤ I.kmax - 1 → |I.qref j k - B.Q (I.planet.lat j, I.planet.height k)| ≤ ε) →
    (∀ j, 2 ≤ j → j ≤ I.jd - 1 →
      |-(I.uz j / (2 * I.dz)) - cos (I.planet.lat j) * B.shear (I.planet.lat j) B.top| ≤ τ) →
    ∃ U : ℤ → ℤ → ℝ, (∀ j k, 2 ≤ j → j ≤ I.jd - 1 → 2 ≤ k → k ≤ I.kmax - 1 →
        Tendsto (fun n => (I.trajectory n).2 j k) atTop (𝓝 (U j k))) ∧
      ∀ J : ℤ → ℤ, (∀ k, 2 ≤ J k ∧ J k ≤ I.jd - 1) →
        I.dz * ∑ k ∈ Icc 2 (I.kmax - 2), exp (-(I.planet.height k / I.h)) *
          |U (J k) k - B.u (I.planet.lat (J k), I.planet.height k) * cos (I.planet.lat (J k))| ^ 2 ≤
          C * (β + (I.dphi ^ 2 + I.dz + τ) + ε) ^ 2 := by
  obtain ⟨C, C0, hC⟩ := hB.mean_error hQ
  refine ⟨C, C0, fun I h hr hg β ε τ β0 ε0 τ0 hβ hε hτ => ?_⟩
  have hkm := h.kmax3
  have hdz : 0 < I.dz := hg.dz
  have hP : I.Physical := ⟨h, by have := hg.om; change I.om = B.om at this; rw [this]; exact hB.om0.ne',
    by have := hg.a; change I.a = B.a at this; rw [this]; exact hB.a0.ne',
    by have := hg.h; change I.h = B.h at this; rw [this]; exact hB.h0,
    by have := hg.r; change I.r = B.r at this; rw [this]; exact hB.r0, hdz.ne', (hg.stable hB).stat⟩
  obtain ⟨u, hu⟩ := RefIn.C55_exists hP.geom hP.om hP.a hP.h hP.r hP.dz hP.stat
  refine ⟨u, fun j k j1 j2 k1 k2 => RefIn.C112_converges hP hr hu j k ⟨⟨by omega, by omega⟩, by omega, by omega⟩, fun J hJ => ?_⟩
  have e0 : I.planet.lat ((1 : ℤ) : ℝ) = 0 := by unfold Planet.lat; simp
  have key := hC I.planet I.stat 1 I.jd I.kmax (I.kmax - 2) hg (Or.inr rfl) I.qref u β ε τ β0 ε0 τ0
    (fun j k c1 c2 c3 c4 => hu.eqn j k (by omega) (by omega) (by omega) (by omega))
    (fun j k c1 c2 c3 c4 => hε j k (by omega) (by omega) (by omega) (by omega))
    (fun k c1 c2 => by
      rw [hu.south k (by omega) (by omega), e0, cos_zero, mul_one]
      exact hβ k (by omega) (by omega))
    (fun k c1 c2 => hu.north k (by omega) (by omega)) (fun j c1 c2 => hu.bottom j (by omega) (by omega))
    (fun j c1 c2 => by
      have q := hτ j (by omega) (by omega)
      have t := (RefIn.top_iff u hP.dz j).1 (hu.top j (by omega) (by omega))
      refine le_trans (le_of_eq ?_) q
      congr 2
      rw [t, show I.kmax - (I.kmax - 2) = 2 by ring]
      have : I.planet.dz = I.dz := rfl
      rw [this]
      push_cast
      field_simp
      ring) J (fun k _ _ => ⟨by have := (hJ k).1; omega, by have := (hJ k).2; omega⟩)
  have i : Ioo 1 (I.kmax - 2 + 1) = Icc 2 (I.kmax - 2) := by ext x; simp only [mem_Ioo, mem_Icc]; omega
  rw [i] at key
  exact key

end RefIn

/-- The hypotheses on the solution can be met: the jet, whose grids are those of the samples of C161. -/
example : (BalancedState.jet 2).Solves ∧ ContDiff ℝ 3 (BalancedState.jet 2).Q :=
  ⟨BalancedState.jet_solves two_pos, (contDiff_const.mul contDiff_snd.exp).mul ((contDiff_sin.comp contDiff_fst).pow 2)⟩

end Falwa
