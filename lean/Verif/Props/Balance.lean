import Verif.Lemmas.BalanceConverge
import Verif.Props.Response

/-! # The reference wind approximates the solution of the balance equation: C161 -/

noncomputable section

namespace Falwa

open Real Finset Spec Filter Topology

namespace NhnIn

/-- C161, direct solver. For every smooth solution of the balance equation there is a constant such that on every grid the wind of
`compute_reference_states` differs from the solution by at most the error of the boundary circulation plus the constant times
`dφ² + dz`, the error of the slope of the reference QGPV and the error of the shear prescribed at the top. -/
theorem C161_direct {B : BalancedState} (hB : B.Solves) : ∃ C, 0 ≤ C ∧ ∀ I : NhnIn, I.Geometry → 4 ≤ I.jd → I.InvCorrect →
    B.Grid I.planet I.statn (I.jb + 1) I.nd I.kmax → ∀ β ε τ : ℝ, 0 ≤ β → 0 ≤ ε → 0 ≤ τ →
    (∀ k, 2 ≤ k → k ≤ I.kmax - 1 → |(I.area I.vort k).ckref (I.jb + 1) / (2 * π * I.a) -
      (B.u (I.planet.lat (I.jb + 1), I.planet.height k) + I.om * I.a) * cos (I.planet.lat (I.jb + 1))| ≤ β) →
    (∀ j k, I.jb + 2 ≤ j → j ≤ I.nd - 1 → 2 ≤ k → k ≤ I.kmax - 1 →
      |(I.qrefOut (j + 1) k - I.qrefOut (j - 1) k) / (2 * I.dphi) -
        deriv (fun x => B.Q (x, I.planet.height k)) (I.planet.lat j)| ≤ ε) →
    (∀ j, I.jb + 2 ≤ j → j ≤ I.nd - 1 →
      |-(I.topFactor j * (I.tbar (j - I.jb + 1) I.kmax - I.tbar (j - I.jb - 1) I.kmax)) -
        cos (I.planet.lat j) * B.shear (I.planet.lat j) B.top| ≤ τ) →
    ∀ j k, 2 ≤ j → j ≤ I.jd - 1 → 2 ≤ k → k ≤ I.kmax - 1 →
      |I.uref j k - B.u (I.planet.lat ((j + I.jb : ℤ) : ℝ), I.planet.height k)| * cos (I.planet.lat ((j + I.jb : ℤ) : ℝ)) ≤
        β + C * (I.dphi ^ 2 + I.dz + ε + τ) := by
  obtain ⟨C, C0, hC⟩ := hB.error
  refine ⟨C, C0, fun I h h4 hc hg β ε τ β0 ε0 τ0 hβ hε hτ j k j1 j2 k1 k2 => ?_⟩
  have hjd : I.jd = I.nd - I.jb := rfl
  have hkm := h.kmax3
  have hp : I.Physical := ⟨by have := hg.a; change I.a = B.a at this; rw [this]; exact hB.a0,
    by have := hg.om; change I.om = B.om at this; rw [this]; exact hB.om0,
    by have := hg.h; change I.h = B.h at this; rw [this]; exact hB.h0,
    by have := hg.r; change I.rr = B.r at this; rw [this]; exact hB.r0, hg.dz, (hg.stable hB).stat⟩
  obtain ⟨a1, a2, a3, a4⟩ := NhnIn.C54_interior_partial h h4 hp.om0.ne' (NhnIn.C79_exact h hp hc)
  obtain ⟨u1, hcos⟩ := NhnIn.uref_solution h j1 j2 k
  have key := hC I.planet I.statn (I.jb + 1) I.nd I.kmax (I.kmax - 1) hg (by omega) (by omega) I.qrefOut I.solution β ε τ β0 ε0 τ0
    (fun j k c1 c2 c3 c4 => a1 j k (by omega) (by omega) (by omega) (by omega))
    (fun j k c1 c2 c3 c4 => hε j k (by omega) (by omega) (by omega) (by omega))
    (fun k c1 c2 => by
      have q := hβ k (by omega) (by omega)
      rw [a2 k (by omega) (by omega)]
      push_cast
      refine le_trans (le_of_eq ?_) q
      congr 1
      ring)
    (fun k _ _ => a3 k) (fun j c1 c2 => a4 j (by omega) (by omega))
    (fun j c1 c2 => by
      have q := hτ j (by omega) (by omega)
      rw [NhnIn.top_eq h hp (by omega) (by omega)]
      refine le_trans (le_of_eq ?_) q
      congr 2
      rw [show I.kmax - (I.kmax - 1) = 1 by ring]
      have : I.planet.dz = I.dz := rfl
      rw [this]
      have := hp.dz0.ne'
      push_cast
      field_simp)
    (j + I.jb) k (by omega) (by omega) (by omega) (by omega)
  refine le_trans (le_of_eq ?_) key
  rw [u1, ← abs_of_pos hcos, ← abs_mul, abs_of_pos hcos]
  congr 1
  field_simp

end NhnIn

namespace RefIn

/-- C161, iterative solver. The same for the limit of the sweeps. -/
theorem C161_iterative {B : BalancedState} (hB : B.Solves) : ∃ C, 0 ≤ C ∧ ∀ I : RefIn, I.Geometry → I.rjac ^ 2 < 1 →
    B.Grid I.planet I.stat 1 I.jd I.kmax → ∀ β ε τ : ℝ, 0 ≤ β → 0 ≤ ε → 0 ≤ τ →
    (∀ k, 2 ≤ k → k ≤ I.kmax - 1 → |I.bound k - B.u (0, I.planet.height k)| ≤ β) →
    (∀ j k, 2 ≤ j → j ≤ I.jd - 1 → 2 ≤ k → k ≤ I.kmax - 1 →
      |(I.qref (j + 1) k - I.qref (j - 1) k) / (2 * I.dphi) -
        deriv (fun x => B.Q (x, I.planet.height k)) (I.planet.lat j)| ≤ ε) →
    (∀ j, 2 ≤ j → j ≤ I.jd - 1 →
      |-(I.uz j / (2 * I.dz)) - cos (I.planet.lat j) * B.shear (I.planet.lat j) B.top| ≤ τ) →
    ∀ j k, 2 ≤ j → j ≤ I.jd - 1 → 2 ≤ k → k ≤ I.kmax - 1 →
      ∃ l, Tendsto (fun n => (I.trajectory n).2 j k) atTop (𝓝 l) ∧
        |l - B.u (I.planet.lat j, I.planet.height k) * cos (I.planet.lat j)| ≤ β + C * (I.dphi ^ 2 + I.dz + ε + τ) := by
  obtain ⟨C, C0, hC⟩ := hB.error
  refine ⟨C, C0, fun I h hr hg β ε τ β0 ε0 τ0 hβ hε hτ j k j1 j2 k1 k2 => ?_⟩
  have hkm := h.kmax3
  have hdz : 0 < I.dz := hg.dz
  have hP : I.Physical := ⟨h, by have := hg.om; change I.om = B.om at this; rw [this]; exact hB.om0.ne',
    by have := hg.a; change I.a = B.a at this; rw [this]; exact hB.a0.ne',
    by have := hg.h; change I.h = B.h at this; rw [this]; exact hB.h0,
    by have := hg.r; change I.r = B.r at this; rw [this]; exact hB.r0, hdz.ne', (hg.stable hB).stat⟩
  obtain ⟨u, hu⟩ := RefIn.C55_exists hP.geom hP.om hP.a hP.h hP.r hP.dz hP.stat
  refine ⟨u j k, RefIn.C112_converges hP hr hu j k ⟨⟨by omega, by omega⟩, by omega, by omega⟩, ?_⟩
  have e0 : I.planet.lat ((1 : ℤ) : ℝ) = 0 := by unfold Planet.lat; simp
  refine hC I.planet I.stat 1 I.jd I.kmax (I.kmax - 2) hg (by omega) (by omega) I.qref u β ε τ β0 ε0 τ0
    (fun j k c1 c2 c3 c4 => hu.eqn j k (by omega) (by omega) (by omega) (by omega))
    (fun j k c1 c2 c3 c4 => hε j k (by omega) (by omega) (by omega) (by omega))
    (fun k c1 c2 => by
      rw [hu.south k (by omega) (by omega), e0, cos_zero, mul_one]
      exact hβ k (by omega) (by omega))
    (fun k c1 c2 => hu.north k (by omega) (by omega)) (fun j c1 c2 => hu.bottom j (by omega) (by omega))
    (fun j c1 c2 => by
      have q := hτ j (by omega) (by omega)
      have t := (RefIn.top_iff u hP.dz j).1 (hu.top j (by omega) (by omega))
      refine le_trans (le_of_eq ?_) q
      congr 2
      rw [t, show I.kmax - (I.kmax - 2) = 2 by ring]
      have : I.planet.dz = I.dz := rfl
      rw [this]
      push_cast
      field_simp
      ring)
    j k (by omega) (by omega) (by omega) (by omega)

end RefIn

/-! ### Samples -/

/-- The atmosphere with the wind `z² cos φ`. -/
def Spec.BalancedState.jet (top : ℝ) : BalancedState where
  a := 1
  om := 1
  h := 1
  r := 1
  cp := 1
  south := 0
  top := top
  S := fun _ => 1
  u := fun p => p.2 ^ 2 * cos p.1
  G := fun p => -2 * p.2 ^ 2
  Q := fun p => -2 * exp p.2 * sin p.1 ^ 2

theorem Spec.BalancedState.jet_solves {top : ℝ} (h : 0 < top) : (BalancedState.jet top).Solves where
  a0 := one_pos
  om0 := one_pos
  h0 := one_pos
  r0 := one_pos
  south0 := le_rfl
  top0 := h
  smoothS := contDiff_const
  smoothU := (contDiff_snd.pow 2).mul (contDiff_cos.comp contDiff_fst)
  smoothG := contDiff_const.mul (contDiff_snd.pow 2)
  smoothQ := (contDiff_const.mul contDiff_snd.exp).mul ((contDiff_sin.comp contDiff_fst).pow 2)
  stable := fun _ => one_pos
  slope := fun φ z _ _ _ _ => by
    show deriv (fun x => z ^ 2 * cos x * cos x) φ = sin φ * cos φ * (-2 * z ^ 2)
    have d := ((hasDerivAt_cos φ).const_mul (z ^ 2)).mul (hasDerivAt_cos φ)
    refine d.deriv.trans ?_
    ring
  balance := fun φ z _ _ _ _ => by
    have s : ∀ y, (BalancedState.jet top).shear φ y = 2 * y * cos φ := by
      intro y
      have d := ((hasDerivAt_pow 2 y).mul_const (cos φ)).deriv
      refine d.trans ?_
      norm_num
    have w : ∀ y, (BalancedState.jet top).weight y = 1 := by
      intro y
      show exp (-(1 - 1 / 1) * y / 1) / 1 = 1
      norm_num
    have f : (fun y => (BalancedState.jet top).weight y * (BalancedState.jet top).shear φ y) = fun y => 2 * y * cos φ := by
      funext y
      rw [s, w, one_mul]
    rw [f]
    have d1 : deriv (fun y : ℝ => 2 * y * cos φ) z = 2 * cos φ := by
      refine (((hasDerivAt_id z).const_mul 2).mul_const (cos φ)).deriv.trans ?_
      ring
    have d2 : deriv (fun x : ℝ => (-2 * exp z * sin x ^ 2 : ℝ)) φ = -2 * exp z * (2 * sin φ * cos φ) := by
      refine (((hasDerivAt_sin φ).pow 2).const_mul (-2 * exp z)).deriv.trans ?_
      push_cast
      ring
    have d3 : deriv (fun _ : ℝ => (-2 * z ^ 2 : ℝ)) φ = 0 := deriv_const _ _
    show deriv (fun _ : ℝ => (-2 * z ^ 2 : ℝ)) φ + (2 * 1 * 1) ^ 2 * (1 / 1) * sin φ * exp (z / 1) * deriv (fun y => 2 * y * cos φ) z =
      -(2 * 1 * 1 * deriv (fun x : ℝ => (-2 * exp z * sin x ^ 2 : ℝ)) φ)
    rw [d1, d2, d3, div_one]
    ring_nf
  ground := fun φ _ _ => by
    show (0 : ℝ) ^ 2 * cos φ = 0
    norm_num

/-- The hypotheses can be met: the jet and the sample of the direct solver, which lies on a grid that covers it. -/
example : (BalancedState.jet 2).Solves ∧ NhnIn.sample0.Geometry ∧ 4 ≤ NhnIn.sample0.jd ∧ NhnIn.sample0.InvCorrect ∧
    (BalancedState.jet 2).Grid NhnIn.sample0.planet NhnIn.sample0.statn (NhnIn.sample0.jb + 1) NhnIn.sample0.nd NhnIn.sample0.kmax := by
  refine ⟨BalancedState.jet_solves two_pos, NhnIn.sample0_geometry, by decide, Classical.choose_spec (NhnIn.exists_inv (Icc 1 2)), ?_⟩
  have hpi := pi_pos
  refine ⟨rfl, rfl, rfl, rfl, rfl, ?_, one_pos, by decide, by decide, ?_, ?_, ?_, fun _ _ _ => rfl⟩
  · show 0 < π / 6
    positivity
  · show (((4 : ℤ) : ℝ) - 1) * (π / 6) = π / 2
    push_cast
    ring
  · show 0 ≤ (((0 + 1 : ℤ) : ℝ) - 1) * (π / 6)
    norm_num
  · show (((3 : ℤ) : ℝ) - 1) * 1 = 2
    norm_num

/-- The same for the iterative solver. -/
example : (BalancedState.jet 3).Solves ∧ ({ RefIn.smooth with cp := 1 } : RefIn).Geometry ∧
    ({ RefIn.smooth with cp := 1 } : RefIn).rjac ^ 2 < 1 ∧
    (BalancedState.jet 3).Grid ({ RefIn.smooth with cp := 1 } : RefIn).planet ({ RefIn.smooth with cp := 1 } : RefIn).stat 1
      ({ RefIn.smooth with cp := 1 } : RefIn).jd ({ RefIn.smooth with cp := 1 } : RefIn).kmax := by
  have hpi := pi_pos
  have hg := RefIn.smooth_physical.geom
  refine ⟨BalancedState.jet_solves three_pos, ⟨hg.nlon1, hg.jd3, hg.kmax3, hg.odd, hg.dphiEq⟩, by norm_num [RefIn.smooth], ?_⟩
  refine ⟨rfl, rfl, rfl, rfl, rfl, ?_, one_pos, by decide, by decide, ?_, ?_, ?_, fun _ _ _ => rfl⟩
  · show 0 < π / 4
    positivity
  · show (((3 : ℤ) : ℝ) - 1) * (π / 4) = π / 2
    push_cast
    ring
  · show 0 ≤ (((1 : ℤ) : ℝ) - 1) * (π / 4)
    norm_num
  · show (((4 : ℤ) : ℝ) - 1) * 1 = 3
    norm_num

end Falwa
