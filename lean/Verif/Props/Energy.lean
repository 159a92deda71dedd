import Verif.Lemmas.Energy
import Verif.Props.Response

/-! # The reference wind responds to the reference QGPV, not to its slope: C162 -/

noncomputable section

namespace Falwa

open Real Finset Spec Filter Topology

namespace NhnIn

variable {I : NhnIn}

/-- The rows of the domain span at most a quarter of a meridian. -/
theorem Geometry.span (h : I.Geometry) : I.dphi * ((I.nd - (I.jb + 1) : ℤ) : ℝ) ≤ π / 2 := by
  rw [← h.dphi_mul]
  refine mul_le_mul_of_nonneg_left ?_ h.dphi_pos.le
  push_cast
  have : (0 : ℝ) ≤ I.jb := by exact_mod_cast h.jb0
  linarith

/-- C162, direct solver. Two inputs on one grid. The difference of the winds has a part that is at most the response to the boundary
circulation and to the temperature at the top, as in C146. The rest, at any choice of one row per level, is in the mean square over
the levels (weighted with density) at most `π Ω a / 2` times the difference of the reference QGPV divided by the Coriolis parameter;
no slope of it, no grid spacing and no static stability enters. -/
theorem C162_direct (h : I.Geometry) (hp : I.Physical) (h4 : 4 ≤ I.jd) (hc : I.InvCorrect)
    (pv uu vort pt : ℤ → ℤ → ℤ → ℝ) (tb : ℤ → ℝ) {q : ℤ → ℝ} {C t : ℝ} (C0 : 0 ≤ C) (t0 : 0 ≤ t)
    (hq : ∀ jj k, I.jb + 1 ≤ jj → jj ≤ I.nd → 2 ≤ k → k ≤ I.kmax - 1 →
      |I.qrefOut jj k - (I.withFields pv uu vort pt tb).qrefOut jj k| ≤ q k)
    (hb : ∀ k, 2 ≤ k → k ≤ I.kmax - 1 →
      |(I.area I.vort k).ckref (I.jb + 1) - ((I.withFields pv uu vort pt tb).area vort k).ckref (I.jb + 1)| ≤ C)
    (ht : ∀ jj, I.jb + 2 ≤ jj → jj ≤ I.nd - 1 →
      |I.dz * I.topFactor jj * (I.tbar (jj - I.jb + 1) I.kmax - I.tbar (jj - I.jb - 1) I.kmax) -
        I.dz * I.topFactor jj * ((I.withFields pv uu vort pt tb).tbar (jj - I.jb + 1) I.kmax -
          (I.withFields pv uu vort pt tb).tbar (jj - I.jb - 1) I.kmax)| ≤ t)
    (J : ℤ → ℤ) (hJ : ∀ k, 2 ≤ J k ∧ J k ≤ I.jd - 1) :
    ∃ d : ℤ → ℝ, (∀ k, 0 ≤ d k) ∧
      (∀ k, 2 ≤ k → k ≤ I.kmax - 1 →
        |I.uref (J k) k - (I.withFields pv uu vort pt tb).uref (J k) k| * cos (I.planet.lat ((J k + I.jb : ℤ) : ℝ)) ≤
          C / (2 * π * I.a) + t * I.planet.column I.statn I.kmax k + d k) ∧
      ∑ k ∈ Icc 2 (I.kmax - 1), exp (-(I.planet.height k / I.h)) * d k ^ 2 ≤
        (π / 2 * (I.om * I.a)) ^ 2 * ∑ k ∈ Icc 2 (I.kmax - 1), exp (-(I.planet.height k / I.h)) * q k ^ 2 := by
  have hkm := h.kmax3
  have hjd : I.jd = I.nd - I.jb := rfl
  have hN := h.withFields pv uu vort pt tb
  have hpN := hp.withFields pv uu vort pt tb
  have ha := hp.a0
  obtain ⟨a1, a2, a3, a4⟩ := C54_interior_partial h h4 hp.om0.ne' (C79_exact h hp hc)
  obtain ⟨b1, b2, b3, b4⟩ := C54_interior_partial hN h4 hpN.om0.ne' (C79_exact hN hpN hc)
  have i : Ioo 1 I.kmax = Icc 2 (I.kmax - 1) := by ext x; simp only [mem_Ioo, mem_Icc]; omega
  obtain ⟨d, d0, d1, d2⟩ := (stable h hp).respond (by omega) hkm h.dphi_pos h.span (B := C / (2 * π * I.a)) (t := t) (q := q)
    (by positivity) t0 (kt := I.kmax - 1) (Or.inl rfl)
    (fun j k c1 c2 c3 c4 => a1 j k (by omega) (by omega) (by omega) (by omega))
    (fun j k c1 c2 c3 c4 => b1 j k (by show I.jb + 2 ≤ j; omega) (by show j ≤ I.nd - 1; omega) (by omega)
      (by show k ≤ I.kmax - 1; omega)) (fun j k c1 c2 c3 c4 => hq j k (by omega) (by omega) (by omega) (by omega))
    (fun k c1 c2 => by
      have q := b2 k (by omega) (by show k ≤ I.kmax - 1; omega)
      change (I.withFields pv uu vort pt tb).solution (I.jb + 1) k = ((I.withFields pv uu vort pt tb).area
        vort k).ckref (I.jb + 1) / (2 * π * I.a) - I.om * I.a * cos (I.planet.lat (I.jb + 1)) at q
      rw [a2 k (by omega) (by omega), q, sub_sub_sub_cancel_right, ← sub_div, abs_div, abs_of_pos (mul_pos two_pi_pos ha)]
      exact div_le_div_of_nonneg_right (hb k (by omega) (by omega)) (mul_pos two_pi_pos ha).le)
    (fun k _ _ => (a3 k).trans (b3 k).symm) (fun j c1 c2 => a4 j (by omega) (by omega))
    (fun j c1 c2 => b4 j (by show I.jb + 2 ≤ j; omega) (by show j ≤ I.nd - 1; omega))
    (fun j c1 c2 => by
      have t1 := top_eq h hp (jj := j) (by omega) (by omega)
      have t2 := top_eq hN hpN (jj := j) (by show I.jb + 2 ≤ j; omega) (by show j ≤ I.nd - 1; omega)
      change (I.withFields pv uu vort pt tb).solution j I.kmax - (I.withFields pv uu vort pt tb).solution j (I.kmax - 1) =
        -(I.dz * I.topFactor j * ((I.withFields pv uu vort pt tb).tbar (j - I.jb + 1) I.kmax -
          (I.withFields pv uu vort pt tb).tbar (j - I.jb - 1) I.kmax)) at t2
      rw [t1, t2, neg_sub_neg, abs_sub_comm]
      exact ht j (by omega) (by omega)) (fun k => J k + I.jb)
    (fun k _ _ => ⟨by have := (hJ k).1; show I.jb + 1 < J k + I.jb; omega, by have := (hJ k).2; show J k + I.jb < I.nd; omega⟩)
  refine ⟨d, d0, fun k k1 k2 => ?_, ?_⟩
  · obtain ⟨u1, hcos⟩ := uref_solution h (hJ k).1 (hJ k).2 k
    have u2 := (uref_solution hN (hJ k).1 (hJ k).2 k).1
    change (I.withFields pv uu vort pt tb).uref (J k) k = (I.withFields pv uu vort pt tb).solution (J k + I.jb) k /
      cos (I.planet.lat ((J k + I.jb : ℤ) : ℝ)) at u2
    rw [u1, u2, ← sub_div, abs_div, abs_of_pos hcos, div_mul_cancel₀ _ hcos.ne']
    exact d1 k (by omega) (by omega)
  · rw [show I.kmax - 1 + 1 = I.kmax by ring, i] at d2
    exact d2

/-- The input of C146 with easterly and with other reference QGPV. -/
def shifted : NhnIn := westerly.withFields (fun _ j _ => (j : ℝ)) westerly.uu westerly.vort westerly.pt westerly.tb

theorem pole_qref (c : ℝ) : c + 1 ≤ (AreaIn.incline c).qref 4 ∧ (AreaIn.incline c).qref 4 ≤ c + 7 := by
  have hr := (AreaIn.C49_monotone_partial (AreaIn.incline_valid c)).1
  rw [AreaIn.incline_qmin, AreaIn.incline_qmax] at hr
  exact hr 4 (Or.inl rfl)

/-- The hypotheses can be met, with the same boundary circulation and temperature and different reference QGPV. -/
example : westerly.Geometry ∧ westerly.Physical ∧ 4 ≤ westerly.jd ∧ westerly.InvCorrect ∧
    shifted.qrefOut 4 2 ≠ westerly.qrefOut 4 2 ∧
    ∃ q : ℤ → ℝ, (∀ jj k, westerly.jb + 1 ≤ jj → jj ≤ westerly.nd → 2 ≤ k → k ≤ westerly.kmax - 1 →
      |westerly.qrefOut jj k - shifted.qrefOut jj k| ≤ q k) := by
  refine ⟨⟨sample0_geometry.imax1, sample0_geometry.jb0, sample0_geometry.jd3, sample0_geometry.kmax3, sample0_geometry.odd,
    sample0_geometry.dphiEq⟩, ⟨sample0_physical.a0, sample0_physical.om0, sample0_physical.h0, sample0_physical.rr0,
    sample0_physical.dz0, sample0_physical.stat0⟩, by show (4 : ℤ) ≤ 4 - 0; decide, evenTop_inv, ?_,
    fun k => ∑ jj ∈ Icc 1 4, |westerly.qrefOut jj k - shifted.qrefOut jj k|, fun jj k j1 j2 _ _ => ?_⟩
  · have s : sin (π / 6 * ((4 - 1 : ℤ) : ℝ)) = 1 := by
      rw [show π / 6 * ((4 - 1 : ℤ) : ℝ) = π / 2 by push_cast; ring, sin_pi_div_two]
    have e1 : westerly.qrefOut 4 2 = (AreaIn.incline (-100)).qref 4 / sin (π / 6 * ((4 - 1 : ℤ) : ℝ)) / (2 * 1) := rfl
    have a0 : (AreaIn.incline 0).q = fun (_ j : ℤ) => (j : ℝ) := by funext _ j; show 0 + (j : ℝ) = j; ring
    have e2 : shifted.qrefOut 4 2 = ({ AreaIn.incline 0 with q := fun (_ j : ℤ) => (j : ℝ) } : AreaIn).qref 4 /
      sin (π / 6 * ((4 - 1 : ℤ) : ℝ)) / (2 * 1) := rfl
    rw [← a0] at e2
    change shifted.qrefOut 4 2 = (AreaIn.incline 0).qref 4 / sin (π / 6 * ((4 - 1 : ℤ) : ℝ)) / (2 * 1) at e2
    rw [e1, e2, s]
    have p1 := pole_qref (-100)
    have p2 := pole_qref 0
    intro hh
    linarith [p1.2, p2.1]
  · refine single_le_sum (f := fun jj => |westerly.qrefOut jj k - shifted.qrefOut jj k|) (fun _ _ => abs_nonneg _) ?_
    rw [mem_Icc]
    exact ⟨j1, j2⟩

end NhnIn

namespace RefIn

variable {I : RefIn}

/-- C162, iterative solver. The limits of the sweeps. With the condition that this solver uses at the top, the highest interior
level is left out of the mean square. -/
theorem C162_iterative (hP : I.Physical) (hr : I.rjac ^ 2 < 1) (ho : 0 < I.om) (ha : 0 < I.a) (hz : 0 < I.dz)
    (pv uu pt : ℤ → ℤ → ℤ → ℝ) {q : ℤ → ℝ} {C t : ℝ} (C0 : 0 ≤ C) (t0 : 0 ≤ t)
    (hq : ∀ j k, 1 ≤ j → j ≤ I.jd → 2 ≤ k → k ≤ I.kmax - 1 → |I.qref j k - (I.withFields pv uu pt).qref j k| ≤ q k)
    (hb : ∀ k, 2 ≤ k → k ≤ I.kmax - 1 → |I.bound k - (I.withFields pv uu pt).bound k| ≤ C)
    (ht : ∀ j, 2 ≤ j → j ≤ I.jd - 1 → |I.uz j - (I.withFields pv uu pt).uz j| ≤ t) :
    ∃ U V : ℤ → ℤ → ℝ,
      (∀ j k, 2 ≤ j → j ≤ I.jd - 1 → 2 ≤ k → k ≤ I.kmax - 1 → Tendsto (fun n => (I.trajectory n).2 j k) atTop (𝓝 (U j k)) ∧
        Tendsto (fun n => ((I.withFields pv uu pt).trajectory n).2 j k) atTop (𝓝 (V j k))) ∧
      ∀ J : ℤ → ℤ, (∀ k, 2 ≤ J k ∧ J k ≤ I.jd - 1) → ∃ d : ℤ → ℝ, (∀ k, 0 ≤ d k) ∧
        (∀ k, 2 ≤ k → k ≤ I.kmax - 1 → |U (J k) k - V (J k) k| ≤ C + t * I.planet.column I.stat I.kmax k + d k) ∧
        ∑ k ∈ Icc 2 (I.kmax - 2), exp (-(I.planet.height k / I.h)) * d k ^ 2 ≤
          (π / 2 * (I.om * I.a)) ^ 2 * ∑ k ∈ Icc 2 (I.kmax - 1), exp (-(I.planet.height k / I.h)) * q k ^ 2 := by
  have hg := hP.geom
  have hkm := hg.kmax3
  have hjd := hg.jd3
  have hN := hP.withFields pv uu pt
  have hd := hg.dphi_pos
  obtain ⟨u, hu⟩ := C55_exists hP.geom hP.om hP.a hP.h hP.r hP.dz hP.stat
  obtain ⟨v, hv⟩ := C55_exists hN.geom hN.om hN.a hN.h hN.r hN.dz hN.stat
  refine ⟨u, v, fun j k j1 j2 k1 k2 => ⟨C112_converges hP hr hu j k ⟨⟨by omega, by omega⟩, by omega, by omega⟩,
    C112_converges hN hr hv j k ⟨⟨by omega, show j ≤ I.jd by omega⟩, by omega, show k ≤ I.kmax by omega⟩⟩, fun J hJ => ?_⟩
  have st : I.planet.Stable I.stat 1 I.jd I.kmax := by
    have hm := hg.dphi_mul
    refine ⟨fun x x1 x2 => ?_, ?_, hP.stat⟩
    · push_cast at x1
      have p1 : 0 < I.planet.lat x := by unfold Planet.lat; exact mul_pos (by linarith) hd
      have p2 : I.planet.lat x < π / 2 := by
        unfold Planet.lat
        show (x - 1) * I.dphi < π / 2
        nlinarith
      exact ⟨sin_pos_of_pos_of_lt_pi p1 (by linarith [pi_pos]), cos_pos_of_mem_Ioo ⟨by linarith [pi_pos], p2⟩⟩
    · have h1 := hP.h
      have h2 := hP.r
      show 0 < (2 * I.om * I.a * I.dphi / I.dz) ^ 2 * (I.h / I.r)
      positivity
  have span : I.dphi * ((I.jd - 1 : ℤ) : ℝ) ≤ π / 2 := by
    have hm := hg.dphi_mul
    push_cast
    linarith
  have i1 : Ioo 1 I.kmax = Icc 2 (I.kmax - 1) := by ext x; simp only [mem_Ioo, mem_Icc]; omega
  have i2 : Ioo 1 (I.kmax - 2 + 1) = Icc 2 (I.kmax - 2) := by ext x; simp only [mem_Ioo, mem_Icc]; omega
  obtain ⟨d, d0, d1, d2⟩ := st.respond (by omega) hkm hd span (B := C) (t := t) (q := q) C0 t0 (kt := I.kmax - 2) (Or.inr rfl)
    (fun j k c1 c2 c3 c4 => hu.eqn j k (by omega) (by omega) (by omega) (by omega))
    (fun j k c1 c2 c3 c4 => hv.eqn j k (by omega) (show j ≤ I.jd - 1 by omega) (by omega) (show k ≤ I.kmax - 1 by omega))
    (fun j k c1 c2 c3 c4 => hq j k (by omega) (by omega) (by omega) (by omega))
    (fun k c1 c2 => by
      rw [hu.south k (by omega) (by omega), hv.south k (by omega) (show k ≤ I.kmax by omega)]
      exact hb k (by omega) (by omega))
    (fun k c1 c2 => (hu.north k (by omega) (by omega)).trans (hv.north k (by omega) (show k ≤ I.kmax by omega)).symm)
    (fun j c1 c2 => hu.bottom j (by omega) (by omega)) (fun j c1 c2 => hv.bottom j (by omega) (show j ≤ I.jd - 1 by omega))
    (fun j c1 c2 => by
      have t1 := (top_iff u hP.dz j).1 (hu.top j (by omega) (by omega))
      have t2 : v j I.kmax = v j (I.kmax - 2) - (I.withFields pv uu pt).uz j :=
        (top_iff (I := I.withFields pv uu pt) v hP.dz j).1 (hv.top j (by omega) (show j ≤ I.jd - 1 by omega))
      rw [t1, t2, abs_sub_comm]
      refine le_trans (le_of_eq ?_) (ht j (by omega) (by omega))
      congr 1
      ring) J (fun k _ _ => ⟨by have := (hJ k).1; omega, by have := (hJ k).2; omega⟩)
  rw [i1, i2] at d2
  exact ⟨d, d0, fun k k1 k2 => d1 k (by omega) (by omega), d2⟩

/-- The smooth input with larger QGPV. -/
def raised : RefIn := smooth.withFields (fun _ j _ => 10 + 2 * (j : ℝ)) smooth.uu smooth.pt

/-- The hypotheses can be met, with different reference QGPV. -/
example : smooth.Physical ∧ smooth.rjac ^ 2 < 1 ∧ 0 < smooth.om ∧ 0 < smooth.a ∧ 0 < smooth.dz ∧ smooth.qref 3 2 ≠ raised.qref 3 2 ∧
    ∃ (q : ℤ → ℝ) (C : ℝ), 0 ≤ C ∧
      (∀ j k, 1 ≤ j → j ≤ smooth.jd → 2 ≤ k → k ≤ smooth.kmax - 1 → |smooth.qref j k - raised.qref j k| ≤ q k) ∧
      (∀ k, 2 ≤ k → k ≤ smooth.kmax - 1 → |smooth.bound k - raised.bound k| ≤ C) ∧
      (∀ j, 2 ≤ j → j ≤ smooth.jd - 1 → |smooth.uz j - raised.uz j| ≤ 0) := by
  refine ⟨smooth_physical, by norm_num [smooth], by norm_num [smooth], by norm_num [smooth], by norm_num [smooth], ?_,
    fun k => ∑ j ∈ Icc 1 3, |smooth.qref j k - raised.qref j k|, ∑ k ∈ Icc 2 3, |smooth.bound k - raised.bound k|,
    sum_nonneg fun _ _ => abs_nonneg _, fun j k j1 j2 _ _ => ?_, fun k k1 k2 => ?_, fun j _ _ => ?_⟩
  · have s : sin (π / 4 * ((3 - 1 : ℤ) : ℝ)) = 1 := by
      rw [show π / 4 * ((3 - 1 : ℤ) : ℝ) = π / 2 by push_cast; ring, sin_pi_div_two]
    have m2 : (raised.area 2).qmax = 20 :=
      maxval_eq (show (1 : ℤ) ≤ 4 by decide) (show (1 : ℤ) ≤ 5 by decide) (fun i j _ _ _ h => by
        have : (j : ℝ) ≤ 5 := by exact_mod_cast (show j ≤ 5 from h)
        show 10 + 2 * (j : ℝ) ≤ 20
        linarith) 1 5 (show (1 : ℤ) ≤ 1 ∧ (1 : ℤ) ≤ 4 by decide) (show (1 : ℤ) ≤ 5 ∧ (5 : ℤ) ≤ 5 by decide)
        (show 10 + 2 * ((5 : ℤ) : ℝ) = 20 by norm_num)
    have e1 : smooth.qref 3 2 = AreaIn.ramp.qmax / (2 * 1 * sin (π / 4 * ((3 - 1 : ℤ) : ℝ))) := rfl
    have e2 : raised.qref 3 2 = (raised.area 2).qmax / (2 * 1 * sin (π / 4 * ((3 - 1 : ℤ) : ℝ))) := rfl
    rw [e1, e2, s, m2, AreaIn.ramp_qmax]
    norm_num
  · refine single_le_sum (f := fun j => |smooth.qref j k - raised.qref j k|) (fun _ _ => abs_nonneg _) ?_
    rw [mem_Icc]
    exact ⟨j1, j2⟩
  · refine single_le_sum (f := fun k => |smooth.bound k - raised.bound k|) (fun _ _ => abs_nonneg _) ?_
    rw [mem_Icc]
    exact ⟨k1, k2⟩
  · have : raised.uz j = smooth.uz j := rfl
    rw [this, sub_self, abs_zero]

end RefIn

end Falwa
