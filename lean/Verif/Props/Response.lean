import Verif.Lemmas.Response
import Verif.Props.DirectInv
import Verif.Props.Convergence
import Verif.Props.ZonalQG

/-! # How the reference wind responds to its data: C146 -/

noncomputable section

set_option linter.unusedSectionVars false

namespace Falwa.AreaIn

open Real Finset Spec

variable {I : AreaIn}

/-- The circulation around a cap is at least its area times the least vorticity. -/
theorem ckref_ge (h : I.Valid) {c : ℝ} (hq : ∀ i j, 1 ≤ i → i ≤ I.imax → 1 ≤ j → j ≤ I.jmax → c ≤ I.q i j) {j : ℤ}
    (hs : (I.placed j).isSome = true) : c * I.alat j ≤ I.ckref j := by
  have hn := h.npart2
  have cum : ∀ n, 1 ≤ n → n ≤ I.npart → c * I.aan n ≤ I.ccn n := by
    intro n n1 n2
    rw [I.aan_eq n n1 n2, I.ccn_eq n n1 n2, mul_sum]
    refine sum_le_sum fun m _ => ?_
    rw [I.an_eq, I.cn_eq, mul_sum]
    refine sum_le_sum fun p hp => ?_
    rw [I.mem_cells] at hp
    split_ifs
    · rw [mul_comm]
      exact mul_le_mul_of_nonneg_left (hq _ _ hp.1.1 hp.1.2 hp.2.1 hp.2.2) (h.da_nonneg hp.2.1 hp.2.2)
    · rw [mul_zero]
  rcases I.placed_spec (by omega) j with ⟨h1, _⟩ | ⟨nn, n1, n2, hf, hv⟩
  · rw [h1] at hs
    simp at hs
  · unfold ckref cref
    rw [hv]
    obtain ⟨d1, d2⟩ := Valid.dd_mem hf
    have c1 := cum nn n1 (by omega)
    have c2 := cum (nn + 1) (by omega) (by omega)
    have hd : I.aan (nn + 1) - I.aan nn ≠ 0 := by have := hf.1; have := hf.2; linarith
    show c * I.alat j ≤ I.ccn nn * (1 - (I.alat j - I.aan nn) / (I.aan (nn + 1) - I.aan nn)) +
      I.ccn (nn + 1) * ((I.alat j - I.aan nn) / (I.aan (nn + 1) - I.aan nn))
    have e : I.alat j = I.aan nn * (1 - (I.alat j - I.aan nn) / (I.aan (nn + 1) - I.aan nn)) +
        I.aan (nn + 1) * ((I.alat j - I.aan nn) / (I.aan (nn + 1) - I.aan nn)) := by
      field_simp
      ring
    have m1 := mul_le_mul_of_nonneg_right c1 (sub_nonneg.2 d2)
    have m2 := mul_le_mul_of_nonneg_right c2 d1
    calc c * I.alat j = c * (I.aan nn * (1 - (I.alat j - I.aan nn) / (I.aan (nn + 1) - I.aan nn)) +
        I.aan (nn + 1) * ((I.alat j - I.aan nn) / (I.aan (nn + 1) - I.aan nn))) := by rw [← e]
      _ ≤ _ := by linarith

/-- Seven rows, linear in the row number. -/
def incline (c : ℝ) : AreaIn where
  imax := 4
  jmax := 7
  nd := 4
  npart := 7
  q := fun _ j => c + (j : ℝ)
  a := 1
  dphi := π / 6
  dlambda := π / 2

theorem incline_qmax (c : ℝ) : (incline c).qmax = c + 7 :=
  maxval_eq (show (1 : ℤ) ≤ 4 by decide) (show (1 : ℤ) ≤ 7 by decide) (fun i j _ _ _ j2 => by
    show c + (j : ℝ) ≤ c + 7
    have : (j : ℝ) ≤ 7 := by exact_mod_cast j2
    linarith) 1 7 (show (1 : ℤ) ≤ 1 ∧ (1 : ℤ) ≤ 4 by decide) (show (1 : ℤ) ≤ 7 ∧ (7 : ℤ) ≤ 7 by decide) (by show c + ((7 : ℤ) : ℝ) = c + 7; norm_num)

theorem incline_qmin (c : ℝ) : (incline c).qmin = c + 1 :=
  minval_eq (show (1 : ℤ) ≤ 4 by decide) (show (1 : ℤ) ≤ 7 by decide) (fun i j _ _ j1 _ => by
    show c + 1 ≤ c + (j : ℝ)
    have : (1 : ℝ) ≤ j := by exact_mod_cast j1
    linarith) 1 1 (show (1 : ℤ) ≤ 1 ∧ (1 : ℤ) ≤ 4 by decide) (show (1 : ℤ) ≤ 1 ∧ (1 : ℤ) ≤ 7 by decide) (by show c + ((1 : ℤ) : ℝ) = c + 1; norm_num)

theorem incline_valid (c : ℝ) : (incline c).Valid where
  imax1 := by show (1 : ℤ) ≤ 4; decide
  nd2 := by show (2 : ℤ) ≤ 4; decide
  odd := by show (7 : ℤ) = 2 * 4 - 1; decide
  npart2 := by show (2 : ℤ) ≤ 7; decide
  dphiEq := by show π / 6 = π / ((7 - 1 : ℤ) : ℝ); norm_num
  dlam := by show π / 2 = 2 * π / ((4 : ℤ) : ℝ); push_cast; ring
  a0 := by show (0 : ℝ) < 1; norm_num
  spread := by rw [incline_qmax, incline_qmin]; linarith

theorem incline_placed (c : ℝ) {j : ℤ} (j1 : 1 ≤ j) (j2 : j ≤ 4) : (((incline c).placed j).isSome = true) := by
  have hv := incline_valid c
  refine ((C49_assigned_partial hv 1).2 ?_) j le_rfl j1 j2
  rw [(C49_assigned_partial hv 1).1]
  have hdq : (incline c).dq = 1 := by
    unfold dq
    rw [incline_qmax, incline_qmin]
    show (c + 7 - (c + 1)) / ((7 - 1 : ℤ) : ℝ) = 1
    push_cast
    ring
  have h1 := cap_lt_rows_from hv (J := 4) (by decide) (by show (4 : ℤ) < 7; decide)
  have h2 : (incline c).grid.area (fun i j => (incline c).qmax - (incline c).dq < (incline c).q i j) = 0 := by
    have e := area_rows hv (n := 6) (by show ((6 : ℕ) : ℤ) = 7 - 1; decide) 1 (by show ((1 : ℕ) : ℤ) ≤ 7; decide)
    rw [sum_range_one, Nat.cast_zero, zero_mul, sin_zero, zero_mul, mul_zero] at e
    refine le_antisymm (le_trans (area_mono hv fun i r _ hr => ?_) e.le) (area_nonneg hv _)
    rw [incline_qmax, hdq] at hr
    change c + 7 - 1 < c + (r : ℝ) at hr
    show (7 : ℤ) + 1 - ((1 : ℕ) : ℤ) ≤ r
    have : (6 : ℝ) < r := by linarith
    have : (6 : ℤ) < r := by exact_mod_cast this
    push_cast
    omega
  rw [h2, sub_zero]
  exact lt_of_lt_of_le h1 (area_mono hv fun _ _ _ _ => trivial)

end Falwa.AreaIn

namespace Falwa.NhnIn

open Real Finset Spec

variable {I : NhnIn}

/-- The same grid, constants, static stability and inversion with other fields. -/
def withFields (I : NhnIn) (pv uu vort pt : ℤ → ℤ → ℤ → ℝ) (tb : ℤ → ℝ) : NhnIn :=
  { I with pv := pv, uu := uu, vort := vort, pt := pt, tb := tb }

theorem Geometry.withFields (h : I.Geometry) (pv uu vort pt : ℤ → ℤ → ℤ → ℝ) (tb : ℤ → ℝ) :
    (I.withFields pv uu vort pt tb).Geometry := ⟨h.imax1, h.jb0, h.jd3, h.kmax3, h.odd, h.dphiEq⟩

theorem Physical.withFields (h : I.Physical) (pv uu vort pt : ℤ → ℤ → ℤ → ℝ) (tb : ℤ → ℝ) :
    (I.withFields pv uu vort pt tb).Physical := ⟨h.a0, h.om0, h.h0, h.rr0, h.dz0, h.stat0⟩

/-- Latitudes, constants and stratification of the solver are those of the comparison theorems. -/
theorem stable (h : I.Geometry) (hp : I.Physical) : I.planet.Stable I.statn (I.jb + 1) I.nd I.kmax where
  row := fun x x1 x2 => h.trig_pos (x := x) (by
    have : (0 : ℝ) ≤ I.jb := by exact_mod_cast h.jb0
    push_cast at x1
    linarith) x2
  vert := by
    have hd := h.dphi_pos
    have h1 := hp.a0
    have h2 := hp.om0
    have h3 := hp.h0
    have h4 := hp.rr0
    have h5 := hp.dz0
    show 0 < (2 * I.om * I.a * I.dphi / I.dz) ^ 2 * (I.h / I.rr)
    positivity
  stat := hp.stat0

/-- The reference QGPV (divided by the Coriolis parameter) increases at least as fast towards the pole, the circulation of the
absolute vorticity on the equatorward boundary is at least as large, and on the highest level the zonal-mean temperature decreases
at least as fast towards the pole. -/
structure Stronger (I J : NhnIn) : Prop where
  gradient : ∀ jj k, I.jb + 2 ≤ jj → jj ≤ I.nd - 1 → 2 ≤ k → k ≤ I.kmax - 1 →
    I.qrefOut (jj + 1) k - I.qrefOut (jj - 1) k ≤ J.qrefOut (jj + 1) k - J.qrefOut (jj - 1) k
  boundary : ∀ k, 2 ≤ k → k ≤ I.kmax - 1 → (I.area I.vort k).ckref (I.jb + 1) ≤ (J.area J.vort k).ckref (I.jb + 1)
  warm : ∀ j, 2 ≤ j → j ≤ I.jd - 1 → J.tbar (j + 1) I.kmax - J.tbar (j - 1) I.kmax ≤ I.tbar (j + 1) I.kmax - I.tbar (j - 1) I.kmax

/-- C146: with stronger data the reference wind is nowhere smaller. -/
def C146_Statement : Prop :=
  ∀ (I : NhnIn) (pv uu vort pt : ℤ → ℤ → ℤ → ℝ) (tb : ℤ → ℝ), I.Geometry → I.Physical → 4 ≤ I.jd → I.InvCorrect →
    Stronger I (I.withFields pv uu vort pt tb) →
    ∀ j k, 1 ≤ j → j ≤ I.jd → 1 ≤ k → k ≤ I.kmax → I.uref j k ≤ (I.withFields pv uu vort pt tb).uref j k

/-- The coefficient of the temperature gradient in the upper condition. -/
def topFactor (I : NhnIn) (jj : ℤ) : ℝ :=
  I.rr * cos (I.planet.lat jj) * exp (-(I.rr / I.cp) * I.planet.height ((I.kmax : ℝ) - 1) / I.h) /
    (2 * I.dphi * (I.planet.f jj * I.h * I.a))

theorem topFactor_pos (h : I.Geometry) (hp : I.Physical) {jj : ℤ} (j1 : I.jb + 2 ≤ jj) (j2 : jj ≤ I.nd - 1) :
    0 < I.topFactor jj := by
  have hb := h.jb0
  have a1 : (1 : ℝ) < jj := by exact_mod_cast (by omega : 1 < jj)
  have a2 : (jj : ℝ) < I.nd := by exact_mod_cast (by omega : jj < I.nd)
  obtain ⟨c1, c2⟩ := h.trig_pos a1 a2
  have hd := h.dphi_pos
  have h1 := hp.a0
  have h2 := hp.om0
  have h3 := hp.h0
  have h4 := hp.rr0
  have hf : 0 < I.planet.f jj := by
    unfold Planet.f
    show 0 < 2 * I.om * _
    positivity
  unfold topFactor
  positivity

/-- The upper condition that the solver imposes. -/
theorem top_eq (h : I.Geometry) (hp : I.Physical) {jj : ℤ} (j1 : I.jb + 2 ≤ jj) (j2 : jj ≤ I.nd - 1) :
    I.solution jj I.kmax - I.solution jj (I.kmax - 1) =
      -(I.dz * I.topFactor jj * (I.tbar (jj - I.jb + 1) I.kmax - I.tbar (jj - I.jb - 1) I.kmax)) := by
  have t := C54_top_partial h hp.dz0.ne' jj j1 j2
  rw [div_eq_iff hp.dz0.ne'] at t
  rw [t]
  unfold topFactor
  ring

/-- C146, interior rows of the underlying solution. -/
theorem solution_mono (h : I.Geometry) (hp : I.Physical) (h4 : 4 ≤ I.jd) (hc : I.InvCorrect)
    (pv uu vort pt : ℤ → ℤ → ℤ → ℝ) (tb : ℤ → ℝ) (hs : Stronger I (I.withFields pv uu vort pt tb)) {jj k : ℤ}
    (j1 : I.jb + 2 ≤ jj) (j2 : jj ≤ I.nd - 1) (k1 : 2 ≤ k) (k2 : k ≤ I.kmax - 1) :
    I.solution jj k ≤ (I.withFields pv uu vort pt tb).solution jj k := by
  have hkm := h.kmax3
  have hjd : I.jd = I.nd - I.jb := rfl
  have hJ := h.withFields pv uu vort pt tb
  have hpJ := hp.withFields pv uu vort pt tb
  obtain ⟨a1, a2, a3, a4⟩ := C54_interior_partial h h4 hp.om0.ne' (C79_exact h hp hc)
  obtain ⟨b1, b2, b3, b4⟩ := C54_interior_partial hJ h4 hpJ.om0.ne' (C79_exact hJ hpJ hc)
  refine (stable h hp).compare (kt := I.kmax - 1) (by omega) (by omega)
    (fun j k c1 c2 c3 c4 => a1 j k (by omega) (by omega) (by omega) (by omega))
    (fun j k c1 c2 c3 c4 => b1 j k (by show I.jb + 2 ≤ j; omega) (by show j ≤ I.nd - 1; omega) (by omega)
      (by show k ≤ I.kmax - 1; omega)) (fun j k c1 c2 c3 c4 => ?_) (fun k c1 c2 => ?_) (fun k _ _ => ?_) (fun j c1 c2 => ?_)
    (fun j c1 c2 => ?_) jj k (by omega) (by omega) (by omega) (by omega)
  · refine mul_le_mul_of_nonneg_left (hs.gradient j k (by omega) (by omega) (by omega) (by omega)) ?_
    exact mul_nonneg (mul_nonneg hp.om0.le hp.a0.le) h.dphi_pos.le
  · have q := b2 k (by omega) (by show k ≤ I.kmax - 1; omega)
    change (I.withFields pv uu vort pt tb).solution (I.jb + 1) k = ((I.withFields pv uu vort pt tb).area
      (I.withFields pv uu vort pt tb).vort k).ckref (I.jb + 1) / (2 * π * I.a) - I.om * I.a * cos (I.planet.lat (I.jb + 1)) at q
    rw [a2 k (by omega) (by omega), q]
    have := hs.boundary k (by omega) (by omega)
    have := div_le_div_of_nonneg_right this (mul_pos two_pi_pos hp.a0).le
    linarith
  · exact ((a3 k).trans (b3 k).symm).le
  · exact ((a4 j (by omega) (by omega)).trans (b4 j (by show I.jb + 2 ≤ j; omega) (by show j ≤ I.nd - 1; omega)).symm).le
  · have t1 := top_eq h hp (jj := j) (by omega) (by omega)
    have t2 := top_eq hJ hpJ (jj := j) (by show I.jb + 2 ≤ j; omega) (by show j ≤ I.nd - 1; omega)
    change (I.withFields pv uu vort pt tb).solution j I.kmax - (I.withFields pv uu vort pt tb).solution j (I.kmax - 1) =
      -(I.dz * I.topFactor j * ((I.withFields pv uu vort pt tb).tbar (j - I.jb + 1) I.kmax -
        (I.withFields pv uu vort pt tb).tbar (j - I.jb - 1) I.kmax)) at t2
    rw [t1, t2]
    have w := hs.warm (j - I.jb) (by omega) (by omega)
    have := mul_le_mul_of_nonneg_left w (mul_pos hp.dz0 (topFactor_pos h hp (jj := j) (by omega) (by omega))).le
    linarith

/-- The wind of an interior row is the underlying solution divided by the cosine of latitude. -/
theorem uref_solution (h : I.Geometry) {j : ℤ} (j1 : 2 ≤ j) (j2 : j ≤ I.jd - 1) (k : ℤ) :
    I.uref j k = I.solution (j + I.jb) k / cos (I.planet.lat ((j + I.jb : ℤ) : ℝ)) ∧
      0 < cos (I.planet.lat ((j + I.jb : ℤ) : ℝ)) := by
  have hb := h.jb0
  have hjd : I.jd = I.nd - I.jb := rfl
  have a1 : (1 : ℝ) < ((j + I.jb : ℤ) : ℝ) := by exact_mod_cast (by omega : 1 < j + I.jb)
  have a2 : ((j + I.jb : ℤ) : ℝ) < I.nd := by exact_mod_cast (by omega : j + I.jb < I.nd)
  have hc := (h.trig_pos a1 a2).2
  refine ⟨?_, hc⟩
  unfold solution
  rw [if_neg (by omega), if_neg (by omega), show j + I.jb - I.jb = j by ring, mul_div_cancel_right₀ _ hc.ne']

/-- C146 holds on all rows but the pole. What is missing: the pole. -/
theorem C146_rows_partial (h : I.Geometry) (hp : I.Physical) (h4 : 4 ≤ I.jd) (hc : I.InvCorrect)
    (pv uu vort pt : ℤ → ℤ → ℤ → ℝ) (tb : ℤ → ℝ) (hs : Stronger I (I.withFields pv uu vort pt tb)) {j k : ℤ}
    (j1 : 1 ≤ j) (j2 : j ≤ I.jd - 1) (k1 : 1 ≤ k) (k2 : k ≤ I.kmax) :
    I.uref j k ≤ (I.withFields pv uu vort pt tb).uref j k := by
  have hkm := h.kmax3
  have hjd : I.jd = I.nd - I.jb := rfl
  have hJ := h.withFields pv uu vort pt tb
  have hpJ := hp.withFields pv uu vort pt tb
  by_cases e : j = 1
  · have r : ∀ K : NhnIn, K.jd = I.jd → K.kmax = I.kmax → K.dp = I.dp → K.jb = I.jb → K.nd = I.nd → K.om = I.om → K.a = I.a →
        K.uref 1 k = I.uref 1 k := by
      intro K r1 r2 r3 r4 r5 r6 r7
      have hu : ∀ K : NhnIn, K.jd = I.jd → K.uref 1 k = K.uDiv 1 k := by
        intro K r1; unfold uref; rw [if_neg (by omega)]
      rw [hu K r1, hu I rfl]
      unfold uDiv uRaw ckref
      rw [r1, r2, r3, r4, r5, r6, r7]
      rw [if_neg (by omega : ¬ ((2 : ℤ) ≤ 1 ∧ _)), if_neg (by omega : ¬ (2 ≤ I.kmax ∧ I.kmax ≤ I.kmax - 1))]
      rw [if_neg (by omega : ¬ ((2 : ℤ) ≤ 1 ∧ _)), if_neg (by omega : ¬ (2 ≤ I.kmax ∧ I.kmax ≤ I.kmax - 1))]
    rw [e, r (I.withFields pv uu vort pt tb) rfl rfl rfl rfl rfl rfl rfl]
  · obtain ⟨u1, hcos⟩ := uref_solution h (j := j) (by omega) j2 k
    have u2 := (uref_solution hJ (j := j) (by omega) j2 k).1
    change (I.withFields pv uu vort pt tb).uref j k = (I.withFields pv uu vort pt tb).solution (j + I.jb) k /
      cos (I.planet.lat ((j + I.jb : ℤ) : ℝ)) at u2
    rw [u1, u2]
    refine div_le_div_of_nonneg_right ?_ hcos.le
    have mid : ∀ l, 2 ≤ l → l ≤ I.kmax - 1 → I.solution (j + I.jb) l ≤ (I.withFields pv uu vort pt tb).solution (j + I.jb) l :=
      fun l l1 l2 => solution_mono h hp h4 hc pv uu vort pt tb hs (by omega) (by omega) l1 l2
    by_cases e1 : k = 1
    · obtain ⟨_, _, _, a4⟩ := C54_interior_partial h h4 hp.om0.ne' (C79_exact h hp hc)
      obtain ⟨_, _, _, b4⟩ := C54_interior_partial hJ h4 hpJ.om0.ne' (C79_exact hJ hpJ hc)
      rw [e1, a4 _ (by omega) (by omega), b4 _ (by show I.jb + 2 ≤ j + I.jb; omega) (by show j + I.jb ≤ I.nd - 1; omega)]
    by_cases e2 : k = I.kmax
    · have t1 := top_eq h hp (jj := j + I.jb) (by omega) (by omega)
      have t2 := top_eq hJ hpJ (jj := j + I.jb) (by show I.jb + 2 ≤ j + I.jb; omega) (by show j + I.jb ≤ I.nd - 1; omega)
      change (I.withFields pv uu vort pt tb).solution (j + I.jb) I.kmax -
        (I.withFields pv uu vort pt tb).solution (j + I.jb) (I.kmax - 1) =
        -(I.dz * I.topFactor (j + I.jb) * ((I.withFields pv uu vort pt tb).tbar (j + I.jb - I.jb + 1) I.kmax -
          (I.withFields pv uu vort pt tb).tbar (j + I.jb - I.jb - 1) I.kmax)) at t2
      rw [show j + I.jb - I.jb = j by ring] at t1 t2
      have w := hs.warm j (by omega) (by omega)
      have := mul_le_mul_of_nonneg_left w (mul_pos hp.dz0 (topFactor_pos h hp (jj := j + I.jb) (by omega) (by omega))).le
      have := mid (I.kmax - 1) (by omega) le_rfl
      rw [e2]
      linarith
    · exact mid k (by omega) (by omega)

/-- C146, sign: if the reference QGPV (divided by the Coriolis parameter) does not decrease towards the pole, the boundary wind is
not easterly and the highest level does not warm towards the pole, then the reference wind is not easterly on any row but the pole. -/
theorem C146_westerly_partial (h : I.Geometry) (hp : I.Physical) (h4 : 4 ≤ I.jd) (hc : I.InvCorrect)
    (hq : ∀ jj k, I.jb + 2 ≤ jj → jj ≤ I.nd - 1 → 2 ≤ k → k ≤ I.kmax - 1 → I.qrefOut (jj - 1) k ≤ I.qrefOut (jj + 1) k)
    (hb : ∀ k, 2 ≤ k → k ≤ I.kmax - 1 →
      0 ≤ (I.area I.vort k).ckref (I.jb + 1) / (2 * π * I.a) - I.om * I.a * cos (I.planet.lat (I.jb + 1)))
    (ht : ∀ j, 2 ≤ j → j ≤ I.jd - 1 → I.tbar (j + 1) I.kmax ≤ I.tbar (j - 1) I.kmax) {j k : ℤ}
    (j1 : 2 ≤ j) (j2 : j ≤ I.jd - 1) (k1 : 1 ≤ k) (k2 : k ≤ I.kmax) : 0 ≤ I.uref j k := by
  have hkm := h.kmax3
  have hjd : I.jd = I.nd - I.jb := rfl
  obtain ⟨a1, a2, a3, a4⟩ := C54_interior_partial h h4 hp.om0.ne' (C79_exact h hp hc)
  obtain ⟨u1, hcos⟩ := uref_solution h j1 j2 k
  rw [u1]
  have top : ∀ jj, I.jb + 2 ≤ jj → jj ≤ I.nd - 1 → 0 ≤ I.solution jj I.kmax - I.solution jj (I.kmax - 1) := by
    intro jj c1 c2
    rw [top_eq h hp c1 c2]
    have w := ht (jj - I.jb) (by omega) (by omega)
    have := mul_nonneg (mul_pos hp.dz0 (topFactor_pos h hp c1 c2)).le (sub_nonneg.2 w)
    linarith
  have mid : ∀ l, 2 ≤ l → l ≤ I.kmax - 1 → 0 ≤ I.solution (j + I.jb) l := by
    intro l l1 l2
    refine (stable h hp).compare (Q := fun _ _ => 0) (W := fun _ _ => 0) (kt := I.kmax - 1) (by omega) (by omega)
      (fun j k _ _ _ _ => by unfold Planet.Elliptic; simp)
      (fun j k c1 c2 c3 c4 => a1 j k (by omega) (by omega) (by omega) (by omega)) (fun j k c1 c2 c3 c4 => ?_)
      (fun k c1 c2 => ?_) (fun k _ _ => ?_) (fun j c1 c2 => ?_) (fun j c1 c2 => ?_) (j + I.jb) l (by omega) (by omega) (by omega)
      (by omega)
    · have := mul_nonneg (mul_nonneg (mul_nonneg hp.om0.le hp.a0.le) h.dphi_pos.le)
        (sub_nonneg.2 (hq j k (by omega) (by omega) (by omega) (by omega)))
      rw [sub_self, mul_zero]
      exact this
    · rw [a2 k (by omega) (by omega)]
      exact hb k (by omega) (by omega)
    · exact (a3 k).ge
    · exact (a4 j (by omega) (by omega)).ge
    · rw [sub_self]
      exact top j (by omega) (by omega)
  refine div_nonneg ?_ hcos.le
  by_cases e1 : k = 1
  · rw [e1, a4 _ (by omega) (by omega)]
  by_cases e2 : k = I.kmax
  · have := mid (I.kmax - 1) (by omega) le_rfl
    have := top (j + I.jb) (by omega) (by omega)
    rw [e2]
    linarith
  · exact mid k (by omega) (by omega)

/-- C146, size of the response: if the meridional slopes of the reference QGPV differ by at most `G`, the circulations on the
boundary by at most `C` and the prescribed differences between the two highest levels by at most `t`, then the winds differ by at
most the sum of the three responses, none of which grows when the grid is refined in latitude. -/
theorem C146_response (h : I.Geometry) (hp : I.Physical) (h4 : 4 ≤ I.jd) (hc : I.InvCorrect)
    (pv uu vort pt : ℤ → ℤ → ℤ → ℝ) (tb : ℤ → ℝ) {G C t : ℝ} (G0 : 0 ≤ G) (C0 : 0 ≤ C) (t0 : 0 ≤ t)
    (hq : ∀ jj k, I.jb + 2 ≤ jj → jj ≤ I.nd - 1 → 2 ≤ k → k ≤ I.kmax - 1 →
      |(I.qrefOut (jj + 1) k - I.qrefOut (jj - 1) k) / (2 * I.dphi) -
        ((I.withFields pv uu vort pt tb).qrefOut (jj + 1) k - (I.withFields pv uu vort pt tb).qrefOut (jj - 1) k) / (2 * I.dphi)| ≤ G)
    (hb : ∀ k, 2 ≤ k → k ≤ I.kmax - 1 →
      |(I.area I.vort k).ckref (I.jb + 1) - ((I.withFields pv uu vort pt tb).area vort k).ckref (I.jb + 1)| ≤ C)
    (ht : ∀ jj, I.jb + 2 ≤ jj → jj ≤ I.nd - 1 →
      |I.dz * I.topFactor jj * (I.tbar (jj - I.jb + 1) I.kmax - I.tbar (jj - I.jb - 1) I.kmax) -
        I.dz * I.topFactor jj * ((I.withFields pv uu vort pt tb).tbar (jj - I.jb + 1) I.kmax -
          (I.withFields pv uu vort pt tb).tbar (jj - I.jb - 1) I.kmax)| ≤ t) {j k : ℤ}
    (j1 : 2 ≤ j) (j2 : j ≤ I.jd - 1) (k1 : 2 ≤ k) (k2 : k ≤ I.kmax - 1) :
    |I.uref j k - (I.withFields pv uu vort pt tb).uref j k| * cos (I.planet.lat ((j + I.jb : ℤ) : ℝ)) ≤
      C / (2 * π * I.a) + I.om * I.a * G * (π ^ 2 / 8) + t * I.planet.column I.statn I.kmax k := by
  have hkm := h.kmax3
  have hb0 := h.jb0
  have hjd : I.jd = I.nd - I.jb := rfl
  have hJ := h.withFields pv uu vort pt tb
  have hpJ := hp.withFields pv uu vort pt tb
  have hd := h.dphi_pos
  have ho := hp.om0
  have ha := hp.a0
  obtain ⟨a1, a2, a3, a4⟩ := C54_interior_partial h h4 hp.om0.ne' (C79_exact h hp hc)
  obtain ⟨b1, b2, b3, b4⟩ := C54_interior_partial hJ h4 hpJ.om0.ne' (C79_exact hJ hpJ hc)
  obtain ⟨u1, hcos⟩ := uref_solution h j1 j2 k
  have u2 := (uref_solution hJ j1 j2 k).1
  change (I.withFields pv uu vort pt tb).uref j k = (I.withFields pv uu vort pt tb).solution (j + I.jb) k /
    cos (I.planet.lat ((j + I.jb : ℤ) : ℝ)) at u2
  rw [u1, u2, ← sub_div, abs_div, abs_of_pos hcos, div_mul_cancel₀ _ hcos.ne']
  have key := (stable h hp).bounded (kt := I.kmax - 1) (B := C / (2 * π * I.a)) (R := 2 * I.om * I.a * I.dphi ^ 2 * G) (t := t)
    (by omega) (by omega) (by omega) (by positivity) (by positivity) t0
    (fun j k c1 c2 c3 c4 => a1 j k (by omega) (by omega) (by omega) (by omega))
    (fun j k c1 c2 c3 c4 => b1 j k (by show I.jb + 2 ≤ j; omega) (by show j ≤ I.nd - 1; omega) (by omega)
      (by show k ≤ I.kmax - 1; omega)) (fun j k c1 c2 c3 c4 => by
        have q := hq j k (by omega) (by omega) (by omega) (by omega)
        rw [← sub_div, abs_div, abs_of_pos (by positivity : 0 < 2 * I.dphi), div_le_iff₀ (by positivity)] at q
        show |I.om * I.a * I.dphi * _ - I.om * I.a * I.dphi * _| ≤ _
        rw [← mul_sub, abs_mul, abs_of_pos (by positivity : 0 < I.om * I.a * I.dphi)]
        have := mul_le_mul_of_nonneg_left q (by positivity : 0 ≤ I.om * I.a * I.dphi)
        refine this.trans (le_of_eq ?_)
        ring) (fun k c1 c2 => by
        have q := b2 k (by omega) (by show k ≤ I.kmax - 1; omega)
        change (I.withFields pv uu vort pt tb).solution (I.jb + 1) k = ((I.withFields pv uu vort pt tb).area
          vort k).ckref (I.jb + 1) / (2 * π * I.a) - I.om * I.a * cos (I.planet.lat (I.jb + 1)) at q
        rw [a2 k (by omega) (by omega), q, sub_sub_sub_cancel_right, ← sub_div, abs_div,
          abs_of_pos (mul_pos two_pi_pos ha)]
        exact div_le_div_of_nonneg_right (hb k (by omega) (by omega)) (mul_pos two_pi_pos ha).le)
    (fun k _ _ => (a3 k).trans (b3 k).symm)
    (fun j c1 c2 => (a4 j (by omega) (by omega)).trans (b4 j (by show I.jb + 2 ≤ j; omega) (by show j ≤ I.nd - 1; omega)).symm)
    (fun j c1 c2 => by
      have t1 := top_eq h hp (jj := j) (by omega) (by omega)
      have t2 := top_eq hJ hpJ (jj := j) (by show I.jb + 2 ≤ j; omega) (by show j ≤ I.nd - 1; omega)
      change (I.withFields pv uu vort pt tb).solution j I.kmax - (I.withFields pv uu vort pt tb).solution j (I.kmax - 1) =
        -(I.dz * I.topFactor j * ((I.withFields pv uu vort pt tb).tbar (j - I.jb + 1) I.kmax -
          (I.withFields pv uu vort pt tb).tbar (j - I.jb - 1) I.kmax)) at t2
      rw [t1, t2, neg_sub_neg, abs_sub_comm]
      exact ht j (by omega) (by omega)) (j + I.jb) k (by omega) (by omega) (by omega) (by omega)
  refine key.trans ?_
  have hr : 2 * I.om * I.a * I.dphi ^ 2 * G * I.planet.reach (I.jb + 1) I.nd (j + I.jb) ≤ I.om * I.a * G * (π ^ 2 / 8) := by
    have r := Planet.reach_le (p := I.planet) (j0 := I.jb + 1) (j1 := I.nd) (j := j + I.jb) (by omega) (by omega)
    have m : I.dphi * ((I.nd - (I.jb + 1) : ℤ) : ℝ) ≤ π / 2 := by
      rw [← h.dphi_mul]
      refine mul_le_mul_of_nonneg_left ?_ hd.le
      push_cast
      have : (0 : ℝ) ≤ I.jb := by exact_mod_cast hb0
      linarith
    have n0 : (0 : ℝ) ≤ ((I.nd - (I.jb + 1) : ℤ) : ℝ) := by exact_mod_cast (by omega : 0 ≤ I.nd - (I.jb + 1))
    calc _ ≤ 2 * I.om * I.a * I.dphi ^ 2 * G * (((I.nd - (I.jb + 1) : ℤ) : ℝ) ^ 2 / 4) :=
          mul_le_mul_of_nonneg_left r (by positivity)
      _ = I.om * I.a * G * ((I.dphi * ((I.nd - (I.jb + 1) : ℤ) : ℝ)) ^ 2 / 2) := by ring
      _ ≤ I.om * I.a * G * ((π / 2) ^ 2 / 2) :=
          mul_le_mul_of_nonneg_left (div_le_div_of_nonneg_right (pow_le_pow_left₀ (by positivity) m 2) two_pos.le)
            (by positivity)
      _ = _ := by ring
  linarith

/-! ### Samples and the refutation -/

/-- The input without temperature contrasts. -/
def evenTop : NhnIn := { sample0 with pt := fun _ _ _ => 0 }

/-- The same input with a warm row at the equator. -/
def warmTop : NhnIn := evenTop.withFields evenTop.pv evenTop.uu evenTop.vort (fun _ j _ => if j = 4 then 1 else 0) evenTop.tb

theorem evenTop_geometry : evenTop.Geometry := ⟨sample0_geometry.imax1, sample0_geometry.jb0, sample0_geometry.jd3,
  sample0_geometry.kmax3, sample0_geometry.odd, sample0_geometry.dphiEq⟩

theorem evenTop_physical : evenTop.Physical := ⟨sample0_physical.a0, sample0_physical.om0, sample0_physical.h0, sample0_physical.rr0,
  sample0_physical.dz0, sample0_physical.stat0⟩

theorem evenTop_inv : evenTop.InvCorrect := Classical.choose_spec (exists_inv (Icc 1 2))

theorem evenTop_tbar (j k : ℤ) : evenTop.tbar j k = 0 := by
  unfold tbar zmean
  rw [dosum_eq]
  refine sum_eq_zero fun i _ => ?_
  show (0 : ℝ) / _ = 0
  rw [zero_div]

theorem warmTop_tbar (j k : ℤ) : warmTop.tbar j k = if j = 1 then 1 else 0 := by
  unfold tbar zmean
  rw [dosum_eq]
  show ∑ i ∈ Icc (1 : ℤ) 4, (if j + (4 - 1) = 4 then (1 : ℝ) else 0) / ((4 : ℤ) : ℝ) = _
  rw [sum_const]
  have : (Icc (1 : ℤ) 4).card = 4 := rfl
  rw [this]
  by_cases h : j = 1
  · rw [if_pos (by omega), if_pos h]; norm_num
  · rw [if_neg (by omega), if_neg h]; norm_num

theorem warmTop_stronger : Stronger evenTop warmTop where
  gradient := fun _ _ _ _ _ _ => le_rfl
  boundary := fun _ _ _ => le_rfl
  warm := fun j j1 _ => by
    rw [warmTop_tbar, warmTop_tbar, evenTop_tbar, evenTop_tbar, if_neg (by omega)]
    split_ifs <;> norm_num

/-- The hypotheses of `C146_rows_partial` can be met with different data. -/
example : evenTop.Geometry ∧ evenTop.Physical ∧ 4 ≤ evenTop.jd ∧ evenTop.InvCorrect ∧ Stronger evenTop warmTop ∧
    warmTop.tbar 1 3 ≠ evenTop.tbar 1 3 :=
  ⟨evenTop_geometry, evenTop_physical, by show (4 : ℤ) ≤ 4 - 0; decide, evenTop_inv, warmTop_stronger, by
    rw [warmTop_tbar, evenTop_tbar, if_pos rfl]; norm_num⟩

theorem lat_half (x : ℝ) : evenTop.planet.lat x = (x - 1) * (π / 6) := rfl

/-- The product of sine and cosine in terms of the doubled angle. -/
theorem sin_mul_cos_eq (x : ℝ) : sin x * cos x = sin (2 * x) / 2 := by rw [sin_two_mul]; ring

theorem even_north : evenTop.planet.north 3 = 4 := by
  unfold Planet.north
  rw [sin_mul_cos_eq, lat_half, show 2 * (((3 : ℤ) + 1 / 2 - 1 : ℝ) * (π / 6)) = π - π / 6 by push_cast; ring, sin_pi_sub,
    sin_pi_div_six]
  norm_num

theorem even_south : evenTop.planet.south 3 = 2 := by
  unfold Planet.south
  rw [sin_mul_cos_eq, lat_half, show 2 * (((3 : ℤ) - 1 / 2 - 1 : ℝ) * (π / 6)) = π / 2 by push_cast; ring, sin_pi_div_two]
  norm_num

theorem even_below : 1 ≤ evenTop.planet.below evenTop.statn 3 2 := by
  have e : evenTop.planet.below evenTop.statn 3 2 = (π / 3) ^ 2 * √3 * exp 1 := by
    unfold Planet.below Planet.stiffness
    rw [lat_half, show (((3 : ℤ) : ℝ) - 1) * (π / 6) = π / 3 by push_cast; ring, sin_pi_div_three, cos_pi_div_three]
    have e1 : evenTop.planet.height ((2 : ℤ) : ℝ) / evenTop.planet.h = 1 := by
      show (((2 : ℤ) : ℝ) - 1) * 1 / 1 = 1
      norm_num
    have e2 : -(1 - evenTop.planet.r / evenTop.planet.cp) = 0 := by show -(1 - (1 : ℝ) / 1) = 0; norm_num
    rw [e1, e2, zero_mul, zero_div, exp_zero]
    show (2 * 1 * 1 * (π / 6) / 1) ^ 2 * (1 / 1) * (√3 / 2 / (1 / 2)) * (exp 1 * (1 / ((1 + 1) / 2))) = _
    ring
  rw [e]
  have h3 : (1 : ℝ) ≤ √3 := Real.one_le_sqrt.2 (by norm_num)
  have hpi : (1 : ℝ) ≤ (π / 3) ^ 2 := one_le_pow₀ (by linarith [pi_gt_three])
  have he : (1 : ℝ) ≤ exp 1 := Real.one_le_exp (by norm_num)
  exact one_le_mul_of_one_le_of_one_le (one_le_mul_of_one_le_of_one_le hpi h3) he

/-- The wind at the pole is extrapolated. -/
theorem pole_wind (K : NhnIn) (hK : K = evenTop ∨ K = warmTop) :
    K.uref 4 2 = 4 * K.solution 3 2 - 2 / √3 * K.solution 2 2 := by
  have hKg : K.Geometry := by
    rcases hK with rfl | rfl
    · exact evenTop_geometry
    · exact evenTop_geometry.withFields _ _ _ _ _
  have hjd : K.jd = 4 := by rcases hK with rfl | rfl <;> rfl
  have hjb : K.jb = 0 := by rcases hK with rfl | rfl <;> rfl
  have hlat : ∀ x, K.planet.lat x = (x - 1) * (π / 6) := by rcases hK with rfl | rfl <;> exact fun _ => rfl
  have w3 := (uref_solution hKg (j := 3) (by decide) (by rw [hjd]; decide) 2).1
  have w2 := (uref_solution hKg (j := 2) (by decide) (by rw [hjd]; decide) 2).1
  rw [hjb, hlat] at w3 w2
  rw [show ((3 + 0 : ℤ) : ℝ) = 3 by norm_num, show (3 - 1 : ℝ) * (π / 6) = π / 3 by ring, cos_pi_div_three,
    show (3 + 0 : ℤ) = 3 by decide] at w3
  rw [show ((2 + 0 : ℤ) : ℝ) = 2 by norm_num, show (2 - 1 : ℝ) * (π / 6) = π / 6 by ring, cos_pi_div_six,
    show (2 + 0 : ℤ) = 2 by decide] at w2
  have e : K.uref 4 2 = 2 * K.uref 3 2 - K.uref 2 2 := by
    have c3 : K.uref 3 2 = K.uDiv 3 2 := by unfold uref; rw [hjd, if_neg (by decide)]
    have c2 : K.uref 2 2 = K.uDiv 2 2 := by unfold uref; rw [hjd, if_neg (by decide)]
    have c4 : K.uref 4 2 = 2 * K.uDiv (4 - 1) 2 - K.uDiv (4 - 2) 2 := by unfold uref; rw [hjd, if_pos rfl]
    rw [c4, c3, c2]
    norm_num only
  rw [e, w3, w2]
  have : √3 ≠ 0 := by positivity
  field_simp
  ring

/-- C146 fails at the pole, where the wind is extrapolated from the two rows before: more shear in the row next to the equator
raises the wind of row `jd-2` more than twice as much as that of row `jd-1`. -/
theorem C146_pole : warmTop.uref 4 2 < evenTop.uref 4 2 := by
  have hg := evenTop_geometry
  have hp := evenTop_physical
  have hJ := hg.withFields evenTop.pv evenTop.uu evenTop.vort (fun _ j _ => if j = 4 then 1 else 0) evenTop.tb
  have hpJ := hp.withFields evenTop.pv evenTop.uu evenTop.vort (fun _ j _ => if j = 4 then 1 else 0) evenTop.tb
  have h4 : 4 ≤ evenTop.jd := by show (4 : ℤ) ≤ 4 - 0; decide
  obtain ⟨a1, a2, a3, a4⟩ := C54_interior_partial hg h4 hp.om0.ne' (C79_exact hg hp evenTop_inv)
  obtain ⟨b1, b2, b3, b4⟩ := C54_interior_partial hJ h4 hpJ.om0.ne' (C79_exact hJ hpJ evenTop_inv)
  have mono : ∀ jj, 2 ≤ jj → jj ≤ 3 → evenTop.solution jj 2 ≤ warmTop.solution jj 2 := fun jj j1 j2 =>
    solution_mono hg hp h4 evenTop_inv _ _ _ _ _ warmTop_stronger (by show (0 : ℤ) + 2 ≤ jj; omega)
      (by show jj ≤ 4 - 1; omega) le_rfl (by show (2 : ℤ) ≤ 3 - 1; decide)
  set x := warmTop.solution 2 2 - evenTop.solution 2 2 with hx
  set y := warmTop.solution 3 2 - evenTop.solution 3 2 with hy
  have x0 : 0 ≤ x := sub_nonneg.2 (mono 2 le_rfl (by decide))
  have y0 : 0 ≤ y := sub_nonneg.2 (mono 3 (by decide) le_rfl)
  have pos := (stable hg hp).pos
  obtain ⟨n2, s2, t2, d2⟩ := pos 2 2 (by show (0 : ℤ) + 1 < 2; decide) (by show (2 : ℤ) < 4; decide) (by decide)
    (by show (2 : ℤ) < 3; decide)
  obtain ⟨n3, s3, t3, d3⟩ := pos 3 2 (by show (0 : ℤ) + 1 < 3; decide) (by show (3 : ℤ) < 4; decide) (by decide)
    (by show (2 : ℤ) < 3; decide)
  have E2 := (Planet.elliptic_iff _ _ 2 2).1 (a1 2 2 (by show (0 : ℤ) + 2 ≤ 2; decide) (by show (2 : ℤ) ≤ 4 - 1; decide) le_rfl
    (by show (2 : ℤ) ≤ 3 - 1; decide))
  have E3 := (Planet.elliptic_iff _ _ 3 2).1 (a1 3 2 (by show (0 : ℤ) + 2 ≤ 3; decide) (by show (3 : ℤ) ≤ 4 - 1; decide) le_rfl
    (by show (2 : ℤ) ≤ 3 - 1; decide))
  have F2 : evenTop.planet.oper evenTop.statn warmTop.solution 2 2 = -(evenTop.planet.om * evenTop.planet.a * evenTop.planet.dphi *
      (evenTop.qrefOut (2 + 1) 2 - evenTop.qrefOut (2 - 1) 2)) :=
    (Planet.elliptic_iff _ _ 2 2).1 (b1 2 2 (by show (0 : ℤ) + 2 ≤ 2; decide) (by show (2 : ℤ) ≤ 4 - 1; decide) le_rfl
    (by show (2 : ℤ) ≤ 3 - 1; decide))
  have F3 : evenTop.planet.oper evenTop.statn warmTop.solution 3 2 = -(evenTop.planet.om * evenTop.planet.a * evenTop.planet.dphi *
      (evenTop.qrefOut (3 + 1) 2 - evenTop.qrefOut (3 - 1) 2)) :=
    (Planet.elliptic_iff _ _ 3 2).1 (b1 3 2 (by show (0 : ℤ) + 2 ≤ 3; decide) (by show (3 : ℤ) ≤ 4 - 1; decide) le_rfl
    (by show (2 : ℤ) ≤ 3 - 1; decide))
  have S1 : evenTop.solution 1 2 = warmTop.solution 1 2 :=
    (a2 2 le_rfl (by show (2 : ℤ) ≤ 3 - 1; decide)).trans (b2 2 le_rfl (by show (2 : ℤ) ≤ 3 - 1; decide)).symm
  have N1 : evenTop.solution 4 2 = 0 := a3 2
  have N2 : warmTop.solution 4 2 = 0 := b3 2
  have B1 : ∀ jj, 2 ≤ jj → jj ≤ 3 → evenTop.solution jj 1 = 0 ∧ warmTop.solution jj 1 = 0 := fun jj j1 j2 =>
    ⟨a4 jj (by show (0 : ℤ) + 2 ≤ jj; omega) (by show jj ≤ 4 - 1; omega),
      b4 jj (by show (0 : ℤ) + 2 ≤ jj; omega) (by show jj ≤ 4 - 1; omega)⟩
  have T1 : ∀ jj, 2 ≤ jj → jj ≤ 3 → evenTop.solution jj 3 - evenTop.solution jj 2 = 0 := fun jj j1 j2 => by
    have := top_eq hg hp (jj := jj) (by show (0 : ℤ) + 2 ≤ jj; omega) (by show jj ≤ 4 - 1; omega)
    rw [evenTop_tbar, evenTop_tbar, sub_self, mul_zero, neg_zero] at this
    exact this
  have T2 : ∀ jj, 2 ≤ jj → jj ≤ 3 → warmTop.solution jj 3 - warmTop.solution jj 2 =
      -(evenTop.topFactor jj * ((if jj + 1 = 1 then 1 else 0) - if jj - 1 = 1 then 1 else 0)) := fun jj j1 j2 => by
    have : warmTop.solution jj 3 - warmTop.solution jj 2 = -(1 * evenTop.topFactor jj * (warmTop.tbar (jj - 0 + 1) 3 - warmTop.tbar (jj - 0 - 1) 3)) :=
      top_eq hJ hpJ (jj := jj) (by show (0 : ℤ) + 2 ≤ jj; omega) (by show jj ≤ 4 - 1; omega)
    rw [warmTop_tbar, warmTop_tbar, sub_zero, one_mul] at this
    exact this
  have T22 := T2 2 le_rfl (by decide)
  have T23 := T2 3 (by decide) le_rfl
  rw [if_neg (by decide), if_pos (by decide)] at T22
  rw [if_neg (by decide), if_neg (by decide)] at T23
  have hF := topFactor_pos hg hp (jj := 2) (by show (0 : ℤ) + 2 ≤ 2; decide) (by show (2 : ℤ) ≤ 4 - 1; decide)
  have U2 := T1 2 le_rfl (by decide)
  have U3 := T1 3 (by decide) le_rfl
  obtain ⟨B2, B2'⟩ := B1 2 le_rfl (by decide)
  obtain ⟨B3, B3'⟩ := B1 3 (by decide) le_rfl
  unfold Planet.oper fivePoint at E2 E3 F2 F3
  norm_num only at E2 E3 F2 F3
  set cn2 := evenTop.planet.north 2
  set cs2 := evenTop.planet.south 2
  set ct2 := evenTop.planet.above evenTop.statn 2 2
  set cd2 := evenTop.planet.below evenTop.statn 2 2
  set cn3 := evenTop.planet.north 3 with hn3
  set cs3 := evenTop.planet.south 3 with hs3
  set ct3 := evenTop.planet.above evenTop.statn 3 2
  set cd3 := evenTop.planet.below evenTop.statn 3 2 with hd3
  have R2 : cn2 * (y - x) - cs2 * x + ct2 * evenTop.topFactor 2 - cd2 * x = 0 := by
    rw [hx, hy]
    linear_combination F2 - E2 - ct2 * T22 + ct2 * U2 + cs2 * S1 + cd2 * B2 - cd2 * B2'
  have R3 : -cn3 * y - cs3 * (y - x) - cd3 * y = 0 := by
    rw [hx, hy]
    linear_combination F3 - E3 - ct3 * T23 + ct3 * U3 + cd3 * B3 - cd3 * B3' + cn3 * N1 - cn3 * N2
  have xp : 0 < x := by
    by_contra hne
    have x00 : x = 0 := le_antisymm (not_lt.1 hne) x0
    rw [x00] at R2
    have := mul_nonneg n2.le y0
    have := mul_pos t2 hF
    linarith
  -- the coefficients
  have vn3 : cn3 = 4 := even_north
  have vs3 : cs3 = 2 := even_south
  have vd3 : 1 ≤ cd3 := even_below
  have yx : 7 * y ≤ 2 * x := by
    rw [vn3, vs3] at R3
    nlinarith
  have V := pole_wind
  rw [V evenTop (Or.inl rfl), V warmTop (Or.inr rfl)]
  have hs : 8 / 7 < 2 / √3 := by
    have : √3 < 7 / 4 := by rw [Real.sqrt_lt' (by norm_num)]; norm_num
    rw [div_lt_div_iff₀ (by norm_num) (by positivity)]
    linarith
  have := mul_lt_mul_of_pos_right hs xp
  have e : 2 / √3 * x = 2 / √3 * warmTop.solution 2 2 - 2 / √3 * evenTop.solution 2 2 := by rw [hx]; ring
  rw [hy] at yx
  linarith

/-- C146 fails as stated. -/
theorem C146_refuted : ¬ C146_Statement := fun hS =>
  absurd (hS evenTop _ _ _ _ _ evenTop_geometry evenTop_physical (by show (4 : ℤ) ≤ 4 - 0; decide) evenTop_inv warmTop_stronger 4 2
    (by decide) (by show (4 : ℤ) ≤ 4 - 0; decide) (by decide) (by show (2 : ℤ) ≤ 3; decide)) (not_le.2 C146_pole)

/-- Reference QGPV that increases faster than the sine of latitude, strong vorticity and a cold pole. -/
def westerly : NhnIn := { warmTop with pv := fun _ j _ => -100 + (j : ℝ), vort := fun _ j _ => 10 + (j : ℝ) }

/-- The hypotheses of `C146_westerly_partial` can be met. -/
theorem westerly_hypotheses : westerly.Geometry ∧ westerly.Physical ∧ 4 ≤ westerly.jd ∧ westerly.InvCorrect ∧
    (∀ jj k, westerly.jb + 2 ≤ jj → jj ≤ westerly.nd - 1 → 2 ≤ k → k ≤ westerly.kmax - 1 →
      westerly.qrefOut (jj - 1) k ≤ westerly.qrefOut (jj + 1) k) ∧
    (∀ k, 2 ≤ k → k ≤ westerly.kmax - 1 → 0 ≤ (westerly.area westerly.vort k).ckref (westerly.jb + 1) / (2 * π * westerly.a) -
      westerly.om * westerly.a * cos (westerly.planet.lat (westerly.jb + 1))) ∧
    (∀ j, 2 ≤ j → j ≤ westerly.jd - 1 → westerly.tbar (j + 1) westerly.kmax ≤ westerly.tbar (j - 1) westerly.kmax) := by
  refine ⟨⟨sample0_geometry.imax1, sample0_geometry.jb0, sample0_geometry.jd3, sample0_geometry.kmax3, sample0_geometry.odd,
    sample0_geometry.dphiEq⟩, ⟨sample0_physical.a0, sample0_physical.om0, sample0_physical.h0, sample0_physical.rr0,
    sample0_physical.dz0, sample0_physical.stat0⟩, by show (4 : ℤ) ≤ 4 - 0; decide, evenTop_inv, ?_, ?_, ?_⟩
  · intro jj k j1 j2 k1 k2
    have hv := AreaIn.incline_valid (-100)
    have hr := (AreaIn.C49_monotone_partial hv).1
    rw [AreaIn.incline_qmin, AreaIn.incline_qmax] at hr
    have r2 := hr 2 (Or.inr (AreaIn.incline_placed _ (by decide) (by decide)))
    have r3 := hr 3 (Or.inr (AreaIn.incline_placed _ (by decide) (by decide)))
    have r4 := hr 4 (Or.inl rfl)
    have n : ∀ j, westerly.qrefNorm j k = (AreaIn.incline (-100)).qref j / sin (π / 6 * ((j - 1 : ℤ) : ℝ)) := by
      intro j
      have : westerly.qrefRaw j k = (AreaIn.incline (-100)).qref j := if_pos ⟨k1, k2⟩
      unfold qrefNorm
      rw [this]
      rfl
    have q2 : westerly.qref 2 k = 2 * (AreaIn.incline (-100)).qref 2 := by
      have : westerly.qref 2 k = westerly.qrefNorm 2 k := if_neg (by decide)
      rw [this, n, show π / 6 * ((2 - 1 : ℤ) : ℝ) = π / 6 by push_cast; ring, sin_pi_div_six]
      ring
    have q3 : westerly.qref 3 k = 2 / √3 * (AreaIn.incline (-100)).qref 3 := by
      have : westerly.qref 3 k = westerly.qrefNorm 3 k := if_neg (by decide)
      rw [this, n, show π / 6 * ((3 - 1 : ℤ) : ℝ) = π / 3 by push_cast; ring, sin_pi_div_three]
      field_simp
    have q4 : westerly.qref 4 k = (AreaIn.incline (-100)).qref 4 := by
      have : westerly.qref 4 k = westerly.qrefNorm 4 k := if_neg (by decide)
      rw [this, n, show π / 6 * ((4 - 1 : ℤ) : ℝ) = π / 2 by push_cast; ring, sin_pi_div_two, div_one]
    have q1 : westerly.qref 1 k = 2 * westerly.qref 2 k - westerly.qref 3 k := by
      have e1 : westerly.qref 1 k = 2 * westerly.qrefNorm 2 k - westerly.qrefNorm 3 k := (if_pos rfl).trans (if_pos ⟨k1, k2⟩)
      have e2 : westerly.qref 2 k = westerly.qrefNorm 2 k := if_neg (by decide)
      have e3 : westerly.qref 3 k = westerly.qrefNorm 3 k := if_neg (by decide)
      rw [e1, e2, e3]
    have hs : 2 / √3 < 3 / 2 ∧ 1 < 2 / √3 := by
      have l1 : 4 / 3 < √3 := Real.lt_sqrt_of_sq_lt (by norm_num)
      have l2 : √3 < 2 := by rw [Real.sqrt_lt' (by norm_num)]; norm_num
      exact ⟨by rw [div_lt_iff₀ (by linarith)]; linarith, by rw [lt_div_iff₀ (by linarith)]; linarith⟩
    have h23 : westerly.qref 2 k ≤ westerly.qref 3 k := by rw [q2, q3]; nlinarith
    unfold qrefOut
    refine div_le_div_of_nonneg_right ?_ (by show (0 : ℝ) ≤ 2 * 1; norm_num)
    change (0 : ℤ) + 2 ≤ jj at j1
    change jj ≤ 4 - 1 at j2
    rcases (by omega : jj = 2 ∨ jj = 3) with rfl | rfl
    · norm_num only
      linarith
    · norm_num only
      linarith
  · intro k _ _
    have hk := AreaIn.ckref_ge (AreaIn.incline_valid 10) (c := 10) (fun i j _ _ j1 _ => by
      show (10 : ℝ) ≤ 10 + (j : ℝ)
      have : (1 : ℝ) ≤ j := by exact_mod_cast j1
      linarith) (j := 1) (AreaIn.incline_placed _ le_rfl (by decide))
    have ha : (AreaIn.incline 10).alat 1 = 2 * π := by
      show 2 * π * 1 * 1 * (1 - sin (π / 6 * ((1 - 1 : ℤ) : ℝ))) = 2 * π
      simp
    rw [ha] at hk
    have e : (westerly.area westerly.vort k).ckref (westerly.jb + 1) = (AreaIn.incline 10).ckref 1 := rfl
    rw [e]
    show 0 ≤ (AreaIn.incline 10).ckref 1 / (2 * π * 1) - 1 * 1 * cos _
    have h1 : 10 ≤ (AreaIn.incline 10).ckref 1 / (2 * π * 1) := by
      rw [le_div_iff₀ (by have := pi_pos; linarith)]
      linarith
    have := cos_le_one (westerly.planet.lat (((westerly.jb : ℤ) : ℝ) + 1))
    linarith
  · intro j j1 _
    have e : ∀ l, westerly.tbar l westerly.kmax = warmTop.tbar l westerly.kmax := fun _ => rfl
    rw [e, e, warmTop_tbar, warmTop_tbar, if_neg (by omega)]
    split_ifs <;> norm_num

/-- The hypotheses of `C146_response` can be met with different data. -/
example : (∀ jj k, evenTop.jb + 2 ≤ jj → jj ≤ evenTop.nd - 1 → 2 ≤ k → k ≤ evenTop.kmax - 1 →
      |(evenTop.qrefOut (jj + 1) k - evenTop.qrefOut (jj - 1) k) / (2 * evenTop.dphi) -
        (warmTop.qrefOut (jj + 1) k - warmTop.qrefOut (jj - 1) k) / (2 * evenTop.dphi)| ≤ 0) ∧
    (∀ k, 2 ≤ k → k ≤ evenTop.kmax - 1 →
      |(evenTop.area evenTop.vort k).ckref (evenTop.jb + 1) - (warmTop.area evenTop.vort k).ckref (evenTop.jb + 1)| ≤ 0) ∧
    ∃ t, 0 ≤ t ∧ ∀ jj, evenTop.jb + 2 ≤ jj → jj ≤ evenTop.nd - 1 →
      |evenTop.dz * evenTop.topFactor jj * (evenTop.tbar (jj - evenTop.jb + 1) evenTop.kmax - evenTop.tbar (jj - evenTop.jb - 1) evenTop.kmax) -
        evenTop.dz * evenTop.topFactor jj * (warmTop.tbar (jj - evenTop.jb + 1) evenTop.kmax -
          warmTop.tbar (jj - evenTop.jb - 1) evenTop.kmax)| ≤ t := by
  have q : ∀ j k, warmTop.qrefOut j k = evenTop.qrefOut j k := fun _ _ => rfl
  have c : ∀ k, warmTop.area evenTop.vort k = evenTop.area evenTop.vort k := fun _ => rfl
  refine ⟨fun jj k _ _ _ _ => by rw [q, q, sub_self, abs_zero], fun k _ _ => by rw [c, sub_self, abs_zero],
    |evenTop.topFactor 2|, abs_nonneg _, fun jj j1 j2 => ?_⟩
  change (0 : ℤ) + 2 ≤ jj at j1
  change jj ≤ 4 - 1 at j2
  have hjb : evenTop.jb = 0 := rfl
  have hdz : evenTop.dz = 1 := rfl
  rw [evenTop_tbar, evenTop_tbar, warmTop_tbar, warmTop_tbar, hjb, hdz]
  rcases (by omega : jj = 2 ∨ jj = 3) with rfl | rfl
  · rw [if_neg (by decide), if_pos (by decide)]
    simp
  · rw [if_neg (by decide), if_neg (by decide)]
    simp

end Falwa.NhnIn

namespace Falwa.RefIn

open Real Finset Filter Topology

variable {I : RefIn}

/-- The same grid, constants and static stability with other fields. -/
def withFields (I : RefIn) (pv uu pt : ℤ → ℤ → ℤ → ℝ) : RefIn := { I with pv := pv, uu := uu, pt := pt }

theorem Physical.withFields (h : I.Physical) (pv uu pt : ℤ → ℤ → ℤ → ℝ) : (I.withFields pv uu pt).Physical :=
  ⟨⟨h.geom.nlon1, h.geom.jd3, h.geom.kmax3, h.geom.odd, h.geom.dphiEq⟩, h.om, h.a, h.h, h.r, h.dz, h.stat⟩

/-- The reference QGPV (divided by the Coriolis parameter) increases at least as fast towards the pole, the wind that the routine
takes on the equator is at least as large, and on the level below the highest the zonal-mean temperature decreases at least as fast
towards the pole. -/
structure Stronger (I J : RefIn) : Prop where
  gradient : ∀ j k, 2 ≤ j → j ≤ I.jd - 1 → 2 ≤ k → k ≤ I.kmax - 1 →
    I.qref (j + 1) k - I.qref (j - 1) k ≤ J.qref (j + 1) k - J.qref (j - 1) k
  boundary : ∀ k, 2 ≤ k → k ≤ I.kmax - 1 → I.bound k ≤ J.bound k
  warm : ∀ j, 2 ≤ j → j ≤ I.jd - 1 → J.tbar (j + 1) (I.kmax - 1) - J.tbar (j - 1) (I.kmax - 1) ≤
    I.tbar (j + 1) (I.kmax - 1) - I.tbar (j - 1) (I.kmax - 1)

/-- Stronger data give a solution that is nowhere smaller. -/
theorem solves_mono (hP : I.Physical) (ho : 0 < I.om) (ha : 0 < I.a) (hz : 0 < I.dz) (pv uu pt : ℤ → ℤ → ℤ → ℝ)
    (hs : Stronger I (I.withFields pv uu pt)) {u v : ℤ → ℤ → ℝ} (hu : I.Solves u) (hv : (I.withFields pv uu pt).Solves v) {j k : ℤ}
    (j1 : 2 ≤ j) (j2 : j ≤ I.jd - 1) (k1 : 1 ≤ k) (k2 : k ≤ I.kmax) : u j k ≤ v j k := by
  have hg := hP.geom
  have hkm := hg.kmax3
  have hd := hg.dphi_pos
  have tops : ∀ j, 2 ≤ j → j ≤ I.jd - 1 → u j I.kmax - v j I.kmax ≤ u j (I.kmax - 2) - v j (I.kmax - 2) := by
    intro j j1 j2
    have t1 := (top_iff u hP.dz j).1 (hu.top j j1 j2)
    have t2 : v j I.kmax = v j (I.kmax - 2) - (I.withFields pv uu pt).uz j :=
      (top_iff (I := I.withFields pv uu pt) v hP.dz j).1 (hv.top j j1 j2)
    have : (I.withFields pv uu pt).uz j ≤ I.uz j := by
      have a1 : (1 : ℝ) < j := by exact_mod_cast (by omega : 1 < j)
      have a2 : (j : ℝ) < I.jd := by exact_mod_cast (by omega : j < I.jd)
      have hm := hg.dphi_mul
      have p1 : 0 < I.phi j := by unfold phi; push_cast; apply mul_pos hd; linarith
      have p2 : I.phi j < π / 2 := by unfold phi; push_cast; nlinarith
      have s1 : 0 < sin (I.phi j) := sin_pos_of_pos_of_lt_pi p1 (by linarith [pi_pos])
      have s2 : 0 < cos (I.phi j) := cos_pos_of_mem_Ioo ⟨by linarith [pi_pos], p2⟩
      have hr := hP.r
      have hh := hP.h
      show I.dz * I.r * cos (I.phi j) * exp (-I.z (I.kmax - 1) * I.rkappa / I.h) *
          ((I.withFields pv uu pt).tbar (j + 1) (I.kmax - 1) - (I.withFields pv uu pt).tbar (j - 1) (I.kmax - 1)) /
          (2 * I.om * sin (I.phi j) * I.dphi * I.h * I.a) ≤ I.uz j
      unfold uz
      refine div_le_div_of_nonneg_right (mul_le_mul_of_nonneg_left (hs.warm j j1 j2) ?_) ?_ <;> positivity
    linarith
  have mid : ∀ j k, 1 < j → j < I.jd → 1 < k → k < I.kmax → u j k - v j k ≤ 0 := by
    refine compare_principle (w := fun j k => u j k - v j k) (j0 := 1) (j1 := I.jd) (kmax := I.kmax)
      (a := fun j _ => I.ajk j) (b := fun j _ => I.bjk j) (c := I.cjk) (d := I.djk) ?_ ?_ ?_ ?_ ?_ ?_
    · intro j k b1 b2 b3 b4
      obtain ⟨r1, r2, _⟩ := hP.row_pos (j := j) (by omega) (by omega)
      obtain ⟨r3, r4⟩ := hP.vert_pos (j := j) (k := k) (by omega) (by omega) (by omega) (by omega)
      exact ⟨r1, r2, r3, r4⟩
    · intro j k b1 b2 b3 b4
      have e1 := (resid_zero_iff u j k).2 (hu.eqn j k (by omega) (by omega) (by omega) (by omega))
      have e2 : I.lhs v j k - (I.withFields pv uu pt).fjk j k = 0 :=
        (resid_zero_iff (I := I.withFields pv uu pt) v j k).2 (hv.eqn j k (by omega) (show j ≤ I.jd - 1 by omega) (by omega)
          (show k ≤ I.kmax - 1 by omega))
      rw [resid_eq] at e1
      have hf : (I.withFields pv uu pt).fjk j k ≤ I.fjk j k := by
        have w := hs.gradient j k (by omega) (by omega) (by omega) (by omega)
        show -I.om * I.a * I.dphi * ((I.withFields pv uu pt).qref (j + 1) k - (I.withFields pv uu pt).qref (j - 1) k) ≤
          -I.om * I.a * I.dphi * (I.qref (j + 1) k - I.qref (j - 1) k)
        have := mul_le_mul_of_nonneg_left w (mul_pos (mul_pos ho ha) hd).le
        linarith
      have : fivePoint (fun j _ => I.ajk j) (fun j _ => I.bjk j) I.cjk I.djk (fun j k => u j k - v j k) j k =
          I.lhs u j k - I.lhs v j k := by
        unfold fivePoint lhs ejk
        ring
      rw [this]
      linarith
    · intro k b1 b2
      have s1 := hu.south k (by omega) (by omega)
      have s2 := hv.south k (by omega) (show k ≤ I.kmax by omega)
      have s3 := hs.boundary k (by omega) (by omega)
      show u 1 k - v 1 k ≤ 0
      linarith
    · intro k b1 b2
      have s1 := hu.north k (by omega) (by omega)
      have s2 : v I.jd k = 0 := hv.north k (by omega) (show k ≤ I.kmax by omega)
      show u I.jd k - v I.jd k ≤ 0
      linarith
    · intro j b1 b2
      have s1 := hu.bottom j (by omega) (by omega)
      have s2 : v j 1 = 0 := hv.bottom j (by omega) (show j ≤ I.jd - 1 by omega)
      show u j 1 - v j 1 ≤ 0
      linarith
    · exact fun j b1 b2 => ⟨I.kmax - 2, by omega, by omega, tops j (by omega) (by omega)⟩
  have low : ∀ k, 1 ≤ k → k < I.kmax → u j k - v j k ≤ 0 := by
    intro k c1 c2
    by_cases e : k = 1
    · rw [e, hu.bottom j j1 j2, hv.bottom j j1 j2, sub_self]
    · exact mid j k (by omega) (by omega) (by omega) c2
  by_cases e : k = I.kmax
  · rw [e]
    linarith [tops j j1 j2, low (I.kmax - 2) (by omega) (by omega)]
  · linarith [low k k1 (by omega)]

/-- C146 for the iterative solver: the winds of both iterations have limits and with stronger data the limit is nowhere smaller.
The limits are those of the sweeps; a result returned after finitely many sweeps differs from them by the remaining error. -/
theorem C146_iterative_partial (hP : I.Physical) (hr : I.rjac ^ 2 < 1) (ho : 0 < I.om) (ha : 0 < I.a) (hz : 0 < I.dz)
    (pv uu pt : ℤ → ℤ → ℤ → ℝ) (hs : Stronger I (I.withFields pv uu pt)) {j k : ℤ} (j1 : 2 ≤ j) (j2 : j ≤ I.jd - 1)
    (k1 : 1 ≤ k) (k2 : k ≤ I.kmax) :
    ∃ l l', Tendsto (fun n => (I.trajectory n).2 j k) atTop (𝓝 l) ∧
      Tendsto (fun n => ((I.withFields pv uu pt).trajectory n).2 j k) atTop (𝓝 l') ∧ l ≤ l' := by
  have hJ := hP.withFields pv uu pt
  obtain ⟨u, hu⟩ := C55_exists hP.geom hP.om hP.a hP.h hP.r hP.dz hP.stat
  obtain ⟨v, hv⟩ := C55_exists hJ.geom hJ.om hJ.a hJ.h hJ.r hJ.dz hJ.stat
  exact ⟨u j k, v j k, C112_converges hP hr hu j k ⟨⟨by omega, by omega⟩, k1, k2⟩,
    C112_converges hJ hr hv j k ⟨⟨by omega, show j ≤ I.jd by omega⟩, k1, k2⟩, solves_mono hP ho ha hz pv uu pt hs hu hv j1 j2 k1 k2⟩

/-- The hypotheses can be met with different data: twice the temperature gradient. -/
example : smooth.Physical ∧ smooth.rjac ^ 2 < 1 ∧ 0 < smooth.om ∧ 0 < smooth.a ∧ 0 < smooth.dz ∧
    Stronger smooth (smooth.withFields smooth.pv smooth.uu (fun _ j k => (k : ℝ) - 2 * j)) ∧
    (smooth.withFields smooth.pv smooth.uu (fun _ j k => (k : ℝ) - 2 * j)).uz 2 < smooth.uz 2 := by
  have z1 : ∀ j k, smooth.tbar j k = (k : ℝ) - ((j + 2 : ℤ) : ℝ) := by
    intro j k
    show dosum 1 4 (fun _ => ((k : ℝ) - ((j + (3 - 1) : ℤ) : ℝ)) / ((4 : ℤ) : ℝ)) = _
    rw [dosum_eq, sum_const, show (Icc (1 : ℤ) 4).card = 4 by decide]
    push_cast
    ring
  have z2 : ∀ j k, (smooth.withFields smooth.pv smooth.uu (fun _ j k => (k : ℝ) - 2 * j)).tbar j k = (k : ℝ) - 2 * ((j + 2 : ℤ) : ℝ) := by
    intro j k
    show dosum 1 4 (fun _ => ((k : ℝ) - 2 * ((j + (3 - 1) : ℤ) : ℝ)) / ((4 : ℤ) : ℝ)) = _
    rw [dosum_eq, sum_const, show (Icc (1 : ℤ) 4).card = 4 by decide]
    push_cast
    ring
  refine ⟨smooth_physical, by norm_num [smooth], by norm_num [smooth], by norm_num [smooth], by norm_num [smooth],
    ⟨fun _ _ _ _ _ _ => le_rfl, fun _ _ _ => le_rfl, fun j _ _ => ?_⟩, ?_⟩
  · rw [z1, z1, z2, z2]
    push_cast
    linarith
  · have e : smooth.phi 2 = π / 4 := by show π / 4 * ((2 - 1 : ℤ) : ℝ) = π / 4; norm_num
    show 1 * 1 * cos (smooth.phi 2) * exp (-smooth.z (4 - 1) * smooth.rkappa / 1) *
        ((smooth.withFields smooth.pv smooth.uu (fun _ j k => (k : ℝ) - 2 * j)).tbar (2 + 1) (4 - 1) -
          (smooth.withFields smooth.pv smooth.uu (fun _ j k => (k : ℝ) - 2 * j)).tbar (2 - 1) (4 - 1)) /
        (2 * 1 * sin (smooth.phi 2) * (π / 4) * 1 * 1) <
      1 * 1 * cos (smooth.phi 2) * exp (-smooth.z (4 - 1) * smooth.rkappa / 1) *
        (smooth.tbar (2 + 1) (4 - 1) - smooth.tbar (2 - 1) (4 - 1)) / (2 * 1 * sin (smooth.phi 2) * (π / 4) * 1 * 1)
    rw [e, z1, z1, z2, z2, sin_pi_div_four, cos_pi_div_four]
    have := pi_pos
    refine div_lt_div_of_pos_right (mul_lt_mul_of_pos_left ?_ (by positivity)) (by positivity)
    norm_num

end Falwa.RefIn
