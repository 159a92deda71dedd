import Verif.Lemmas.DirectInv
import Verif.Lemmas.Elliptic
import Verif.Spec.RefState
import Verif.Props.AreaAnalysis
import Mathlib.LinearAlgebra.Matrix.NonsingularInverse
import Mathlib.LinearAlgebra.Matrix.ToLin
import Mathlib.Tactic.FieldSimp

/-! # Properties of the direct solver (QGFieldNHN22): C52, C53, C54, C57, C78, C79 -/

noncomputable section

set_option linter.unusedSectionVars false
set_option linter.unusedSimpArgs false

namespace Falwa.NhnIn

open Real Finset Spec

variable {I : NhnIn}

/-- The constants of the input. -/
def planet (I : NhnIn) : Planet where
  a := I.a
  om := I.om
  h := I.h
  r := I.rr
  cp := I.cp
  dz := I.dz
  dphi := I.dphi

/-- An odd grid from pole to pole, at least three analysed rows and three levels. -/
structure Geometry (I : NhnIn) : Prop where
  imax1 : 1 ≤ I.imax
  jb0 : 0 ≤ I.jb
  jd3 : 3 ≤ I.jd
  kmax3 : 3 ≤ I.kmax
  odd : I.jmax = 2 * I.nd - 1
  dphiEq : I.dphi = π / ((I.jmax : ℝ) - 1)

/-- Constants with the usual signs. -/
structure Physical (I : NhnIn) : Prop where
  a0 : 0 < I.a
  om0 : 0 < I.om
  h0 : 0 < I.h
  rr0 : 0 < I.rr
  dz0 : 0 < I.dz
  stat0 : ∀ k, 1 ≤ k → k ≤ I.kmax → 0 < I.statn k

theorem dp_eq (h : I.Geometry) : I.dp = I.dphi := by
  unfold dp
  rw [h.dphiEq]
  push_cast
  rfl

theorem z_eq_height (k : ℤ) : I.z k = I.planet.height k := by
  unfold z Planet.height planet
  push_cast
  ring

namespace Geometry

theorem nd3 (h : I.Geometry) : 3 ≤ I.nd := by
  have h1 := h.jd3
  have h2 := h.jb0
  unfold jd at h1
  omega

theorem dphi_mul (h : I.Geometry) : I.dphi * ((I.nd : ℝ) - 1) = π / 2 := by
  have hj : (3 : ℝ) ≤ I.nd := by exact_mod_cast h.nd3
  rw [h.dphiEq, h.odd]
  push_cast
  have h1 : (I.nd : ℝ) - 1 ≠ 0 := by linarith
  rw [show 2 * (I.nd : ℝ) - 1 - 1 = 2 * ((I.nd : ℝ) - 1) by ring]
  field_simp

theorem dphi_pos (h : I.Geometry) : 0 < I.dphi := by
  have hj : (3 : ℝ) ≤ I.nd := by exact_mod_cast h.nd3
  have := h.dphi_mul
  have hp := pi_pos
  by_contra hc
  nlinarith [mul_nonneg (sub_nonneg.2 (not_lt.1 hc)) (by linarith : (0 : ℝ) ≤ (I.nd : ℝ) - 1)]

/-- Sine and cosine are positive strictly between equator and pole. -/
theorem trig_pos (h : I.Geometry) {x : ℝ} (h1 : 1 < x) (h2 : x < I.nd) :
    0 < sin (I.planet.lat x) ∧ 0 < cos (I.planet.lat x) := by
  have hd := h.dphi_pos
  have hm := h.dphi_mul
  have e : I.planet.lat x = (x - 1) * I.dphi := rfl
  have l1 : 0 < I.planet.lat x := by rw [e]; exact mul_pos (by linarith) hd
  have l2 : I.planet.lat x < π / 2 := by rw [e]; nlinarith
  exact ⟨sin_pos_of_pos_of_lt_pi l1 (by linarith [pi_pos]), cos_pos_of_mem_Ioo ⟨by linarith [pi_pos], l2⟩⟩

theorem cos_nonneg (h : I.Geometry) {x : ℝ} (h1 : 1 ≤ x) (h2 : x ≤ I.nd) : 0 ≤ cos (I.planet.lat x) := by
  have hd := h.dphi_pos
  have hm := h.dphi_mul
  have e : I.planet.lat x = (x - 1) * I.dphi := rfl
  have l1 : 0 ≤ I.planet.lat x := by rw [e]; exact mul_nonneg (by linarith) hd.le
  have l2 : I.planet.lat x ≤ π / 2 := by rw [e]; nlinarith
  exact cos_nonneg_of_mem_Icc ⟨by linarith [pi_pos], l2⟩

theorem wt_pos (h : I.Geometry) : 0 < ∑ j ∈ Icc (I.jb + 1) I.nd, cos (I.planet.lat j) := by
  have hj := h.jd3
  have hb := h.jb0
  unfold jd at hj
  refine sum_pos' (fun j hj => ?_) ⟨I.jb + 2, by rw [mem_Icc]; omega, ?_⟩
  · rw [mem_Icc] at hj
    exact h.cos_nonneg (by exact_mod_cast (by omega : 1 ≤ j)) (by exact_mod_cast hj.2)
  · exact (h.trig_pos (by exact_mod_cast (by omega : 1 < I.jb + 2)) (by exact_mod_cast (by omega : I.jb + 2 < I.nd))).2

end Geometry

theorem ajk_eq (h : I.Geometry) (jj : ℤ) :
    I.ajk jj = 1 / (sin (I.planet.lat (jj + 1 / 2)) * cos (I.planet.lat (jj + 1 / 2))) := by
  unfold ajk
  rw [dp_eq h, show ((jj : ℝ) - 0.5) * I.dphi = I.planet.lat (jj + 1 / 2) by unfold Planet.lat planet; norm_num; left; ring]

theorem bjk_eq (h : I.Geometry) (jj : ℤ) :
    I.bjk jj = 1 / (sin (I.planet.lat (jj - 1 / 2)) * cos (I.planet.lat (jj - 1 / 2))) := by
  unfold bjk
  rw [dp_eq h, show ((jj : ℝ) - 1.5) * I.dphi = I.planet.lat (jj - 1 / 2) by unfold Planet.lat planet; norm_num; left; ring]

theorem lat_row (h : I.Geometry) (jj : ℤ) : ((jj - 1 : ℤ) : ℝ) * I.dp = I.planet.lat jj := by
  rw [dp_eq h]
  unfold Planet.lat planet
  push_cast
  ring

theorem amp_eq (h : I.Geometry) (p jj k : ℤ) : I.amp p jj k = (2 * I.om * I.a * I.dphi / I.dz) ^ 2 * (I.h / I.rr) *
      (sin (I.planet.lat jj) / cos (I.planet.lat jj)) * I.planet.stiffness ((I.statn (k + p) + I.statn k) / 2) k (k + p / 2) := by
  unfold amp
  simp only [lat_row h]
  have hz : 0.5 * (I.z (k + p) + I.z k) = I.planet.height (k + p / 2) := by
    unfold z Planet.height planet
    push_cast
    norm_num
    ring
  rw [hz, dp_eq h]
  unfold Planet.stiffness
  rw [show exp (-(1 - I.planet.r / I.planet.cp) * I.planet.height (k + p / 2) / I.planet.h) =
    exp (-I.planet.height (k + p / 2) / I.h) * exp (I.rkappa * I.planet.height (k + p / 2) / I.h) by
      rw [← exp_add]; congr 1; show -(1 - I.rr / I.cp) * _ / I.h = _; unfold rkappa; ring]
  rw [show I.planet.h = I.h from rfl, ← z_eq_height]
  rw [show (0.5 : ℝ) * (I.statn (k + p) + I.statn k) = (I.statn (k + p) + I.statn k) / 2 by ring]
  ring

theorem coeff_pos (h : I.Geometry) (hp : I.Physical) {jj k : ℤ} (j1 : I.jb + 2 ≤ jj) (j2 : jj ≤ I.nd - 1) (k1 : 2 ≤ k)
    (k2 : k ≤ I.kmax - 1) : 0 < I.ajk jj ∧ 0 < I.bjk jj ∧ 0 < I.amp 1 jj k ∧ 0 < I.amp (-1) jj k := by
  have hb := h.jb0
  have a1 : (2 : ℝ) ≤ jj := by exact_mod_cast (by omega : 2 ≤ jj)
  have a2 : (jj : ℝ) ≤ I.nd - 1 := by exact_mod_cast j2
  have t1 := h.trig_pos (x := jj + 1 / 2) (by linarith) (by linarith)
  have t2 := h.trig_pos (x := jj - 1 / 2) (by linarith) (by linarith)
  have t3 := h.trig_pos (x := jj) (by linarith) (by linarith)
  have hd := h.dphi_pos
  obtain ⟨c1, c2, c3, c4, c5, c6⟩ := hp
  have amp_pos : ∀ p : ℤ, 1 ≤ k + p → k + p ≤ I.kmax → 0 < I.amp p jj k := by
    intro p p1 p2
    rw [amp_eq h]
    unfold Planet.stiffness
    have := c6 (k + p) p1 p2
    have := c6 k (by omega) (by omega)
    have := t3.1
    have := t3.2
    positivity
  refine ⟨?_, ?_, amp_pos 1 (by omega) (by omega), amp_pos (-1) (by omega) (by omega)⟩
  · rw [ajk_eq h]
    have := t1.1; have := t1.2
    positivity
  · rw [bjk_eq h]
    have := t2.1; have := t2.2
    positivity

/-! ### C54 -/

/-- The wind times cosine that the solver stands for, on the rows `jb+1..nd` counted from the equator: the boundary value on the
first row, zero at the pole, the returned wind in between. -/
def solution (I : NhnIn) (jj k : ℤ) : ℝ :=
  if jj = I.jb + 1 then I.bound k else if jj = I.nd then 0 else I.uref (jj - I.jb) k * cos (I.planet.lat jj)

/-- The discretised problem. -/
structure Solves (I : NhnIn) (W : ℤ → ℤ → ℝ) : Prop where
  /-- the equation in the interior -/
  eqn : ∀ jj k, I.jb + 2 ≤ jj → jj ≤ I.nd - 1 → 2 ≤ k → k ≤ I.kmax - 1 → I.planet.Elliptic I.statn I.qrefOut W jj k
  /-- equatorward boundary: the circulation of the absolute vorticity -/
  south : ∀ k, 2 ≤ k → k ≤ I.kmax - 1 → W (I.jb + 1) k =
    (I.area I.vort k).ckref (I.jb + 1) / (2 * π * I.a) - I.om * I.a * cos (I.planet.lat (I.jb + 1))
  /-- pole -/
  north : ∀ k, 2 ≤ k → k ≤ I.kmax - 1 → W I.nd k = 0
  /-- no slip at the lowest level -/
  bottom : ∀ jj, I.jb + 2 ≤ jj → jj ≤ I.nd - 1 → W jj 1 = 0
  /-- thermal wind at the top, from the zonal-mean temperature of the same latitude -/
  top : ∀ jj, I.jb + 2 ≤ jj → jj ≤ I.nd - 1 → (W jj I.kmax - W jj (I.kmax - 1)) / I.dz =
    -(I.rr * cos (I.planet.lat jj) * exp (-(I.rr / I.cp) * I.planet.height ((I.kmax : ℝ) - 1) / I.h) *
      ((I.tbar (jj + 1) I.kmax - I.tbar (jj - 1) I.kmax) / (2 * I.dphi))) / (I.planet.f jj * I.h * I.a)

/-- C54: with exact inverses, the returned wind solves the discretised problem. -/
def C54_Statement : Prop :=
  ∀ I : NhnIn, I.Geometry → I.Physical → I.ExactInv → I.Solves I.solution

theorem uref_interior (h : I.Geometry) {jj : ℤ} (j1 : I.jb + 2 ≤ jj) (j2 : jj ≤ I.nd - 1) (k : ℤ) :
    I.solution jj k = I.pjk (jj - I.jb - 1) k := by
  have hb := h.jb0
  have a1 : (1 : ℝ) < jj := by exact_mod_cast (by omega : 1 < jj)
  have a2 : (jj : ℝ) < I.nd := by exact_mod_cast (by omega : jj < I.nd)
  have hc := (h.trig_pos a1 a2).2
  have e : I.dp * ((jj - I.jb + I.jb - 1 : ℤ) : ℝ) = I.planet.lat jj := by
    rw [← lat_row h, show jj - I.jb + I.jb - 1 = jj - 1 by ring]
    ring
  unfold solution
  rw [if_neg (by omega), if_neg (by omega)]
  unfold uref
  rw [if_neg (by unfold jd; omega)]
  unfold uDiv
  rw [if_pos ⟨by omega, by omega⟩, e, div_mul_cancel₀ _ hc.ne']
  unfold uRaw
  rw [if_pos ⟨by omega, by unfold jd; omega⟩]

/-- C54, interior: with exact inverses and at least four analysed rows, the interior equation, the two lateral boundary
conditions and the lower boundary condition hold. What is missing: the upper condition, and grids with three analysed rows. -/
theorem C54_interior_partial (h : I.Geometry) (h4 : 4 ≤ I.jd) (hom : I.om ≠ 0) (hinv : I.ExactInv) :
    (∀ jj k, I.jb + 2 ≤ jj → jj ≤ I.nd - 1 → 2 ≤ k → k ≤ I.kmax - 1 → I.planet.Elliptic I.statn I.qrefOut I.solution jj k) ∧
    (∀ k, 2 ≤ k → k ≤ I.kmax - 1 → I.solution (I.jb + 1) k =
      (I.area I.vort k).ckref (I.jb + 1) / (2 * π * I.a) - I.om * I.a * cos (I.planet.lat (I.jb + 1))) ∧
    (∀ k, I.solution I.nd k = 0) ∧
    (∀ jj, I.jb + 2 ≤ jj → jj ≤ I.nd - 1 → I.solution jj 1 = 0) := by
  have hb := h.jb0
  have hkm := h.kmax3
  have hjd : I.jd = I.nd - I.jb := rfl
  have hn : I.n = I.jd - 2 := rfl
  have hS : ∀ k, I.solution (I.jb + 1) k = I.bound k := fun k => by unfold solution; rw [if_pos rfl]
  have hN : ∀ k, I.solution I.nd k = 0 := fun k => by unfold solution; rw [if_neg (by omega), if_pos rfl]
  refine ⟨fun jj k j1 j2 k1 k2 => ?_, fun k k1 k2 => ?_, hN, fun jj j1 j2 => ?_⟩
  · have hi : jj - I.jb - 1 ∈ I.R := mem_R.2 ⟨by omega, by omega⟩
    have row := row_system hkm hinv k1 k2 hi
    rw [show jj - I.jb - 1 + 1 + I.jb = jj by ring] at row
    -- neighbours
    have eN : (if jj - I.jb - 1 < I.n then I.ajk jj * I.pjk (jj - I.jb - 1 + 1) k else 0) = I.ajk jj * I.solution (jj + 1) k := by
      by_cases c : jj - I.jb - 1 < I.n
      · rw [if_pos c, uref_interior h (by omega) (by omega)]
        congr 2
        ring
      · rw [if_neg c, show jj + 1 = I.nd by omega, hN, mul_zero]
    have eS : (if 1 < jj - I.jb - 1 then I.bjk jj * I.pjk (jj - I.jb - 1 - 1) k else 0) - I.rj k (jj - I.jb - 1) =
        I.bjk jj * I.solution (jj - 1) k - I.fjk jj k := by
      unfold rj
      simp only [show jj - I.jb - 1 + 1 + I.jb = jj by ring]
      by_cases c : 1 < jj - I.jb - 1
      · rw [if_pos c, uref_interior h (by omega) (by omega)]
        have e2 : ¬ (jj - I.jb - 1 + 1 = 2) := by omega
        simp only [if_neg e2]
        rw [show jj - 1 - I.jb - 1 = jj - I.jb - 1 - 1 by ring]
        split_ifs <;> ring
      · have e2 : jj - I.jb - 1 + 1 = 2 := by omega
        have e3 : ¬ (jj - I.jb - 1 + 1 = I.jd - 1) := by omega
        rw [if_neg c]
        simp only [if_pos e2, if_neg e3]
        rw [show jj - 1 = I.jb + 1 by omega, hS]
        ring
    rw [← uref_interior h j1 j2, ← uref_interior h j1 j2, ← uref_interior h j1 j2] at row
    rw [eN] at row
    have key : -I.ejk jj k * I.solution jj k + I.ajk jj * I.solution (jj + 1) k + I.bjk jj * I.solution (jj - 1) k +
        I.amp 1 jj k * I.solution jj (k + 1) + I.amp (-1) jj k * I.solution jj (k - 1) = I.fjk jj k := by linarith
    unfold ejk fjk at key
    rw [ajk_eq h, bjk_eq h, amp_eq h, amp_eq h, dp_eq h, show k + -1 = k - 1 by ring] at key
    push_cast at key
    rw [show (k : ℝ) + -1 / 2 = k - 1 / 2 by ring] at key
    unfold Planet.Elliptic
    show _ + (2 * I.om * I.a * I.dphi / I.dz) ^ 2 * (I.h / I.rr) * _ * _ =
      -(I.om * I.a * I.dphi * (I.qref (jj + 1) k / (2 * I.om) - I.qref (jj - 1) k / (2 * I.om)))
    have e : I.om * I.a * I.dphi * (I.qref (jj + 1) k / (2 * I.om) - I.qref (jj - 1) k / (2 * I.om)) =
        0.5 * I.a * I.dphi * (I.qref (jj + 1) k - I.qref (jj - 1) k) := by
      field_simp
      ring
    rw [e]
    linear_combination key
  · rw [hS]
    unfold bound ckref
    rw [if_pos ⟨k1, k2⟩, dp_eq h]
    congr 3
    show I.dphi * (I.jb : ℝ) = ((I.jb : ℝ) + 1 - 1) * I.dphi
    ring
  · rw [uref_interior h j1 j2]
    exact (pjk_spec (by omega)).1 _

/-- C54, top: the upper condition holds with the temperature of a row that lies `jb` rows closer to the equator. -/
theorem C54_top_partial (h : I.Geometry) (hdz : I.dz ≠ 0) :
    ∀ jj, I.jb + 2 ≤ jj → jj ≤ I.nd - 1 → (I.solution jj I.kmax - I.solution jj (I.kmax - 1)) / I.dz =
    -(I.rr * cos (I.planet.lat jj) * exp (-(I.rr / I.cp) * I.planet.height ((I.kmax : ℝ) - 1) / I.h) *
      ((I.tbar (jj - I.jb + 1) I.kmax - I.tbar (jj - I.jb - 1) I.kmax) / (2 * I.dphi))) / (I.planet.f jj * I.h * I.a) := by
  intro jj j1 j2
  have hkm := h.kmax3
  have hjd : I.jd = I.nd - I.jb := rfl
  have hn : I.n = I.jd - 2 := rfl
  have hi : jj - I.jb - 1 ∈ I.R := mem_R.2 ⟨by omega, by omega⟩
  have hi' := mem_R.1 hi
  rw [uref_interior h j1 j2, uref_interior h j1 j2]
  have := (pjk_spec (I := I) (by omega)).2 (I.kmax - 1) (by omega) le_rfl (jj - I.jb - 1)
  rw [show I.kmax - 1 + 1 = I.kmax by ring] at this
  rw [this]
  obtain ⟨f1, f2⟩ := final_eq (I := I) (k' := I.kmax - 1) (by omega) le_rfl
  rw [show I.kmax - 1 + 1 = I.kmax by ring, downTo_top] at f1 f2
  have es : ∑ l ∈ I.R, I.final.s (jj - I.jb - 1) l (I.kmax - 1) * I.pjk l (I.kmax - 1) = I.pjk (jj - I.jb - 1) (I.kmax - 1) := by
    have : ∀ l, I.final.s (jj - I.jb - 1) l (I.kmax - 1) = if l = jj - I.jb - 1 then (1 : ℝ) else 0 := by
      intro l
      rw [f1]
      unfold topState
      show (if I.kmax - 1 = I.kmax - 1 ∧ jj - I.jb - 1 = l ∧ 1 ≤ jj - I.jb - 1 ∧ jj - I.jb - 1 ≤ I.n then (1 : ℝ) else 0) = _
      by_cases c : l = jj - I.jb - 1
      · rw [if_pos c, if_pos ⟨rfl, c.symm, hi'⟩]
      · rw [if_neg c, if_neg (fun x => c x.2.1.symm)]
    simp only [this]
    rw [sum_diag hi, one_mul]
  have ft : I.topState.t (jj - I.jb - 1) (I.kmax - 1) = I.topT (jj - I.jb - 1) := if_pos ⟨rfl, hi'⟩
  rw [es, f2, ft]
  unfold topT
  have hl : I.topPhi (jj - I.jb - 1) = I.planet.lat jj := by
    unfold topPhi
    rw [← lat_row h, dp_eq h, show jj - I.jb - 1 + 1 + I.jb - 1 = jj - 1 by ring]
  rw [hl, z_eq_height, show ((I.kmax - 1 : ℤ) : ℝ) = (I.kmax : ℝ) - 1 by push_cast; ring]
  rw [show -I.planet.height ((I.kmax : ℝ) - 1) * I.rkappa / I.h =
      -(I.rr / I.cp) * I.planet.height ((I.kmax : ℝ) - 1) / I.h by unfold rkappa; ring]
  rw [show jj - I.jb - 1 + 1 + 1 = jj - I.jb + 1 by ring, show jj - I.jb - 1 + 1 - 1 = jj - I.jb - 1 by ring]
  unfold Planet.f
  rw [show I.planet.om = I.om from rfl]
  field_simp
  ring

/-- C54 holds completely for boundary index 0 and at least four rows. -/
theorem C54_jb_zero_partial (h : I.Geometry) (hp : I.Physical) (h0 : I.jb = 0) (h4 : 4 ≤ I.jd) (hinv : I.ExactInv) :
    I.Solves I.solution := by
  obtain ⟨a, b, c, d⟩ := C54_interior_partial h h4 hp.om0.ne' hinv
  refine ⟨a, b, fun k _ _ => c k, d, fun jj j1 j2 => ?_⟩
  have := C54_top_partial h hp.dz0.ne' jj j1 j2
  rw [h0, show jj - 0 + 1 = jj + 1 by ring, show jj - 0 - 1 = jj - 1 by ring] at this
  exact this

/-- C54 on grids with exactly three analysed rows: the equatorward boundary value never enters, so the equation holds only if it
is zero. -/
theorem C54_three_rows (h : I.Geometry) (hp : I.Physical) (h3 : I.jd = 3) (hinv : I.ExactInv) {k : ℤ} (k1 : 2 ≤ k)
    (k2 : k ≤ I.kmax - 1) : I.planet.Elliptic I.statn I.qrefOut I.solution (I.jb + 2) k ↔ I.bound k = 0 := by
  have hb := h.jb0
  have hkm := h.kmax3
  have hjd : I.jd = I.nd - I.jb := rfl
  have hn : I.n = I.jd - 2 := rfl
  have hi : (1 : ℤ) ∈ I.R := mem_R.2 ⟨by omega, by omega⟩
  have row := row_system hkm hinv k1 k2 hi
  rw [show (1 : ℤ) + 1 + I.jb = I.jb + 2 by ring, if_neg (by omega), if_neg (by omega)] at row
  have hr : I.rj k 1 = I.fjk (I.jb + 2) k := by
    unfold rj
    simp only
    rw [if_pos (by omega), show (1 : ℤ) + 1 + I.jb = I.jb + 2 by ring]
    ring
  have hw : ∀ k, I.solution (I.jb + 2) k = I.pjk 1 k := by
    intro k
    rw [uref_interior h le_rfl (by omega)]
    congr 1
    ring
  have hS : I.solution (I.jb + 1) k = I.bound k := by unfold solution; rw [if_pos rfl]
  have hN : I.solution (I.jb + 3) k = 0 := by unfold solution; rw [if_neg (by omega), if_pos (by omega)]
  rw [hr, ← hw, ← hw, ← hw] at row
  have hpos := coeff_pos h hp le_rfl (by omega : I.jb + 2 ≤ I.nd - 1) k1 k2
  unfold ejk fjk at row
  have hbpos := hpos.2.1
  rw [bjk_eq h] at hbpos
  rw [ajk_eq h, bjk_eq h, amp_eq h, amp_eq h, dp_eq h, show k + -1 = k - 1 by ring] at row
  push_cast at row
  rw [show (k : ℝ) + -1 / 2 = k - 1 / 2 by ring, show I.jb + 2 + 1 = I.jb + 3 by ring, show I.jb + 2 - 1 = I.jb + 1 by ring] at row
  unfold Planet.Elliptic
  rw [show I.jb + 2 + 1 = I.jb + 3 by ring, show I.jb + 2 - 1 = I.jb + 1 by ring, hS, hN]
  show _ + (2 * I.om * I.a * I.dphi / I.dz) ^ 2 * (I.h / I.rr) * _ * _ =
      -(I.om * I.a * I.dphi * (I.qref (I.jb + 3) k / (2 * I.om) - I.qref (I.jb + 1) k / (2 * I.om))) ↔ _
  have e : I.om * I.a * I.dphi * (I.qref (I.jb + 3) k / (2 * I.om) - I.qref (I.jb + 1) k / (2 * I.om)) =
      0.5 * I.a * I.dphi * (I.qref (I.jb + 3) k - I.qref (I.jb + 1) k) := by
    have := hp.om0.ne'
    field_simp
    ring
  rw [e]
  push_cast at hbpos ⊢
  set b := 1 / (sin (I.planet.lat ((I.jb : ℝ) + 2 - 1 / 2)) * cos (I.planet.lat ((I.jb : ℝ) + 2 - 1 / 2))) with hbdef
  have hdiv : ∀ x : ℝ, x / (sin (I.planet.lat ((I.jb : ℝ) + 2 - 1 / 2)) * cos (I.planet.lat ((I.jb : ℝ) + 2 - 1 / 2))) = x * b := by
    intro x; rw [hbdef]; ring
  rw [hdiv]
  constructor
  · intro hyp
    have : b * I.bound k = 0 := by linear_combination hyp - row
    exact (mul_eq_zero.1 this).resolve_left hbpos.ne'
  · intro h0
    rw [h0]
    linear_combination row

/-- C54, uniqueness: two solutions of the discretised problem agree on the analysed rows and interior levels. -/
theorem C54_unique (h : I.Geometry) (hp : I.Physical) {W W' : ℤ → ℤ → ℝ} (hW : I.Solves W) (hW' : I.Solves W') :
    ∀ jj k, I.jb + 2 ≤ jj → jj ≤ I.nd - 1 → 2 ≤ k → k ≤ I.kmax - 1 → W jj k = W' jj k := by
  have hkm := h.kmax3
  have key : ∀ V V' : ℤ → ℤ → ℝ, I.Solves V → I.Solves V' →
      ∀ jj k, I.jb + 2 ≤ jj → jj ≤ I.nd - 1 → 2 ≤ k → k ≤ I.kmax - 1 → V jj k ≤ V' jj k := by
    intro V V' hV hV' jj k j1 j2 k1 k2
    have := max_principle (j0 := I.jb + 1) (j1 := I.nd) (kmax := I.kmax) (a := fun jj _ => I.ajk jj) (b := fun jj _ => I.bjk jj)
      (c := fun jj k => I.amp 1 jj k) (d := fun jj k => I.amp (-1) jj k) (w := fun j k => V j k - V' j k)
      (fun j k a b c d => coeff_pos h hp (by omega) (by omega) (by omega) (by omega))
      (fun j k a b c d => by
        have e1 := hV.eqn j k (by omega) (by omega) (by omega) (by omega)
        have e2 := hV'.eqn j k (by omega) (by omega) (by omega) (by omega)
        unfold Planet.Elliptic at e1 e2
        change _ + (2 * I.om * I.a * I.dphi / I.dz) ^ 2 * (I.h / I.rr) * _ * _ = _ at e1
        change _ + (2 * I.om * I.a * I.dphi / I.dz) ^ 2 * (I.h / I.rr) * _ * _ = _ at e2
        rw [ajk_eq h, bjk_eq h, amp_eq h, amp_eq h, show k + -1 = k - 1 by ring]
        push_cast
        rw [show (k : ℝ) + -1 / 2 = k - 1 / 2 by ring]
        linear_combination e1 - e2)
      (fun k a b => by rw [hV.south k (by omega) (by omega), hV'.south k (by omega) (by omega)]; ring)
      (fun k a b => by rw [hV.north k (by omega) (by omega), hV'.north k (by omega) (by omega)]; ring)
      (fun j a b => by rw [hV.bottom j (by omega) (by omega), hV'.bottom j (by omega) (by omega)]; ring)
      (fun j a b => ⟨I.kmax - 1, by omega, by omega, by
        have e1 := hV.top j (by omega) (by omega)
        have e2 := hV'.top j (by omega) (by omega)
        rw [← e2, div_left_inj' hp.dz0.ne'] at e1
        linarith⟩) jj k (by omega) (by omega) (by omega) (by omega)
    linarith
  intro jj k j1 j2 k1 k2
  exact le_antisymm (key W W' hW hW' jj k j1 j2 k1 k2) (key W' W hW' hW jj k j1 j2 k1 k2)

/-- C54, existence: the discretised problem has a solution for every boundary index. -/
theorem C54_exists (h : I.Geometry) (hp : I.Physical) : ∃ W, I.Solves W := by
  have hkm := h.kmax3
  have hjm := h.jd3
  have hjd : I.jd = I.nd - I.jb := rfl
  obtain ⟨w, w1, w2, w3, w4, w5⟩ := exists_solution (j0 := I.jb + 1) (j1 := I.nd) (kmax := I.kmax) (kt := I.kmax - 1)
    (a := fun jj _ => I.ajk jj) (b := fun jj _ => I.bjk jj) (c := fun jj k => I.amp 1 jj k) (d := fun jj k => I.amp (-1) jj k)
    (by omega) (by omega)
    (fun j k a b c d => coeff_pos h hp (by omega) (by omega) (by omega) (by omega)) (by omega) (by omega)
    (fun j k => -(I.om * I.a * I.dphi * (I.qrefOut (j + 1) k - I.qrefOut (j - 1) k)))
    (fun k => (I.area I.vort k).ckref (I.jb + 1) / (2 * π * I.a) - I.om * I.a * cos (I.planet.lat (I.jb + 1))) (fun _ => 0)
    (fun jj => I.dz * (-(I.rr * cos (I.planet.lat jj) * exp (-(I.rr / I.cp) * I.planet.height ((I.kmax : ℝ) - 1) / I.h) *
      ((I.tbar (jj + 1) I.kmax - I.tbar (jj - 1) I.kmax) / (2 * I.dphi))) / (I.planet.f jj * I.h * I.a)))
  refine ⟨w, ⟨fun j k j1 j2 k1 k2 => ?_, fun k _ _ => w2 k, fun k _ _ => w3 k, fun j j1 j2 => w4 j (by omega) (by omega),
    fun j j1 j2 => ?_⟩⟩
  · have := w1 j k (by omega) (by omega) (by omega) (by omega)
    unfold fivePoint at this
    beta_reduce at this
    rw [ajk_eq h, bjk_eq h, amp_eq h, amp_eq h, show k + -1 = k - 1 by ring] at this
    push_cast at this
    rw [show (k : ℝ) + -1 / 2 = k - 1 / 2 by ring] at this
    unfold Planet.Elliptic
    show _ + (2 * I.om * I.a * I.dphi / I.dz) ^ 2 * (I.h / I.rr) * _ * _ =
      -(I.om * I.a * I.dphi * (I.qrefOut (j + 1) k - I.qrefOut (j - 1) k))
    linear_combination this
  · rw [w5 j (by omega) (by omega), add_sub_cancel_left, mul_div_cancel_left₀ _ hp.dz0.ne']

/-! ### C79: the matrices are nonsingular -/

/-- `inv` returns a right inverse of every nonsingular matrix (correctness of the LAPACK routines). -/
def InvCorrect (I : NhnIn) : Prop :=
  ∀ Q : ℤ → ℤ → ℝ, (∀ x : ℤ → ℝ, (∀ i ∈ I.R, ∑ l ∈ I.R, Q i l * x l = 0) → ∀ i ∈ I.R, x i = 0) →
    ∀ i ∈ I.R, ∀ m ∈ I.R, ∑ l ∈ I.R, Q i l * I.inv Q l m = if i = m then 1 else 0

theorem sweep_dominant (h : I.Geometry) (hp : I.Physical) (hc : I.InvCorrect) (d : ℕ) (hd : 1 ≤ I.kmax - 1 - (d : ℤ)) :
    (∀ i ∈ I.R, (∀ m ∈ I.R, 0 ≤ (I.downTo (I.kmax - d)).s i m (I.kmax - 1 - d)) ∧
      ∑ m ∈ I.R, (I.downTo (I.kmax - d)).s i m (I.kmax - 1 - d) ≤ 1) ∧
    (2 ≤ I.kmax - 1 - (d : ℤ) → I.Dominant (I.qjj (I.kmax - 1 - d) (I.downTo (I.kmax - d)))) := by
  have hjd : I.jd = I.nd - I.jb := rfl
  have hn : I.n = I.jd - 2 := rfl
  -- dominance follows from the bounds on `s`
  have dom : ∀ k st, 2 ≤ k → k ≤ I.kmax - 1 →
      (∀ i ∈ I.R, (∀ m ∈ I.R, 0 ≤ SweepState.s st i m k) ∧ ∑ m ∈ I.R, SweepState.s st i m k ≤ 1) →
      I.Dominant (I.qjj k st) ∧ ∀ i ∈ I.R, ∑ m ∈ I.R, I.qjj k st i m ≤ -I.amp (-1) (i + 1 + I.jb) k := by
    intro k st k1 k2 hs
    have row : ∀ i ∈ I.R, ∀ m, I.qjj k st i m = I.qjj0 k i m + I.amp 1 (i + 1 + I.jb) k * st.s i m k := by
      intro i hi m
      unfold qjj cjj
      rw [dosum_eq]
      congr 1
      exact sum_diag hi _ (fun l => st.s l m k)
    have sums : ∀ i ∈ I.R, ∑ m ∈ I.R, I.qjj k st i m ≤ -I.amp (-1) (i + 1 + I.jb) k := by
      intro i hi
      have hi' := mem_R.1 hi
      obtain ⟨p1, p2, p3, p4⟩ := coeff_pos h hp (by omega : I.jb + 2 ≤ i + 1 + I.jb) (by omega) k1 k2
      rw [sum_congr rfl fun m _ => row i hi m, sum_add_distrib, ← mul_sum]
      have e := sum_qjj0 hi k (fun _ => 1)
      simp only [mul_one] at e
      rw [e]
      have s1 : I.amp 1 (i + 1 + I.jb) k * ∑ m ∈ I.R, st.s i m k ≤ I.amp 1 (i + 1 + I.jb) k := by
        have := (hs i hi).2
        nlinarith
      unfold ejk
      split_ifs <;> linarith
    refine ⟨fun i hi => ⟨fun m hm hmi => ?_, ?_⟩, sums⟩
    · have hi' := mem_R.1 hi
      obtain ⟨p1, p2, p3, p4⟩ := coeff_pos h hp (by omega : I.jb + 2 ≤ i + 1 + I.jb) (by omega) k1 k2
      rw [row i hi]
      have s0 := (hs i hi).1 m hm
      have : 0 ≤ I.qjj0 k i m := by
        unfold qjj0
        rw [if_neg hmi]
        split_ifs
        · exact p1.le
        · exact p2.le
        · exact le_rfl
      have := mul_nonneg p3.le s0
      linarith
    · have hi' := mem_R.1 hi
      obtain ⟨p1, p2, p3, p4⟩ := coeff_pos h hp (by omega : I.jb + 2 ≤ i + 1 + I.jb) (by omega) k1 k2
      have := sums i hi
      linarith
  -- the bounds, by induction
  have bounds : ∀ d : ℕ, 1 ≤ I.kmax - 1 - (d : ℤ) → ∀ i ∈ I.R,
      (∀ m ∈ I.R, 0 ≤ (I.downTo (I.kmax - d)).s i m (I.kmax - 1 - d)) ∧
      ∑ m ∈ I.R, (I.downTo (I.kmax - d)).s i m (I.kmax - 1 - d) ≤ 1 := by
    intro d
    induction d with
    | zero =>
      intro _ i hi
      have hi' := mem_R.1 hi
      simp only [Nat.cast_zero, sub_zero]
      rw [downTo_top]
      refine ⟨fun m _ => ?_, ?_⟩
      · show (0 : ℝ) ≤ if I.kmax - 1 = I.kmax - 1 ∧ i = m ∧ 1 ≤ i ∧ i ≤ I.n then (1 : ℝ) else 0
        split_ifs <;> norm_num
      · show ∑ m ∈ I.R, (if I.kmax - 1 = I.kmax - 1 ∧ i = m ∧ 1 ≤ i ∧ i ≤ I.n then (1 : ℝ) else 0) ≤ 1
        have : ∀ m ∈ I.R, (if I.kmax - 1 = I.kmax - 1 ∧ i = m ∧ 1 ≤ i ∧ i ≤ I.n then (1 : ℝ) else 0) = if i = m then 1 else 0 := by
          intro m _
          by_cases c : i = m
          · rw [if_pos c, if_pos ⟨rfl, c, hi'⟩]
          · rw [if_neg c, if_neg (fun x => c x.2.1)]
        rw [sum_congr rfl this, sum_ite_eq, if_pos hi]
    | succ d ih =>
      intro hd'
      have hd1 : 2 ≤ I.kmax - 1 - (d : ℤ) := by push_cast at hd'; omega
      obtain ⟨hdom, hsum⟩ := dom (I.kmax - 1 - d) (I.downTo (I.kmax - d)) hd1 (by omega) (ih (by omega))
      have ek : I.kmax - ((d + 1 : ℕ) : ℤ) = I.kmax - 1 - d := by push_cast; ring
      have ek' : I.kmax - 1 - ((d + 1 : ℕ) : ℤ) = I.kmax - 1 - d - 1 := by push_cast; ring
      rw [ek, ek', downTo_step (by omega), show I.kmax - 1 - (d : ℤ) + 1 = I.kmax - d by ring]
      set k := I.kmax - 1 - (d : ℤ) with hk
      set Q := I.qjj k (I.downTo (I.kmax - d)) with hQ
      have hinv := hc Q (fun x hx => hdom.injective hx)
      have hS : ∀ i m, (I.levelStep k (I.downTo (I.kmax - d))).s i m (k - 1) = -∑ l ∈ I.R, I.inv Q i l * I.djj k l m := by
        intro i m
        show (if k - 1 = k - 1 then _ else _) = _
        rw [if_pos rfl, dosum_eq]
        rfl
      have hQS : ∀ i ∈ I.R, ∀ m ∈ I.R, ∑ l ∈ I.R, Q i l * (I.levelStep k (I.downTo (I.kmax - d))).s l m (k - 1) = -I.djj k i m := by
        intro i hi m _
        simp only [hS, mul_neg, sum_neg_distrib, mul_sum]
        rw [sum_comm]
        congr 1
        have : ∀ j ∈ I.R, ∑ l ∈ I.R, Q i l * (I.inv Q l j * I.djj k j m) = if i = j then I.djj k j m else 0 := by
          intro j hj
          simp only [← mul_assoc]
          rw [← sum_mul, hinv i hi j hj]
          split_ifs <;> ring
        rw [sum_congr rfl this, sum_ite_eq, if_pos hi]
      have hdnn : ∀ i ∈ I.R, 0 < I.amp (-1) (i + 1 + I.jb) k := by
        intro i hi
        have hi' := mem_R.1 hi
        exact (coeff_pos h hp (by omega : I.jb + 2 ≤ i + 1 + I.jb) (by omega) hd1 (by omega)).2.2.2
      intro i hi
      refine ⟨fun m hm => ?_, ?_⟩
      · refine hdom.nonneg (x := fun l => (I.levelStep k (I.downTo (I.kmax - d))).s l m (k - 1)) (fun i' hi' => ?_) i hi
        rw [hQS i' hi' m hm]
        unfold djj
        have := (hdnn i' hi').le
        split_ifs
        · linarith
        · simp
      · have := hdom.nonneg (x := fun l => 1 - ∑ m ∈ I.R, (I.levelStep k (I.downTo (I.kmax - d))).s l m (k - 1)) (fun i' hi' => ?_) i hi
        · linarith
        · simp only [mul_sub, mul_one, sum_sub_distrib, mul_sum]
          rw [sum_comm, sum_congr rfl fun m hm => hQS i' hi' m hm]
          have e : ∑ m ∈ I.R, -I.djj k i' m = -I.amp (-1) (i' + 1 + I.jb) k := by
            rw [sum_neg_distrib]
            congr 1
            have := sum_diag hi' (I.amp (-1) (i' + 1 + I.jb) k) (fun _ => 1)
            simp only [mul_one] at this
            exact this
          rw [e]
          have := hsum i' hi'
          linarith
  exact ⟨bounds d hd, fun h2 => (dom _ _ h2 (by omega) (bounds d hd)).1⟩

/-- C79: for physical constants every matrix that the sweep inverts is nonsingular. -/
theorem C79_nonsingular (h : I.Geometry) (hp : I.Physical) (hc : I.InvCorrect) {k : ℤ} (k1 : 2 ≤ k) (k2 : k ≤ I.kmax - 1) :
    ∀ x : ℤ → ℝ, (∀ i ∈ I.R, ∑ l ∈ I.R, I.qjj k (I.downTo (k + 1)) i l * x l = 0) → ∀ i ∈ I.R, x i = 0 := by
  have := (sweep_dominant h hp hc (I.kmax - 1 - k).toNat (by omega)).2 (by omega)
  rw [show I.kmax - 1 - ((I.kmax - 1 - k).toNat : ℤ) = k by omega,
    show I.kmax - ((I.kmax - 1 - k).toNat : ℤ) = k + 1 by omega] at this
  exact fun x hx => this.injective hx

/-- Hence a correct inversion routine gives exact inverses throughout the sweep. -/
theorem C79_exact (h : I.Geometry) (hp : I.Physical) (hc : I.InvCorrect) : I.ExactInv :=
  fun _ k1 k2 => hc _ (C79_nonsingular h hp hc k1 k2)

/-- There is a correct inversion routine for each size. -/
theorem exists_inv (R : Finset ℤ) : ∃ inv : (ℤ → ℤ → ℝ) → ℤ → ℤ → ℝ, ∀ Q : ℤ → ℤ → ℝ,
    (∀ x : ℤ → ℝ, (∀ i ∈ R, ∑ l ∈ R, Q i l * x l = 0) → ∀ i ∈ R, x i = 0) →
    ∀ i ∈ R, ∀ m ∈ R, ∑ l ∈ R, Q i l * inv Q l m = if i = m then 1 else 0 := by
  classical
  refine ⟨fun Q l m => if hl : l ∈ R then if hm : m ∈ R then
    (Matrix.of (fun (i j : R) => Q i j))⁻¹ ⟨l, hl⟩ ⟨m, hm⟩ else 0 else 0, fun Q hQ i hi m hm => ?_⟩
  set A : Matrix R R ℝ := Matrix.of (fun (i j : R) => Q i j) with hA
  have hsum : ∀ (f : ℤ → ℝ), ∑ l ∈ R, f l = ∑ l : R, f l := fun f => (sum_coe_sort R f).symm
  have hinj : Function.Injective A.mulVec := by
    intro x y hxy
    have hz := hQ (fun l => if hl : l ∈ R then x ⟨l, hl⟩ - y ⟨l, hl⟩ else 0) (fun i hi => by
      rw [hsum]
      have := congrFun hxy ⟨i, hi⟩
      simp only [Matrix.mulVec, dotProduct, hA, Matrix.of_apply] at this
      have e : ∀ l : R, Q i l * (if hl : (l : ℤ) ∈ R then x ⟨l, hl⟩ - y ⟨l, hl⟩ else 0) = Q i l * x l - Q i l * y l := by
        intro l
        rw [dif_pos l.2]
        ring
      rw [sum_congr rfl fun l _ => e l, sum_sub_distrib]
      linarith)
    funext l
    have := hz l l.2
    rw [dif_pos l.2] at this
    have : x l - y l = 0 := this
    linarith
  have hu : IsUnit A.det := (Matrix.isUnit_iff_isUnit_det A).1 (Matrix.mulVec_injective_iff_isUnit.1 hinj)
  have hmul := congrFun (congrFun (Matrix.mul_nonsing_inv A hu) ⟨i, hi⟩) ⟨m, hm⟩
  rw [Matrix.mul_apply, Matrix.one_apply] at hmul
  rw [hsum]
  have e : ∀ l : R, (if hl : (l : ℤ) ∈ R then if hm : m ∈ R then A⁻¹ ⟨l, hl⟩ ⟨m, hm⟩ else 0 else 0) = A⁻¹ l ⟨m, hm⟩ := by
    intro l
    rw [dif_pos l.2, dif_pos hm]
  refine Eq.trans (sum_congr rfl fun l _ => ?_) (hmul.trans ?_)
  · exact congrArg (Q i l * ·) (e l)
  · by_cases c : i = m
    · subst c; simp
    · rw [if_neg c, if_neg (fun x => c (Subtype.mk.inj x))]

/-! ### C52, C53, C57 -/

theorem rowMean_add_const (h : I.Geometry) (T : ℤ → ℝ) (c : ℝ) :
    I.planet.rowMean (I.jb + 1) I.nd (fun j => T j + c) = I.planet.rowMean (I.jb + 1) I.nd T + c := by
  have hw := h.wt_pos
  unfold Planet.rowMean
  simp only [mul_add, sum_add_distrib, ← sum_mul]
  field_simp

theorem trefMid_mean (h : I.Geometry) (k : ℤ) : I.planet.rowMean (I.jb + 1) I.nd (fun jj => I.trefMid (jj - I.jb) k) = I.tb k := by
  unfold trefMid
  rw [rowMean_add_const h (fun jj => I.trefRaw k (jj - I.jb))]
  have : I.tg k = I.planet.rowMean (I.jb + 1) I.nd (fun jj => I.trefRaw k (jj - I.jb)) := by
    unfold tg Planet.rowMean
    rw [dosum_eq, dosum_eq]
    simp only [mul_comm I.dp, lat_row h]
  rw [this]
  ring

/-- C52 for QGFieldNHN22: on every level the mean of the reference temperature over the analysed rows is the mean profile passed
to the solver. -/
theorem C52_mean_nhn22 (h : I.Geometry) (k : ℤ) :
    I.planet.rowMean (I.jb + 1) I.nd (fun jj => I.tref (jj - I.jb) k) = I.tb k := by
  have hk := h.kmax3
  unfold tref
  by_cases h1 : k = I.kmax
  · simp only [if_pos h1]
    have := rowMean_add_const h (fun jj => I.trefMid (jj - I.jb) (I.kmax - 1)) (I.tb I.kmax - I.tb (I.kmax - 1))
    rw [trefMid_mean h] at this
    rw [h1]
    refine Eq.trans (congrArg _ (funext fun j => ?_)) (this.trans (by ring))
    ring
  · simp only [if_neg h1]
    by_cases h2 : k = 1
    · simp only [if_pos h2]
      have := rowMean_add_const h (fun jj => I.trefMid (jj - I.jb) 2) (I.tb 1 - I.tb 2)
      rw [trefMid_mean h] at this
      rw [h2]
      refine Eq.trans (congrArg _ (funext fun j => ?_)) (this.trans (by ring))
      ring
    · simp only [if_neg h2]
      exact trefMid_mean h k

theorem trefRaw_spec (hj : 3 ≤ I.jd) (k : ℤ) :
    ∀ j, 2 ≤ j → j ≤ I.jd - 1 → I.trefRaw k (j + 1) = I.trefRaw k (j - 1) + 2 * I.ty j k * I.dp :=
  doLoop_induct (lo := 2) (s := fun _ => (0 : ℝ))
    (f := fun j t => Function.update t (j + 1) (t (j - 1) + 2 * I.ty j k * I.dp))
    (fun b t => ∀ j, 2 ≤ j → j ≤ b → t (j + 1) = t (j - 1) + 2 * I.ty j k * I.dp)
    (fun j h1 h2 => by omega) (by
      intro b t hb h3 j j1 j2
      by_cases hjb : j = b
      · subst hjb
        rw [Function.update_self, Function.update_of_ne (by omega)]
      · rw [Function.update_of_ne (by omega), Function.update_of_ne (by omega), h3 j j1 (by omega)]) (I.jd - 1) (by omega)

/-- C53 for QGFieldNHN22, on the rows between the boundary row and the pole. -/
theorem C53_balance_nhn22 (h : I.Geometry) {jj k : ℤ} (j1 : I.jb + 2 ≤ jj) (j2 : jj ≤ I.nd - 1) (k1 : 2 ≤ k) (k2 : k ≤ I.kmax - 1) :
    I.planet.ThermalWind (fun jj k => I.uref (jj - I.jb) k) (fun jj k => I.tref (jj - I.jb) k) jj k := by
  have hd := h.dphi_pos
  have hr := trefRaw_spec h.jd3 k (jj - I.jb) (by omega) (by unfold jd; omega)
  unfold Planet.ThermalWind
  have e : ∀ j', I.tref j' k = I.trefMid j' k := fun j' => by
    unfold tref; rw [if_neg (by omega), if_neg (by omega)]
  simp only [e]
  unfold trefMid
  rw [show jj + 1 - I.jb = jj - I.jb + 1 by ring, show jj - 1 - I.jb = jj - I.jb - 1 by ring, hr]
  unfold ty
  rw [show jj - I.jb - 1 + I.jb = jj - 1 by ring, mul_comm I.dp, lat_row h, dp_eq h]
  rw [show I.dz * ((k - 1 : ℤ) : ℝ) = I.planet.height k from z_eq_height k]
  show _ / (2 * I.dphi) = _
  unfold Planet.f
  show (_ : ℝ) = -(2 * I.om * sin (I.planet.lat jj) * I.a * (I.h / I.rr) * exp (I.rkappa * I.planet.height k / I.h) *
    ((I.uref (jj - I.jb) (k + 1) - I.uref (jj - I.jb) (k - 1)) / (2 * I.dz)))
  field_simp
  ring

/-! ### C78: the boundary row -/

/-- C78: on the equatorward row the returned wind times cosine is the boundary wind used in the inversion. -/
def C78_Statement : Prop :=
  ∀ I : NhnIn, I.Geometry → I.Physical → I.InvCorrect →
    ∀ k, 2 ≤ k → k ≤ I.kmax - 1 → I.uref 1 k * cos (I.planet.lat (I.jb + 1)) = I.bound k

/-- C78, what the code returns on that row: zero on all levels but the top, where it is minus the speed of rotation of the
planet at the equator. -/
theorem C78_boundary_row_partial (h : I.Geometry) :
    (∀ k, k ≠ I.kmax → I.uref 1 k = 0) ∧ I.uref 1 I.kmax = -(I.om * I.a) := by
  have hj := h.jd3
  have hkm := h.kmax3
  have hb := h.jb0
  have hjd : I.jd = I.nd - I.jb := rfl
  have hu : ∀ k, I.uref 1 k = I.uRaw 1 k / cos (I.planet.lat (I.jb + 1)) := by
    intro k
    unfold uref uDiv
    rw [if_neg (by omega), if_pos ⟨le_rfl, by omega⟩, show (1 : ℤ) + I.jb - 1 = I.jb + 1 - 1 by ring, mul_comm, lat_row h]
    push_cast
    rfl
  have hc : 0 < cos (I.planet.lat (I.jb + 1)) := by
    by_cases h0 : I.jb = 0
    · rw [h0]
      unfold Planet.lat
      norm_num
    · refine (h.trig_pos ?_ ?_).2
      · exact_mod_cast (by omega : 1 < I.jb + 1)
      · exact_mod_cast (by omega : I.jb + 1 < I.nd)
  refine ⟨fun k hk => ?_, ?_⟩
  · rw [hu]
    unfold uRaw
    rw [if_neg (by omega), if_neg (fun x => hk x.2), zero_div]
  · rw [hu]
    unfold uRaw ckref
    rw [if_neg (by omega), if_pos ⟨rfl, rfl⟩, if_neg (by omega), zero_div, zero_sub]
    rw [show I.dp * (I.jb : ℝ) = I.planet.lat (I.jb + 1) by
      rw [dp_eq h]; unfold Planet.lat; show _ = _ * I.dphi; ring]
    field_simp

/-! ### A sample, and the refutations -/

/-- A sample input: 4 x 9 x 3 points, boundary index 1, temperature with one warm row in the northern hemisphere. -/
def sample (om : ℝ) : NhnIn where
  imax := 4
  jmax := 9
  kmax := 3
  nd := 5
  nnd := 9
  jb := 1
  pv := fun _ j _ => (j : ℝ)
  uu := fun _ _ _ => 1
  vort := fun _ j _ => (j : ℝ)
  pt := fun _ j _ => if j = 8 then 1 else 0
  tb := fun k => (k : ℝ)
  statn := fun _ => 1
  a := 1
  om := om
  dz := 1
  h := 1
  dphi := π / 8
  dlambda := π / 2
  rr := 1
  cp := 1
  inv := Classical.choose (exists_inv (Icc 1 2))

theorem sample_geometry (om : ℝ) : (sample om).Geometry where
  imax1 := by show (1 : ℤ) ≤ 4; decide
  jb0 := by show (0 : ℤ) ≤ 1; decide
  jd3 := by show (3 : ℤ) ≤ 5 - 1; decide
  kmax3 := by show (3 : ℤ) ≤ 3; decide
  odd := by show (9 : ℤ) = 2 * 5 - 1; decide
  dphiEq := by show π / 8 = π / (((9 : ℤ) : ℝ) - 1); norm_num

theorem sample_physical {om : ℝ} (h : 0 < om) : (sample om).Physical where
  a0 := by show (0 : ℝ) < 1; norm_num
  om0 := h
  h0 := by show (0 : ℝ) < 1; norm_num
  rr0 := by show (0 : ℝ) < 1; norm_num
  dz0 := by show (0 : ℝ) < 1; norm_num
  stat0 := fun _ _ _ => by show (0 : ℝ) < 1; norm_num

theorem sample_inv (om : ℝ) : (sample om).InvCorrect := Classical.choose_spec (exists_inv (Icc 1 2))

theorem sample_exact {om : ℝ} (h : 0 < om) : (sample om).ExactInv :=
  C79_exact (sample_geometry om) (sample_physical h) (sample_inv om)

example : (sample 1).Geometry ∧ (sample 1).Physical ∧ (sample 1).InvCorrect ∧ (sample 1).ExactInv ∧ 4 ≤ (sample 1).jd :=
  ⟨sample_geometry 1, sample_physical one_pos, sample_inv 1, sample_exact one_pos, by show (4 : ℤ) ≤ 5 - 1; decide⟩

/-- A variant with boundary index 0, to which all hypotheses of `C54_jb_zero_partial` apply. -/
def sample0 : NhnIn where
  imax := 4
  jmax := 7
  kmax := 3
  nd := 4
  nnd := 7
  jb := 0
  pv := fun _ j _ => (j : ℝ)
  uu := fun _ _ _ => 1
  vort := fun _ j _ => (j : ℝ)
  pt := fun _ j _ => (j : ℝ) ^ 2
  tb := fun k => (k : ℝ)
  statn := fun _ => 1
  a := 1
  om := 1
  dz := 1
  h := 1
  dphi := π / 6
  dlambda := π / 2
  rr := 1
  cp := 1
  inv := Classical.choose (exists_inv (Icc 1 2))

theorem sample0_geometry : sample0.Geometry where
  imax1 := by show (1 : ℤ) ≤ 4; decide
  jb0 := by show (0 : ℤ) ≤ 0; decide
  jd3 := by show (3 : ℤ) ≤ 4 - 0; decide
  kmax3 := by show (3 : ℤ) ≤ 3; decide
  odd := by show (7 : ℤ) = 2 * 4 - 1; decide
  dphiEq := by show π / 6 = π / (((7 : ℤ) : ℝ) - 1); norm_num

theorem sample0_physical : sample0.Physical where
  a0 := by show (0 : ℝ) < 1; norm_num
  om0 := by show (0 : ℝ) < 1; norm_num
  h0 := by show (0 : ℝ) < 1; norm_num
  rr0 := by show (0 : ℝ) < 1; norm_num
  dz0 := by show (0 : ℝ) < 1; norm_num
  stat0 := fun _ _ _ => by show (0 : ℝ) < 1; norm_num

/-- The problem of `C54_unique` has a solution for this input. -/
example : sample0.Solves sample0.solution :=
  C54_jb_zero_partial sample0_geometry sample0_physical rfl (by show (4 : ℤ) ≤ 4 - 0; decide)
    (C79_exact sample0_geometry sample0_physical (Classical.choose_spec (exists_inv (Icc 1 2))))

/-- An input with three analysed rows, for `C54_three_rows`. -/
def sample3 : NhnIn := { sample0 with jmax := 5, nd := 3, dphi := π / 4, inv := Classical.choose (exists_inv (Icc 1 1)) }

theorem sample3_geometry : sample3.Geometry where
  imax1 := by show (1 : ℤ) ≤ 4; decide
  jb0 := by show (0 : ℤ) ≤ 0; decide
  jd3 := by show (3 : ℤ) ≤ 3 - 0; decide
  kmax3 := by show (3 : ℤ) ≤ 3; decide
  odd := by show (5 : ℤ) = 2 * 3 - 1; decide
  dphiEq := by show π / 4 = π / (((5 : ℤ) : ℝ) - 1); norm_num

theorem sample3_physical : sample3.Physical where
  a0 := by show (0 : ℝ) < 1; norm_num
  om0 := by show (0 : ℝ) < 1; norm_num
  h0 := by show (0 : ℝ) < 1; norm_num
  rr0 := by show (0 : ℝ) < 1; norm_num
  dz0 := by show (0 : ℝ) < 1; norm_num
  stat0 := fun _ _ _ => by show (0 : ℝ) < 1; norm_num

example : sample3.Geometry ∧ sample3.Physical ∧ sample3.jd = 3 ∧ sample3.ExactInv :=
  ⟨sample3_geometry, sample3_physical, rfl,
    C79_exact sample3_geometry sample3_physical (Classical.choose_spec (exists_inv (Icc 1 1)))⟩

theorem sample_tbar (om : ℝ) (j k : ℤ) : (sample om).tbar j k = if j = 4 then 1 else 0 := by
  unfold tbar zmean
  rw [dosum_eq]
  show ∑ i ∈ Icc (1 : ℤ) 4, (if j + (5 - 1) = 8 then (1 : ℝ) else 0) / ((4 : ℤ) : ℝ) = _
  rw [sum_const]
  have : (Icc (1 : ℤ) 4).card = 4 := rfl
  rw [this]
  by_cases h : j = 4
  · rw [if_pos (by omega), if_pos h]; norm_num
  · rw [if_neg (by omega), if_neg h]; norm_num

/-- C54 fails as stated: the temperature gradient in the upper condition is that of other rows. -/
theorem C54_refuted : ¬ C54_Statement := by
  intro hS
  have hg := sample_geometry 1
  have t1 := (hS _ hg (sample_physical one_pos) (sample_exact one_pos)).top 3 (by show (1 : ℤ) + 2 ≤ 3; decide)
    (by show (3 : ℤ) ≤ 5 - 1; decide)
  rw [C54_top_partial hg one_ne_zero 3 (by show (1 : ℤ) + 2 ≤ 3; decide) (by show (3 : ℤ) ≤ 5 - 1; decide)] at t1
  have e : (3 : ℤ) - (sample 1).jb = 2 := rfl
  rw [e, sample_tbar, sample_tbar, sample_tbar, sample_tbar, if_neg (by decide), if_neg (by decide), if_pos (by decide),
    if_neg (by decide), sub_self, zero_div, mul_zero, neg_zero, zero_div] at t1
  have hx := hg.trig_pos (x := ((3 : ℤ) : ℝ)) (by norm_num) (by show (((3 : ℤ) : ℝ)) < ((5 : ℤ) : ℝ); norm_num)
  have hd := hg.dphi_pos
  have hf : (sample 1).planet.f 3 ≠ 0 := by
    unfold Planet.f
    show 2 * (1 : ℝ) * sin _ ≠ 0
    have := hx.1
    positivity
  refine absurd t1.symm ?_
  refine div_ne_zero (neg_ne_zero.2 (mul_ne_zero (mul_ne_zero (mul_ne_zero one_ne_zero hx.2.ne') (exp_pos _).ne') ?_)) ?_
  · exact div_ne_zero (by norm_num) (by positivity)
  · exact mul_ne_zero (mul_ne_zero hf one_ne_zero) one_ne_zero

/-- C78 fails: the boundary wind depends on the rotation rate, the returned row does not. -/
theorem C78_refuted : ¬ C78_Statement := by
  intro hS
  have key : ∀ om : ℝ, 0 < om → ((sample 1).area (sample 1).vort 2).ckref 2 / (2 * π) = om * cos ((sample 1).dp) := by
    intro om hom
    have := hS _ (sample_geometry om) (sample_physical hom) (sample_inv om) 2 le_rfl (by show (2 : ℤ) ≤ 3 - 1; decide)
    rw [(C78_boundary_row_partial (sample_geometry om)).1 2 (by show (2 : ℤ) ≠ 3; decide), zero_mul] at this
    unfold bound ckref at this
    rw [if_pos ⟨le_rfl, by show (2 : ℤ) ≤ 3 - 1; decide⟩] at this
    have e : (0 : ℝ) = ((sample 1).area (sample 1).vort 2).ckref 2 / (2 * π * 1) - om * 1 * cos ((sample 1).dp * ((1 : ℤ) : ℝ)) := this
    rw [Int.cast_one, mul_one, mul_one, mul_one] at e
    linarith
  have h1 := key 1 one_pos
  have h2 := key 2 two_pos
  have hc : 0 < cos ((sample 1).dp) := by
    have := ((sample_geometry 1).trig_pos (x := 2) (by norm_num) (by show (2 : ℝ) < ((5 : ℤ) : ℝ); norm_num)).2
    have e : (sample 1).planet.lat 2 = (sample 1).dp := by
      rw [dp_eq (sample_geometry 1)]
      unfold Planet.lat
      show (2 - 1) * (sample 1).dphi = _
      ring
    rwa [e] at this
  linarith

end Falwa.NhnIn

namespace Falwa.Nhn22

open Real Finset Spec NhnIn

/-- C57: the mean of the southern reference temperature is the southern profile. Rows are counted from the equator. -/
def C57_Statement : Prop :=
  ∀ F : Nhn22, F.north.Geometry → ∀ k,
    F.south.planet.rowMean (F.south.jb + 1) F.south.nd (fun jj => F.south.tref (jj - F.south.jb) k) = F.ts0 k

theorem south_geometry {F : Nhn22} (h : F.north.Geometry) : F.south.Geometry :=
  ⟨h.imax1, h.jb0, h.jd3, h.kmax3, h.odd, h.dphiEq⟩

/-- C57, what holds: the mean is the northern profile, for every field and level. -/
theorem C57_north_profile_partial {F : Nhn22} (h : F.north.Geometry) (k : ℤ) :
    F.south.planet.rowMean (F.south.jb + 1) F.south.nd (fun jj => F.south.tref (jj - F.south.jb) k) = F.north.tb k :=
  C52_mean_nhn22 (south_geometry h) k

/-- C57 fails for every field whose two profiles differ on some level. -/
theorem C57_always_violated {F : Nhn22} (h : F.north.Geometry) {k : ℤ} (hk : F.north.tb k ≠ F.ts0 k) :
    F.south.planet.rowMean (F.south.jb + 1) F.south.nd (fun jj => F.south.tref (jj - F.south.jb) k) ≠ F.ts0 k := by
  rw [C57_north_profile_partial h]
  exact hk

theorem C57_refuted : ¬ C57_Statement := fun h =>
  C57_always_violated (F := ⟨NhnIn.sample 1, fun k => (k : ℝ) + 1, fun _ => 1⟩) (sample_geometry 1) (k := 1)
    (by show ((1 : ℤ) : ℝ) ≠ ((1 : ℤ) : ℝ) + 1; norm_num) (h _ (sample_geometry 1) 1)

example : ∃ F : Nhn22, F.north.Geometry ∧ F.north.tb 1 ≠ F.ts0 1 :=
  ⟨⟨NhnIn.sample 1, fun k => (k : ℝ) + 1, fun _ => 1⟩, sample_geometry 1, by
    show ((1 : ℤ) : ℝ) ≠ ((1 : ℤ) : ℝ) + 1; norm_num⟩

end Falwa.Nhn22
