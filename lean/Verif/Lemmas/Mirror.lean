import Verif.Model.Pipeline
import Verif.Lemmas.QgFlux

/-! The mirror image about the equator. -/

set_option linter.unusedSectionVars false
set_option linter.unusedSimpArgs false

noncomputable section

namespace Falwa

open Real Finset

/-! ### Vorticity and QGPV -/

namespace QgpvIn

variable (I : QgpvIn)

/-- The mirror image: `u` and `theta` mirrored, `v` mirrored and negated. -/
def mirror : QgpvIn :=
  { I with
    u := fun i j k => I.u i (I.nlat + 1 - j) k
    v := fun i j k => -I.v i (I.nlat + 1 - j) k
    theta := fun i j k => I.theta i (I.nlat + 1 - j) k }

variable (h : 2 ≤ I.nlat)
include h

theorem phi_flip (j : ℤ) : I.phi (I.nlat + 1 - j) = -I.phi j := by
  unfold phi
  have hc : ((I.nlat - 1 : ℤ) : ℝ) ≠ 0 := by exact_mod_cast (by omega : I.nlat - 1 ≠ 0)
  rw [show I.nlat + 1 - j - 1 = (I.nlat - 1) - (j - 1) by ring, Int.cast_sub (I.nlat - 1) (j - 1)]
  generalize ((I.nlat - 1 : ℤ) : ℝ) = c at *
  field_simp
  ring

theorem cor_flip (j : ℤ) : I.cor (I.nlat + 1 - j) = -I.cor j := by
  unfold cor; rw [I.phi_flip h, sin_neg]; ring

theorem cos_flip (j : ℤ) : cos (I.phi (I.nlat + 1 - j)) = cos (I.phi j) := by
  rw [I.phi_flip h, cos_neg]

theorem mirror_dv (i j k : ℤ) : I.mirror.dv i j k = -I.dv i (I.nlat + 1 - j) k := by
  unfold dv
  show (if i = I.nlon then -I.v 1 (I.nlat + 1 - j) k - -I.v (I.nlon - 1) (I.nlat + 1 - j) k
    else if i = 1 then -I.v 2 (I.nlat + 1 - j) k - -I.v I.nlon (I.nlat + 1 - j) k
    else -I.v (i + 1) (I.nlat + 1 - j) k - -I.v (i - 1) (I.nlat + 1 - j) k) = _
  split_ifs <;> ring

theorem mirror_inner (i j k : ℤ) : I.mirror.inner i j k = -I.inner i (I.nlat + 1 - j) k := by
  unfold inner
  rw [I.mirror_dv h, I.cor_flip h, I.cos_flip h, show I.nlat + 1 - j + 1 = I.nlat + 1 - (j - 1) by ring,
    show I.nlat + 1 - j - 1 = I.nlat + 1 - (j + 1) by ring, I.cos_flip h, I.cos_flip h]
  show I.cor j + -I.dv i (I.nlat + 1 - j) k / (2 * I.a * cos (I.phi j) * I.dphi) +
    -(I.u i (I.nlat + 1 - (j + 1)) k * cos (I.phi (j + 1)) - I.u i (I.nlat + 1 - (j - 1)) k * cos (I.phi (j - 1))) /
      (2 * I.a * cos (I.phi j) * I.dphi) = _
  ring

theorem zmean_neg (X Y : ℤ → ℤ → ℤ → ℝ) (j j' k : ℤ) (e : ∀ i, X i j k = -Y i j' k) :
    I.zmean X j k = -I.zmean Y j' k := by
  unfold zmean
  rw [dosum_eq, dosum_eq, ← sum_neg_distrib]
  exact sum_congr rfl fun i _ => by rw [e, neg_div]

theorem mirror_avort (i j k : ℤ) : I.mirror.avort i j k = -I.avort i (I.nlat + 1 - j) k := by
  have z : ∀ j, I.mirror.zmean I.mirror.inner j k = -I.zmean I.inner (I.nlat + 1 - j) k :=
    fun j => I.zmean_neg h _ _ _ _ _ fun i => I.mirror_inner h i j k
  unfold avort
  rw [z, z, I.mirror_inner h]
  show (if j = I.nlat then -I.zmean I.inner (I.nlat + 1 - (I.nlat - 1)) k
    else if j = 1 then -I.zmean I.inner (I.nlat + 1 - 2) k else _) = _
  by_cases h1 : j = I.nlat
  · subst h1
    rw [if_pos rfl, if_neg (by omega), if_pos (by ring), show I.nlat + 1 - (I.nlat - 1) = 2 by ring]
  rw [if_neg h1]
  by_cases h2 : j = 1
  · subst h2
    rw [if_pos rfl, if_pos (by ring), show I.nlat + 1 - 2 = I.nlat - 1 by ring]
  · rw [if_neg h2, if_neg (by omega), if_neg (by omega)]

theorem mirror_pv18 (t0 stat : ℤ → ℝ) (i j k : ℤ) :
    I.mirror.pv18 t0 stat i j k = -I.pv18 t0 stat i (I.nlat + 1 - j) k := by
  unfold pv18
  rw [I.mirror_avort h, show I.mirror.zmean I.mirror.avort j k = -I.zmean I.avort (I.nlat + 1 - j) k from
    I.zmean_neg h _ _ _ _ _ fun i => I.mirror_avort h i j k]
  show (if 2 ≤ k ∧ k ≤ I.kmax - 1 then -I.avort i (I.nlat + 1 - j) k +
    exp (I.height k / I.h) * ((I.alt t0 stat i (I.nlat + 1 - j) (k + 1) - I.alt t0 stat i (I.nlat + 1 - j) (k - 1)) *
      -I.zmean I.avort (I.nlat + 1 - j) k / (I.height (k + 1) - I.height (k - 1))) else 0) = _
  split_ifs
  · unfold stretch; ring
  · ring

theorem mirror_pv22 (jd : ℤ) (hjd : I.nlat = 2 * jd - 1) (ts0 tn0 stats statn : ℤ → ℝ) (i j k : ℤ) :
    I.mirror.pv22 jd tn0 ts0 statn stats i j k = -I.pv22 jd ts0 tn0 stats statn i (I.nlat + 1 - j) k := by
  have e : ∀ (t0 stat : ℤ → ℝ), I.mirror.stretch t0 stat (I.mirror.cor j) i j k =
      -I.stretch t0 stat (I.cor (I.nlat + 1 - j)) i (I.nlat + 1 - j) k := by
    intro t0 stat
    rw [I.cor_flip h]
    show exp (I.height k / I.h) *
      ((I.alt t0 stat i (I.nlat + 1 - j) (k + 1) - I.alt t0 stat i (I.nlat + 1 - j) (k - 1)) *
        I.cor j / (I.height (k + 1) - I.height (k - 1))) = _
    unfold stretch; ring
  unfold pv22
  rw [I.mirror_avort h, e, e]
  show (if 2 ≤ k ∧ k ≤ I.kmax - 1 then _ else (0 : ℝ)) = _
  by_cases hk : 2 ≤ k ∧ k ≤ I.kmax - 1
  · rw [if_pos hk, if_pos hk]
    rcases lt_trichotomy j jd with hj | hj | hj
    · rw [if_pos (by omega), if_neg (by omega)]; ring
    · have h0 : I.cor (I.nlat + 1 - j) = 0 := by
        have := I.cor_flip h j
        rw [show I.nlat + 1 - j = j by omega] at this ⊢
        linarith
      have z : ∀ t0 stat : ℤ → ℝ, I.stretch t0 stat (I.cor (I.nlat + 1 - j)) i (I.nlat + 1 - j) k = 0 := by
        intro t0 stat; unfold stretch; rw [h0]; ring
      rw [if_pos (by omega), if_pos (by omega), z, z]; ring
    · rw [if_neg (by omega), if_pos (by omega)]; ring
  · rw [if_neg hk, if_neg hk, neg_zero]

end QgpvIn

/-! ### The flux routine with other reference states and forcing -/

namespace FluxIn

variable (I : FluxIn) (q u t : ℤ → ℤ → ℝ) (nc : ℤ → ℤ → ℤ → ℝ)

/-- The same call with other reference states and another forcing. -/
def withRefs : FluxIn := { I with qref := q, uref := u, tref := t, ncforce := nc }

variable (hI : I.Shaped) (hq : ∀ j k, 1 ≤ j → j ≤ I.nd → q j k = I.qref j k)
include hI hq

theorem withRefs_qe {j : ℤ} (h1 : 1 ≤ j) (h2 : j ≤ I.nd) (i k jj : ℤ) :
    (I.withRefs q u t nc).qe i j k jj = I.qe i j k jj := by
  unfold qe
  show rd3 I.jmax I.pv i (jj + I.nd - 1) k - rd2 I.nd q j k = _
  rw [rd2_of_mem h1 h2, rd2_of_mem h1 h2, hq j k h1 h2]

theorem withRefs_acc12 {j : ℤ} (h1 : 1 ≤ j) (h2 : j ≤ I.nd) (i k : ℤ) :
    ((I.withRefs q u t nc).acc i j k).astar1 = (I.acc i j k).astar1 ∧
    ((I.withRefs q u t nc).acc i j k).astar2 = (I.acc i j k).astar2 := by
  rw [acc_astar1, acc_astar1, acc_astar2, acc_astar2]
  simp only [I.withRefs_qe q u t nc hI hq h1 h2]
  exact ⟨rfl, rfl⟩

theorem withRefs_astar (i j k : ℤ) :
    (I.withRefs q u t nc).fluxDirinv.astar1 i j k = I.fluxDirinv.astar1 i j k ∧
    (I.withRefs q u t nc).fluxDirinv.astar2 i j k = I.fluxDirinv.astar2 i j k := by
  have hb := hI.jb0
  rw [(I.withRefs q u t nc).astar1_eq hb, I.astar1_eq hb, (I.withRefs q u t nc).astar2_eq hb, I.astar2_eq hb]
  by_cases hc : Iter I i j k
  · have e := I.withRefs_acc12 q u t nc hI hq (j := j) (by have := hc.2.2.1; omega) (by have := hc.2.2.2; omega) i k
    have hc' : Iter (I.withRefs q u t nc) i j k := hc
    rw [if_pos hc, if_pos hc, if_pos hc', if_pos hc']; exact e
  · have hc' : ¬ Iter (I.withRefs q u t nc) i j k := hc
    rw [if_neg hc, if_neg hc, if_neg hc', if_neg hc']; exact ⟨rfl, rfl⟩

theorem withRefs_ncforce3d (hnc : ∀ i j k, nc i j k = -I.ncforce i j k) (i j k : ℤ) :
    (I.withRefs q u t nc).fluxDirinv.ncforce3d i j k = -I.fluxDirinv.ncforce3d i j k := by
  have hb := hI.jb0
  rw [(I.withRefs q u t nc).ncforce3d_eq hb, I.ncforce3d_eq hb]
  by_cases hc : Iter I i j k
  · have hc' : Iter (I.withRefs q u t nc) i j k := hc
    rw [if_pos hc, if_pos hc', acc_nc, acc_nc, ← sum_neg_distrib]
    refine sum_congr rfl fun jj _ => ?_
    unfold sgn
    rw [I.withRefs_qe q u t nc hI hq (by have := hc.2.2.1; omega) (by have := hc.2.2.2; omega)]
    show _ * (rd3 I.jmax nc i (jj + I.nd - 1) k * (I.a * I.dp * cos (I.phi jj))) = _
    have : rd3 I.jmax nc i (jj + I.nd - 1) k = -rd3 I.jmax I.ncforce i (jj + I.nd - 1) k := hnc _ _ _
    rw [this]; ring
  · have hc' : ¬ Iter (I.withRefs q u t nc) i j k := hc
    rw [if_neg hc, if_neg hc', neg_zero]

variable (hu : ∀ j k, 1 ≤ j → j ≤ I.jd → u j k = I.uref j k)
include hu

theorem withRefs_rdu (hj : 1 ≤ I.jd) {j k : ℤ} : rd2 I.jd u j k = rd2 I.jd I.uref j k := by
  have h1 := Int.emod_nonneg (j - 1) (by omega : I.jd ≠ 0)
  have h2 := Int.emod_lt_of_pos (j - 1) (by omega : 0 < I.jd)
  unfold rd2
  rw [hu _ _ (by unfold wrapJ; omega) (by unfold wrapJ; omega)]

theorem withRefs_ua (i j k : ℤ) :
    (I.withRefs q u t nc).fluxDirinv.ua1 i j k = I.fluxDirinv.ua1 i j k ∧
    (I.withRefs q u t nc).fluxDirinv.ua2 i j k = I.fluxDirinv.ua2 i j k := by
  have hb := hI.jb0
  have hjd := hI.jdEq
  rw [(I.withRefs q u t nc).ua1_eq hb, I.ua1_eq hb, (I.withRefs q u t nc).ua2_eq hb, I.ua2_eq hb]
  by_cases hc : Iter I i j k
  · have hc' : Iter (I.withRefs q u t nc) i j k := hc
    have h1 := hc.2.2.1
    have h2 := hc.2.2.2
    have e := I.withRefs_acc12 q u t nc hI hq (j := j) (by omega) (by omega) i k
    have er : rd2 I.jd u (j - I.jb) k = rd2 I.jd I.uref (j - I.jb) k :=
      I.withRefs_rdu q u hI hq hu (by omega)
    rw [if_pos hc, if_pos hc, if_pos hc', if_pos hc', e.1, e.2, acc_ua2, acc_ua2]
    constructor
    · show rd2 I.jd u (j - I.jb) k * _ = _
      rw [er]
    · refine sum_congr rfl fun jj _ => ?_
      unfold sgn
      rw [I.withRefs_qe q u t nc hI hq (by omega) (by omega)]
      have : (I.withRefs q u t nc).ue i j k jj = I.ue i j k jj := by
        show rd3 I.jmax I.uu i (jj + I.nd - 1) k * cos (I.phi j) - rd2 I.jd u (j - I.jb) k * cos (I.phi jj) = _
        rw [er]; rfl
      rw [this]; rfl
  · have hc' : ¬ Iter (I.withRefs q u t nc) i j k := hc
    rw [if_neg hc, if_neg hc, if_neg hc', if_neg hc']; exact ⟨rfl, rfl⟩

theorem withRefs_ep23 (h1 : 1 ≤ I.jd) (i j k : ℤ) :
    (I.withRefs q u t nc).fluxDirinv.ep2 i j k = I.fluxDirinv.ep2 i j k ∧
    (I.withRefs q u t nc).fluxDirinv.ep3 i j k = I.fluxDirinv.ep3 i j k := by
  have hb := hI.jb0
  have hjd := hI.jdEq
  have hn := hI.nd2
  have hn1 : 1 ≤ I.nd := by omega
  by_cases hr : I.jb + 1 ≤ j ∧ j ≤ I.nd - 1
  · rw [(I.withRefs q u t nc).ep2_eq hb hn1 hr.1 hr.2, I.ep2_eq hb hn1 hr.1 hr.2,
      (I.withRefs q u t nc).ep3_eq hb hn1 hr.1 hr.2, I.ep3_eq hb hn1 hr.1 hr.2]
    by_cases hc : Iter I i j k
    · have hc' : Iter (I.withRefs q u t nc) i j k := hc
      rw [if_pos hc, if_pos hc, if_pos hc', if_pos hc']
      constructor
      · have er : rd2 I.jd u (j - I.jb + 1) k = rd2 I.jd I.uref (j - I.jb + 1) k :=
          I.withRefs_rdu q u hI hq hu (by omega)
        show (rd3 I.jmax I.uu i (j + I.nd) k - rd2 I.jd u (j - I.jb + 1) k) * _ * _ * _ = _
        rw [er]; rfl
      · have er : rd2 I.jd u (j - I.jb - 1) k = rd2 I.jd I.uref (j - I.jb - 1) k :=
          I.withRefs_rdu q u hI hq hu (by omega)
        show (rd3 I.jmax I.uu i (j + I.nd - 2) k - rd2 I.jd u (j - I.jb - 1) k) * _ * _ * _ = _
        rw [er]; rfl
    · have hc' : ¬ Iter (I.withRefs q u t nc) i j k := hc
      rw [if_neg hc, if_neg hc, if_neg hc', if_neg hc']; exact ⟨rfl, rfl⟩
  by_cases hw : j = wrapJ I.nd I.jb
  · obtain ⟨k₁, hk₁⟩ : ∃ k₁, ∀ k', (j = wrapJ I.nd I.jb ∧ k = wrapK I.nd I.jb k') ↔ k' = k₁ := by
      unfold wrapK
      refine ⟨k - (I.jb - 1) / I.nd, fun k' => ⟨fun h => by omega, fun h => ⟨hw, by omega⟩⟩⟩
    have e1 := (I.withRefs q u t nc).ep23_other (i := i) hb hn1 hr hk₁
    have e2 := I.ep23_other (i := i) hb hn1 hr hk₁
    rw [e1.1, e1.2, e2.1, e2.2]
    have er2 : rd2 I.jd u 2 k₁ = rd2 I.jd I.uref 2 k₁ := I.withRefs_rdu q u hI hq hu (by omega)
    have er1 : rd2 I.jd u 1 k₁ = rd2 I.jd I.uref 1 k₁ := I.withRefs_rdu q u hI hq hu (by omega)
    have t2 : (I.withRefs q u t nc).ep2Tail i k₁ = I.ep2Tail i k₁ := by
      show (rd3 I.jmax I.uu i (I.nd + I.jb + 1) k₁ - rd2 I.jd u 2 k₁) * _ * _ * _ = _
      rw [er2]; rfl
    have t3 : (I.withRefs q u t nc).ep3Tail i k₁ = I.ep3Tail i k₁ := by
      show (rd3 I.jmax I.uu i (I.nd + I.jb) k₁ - rd2 I.jd u 1 k₁) * _ * _ * _ = _
      rw [er1]; rfl
    rw [t2, t3]; exact ⟨rfl, rfl⟩
  · have e1 := (I.withRefs q u t nc).ep23_zero (i := i) (k := k) hb hn1 hr hw
    have e2 := I.ep23_zero (i := i) (k := k) hb hn1 hr hw
    rw [e1.1, e1.2, e2.1, e2.2]; exact ⟨rfl, rfl⟩

variable (m : ℤ) (hm : 1 ≤ m) (ht : ∀ j k, m ≤ j → j ≤ I.jd → t j k = I.tref j k)
include hm ht

theorem withRefs_ep14 (i j k : ℤ) (hj : I.jb + m ≤ j) :
    (I.withRefs q u t nc).fluxDirinv.ep1 i j k = I.fluxDirinv.ep1 i j k ∧
    (I.withRefs q u t nc).fluxDirinv.ep4 i j = I.fluxDirinv.ep4 i j := by
  have hb := hI.jb0
  have hjd := hI.jdEq
  rw [(I.withRefs q u t nc).ep1_eq hb, I.ep1_eq hb, (I.withRefs q u t nc).ep4_eq hb, I.ep4_eq hb]
  have key : ∀ k, j ≤ I.nd - 1 → rd2 I.jd t (j - I.jb) k = rd2 I.jd I.tref (j - I.jb) k := fun k h => by
    rw [rd2_of_mem (by omega) (by omega), rd2_of_mem (by omega) (by omega), ht _ k (by omega) (by omega)]
  constructor
  · by_cases hc : Iter I i j k
    · have hc' : Iter (I.withRefs q u t nc) i j k := hc
      rw [if_pos hc, if_pos hc']
      have e1 : rd2 I.jd u (j - I.jb) k = rd2 I.jd I.uref (j - I.jb) k :=
        I.withRefs_rdu q u hI hq hu (by have := hc.2.2.2; omega)
      have e2 := key k hc.2.2.2
      unfold ep1Val
      show (-0.5 * (rd3 I.jmax I.uu i (j + I.nd - 1) k - rd2 I.jd u (j - I.jb) k) ^ 2 + _ -
        0.5 * (rd3 I.jmax I.pt i (j + I.nd - 1) k - rd2 I.jd t (j - I.jb) k) ^ 2 * _ * _ * _ * _ / _) * _ = _
      rw [e1, e2]; rfl
    · have hc' : ¬ Iter (I.withRefs q u t nc) i j k := hc
      rw [if_neg hc, if_neg hc']
  · by_cases hc : Iter I i j 2
    · have hc' : Iter (I.withRefs q u t nc) i j 2 := hc
      rw [if_pos hc, if_pos hc']
      have e1 := key 1 hc.2.2.2
      have e2 := key 2 hc.2.2.2
      unfold ep4Val
      show _ * (_ * (rd3 I.jmax I.pt i (j + I.nd - 1) 2 - rd2 I.jd t (j - I.jb) 2) / _ +
        0.5 * (_ * (rd3 I.jmax I.pt i (j + I.nd - 1) 1 - rd2 I.jd t (j - I.jb) 1)) / _) = _
      rw [e1, e2]; rfl
    · have hc' : ¬ Iter (I.withRefs q u t nc) i j 2 := hc
      rw [if_neg hc, if_neg hc']

end FluxIn

end Falwa
