import Verif.Model.Pipeline
import Verif.Lemmas.Fortran
import Mathlib.Algebra.BigOperators.Field

/-! # Adding a constant to the potential temperature, routine by routine -/

noncomputable section

namespace Falwa

open Real Finset

/-- Zonal mean of a field plus a constant. -/
theorem dosum_mean_add {n : ℤ} (hn : 1 ≤ n) (f : ℤ → ℝ) (c : ℝ) :
    dosum 1 n (fun i => (f i + c) / (n : ℝ)) = dosum 1 n (fun i => f i / (n : ℝ)) + c := by
  have hN : (n : ℝ) ≠ 0 := by exact_mod_cast (by omega : n ≠ 0)
  have hcard : ((Icc 1 n).card : ℝ) = (n : ℝ) := by
    have : ((Icc 1 n).card : ℤ) = n := by rw [Int.card_Icc]; omega
    exact_mod_cast this
  rw [dosum_eq, dosum_eq]
  simp only [add_div]
  rw [sum_add_distrib, sum_const, nsmul_eq_mul, hcard, mul_div_cancel₀ _ hN]

/-! ### QGPV -/

namespace QgpvIn

variable (I : QgpvIn)

/-- The same input with `c` added to the potential temperature. -/
def warmer (c : ℝ) : QgpvIn := { I with theta := fun i j k => I.theta i j k + c }

theorem warmer_avort (c : ℝ) : (I.warmer c).avort = I.avort := rfl

theorem warmer_alt (c : ℝ) (t0 stat : ℤ → ℝ) : (I.warmer c).alt (fun k => t0 k + c) stat = I.alt t0 stat := by
  funext i j k
  show exp (-I.height k / I.h) * (I.theta i j k + c - (t0 k + c)) / stat k = _
  rw [add_sub_add_right_eq_sub]
  rfl

theorem warmer_stretch (c : ℝ) (t0 stat : ℤ → ℝ) : (I.warmer c).stretch (fun k => t0 k + c) stat = I.stretch t0 stat := by
  funext x i j k
  unfold stretch
  rw [I.warmer_alt c]
  rfl

theorem warmer_pv18 (c : ℝ) (t0 stat : ℤ → ℝ) : (I.warmer c).pv18 (fun k => t0 k + c) stat = I.pv18 t0 stat := by
  funext i j k
  unfold pv18
  rw [I.warmer_stretch c]
  rfl

theorem warmer_pv22 (c : ℝ) (jd : ℤ) (ts0 tn0 stats statn : ℤ → ℝ) :
    (I.warmer c).pv22 jd (fun k => ts0 k + c) (fun k => tn0 k + c) stats statn = I.pv22 jd ts0 tn0 stats statn := by
  funext i j k
  unfold pv22
  rw [I.warmer_stretch c, I.warmer_stretch c]
  rfl

end QgpvIn

/-! ### Iterative reference state -/

namespace RefIn

variable (I : RefIn) (c : ℝ)

/-- The same input with `c` added to the potential temperature. -/
def warmer : RefIn := { I with pt := fun i j k => I.pt i j k + c }

theorem warmer_qref : (I.warmer c).qref = I.qref := rfl

variable {I} (hn : 1 ≤ I.nlon)
include hn

theorem warmer_tbar : (I.warmer c).tbar = fun j k => I.tbar j k + c := by
  funext j k
  exact dosum_mean_add hn (fun i => I.pt i (j + (I.jd - 1)) k) c

theorem warmer_uz : (I.warmer c).uz = I.uz := by
  funext j
  unfold uz
  rw [warmer_tbar c hn]
  beta_reduce
  show _ * ((I.tbar (j + 1) (I.kmax - 1) + c) - (I.tbar (j - 1) (I.kmax - 1) + c)) / _ = _
  rw [add_sub_add_right_eq_sub]
  rfl

theorem warmer_rowStep : (I.warmer c).rowStep = I.rowStep := by
  funext nnn omega j s
  unfold rowStep
  rw [warmer_uz c hn]
  rfl

theorem warmer_sweep : (I.warmer c).sweep = I.sweep := by
  funext nnn omega u
  unfold sweep
  rw [warmer_rowStep c hn]
  rfl

theorem warmer_sorLoop (fuel : ℕ) : ∀ nnn omega u, (I.warmer c).sorLoop fuel nnn omega u = I.sorLoop fuel nnn omega u := by
  induction fuel with
  | zero => intro nnn omega u; rfl
  | succ n ih =>
    intro nnn omega u
    have e : (I.warmer c).sweep nnn omega u = I.sweep nnn omega u := by rw [warmer_sweep c hn]
    show (if 1 < nnn ∧ ((I.warmer c).sweep nnn omega u).anorm < I.eps * I.anormf then _ else
      (I.warmer c).sorLoop n (nnn + 1) (I.omegaNext nnn omega) ((I.warmer c).sweep nnn omega u).u) = _
    rw [ih, e]
    rfl

theorem warmer_sor : (I.warmer c).sor = I.sor := warmer_sorLoop c hn _ _ _ _

theorem warmer_uref : (I.warmer c).uref = I.uref := by
  funext j k
  unfold uref
  rw [warmer_sor c hn]
  rfl

theorem warmer_numOfIter : (I.warmer c).numOfIter = I.numOfIter := by
  unfold numOfIter
  rw [warmer_sor c hn]

theorem warmer_trefRaw : (I.warmer c).trefRaw = I.trefRaw := by
  funext k
  unfold trefRaw ty
  rw [warmer_uref c hn]
  rfl

theorem warmer_tg : (I.warmer c).tg = I.tg := by
  funext k
  unfold tg
  rw [warmer_trefRaw c hn]
  rfl

theorem warmer_tb (hc : dosum I.jd I.nlat (fun j => cos (I.phiN j)) ≠ 0) : (I.warmer c).tb = fun k => I.tb k + c := by
  funext k
  unfold tb
  rw [warmer_tbar c hn]
  show dosum I.jd I.nlat (fun j => cos (I.phiN j) * (I.tbar (j - (I.jd - 1)) k + c)) /
    dosum I.jd I.nlat (fun j => cos (I.phiN j)) = _
  have e : dosum I.jd I.nlat (fun j => cos (I.phiN j) * (I.tbar (j - (I.jd - 1)) k + c)) =
      dosum I.jd I.nlat (fun j => cos (I.phiN j) * I.tbar (j - (I.jd - 1)) k) +
        dosum I.jd I.nlat (fun j => cos (I.phiN j)) * c := by
    simp only [dosum_eq, mul_add]
    rw [sum_add_distrib, sum_mul]
  rw [e, add_div, mul_comm (dosum _ _ _) c, mul_div_cancel_right₀ _ hc]

theorem warmer_tref (hc : dosum I.jd I.nlat (fun j => cos (I.phiN j)) ≠ 0) :
    (I.warmer c).tref = fun j k => I.tref j k + c := by
  funext j k
  have hb := warmer_tb c hn hc
  have hm : ∀ j k, (I.warmer c).trefMid j k = I.trefMid j k + c := by
    intro j k
    unfold trefMid
    rw [hb, warmer_tg c hn, warmer_trefRaw c hn]
    ring
  show (if k = I.kmax then (I.warmer c).trefMid j (I.kmax - 1) - (I.warmer c).tb (I.kmax - 1) + (I.warmer c).tb I.kmax
    else if k = 1 then (I.warmer c).trefMid j 2 - (I.warmer c).tb 2 + (I.warmer c).tb 1 else (I.warmer c).trefMid j k) = _
  rw [hb, hm, hm, hm]
  unfold tref
  split_ifs <;> ring

end RefIn

/-! ### Direct reference state -/

namespace NhnIn

variable (I : NhnIn) (c : ℝ)

/-- The same input with `c` added to the potential temperature and its mean profile. -/
def warmer : NhnIn := { I with pt := fun i j k => I.pt i j k + c, tb := fun k => I.tb k + c }

theorem warmer_qrefOut : (I.warmer c).qrefOut = I.qrefOut := rfl

variable {I} (hn : 1 ≤ I.imax)
include hn

theorem warmer_topT : (I.warmer c).topT = I.topT := by
  funext i
  have hb : (I.warmer c).tbar = fun j k => I.tbar j k + c := by
    funext j k
    exact dosum_mean_add hn (fun i => I.pt i (j + (I.nd - 1)) k) c
  unfold topT
  rw [hb]
  show _ * ((I.tbar (i + 1 + 1) I.kmax + c) - (I.tbar (i + 1 - 1) I.kmax + c)) / _ = _
  rw [add_sub_add_right_eq_sub]
  rfl

theorem warmer_final : (I.warmer c).final = I.final := by
  have h : (I.warmer c).topState = I.topState := by
    unfold topState
    rw [warmer_topT c hn]
    rfl
  unfold final downTo
  rw [h]
  rfl

theorem warmer_uref : (I.warmer c).uref = I.uref := by
  have h : (I.warmer c).pjk = I.pjk := by
    unfold pjk
    rw [warmer_final c hn]
    rfl
  funext j k
  unfold uref uDiv uRaw
  rw [h]
  rfl

theorem warmer_trefRaw : (I.warmer c).trefRaw = I.trefRaw := by
  funext k
  unfold trefRaw ty
  rw [warmer_uref c hn]
  rfl

theorem warmer_tref : (I.warmer c).tref = fun j k => I.tref j k + c := by
  funext j k
  have hg : (I.warmer c).tg = I.tg := by
    funext k
    unfold tg
    rw [warmer_trefRaw c hn]
    rfl
  have hm : ∀ j k, (I.warmer c).trefMid j k = I.trefMid j k + c := by
    intro j k
    unfold trefMid
    rw [hg, warmer_trefRaw c hn]
    show _ + (I.tb k + c - _) = _
    ring
  show (if k = I.kmax then (I.warmer c).trefMid j (I.kmax - 1) - (I.tb (I.kmax - 1) + c) + (I.tb I.kmax + c)
    else if k = 1 then (I.warmer c).trefMid j 2 - (I.tb 2 + c) + (I.tb 1 + c) else (I.warmer c).trefMid j k) = _
  rw [hm, hm, hm]
  unfold tref
  split_ifs <;> ring

end NhnIn

/-! ### Fluxes -/

namespace FluxIn

variable (I : FluxIn)

/-- The same input with `c` added to the potential temperature and its mean profile, and another reference temperature. -/
def warmer (c : ℝ) (tref : ℤ → ℤ → ℝ) : FluxIn :=
  { I with pt := fun i j k => I.pt i j k + c, tn0 := fun k => I.tn0 k + c, tref := tref }

variable {I}

/-- If the other reference temperature is `c` higher on the rows that the routine has, no result changes. -/
theorem warmer_fluxDirinv {c : ℝ} {tref : ℤ → ℤ → ℝ} (hjb : I.jd = I.nd - I.jb)
    (ht : ∀ j k, 1 ≤ j → j ≤ I.jd → tref j k = I.tref j k + c) : (I.warmer c tref).fluxDirinv = I.fluxDirinv := by
  have hr : ∀ j k, I.jb + 1 ≤ j → j ≤ I.nd - 1 → rd2 I.jd tref (j - I.jb) k = rd2 I.jd I.tref (j - I.jb) k + c := by
    intro j k h1 h2
    rw [rd2_of_mem (by omega) (by omega), rd2_of_mem (by omega) (by omega), ht _ _ (by omega) (by omega)]
  have h1 : ∀ i j k, I.jb + 1 ≤ j → j ≤ I.nd - 1 → (I.warmer c tref).ep1Val i j k = I.ep1Val i j k := by
    intro i j k a b
    unfold ep1Val
    show (-0.5 * (rd3 I.jmax I.uu i (j + I.nd - 1) k - rd2 I.jd I.uref (j - I.jb) k) ^ 2 +
        0.5 * rd3 I.jmax I.vv i (j + I.nd - 1) k ^ 2 -
      0.5 * (rd3 I.jmax I.pt i (j + I.nd - 1) k + c - rd2 I.jd tref (j - I.jb) k) ^ 2 * (I.rr / I.h) *
        exp (-(I.rr / I.cp) * (I.dz * ((k - 1 : ℤ) : ℝ)) / I.h) * 2 * I.dz / (I.tn0 (k + 1) + c - (I.tn0 (k - 1) + c))) *
        cos (I.phi j) = _
    rw [hr j k a b, add_sub_add_right_eq_sub, add_sub_add_right_eq_sub]
  have h4 : ∀ i j, I.jb + 1 ≤ j → j ≤ I.nd - 1 → (I.warmer c tref).ep4Val i j = I.ep4Val i j := by
    intro i j a b
    unfold ep4Val
    show 2 * I.om * sin (I.phi j) * cos (I.phi j) * I.dz / I.prefac *
      (exp (-I.dz / I.h) * rd3 I.jmax I.vv i (j + I.nd - 1) 2 *
        (rd3 I.jmax I.pt i (j + I.nd - 1) 2 + c - rd2 I.jd tref (j - I.jb) 2) / (I.tn0 3 + c - (I.tn0 1 + c)) +
      0.5 * (rd3 I.jmax I.vv i (j + I.nd - 1) 1 * (rd3 I.jmax I.pt i (j + I.nd - 1) 1 + c - rd2 I.jd tref (j - I.jb) 1)) /
        (I.tn0 2 + c - (I.tn0 1 + c))) = _
    rw [hr j 2 a b, hr j 1 a b]
    simp only [add_sub_add_right_eq_sub]
  unfold fluxDirinv
  refine doLoop_congr _ fun k s _ _ => ?_
  refine doLoop_congr _ fun i s _ _ => ?_
  show I.tailStep k i _ = I.tailStep k i _
  congr 1
  refine doLoop_congr _ fun j s a b => ?_
  unfold cellStep
  rw [h1 i j k a b, h4 i j a b]
  rfl

end FluxIn

namespace QGAnalysis

variable (S : QGAnalysis)

/-- The same analysis with `c` added to the potential temperature and the mean profiles, and another reference temperature. -/
def warmer (c : ℝ) (ptref : ℤ → ℤ → ℝ) : QGAnalysis :=
  { S with theta := fun i j k => S.theta i j k + c, tn0 := fun k => S.tn0 k + c, ts0 := fun k => S.ts0 k + c, ptref := ptref }

variable {S}

/-- Rows of the reference temperature that the flux computation reads. -/
def Shifted (S : QGAnalysis) (c : ℝ) (ptref : ℤ → ℤ → ℝ) : Prop :=
  (∀ g k, S.rows - S.jd + 1 ≤ g → g ≤ S.rows → ptref g k = S.ptref g k + c) ∧
  (S.nhOnly = false → ∀ g k, 1 ≤ g → g ≤ S.jd → ptref g k = S.ptref g k + c)

theorem warmer_north {c : ℝ} {ptref : ℤ → ℤ → ℝ} (hjd : S.jd = S.nd - S.jb) (h : S.Shifted c ptref) :
    (S.warmer c ptref).northIn.fluxDirinv = S.northIn.fluxDirinv := by
  have e : (S.warmer c ptref).northIn = S.northIn.warmer c (fun j k => ptref (S.rows - S.jd + j) k) := rfl
  rw [e]
  refine FluxIn.warmer_fluxDirinv hjd fun j k h1 h2 => ?_
  have h2' : j ≤ S.jd := h2
  exact h.1 _ _ (by omega) (by omega)

theorem warmer_south {c : ℝ} {ptref : ℤ → ℤ → ℝ} (hjd : S.jd = S.nd - S.jb) (h : S.Shifted c ptref) (hm : S.nhOnly = false) :
    (S.warmer c ptref).southIn.fluxDirinv = S.southIn.fluxDirinv := by
  have e : (S.warmer c ptref).southIn = S.southIn.warmer c (fun j k => ptref (S.jd + 1 - j) k) := rfl
  rw [e]
  refine FluxIn.warmer_fluxDirinv hjd fun j k h1 h2 => ?_
  have h2' : j ≤ S.jd := h2
  exact h.2 hm _ _ (by omega) (by omega)

/-- A stored array made from the results of both calls does not change. -/
theorem warmer_store {c : ℝ} {ptref : ℤ → ℤ → ℝ} (hjd : S.jd = S.nd - S.jb) (h : S.Shifted c ptref)
    (x y : FluxOut → ℤ → ℝ) (g : ℤ) :
    (S.warmer c ptref).store (x (S.warmer c ptref).northIn.fluxDirinv) (y (S.warmer c ptref).southIn.fluxDirinv) g =
      S.store (x S.northIn.fluxDirinv) (y S.southIn.fluxDirinv) g := by
  rw [warmer_north hjd h]
  by_cases hm : S.nhOnly = false
  · rw [warmer_south hjd h hm]; rfl
  · have hq : ¬(S.nhOnly = false ∧ g ≤ S.nd) := fun q => hm q.1
    have hq' : ¬((S.warmer c ptref).nhOnly = false ∧ g ≤ (S.warmer c ptref).nd) := hq
    unfold store
    rw [if_neg hq, if_neg hq']
    rfl

end QGAnalysis

end Falwa
