import Verif.Model.Pipeline
import Verif.Lemmas.Fortran
import Mathlib.Tactic.FieldSimp
import Mathlib.Tactic.Positivity
import Mathlib.Algebra.BigOperators.Ring.Finset
import Mathlib.Algebra.BigOperators.Field

/-! Change of the units of length (factor `L`) and of frequency (factor `F`) in the routines of the analysis. -/

set_option linter.unusedSectionVars false

noncomputable section

namespace Falwa

open Real Finset

section Loops

variable {σ τ : Type*}

/-- Loops whose steps correspond under `φ` have results that correspond. -/
theorem doLoop_map {lo hi : ℤ} {f : ℤ → σ → σ} {g : ℤ → τ → τ} (φ : σ → τ) (h : ∀ i t, g i (φ t) = φ (f i t)) (s : σ) :
    doLoop lo hi g (φ s) = φ (doLoop lo hi f s) := by
  unfold doLoop
  induction (List.range (hi + 1 - lo).toNat) generalizing s with
  | nil => rfl
  | cons x xs ih => simp only [List.foldl_cons, h, ih]

theorem doDown_map {lo hi : ℤ} {f : ℤ → σ → σ} {g : ℤ → τ → τ} (φ : σ → τ) (h : ∀ i t, g i (φ t) = φ (f i t)) (s : σ) :
    doDown hi lo g (φ s) = φ (doDown hi lo f s) := by
  unfold doDown
  induction (List.range (hi + 1 - lo).toNat) generalizing s with
  | nil => rfl
  | cons x xs ih => simp only [List.foldl_cons, h, ih]

theorem dosum_mul (lo hi : ℤ) (c : ℝ) (f : ℤ → ℝ) : dosum lo hi (fun i => c * f i) = c * dosum lo hi f := by
  rw [dosum_eq, dosum_eq, Finset.mul_sum]

theorem update_mul (c : ℝ) (f : ℤ → ℝ) (i : ℤ) (v : ℝ) :
    Function.update (fun n => c * f n) i (c * v) = fun n => c * Function.update f i v n := by
  funext n
  by_cases h : n = i
  · subst h; simp
  · simp [h]

end Loops

/-! ### Area analysis -/

namespace AreaIn

variable (I : AreaIn) (L F : ℝ)

/-- The same input in other units. -/
def units : AreaIn := { I with q := fun i j => F * I.q i j, a := L * I.a }

variable {L F} (hL : 0 < L) (hF : 0 < F)
include hL hF

theorem units_qmax : (I.units L F).qmax = F * I.qmax := by
  unfold qmax maxval
  show doLoop 1 I.jmax _ (F * I.q 1 1) = _
  refine doLoop_map (fun x => F * x) (fun j t => ?_) _
  refine doLoop_map (fun x => F * x) (fun i t => ?_) _
  exact (mul_max_of_nonneg _ _ hF.le).symm

theorem units_qmin : (I.units L F).qmin = F * I.qmin := by
  unfold qmin minval
  show doLoop 1 I.jmax _ (F * I.q 1 1) = _
  refine doLoop_map (fun x => F * x) (fun j t => ?_) _
  refine doLoop_map (fun x => F * x) (fun i t => ?_) _
  exact (mul_min_of_nonneg _ _ hF.le).symm

theorem units_dq : (I.units L F).dq = F * I.dq := by
  unfold dq
  rw [I.units_qmax hL hF, I.units_qmin hL hF, ← mul_sub, mul_div_assoc]; rfl

theorem units_qn (n : ℤ) : (I.units L F).qn n = F * I.qn n := by
  unfold qn
  rw [I.units_qmax hL hF, I.units_dq hL hF]; ring

theorem units_da (j : ℤ) : (I.units L F).da j = L ^ 2 * I.da j := by
  unfold da
  show L * I.a * (L * I.a) * I.dphi * I.dlambda * cos (-(0.5 * π) + I.dphi * ((j - 1 : ℤ) : ℝ)) = _
  ring

theorem units_ind (i j : ℤ) : (I.units L F).ind i j = I.ind i j := by
  unfold ind
  rw [I.units_qmax hL hF, I.units_dq hL hF]
  show 1 + fint ((F * I.qmax - F * I.q i j) / (F * I.dq)) = _
  rw [← mul_sub, mul_div_mul_left _ _ hF.ne']

theorem units_bins : (I.units L F).bins =
    { an := fun n => L ^ 2 * I.bins.an n, cn := fun n => L ^ 2 * F * I.bins.cn n } := by
  unfold bins
  have e : ({ an := fun _ => 0, cn := fun _ => 0 } : Bins) =
      (fun b : Bins => ({ an := fun n => L ^ 2 * b.an n, cn := fun n => L ^ 2 * F * b.cn n } : Bins))
        { an := fun _ => 0, cn := fun _ => 0 } := by simp
  conv_lhs => rw [e]
  refine doLoop_map (fun b : Bins => ({ an := fun n => L ^ 2 * b.an n, cn := fun n => L ^ 2 * F * b.cn n } : Bins))
    (fun j t => ?_) _
  refine doLoop_map (fun b : Bins => ({ an := fun n => L ^ 2 * b.an n, cn := fun n => L ^ 2 * F * b.cn n } : Bins))
    (fun i t => ?_) _
  unfold binStep
  simp only [I.units_ind hL hF, I.units_da hL hF, Bins.mk.injEq]
  constructor
  · rw [← update_mul, mul_add]
  · rw [← update_mul]
    congr 1
    show _ + L ^ 2 * I.da j * (F * I.q i j) = _
    ring

theorem units_cumul (c : ℝ) (b : ℤ → ℝ) : (I.units L F).cumul (fun n => c * b n) = fun n => c * I.cumul b n := by
  unfold cumul
  have e : (fun _ => 0 : ℤ → ℝ) = (fun x : ℤ → ℝ => fun n => c * x n) (fun _ => 0) := by simp
  conv_lhs => rw [e]
  refine doLoop_map (fun x : ℤ → ℝ => fun n => c * x n) (fun i t => ?_) _
  rw [← update_mul, mul_add]

theorem units_aan : (I.units L F).aan = fun n => L ^ 2 * I.aan n := by
  unfold aan
  rw [I.units_bins hL hF]
  exact I.units_cumul hL hF (L ^ 2) _

theorem units_ccn : (I.units L F).ccn = fun n => L ^ 2 * F * I.ccn n := by
  unfold ccn
  rw [I.units_bins hL hF]
  exact I.units_cumul hL hF (L ^ 2 * F) _

theorem units_alat (j : ℤ) : (I.units L F).alat j = L ^ 2 * I.alat j := by
  unfold alat
  show 2 * π * (L * I.a) * (L * I.a) * (1 - sin (I.dphi * ((j - 1 : ℤ) : ℝ))) = _
  ring

theorem units_placed (j : ℤ) :
    (I.units L F).placed j = (I.placed j).map (fun p => (F * p.1, L ^ 2 * F * p.2)) := by
  unfold placed
  have hL2 : (0 : ℝ) < L ^ 2 := by positivity
  refine doLoop_map (f := fun nn s =>
    if I.aan nn ≤ I.alat j ∧ I.alat j < I.aan (nn + 1) then
      let dd := (I.alat j - I.aan nn) / (I.aan (nn + 1) - I.aan nn)
      some (I.qn nn * (1 - dd) + I.qn (nn + 1) * dd, I.ccn nn * (1 - dd) + I.ccn (nn + 1) * dd)
    else s) (Option.map (fun p : ℝ × ℝ => (F * p.1, L ^ 2 * F * p.2))) (fun n t => ?_) none
  simp only [I.units_aan hL hF, I.units_ccn hL hF, I.units_alat hL hF, I.units_qn hL hF]
  simp only [mul_le_mul_iff_right₀ hL2, mul_lt_mul_iff_right₀ hL2, ← mul_sub, mul_div_mul_left _ _ hL2.ne']
  split_ifs
  · simp only [Option.map_some, Option.some.injEq, Prod.mk.injEq]
    constructor <;> ring
  · rfl

theorem units_qref (j : ℤ) : (I.units L F).qref j = F * I.qref j := by
  unfold qref
  rw [I.units_qmax hL hF, I.units_placed hL hF]
  show (if j = I.nd then _ else _) = _
  split_ifs
  · rfl
  · cases I.placed j <;> simp

theorem units_cref (x : ℝ) (j : ℤ) : (I.units L F).cref (L ^ 2 * F * x) j = L ^ 2 * F * I.cref x j := by
  unfold cref
  rw [I.units_placed hL hF]
  cases I.placed j <;> simp

theorem units_ckref (j : ℤ) : (I.units L F).ckref j = L ^ 2 * F * I.ckref j := by
  unfold ckref
  rw [← I.units_cref hL hF, mul_zero]

end AreaIn

/-! ### QGPV -/

namespace QgpvIn

variable (I : QgpvIn) (L F : ℝ)

/-- The same input in other units. -/
def units : QgpvIn :=
  { I with
    u := fun i j k => L * F * I.u i j k
    v := fun i j k => L * F * I.v i j k
    height := fun k => L * I.height k
    a := L * I.a
    om := F * I.om
    h := L * I.h }

variable {L F} (hL : 0 < L) (hF : 0 < F)
include hL hF

theorem units_cor (j : ℤ) : (I.units L F).cor j = F * I.cor j := by
  unfold cor
  show 2 * (F * I.om) * _ = _
  ring_nf; rfl

theorem units_dv (i j k : ℤ) : (I.units L F).dv i j k = L * F * I.dv i j k := by
  unfold dv
  show (if i = I.nlon then L * F * I.v 1 j k - L * F * I.v (I.nlon - 1) j k
    else if i = 1 then L * F * I.v 2 j k - L * F * I.v I.nlon j k
    else L * F * I.v (i + 1) j k - L * F * I.v (i - 1) j k) = _
  split_ifs <;> ring

theorem units_inner (i j k : ℤ) : (I.units L F).inner i j k = F * I.inner i j k := by
  unfold inner
  rw [I.units_cor hL hF, I.units_dv hL hF]
  show F * I.cor j + L * F * I.dv i j k / (2 * (L * I.a) * cos (I.phi j) * I.dphi) +
    -(L * F * I.u i (j + 1) k * cos (I.phi (j + 1)) - L * F * I.u i (j - 1) k * cos (I.phi (j - 1))) /
      (2 * (L * I.a) * cos (I.phi j) * I.dphi) = _
  have hL0 := hL.ne'
  have e : ∀ x : ℝ, L * F * x / (2 * (L * I.a) * cos (I.phi j) * I.dphi) = F * (x / (2 * I.a * cos (I.phi j) * I.dphi)) := by
    intro x
    rw [show 2 * (L * I.a) * cos (I.phi j) * I.dphi = L * (2 * I.a * cos (I.phi j) * I.dphi) by ring,
      show L * F * x = L * (F * x) by ring, mul_div_mul_left _ _ hL0, mul_div_assoc]
  rw [e, show -(L * F * I.u i (j + 1) k * cos (I.phi (j + 1)) - L * F * I.u i (j - 1) k * cos (I.phi (j - 1))) =
    L * F * -(I.u i (j + 1) k * cos (I.phi (j + 1)) - I.u i (j - 1) k * cos (I.phi (j - 1))) by ring, e]
  ring

theorem units_zmean {X Y : ℤ → ℤ → ℤ → ℝ} {c : ℝ} (h : ∀ i j k, Y i j k = c * X i j k) (j k : ℤ) :
    (I.units L F).zmean Y j k = c * I.zmean X j k := by
  unfold zmean
  rw [← dosum_mul]
  simp only [h, mul_div_assoc]; rfl

theorem units_avort (i j k : ℤ) : (I.units L F).avort i j k = F * I.avort i j k := by
  unfold avort
  rw [I.units_zmean hL hF (I.units_inner hL hF), I.units_zmean hL hF (I.units_inner hL hF), I.units_inner hL hF]
  show (if j = I.nlat then F * I.zmean I.inner (I.nlat - 1) k else if j = 1 then F * I.zmean I.inner 2 k else _) = _
  split_ifs <;> rfl

theorem units_alt (t0 stat : ℤ → ℝ) (i j k : ℤ) :
    (I.units L F).alt t0 (fun k => stat k / L) i j k = L * I.alt t0 stat i j k := by
  unfold alt
  show exp (-(L * I.height k) / (L * I.h)) * (I.theta i j k - t0 k) / (stat k / L) = _
  rw [← mul_neg, mul_div_mul_left _ _ hL.ne', div_div_eq_mul_div]; ring

theorem units_stretch (t0 stat : ℤ → ℝ) (c : ℝ) (i j k : ℤ) :
    (I.units L F).stretch t0 (fun k => stat k / L) (F * c) i j k = F * I.stretch t0 stat c i j k := by
  unfold stretch
  rw [I.units_alt hL hF, I.units_alt hL hF]
  show exp (L * I.height k / (L * I.h)) * ((L * I.alt t0 stat i j (k + 1) - L * I.alt t0 stat i j (k - 1)) * (F * c) /
    (L * I.height (k + 1) - L * I.height (k - 1))) = _
  rw [mul_div_mul_left _ _ hL.ne', ← mul_sub, ← mul_sub, mul_assoc L, mul_div_mul_left _ _ hL.ne']
  ring

theorem units_pv18 (t0 stat : ℤ → ℝ) (i j k : ℤ) :
    (I.units L F).pv18 t0 (fun k => stat k / L) i j k = F * I.pv18 t0 stat i j k := by
  unfold pv18
  show (if 2 ≤ k ∧ k ≤ I.kmax - 1 then _ else _) = _
  rw [I.units_avort hL hF, I.units_zmean hL hF (I.units_avort hL hF), I.units_stretch hL hF]
  split_ifs <;> ring

theorem units_pv22 (jd : ℤ) (ts0 tn0 stats statn : ℤ → ℝ) (i j k : ℤ) :
    (I.units L F).pv22 jd ts0 tn0 (fun k => stats k / L) (fun k => statn k / L) i j k =
      F * I.pv22 jd ts0 tn0 stats statn i j k := by
  unfold pv22
  show (if 2 ≤ k ∧ k ≤ I.kmax - 1 then _ else _) = _
  rw [I.units_avort hL hF, I.units_cor hL hF, I.units_stretch hL hF, I.units_stretch hL hF]
  split_ifs <;> ring

end QgpvIn

/-! ### `compute_reference_states` -/

theorem set2_mul (c : ℝ) (A : ℤ → ℤ → ℝ) (j k : ℤ) (v : ℝ) :
    set2 (fun j k => c * A j k) j k (c * v) = fun j' k' => c * set2 A j k v j' k' := by
  funext j' k'
  unfold set2
  split_ifs <;> rfl

theorem setRow_mul (c : ℝ) (A : ℤ → ℤ → ℝ) (j : ℤ) (v : ℤ → ℝ) :
    setRow (fun j k => c * A j k) j (fun k => c * v k) = fun j' k' => c * setRow A j v j' k' := by
  funext j' k'
  unfold setRow
  split_ifs <;> rfl

namespace RefIn

variable (I : RefIn) (L F : ℝ)

/-- The same input in other units. -/
def units : RefIn :=
  { I with
    pv := fun i j k => F * I.pv i j k
    uu := fun i j k => L * F * I.uu i j k
    stat := fun k => I.stat k / L
    a := L * I.a
    om := F * I.om
    dz := L * I.dz
    h := L * I.h
    r := L ^ 2 * F ^ 2 * I.r
    cp := L ^ 2 * F ^ 2 * I.cp
    unset := fun j k => L ^ 2 * F * I.unset j k }

/-- Scaling of the state of a sweep. -/
def sorScale (c : ℝ) (s : Sor) : Sor := { u := fun j k => c * s.u j k, anorm := c * s.anorm }

variable {L F} (hL : 0 < L) (hF : 0 < F)
include hL hF

theorem units_z (k : ℤ) : (I.units L F).z k = L * I.z k := mul_assoc _ _ _

theorem units_rkappa : (I.units L F).rkappa = I.rkappa :=
  mul_div_mul_left _ _ (by positivity)

theorem units_zmean {X Y : ℤ → ℤ → ℤ → ℝ} {c : ℝ} (h : ∀ i j k, Y i j k = c * X i j k) (j k : ℤ) :
    (I.units L F).zmean Y j k = c * I.zmean X j k := by
  unfold zmean
  rw [← dosum_mul]
  simp only [h, mul_div_assoc]; rfl

theorem units_ubar (j k : ℤ) : (I.units L F).ubar j k = L * F * I.ubar j k :=
  I.units_zmean hL hF (fun _ _ _ => rfl) j k

theorem units_tbar : (I.units L F).tbar = I.tbar := rfl

theorem units_qbar (j k : ℤ) : (I.units L F).qbar j k = F * I.qbar j k :=
  I.units_zmean hL hF (fun _ _ _ => rfl) j k

theorem units_tb : (I.units L F).tb = I.tb := rfl

theorem units_area (k : ℤ) : (I.units L F).area k = (I.area k).units L F := rfl

theorem units_qrefRaw (j k : ℤ) : (I.units L F).qrefRaw j k = F * I.qrefRaw j k := by
  unfold qrefRaw
  rw [I.units_area hL hF, (I.area k).units_qref hL hF]
  show (if 2 ≤ k ∧ k ≤ I.kmax - 1 then _ else _) = _
  split_ifs
  · rfl
  · rw [mul_zero]

theorem units_cbar (k : ℤ) : (I.units L F).cbar k = fun j => L ^ 2 * F * I.cbar k j := by
  unfold cbar
  have e : (fun _ => 0 : ℤ → ℝ) = (fun x : ℤ → ℝ => fun n => L ^ 2 * F * x n) (fun _ => 0) := by simp
  conv_lhs => rw [e]
  refine doDown_map (fun x : ℤ → ℝ => fun n => L ^ 2 * F * x n) (fun j t => ?_) _
  rw [← update_mul, I.units_qbar hL hF, I.units_qbar hL hF]
  congr 1
  show _ + 0.5 * _ * (L * I.a) * I.dphi * 2 * π * (L * I.a) * cos (I.dphi * ((j : ℝ) - 0.5)) = _
  ring

theorem units_phi (j : ℤ) : (I.units L F).phi j = I.phi j := rfl

theorem units_cor (j : ℤ) : (I.units L F).cor j = F * I.cor j := by
  unfold cor
  rw [I.units_phi hL hF]
  show 2 * (F * I.om) * _ = _
  ring

theorem units_qrefNorm (j k : ℤ) : (I.units L F).qrefNorm j k = I.qrefNorm j k := by
  unfold qrefNorm
  rw [I.units_qrefRaw hL hF, I.units_cor hL hF, mul_div_mul_left _ _ hF.ne']

/-- The first row on the first and last levels is never assigned, so it is zero in any unit. -/
theorem units_qref (j k : ℤ) : (I.units L F).qref j k = I.qref j k := by
  unfold qref
  simp only [I.units_qrefNorm hL hF]
  show (if j = 1 then (if 2 ≤ k ∧ k ≤ I.kmax - 1 then _ else _) else _) = _
  by_cases hj : j = 1
  · rw [if_pos hj, if_pos hj]
    by_cases hk : 2 ≤ k ∧ k ≤ I.kmax - 1
    · rw [if_pos hk, if_pos hk]
    · rw [if_neg hk, if_neg hk, I.units_qrefRaw hL hF]
      unfold qrefRaw
      rw [if_neg hk, mul_zero]
  · rw [if_neg hj, if_neg hj]

theorem units_amp (p j k : ℤ) : (I.units L F).amp p j k = I.amp p j k := by
  have hL0 := hL.ne'
  have hF0 := hF.ne'
  unfold amp
  simp only [I.units_z hL hF, I.units_rkappa hL hF, I.units_phi hL hF]
  show exp (-(0.5 * (L * I.z (k + p) + L * I.z k)) / (L * I.h)) *
    exp (I.rkappa * (0.5 * (L * I.z (k + p) + L * I.z k)) / (L * I.h)) / (0.5 * (I.stat (k + p) / L + I.stat k / L)) *
    (4 * (F * I.om) * (F * I.om) * (L * I.h) * (L * I.a) * (L * I.a) * sin (I.phi j) * I.dphi * I.dphi /
      (L * I.dz * (L * I.dz) * (L ^ 2 * F ^ 2 * I.r) * cos (I.phi j))) * exp (L * I.z k / (L * I.h)) = _
  rw [show -(0.5 * (L * I.z (k + p) + L * I.z k)) = L * -(0.5 * (I.z (k + p) + I.z k)) by ring,
    show I.rkappa * (0.5 * (L * I.z (k + p) + L * I.z k)) = L * (I.rkappa * (0.5 * (I.z (k + p) + I.z k))) by ring,
    mul_div_mul_left _ _ hL0, mul_div_mul_left _ _ hL0, mul_div_mul_left _ _ hL0]
  rw [show 0.5 * (I.stat (k + p) / L + I.stat k / L) = 0.5 * (I.stat (k + p) + I.stat k) / L by ring]
  rw [show 4 * (F * I.om) * (F * I.om) * (L * I.h) * (L * I.a) * (L * I.a) * sin (I.phi j) * I.dphi * I.dphi =
      (L ^ 3 * F ^ 2) * (4 * I.om * I.om * I.h * I.a * I.a * sin (I.phi j) * I.dphi * I.dphi) by ring,
    show L * I.dz * (L * I.dz) * (L ^ 2 * F ^ 2 * I.r) * cos (I.phi j) =
      (L ^ 3 * F ^ 2) * (L * (I.dz * I.dz * I.r * cos (I.phi j))) by ring,
    mul_div_mul_left _ _ (by positivity : L ^ 3 * F ^ 2 ≠ 0)]
  rw [div_div_eq_mul_div, mul_comm L (I.dz * I.dz * I.r * cos (I.phi j)), ← div_div]
  generalize exp _ * exp _ = E
  field_simp

theorem units_ajk : (I.units L F).ajk = I.ajk := rfl

theorem units_bjk : (I.units L F).bjk = I.bjk := rfl

theorem units_ejk (j k : ℤ) : (I.units L F).ejk j k = I.ejk j k := by
  unfold ejk cjk djk
  rw [I.units_amp hL hF, I.units_amp hL hF, I.units_ajk hL hF, I.units_bjk hL hF]

theorem units_fjk (j k : ℤ) : (I.units L F).fjk j k = L * F * I.fjk j k := by
  unfold fjk
  rw [I.units_qref hL hF, I.units_qref hL hF]
  show -(F * I.om) * (L * I.a) * I.dphi * _ = _
  ring

theorem units_anormf : (I.units L F).anormf = L * F * I.anormf := by
  unfold anormf
  rw [← dosum_mul]
  simp only [← dosum_mul, I.units_fjk hL hF, abs_mul, abs_of_pos hL, abs_of_pos hF]
  rfl

theorem units_resid (u : ℤ → ℤ → ℝ) (j k : ℤ) :
    (I.units L F).resid (fun j k => L * F * u j k) j k = L * F * I.resid u j k := by
  unfold resid cjk djk
  rw [I.units_amp hL hF, I.units_amp hL hF, I.units_ajk hL hF, I.units_bjk hL hF, I.units_ejk hL hF, I.units_fjk hL hF]
  ring

theorem units_relax (w : ℝ) (u : ℤ → ℤ → ℝ) (j k : ℤ) :
    (I.units L F).relax w (fun j k => L * F * u j k) j k = L * F * I.relax w u j k := by
  unfold relax
  rw [I.units_resid hL hF, I.units_ejk hL hF]
  split_ifs <;> ring

theorem units_pointStep (nnn : ℤ) (w : ℝ) (j k : ℤ) (s : Sor) :
    (I.units L F).pointStep nnn w j k (sorScale (L * F) s) = sorScale (L * F) (I.pointStep nnn w j k s) := by
  unfold pointStep sorScale
  split_ifs
  · simp only [I.units_relax hL hF, I.units_resid hL hF, abs_mul, abs_of_pos hL, abs_of_pos hF, set2_mul, mul_add]
  · rfl

theorem units_uz (j : ℤ) : (I.units L F).uz j = L * F * I.uz j := by
  have hL0 := hL.ne'
  have hF0 := hF.ne'
  unfold uz
  rw [I.units_tbar hL hF, I.units_rkappa hL hF, I.units_z hL hF, I.units_phi hL hF]
  show L * I.dz * (L ^ 2 * F ^ 2 * I.r) * cos (I.phi j) * exp (-(L * I.z (I.kmax - 1)) * I.rkappa / (L * I.h)) *
    (I.tbar (j + 1) (I.kmax - 1) - I.tbar (j - 1) (I.kmax - 1)) /
      (2 * (F * I.om) * sin (I.phi j) * I.dphi * (L * I.h) * (L * I.a)) = _
  rw [show -(L * I.z (I.kmax - 1)) * I.rkappa = L * (-I.z (I.kmax - 1) * I.rkappa) by ring, mul_div_mul_left _ _ hL0]
  generalize exp _ = E
  rw [show L * I.dz * (L ^ 2 * F ^ 2 * I.r) * cos (I.phi j) * E *
      (I.tbar (j + 1) (I.kmax - 1) - I.tbar (j - 1) (I.kmax - 1)) =
      (L ^ 2 * F) * (L * F * (I.dz * I.r * cos (I.phi j) * E *
      (I.tbar (j + 1) (I.kmax - 1) - I.tbar (j - 1) (I.kmax - 1)))) by ring,
    show 2 * (F * I.om) * sin (I.phi j) * I.dphi * (L * I.h) * (L * I.a) =
      (L ^ 2 * F) * (2 * I.om * sin (I.phi j) * I.dphi * I.h * I.a) by ring,
    mul_div_mul_left _ _ (by positivity : L ^ 2 * F ≠ 0), mul_div_assoc]

theorem units_rowStep (nnn : ℤ) (w : ℝ) (j : ℤ) (s : Sor) :
    (I.units L F).rowStep nnn w j (sorScale (L * F) s) = sorScale (L * F) (I.rowStep nnn w j s) := by
  unfold rowStep
  have e := doLoop_map (lo := 2) (hi := I.kmax - 1) (f := I.pointStep nnn w j) (g := (I.units L F).pointStep nnn w j)
    (sorScale (L * F)) (fun k t => I.units_pointStep hL hF nnn w j k t) s
  have hk : (I.units L F).kmax = I.kmax := rfl
  simp only [hk, e]
  generalize doLoop 2 (I.kmax - 1) (I.pointStep nnn w j) s = t
  unfold sorScale
  simp only [Sor.mk.injEq, and_true]
  have e0 : set2 (fun j k => L * F * t.u j k) j 1 0 = fun j' k' => L * F * set2 t.u j 1 0 j' k' := by
    rw [← set2_mul, mul_zero]
  rw [e0, I.units_uz hL hF, ← mul_sub, set2_mul]

theorem units_bound (k : ℤ) : (I.units L F).bound k = L * F * I.bound k := by
  have hL0 := hL.ne'
  unfold bound
  rw [I.units_ubar hL hF, I.units_area hL hF, I.units_cbar hL hF]
  show _ + (if 2 ≤ k ∧ k ≤ I.kmax - 1 then ((I.area k).units L F).cref (L ^ 2 * F * I.unset 1 k) 1 - _ else
    L ^ 2 * F * I.unset 1 k) / (2 * π * (L * I.a)) = _
  rw [(I.area k).units_cref hL hF, show 2 * π * (L * I.a) = L * (2 * π * I.a) by ring]
  have e : ∀ x : ℝ, L ^ 2 * F * x / (L * (2 * π * I.a)) = L * F * (x / (2 * π * I.a)) := by
    intro x
    rw [show L ^ 2 * F * x = L * (L * F * x) by ring, mul_div_mul_left _ _ hL0, mul_div_assoc]
  split_ifs
  · rw [← mul_sub, e]; ring
  · rw [e]; ring

theorem units_sweep (nnn : ℤ) (w : ℝ) (u : ℤ → ℤ → ℝ) :
    (I.units L F).sweep nnn w (fun j k => L * F * u j k) = sorScale (L * F) (I.sweep nnn w u) := by
  unfold sweep
  have e := doLoop_map (lo := 2) (hi := I.jd - 1) (f := I.rowStep nnn w) (g := (I.units L F).rowStep nnn w)
    (sorScale (L * F)) (fun k t => I.units_rowStep hL hF nnn w k t) { u := u, anorm := 0 }
  have e1 : ({ u := fun j k => L * F * u j k, anorm := 0 } : Sor) = sorScale (L * F) { u := u, anorm := 0 } := by
    unfold sorScale; simp
  have hj : (I.units L F).jd = I.jd := rfl
  simp only [hj, e1, e]
  generalize doLoop 2 (I.jd - 1) (I.rowStep nnn w) { u := u, anorm := 0 } = t
  unfold sorScale
  simp only [Sor.mk.injEq, and_true]
  have e0 : setRow (fun j k => L * F * t.u j k) I.jd (fun _ => 0) =
      fun j' k' => L * F * setRow t.u I.jd (fun _ => 0) j' k' := by
    rw [← setRow_mul]; simp
  have eb : (I.units L F).bound = fun k => L * F * I.bound k := funext (I.units_bound hL hF)
  rw [e0, eb, setRow_mul]

theorem units_sorLoop (fuel : ℕ) : ∀ (nnn : ℤ) (w : ℝ) (u : ℤ → ℤ → ℝ),
    (I.units L F).sorLoop fuel nnn w (fun j k => L * F * u j k) =
      ((fun j k => L * F * (I.sorLoop fuel nnn w u).1 j k), (I.sorLoop fuel nnn w u).2) := by
  induction fuel with
  | zero => intro nnn w u; simp [sorLoop]
  | succ n ih =>
    intro nnn w u
    simp only [sorLoop]
    have hLF : (0 : ℝ) < L * F := by positivity
    have ho : (I.units L F).omegaNext nnn w = I.omegaNext nnn w := rfl
    have hc : (1 < nnn ∧ (sorScale (L * F) (I.sweep nnn w u)).anorm < (I.units L F).eps * (I.units L F).anormf) ↔
        (1 < nnn ∧ (I.sweep nnn w u).anorm < I.eps * I.anormf) := by
      rw [I.units_anormf hL hF]
      show (1 < nnn ∧ L * F * (I.sweep nnn w u).anorm < I.eps * (L * F * I.anormf)) ↔ _
      rw [show I.eps * (L * F * I.anormf) = L * F * (I.eps * I.anormf) by ring, mul_lt_mul_iff_right₀ hLF]
    rw [I.units_sweep hL hF, ho]
    by_cases h : 1 < nnn ∧ (I.sweep nnn w u).anorm < I.eps * I.anormf
    · rw [if_pos h, if_pos (hc.mpr h)]; rfl
    · rw [if_neg h, if_neg (fun h' => h (hc.mp h'))]
      exact ih _ _ _

theorem units_sor : (I.units L F).sor = ((fun j k => L * F * I.sor.1 j k), I.sor.2) := by
  have e := I.units_sorLoop hL hF I.maxits 1 1 (fun _ _ => 0)
  simp only [mul_zero] at e
  exact e

theorem units_numOfIter : (I.units L F).numOfIter = I.numOfIter := by
  unfold numOfIter
  rw [I.units_sor hL hF]

theorem units_windRows (u : ℤ → ℤ → ℝ) (j k : ℤ) :
    (I.units L F).windRows (fun j k => L * F * u j k) j k = L * F * I.windRows u j k := by
  unfold windRows
  rw [I.units_ubar hL hF, I.units_phi hL hF]
  show (if j = 1 then _ else if 2 ≤ j ∧ j ≤ I.jd - 1 then _ else _) = _
  split_ifs <;> ring

theorem units_uref (j k : ℤ) : (I.units L F).uref j k = L * F * I.uref j k := by
  unfold uref
  rw [I.units_sor hL hF]
  simp only [I.units_windRows hL hF]
  show (if j = I.jd then 2 * (L * F * I.windRows I.sor.1 (I.jd - 1) k) - L * F * I.windRows I.sor.1 (I.jd - 2) k else _) = _
  split_ifs <;> ring

theorem units_ty (j k : ℤ) : (I.units L F).ty j k = I.ty j k := by
  have hL0 := hL.ne'
  have hF0 := hF.ne'
  unfold ty
  rw [I.units_cor hL hF, I.units_uref hL hF, I.units_uref hL hF, I.units_rkappa hL hF, I.units_z hL hF]
  show -(F * I.cor j) * ((L * F * I.uref j (k + 1) - L * F * I.uref j (k - 1)) / (2 * (L * I.dz))) * (L * I.a) * (L * I.h) *
    exp (I.rkappa * (L * I.z k) / (L * I.h)) / (L ^ 2 * F ^ 2 * I.r) = _
  rw [show I.rkappa * (L * I.z k) = L * (I.rkappa * I.z k) by ring, mul_div_mul_left _ _ hL0]
  generalize exp _ = E
  rw [show L * F * I.uref j (k + 1) - L * F * I.uref j (k - 1) = L * (F * (I.uref j (k + 1) - I.uref j (k - 1))) by ring,
    show 2 * (L * I.dz) = L * (2 * I.dz) by ring, mul_div_mul_left _ _ hL0]
  rw [show -(F * I.cor j) * (F * (I.uref j (k + 1) - I.uref j (k - 1)) / (2 * I.dz)) * (L * I.a) * (L * I.h) * E =
    L ^ 2 * F ^ 2 * (-I.cor j * ((I.uref j (k + 1) - I.uref j (k - 1)) / (2 * I.dz)) * I.a * I.h * E) by ring,
    mul_div_mul_left _ _ (by positivity : L ^ 2 * F ^ 2 ≠ 0)]

theorem units_trefRaw (k : ℤ) : (I.units L F).trefRaw k = I.trefRaw k := by
  unfold trefRaw
  simp only [I.units_ty hL hF]
  rfl

theorem units_tg (k : ℤ) : (I.units L F).tg k = I.tg k := by
  unfold tg
  rw [I.units_trefRaw hL hF]
  rfl

theorem units_trefMid (j k : ℤ) : (I.units L F).trefMid j k = I.trefMid j k := by
  unfold trefMid
  rw [I.units_trefRaw hL hF, I.units_tg hL hF]
  rfl

theorem units_tref (j k : ℤ) : (I.units L F).tref j k = I.tref j k := by
  unfold tref
  simp only [I.units_trefMid hL hF]
  rfl

end RefIn

/-! ### The direct solver -/

namespace NhnIn

variable (I : NhnIn) (L F : ℝ)

/-- The same input in other units. -/
def units : NhnIn :=
  { I with
    pv := fun i j k => F * I.pv i j k
    uu := fun i j k => L * F * I.uu i j k
    vort := fun i j k => F * I.vort i j k
    statn := fun k => I.statn k / L
    a := L * I.a
    om := F * I.om
    dz := L * I.dz
    h := L * I.h
    rr := L ^ 2 * F ^ 2 * I.rr
    cp := L ^ 2 * F ^ 2 * I.cp }

/-- Scaling of the vectors of the downward sweep. -/
def sweepScale (c : ℝ) (s : SweepState) : SweepState := { s := s.s, t := fun i k => c * s.t i k }

variable {L F} (hL : 0 < L) (hF : 0 < F)
include hL hF

theorem units_z (k : ℤ) : (I.units L F).z k = L * I.z k := mul_assoc _ _ _

theorem units_rkappa : (I.units L F).rkappa = I.rkappa :=
  mul_div_mul_left _ _ (by positivity)

theorem units_dp : (I.units L F).dp = I.dp := rfl

theorem units_tbar : (I.units L F).tbar = I.tbar := rfl

theorem units_qrefRaw (j k : ℤ) : (I.units L F).qrefRaw j k = F * I.qrefRaw j k := by
  unfold qrefRaw
  show (if 2 ≤ k ∧ k ≤ I.kmax - 1 then ((I.area I.pv k).units L F).qref j else _) = _
  rw [(I.area I.pv k).units_qref hL hF]
  split_ifs
  · rfl
  · rw [mul_zero]

theorem units_qrefNorm (j k : ℤ) : (I.units L F).qrefNorm j k = F * I.qrefNorm j k := by
  unfold qrefNorm
  rw [I.units_qrefRaw hL hF, mul_div_assoc]
  rfl

theorem units_qref (j k : ℤ) : (I.units L F).qref j k = F * I.qref j k := by
  unfold qref
  simp only [I.units_qrefNorm hL hF, I.units_qrefRaw hL hF]
  show (if j = 1 then (if 2 ≤ k ∧ k ≤ I.kmax - 1 then _ else _) else _) = _
  split_ifs <;> ring

theorem units_ckref (j k : ℤ) : (I.units L F).ckref j k = L ^ 2 * F * I.ckref j k := by
  unfold ckref
  show (if 2 ≤ k ∧ k ≤ I.kmax - 1 then ((I.area I.vort k).units L F).ckref j else _) = _
  rw [(I.area I.vort k).units_ckref hL hF]
  split_ifs
  · rfl
  · rw [mul_zero]

theorem units_topT (i : ℤ) : (I.units L F).topT i = L * F * I.topT i := by
  have hL0 := hL.ne'
  unfold topT
  rw [I.units_tbar hL hF, I.units_rkappa hL hF, I.units_z hL hF]
  show -(L * I.dz) * (L ^ 2 * F ^ 2 * I.rr) * cos (I.topPhi i) * exp (-(L * I.z (I.kmax - 1)) * I.rkappa / (L * I.h)) *
    (I.tbar (i + 1 + 1) I.kmax - I.tbar (i + 1 - 1) I.kmax) /
      (4 * (F * I.om) * sin (I.topPhi i) * I.dphi * (L * I.h) * (L * I.a)) = _
  rw [show -(L * I.z (I.kmax - 1)) * I.rkappa = L * (-I.z (I.kmax - 1) * I.rkappa) by ring, mul_div_mul_left _ _ hL0]
  generalize exp _ = E
  rw [show -(L * I.dz) * (L ^ 2 * F ^ 2 * I.rr) * cos (I.topPhi i) * E *
      (I.tbar (i + 1 + 1) I.kmax - I.tbar (i + 1 - 1) I.kmax) =
      (L ^ 2 * F) * (L * F * (-I.dz * I.rr * cos (I.topPhi i) * E *
      (I.tbar (i + 1 + 1) I.kmax - I.tbar (i + 1 - 1) I.kmax))) by ring,
    show 4 * (F * I.om) * sin (I.topPhi i) * I.dphi * (L * I.h) * (L * I.a) =
      (L ^ 2 * F) * (4 * I.om * sin (I.topPhi i) * I.dphi * I.h * I.a) by ring,
    mul_div_mul_left _ _ (by positivity : L ^ 2 * F ≠ 0), mul_div_assoc]

theorem units_topState : (I.units L F).topState = sweepScale (L * F) I.topState := by
  unfold topState sweepScale
  simp only [I.units_topT hL hF, SweepState.mk.injEq]
  refine ⟨rfl, ?_⟩
  funext i k
  show (if k = I.kmax - 1 ∧ 1 ≤ i ∧ i ≤ I.n then _ else _) = _
  split_ifs
  · rfl
  · rw [mul_zero]

theorem units_amp (p j k : ℤ) : (I.units L F).amp p j k = I.amp p j k := by
  have hL0 := hL.ne'
  have hF0 := hF.ne'
  unfold amp
  simp only [I.units_z hL hF, I.units_rkappa hL hF, I.units_dp hL hF]
  generalize ((j - 1 : ℤ) : ℝ) * I.dp = φ
  show exp (-(0.5 * (L * I.z (k + p) + L * I.z k)) / (L * I.h)) *
    exp (I.rkappa * (0.5 * (L * I.z (k + p) + L * I.z k)) / (L * I.h)) / (0.5 * (I.statn (k + p) / L + I.statn k / L)) *
    (4 * (F * I.om) * (F * I.om) * (L * I.h) * (L * I.a) * (L * I.a) * sin φ * I.dp * I.dp /
      (L * I.dz * (L * I.dz) * (L ^ 2 * F ^ 2 * I.rr) * cos φ)) * exp (L * I.z k / (L * I.h)) = _
  rw [show -(0.5 * (L * I.z (k + p) + L * I.z k)) = L * -(0.5 * (I.z (k + p) + I.z k)) by ring,
    show I.rkappa * (0.5 * (L * I.z (k + p) + L * I.z k)) = L * (I.rkappa * (0.5 * (I.z (k + p) + I.z k))) by ring,
    mul_div_mul_left _ _ hL0, mul_div_mul_left _ _ hL0, mul_div_mul_left _ _ hL0]
  rw [show 0.5 * (I.statn (k + p) / L + I.statn k / L) = 0.5 * (I.statn (k + p) + I.statn k) / L by ring]
  rw [show 4 * (F * I.om) * (F * I.om) * (L * I.h) * (L * I.a) * (L * I.a) * sin φ * I.dp * I.dp =
      (L ^ 3 * F ^ 2) * (4 * I.om * I.om * I.h * I.a * I.a * sin φ * I.dp * I.dp) by ring,
    show L * I.dz * (L * I.dz) * (L ^ 2 * F ^ 2 * I.rr) * cos φ =
      (L ^ 3 * F ^ 2) * (L * (I.dz * I.dz * I.rr * cos φ)) by ring,
    mul_div_mul_left _ _ (by positivity : L ^ 3 * F ^ 2 ≠ 0)]
  rw [div_div_eq_mul_div, mul_comm L (I.dz * I.dz * I.rr * cos φ), ← div_div]
  generalize exp _ * exp _ = E
  field_simp

theorem units_ajk : (I.units L F).ajk = I.ajk := rfl

theorem units_bjk : (I.units L F).bjk = I.bjk := rfl

theorem units_ejk (j k : ℤ) : (I.units L F).ejk j k = I.ejk j k := by
  unfold ejk
  rw [I.units_amp hL hF, I.units_amp hL hF, I.units_ajk hL hF, I.units_bjk hL hF]

theorem units_fjk (j k : ℤ) : (I.units L F).fjk j k = L * F * I.fjk j k := by
  unfold fjk
  rw [I.units_qref hL hF, I.units_qref hL hF, I.units_dp hL hF]
  show -(0.5 : ℝ) * (L * I.a) * I.dp * _ = _
  ring

theorem units_edge (j k : ℤ) (c : ℝ) :
    (I.units L F).ckref j k / (2 * π * (L * I.a)) - F * I.om * (L * I.a) * c =
      L * F * (I.ckref j k / (2 * π * I.a) - I.om * I.a * c) := by
  rw [I.units_ckref hL hF, show 2 * π * (L * I.a) = L * (2 * π * I.a) by ring,
    show L ^ 2 * F * I.ckref j k = L * (L * F * I.ckref j k) by ring, mul_div_mul_left _ _ hL.ne', mul_div_assoc]
  ring

theorem units_bound (k : ℤ) : (I.units L F).bound k = L * F * I.bound k :=
  I.units_edge hL hF _ _ _

theorem units_rj (k i : ℤ) : (I.units L F).rj k i = L * F * I.rj k i := by
  unfold rj
  simp only [I.units_fjk hL hF, I.units_bjk hL hF, I.units_bound hL hF]
  show (if i + 1 = I.jd - 1 then L * F * I.fjk (i + 1 + I.jb) k - _ * 0 else
    if i + 1 = 2 then L * F * I.fjk (i + 1 + I.jb) k - I.bjk (i + 1 + I.jb) * (L * F * I.bound k) else
      L * F * I.fjk (i + 1 + I.jb) k) = _
  split_ifs <;> ring

theorem units_cjj (k i m : ℤ) : (I.units L F).cjj k i m = I.cjj k i m := by
  unfold cjj
  rw [I.units_amp hL hF]; rfl

theorem units_djj (k i m : ℤ) : (I.units L F).djj k i m = I.djj k i m := by
  unfold djj
  rw [I.units_amp hL hF]; rfl

theorem units_qjj0 (k i m : ℤ) : (I.units L F).qjj0 k i m = I.qjj0 k i m := by
  unfold qjj0
  rw [I.units_ejk hL hF]; rfl

theorem units_qjj (k : ℤ) (st : SweepState) : (I.units L F).qjj k (sweepScale (L * F) st) = I.qjj k st := by
  funext i m
  unfold qjj
  simp only [I.units_qjj0 hL hF, I.units_cjj hL hF]
  rfl

theorem units_levelStep (k : ℤ) (st : SweepState) :
    (I.units L F).levelStep k (sweepScale (L * F) st) = sweepScale (L * F) (I.levelStep k st) := by
  unfold levelStep
  rw [I.units_qjj hL hF]
  simp only [I.units_rj hL hF, I.units_cjj hL hF, I.units_djj hL hF]
  unfold sweepScale
  simp only [SweepState.mk.injEq]
  refine ⟨rfl, ?_⟩
  funext i k'
  by_cases h : k' = k - 1
  · rw [if_pos h, if_pos h, ← dosum_mul]
    show dosum 1 I.n (fun kk => I.inv (I.qjj k st) i kk *
      (L * F * I.rj k kk - dosum 1 I.n (fun m => I.cjj k kk m * (L * F * st.t m k)))) = _
    congr 1
    funext kk
    rw [show (fun m => I.cjj k kk m * (L * F * st.t m k)) = fun m => L * F * (I.cjj k kk m * st.t m k) from
      funext fun m => by ring, dosum_mul]
    ring
  · rw [if_neg h, if_neg h]

theorem units_final : (I.units L F).final = sweepScale (L * F) I.final := by
  unfold final downTo
  rw [I.units_topState hL hF]
  exact doDown_map (sweepScale (L * F)) (fun k t => I.units_levelStep hL hF k t) _

theorem units_pjk : (I.units L F).pjk = fun i k => L * F * I.pjk i k := by
  unfold pjk
  have e : (fun _ _ => 0 : ℤ → ℤ → ℝ) = (fun x : ℤ → ℤ → ℝ => fun i k => L * F * x i k) (fun _ _ => 0) := by simp
  conv_lhs => rw [e]
  refine doLoop_map (fun x : ℤ → ℤ → ℝ => fun i k => L * F * x i k) (fun k t => ?_) _
  funext i k'
  rw [I.units_final hL hF]
  show (if k' = k + 1 then dosum 1 I.n (fun kk => I.final.s i kk k * (L * F * t kk k)) + L * F * I.final.t i k else
    L * F * t i k') = _
  rw [show (fun kk => I.final.s i kk k * (L * F * t kk k)) = fun kk => L * F * (I.final.s i kk k * t kk k) from
    funext fun m => by ring, dosum_mul]
  split_ifs <;> ring

theorem units_uRaw (j k : ℤ) : (I.units L F).uRaw j k = L * F * I.uRaw j k := by
  unfold uRaw
  rw [I.units_pjk hL hF]
  show (if 2 ≤ j ∧ j ≤ I.jd - 1 then _ else if j = 1 ∧ k = I.kmax then
    (I.units L F).ckref (1 + I.jb) I.kmax / (2 * π * (L * I.a)) - F * I.om * (L * I.a) * cos (I.dp * (I.jb : ℝ)) else 0) = _
  rw [I.units_edge hL hF]
  split_ifs
  · rfl
  · rfl
  · rw [mul_zero]

theorem units_uDiv (j k : ℤ) : (I.units L F).uDiv j k = L * F * I.uDiv j k := by
  unfold uDiv
  rw [I.units_uRaw hL hF, mul_div_assoc]
  show (if 1 ≤ j ∧ j ≤ I.nd - 1 - I.jb then _ else _) = _
  split_ifs <;> rfl

theorem units_uref (j k : ℤ) : (I.units L F).uref j k = L * F * I.uref j k := by
  unfold uref
  simp only [I.units_uDiv hL hF]
  show (if j = I.jd then 2 * (L * F * I.uDiv (I.jd - 1) k) - L * F * I.uDiv (I.jd - 2) k else _) = _
  split_ifs <;> ring

theorem units_ty (j k : ℤ) : (I.units L F).ty j k = I.ty j k := by
  have hL0 := hL.ne'
  unfold ty
  rw [I.units_uref hL hF, I.units_uref hL hF, I.units_rkappa hL hF, I.units_dp hL hF]
  show -(2 * (F * I.om) * sin (I.dp * ((j - 1 + I.jb : ℤ) : ℝ))) *
    ((L * F * I.uref j (k + 1) - L * F * I.uref j (k - 1)) / (2 * (L * I.dz))) * (L * I.a) * (L * I.h) *
    exp (I.rkappa * (L * I.dz * ((k - 1 : ℤ) : ℝ)) / (L * I.h)) / (L ^ 2 * F ^ 2 * I.rr) = _
  rw [show I.rkappa * (L * I.dz * ((k - 1 : ℤ) : ℝ)) = L * (I.rkappa * (I.dz * ((k - 1 : ℤ) : ℝ))) by ring,
    mul_div_mul_left _ _ hL0]
  generalize exp _ = E
  generalize sin _ = s
  rw [show L * F * I.uref j (k + 1) - L * F * I.uref j (k - 1) = L * (F * (I.uref j (k + 1) - I.uref j (k - 1))) by ring,
    show 2 * (L * I.dz) = L * (2 * I.dz) by ring, mul_div_mul_left _ _ hL0]
  rw [show -(2 * (F * I.om) * s) * (F * (I.uref j (k + 1) - I.uref j (k - 1)) / (2 * I.dz)) * (L * I.a) * (L * I.h) * E =
    L ^ 2 * F ^ 2 * (-(2 * I.om * s) * ((I.uref j (k + 1) - I.uref j (k - 1)) / (2 * I.dz)) * I.a * I.h * E) by ring,
    mul_div_mul_left _ _ (by positivity : L ^ 2 * F ^ 2 ≠ 0)]

theorem units_trefRaw (k : ℤ) : (I.units L F).trefRaw k = I.trefRaw k := by
  unfold trefRaw
  simp only [I.units_ty hL hF]
  rfl

theorem units_tg (k : ℤ) : (I.units L F).tg k = I.tg k := by
  unfold tg
  rw [I.units_trefRaw hL hF]
  rfl

theorem units_trefMid (j k : ℤ) : (I.units L F).trefMid j k = I.trefMid j k := by
  unfold trefMid
  rw [I.units_trefRaw hL hF, I.units_tg hL hF]
  rfl

theorem units_tref (j k : ℤ) : (I.units L F).tref j k = I.tref j k := by
  unfold tref
  simp only [I.units_trefMid hL hF]
  rfl

theorem units_qrefOut (j k : ℤ) : (I.units L F).qrefOut j k = I.qrefOut j k := by
  unfold qrefOut
  rw [I.units_qref hL hF]
  show _ / (2 * (F * I.om)) = _
  rw [show 2 * (F * I.om) = F * (2 * I.om) by ring, mul_div_mul_left _ _ hF.ne']

end NhnIn

end Falwa
