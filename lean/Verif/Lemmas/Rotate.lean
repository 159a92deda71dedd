import Verif.Model.Pipeline
import Verif.Lemmas.AreaAnalysis
import Verif.Lemmas.Flux

/-! Rotation of the longitude axis, and routines that do not notice it. -/

set_option linter.unusedSectionVars false
set_option linter.unusedSimpArgs false

noncomputable section

namespace Falwa

open Real Finset

/-- Column `s` places east of column `i`, on a circle of `n` columns numbered from 1. -/
def rot (n s i : ℤ) : ℤ := (i - 1 + s) % n + 1

section
variable {n : ℤ}

theorem rot_mem (hn : 1 ≤ n) (s i : ℤ) : 1 ≤ rot n s i ∧ rot n s i ≤ n := by
  have h1 := Int.emod_nonneg (i - 1 + s) (by omega : n ≠ 0)
  have h2 := Int.emod_lt_of_pos (i - 1 + s) (by omega : 0 < n)
  unfold rot; omega

theorem rot_rot (s t i : ℤ) : rot n s (rot n t i) = rot n (s + t) i := by
  unfold rot
  rw [show (i - 1 + t) % n + 1 - 1 + s = (i - 1 + t) % n + s by ring, Int.emod_add_emod]
  congr 2; ring

theorem rot_zero {i : ℤ} (h1 : 1 ≤ i) (h2 : i ≤ n) : rot n 0 i = i := by
  unfold rot; rw [Int.emod_eq_of_lt (by omega) (by omega)]; ring

theorem rot_neg {s i : ℤ} (h1 : 1 ≤ i) (h2 : i ≤ n) : rot n (-s) (rot n s i) = i := by
  rw [rot_rot, neg_add_cancel, rot_zero h1 h2]

theorem rot_neg' {s i : ℤ} (h1 : 1 ≤ i) (h2 : i ≤ n) : rot n s (rot n (-s) i) = i := by
  rw [rot_rot, add_neg_cancel, rot_zero h1 h2]

/-- A sum over a circle of latitude does not depend on where it starts. -/
theorem sum_rot (s : ℤ) (f : ℤ → ℝ) : ∑ i ∈ Icc 1 n, f (rot n s i) = ∑ i ∈ Icc 1 n, f i := by
  by_cases hn : 1 ≤ n
  · refine sum_nbij' (rot n s) (rot n (-s)) ?_ ?_ ?_ ?_ ?_
    · intro i _; exact mem_Icc.mpr (rot_mem hn _ _)
    · intro i _; exact mem_Icc.mpr (rot_mem hn _ _)
    · intro i hi; rw [mem_Icc] at hi; exact rot_neg hi.1 hi.2
    · intro i hi; rw [mem_Icc] at hi; exact rot_neg' hi.1 hi.2
    · intro i _; rfl
  · rw [Icc_eq_empty (by omega), sum_empty, sum_empty]

theorem dosum_rot (s : ℤ) (f : ℤ → ℝ) : dosum 1 n (fun i => f (rot n s i)) = dosum 1 n f := by
  rw [dosum_eq, dosum_eq, sum_rot]

/-- A three-dimensional array, rotated. -/
def rot3 (n s : ℤ) (X : ℤ → ℤ → ℤ → ℝ) : ℤ → ℤ → ℤ → ℝ := fun i j k => X (rot n s i) j k

end

/-! ### Area analysis -/

namespace AreaIn

variable (I : AreaIn) (s : ℤ)

/-- The field, rotated. -/
def rotate : AreaIn := I.withField (fun i j => I.q (rot I.imax s i) j)

variable (hi : 1 ≤ I.imax) (hj : 1 ≤ I.jmax)
include hi hj

theorem rotate_qmax : (I.rotate s).qmax = I.qmax := by
  obtain ⟨h1, i, j, a, b, c, d, e⟩ := maxval_spec (A := I.q) hi hj
  refine maxval_eq hi hj (fun i' j' _ _ c d => h1 _ _ (rot_mem hi _ _).1 (rot_mem hi _ _).2 c d)
    (rot I.imax (-s) i) j (rot_mem hi _ _) ⟨c, d⟩ ?_
  show I.q (rot I.imax s _) j = _
  rw [rot_neg' a b]; exact e

theorem rotate_qmin : (I.rotate s).qmin = I.qmin := by
  obtain ⟨h1, i, j, a, b, c, d, e⟩ := minval_spec (A := I.q) hi hj
  refine minval_eq hi hj (fun i' j' _ _ c d => h1 _ _ (rot_mem hi _ _).1 (rot_mem hi _ _).2 c d)
    (rot I.imax (-s) i) j (rot_mem hi _ _) ⟨c, d⟩ ?_
  show I.q (rot I.imax s _) j = _
  rw [rot_neg' a b]; exact e

theorem rotate_dq : (I.rotate s).dq = I.dq := by
  unfold dq
  rw [I.rotate_qmax s hi hj, I.rotate_qmin s hi hj]; rfl

theorem rotate_ind (i j : ℤ) : (I.rotate s).ind i j = I.ind (rot I.imax s i) j := by
  unfold ind
  rw [I.rotate_qmax s hi hj, I.rotate_dq s hi hj]; rfl

theorem rotate_bins : (I.rotate s).bins.an = I.bins.an ∧ (I.rotate s).bins.cn = I.bins.cn := by
  constructor
  · funext n
    rw [an_eq, an_eq, ← sum_cells (f := fun i j => if (I.rotate s).ind i j = n then (I.rotate s).da j else 0),
      ← sum_cells (f := fun i j => if I.ind i j = n then I.da j else 0)]
    refine sum_congr rfl fun j _ => ?_
    rw [← sum_rot (n := I.imax) s (fun i => if I.ind i j = n then I.da j else 0)]
    refine sum_congr rfl fun i _ => ?_
    rw [I.rotate_ind s hi hj]; rfl
  · funext n
    rw [cn_eq, cn_eq, ← sum_cells (f := fun i j => if (I.rotate s).ind i j = n then (I.rotate s).da j * (I.rotate s).q i j else 0),
      ← sum_cells (f := fun i j => if I.ind i j = n then I.da j * I.q i j else 0)]
    refine sum_congr rfl fun j _ => ?_
    rw [← sum_rot (n := I.imax) s (fun i => if I.ind i j = n then I.da j * I.q i j else 0)]
    refine sum_congr rfl fun i _ => ?_
    rw [I.rotate_ind s hi hj]; rfl

theorem rotate_placed (j : ℤ) : (I.rotate s).placed j = I.placed j := by
  have h1 : (I.rotate s).aan = I.aan := by
    unfold aan; rw [(I.rotate_bins s hi hj).1]; rfl
  have h2 : (I.rotate s).ccn = I.ccn := by
    unfold ccn; rw [(I.rotate_bins s hi hj).2]; rfl
  have h3 : (I.rotate s).qn = I.qn := by
    funext n; unfold qn; rw [I.rotate_qmax s hi hj, I.rotate_dq s hi hj]
  unfold placed
  rw [h1, h2, h3]; rfl

theorem rotate_qref (j : ℤ) : (I.rotate s).qref j = I.qref j := by
  unfold qref; rw [I.rotate_placed s hi hj, I.rotate_qmax s hi hj]; rfl

theorem rotate_cref (x : ℝ) (j : ℤ) : (I.rotate s).cref x j = I.cref x j := by
  unfold cref; rw [I.rotate_placed s hi hj]

end AreaIn

/-! ### The iterative solver -/

namespace RefIn

variable (I : RefIn) (s : ℤ)

/-- The fields, rotated. -/
def rotate : RefIn :=
  { I with pv := rot3 I.nlon s I.pv, uu := rot3 I.nlon s I.uu, pt := rot3 I.nlon s I.pt }

theorem rotate_zmean (X : ℤ → ℤ → ℤ → ℝ) : (I.rotate s).zmean (rot3 I.nlon s X) = I.zmean X := by
  funext j k
  exact dosum_rot s (fun i => X i (j + (I.jd - 1)) k / (I.nlon : ℝ))

theorem rotate_ubar : (I.rotate s).ubar = I.ubar := I.rotate_zmean s I.uu
theorem rotate_tbar : (I.rotate s).tbar = I.tbar := I.rotate_zmean s I.pt
theorem rotate_qbar : (I.rotate s).qbar = I.qbar := I.rotate_zmean s I.pv

theorem rotate_tb : (I.rotate s).tb = I.tb := by
  funext k; unfold tb; rw [I.rotate_tbar]; rfl

variable (hi : 1 ≤ I.nlon) (hj : 1 ≤ I.nlat)
include hi hj

theorem rotate_qref : (I.rotate s).qref = I.qref := by
  have h : (I.rotate s).qrefRaw = I.qrefRaw := by
    funext j k
    show (if _ then ((I.area k).rotate s).qref j else 0) = if _ then _ else _
    rw [(I.area k).rotate_qref s hi hj]; rfl
  funext j k
  unfold qref qrefNorm
  rw [h]; rfl

theorem rotate_bound : (I.rotate s).bound = I.bound := by
  funext k
  have h : (I.rotate s).cbar = I.cbar := by
    funext k; unfold cbar; rw [I.rotate_qbar]; rfl
  unfold bound
  rw [h, I.rotate_ubar]
  show I.ubar 1 k + (if _ then ((I.area k).rotate s).cref _ 1 - _ else _) / _ = _
  rw [(I.area k).rotate_cref s hi hj]; rfl

theorem rotate_fjk : (I.rotate s).fjk = I.fjk := by
  funext j k; unfold fjk; rw [I.rotate_qref s hi hj]; rfl

theorem rotate_rowStep : (I.rotate s).rowStep = I.rowStep := by
  have h1 : (I.rotate s).resid = I.resid := by
    funext u j k; unfold resid; rw [I.rotate_fjk s hi hj]; rfl
  have h2 : (I.rotate s).relax = I.relax := by
    funext w u j k; unfold relax; rw [h1]; rfl
  have h3 : (I.rotate s).pointStep = I.pointStep := by
    funext m w j k x; unfold pointStep; rw [h1, h2]
  have h4 : (I.rotate s).uz = I.uz := by
    funext j; unfold uz; rw [I.rotate_tbar]; rfl
  funext m w j x
  unfold rowStep
  rw [h3, h4]; rfl

theorem rotate_sweep : (I.rotate s).sweep = I.sweep := by
  funext m w u
  unfold sweep
  rw [I.rotate_rowStep s hi hj, I.rotate_bound s hi hj]; rfl

theorem rotate_sorLoop (fuel : ℕ) : ∀ m w u, (I.rotate s).sorLoop fuel m w u = I.sorLoop fuel m w u := by
  have h : (I.rotate s).anormf = I.anormf := by
    unfold anormf; rw [I.rotate_fjk s hi hj]; rfl
  induction fuel with
  | zero => intro m w u; rfl
  | succ f ih =>
    intro m w u
    have ih' : (I.rotate s).sorLoop f = I.sorLoop f := by funext m w u; exact ih m w u
    unfold sorLoop
    rw [I.rotate_sweep s hi hj, h, ih']; rfl

theorem rotate_sor : (I.rotate s).sor = I.sor := I.rotate_sorLoop s hi hj _ _ _ _

theorem rotate_uref : (I.rotate s).uref = I.uref := by
  have h : (I.rotate s).windRows = I.windRows := by
    funext u j k; unfold windRows; rw [I.rotate_ubar]; rfl
  funext j k
  unfold uref
  rw [h, I.rotate_sor s hi hj]; rfl

theorem rotate_numOfIter : (I.rotate s).numOfIter = I.numOfIter := by
  unfold numOfIter; rw [I.rotate_sor s hi hj]

theorem rotate_tref : (I.rotate s).tref = I.tref := by
  have h1 : (I.rotate s).trefRaw = I.trefRaw := by
    funext k
    have : (I.rotate s).ty = I.ty := by
      funext j k; unfold ty; rw [I.rotate_uref s hi hj]; rfl
    unfold trefRaw; rw [this]; rfl
  have h2 : (I.rotate s).trefMid = I.trefMid := by
    funext j k; unfold trefMid tg; rw [h1, I.rotate_tb]; rfl
  funext j k
  unfold tref
  rw [h2, I.rotate_tb]; rfl

end RefIn

/-! ### The direct solver -/

namespace NhnIn

variable (I : NhnIn) (s : ℤ)

/-- The fields, rotated. -/
def rotate : NhnIn :=
  { I with
    pv := rot3 I.imax s I.pv
    uu := rot3 I.imax s I.uu
    vort := rot3 I.imax s I.vort
    pt := rot3 I.imax s I.pt }

theorem rotate_tbar : (I.rotate s).tbar = I.tbar := by
  funext j k
  exact dosum_rot s (fun i => I.pt i (j + (I.nd - 1)) k / (I.imax : ℝ))

variable (hi : 1 ≤ I.imax) (hj : 1 ≤ I.jmax)
include hi hj

theorem rotate_qref : (I.rotate s).qref = I.qref := by
  have h : (I.rotate s).qrefRaw = I.qrefRaw := by
    funext j k
    show (if _ then ((I.area I.pv k).rotate s).qref j else 0) = if _ then _ else _
    rw [(I.area I.pv k).rotate_qref s hi hj]; rfl
  funext j k
  unfold qref qrefNorm
  rw [h]; rfl

theorem rotate_ckref : (I.rotate s).ckref = I.ckref := by
  funext j k
  show (if _ then ((I.area I.vort k).rotate s).cref 0 j else 0) = if _ then _ else _
  rw [(I.area I.vort k).rotate_cref s hi hj]; rfl

theorem rotate_final : (I.rotate s).final = I.final := by
  have h1 : (I.rotate s).rj = I.rj := by
    funext k i
    have hf : (I.rotate s).fjk = I.fjk := by
      funext j k; unfold fjk; rw [I.rotate_qref s hi hj]; rfl
    have hb : (I.rotate s).bound = I.bound := by
      funext k; unfold bound; rw [I.rotate_ckref s hi hj]; rfl
    unfold rj
    rw [hf, hb]; rfl
  have h2 : (I.rotate s).levelStep = I.levelStep := by
    funext k st
    unfold levelStep
    rw [h1]; rfl
  have h3 : (I.rotate s).topState = I.topState := by
    have : (I.rotate s).topT = I.topT := by
      funext i; unfold topT; rw [I.rotate_tbar]; rfl
    unfold topState
    rw [this]; rfl
  unfold final downTo
  rw [h2, h3]; rfl

theorem rotate_uref : (I.rotate s).uref = I.uref := by
  have h1 : (I.rotate s).pjk = I.pjk := by
    unfold pjk; rw [I.rotate_final s hi hj]; rfl
  have h2 : (I.rotate s).uRaw = I.uRaw := by
    funext j k; unfold uRaw; rw [h1, I.rotate_ckref s hi hj]; rfl
  have h3 : (I.rotate s).uDiv = I.uDiv := by
    funext j k; unfold uDiv; rw [h2]; rfl
  funext j k
  unfold uref
  rw [h3]; rfl

theorem rotate_tref : (I.rotate s).tref = I.tref := by
  have h1 : (I.rotate s).trefRaw = I.trefRaw := by
    funext k
    have : (I.rotate s).ty = I.ty := by
      funext j k; unfold ty; rw [I.rotate_uref s hi hj]; rfl
    unfold trefRaw; rw [this]; rfl
  have h2 : (I.rotate s).trefMid = I.trefMid := by
    funext j k; unfold trefMid tg; rw [h1]; rfl
  funext j k
  unfold tref
  rw [h2]; rfl

theorem rotate_qrefOut : (I.rotate s).qrefOut = I.qrefOut := by
  funext j k; unfold qrefOut; rw [I.rotate_qref s hi hj]; rfl

end NhnIn

/-! ### The flux routine -/

namespace FluxIn

variable (I : FluxIn) (s : ℤ)

/-- The fields, rotated. -/
def rotate : FluxIn :=
  { I with
    pv := rot3 I.imax s I.pv
    uu := rot3 I.imax s I.uu
    vv := rot3 I.imax s I.vv
    pt := rot3 I.imax s I.pt
    ncforce := rot3 I.imax s I.ncforce }

theorem rotate_iter {i : ℤ} (hi : 1 ≤ i ∧ i ≤ I.imax) (j k : ℤ) :
    Iter (I.rotate s) i j k ↔ Iter I (rot I.imax s i) j k := by
  have h := rot_mem (show 1 ≤ I.imax by omega) s i
  show (_ ∧ (1 ≤ i ∧ i ≤ I.imax) ∧ _) ↔ (_ ∧ _ ∧ _)
  constructor
  · rintro ⟨a, _, c⟩; exact ⟨a, h, c⟩
  · rintro ⟨a, _, c⟩; exact ⟨a, hi, c⟩

theorem rotate_acc (i j k : ℤ) : (I.rotate s).acc i j k = I.acc (rot I.imax s i) j k := rfl

variable (hjb : 0 ≤ I.jb) {i : ℤ} (hi : 1 ≤ i ∧ i ≤ I.imax) (j k : ℤ)
include hjb hi

theorem rotate_astar1 : (I.rotate s).fluxDirinv.astar1 i j k = I.fluxDirinv.astar1 (rot I.imax s i) j k := by
  rw [(I.rotate s).astar1_eq hjb, I.astar1_eq hjb, if_congr (I.rotate_iter s hi j k) rfl rfl, rotate_acc]

theorem rotate_astar2 : (I.rotate s).fluxDirinv.astar2 i j k = I.fluxDirinv.astar2 (rot I.imax s i) j k := by
  rw [(I.rotate s).astar2_eq hjb, I.astar2_eq hjb, if_congr (I.rotate_iter s hi j k) rfl rfl, rotate_acc]

theorem rotate_ncforce3d : (I.rotate s).fluxDirinv.ncforce3d i j k = I.fluxDirinv.ncforce3d (rot I.imax s i) j k := by
  rw [(I.rotate s).ncforce3d_eq hjb, I.ncforce3d_eq hjb, if_congr (I.rotate_iter s hi j k) rfl rfl, rotate_acc]

theorem rotate_ua1 : (I.rotate s).fluxDirinv.ua1 i j k = I.fluxDirinv.ua1 (rot I.imax s i) j k := by
  rw [(I.rotate s).ua1_eq hjb, I.ua1_eq hjb, if_congr (I.rotate_iter s hi j k) rfl rfl, rotate_acc]; rfl

theorem rotate_ua2 : (I.rotate s).fluxDirinv.ua2 i j k = I.fluxDirinv.ua2 (rot I.imax s i) j k := by
  rw [(I.rotate s).ua2_eq hjb, I.ua2_eq hjb, if_congr (I.rotate_iter s hi j k) rfl rfl, rotate_acc]

theorem rotate_ep1 : (I.rotate s).fluxDirinv.ep1 i j k = I.fluxDirinv.ep1 (rot I.imax s i) j k := by
  rw [(I.rotate s).ep1_eq hjb, I.ep1_eq hjb, if_congr (I.rotate_iter s hi j k) rfl rfl]; rfl

theorem rotate_ep4 : (I.rotate s).fluxDirinv.ep4 i j = I.fluxDirinv.ep4 (rot I.imax s i) j := by
  rw [(I.rotate s).ep4_eq hjb, I.ep4_eq hjb, if_congr (I.rotate_iter s hi j 2) rfl rfl]; rfl

theorem rotate_ep23 (hnd : I.jb + 1 ≤ I.nd) :
    (I.rotate s).fluxDirinv.ep2 i j k = I.fluxDirinv.ep2 (rot I.imax s i) j k ∧
    (I.rotate s).fluxDirinv.ep3 i j k = I.fluxDirinv.ep3 (rot I.imax s i) j k := by
  have hr := rot_mem (show 1 ≤ I.imax by omega) s i
  have hnd1 : 1 ≤ I.nd := by omega
  by_cases hj : I.jb + 1 ≤ j ∧ j ≤ I.nd - 1
  · rw [(I.rotate s).ep2_eq hjb hnd1 hj.1 hj.2, I.ep2_eq hjb hnd1 hj.1 hj.2,
      (I.rotate s).ep3_eq hjb hnd1 hj.1 hj.2, I.ep3_eq hjb hnd1 hj.1 hj.2, if_congr (I.rotate_iter s hi j k) rfl rfl,
      if_congr (I.rotate_iter s hi j k) rfl rfl]
    exact ⟨rfl, rfl⟩
  by_cases hw : j = wrapJ I.nd I.jb
  · obtain ⟨k₁, hk₁⟩ : ∃ k₁, ∀ k', (j = wrapJ I.nd I.jb ∧ k = wrapK I.nd I.jb k') ↔ k' = k₁ := by
      unfold wrapK
      refine ⟨k - (I.jb - 1) / I.nd, fun k' => ⟨fun h => by omega, fun h => ⟨hw, by omega⟩⟩⟩
    have e1 := (I.rotate s).ep23_other (i := i) hjb hnd1 hj hk₁
    have e2 := I.ep23_other (i := rot I.imax s i) hjb hnd1 hj hk₁
    rw [e1.1, e1.2, e2.1, e2.2]
    have hc : ((2 ≤ k₁ ∧ k₁ ≤ (I.rotate s).kmax - 1) ∧ 1 ≤ i ∧ i ≤ (I.rotate s).imax) ↔
        ((2 ≤ k₁ ∧ k₁ ≤ I.kmax - 1) ∧ 1 ≤ rot I.imax s i ∧ rot I.imax s i ≤ I.imax) :=
      ⟨fun h => ⟨h.1, hr⟩, fun h => ⟨h.1, hi⟩⟩
    rw [if_congr hc rfl rfl, if_congr hc rfl rfl]
    exact ⟨rfl, rfl⟩
  · have e1 := (I.rotate s).ep23_zero (i := i) (k := k) hjb hnd1 hj hw
    have e2 := I.ep23_zero (i := rot I.imax s i) (k := k) hjb hnd1 hj hw
    rw [e1.1, e1.2, e2.1, e2.2]
    exact ⟨rfl, rfl⟩

end FluxIn

/-! ### `compute_lwa_only_nhn22` -/

namespace LwaIn

variable (I : LwaIn) (s : ℤ)

/-- The fields, rotated. -/
def rotate : LwaIn := { I with pv := rot3 I.imax s I.pv, uu := rot3 I.imax s I.uu }

theorem rotate_lwaOnly (hjb : 0 ≤ I.jb) {i : ℤ} (hi : 1 ≤ i ∧ i ≤ I.imax) (j : ℤ) :
    (∀ k, (I.rotate s).lwaOnly.astar1 i j k = I.lwaOnly.astar1 (rot I.imax s i) j k) ∧
    (∀ k, (I.rotate s).lwaOnly.astar2 i j k = I.lwaOnly.astar2 (rot I.imax s i) j k) ∧
    (I.rotate s).lwaOnly.astarbaro i j = I.lwaOnly.astarbaro (rot I.imax s i) j ∧
    (I.rotate s).lwaOnly.ubaro i j = I.lwaOnly.ubaro (rot I.imax s i) j := by
  have hr := rot_mem (show 1 ≤ I.imax by omega) s i
  obtain ⟨a1, a2, a3, a4⟩ := (I.rotate s).lwaOnly_eq hjb i j
  obtain ⟨b1, b2, b3, b4⟩ := I.lwaOnly_eq hjb (rot I.imax s i) j
  have hc : InRange (I.rotate s) i j ↔ InRange I (rot I.imax s i) j := ⟨fun h => ⟨hr, h.2⟩, fun h => ⟨hi, h.2⟩⟩
  refine ⟨fun k => ?_, fun k => ?_, ?_, ?_⟩
  · rw [a1, b1]
    exact if_congr (and_congr hc Iff.rfl) rfl rfl
  · rw [a2, b2]
    exact if_congr (and_congr hc Iff.rfl) rfl rfl
  · rw [a3, b3]
    exact if_congr hc rfl rfl
  · rw [a4, b4]; rfl

end LwaIn

end Falwa
