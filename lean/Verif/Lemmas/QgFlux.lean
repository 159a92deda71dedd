import Verif.Lemmas.Flux
import Verif.Spec.QgLwa
import Mathlib.Tactic.Positivity
import Mathlib.Tactic.FieldSimp
import Mathlib.Algebra.BigOperators.Field

/-! Lemmas about the callers of the flux routines. -/

set_option linter.unusedSectionVars false

noncomputable section

namespace Falwa

open Real Finset Spec

/-- Shapes with which `QGField` calls the routine: an odd number of rows, the equator in the middle, at least two rows
between the boundary row and the pole. -/
structure FluxIn.Shaped (I : FluxIn) : Prop where
  odd : I.jmax = 2 * I.nd - 1
  jb0 : 0 ≤ I.jb
  jbnd : I.jb + 2 ≤ I.nd
  jdEq : I.jd = I.nd - I.jb

namespace FluxIn

variable {I : FluxIn}

theorem Shaped.nd2 (h : I.Shaped) : 2 ≤ I.nd := by have := h.jb0; have := h.jbnd; omega

theorem Shaped.dp_pos (h : I.Shaped) : 0 < I.dp := by
  unfold dp
  have := h.nd2
  apply div_pos pi_pos
  rw [h.odd]
  exact_mod_cast (by omega : (0 : ℤ) < 2 * I.nd - 1 - 1)

/-- Latitudes of hemispheric rows lie in `[0, π/2]`. -/
theorem Shaped.phi_mem (h : I.Shaped) {j : ℤ} (h1 : 1 ≤ j) (h2 : j ≤ I.nd) : 0 ≤ I.phi j ∧ I.phi j ≤ π / 2 := by
  have hd := h.dp_pos
  have hj : (0 : ℝ) ≤ ((j - 1 : ℤ) : ℝ) := by exact_mod_cast (by omega : (0 : ℤ) ≤ j - 1)
  refine ⟨mul_nonneg hd.le hj, ?_⟩
  have hn : (0 : ℝ) < ((I.nd - 1 : ℤ) : ℝ) := by exact_mod_cast (by have := h.nd2; omega : (0 : ℤ) < I.nd - 1)
  have hle : ((j - 1 : ℤ) : ℝ) ≤ ((I.nd - 1 : ℤ) : ℝ) := by exact_mod_cast (by omega : j - 1 ≤ I.nd - 1)
  have hdp : I.dp = π / 2 / ((I.nd - 1 : ℤ) : ℝ) := by
    unfold dp
    rw [h.odd, show (2 * I.nd - 1 - 1 : ℤ) = 2 * (I.nd - 1) by ring]
    push_cast
    rw [div_div]
  unfold phi
  calc I.dp * ((j - 1 : ℤ) : ℝ) ≤ I.dp * ((I.nd - 1 : ℤ) : ℝ) := mul_le_mul_of_nonneg_left hle hd.le
    _ = π / 2 := by rw [hdp]; field_simp

theorem Shaped.cos_nonneg (h : I.Shaped) {j : ℤ} (h1 : 1 ≤ j) (h2 : j ≤ I.nd) : 0 ≤ cos (I.phi j) := by
  obtain ⟨a, b⟩ := h.phi_mem h1 h2
  exact cos_nonneg_of_neg_pi_div_two_le_of_le (by linarith [pi_pos]) b

theorem Shaped.qe_eq (h : I.Shaped) {i j k jj : ℤ} (h1 : 1 ≤ jj) (h2 : jj ≤ I.nd) (h3 : 1 ≤ j) (h4 : j ≤ I.nd) :
    I.qe i j k jj = I.pv i (jj + I.nd - 1) k - I.qref j k := by
  have := h.nd2
  have := h.odd
  unfold qe
  rw [rd3_of_mem (by omega) (by omega), rd2_of_mem h3 h4]

theorem Shaped.acc_nonneg (h : I.Shaped) (ha : 0 ≤ I.a) (i j k : ℤ) :
    0 ≤ (I.acc i j k).astar1 ∧ 0 ≤ (I.acc i j k).astar2 := by
  have hw : ∀ jj ∈ Icc 1 I.nd, 0 ≤ I.a * I.dp * cos (I.phi jj) := fun jj hjj => by
    rw [mem_Icc] at hjj
    exact mul_nonneg (mul_nonneg ha h.dp_pos.le) (h.cos_nonneg hjj.1 hjj.2)
  rw [acc_astar1, acc_astar2]
  constructor
  · refine sum_nonneg fun jj hjj => ?_
    split_ifs with c
    · exact mul_nonneg c.1.le (hw jj hjj)
    · exact le_rfl
  · refine sum_nonneg fun jj hjj => ?_
    split_ifs with c
    · rw [← neg_mul]
      exact mul_nonneg (neg_nonneg.2 c.1) (hw jj hjj)
    · exact le_rfl

/-- Sum of both parts: the displaced rows of the hemisphere. -/
theorem acc_total (i j k : ℤ) : (I.acc i j k).astar1 + (I.acc i j k).astar2 =
    ∑ jj ∈ Icc 1 I.nd, if (j ≤ jj ∧ I.qe i j k jj < 0) ∨ (jj < j ∧ 0 < I.qe i j k jj)
      then |I.qe i j k jj| * (I.a * I.dp * cos (I.phi jj)) else 0 := by
  rw [acc_astar1, acc_astar2, ← sum_add_distrib]
  refine sum_congr rfl fun jj _ => ?_
  rcases lt_trichotomy (I.qe i j k jj) 0 with hq | hq | hq
  · by_cases hj : j ≤ jj
    · rw [if_neg (fun c => by omega), if_pos ⟨hq.le, hj⟩, if_pos (Or.inl ⟨hj, hq⟩), abs_of_neg hq]; ring
    · rw [if_neg (fun c => by linarith [c.1]), if_neg (fun c => hj c.2), if_neg]; · ring
      rintro (c | c)
      · exact hj c.1
      · linarith [c.2]
  · rw [hq]; simp
  · by_cases hj : jj < j
    · rw [if_pos ⟨hq, hj⟩, if_neg (fun c => by linarith [c.1]), if_pos (Or.inr ⟨hj, hq⟩), abs_of_pos hq]; ring
    · rw [if_neg (fun c => hj c.2), if_neg (fun c => by linarith [c.1]), if_neg]; · ring
      rintro (c | c)
      · linarith [c.2]
      · exact hj c.1

end FluxIn

/-- A `QGField` that is ready for the flux computation. -/
structure QGAnalysis.Valid (S : QGAnalysis) : Prop where
  odd : S.nlat = 2 * S.nd - 1
  jb0 : 0 ≤ S.jb
  jbnd : S.jb + 2 ≤ S.nd
  jdEq : S.jd = S.nd - S.jb
  a0 : 0 ≤ S.a

namespace QGAnalysis

variable {S : QGAnalysis}

theorem Valid.north (h : S.Valid) : S.northIn.Shaped := ⟨h.odd, h.jb0, h.jbnd, h.jdEq⟩
theorem Valid.south (h : S.Valid) : S.southIn.Shaped := ⟨h.odd, h.jb0, h.jbnd, h.jdEq⟩

theorem sum_shift (n : ℤ) (F : ℤ → ℝ) : ∑ jj ∈ Icc 1 n, F (jj + n - 1) = ∑ r ∈ Icc n (2 * n - 1), F r := by
  refine sum_nbij' (fun jj => jj + n - 1) (fun r => r + 1 - n) ?_ ?_ ?_ ?_ ?_ <;> intro x hx <;>
    simp only [mem_Icc] at * <;> omega

theorem sum_flip (n : ℤ) (F : ℤ → ℝ) : ∑ jj ∈ Icc 1 n, F (n + 1 - jj) = ∑ r ∈ Icc 1 n, F r := by
  refine sum_nbij' (fun jj => n + 1 - jj) (fun r => n + 1 - r) ?_ ?_ ?_ ?_ ?_ <;> intro x hx <;>
    simp only [mem_Icc] at * <;> omega

theorem lat_cos_north (jj : ℤ) : S.northIn.phi jj = S.lat (jj + S.nd - 1) := by
  unfold FluxIn.phi FluxIn.dp lat dphi
  show π / ((S.nlat - 1 : ℤ) : ℝ) * _ = _
  rw [show jj + S.nd - 1 - S.nd = jj - 1 by ring]

theorem lat_cos_south (jj : ℤ) : S.southIn.phi jj = -S.lat (S.nd + 1 - jj) := by
  unfold FluxIn.phi FluxIn.dp lat dphi
  show π / ((S.nlat - 1 : ℤ) : ℝ) * _ = _
  rw [show S.nd + 1 - jj - S.nd = -(jj - 1) by ring]
  push_cast
  ring

/-- Northern total in terms of the analysis grid. `R` is the reference value. -/
theorem Valid.acc_north (h : S.Valid) {i j k : ℤ} (h3 : 1 ≤ j) (h4 : j ≤ S.nd) :
    (S.northIn.acc i j k).astar1 + (S.northIn.acc i j k).astar2 =
      waveActivityNorth (Icc S.nd S.nlat) (fun r => S.qgpv i r k) (S.qref (S.rows - S.nd + j) k)
        (fun r => S.a * cos (S.lat r) * S.dphi) (S.nd + j - 1) := by
  rw [FluxIn.acc_total, waveActivityNorth, sum_filter, h.odd, ← sum_shift]
  refine sum_congr rfl fun jj hjj => ?_
  have hm : 1 ≤ jj ∧ jj ≤ S.nd := mem_Icc.1 hjj
  rw [h.north.qe_eq hm.1 hm.2 h3 h4, lat_cos_north]
  show (if (j ≤ jj ∧ S.qgpv i (jj + S.nd - 1) k - S.qref (S.rows - S.nd + j) k < 0) ∨
    (jj < j ∧ 0 < S.qgpv i (jj + S.nd - 1) k - S.qref (S.rows - S.nd + j) k) then
      |S.qgpv i (jj + S.nd - 1) k - S.qref (S.rows - S.nd + j) k| * (S.a * S.dphi * cos (S.lat (jj + S.nd - 1))) else 0) = _
  have hc : ((j ≤ jj ∧ S.qgpv i (jj + S.nd - 1) k - S.qref (S.rows - S.nd + j) k < 0) ∨
    (jj < j ∧ 0 < S.qgpv i (jj + S.nd - 1) k - S.qref (S.rows - S.nd + j) k)) ↔
      DisplacedNorth (fun r => S.qgpv i r k) (S.qref (S.rows - S.nd + j) k) (S.nd + j - 1) (jj + S.nd - 1) := by
    unfold DisplacedNorth
    rw [sub_neg, sub_pos]
    constructor
    · rintro (⟨a, b⟩ | ⟨a, b⟩)
      · exact Or.inl ⟨by omega, b⟩
      · exact Or.inr ⟨by omega, b⟩
    · rintro (⟨a, b⟩ | ⟨a, b⟩)
      · exact Or.inl ⟨by omega, b⟩
      · exact Or.inr ⟨by omega, b⟩
  by_cases c : DisplacedNorth (fun r => S.qgpv i r k) (S.qref (S.rows - S.nd + j) k) (S.nd + j - 1) (jj + S.nd - 1)
  · rw [if_pos (hc.2 c), if_pos c]; ring
  · rw [if_neg (fun x => c (hc.1 x)), if_neg c]

/-- Southern total in terms of the analysis grid. -/
theorem Valid.acc_south (h : S.Valid) {i j k : ℤ} (h3 : 1 ≤ j) (h4 : j ≤ S.nd) :
    (S.southIn.acc i j k).astar1 + (S.southIn.acc i j k).astar2 =
      waveActivitySouth (Icc 1 S.nd) (fun r => S.qgpv i r k) (S.qref (S.nd + 1 - j) k)
        (fun r => S.a * cos (S.lat r) * S.dphi) (S.nd + 1 - j) := by
  rw [FluxIn.acc_total, waveActivitySouth, sum_filter]
  refine Eq.trans ?_ (sum_flip S.nd _)
  refine sum_congr rfl fun jj hjj => ?_
  have hm : 1 ≤ jj ∧ jj ≤ S.nd := mem_Icc.1 hjj
  rw [h.south.qe_eq hm.1 hm.2 h3 h4, lat_cos_south, cos_neg]
  have hrow : S.nlat + 1 - (jj + S.nd - 1) = S.nd + 1 - jj := by rw [h.odd]; ring
  show (if (j ≤ jj ∧ -S.qgpv i (S.nlat + 1 - (jj + S.nd - 1)) k - -S.qref (S.nd + 1 - j) k < 0) ∨
    (jj < j ∧ 0 < -S.qgpv i (S.nlat + 1 - (jj + S.nd - 1)) k - -S.qref (S.nd + 1 - j) k) then
      |-S.qgpv i (S.nlat + 1 - (jj + S.nd - 1)) k - -S.qref (S.nd + 1 - j) k| *
        (S.a * S.dphi * cos (S.lat (S.nd + 1 - jj))) else 0) = _
  rw [hrow]
  have e : -S.qgpv i (S.nd + 1 - jj) k - -S.qref (S.nd + 1 - j) k =
      -(S.qgpv i (S.nd + 1 - jj) k - S.qref (S.nd + 1 - j) k) := by ring
  rw [e, abs_neg]
  simp only [neg_lt_zero, Left.neg_pos_iff, sub_pos, sub_neg]
  have hc : ((j ≤ jj ∧ S.qref (S.nd + 1 - j) k < S.qgpv i (S.nd + 1 - jj) k) ∨
    (jj < j ∧ S.qgpv i (S.nd + 1 - jj) k < S.qref (S.nd + 1 - j) k)) ↔
      DisplacedSouth (fun r => S.qgpv i r k) (S.qref (S.nd + 1 - j) k) (S.nd + 1 - j) (S.nd + 1 - jj) := by
    unfold DisplacedSouth
    constructor
    · rintro (⟨a, b⟩ | ⟨a, b⟩)
      · exact Or.inl ⟨by omega, b⟩
      · exact Or.inr ⟨by omega, b⟩
    · rintro (⟨a, b⟩ | ⟨a, b⟩)
      · exact Or.inl ⟨by omega, b⟩
      · exact Or.inr ⟨by omega, b⟩
  by_cases c : DisplacedSouth (fun r => S.qgpv i r k) (S.qref (S.nd + 1 - j) k) (S.nd + 1 - j) (S.nd + 1 - jj)
  · rw [if_pos (hc.2 c), if_pos c]; ring
  · rw [if_neg (fun x => c (hc.1 x)), if_neg c]

theorem store_south {g : ℤ} (h : S.nhOnly = false) (hg : g ≤ S.nd) (n s : ℤ → ℝ) :
    S.store n s g = s (S.nd + 1 - g) := by
  unfold store
  rw [if_pos ⟨h, hg⟩]

theorem store_north {g : ℤ} (h : S.nhOnly = true ∨ S.nd < g) (hg : S.rows - S.nd + 1 ≤ g) (n s : ℤ → ℝ) :
    S.store n s g = n (g - (S.rows - S.nd)) := by
  unfold store
  rw [if_neg, if_pos hg]
  rintro ⟨h1, h2⟩
  rcases h with h | h
  · rw [h1] at h; exact absurd h (by simp)
  · omega

theorem prefactor_pos (hdz : 0 < S.dz) (hk : 3 ≤ S.kmax) : 0 < S.prefactor := by
  unfold prefactor
  refine sum_pos (fun k _ => by positivity) ⟨1, by rw [mem_Icc]; omega⟩

/-- The interior weights add up to 1. -/
theorem sum_weights (hdz : 0 < S.dz) (hk : 3 ≤ S.kmax) :
    ∑ k ∈ Icc 2 (S.kmax - 1), exp (-(S.dz * ((k - 1 : ℤ) : ℝ)) / S.h) * (S.dz / S.prefactor) = 1 := by
  have hp := prefactor_pos hdz hk
  have e : ∑ k ∈ Icc 2 (S.kmax - 1), exp (-(S.dz * ((k - 1 : ℤ) : ℝ)) / S.h) * S.dz = S.prefactor := by
    unfold prefactor
    refine sum_nbij' (fun k => k - 1) (fun k => k + 1) ?_ ?_ ?_ ?_ ?_ <;> intro x hx <;>
      simp only [mem_Icc] at * <;> first | omega | skip
    congr 3
    ring
  rw [← sum_congr rfl fun k _ => (mul_div_assoc _ _ _), ← sum_div, e, div_self hp.ne']

/-- The average drops a top level that is zero. -/
theorem verticalAverage_interior (f : ℤ → ℝ) (hk : 2 ≤ S.kmax) (htop : f S.kmax = 0) :
    S.verticalAverage f = ∑ k ∈ Icc 2 (S.kmax - 1), f k * exp (-S.height k / S.h) * (S.dz / S.prefactor) := by
  unfold verticalAverage
  have hI : Icc 2 S.kmax = insert S.kmax (Icc 2 (S.kmax - 1)) := by
    ext x; simp only [mem_Icc, mem_insert]; omega
  rw [hI, sum_insert (by simp), htop]
  ring

end QGAnalysis

end Falwa
