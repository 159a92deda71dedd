import Verif.Lemmas.Balance
import Verif.Lemmas.Response

/-! # The discretised operator applied to a solution of the balance equation -/

noncomputable section

namespace Falwa.Spec

open Real Finset

namespace Planet

variable {p : Planet} {S : ℤ → ℝ} {j0 j1 kmax : ℤ}

/-- The midpoint rule on the rows `j .. j1`. -/
theorem quadrature {L L' L'' L''' : ℝ → ℝ} {D : ℝ} (hd : 0 ≤ p.dphi) (d : ∀ x, HasDerivAt L (L' x) x)
    (d' : ∀ x, HasDerivAt L' (L'' x) x) (d'' : ∀ x, HasDerivAt L'' (L''' x) x) {j : ℤ} (hj : j ≤ j1)
    (hb : ∀ x, p.lat j ≤ x → x ≤ p.lat j1 → |L''' x| ≤ D) :
    |L (p.lat j1) - L (p.lat j) - ∑ l ∈ Ico j j1, p.dphi * L' (p.lat (l + 1 / 2))| ≤ D * p.dphi ^ 2 * (p.lat j1 - p.lat j) := by
  obtain ⟨n, hn⟩ : ∃ n : ℕ, j = j1 - n := ⟨(j1 - j).toNat, by omega⟩
  induction n generalizing j with
  | zero =>
    rw [show j = j1 by simpa using hn]
    simp
  | succ n ih =>
    have hj' : j + 1 ≤ j1 := by push_cast at hn; omega
    have e1 : p.lat ((j + 1 : ℤ) : ℝ) = p.lat (j + 1 / 2) + p.dphi / 2 := by unfold lat; push_cast; ring
    have e2 : p.lat j = p.lat (j + 1 / 2) - p.dphi / 2 := by unfold lat; ring
    have e3 : p.lat ((j + 1 : ℤ) : ℝ) ≤ p.lat j1 := by
      unfold lat
      refine mul_le_mul_of_nonneg_right ?_ hd
      have : ((j + 1 : ℤ) : ℝ) ≤ j1 := by exact_mod_cast hj'
      linarith
    have i := ih hj' (fun x x1 x2 => hb x (by rw [e1] at x1; rw [e2]; linarith) x2) (by push_cast at hn; omega)
    have m := midpoint_le (x := p.lat (j + 1 / 2)) (h := p.dphi / 2) (C := D) (by linarith) d d' d''
      (fun x x1 x2 => hb x (by rw [e2]; exact x1) (x2.trans (by rw [← e1]; exact e3)))
    rw [← e1, ← e2] at m
    have D0 : 0 ≤ D := (abs_nonneg _).trans (hb (p.lat j) le_rfl (by rw [e2]; linarith [e1, e3]))
    rw [sum_Ico_step (by omega : j < j1)]
    have : 2 * D * (p.dphi / 2) ^ 3 ≤ D * p.dphi ^ 2 * (p.lat ((j + 1 : ℤ) : ℝ) - p.lat j) := by
      rw [e1, e2]
      have := mul_nonneg D0 (pow_nonneg hd 3)
      nlinarith
    have r : D * p.dphi ^ 2 * (p.lat j1 - p.lat j) = D * p.dphi ^ 2 * (p.lat j1 - p.lat ((j + 1 : ℤ) : ℝ)) +
        D * p.dphi ^ 2 * (p.lat ((j + 1 : ℤ) : ℝ) - p.lat j) := by ring
    rw [r]
    refine le_trans ?_ (add_le_add i (m.trans this))
    refine le_trans (le_of_eq ?_) (abs_add_le _ _)
    congr 1
    ring

/-- A function with almost the same operator, boundary values and differences at the top as a solution is close to it. -/
theorem Stable.bounded_oper (h : p.Stable S j0 j1 kmax) (h01 : j0 < j1) {V W : ℤ → ℤ → ℝ} {kt : ℤ} (kt1 : 1 ≤ kt) (kt2 : kt < kmax)
    {B R t : ℝ} (B0 : 0 ≤ B) (R0 : 0 ≤ R) (t0 : 0 ≤ t)
    (e : ∀ j k, j0 < j → j < j1 → 1 < k → k < kmax → |p.oper S W j k - p.oper S V j k| ≤ R)
    (h0 : ∀ k, 1 < k → k < kmax → |W j0 k - V j0 k| ≤ B) (h1 : ∀ k, 1 < k → k < kmax → W j1 k = V j1 k)
    (hb : ∀ j, j0 < j → j < j1 → W j 1 = V j 1)
    (ht : ∀ j, j0 < j → j < j1 → |(W j kmax - W j kt) - (V j kmax - V j kt)| ≤ t) :
    ∀ j k, j0 < j → j < j1 → 1 < k → k < kmax →
      |W j k - V j k| ≤ B + R * p.reach j0 j1 j + t * p.column S kmax k := by
  have key : ∀ {V W : ℤ → ℤ → ℝ},
      (∀ j k, j0 < j → j < j1 → 1 < k → k < kmax → |p.oper S W j k - p.oper S V j k| ≤ R) →
      (∀ k, 1 < k → k < kmax → |W j0 k - V j0 k| ≤ B) → (∀ k, 1 < k → k < kmax → W j1 k = V j1 k) →
      (∀ j, j0 < j → j < j1 → W j 1 = V j 1) →
      (∀ j, j0 < j → j < j1 → |(W j kmax - W j kt) - (V j kmax - V j kt)| ≤ t) →
      ∀ j k, j0 < j → j < j1 → 1 < k → k < kmax → W j k - V j k ≤ B + R * p.reach j0 j1 j + t * p.column S kmax k := by
    intro V W e h0 h1 hb ht j k a1 a2 k1 k2
    have mono : p.column S kmax kt ≤ p.column S kmax (kmax - 1) := by
      unfold column
      refine sum_le_sum_of_subset_of_nonneg (fun l hl => ?_) fun l hl _ => ?_
      · rw [mem_Ico] at hl ⊢; omega
      · rw [mem_Ico] at hl
        have := h.link_pos hl.1 (by omega)
        have := h.link_pos (k := kmax - 1) (by omega) (by omega)
        positivity
    have top : p.column S kmax kmax = p.column S kmax (kmax - 1) + 1 := by
      have := sum_Ico_last (by omega : 1 ≤ kmax - 1) (fun l => p.link S (kmax - 1) / p.link S l)
      rw [show kmax - 1 + 1 = kmax by ring, div_self (h.link_pos (by omega) (by omega)).ne'] at this
      exact this
    have := compare_principle (w := fun j k => (W j k - V j k) - (B + R * p.reach j0 j1 j + t * p.column S kmax k)) h.pos
      (fun j k a1 a2 k1 k2 => by
        rw [fivePoint_sub, fivePoint_sub]
        have q3 := (abs_le.1 (e j k a1 a2 k1 k2)).1
        have q4 := h.oper_barrier B R t a1 a2 k1 k2
        unfold oper at q3 q4
        rw [q4]
        linarith)
      (fun k k1 k2 => by
        have := (abs_le.1 (h0 k k1 k2)).2
        have := mul_nonneg R0 (h.reach_nonneg (j := j0) le_rfl)
        have := mul_nonneg t0 (h.column_nonneg k2.le)
        linarith)
      (fun k k1 k2 => by
        have := h1 k k1 k2
        have := mul_nonneg R0 (h.reach_nonneg (j := j1) h01.le)
        have := mul_nonneg t0 (h.column_nonneg k2.le)
        linarith)
      (fun j a1 a2 => by
        have := hb j a1 a2
        have := mul_nonneg R0 (h.reach_nonneg (j := j) a1.le)
        have := mul_nonneg t0 (h.column_nonneg (by omega : 1 ≤ kmax))
        linarith)
      (fun j a1 a2 => ⟨kt, kt1, kt2, by
        have := (abs_le.1 (ht j a1 a2)).2
        rw [top]
        have := mul_le_mul_of_nonneg_left mono t0
        linarith⟩)
      j k a1 a2 k1 k2
    exact sub_nonpos.1 this
  intro j k a1 a2 k1 k2
  rw [abs_le']
  refine ⟨key e h0 h1 hb ht j k a1 a2 k1 k2, ?_⟩
  have := key (V := W) (W := V) (fun j k a1 a2 k1 k2 => by rw [abs_sub_comm]; exact e j k a1 a2 k1 k2)
    (fun k k1 k2 => by rw [abs_sub_comm]; exact h0 k k1 k2) (fun k k1 k2 => (h1 k k1 k2).symm)
    (fun j a1 a2 => (hb j a1 a2).symm) (fun j a1 a2 => by rw [abs_sub_comm]; exact ht j a1 a2) j k a1 a2 k1 k2
  linarith

end Planet

namespace BalancedState

variable {B : BalancedState}

/-- The wind times the cosine of latitude. -/
def momentum (B : BalancedState) (q : ℝ × ℝ) : ℝ := B.u q * cos q.1

theorem Solves.contDiff_momentum (hB : B.Solves) : ContDiff ℝ 5 B.momentum := hB.smoothU.mul (contDiff_cos.comp contDiff_fst)

theorem Solves.pdx_momentum (hB : B.Solves) {φ z : ℝ} (f1 : B.south ≤ φ) (f2 : φ ≤ π / 2) (z1 : 0 ≤ z) (z2 : z ≤ B.top) :
    pdx B.momentum (φ, z) = sin φ * cos φ * B.G (φ, z) := by
  rw [← hB.slope φ z f1 f2 z1 z2]
  exact ((hasDerivAt_pdx hB.contDiff_momentum (by norm_num) φ z).deriv).symm

/-- The slope at the half rows, summed from the pole: a function whose meridional differences are exact. -/
def shadow (B : BalancedState) (p : Planet) (j1 j : ℤ) (z : ℝ) : ℝ :=
  -∑ l ∈ Ico j j1, p.dphi * pdx B.momentum (p.lat (l + 1 / 2), z)

theorem lift_sum {ι : Type*} (s : Finset ι) (c : ι → ℝ) (f : ι → ℝ → ℝ) (z d : ℝ) :
    B.lift (fun y => -∑ l ∈ s, c l * f l y) z d = -∑ l ∈ s, c l * B.lift (f l) z d := by
  unfold lift
  rw [neg_sub_neg, neg_sub_neg, ← sum_sub_distrib, ← sum_sub_distrib, mul_sum, mul_sum, ← sum_sub_distrib, ← sum_neg_distrib]
  exact sum_congr rfl fun l _ => by ring

theorem lift_deriv {f g : ℝ × ℝ → ℝ} (h : ∀ x y, HasDerivAt (fun x => f (x, y)) (g (x, y)) x) (z d x : ℝ) :
    HasDerivAt (fun x => B.lift (fun y => f (x, y)) z d) (B.lift (fun y => g (x, y)) z d) x :=
  (((h x (z + d)).sub (h x z)).const_mul _).sub (((h x z).sub (h x (z - d))).const_mul _)

theorem cos_ge {φ : ℝ} (f1 : 0 ≤ φ) (f2 : φ ≤ π / 2) : π / 2 - φ ≤ π / 2 * cos φ := by
  have := mul_le_sin (x := π / 2 - φ) (by linarith) (by linarith)
  rw [sin_pi_div_two_sub] at this
  have := mul_le_mul_of_nonneg_left this (by positivity : 0 ≤ π / 2)
  have e : π / 2 * (2 / π * (π / 2 - φ)) = π / 2 - φ := by field_simp
  linarith

section

variable {p : Planet} {S : ℤ → ℝ} {j0 j1 kmax : ℤ}

theorem Grid.lat_mem (hg : B.Grid p S j0 j1 kmax) {x : ℝ} (x1 : (j0 : ℝ) ≤ x) (x2 : x ≤ j1) : B.south ≤ p.lat x ∧ p.lat x ≤ π / 2 := by
  have := hg.first
  have := hg.pole
  have := hg.dphi
  unfold Planet.lat at *
  constructor <;> nlinarith

theorem Grid.height_mem (hg : B.Grid p S j0 j1 kmax) {x : ℝ} (x1 : 1 ≤ x) (x2 : x ≤ kmax) : 0 ≤ p.height x ∧ p.height x ≤ B.top := by
  have := hg.last
  have := hg.dz
  unfold Planet.height at *
  constructor <;> nlinarith

theorem Grid.lat_lt (hg : B.Grid p S j0 j1 kmax) {x : ℝ} (x1 : (j0 : ℝ) < x) (x2 : x < j1) : B.south < p.lat x ∧ p.lat x < π / 2 := by
  have := hg.first
  have := hg.pole
  have := hg.dphi
  unfold Planet.lat at *
  constructor <;> nlinarith

theorem Grid.height_lt (hg : B.Grid p S j0 j1 kmax) {x : ℝ} (x1 : 1 < x) (x2 : x < kmax) : 0 < p.height x ∧ p.height x < B.top := by
  have := hg.last
  have := hg.dz
  unfold Planet.height at *
  constructor <;> nlinarith

theorem Grid.stable (hg : B.Grid p S j0 j1 kmax) (hB : B.Solves) : p.Stable S j0 j1 kmax where
  row := fun x x1 x2 => by
    obtain ⟨l1, l2⟩ := hg.lat_lt x1 x2
    have := hB.south0
    exact ⟨sin_pos_of_pos_of_lt_pi (by linarith) (by linarith [pi_pos]), cos_pos_of_mem_Ioo ⟨by linarith [pi_pos], l2⟩⟩
  vert := by
    have h1 := hB.a0
    have h2 := hB.om0
    have h3 := hB.h0
    have h4 := hB.r0
    have h5 := hg.dz
    have h6 := hg.dphi
    rw [hg.a, hg.om, hg.h, hg.r]
    positivity
  stat := fun k k1 k2 => by rw [hg.stat k k1 k2]; exact hB.stable _

theorem Grid.link_eq (hg : B.Grid p S j0 j1 kmax) {k : ℤ} (k1 : 1 ≤ k) (k2 : k < kmax) :
    p.link S k = B.mesh (p.height (k + 1 / 2)) p.dz := by
  unfold Planet.link mesh
  rw [hg.stat k k1 (by omega), hg.stat (k + 1) (by omega) (by omega), hg.h, hg.r, hg.cp]
  have e1 : p.height ((k + 1 : ℤ) : ℝ) = p.height (k + 1 / 2) + p.dz / 2 := by unfold Planet.height; push_cast; ring
  have e2 : p.height k = p.height (k + 1 / 2) - p.dz / 2 := by unfold Planet.height; ring
  rw [e1, e2]

/-- The vertical part of the operator. -/
theorem Grid.vertical_eq (hg : B.Grid p S j0 j1 kmax) (v : ℝ → ℝ) {j k : ℤ} (k1 : 1 < k) (k2 : k < kmax) :
    p.above S j k * (v (p.height ((k + 1 : ℤ) : ℝ)) - v (p.height k)) - p.below S j k * (v (p.height k) - v (p.height ((k - 1 : ℤ) : ℝ))) =
      (2 * p.om * p.a * p.dphi / p.dz) ^ 2 * (p.h / p.r) * (sin (p.lat j) / cos (p.lat j)) * exp (p.height k / p.h) *
        B.lift v (p.height k) p.dz := by
  have c1 : p.above S j k = (2 * p.om * p.a * p.dphi / p.dz) ^ 2 * (p.h / p.r) * (sin (p.lat j) / cos (p.lat j)) *
      exp (p.height k / p.h) * p.link S k := by
    unfold Planet.above Planet.stiffness Planet.link
    ring
  have c2 : p.below S j k = (2 * p.om * p.a * p.dphi / p.dz) ^ 2 * (p.h / p.r) * (sin (p.lat j) / cos (p.lat j)) *
      exp (p.height k / p.h) * p.link S (k - 1) := by
    unfold Planet.below Planet.stiffness Planet.link
    rw [show k - 1 + 1 = k by ring, show ((k - 1 : ℤ) : ℝ) + 1 / 2 = (k : ℝ) - 1 / 2 by push_cast; ring, add_comm (S k)]
    ring
  have e1 : p.height ((k + 1 : ℤ) : ℝ) = p.height k + p.dz := by unfold Planet.height; push_cast; ring
  have e2 : p.height ((k - 1 : ℤ) : ℝ) = p.height k - p.dz := by unfold Planet.height; push_cast; ring
  have e3 : p.height ((k : ℝ) + 1 / 2) = p.height k + p.dz / 2 := by unfold Planet.height; ring
  have e4 : p.height (((k - 1 : ℤ) : ℝ) + 1 / 2) = p.height k - p.dz / 2 := by unfold Planet.height; push_cast; ring
  rw [c1, c2, hg.link_eq (by omega) k2, hg.link_eq (by omega) (by omega), e1, e2, e3, e4]
  unfold lift
  ring

/-- The meridional part of the operator, applied to the summed slopes. -/
theorem Grid.meridional_eq (hg : B.Grid p S j0 j1 kmax) (hB : B.Solves) {j : ℤ} {z : ℝ} (a1 : j0 < j) (a2 : j < j1) (z1 : 0 ≤ z)
    (z2 : z ≤ B.top) :
    p.north j * (B.shadow p j1 (j + 1) z - B.shadow p j1 j z) - p.south j * (B.shadow p j1 j z - B.shadow p j1 (j - 1) z) =
      p.dphi * (B.G (p.lat j + p.dphi / 2, z) - B.G (p.lat j - p.dphi / 2, z)) := by
  have b1 : (j0 : ℝ) + 1 ≤ j := by exact_mod_cast a1
  have b2 : (j : ℝ) + 1 ≤ j1 := by exact_mod_cast a2
  obtain ⟨n1, n2⟩ := (hg.stable hB).row (j + 1 / 2) (by linarith) (by linarith)
  obtain ⟨s1, s2⟩ := (hg.stable hB).row (j - 1 / 2) (by linarith) (by linarith)
  have e1 : B.shadow p j1 (j + 1) z - B.shadow p j1 j z = p.dphi * pdx B.momentum (p.lat (j + 1 / 2), z) := by
    unfold shadow
    rw [Planet.sum_Ico_step a2]
    ring
  have e2 : B.shadow p j1 j z - B.shadow p j1 (j - 1) z = p.dphi * pdx B.momentum (p.lat (j - 1 / 2), z) := by
    unfold shadow
    rw [Planet.sum_Ico_step (by omega : j - 1 < j1), show j - 1 + 1 = j by ring,
      show ((j - 1 : ℤ) : ℝ) + 1 / 2 = (j : ℝ) - 1 / 2 by push_cast; ring]
    ring
  obtain ⟨l1, l2⟩ := hg.lat_mem (x := (j : ℝ) + 1 / 2) (by linarith) (by linarith)
  obtain ⟨l3, l4⟩ := hg.lat_mem (x := (j : ℝ) - 1 / 2) (by linarith) (by linarith)
  have e3 : p.lat j + p.dphi / 2 = p.lat (j + 1 / 2) := by unfold Planet.lat; ring
  have e4 : p.lat j - p.dphi / 2 = p.lat (j - 1 / 2) := by unfold Planet.lat; ring
  rw [e1, e2, hB.pdx_momentum l1 l2 z1 z2, hB.pdx_momentum l3 l4 z1 z2, e3, e4]
  unfold Planet.north Planet.south
  generalize p.lat ((j : ℝ) + 1 / 2) = x at *
  generalize p.lat ((j : ℝ) - 1 / 2) = y at *
  field_simp

end

/-- Size of the third meridional derivative and what the vertical operator makes of it. -/
theorem Solves.shadow_close (hB : B.Solves) : ∃ C, 0 ≤ C ∧ ∀ (p : Planet) (S : ℤ → ℝ) (j0 j1 kmax : ℤ), B.Grid p S j0 j1 kmax →
    ∀ j, j0 ≤ j → j ≤ j1 →
      (∀ z, 0 ≤ z → z ≤ B.top → |B.momentum (p.lat j, z) - B.shadow p j1 j z| ≤ C * p.dphi ^ 2) ∧
      (∀ z y, 0 ≤ z → z ≤ y → y ≤ B.top →
        |(B.momentum (p.lat j, y) - B.shadow p j1 j y) - (B.momentum (p.lat j, z) - B.shadow p j1 j z)| ≤
          C * p.dphi ^ 2 * (y - z)) ∧
      (∀ z, 0 ≤ z - p.dz → z + p.dz ≤ B.top →
        |cos (p.lat j) * B.lift (fun y => B.u (p.lat j, y)) z p.dz - B.lift (B.shadow p j1 j) z p.dz| ≤
          C * p.dphi ^ 2 * p.dz ^ 2 * cos (p.lat j)) := by
  have m5 := hB.contDiff_momentum
  have c1 : ContDiff ℝ 4 (pdx B.momentum) := contDiff_pdx m5 (by norm_num)
  have c2 : ContDiff ℝ 3 (pdx (pdx B.momentum)) := contDiff_pdx c1 (by norm_num)
  have c3 : ContDiff ℝ 2 (pdx (pdx (pdx B.momentum))) := contDiff_pdx c2 (by norm_num)
  have c4 : ContDiff ℝ 1 (pdy (pdx (pdx (pdx B.momentum)))) := contDiff_pdy c3 (by norm_num)
  have hpi := pi_pos
  obtain ⟨C1, C10, h1⟩ := exists_bound c3.continuous 0 (π / 2) 0 B.top
  obtain ⟨C2, C20, h2⟩ := exists_bound c4.continuous 0 (π / 2) 0 B.top
  obtain ⟨C3, C30, h3⟩ := hB.lift_small c3
  refine ⟨(C1 + C2 + C3) * (π / 2), by positivity, fun p S j0 j1 kmax hg j a1 a2 => ?_⟩
  have hs := hB.south0
  have hd := hg.dphi
  have b1 : (j0 : ℝ) ≤ j := by exact_mod_cast a1
  have b2 : (j : ℝ) ≤ j1 := by exact_mod_cast a2
  obtain ⟨l1, l2⟩ := hg.lat_mem b1 b2
  have pole : ∀ z, B.momentum (p.lat j1, z) = 0 := by
    intro z
    show B.u (p.lat j1, z) * cos (p.lat j1) = 0
    rw [hg.pole, cos_pi_div_two, mul_zero]
  have len : p.lat j1 - p.lat j ≤ π / 2 := by rw [hg.pole]; linarith
  have len0 : 0 ≤ p.lat j1 - p.lat j := by rw [hg.pole]; linarith
  have d1 : ∀ x y, HasDerivAt (fun x => B.momentum (x, y)) (pdx B.momentum (x, y)) x := fun x y =>
    hasDerivAt_pdx m5 (by norm_num) x y
  have d2 : ∀ x y, HasDerivAt (fun x => pdx B.momentum (x, y)) (pdx (pdx B.momentum) (x, y)) x := fun x y =>
    hasDerivAt_pdx c1 (by norm_num) x y
  have d3 : ∀ x y, HasDerivAt (fun x => pdx (pdx B.momentum) (x, y)) (pdx (pdx (pdx B.momentum)) (x, y)) x := fun x y =>
    hasDerivAt_pdx c2 (by norm_num) x y
  have sq := sq_nonneg p.dphi
  refine ⟨fun z z1 z2 => ?_, fun z y z1 zy y2 => ?_, fun z z1 z2 => ?_⟩
  · have q := Planet.quadrature (D := C1) hd.le (fun x => d1 x z) (fun x => d2 x z) (fun x => d3 x z) a2
      (fun x x1 x2 => h1 x z (by linarith) (by rw [hg.pole] at x2; linarith) z1 z2)
    rw [pole] at q
    have e : B.momentum (p.lat j, z) - B.shadow p j1 j z = -(0 - B.momentum (p.lat j, z) -
        ∑ l ∈ Ico j j1, p.dphi * pdx B.momentum (p.lat (l + 1 / 2), z)) := by
      unfold shadow
      ring
    rw [e, abs_neg]
    refine q.trans ?_
    calc _ ≤ C1 * p.dphi ^ 2 * (π / 2) := mul_le_mul_of_nonneg_left len (by positivity)
      _ ≤ (C1 + C2 + C3) * p.dphi ^ 2 * (π / 2) := by
        refine mul_le_mul_of_nonneg_right (mul_le_mul_of_nonneg_right (by linarith) sq) (by positivity)
      _ = _ := by ring
  · have q := Planet.quadrature (D := C2 * (y - z)) hd.le (fun x => (d1 x y).sub (d1 x z)) (fun x => (d2 x y).sub (d2 x z))
      (fun x => (d3 x y).sub (d3 x z)) a2 (fun x x1 x2 => diff_le zy (hasDerivAt_pdy c3 (by norm_num) x)
        (fun w w1 w2 => h2 x w (by linarith) (by rw [hg.pole] at x2; linarith) (by linarith) (by linarith)))
    have e : (B.momentum (p.lat j, y) - B.shadow p j1 j y) - (B.momentum (p.lat j, z) - B.shadow p j1 j z) =
        -((B.momentum (p.lat j1, y) - B.momentum (p.lat j1, z)) - (B.momentum (p.lat j, y) - B.momentum (p.lat j, z)) -
        ∑ l ∈ Ico j j1, p.dphi * (pdx B.momentum (p.lat (l + 1 / 2), y) - pdx B.momentum (p.lat (l + 1 / 2), z))) := by
      have : ∑ l ∈ Ico j j1, p.dphi * (pdx B.momentum (p.lat (l + 1 / 2), y) - pdx B.momentum (p.lat (l + 1 / 2), z)) =
          ∑ l ∈ Ico j j1, p.dphi * pdx B.momentum (p.lat (l + 1 / 2), y) -
          ∑ l ∈ Ico j j1, p.dphi * pdx B.momentum (p.lat (l + 1 / 2), z) := by
        rw [← sum_sub_distrib]
        exact sum_congr rfl fun l _ => by ring
      rw [this, pole, pole]
      unfold shadow
      ring
    rw [e, abs_neg]
    refine q.trans ?_
    have zy' : 0 ≤ y - z := by linarith
    calc _ ≤ C2 * (y - z) * p.dphi ^ 2 * (π / 2) := mul_le_mul_of_nonneg_left len (by positivity)
      _ = C2 * (π / 2) * p.dphi ^ 2 * (y - z) := by ring
      _ ≤ _ := mul_le_mul_of_nonneg_right (mul_le_mul_of_nonneg_right
          (mul_le_mul_of_nonneg_right (by linarith) (by positivity)) sq) zy'
  · have q := Planet.quadrature (D := C3 * p.dz ^ 2) hd.le (fun x => lift_deriv (B := B) d1 z p.dz x)
      (fun x => lift_deriv (B := B) d2 z p.dz x) (fun x => lift_deriv (B := B) d3 z p.dz x) a2
      (fun x x1 x2 => h3 x z p.dz (by linarith) (by rw [hg.pole] at x2; linarith) hg.dz.le z1 z2)
    have e0 : B.lift (fun y => B.momentum (p.lat j1, y)) z p.dz = 0 := by
      unfold lift
      simp only [pole]
      ring
    have e1 : B.lift (fun y => B.momentum (p.lat j, y)) z p.dz = cos (p.lat j) * B.lift (fun y => B.u (p.lat j, y)) z p.dz := by
      unfold lift momentum
      ring
    have e2 : B.lift (B.shadow p j1 j) z p.dz =
        -∑ l ∈ Ico j j1, p.dphi * B.lift (fun y => pdx B.momentum (p.lat (l + 1 / 2), y)) z p.dz :=
      lift_sum (B := B) (Ico j j1) (fun _ => p.dphi) (fun l y => pdx B.momentum (p.lat (l + 1 / 2), y)) z p.dz
    rw [e0, e1] at q
    have e : cos (p.lat j) * B.lift (fun y => B.u (p.lat j, y)) z p.dz - B.lift (B.shadow p j1 j) z p.dz =
        -(0 - cos (p.lat j) * B.lift (fun y => B.u (p.lat j, y)) z p.dz -
          ∑ l ∈ Ico j j1, p.dphi * B.lift (fun y => pdx B.momentum (p.lat (l + 1 / 2), y)) z p.dz) := by
      rw [e2]
      ring
    rw [e, abs_neg]
    refine q.trans ?_
    have hc := cos_ge (φ := p.lat j) (by linarith) l2
    have c0 : 0 ≤ cos (p.lat j) := cos_nonneg_of_mem_Icc ⟨by linarith, l2⟩
    rw [hg.pole]
    calc _ ≤ C3 * p.dz ^ 2 * p.dphi ^ 2 * (π / 2 * cos (p.lat j)) := mul_le_mul_of_nonneg_left hc (by positivity)
      _ = C3 * (π / 2) * (p.dphi ^ 2 * p.dz ^ 2 * cos (p.lat j)) := by ring
      _ ≤ (C1 + C2 + C3) * (π / 2) * (p.dphi ^ 2 * p.dz ^ 2 * cos (p.lat j)) :=
          mul_le_mul_of_nonneg_right (mul_le_mul_of_nonneg_right (by linarith) (by positivity)) (by positivity)
      _ = _ := by ring

/-- Sum of the three errors. -/
theorem gather {x d C1 C2 C3 A Y c D1 D2 D3 : ℝ} (hx : 0 < x) (hd : 0 < d) (C10 : 0 ≤ C1) (C20 : 0 ≤ C2) (C30 : 0 ≤ C3)
    (A0 : 0 ≤ A) (AY : A ≤ Y) (hc : 0 < c) (q1 : |D1| ≤ 2 * C1 * (x / 2) ^ 3) (q2 : |D2| ≤ C2 * x ^ 2 * d ^ 2 * c)
    (q3 : |D3| ≤ C3 * d ^ 3) :
    |x * D1 + x ^ 2 / d ^ 2 * A * (D3 - D2 / c)| ≤ (C1 + Y * (C2 + C3)) * x ^ 2 * (x ^ 2 + d) := by
  have Y0 : 0 ≤ Y := A0.trans AY
  refine (abs_add_le _ _).trans ?_
  have t1 : |x * D1| ≤ C1 * x ^ 2 * x ^ 2 := by
    rw [abs_mul, abs_of_pos hx]
    have := mul_le_mul_of_nonneg_left q1 hx.le
    have n := mul_nonneg C10 (pow_nonneg hx.le 4)
    calc _ ≤ x * (2 * C1 * (x / 2) ^ 3) := this
      _ = C1 * x ^ 4 / 4 := by ring
      _ ≤ C1 * x ^ 4 := by linarith
      _ = _ := by ring
  have t2 : |D3 - D2 / c| ≤ d ^ 2 * ((C2 + C3) * (x ^ 2 + d)) := by
    refine (abs_sub _ _).trans ?_
    rw [abs_div, abs_of_pos hc]
    have : |D2| / c ≤ C2 * x ^ 2 * d ^ 2 := by rw [div_le_iff₀ hc]; exact q2
    have n1 : 0 ≤ C2 * d ^ 2 * d := by positivity
    have n2 : 0 ≤ C3 * d ^ 2 * x ^ 2 := by positivity
    have e : d ^ 2 * ((C2 + C3) * (x ^ 2 + d)) = C2 * x ^ 2 * d ^ 2 + C3 * d ^ 3 + C2 * d ^ 2 * d + C3 * d ^ 2 * x ^ 2 := by ring
    rw [e]
    linarith
  have t3 : |x ^ 2 / d ^ 2 * A * (D3 - D2 / c)| ≤ Y * (C2 + C3) * x ^ 2 * (x ^ 2 + d) := by
    rw [abs_mul, abs_mul, abs_of_nonneg A0, abs_of_pos (by positivity : 0 < x ^ 2 / d ^ 2)]
    have i := mul_le_mul AY t2 (abs_nonneg _) Y0
    have := mul_le_mul_of_nonneg_left i (by positivity : 0 ≤ x ^ 2 / d ^ 2)
    rw [mul_assoc]
    refine this.trans (le_of_eq ?_)
    field_simp
  have n : 0 ≤ C1 * x ^ 2 * d := by positivity
  have e : (C1 + Y * (C2 + C3)) * x ^ 2 * (x ^ 2 + d) = C1 * x ^ 2 * x ^ 2 + C1 * x ^ 2 * d + Y * (C2 + C3) * x ^ 2 * (x ^ 2 + d) := by ring
  rw [e]
  linarith

/-- The operator of the summed slopes and the right-hand side of the balance equation. -/
theorem Solves.consistent (hB : B.Solves) : ∃ C, 0 ≤ C ∧ ∀ (p : Planet) (S : ℤ → ℝ) (j0 j1 kmax : ℤ), B.Grid p S j0 j1 kmax →
    ∀ j k, j0 < j → j < j1 → 1 < k → k < kmax →
      |p.oper S (fun j k => B.shadow p j1 j (p.height k)) j k +
        p.dphi ^ 2 * (2 * B.om * B.a * deriv (fun x => B.Q (x, p.height k)) (p.lat j))| ≤
        C * p.dphi ^ 2 * (p.dphi ^ 2 + p.dz) := by
  have g1 : ContDiff ℝ 2 (pdx B.G) := contDiff_pdx hB.smoothG (by norm_num)
  have g2 : ContDiff ℝ 1 (pdx (pdx B.G)) := contDiff_pdx g1 (by norm_num)
  have g3 : ContDiff ℝ 0 (pdx (pdx (pdx B.G))) := contDiff_pdx g2 (by norm_num)
  obtain ⟨C1, C10, h1⟩ := exists_bound g3.continuous 0 (π / 2) 0 B.top
  obtain ⟨C2, C20, h2⟩ := hB.shadow_close
  obtain ⟨C3, C30, h3⟩ := hB.lift_wind
  have pa := hB.a0
  have po := hB.om0
  have ph := hB.h0
  have pr := hB.r0
  set Y := (2 * B.om * B.a) ^ 2 * (B.h / B.r) * exp (B.top / B.h) with hY
  have Y0 : 0 ≤ Y := by positivity
  refine ⟨C1 + Y * (C2 + C3), by positivity, fun p S j0 j1 kmax hg j k a1 a2 k1 k2 => ?_⟩
  have hs := hB.south0
  have hd := hg.dphi
  have hz := hg.dz
  have b1 : (j0 : ℝ) + 1 ≤ j := by exact_mod_cast a1
  have b2 : (j : ℝ) + 1 ≤ j1 := by exact_mod_cast a2
  have b3 : (2 : ℝ) ≤ k := by exact_mod_cast (by omega : 2 ≤ k)
  have b4 : (k : ℝ) + 1 ≤ kmax := by exact_mod_cast k2
  obtain ⟨l1, l2⟩ := hg.lat_lt (x := j) (by linarith) (by linarith)
  obtain ⟨y1, y2⟩ := hg.height_lt (x := k) (by linarith) (by linarith)
  have z1 : 0 ≤ p.height k - p.dz := by
    have := (hg.height_mem (x := (k : ℝ) - 1) (by linarith) (by linarith)).1
    unfold Planet.height at *
    linarith
  have z2 : p.height k + p.dz ≤ B.top := by
    have := (hg.height_mem (x := (k : ℝ) + 1) (by linarith) (by linarith)).2
    unfold Planet.height at *
    linarith
  obtain ⟨m1, m2⟩ := hg.lat_mem (x := (j : ℝ) + 1 / 2) (by linarith) (by linarith)
  obtain ⟨m3, m4⟩ := hg.lat_mem (x := (j : ℝ) - 1 / 2) (by linarith) (by linarith)
  have e3 : p.lat j + p.dphi / 2 = p.lat (j + 1 / 2) := by unfold Planet.lat; ring
  have e4 : p.lat j - p.dphi / 2 = p.lat (j - 1 / 2) := by unfold Planet.lat; ring
  have eqn := hB.balance _ _ l1 l2 y1 y2
  rw [hB.flux_deriv, (hasDerivAt_pdx hB.smoothG (by norm_num) (p.lat j) (p.height k)).deriv] at eqn
  have q1 := midpoint_le (x := p.lat j) (h := p.dphi / 2) (C := C1) (by linarith)
    (fun x => hasDerivAt_pdx hB.smoothG (by norm_num) x (p.height k)) (fun x => hasDerivAt_pdx g1 (by norm_num) x (p.height k))
    (fun x => hasDerivAt_pdx g2 (by norm_num) x (p.height k))
    (fun x x1 x2 => h1 x _ (by rw [e4] at x1; linarith) (by rw [e3] at x2; linarith) y1.le y2.le)
  have q2 := (h2 p S j0 j1 kmax hg j a1.le a2.le).2.2 (p.height k) z1 z2
  have q3 := h3 (p.lat j) (p.height k) p.dz (by linarith) l2.le hz.le z1 z2
  have cpos : 0 < cos (p.lat j) := cos_pos_of_mem_Ioo ⟨by linarith [pi_pos], l2⟩
  have spos : 0 < sin (p.lat j) := sin_pos_of_pos_of_lt_pi (by linarith) (by linarith [pi_pos])
  have s1 : sin (p.lat j) ≤ 1 := sin_le_one _
  have ex : exp (p.height k / B.h) ≤ exp (B.top / B.h) := exp_le_exp.2 (div_le_div_of_nonneg_right y2.le ph.le)
  have op : p.oper S (fun j k => B.shadow p j1 j (p.height k)) j k =
      p.dphi * (B.G (p.lat j + p.dphi / 2, p.height k) - B.G (p.lat j - p.dphi / 2, p.height k)) +
      (2 * B.om * B.a * p.dphi / p.dz) ^ 2 * (B.h / B.r) * (sin (p.lat j) / cos (p.lat j)) * exp (p.height k / B.h) *
        B.lift (B.shadow p j1 j) (p.height k) p.dz := by
    rw [← hg.meridional_eq hB a1 a2 y1.le y2.le]
    have v := hg.vertical_eq (B.shadow p j1 j) (j := j) k1 k2
    rw [hg.om, hg.a, hg.h, hg.r] at v
    rw [← v]
    unfold Planet.oper fivePoint
    ring
  set A := (2 * B.om * B.a) ^ 2 * (B.h / B.r) * sin (p.lat j) * exp (p.height k / B.h) with hA
  have A0 : 0 ≤ A := by positivity
  have AY : A ≤ Y := by
    rw [hA, hY]
    have : (2 * B.om * B.a) ^ 2 * (B.h / B.r) * sin (p.lat j) ≤ (2 * B.om * B.a) ^ 2 * (B.h / B.r) * 1 :=
      mul_le_mul_of_nonneg_left s1 (by positivity)
    rw [mul_one] at this
    exact mul_le_mul this ex (exp_pos _).le (by positivity)
  set D1 := B.G (p.lat j + p.dphi / 2, p.height k) - B.G (p.lat j - p.dphi / 2, p.height k) -
    2 * (p.dphi / 2) * pdx B.G (p.lat j, p.height k) with hD1
  set D2 := cos (p.lat j) * B.lift (fun y => B.u (p.lat j, y)) (p.height k) p.dz - B.lift (B.shadow p j1 j) (p.height k) p.dz with hD2
  set D3 := B.lift (fun y => B.u (p.lat j, y)) (p.height k) p.dz - p.dz ^ 2 * pdy B.flux (p.lat j, p.height k) with hD3
  have total : p.oper S (fun j k => B.shadow p j1 j (p.height k)) j k +
        p.dphi ^ 2 * (2 * B.om * B.a * deriv (fun x => B.Q (x, p.height k)) (p.lat j)) =
      p.dphi * D1 + p.dphi ^ 2 / p.dz ^ 2 * A * (D3 - D2 / cos (p.lat j)) := by
    rw [op]
    have l : B.lift (B.shadow p j1 j) (p.height k) p.dz = cos (p.lat j) * (D3 + p.dz ^ 2 * pdy B.flux (p.lat j, p.height k)) - D2 := by
      rw [hD2, hD3]
      ring
    have g : B.G (p.lat j + p.dphi / 2, p.height k) - B.G (p.lat j - p.dphi / 2, p.height k) =
        D1 + p.dphi * pdx B.G (p.lat j, p.height k) := by
      rw [hD1]
      ring
    have qe : 2 * B.om * B.a * deriv (fun x => B.Q (x, p.height k)) (p.lat j) =
        -(pdx B.G (p.lat j, p.height k) + A * pdy B.flux (p.lat j, p.height k)) := by
      rw [hA]
      linarith
    rw [l, g, qe, hA]
    field_simp
    ring
  rw [total]
  exact gather hd hz C10 C20 C30 A0 AY cpos q1 q2 q3

end BalancedState

end Falwa.Spec
