import Verif.Props.RefState
import Verif.Lemmas.Relaxation

/-! # Convergence of the iterative solver (C112, C113) -/

noncomputable section

set_option linter.unusedSectionVars false

namespace Falwa.RefIn

open Real Finset Filter Topology

variable {I : RefIn}

/-! ### The linear system of the interior points -/

/-- Interior points. -/
def interior (I : RefIn) : Finset (ℤ × ℤ) := Icc 2 (I.jd - 1) ×ˢ Icc 2 (I.kmax - 1)

theorem mem_interior {p : ℤ × ℤ} : p ∈ I.interior ↔ (2 ≤ p.1 ∧ p.1 ≤ I.jd - 1) ∧ 2 ≤ p.2 ∧ p.2 ≤ I.kmax - 1 := by
  unfold interior
  rw [mem_product, mem_Icc, mem_Icc]

/-- The level whose value enters as the upper neighbour: the top level is tied to level `kmax - 2`. -/
def up (I : RefIn) (k : ℤ) : ℤ := if k + 1 = I.kmax then I.kmax - 2 else k + 1

/-- Entry of the matrix. -/
def entry (I : RefIn) (p q : ℤ × ℤ) : ℝ :=
  (if q = (p.1 + 1, p.2) then I.ajk p.1 else 0) + (if q = (p.1 - 1, p.2) then I.bjk p.1 else 0) +
    (if q = (p.1, I.up p.2) then I.cjk p.1 p.2 else 0) + (if q = (p.1, p.2 - 1) then I.djk p.1 p.2 else 0) +
    (if q = p then I.ejk p.1 p.2 else 0)

/-- The left-hand side of the equation. -/
def lhs (I : RefIn) (w : ℤ → ℤ → ℝ) (j k : ℤ) : ℝ :=
  I.ajk j * w (j + 1) k + I.bjk j * w (j - 1) k + I.cjk j k * w j (k + 1) + I.djk j k * w j (k - 1) + I.ejk j k * w j k

theorem resid_eq (u : ℤ → ℤ → ℝ) (j k : ℤ) : I.resid u j k = I.lhs u j k - I.fjk j k := rfl

/-- A difference of two winds with the same boundary conditions. -/
structure ZeroBoundary (I : RefIn) (w : ℤ → ℤ → ℝ) : Prop where
  south : ∀ k, 2 ≤ k → k ≤ I.kmax - 1 → w 1 k = 0
  north : ∀ k, 2 ≤ k → k ≤ I.kmax - 1 → w I.jd k = 0
  bottom : ∀ j, 2 ≤ j → j ≤ I.jd - 1 → w j 1 = 0
  top : ∀ j, 2 ≤ j → j ≤ I.jd - 1 → w j I.kmax = w j (I.kmax - 2)

theorem sum_entry (w : ℤ × ℤ → ℝ) (p : ℤ × ℤ) : ∑ q ∈ I.interior, I.entry p q * w q =
    (if (p.1 + 1, p.2) ∈ I.interior then I.ajk p.1 * w (p.1 + 1, p.2) else 0) +
    (if (p.1 - 1, p.2) ∈ I.interior then I.bjk p.1 * w (p.1 - 1, p.2) else 0) +
    (if (p.1, I.up p.2) ∈ I.interior then I.cjk p.1 p.2 * w (p.1, I.up p.2) else 0) +
    (if (p.1, p.2 - 1) ∈ I.interior then I.djk p.1 p.2 * w (p.1, p.2 - 1) else 0) +
    (if p ∈ I.interior then I.ejk p.1 p.2 * w p else 0) := by
  unfold entry
  simp only [add_mul, ite_mul, zero_mul, sum_add_distrib, sum_ite_eq']

/-- With zero boundary conditions the matrix gives the left-hand side of the equation. -/
theorem sum_entry_eq_lhs {w : ℤ → ℤ → ℝ} (hw : I.ZeroBoundary w) {p : ℤ × ℤ} (hp : p ∈ I.interior) :
    ∑ q ∈ I.interior, I.entry p q * w q.1 q.2 = I.lhs w p.1 p.2 := by
  obtain ⟨j, k⟩ := p
  have hp' := mem_interior.1 hp
  obtain ⟨⟨j1, j2⟩, k1, k2⟩ := hp'
  dsimp only at j1 j2 k1 k2
  rw [sum_entry (fun q => w q.1 q.2), if_pos hp]
  unfold lhs
  dsimp only
  have e1 : (if ((j + 1, k) : ℤ × ℤ) ∈ I.interior then I.ajk j * w (j + 1) k else 0) = I.ajk j * w (j + 1) k := by
    split_ifs with c
    · rfl
    · have : j + 1 = I.jd := by
        by_contra hne
        exact c (mem_interior.2 ⟨⟨by dsimp only; omega, by dsimp only; omega⟩, k1, k2⟩)
      rw [this, hw.north k k1 k2, mul_zero]
  have e2 : (if ((j - 1, k) : ℤ × ℤ) ∈ I.interior then I.bjk j * w (j - 1) k else 0) = I.bjk j * w (j - 1) k := by
    split_ifs with c
    · rfl
    · have : j - 1 = 1 := by
        by_contra hne
        exact c (mem_interior.2 ⟨⟨by dsimp only; omega, by dsimp only; omega⟩, k1, k2⟩)
      rw [this, hw.south k k1 k2, mul_zero]
  have e4 : (if ((j, k - 1) : ℤ × ℤ) ∈ I.interior then I.djk j k * w j (k - 1) else 0) = I.djk j k * w j (k - 1) := by
    split_ifs with c
    · rfl
    · have : k - 1 = 1 := by
        by_contra hne
        exact c (mem_interior.2 ⟨⟨j1, j2⟩, by dsimp only; omega, by dsimp only; omega⟩)
      rw [this, hw.bottom j j1 j2, mul_zero]
  have e3 : (if ((j, I.up k) : ℤ × ℤ) ∈ I.interior then I.cjk j k * w j (I.up k) else 0) = I.cjk j k * w j (k + 1) := by
    unfold up
    by_cases ck : k + 1 = I.kmax
    · rw [if_pos ck, ck, hw.top j j1 j2]
      split_ifs with c
      · rfl
      · have : I.kmax - 2 = 1 := by
          by_contra hne
          exact c (mem_interior.2 ⟨⟨j1, j2⟩, by dsimp only; omega, by dsimp only; omega⟩)
        rw [this, hw.bottom j j1 j2, mul_zero]
    · rw [if_neg ck, if_pos (mem_interior.2 ⟨⟨j1, j2⟩, by dsimp only; omega, by dsimp only; omega⟩)]
  rw [e1, e2, e3, e4]

/-! ### Symmetry -/

/-- Factor of the vertical coefficients that depends on the row. -/
def fact (I : RefIn) (j : ℤ) : ℝ :=
  4 * I.om * I.om * I.h * I.a * I.a * sin (I.phi j) * I.dphi * I.dphi / (I.dz * I.dz * I.r * cos (I.phi j))

/-- Stiffness between two neighbouring levels. -/
def link (I : RefIn) (k l : ℤ) : ℝ :=
  exp (-(0.5 * (I.z l + I.z k)) / I.h) * exp (I.rkappa * (0.5 * (I.z l + I.z k)) / I.h) / (0.5 * (I.stat l + I.stat k))

theorem link_symm (k l : ℤ) : I.link k l = I.link l k := by
  unfold link
  rw [add_comm (I.z l), add_comm (I.stat l)]

theorem cjk_eq (j k : ℤ) : I.cjk j k = I.link k (k + 1) * exp (I.z k / I.h) * I.fact j := by
  unfold cjk amp link fact
  ring

theorem djk_eq (j k : ℤ) : I.djk j k = I.link k (k - 1) * exp (I.z k / I.h) * I.fact j := by
  unfold djk amp link fact
  rw [show k + -1 = k - 1 by ring]
  ring

/-- Weight that makes the system symmetric. -/
def weight (I : RefIn) (k : ℤ) : ℝ :=
  exp (-(I.z k / I.h)) * if k + 1 = I.kmax then I.link k (k - 1) / (I.link k (k + 1) + I.link k (k - 1)) else 1

/-- The assumptions: odd grid, non-zero rotation and radius, positive constants, stable stratification. -/
structure Physical (I : RefIn) : Prop where
  geom : I.Geometry
  om : I.om ≠ 0
  a : I.a ≠ 0
  h : 0 < I.h
  r : 0 < I.r
  dz : I.dz ≠ 0
  stat : ∀ k, 1 ≤ k → k ≤ I.kmax → 0 < I.stat k

namespace Physical

variable (hP : I.Physical)
include hP

theorem link_pos {k l : ℤ} (k1 : 1 ≤ k) (k2 : k ≤ I.kmax) (l1 : 1 ≤ l) (l2 : l ≤ I.kmax) : 0 < I.link k l := by
  have := hP.stat k k1 k2
  have := hP.stat l l1 l2
  unfold link
  positivity

theorem weight_pos {k : ℤ} (k1 : 2 ≤ k) (k2 : k ≤ I.kmax - 1) : 0 < I.weight k := by
  have := hP.link_pos (k := k) (l := k + 1) (by omega) (by omega) (by omega) (by omega)
  have := hP.link_pos (k := k) (l := k - 1) (by omega) (by omega) (by omega) (by omega)
  unfold weight
  split_ifs <;> positivity

theorem row_pos {j : ℤ} (j1 : 2 ≤ j) (j2 : j ≤ I.jd - 1) : 0 < I.ajk j ∧ 0 < I.bjk j ∧ 0 < I.fact j := by
  have h := hP.geom
  have hd := h.dphi_pos
  have hm := h.dphi_mul
  have a1 : (2 : ℝ) ≤ j := by exact_mod_cast j1
  have a2 : (j : ℝ) ≤ I.jd - 1 := by exact_mod_cast j2
  have sc : ∀ x : ℝ, 0 < x → x < π / 2 → 0 < sin x ∧ 0 < cos x := fun x x1 x2 =>
    ⟨sin_pos_of_pos_of_lt_pi x1 (by linarith [pi_pos]), cos_pos_of_mem_Ioo ⟨by linarith [pi_pos], x2⟩⟩
  obtain ⟨p1, p2⟩ := sc (((j : ℝ) - 0.5) * I.dphi) (by apply mul_pos _ hd; linarith) (by nlinarith)
  obtain ⟨m1, m2⟩ := sc (((j : ℝ) - 1.5) * I.dphi) (by apply mul_pos _ hd; linarith) (by nlinarith)
  obtain ⟨s1, s2⟩ := sc (I.phi j) (by unfold phi; push_cast; apply mul_pos hd; linarith) (by unfold phi; push_cast; nlinarith)
  refine ⟨by unfold ajk; positivity, by unfold bjk; positivity, ?_⟩
  have ho := sq_pos_of_ne_zero hP.om
  have ha2 := sq_pos_of_ne_zero hP.a
  have hz2 := sq_pos_of_ne_zero hP.dz
  have hh := hP.h
  have hr := hP.r
  unfold fact
  have : 4 * I.om * I.om * I.h * I.a * I.a * sin (I.phi j) * I.dphi * I.dphi / (I.dz * I.dz * I.r * cos (I.phi j)) =
    4 * I.om ^ 2 * I.h * I.a ^ 2 * sin (I.phi j) * I.dphi ^ 2 / (I.dz ^ 2 * I.r * cos (I.phi j)) := by ring
  rw [this]
  positivity

theorem vert_pos {j k : ℤ} (j1 : 2 ≤ j) (j2 : j ≤ I.jd - 1) (k1 : 2 ≤ k) (k2 : k ≤ I.kmax - 1) :
    0 < I.cjk j k ∧ 0 < I.djk j k := by
  have hf := (hP.row_pos j1 j2).2.2
  have := hP.link_pos (k := k) (l := k + 1) (by omega) (by omega) (by omega) (by omega)
  have := hP.link_pos (k := k) (l := k - 1) (by omega) (by omega) (by omega) (by omega)
  rw [cjk_eq, djk_eq]
  exact ⟨by positivity, by positivity⟩

theorem diag_neg {j k : ℤ} (j1 : 2 ≤ j) (j2 : j ≤ I.jd - 1) (k1 : 2 ≤ k) (k2 : k ≤ I.kmax - 1) : I.ejk j k < 0 :=
  ejk_neg hP.geom hP.om hP.a hP.h hP.r hP.dz hP.stat j1 j2 k1 k2

/-- Vertical neighbours: the weighted coefficients are the same in both directions. -/
theorem vert_symm {j k : ℤ} (k1 : 2 ≤ k) (k2 : k + 1 ≤ I.kmax - 1) :
    I.weight k * I.cjk j k =
      I.weight (k + 1) * (I.djk j (k + 1) + if k + 1 + 1 = I.kmax then I.cjk j (k + 1) else 0) := by
  have l1 := hP.link_pos (k := k + 1) (l := k + 1 + 1) (by omega) (by omega) (by omega) (by omega)
  have l2 := hP.link_pos (k := k + 1) (l := k + 1 - 1) (by omega) (by omega) (by omega) (by omega)
  have e0 : I.weight k * I.cjk j k = I.link k (k + 1) * I.fact j := by
    unfold weight
    rw [if_neg (by omega), mul_one, cjk_eq]
    have : exp (-(I.z k / I.h)) * exp (I.z k / I.h) = 1 := by rw [← exp_add, neg_add_cancel, exp_zero]
    linear_combination (I.link k (k + 1) * I.fact j) * this
  have ex : exp (-(I.z (k + 1) / I.h)) * exp (I.z (k + 1) / I.h) = 1 := by rw [← exp_add, neg_add_cancel, exp_zero]
  have es : I.link (k + 1) (k + 1 - 1) = I.link k (k + 1) := by
    rw [show k + 1 - 1 = k by ring, link_symm]
  rw [e0]
  unfold weight
  rw [djk_eq, cjk_eq]
  by_cases c : k + 1 + 1 = I.kmax
  · rw [if_pos c, if_pos c]
    have hne : I.link (k + 1) (k + 1 + 1) + I.link (k + 1) (k + 1 - 1) ≠ 0 := by positivity
    rw [show exp (-(I.z (k + 1) / I.h)) * (I.link (k + 1) (k + 1 - 1) /
        (I.link (k + 1) (k + 1 + 1) + I.link (k + 1) (k + 1 - 1))) *
        (I.link (k + 1) (k + 1 - 1) * exp (I.z (k + 1) / I.h) * I.fact j +
          I.link (k + 1) (k + 1 + 1) * exp (I.z (k + 1) / I.h) * I.fact j) =
        (exp (-(I.z (k + 1) / I.h)) * exp (I.z (k + 1) / I.h)) * I.fact j *
          ((I.link (k + 1) (k + 1 - 1) / (I.link (k + 1) (k + 1 + 1) + I.link (k + 1) (k + 1 - 1))) *
            (I.link (k + 1) (k + 1 + 1) + I.link (k + 1) (k + 1 - 1))) by ring, ex, div_mul_cancel₀ _ hne, es]
    ring
  · rw [if_neg c, if_neg c, es]
    linear_combination (-I.link k (k + 1) * I.fact j) * ex

end Physical

/-- The symmetric matrix. -/
def sym (I : RefIn) (p q : ℤ × ℤ) : ℝ := -(I.weight p.2 * I.entry p q)

/-- Entry to the northern neighbour. -/
theorem entry_north (j k : ℤ) : I.entry (j, k) (j + 1, k) = I.ajk j := by
  unfold entry
  simp only [Prod.mk.injEq]
  rw [if_pos trivial, if_neg (by omega), if_neg (by omega), if_neg (by omega), if_neg (by omega)]
  ring

/-- Entry to the southern neighbour. -/
theorem entry_south (j k : ℤ) : I.entry (j, k) (j - 1, k) = I.bjk j := by
  unfold entry
  simp only [Prod.mk.injEq]
  rw [if_neg (by omega), if_pos trivial, if_neg (by omega), if_neg (by omega), if_neg (by omega)]
  ring

/-- Entry to the upper neighbour. -/
theorem entry_up (j k : ℤ) (hk : k + 1 < I.kmax) : I.entry (j, k) (j, k + 1) = I.cjk j k := by
  have hu : I.up k = k + 1 := by unfold up; rw [if_neg (by omega)]
  unfold entry
  simp only [Prod.mk.injEq, hu]
  rw [if_neg (by omega), if_neg (by omega), if_pos trivial, if_neg (by omega), if_neg (by omega)]
  ring

/-- Entry to the lower neighbour. -/
theorem entry_down (j k : ℤ) :
    I.entry (j, k) (j, k - 1) = I.djk j k + if k + 1 = I.kmax then I.cjk j k else 0 := by
  unfold entry up
  simp only [Prod.mk.injEq]
  rw [if_neg (by omega), if_neg (by omega), if_neg (c := True ∧ k - 1 = k) (by omega)]
  by_cases c : k + 1 = I.kmax
  · rw [if_pos c, if_pos c, if_pos ⟨trivial, by omega⟩, if_pos trivial]
    ring
  · rw [if_neg c, if_neg c, if_neg (by omega), if_pos trivial]
    ring

/-- Diagonal entry. -/
theorem entry_self (p : ℤ × ℤ) (hk : p.2 + 1 ≤ I.kmax) : I.entry p p = I.ejk p.1 p.2 := by
  obtain ⟨j, k⟩ := p
  have hu : k ≠ I.up k := by
    dsimp only at hk
    unfold up; split_ifs <;> omega
  unfold entry
  simp only [Prod.mk.injEq]
  rw [if_neg (by omega), if_neg (by omega), if_neg (fun h => hu h.2), if_neg (by omega), if_pos trivial]
  ring

/-- Two points are neighbours, or the same, or the entry is zero. -/
theorem entry_cases (p q : ℤ × ℤ) (hp : p.2 + 1 ≤ I.kmax) :
    q = p ∨ q = (p.1 + 1, p.2) ∨ q = (p.1 - 1, p.2) ∨ (q = (p.1, p.2 + 1) ∧ p.2 + 1 < I.kmax) ∨ q = (p.1, p.2 - 1) ∨
      I.entry p q = 0 := by
  by_cases c0 : q = p
  · exact Or.inl c0
  by_cases c1 : q = (p.1 + 1, p.2)
  · exact Or.inr (Or.inl c1)
  by_cases c2 : q = (p.1 - 1, p.2)
  · exact Or.inr (Or.inr (Or.inl c2))
  by_cases c3 : q = (p.1, p.2 - 1)
  · exact Or.inr (Or.inr (Or.inr (Or.inr (Or.inl c3))))
  by_cases c4 : q = (p.1, I.up p.2)
  · right; right; right; left
    unfold up at c4
    split_ifs at c4 with c
    · exact absurd (by rw [c4]; congr 1; omega) c3
    · exact ⟨c4, by omega⟩
  · right; right; right; right; right
    unfold entry
    rw [if_neg c0, if_neg c1, if_neg c2, if_neg c3, if_neg c4]
    ring

theorem ajk_bjk (j : ℤ) : I.bjk (j + 1) = I.ajk j := by
  unfold ajk bjk
  push_cast
  rw [show (j : ℝ) + 1 - 1.5 = j - 0.5 by norm_num; ring]

/-- The second point is the northern or the upper neighbour of the first. -/
def Adj (p q : ℤ × ℤ) : Prop := q = (p.1 + 1, p.2) ∨ q = (p.1, p.2 + 1)

theorem entry_zero_or (p q : ℤ × ℤ) (hp : p.2 + 1 ≤ I.kmax) : I.entry p q = 0 ∨ q = p ∨ Adj p q ∨ Adj q p := by
  obtain ⟨j, k⟩ := p
  rcases entry_cases (I := I) (j, k) q hp with c | c | c | c | c | c
  · exact Or.inr (Or.inl c)
  · exact Or.inr (Or.inr (Or.inl (Or.inl c)))
  · refine Or.inr (Or.inr (Or.inr (Or.inl ?_)))
    rw [c]; ext <;> dsimp only; omega
  · exact Or.inr (Or.inr (Or.inl (Or.inr c.1)))
  · refine Or.inr (Or.inr (Or.inr (Or.inr ?_)))
    rw [c]; ext <;> dsimp only; omega
  · exact Or.inl c

namespace Physical

variable (hP : I.Physical)
include hP

theorem sym_adj {p q : ℤ × ℤ} (hp : p ∈ I.interior) (hq : q ∈ I.interior) (h : Adj p q) : I.sym p q = I.sym q p := by
  obtain ⟨j, k⟩ := p
  obtain ⟨⟨j1, j2⟩, k1, k2⟩ := mem_interior.1 hp
  dsimp only at j1 j2 k1 k2
  rcases h with h | h
  · unfold sym
    have e := entry_south (I := I) (j + 1) k
    rw [show j + 1 - 1 = j by ring] at e
    rw [h, entry_north]
    dsimp only
    rw [e, ajk_bjk]
  · rw [h] at hq
    obtain ⟨_, l1, l2⟩ := mem_interior.1 hq
    dsimp only at l1 l2
    unfold sym
    have e := entry_down (I := I) j (k + 1)
    rw [show k + 1 - 1 = k by ring] at e
    rw [h, entry_up j k (by omega)]
    dsimp only
    rw [e, hP.vert_symm k1 l2]

theorem sym_symm {p q : ℤ × ℤ} (hp : p ∈ I.interior) (hq : q ∈ I.interior) : I.sym p q = I.sym q p := by
  have a1 := (mem_interior.1 hp).2.2
  have a2 := (mem_interior.1 hq).2.2
  rcases entry_zero_or (I := I) p q (by omega) with h | h | h | h
  · rcases entry_zero_or (I := I) q p (by omega) with g | g | g | g
    · unfold sym; rw [h, g, mul_zero, mul_zero]
    · rw [g]
    · exact (hP.sym_adj hq hp g).symm
    · exact hP.sym_adj hp hq g
  · rw [h]
  · exact hP.sym_adj hp hq h
  · exact (hP.sym_adj hq hp h).symm

theorem sym_off {p q : ℤ × ℤ} (hp : p ∈ I.interior) (hne : p ≠ q) : I.sym p q ≤ 0 := by
  obtain ⟨⟨j1, j2⟩, k1, k2⟩ := mem_interior.1 hp
  obtain ⟨ha, hb, _⟩ := hP.row_pos j1 j2
  obtain ⟨hc, hd⟩ := hP.vert_pos j1 j2 k1 k2
  have : 0 ≤ I.entry p q := by
    unfold entry
    rw [if_neg (Ne.symm hne)]
    have i : ∀ (P : Prop) [Decidable P] (y : ℝ), 0 < y → (0 : ℝ) ≤ if P then y else 0 := by
      intro P _ y hy; split_ifs
      · exact hy.le
      · exact le_rfl
    have := i (q = (p.1 + 1, p.2)) _ ha
    have := i (q = (p.1 - 1, p.2)) _ hb
    have := i (q = (p.1, I.up p.2)) _ hc
    have := i (q = (p.1, p.2 - 1)) _ hd
    linarith
  unfold sym
  exact neg_nonpos.2 (mul_nonneg (hP.weight_pos k1 k2).le this)

theorem sym_row {p : ℤ × ℤ} (hp : p ∈ I.interior) : 0 ≤ ∑ q ∈ I.interior, I.sym p q := by
  obtain ⟨⟨j1, j2⟩, k1, k2⟩ := mem_interior.1 hp
  obtain ⟨ha, hb, _⟩ := hP.row_pos j1 j2
  obtain ⟨hc, hd⟩ := hP.vert_pos j1 j2 k1 k2
  have e : ∑ q ∈ I.interior, I.sym p q = -(I.weight p.2 * ∑ q ∈ I.interior, I.entry p q * 1) := by
    unfold sym
    rw [mul_sum, ← sum_neg_distrib]
    simp only [mul_one]
  have i : ∀ (P : Prop) [Decidable P] (y : ℝ), 0 < y → (if P then y * 1 else 0) ≤ y := by
    intro P _ y hy; split_ifs
    · rw [mul_one]
    · exact hy.le
  have hs : ∑ q ∈ I.interior, I.entry p q * 1 ≤ 0 := by
    rw [sum_entry (fun _ => 1), if_pos hp]
    have := i ((p.1 + 1, p.2) ∈ I.interior) _ ha
    have := i ((p.1 - 1, p.2) ∈ I.interior) _ hb
    have := i ((p.1, I.up p.2) ∈ I.interior) _ hc
    have := i ((p.1, p.2 - 1) ∈ I.interior) _ hd
    have e : I.ejk p.1 p.2 = -I.ajk p.1 - I.bjk p.1 - I.cjk p.1 p.2 - I.djk p.1 p.2 := rfl
    rw [e]
    linarith
  rw [e, neg_nonneg]
  exact mul_nonpos_of_nonneg_of_nonpos (hP.weight_pos k1 k2).le hs

theorem sym_diag {p : ℤ × ℤ} (hp : p ∈ I.interior) : I.sym p p = -(I.weight p.2 * I.ejk p.1 p.2) ∧ 0 < I.sym p p := by
  obtain ⟨⟨j1, j2⟩, k1, k2⟩ := mem_interior.1 hp
  have e : I.sym p p = -(I.weight p.2 * I.ejk p.1 p.2) := by
    unfold sym
    rw [entry_self p (by omega)]
  refine ⟨e, ?_⟩
  rw [e, neg_pos]
  exact mul_neg_of_pos_of_neg (hP.weight_pos k1 k2) (hP.diag_neg j1 j2 k1 k2)

/-- Points of the same colour are not coupled. -/
theorem sym_colour {p q : ℤ × ℤ} (hp : p ∈ I.interior) (hne : p ≠ q) (hc : (p.1 + p.2) % 2 = (q.1 + q.2) % 2) :
    I.sym p q = 0 := by
  have a1 := (mem_interior.1 hp).2.2
  unfold sym
  rcases entry_zero_or (I := I) p q (by omega) with h | h | h | h
  · rw [h, mul_zero, neg_zero]
  · exact absurd h.symm hne
  · exfalso
    rcases h with h | h <;> rw [h] at hc <;> dsimp only at hc <;> omega
  · exfalso
    rcases h with h | h <;> rw [h] at hc <;> dsimp only at hc <;> omega

/-- The matrix acts on a wind with zero boundary conditions as the equation does. -/
theorem app_eq {w : ℤ → ℤ → ℝ} (hw : I.ZeroBoundary w) (p : I.interior) :
    Relaxation.app (fun p q : I.interior => I.sym p q) (fun q => w q.1.1 q.1.2) p =
      -(I.weight p.1.2 * I.lhs w p.1.1 p.1.2) := by
  unfold Relaxation.app
  rw [sum_coe_sort I.interior (fun q => I.sym p q * w q.1 q.2)]
  unfold sym
  rw [← sum_entry_eq_lhs hw p.2, mul_sum, ← sum_neg_distrib]
  exact sum_congr rfl fun q _ => by ring

theorem solves_lhs {u : ℤ → ℤ → ℝ} (hu : I.Solves u) {j k : ℤ} (j1 : 2 ≤ j) (j2 : j ≤ I.jd - 1) (k1 : 2 ≤ k)
    (k2 : k ≤ I.kmax - 1) : I.lhs u j k = I.fjk j k := by
  have := (resid_zero_iff u j k).2 (hu.eqn j k j1 j2 k1 k2)
  rw [resid_eq] at this
  linarith

omit hP in
theorem lhs_sub (u v : ℤ → ℤ → ℝ) (j k : ℤ) : I.lhs (fun j k => u j k - v j k) j k = I.lhs u j k - I.lhs v j k := by
  unfold lhs
  ring

omit hP in
theorem lhs_add (u v : ℤ → ℤ → ℝ) (j k : ℤ) : I.lhs (fun j k => u j k + v j k) j k = I.lhs u j k + I.lhs v j k := by
  unfold lhs
  ring

/-- The matrix is injective. -/
theorem sym_injective (y : I.interior → ℝ)
    (hy : ∀ p, Relaxation.app (fun p q : I.interior => I.sym p q) y p = 0) : y = 0 := by
  have hg := hP.geom
  have hkm := hg.kmax3
  obtain ⟨u, hu⟩ := C55_exists hg hP.om hP.a hP.h hP.r hP.dz hP.stat
  let w0 : ℤ → ℤ → ℝ := fun j k => if hp : (j, k) ∈ I.interior then y ⟨(j, k), hp⟩ else 0
  let w : ℤ → ℤ → ℝ := fun j k => if k = I.kmax then w0 j (I.kmax - 2) else w0 j k
  have w0out : ∀ j k, (j, k) ∉ I.interior → w0 j k = 0 := fun j k hn => dif_neg hn
  have hw : I.ZeroBoundary w := by
    refine ⟨fun k k1 k2 => ?_, fun k k1 k2 => ?_, fun j j1 j2 => ?_, fun j j1 j2 => ?_⟩
    · show (if k = I.kmax then w0 1 (I.kmax - 2) else w0 1 k) = 0
      rw [if_neg (by omega)]
      exact w0out _ _ fun h => by have := (mem_interior.1 h).1.1; dsimp only at this; omega
    · show (if k = I.kmax then w0 I.jd (I.kmax - 2) else w0 I.jd k) = 0
      rw [if_neg (by omega)]
      exact w0out _ _ fun h => by have := (mem_interior.1 h).1.2; dsimp only at this; omega
    · show (if (1 : ℤ) = I.kmax then w0 j (I.kmax - 2) else w0 j 1) = 0
      rw [if_neg (by omega)]
      exact w0out _ _ fun h => by have := (mem_interior.1 h).2.1; dsimp only at this; omega
    · show (if I.kmax = I.kmax then w0 j (I.kmax - 2) else w0 j I.kmax) =
        (if I.kmax - 2 = I.kmax then w0 j (I.kmax - 2) else w0 j (I.kmax - 2))
      rw [if_pos rfl, ite_self]
  have hin : ∀ p : I.interior, w p.1.1 p.1.2 = y p := by
    rintro ⟨⟨j, k⟩, hp⟩
    have := (mem_interior.1 hp).2.2
    dsimp only at this
    show (if k = I.kmax then w0 j (I.kmax - 2) else w0 j k) = _
    rw [if_neg (by omega)]
    exact dif_pos hp
  have hl : ∀ j k, 2 ≤ j → j ≤ I.jd - 1 → 2 ≤ k → k ≤ I.kmax - 1 → I.lhs w j k = 0 := by
    intro j k j1 j2 k1 k2
    have hp : (j, k) ∈ I.interior := mem_interior.2 ⟨⟨j1, j2⟩, k1, k2⟩
    have e := hP.app_eq hw ⟨(j, k), hp⟩
    rw [show (fun q : I.interior => w q.1.1 q.1.2) = y from funext hin, hy] at e
    have e' : I.weight k * I.lhs w j k = 0 := by
      have : (0 : ℝ) = -(I.weight k * I.lhs w j k) := e
      linarith
    exact (mul_eq_zero.1 e').resolve_left (hP.weight_pos k1 k2).ne'
  have hv : I.Solves (fun j k => u j k + w j k) := by
    have w1 : ∀ k, w 1 k = 0 := by
      intro k
      show (if k = I.kmax then w0 1 (I.kmax - 2) else w0 1 k) = 0
      have o : ∀ k, w0 1 k = 0 := fun k => w0out _ _ fun h => by have := (mem_interior.1 h).1.1; dsimp only at this; omega
      rw [o, o, ite_self]
    have w2 : ∀ k, w I.jd k = 0 := by
      intro k
      show (if k = I.kmax then w0 I.jd (I.kmax - 2) else w0 I.jd k) = 0
      have o : ∀ k, w0 I.jd k = 0 := fun k => w0out _ _ fun h => by have := (mem_interior.1 h).1.2; dsimp only at this; omega
      rw [o, o, ite_self]
    refine ⟨fun j k j1 j2 k1 k2 => ?_, fun k k1 k2 => ?_, fun k k1 k2 => ?_, fun j j1 j2 => ?_, fun j j1 j2 => ?_⟩
    · refine (resid_zero_iff _ j k).1 ?_
      rw [resid_eq, lhs_add, hP.solves_lhs hu j1 j2 k1 k2, hl j k j1 j2 k1 k2]
      ring
    · show u 1 k + w 1 k = _
      rw [w1, add_zero, hu.south k k1 k2]
    · show u I.jd k + w I.jd k = _
      rw [w2, add_zero, hu.north k k1 k2]
    · show u j 1 + w j 1 = _
      rw [hw.bottom j j1 j2, add_zero, hu.bottom j j1 j2]
    · refine (top_iff (fun j k => u j k + w j k) hP.dz j).2 ?_
      show u j I.kmax + w j I.kmax = u j (I.kmax - 2) + w j (I.kmax - 2) - I.uz j
      rw [(top_iff u hP.dz j).1 (hu.top j j1 j2), hw.top j j1 j2]
      ring
  funext p
  obtain ⟨⟨j1, j2⟩, k1, k2⟩ := mem_interior.1 p.2
  have := C55_unique hg hP.om hP.a hP.h hP.r hP.dz hP.stat hu hv p.1.1 p.1.2 ⟨⟨by omega, by omega⟩, by omega, by omega⟩
  have e : w p.1.1 p.1.2 = 0 := by
    have : u p.1.1 p.1.2 = u p.1.1 p.1.2 + w p.1.1 p.1.2 := this
    linarith
  rw [← hin p, e]
  rfl

end Physical

/-! ### The relaxation factor -/

/-- Upper bound of the relaxation factors. -/
def omegaMax (I : RefIn) : ℝ := 2 / (2 - I.rjac ^ 2)

theorem omegaMax_lt_two (hr : I.rjac ^ 2 < 1) : 1 ≤ I.omegaMax ∧ I.omegaMax < 2 := by
  have h0 := sq_nonneg I.rjac
  unfold omegaMax
  exact ⟨by rw [le_div_iff₀ (by linarith)]; linarith, by rw [div_lt_iff₀ (by linarith)]; linarith⟩

/-- All relaxation factors are between 1 and a bound below 2. -/
theorem omega_mem (hr : I.rjac ^ 2 < 1) (n : ℕ) : 1 ≤ (I.trajectory n).1 ∧ (I.trajectory n).1 ≤ I.omegaMax := by
  have h0 := sq_nonneg I.rjac
  obtain ⟨m1, m2⟩ := omegaMax_lt_two hr
  induction n with
  | zero => exact ⟨le_rfl, m1⟩
  | succ n ih =>
    obtain ⟨i1, i2⟩ := ih
    show 1 ≤ I.omegaNext ((n + 1 : ℕ) : ℤ) (I.trajectory n).1 ∧ I.omegaNext ((n + 1 : ℕ) : ℤ) (I.trajectory n).1 ≤ I.omegaMax
    unfold omegaNext
    have e : I.omegaMax = 1 / (1 - 0.5 * I.rjac ^ 2) := by
      unfold omegaMax
      rw [div_eq_div_iff (by linarith) (by linarith)]
      ring
    split_ifs with c
    · rw [← e]
      exact ⟨m1, le_rfl⟩
    · generalize (I.trajectory n).1 = om at i1 i2
      have hb : I.rjac ^ 2 * om ≤ I.rjac ^ 2 * 2 := mul_le_mul_of_nonneg_left (by linarith) h0
      have hb0 : 0 ≤ I.rjac ^ 2 * om := mul_nonneg h0 (by linarith)
      constructor
      · rw [le_div_iff₀ (by linarith)]
        linarith
      · rw [e]
        exact one_div_le_one_div_of_le (by linarith) (by linarith)

/-! ### Convergence -/

namespace Physical

variable (hP : I.Physical)
include hP

/-- After the first sweep the difference from the solution has zero boundary conditions. -/
theorem zeroBoundary {u : ℤ → ℤ → ℝ} (hu : I.Solves u) (n : ℕ) :
    I.ZeroBoundary (fun j k => (I.trajectory (n + 1)).2 j k - u j k) := by
  have hg := hP.geom
  have hkm := hg.kmax3
  have hjm := hg.jd3
  refine ⟨fun k k1 k2 => ?_, fun k k1 k2 => ?_, fun j j1 j2 => ?_, fun j j1 j2 => ?_⟩
  · show (I.sweep ((n + 1 : ℕ) : ℤ) (I.trajectory n).1 (I.trajectory n).2).u 1 k - u 1 k = 0
    rw [sweep_south hg, hu.south k (by omega) (by omega), sub_self]
  · show (I.sweep ((n + 1 : ℕ) : ℤ) (I.trajectory n).1 (I.trajectory n).2).u I.jd k - u I.jd k = 0
    rw [sweep_north hg, hu.north k (by omega) (by omega), sub_self]
  · show (I.sweep ((n + 1 : ℕ) : ℤ) (I.trajectory n).1 (I.trajectory n).2).u j 1 - u j 1 = 0
    rw [sweep_bottom hg j1 j2, hu.bottom j j1 j2, sub_self]
  · show (I.sweep ((n + 1 : ℕ) : ℤ) (I.trajectory n).1 (I.trajectory n).2).u j I.kmax - u j I.kmax =
      (I.sweep ((n + 1 : ℕ) : ℤ) (I.trajectory n).1 (I.trajectory n).2).u j (I.kmax - 2) - u j (I.kmax - 2)
    rw [sweep_top hg j1 j2, (top_iff u hP.dz j).1 (hu.top j j1 j2)]
    ring

/-- The matrix applied to the difference from the solution is the weighted residual. -/
theorem app_resid {u : ℤ → ℤ → ℝ} (hu : I.Solves u) (n : ℕ) (p : I.interior) :
    Relaxation.app (fun p q : I.interior => I.sym p q) (fun q => (I.trajectory (n + 1)).2 q.1.1 q.1.2 - u q.1.1 q.1.2) p =
      -(I.weight p.1.2 * I.resid (I.trajectory (n + 1)).2 p.1.1 p.1.2) := by
  obtain ⟨⟨j1, j2⟩, k1, k2⟩ := mem_interior.1 p.2
  rw [hP.app_eq (hP.zeroBoundary hu n) p, lhs_sub, hP.solves_lhs hu j1 j2 k1 k2, resid_eq]

/-- The difference from the solution follows the abstract relaxation. -/
theorem error_step {u : ℤ → ℤ → ℝ} (hu : I.Solves u) (n : ℕ) :
    (fun p : I.interior => (I.trajectory (n + 2)).2 p.1.1 p.1.2 - u p.1.1 p.1.2) =
      Relaxation.step (fun p q : I.interior => I.sym p q) (fun p => (p.1.1 + p.1.2) % 2 = ((n + 2 : ℕ) : ℤ) % 2)
        (I.trajectory (n + 1)).1 (fun p => (I.trajectory (n + 1)).2 p.1.1 p.1.2 - u p.1.1 p.1.2) := by
  funext p
  obtain ⟨⟨j1, j2⟩, k1, k2⟩ := mem_interior.1 p.2
  have he := hP.diag_neg j1 j2 k1 k2
  have hw := hP.weight_pos k1 k2
  unfold Relaxation.step
  rw [hP.app_resid hu n p]
  beta_reduce
  rw [(hP.sym_diag p.2).1]
  show (I.sweep ((n + 1 + 1 : ℕ) : ℤ) (I.trajectory (n + 1)).1 (I.trajectory (n + 1)).2).u p.1.1 p.1.2 - u p.1.1 p.1.2 = _
  rw [sweep_interior hP.geom j1 j2 k1 k2]
  by_cases c : (p.1.1 + p.1.2) % 2 = ((n + 2 : ℕ) : ℤ) % 2
  · rw [if_pos c, if_pos ⟨⟨k1, k2⟩, c⟩]
    unfold relax
    rw [if_pos he.ne, mul_neg, neg_div_neg_eq]
    have : (I.trajectory (n + 1)).1 * (I.weight p.1.2 * I.resid (I.trajectory (n + 1)).2 p.1.1 p.1.2) /
        (I.weight p.1.2 * I.ejk p.1.1 p.1.2) =
        (I.trajectory (n + 1)).1 * I.resid (I.trajectory (n + 1)).2 p.1.1 p.1.2 / I.ejk p.1.1 p.1.2 := by
      rw [mul_left_comm, mul_div_mul_left _ _ hw.ne']
    rw [this]
    ring
  · rw [if_neg c, if_neg (fun h => c h.2)]

/-- What the abstract theorems need. -/
theorem relaxation_hyps :
    (∀ p q : I.interior, I.sym p q = I.sym q p) ∧ (∀ p : I.interior, 0 < I.sym p p) ∧
    (∀ x, 0 ≤ Relaxation.energy (fun p q : I.interior => I.sym p q) x) ∧
    (∀ (n : ℕ) (p q : I.interior), (p.1.1 + p.1.2) % 2 = ((n + 2 : ℕ) : ℤ) % 2 → (q.1.1 + q.1.2) % 2 = ((n + 2 : ℕ) : ℤ) % 2 →
      p ≠ q → I.sym p q = 0) ∧
    (∀ (n : ℕ) (p : I.interior), (p.1.1 + p.1.2) % 2 = ((n + 2 : ℕ) : ℤ) % 2 ∨
      (p.1.1 + p.1.2) % 2 = ((n + 1 + 2 : ℕ) : ℤ) % 2) := by
  refine ⟨fun p q => hP.sym_symm p.2 q.2, fun p => (hP.sym_diag p.2).2, fun x => ?_, fun n p q h1 h2 hne => ?_, fun n p => ?_⟩
  · refine Relaxation.energy_nonneg (fun p q => hP.sym_symm p.2 q.2) (fun p q hne => hP.sym_off p.2 fun h => hne (Subtype.ext h))
      (fun p => ?_) x
    rw [sum_coe_sort I.interior (fun q => I.sym p q)]
    exact hP.sym_row p.2
  · exact hP.sym_colour p.2 (fun h => hne (Subtype.ext h)) (h1.trans h2.symm)
  · push_cast
    omega

theorem omega_bounds (hr : I.rjac ^ 2 < 1) :
    0 < 2 - I.omegaMax ∧ (∀ n, 2 - I.omegaMax ≤ (I.trajectory (n + 1)).1 * (2 - (I.trajectory (n + 1)).1)) ∧
    ∃ W, ∀ n, |(I.trajectory (n + 1)).1| ≤ W := by
  obtain ⟨_, m2⟩ := omegaMax_lt_two hr
  refine ⟨by linarith, fun n => ?_, I.omegaMax, fun n => ?_⟩
  · obtain ⟨h1, h2⟩ := omega_mem hr (n + 1)
    nlinarith
  · obtain ⟨h1, h2⟩ := omega_mem hr (n + 1)
    rw [abs_of_pos (by linarith)]
    exact h2

theorem interior_tendsto (hr : I.rjac ^ 2 < 1) {u : ℤ → ℤ → ℝ} (hu : I.Solves u) (p : I.interior) :
    Tendsto (fun n => (I.trajectory (n + 1)).2 p.1.1 p.1.2) atTop (𝓝 (u p.1.1 p.1.2)) := by
  obtain ⟨a1, a2, a3, a4, a5⟩ := hP.relaxation_hyps
  obtain ⟨b1, b2, b3⟩ := hP.omega_bounds hr
  have h := Relaxation.tendsto_zero (B := fun p q : I.interior => I.sym p q)
    (act := fun n p => (p.1.1 + p.1.2) % 2 = ((n + 2 : ℕ) : ℤ) % 2) (om := fun n => (I.trajectory (n + 1)).1)
    (x := fun n p => (I.trajectory (n + 1)).2 p.1.1 p.1.2 - u p.1.1 p.1.2)
    a1 a2 a3 a4 b1 b2 (fun n => hP.error_step hu n) b3 a5 hP.sym_injective p
  have h' := h.add_const (u p.1.1 p.1.2)
  rw [zero_add] at h'
  refine h'.congr fun n => ?_
  ring

theorem resid_tendsto (hr : I.rjac ^ 2 < 1) {j k : ℤ} (j1 : 2 ≤ j) (j2 : j ≤ I.jd - 1) (k1 : 2 ≤ k) (k2 : k ≤ I.kmax - 1) :
    Tendsto (fun n => I.resid (I.trajectory (n + 1)).2 j k) atTop (𝓝 0) := by
  obtain ⟨u, hu⟩ := C55_exists hP.geom hP.om hP.a hP.h hP.r hP.dz hP.stat
  obtain ⟨a1, a2, a3, a4, a5⟩ := hP.relaxation_hyps
  obtain ⟨b1, b2, b3⟩ := hP.omega_bounds hr
  have hw := hP.weight_pos k1 k2
  have hp : (j, k) ∈ I.interior := mem_interior.2 ⟨⟨j1, j2⟩, k1, k2⟩
  have h := Relaxation.app_tendsto (B := fun p q : I.interior => I.sym p q)
    (act := fun n p => (p.1.1 + p.1.2) % 2 = ((n + 2 : ℕ) : ℤ) % 2) (om := fun n => (I.trajectory (n + 1)).1)
    (x := fun n p => (I.trajectory (n + 1)).2 p.1.1 p.1.2 - u p.1.1 p.1.2)
    a1 a2 a3 a4 b1 b2 (fun n => hP.error_step hu n) b3 a5 ⟨(j, k), hp⟩
  have h' := h.const_mul (-(1 / I.weight k))
  rw [mul_zero] at h'
  refine h'.congr fun n => ?_
  rw [hP.app_resid hu n]
  dsimp only
  field_simp

end Physical

/-- C112, convergence: for physical constants, stable stratification and `rjac² < 1` the wind of the iteration tends to the
solution of the discretised problem at every point. -/
theorem C112_converges (hP : I.Physical) (hr : I.rjac ^ 2 < 1) {u : ℤ → ℤ → ℝ} (hu : I.Solves u) (j k : ℤ) (hd : I.Dom j k) :
    Tendsto (fun n => (I.trajectory n).2 j k) atTop (𝓝 (u j k)) := by
  have hg := hP.geom
  have hkm := hg.kmax3
  obtain ⟨⟨j1, j2⟩, k1, k2⟩ := hd
  rw [← tendsto_add_atTop_iff_nat 1]
  by_cases e1 : j = 1
  · refine tendsto_const_nhds.congr fun n => ?_
    rw [e1, hu.south k k1 k2]
    show _ = (I.sweep ((n + 1 : ℕ) : ℤ) (I.trajectory n).1 (I.trajectory n).2).u 1 k
    rw [sweep_south hg]
  by_cases e2 : j = I.jd
  · refine tendsto_const_nhds.congr fun n => ?_
    rw [e2, hu.north k k1 k2]
    show _ = (I.sweep ((n + 1 : ℕ) : ℤ) (I.trajectory n).1 (I.trajectory n).2).u I.jd k
    rw [sweep_north hg]
  have hbot : ∀ n, (I.trajectory (n + 1)).2 j 1 = 0 := fun n => sweep_bottom hg (by omega) (by omega)
  have hmid : ∀ k, 1 ≤ k → k ≤ I.kmax - 1 → Tendsto (fun n => (I.trajectory (n + 1)).2 j k) atTop (𝓝 (u j k)) := by
    intro k b1 b2
    by_cases e3 : k = 1
    · refine tendsto_const_nhds.congr fun n => ?_
      rw [e3, hu.bottom j (by omega) (by omega), hbot]
    · exact hP.interior_tendsto hr hu ⟨(j, k), mem_interior.2 ⟨⟨by dsimp only; omega, by dsimp only; omega⟩,
        by dsimp only; omega, by dsimp only; omega⟩⟩
  by_cases e4 : k = I.kmax
  · rw [e4, (top_iff u hP.dz j).1 (hu.top j (by omega) (by omega))]
    refine ((hmid (I.kmax - 2) (by omega) (by omega)).sub_const (I.uz j)).congr fun n => ?_
    show (I.sweep ((n + 1 : ℕ) : ℤ) (I.trajectory n).1 (I.trajectory n).2).u j (I.kmax - 2) - I.uz j =
      (I.sweep ((n + 1 : ℕ) : ℤ) (I.trajectory n).1 (I.trajectory n).2).u j I.kmax
    rw [sweep_top hg (by omega) (by omega)]
  · exact hmid k k1 (by omega)

/-- C112, stopping: with a positive tolerance all sweeps from some sweep on meet the stopping criterion, if the right-hand side
of the equation is not zero at all interior points. -/
theorem C112_stops (hP : I.Physical) (hr : I.rjac ^ 2 < 1) (heps : 0 < I.eps)
    (hf : ∃ j k, (2 ≤ j ∧ j ≤ I.jd - 1) ∧ (2 ≤ k ∧ k ≤ I.kmax - 1) ∧ I.fjk j k ≠ 0) : ∃ N, ∀ n, N ≤ n → I.Stop n := by
  obtain ⟨j0, k0, hj0, hk0, hne⟩ := hf
  have hF : 0 < I.eps * ∑ j ∈ Icc 2 (I.jd - 1), ∑ k ∈ Icc 2 (I.kmax - 1), |I.fjk j k| := by
    refine mul_pos heps (lt_of_lt_of_le (abs_pos.2 hne) ?_)
    refine le_trans (single_le_sum (f := fun k => |I.fjk j0 k|) (fun k _ => abs_nonneg _) (mem_Icc.2 hk0)) ?_
    exact single_le_sum (f := fun j => ∑ k ∈ Icc 2 (I.kmax - 1), |I.fjk j k|)
      (fun j _ => sum_nonneg fun k _ => abs_nonneg _) (mem_Icc.2 hj0)
  have hlim : Tendsto (fun n => ∑ j ∈ Icc 2 (I.jd - 1), ∑ k ∈ Icc 2 (I.kmax - 1), |I.resid (I.trajectory (n + 1)).2 j k|)
      atTop (𝓝 0) := by
    have : Tendsto (fun n => ∑ j ∈ Icc 2 (I.jd - 1), ∑ k ∈ Icc 2 (I.kmax - 1), |I.resid (I.trajectory (n + 1)).2 j k|)
        atTop (𝓝 (∑ j ∈ Icc 2 (I.jd - 1), ∑ k ∈ Icc 2 (I.kmax - 1), 0)) := by
      refine tendsto_finsetSum _ fun j hj => tendsto_finsetSum _ fun k hk => ?_
      rw [mem_Icc] at hj hk
      have := (hP.resid_tendsto hr hj.1 hj.2 hk.1 hk.2).abs
      rwa [abs_zero] at this
    simpa using this
  obtain ⟨N, hN⟩ := eventually_atTop.1 (hlim.eventually (gt_mem_nhds hF))
  refine ⟨N + 2, fun n hn => ⟨by omega, lt_of_le_of_lt ?_ (hN (n - 2) (by omega))⟩⟩
  rw [show n - 2 + 1 = n - 1 by omega]
  refine sum_le_sum fun j _ => sum_le_sum fun k _ => ?_
  split_ifs
  · exact le_rfl
  · exact abs_nonneg _

/-- C112, when: with a positive tolerance the criterion is met by some sweep exactly if the right-hand side of the equation is not
zero at all interior points. -/
theorem C112_stops_iff (hP : I.Physical) (hr : I.rjac ^ 2 < 1) (heps : 0 < I.eps) :
    (∃ n, I.Stop n) ↔ ∃ j k, (2 ≤ j ∧ j ≤ I.jd - 1) ∧ (2 ≤ k ∧ k ≤ I.kmax - 1) ∧ I.fjk j k ≠ 0 := by
  constructor
  · rintro ⟨n, _, hn⟩
    by_contra hc
    push Not at hc
    have hz : ∑ j ∈ Icc 2 (I.jd - 1), ∑ k ∈ Icc 2 (I.kmax - 1), |I.fjk j k| = 0 := by
      refine sum_eq_zero fun j hj => sum_eq_zero fun k hk => ?_
      rw [mem_Icc] at hj hk
      rw [hc j k hj hk, abs_zero]
    rw [hz, mul_zero] at hn
    refine absurd hn (not_lt.2 (sum_nonneg fun j _ => sum_nonneg fun k _ => ?_))
    split_ifs
    · exact abs_nonneg _
    · exact le_rfl
  · intro hf
    obtain ⟨N, hN⟩ := C112_stops hP hr heps hf
    exact ⟨N, hN N le_rfl⟩

/-- The same input with another limit on the number of sweeps. -/
def withLimit (I : RefIn) (m : ℕ) : RefIn := { I with maxits := m }

theorem withLimit_trajectory (m n : ℕ) : (I.withLimit m).trajectory n = I.trajectory n := by
  induction n with
  | zero => rfl
  | succ n ih =>
    show (_, (I.sweep _ _ _).u) = (_, (I.sweep _ _ _).u)
    rw [ih]
    rfl

theorem withLimit_stop (m n : ℕ) : (I.withLimit m).Stop n ↔ I.Stop n := by
  unfold Stop
  rw [withLimit_trajectory]
  rfl

/-- C112, the limit `maxits`: there is a number of sweeps such that every limit from this number on gives the same converged
result: the same number of sweeps, which is not above the limit, and the same reference wind. -/
theorem C112_limit (hP : I.Physical) (hr : I.rjac ^ 2 < 1) (heps : 0 < I.eps)
    (hf : ∃ j k, (2 ≤ j ∧ j ≤ I.jd - 1) ∧ (2 ≤ k ∧ k ≤ I.kmax - 1) ∧ I.fjk j k ≠ 0) :
    ∃ N : ℕ, ∀ m, N ≤ m → (I.withLimit m).numOfIter = N ∧
      ∀ j k, 2 ≤ j → j ≤ I.jd - 1 → (I.withLimit m).uref j k * cos (I.planet.lat j) = (I.trajectory N).2 j k := by
  classical
  have hex : ∃ n, I.Stop n := (C112_stops_iff hP hr heps).2 hf
  refine ⟨Nat.find hex, fun m hm => ?_⟩
  have hg : (I.withLimit m).Geometry := ⟨hP.geom.nlon1, hP.geom.jd3, hP.geom.kmax3, hP.geom.odd, hP.geom.dphiEq⟩
  obtain ⟨_, _, h3, _⟩ := C55_count hg
  obtain ⟨r1, r2⟩ := h3 (Nat.find hex) hm ((withLimit_stop m _).2 (Nat.find_spec hex))
    (fun l hl hs => Nat.find_min hex hl ((withLimit_stop m l).1 hs))
  refine ⟨r1, fun j k j1 j2 => ?_⟩
  have := r2 j k j1 j2
  rw [withLimit_trajectory] at this
  exact this

theorem smooth_physical : smooth.Physical :=
  ⟨smooth_geometry, by norm_num [smooth], by norm_num [smooth], by norm_num [smooth], by norm_num [smooth], by norm_num [smooth],
    fun k _ _ => by norm_num [smooth]⟩

example : smooth.Physical ∧ smooth.rjac ^ 2 < 1 ∧ (∃ u, smooth.Solves u) ∧ smooth.Dom 2 3 :=
  ⟨smooth_physical, by norm_num [smooth],
    C55_exists smooth_geometry smooth_physical.om smooth_physical.a smooth_physical.h smooth_physical.r smooth_physical.dz
      smooth_physical.stat, by decide, by decide⟩

/-- The reference QGPV of the ramp in the middle row. -/
theorem ramp_qref : 8 ≤ AreaIn.ramp.qref 2 := by
  have hv := AreaIn.ramp_valid
  have hdq : AreaIn.ramp.dq = 2 := by unfold AreaIn.dq; rw [AreaIn.ramp_qmax, AreaIn.ramp_qmin]; norm_num [AreaIn.ramp]
  have hind : ∀ i j : ℤ, j ≤ 5 → AreaIn.ramp.ind i j = 6 - j := by
    intro i j hj
    unfold AreaIn.ind
    rw [AreaIn.ramp_qmax, hdq]
    have e : (10 - AreaIn.ramp.q i j) / 2 = ((5 - j : ℤ) : ℝ) := by
      show (10 - 2 * (j : ℝ)) / 2 = _
      push_cast
      ring
    rw [e, fint_nonneg (by exact_mod_cast (by omega : 0 ≤ 5 - j)), Int.floor_intCast]
    ring
  have hs : sin (π / 4 * ((4 - 1 : ℤ) : ℝ)) = √2 / 2 := by
    rw [show π / 4 * ((4 - 1 : ℤ) : ℝ) = π - π / 4 by norm_num; ring, sin_pi_sub, sin_pi_div_four]
  have hda : AreaIn.ramp.da 4 = π / 4 * (π / 2) * (√2 / 2) := by
    unfold AreaIn.da
    rw [show -(0.5 * π) + AreaIn.ramp.dphi * ((4 - 1 : ℤ) : ℝ) = π / 4 * ((4 - 1 : ℤ) : ℝ) - π / 2 by
      show -(0.5 * π) + π / 4 * ((4 - 1 : ℤ) : ℝ) = _
      ring, cos_sub_pi_div_two, hs]
    show 1 * 1 * (π / 4) * (π / 2) * _ = _
    ring
  have han : AreaIn.ramp.aan 2 = 4 * AreaIn.ramp.da 4 := by
    rw [AreaIn.ramp.aan_eq 2 (by norm_num) (by decide), show Icc (2 : ℤ) 2 = {2} by decide, sum_singleton, AreaIn.an_eq]
    have : ∀ c ∈ AreaIn.ramp.cells, (if AreaIn.ramp.ind c.1 c.2 = 2 then AreaIn.ramp.da c.2 else 0) =
        if c.2 = 4 then AreaIn.ramp.da 4 else 0 := by
      intro c hc
      rw [AreaIn.ramp.mem_cells] at hc
      rw [hind _ _ hc.2.2]
      by_cases h4 : c.2 = 4
      · rw [if_pos (by omega), if_pos h4, h4]
      · rw [if_neg (by omega), if_neg h4]
    rw [sum_congr rfl this]
    unfold AreaIn.cells
    rw [sum_product_right]
    have hI : Icc 1 AreaIn.ramp.jmax = {1, 2, 3, 4, 5} := by decide
    have hJ : Icc 1 AreaIn.ramp.imax = {1, 2, 3, 4} := by decide
    rw [hI, hJ]
    norm_num
    ring
  have hal : AreaIn.ramp.alat 2 = 2 * π * (1 - √2 / 2) := by
    unfold AreaIn.alat
    rw [show AreaIn.ramp.dphi * ((2 - 1 : ℤ) : ℝ) = π / 4 by show π / 4 * _ = _; norm_num, sin_pi_div_four]
    show 2 * π * 1 * 1 * _ = _
    ring
  have hsq : √2 * √2 = 2 := mul_self_sqrt (by norm_num)
  have hs1 : 1.4 < √2 := by
    rw [lt_sqrt (by norm_num)]
    norm_num
  have hp := pi_gt_three
  have hf : AreaIn.ramp.Falls 2 1 := by
    refine ⟨by rw [hv.aan_one]; exact hv.alat_nonneg 2, ?_⟩
    show AreaIn.ramp.alat 2 < AreaIn.ramp.aan 2
    rw [han, hda, hal]
    have : 2 * (1 - √2 / 2) < π / 2 * (√2 / 2) := by nlinarith
    nlinarith [mul_lt_mul_of_pos_left this pi_pos]
  obtain ⟨nn, n1, n2, n3, n4⟩ := AreaIn.qref_of_placed hv (by decide) AreaIn.ramp_placed
  have hn : nn = 1 := hv.falls_unique n1 n2 le_rfl (by decide) n3 hf
  rw [hn] at n3 n4
  rw [n4]
  refine le_trans ?_ (hv.value_between n3).1
  unfold AreaIn.qn
  rw [AreaIn.ramp_qmax, hdq]
  norm_num

/-- The smooth sample with another wind and another tolerance. -/
def tuned (w : ℤ → ℝ) (E : ℝ) : RefIn := { smooth with uu := fun _ _ k => w k, eps := E }

theorem smooth_fjk (k : ℤ) (k1 : 2 ≤ k) (k2 : k ≤ 3) : smooth.fjk 2 k ≠ 0 := by
  have hk : (2 : ℤ) ≤ k ∧ k ≤ smooth.kmax - 1 := ⟨k1, k2⟩
  have q3 : smooth.qrefNorm 3 k = 5 := by
    unfold qrefNorm qrefRaw cor phi
    rw [if_pos hk]
    have : (smooth.area k).qref 3 = 10 := by
      show AreaIn.ramp.qref 3 = 10
      unfold AreaIn.qref
      rw [if_pos (show (3 : ℤ) = AreaIn.ramp.nd from rfl), AreaIn.ramp_qmax]
    rw [this]
    show 10 / (2 * 1 * sin (π / 4 * ((3 - 1 : ℤ) : ℝ))) = 5
    rw [show π / 4 * ((3 - 1 : ℤ) : ℝ) = π / 2 by push_cast; ring, sin_pi_div_two]
    norm_num
  have q2 : 5 < smooth.qrefNorm 2 k := by
    unfold qrefNorm qrefRaw cor phi
    rw [if_pos hk]
    show 5 < AreaIn.ramp.qref 2 / (2 * 1 * sin (π / 4 * ((2 - 1 : ℤ) : ℝ)))
    rw [show π / 4 * ((2 - 1 : ℤ) : ℝ) = π / 4 by norm_num, sin_pi_div_four]
    have h8 := ramp_qref
    have hs : √2 < 1.5 := by
      rw [sqrt_lt' (by norm_num)]
      norm_num
    have hs0 : 0 < √2 := sqrt_pos.2 (by norm_num)
    rw [lt_div_iff₀ (by positivity)]
    linarith
  unfold fjk qref
  norm_num only [Int.reduceAdd, Int.reduceSub]
  rw [if_neg (by decide), if_pos trivial, if_pos hk, q3]
  show -1 * 1 * (π / 4) * (5 - (2 * _ - 5)) ≠ 0
  have : 5 - (2 * smooth.qrefNorm 2 k - 5) ≠ 0 := by linarith
  have hp := pi_pos.ne'
  refine mul_ne_zero ?_ this
  simp [hp]

theorem tuned_geometry (w : ℤ → ℝ) (E : ℝ) : (tuned w E).Geometry :=
  ⟨smooth_geometry.1, smooth_geometry.2, smooth_geometry.3, smooth_geometry.4, smooth_geometry.5⟩

theorem tuned_physical (w : ℤ → ℝ) (E : ℝ) : (tuned w E).Physical :=
  ⟨tuned_geometry w E, smooth_physical.om, smooth_physical.a, smooth_physical.h, smooth_physical.r, smooth_physical.dz,
    smooth_physical.stat⟩

example : (tuned (fun _ => 0) 1).Physical ∧ (tuned (fun _ => 0) 1).rjac ^ 2 < 1 ∧ 0 < (tuned (fun _ => 0) 1).eps ∧
    ∃ j k, (2 ≤ j ∧ j ≤ (tuned (fun _ => 0) 1).jd - 1) ∧ (2 ≤ k ∧ k ≤ (tuned (fun _ => 0) 1).kmax - 1) ∧
      (tuned (fun _ => 0) 1).fjk j k ≠ 0 :=
  ⟨tuned_physical _ _, by norm_num [tuned, smooth], by norm_num [tuned], 2, 2, by decide, by decide, smooth_fjk 2 le_rfl (by decide)⟩

/-- The wind on the equatorward boundary of the tuned sample. -/
theorem tuned_bound (w : ℤ → ℝ) (E : ℝ) (k : ℤ) (k1 : 2 ≤ k) (k2 : k ≤ 3) :
    (tuned w E).bound k = w k + (AreaIn.ramp.cref 0 1 - smooth.cbar k 1) / (2 * π * 1) := by
  unfold bound
  rw [if_pos ⟨k1, k2⟩]
  have : (tuned w E).ubar 1 k = w k := by
    unfold ubar zmean
    rw [dosum_eq]
    show ∑ i ∈ Icc (1 : ℤ) 4, w k / ((4 : ℤ) : ℝ) = w k
    simp
    ring
  rw [this]
  rfl

/-- The first two sweeps of the tuned sample, with a wind for which the residual vanishes in the second sweep. -/
theorem tuned_sweeps (w : ℤ → ℝ) (E : ℝ)
    (h2 : smooth.bjk 2 * (tuned w E).bound 2 + smooth.cjk 2 2 * (smooth.fjk 2 3 / smooth.ejk 2 3) - smooth.fjk 2 2 = 0) :
    (tuned w E).resid ((tuned w E).trajectory 1).2 2 2 = 0 ∧
    (tuned w E).resid ((tuned w E).trajectory 2).2 2 3 = smooth.bjk 2 * (tuned w E).bound 3 - smooth.cjk 2 3 * smooth.uz 2 := by
  have hg := tuned_geometry w E
  have j2 : (2 : ℤ) ≤ (tuned w E).jd - 1 := by show (2 : ℤ) ≤ 3 - 1; decide
  have k2 : (2 : ℤ) ≤ (tuned w E).kmax - 1 := by show (2 : ℤ) ≤ 4 - 1; decide
  have k3 : (3 : ℤ) ≤ (tuned w E).kmax - 1 := by show (3 : ℤ) ≤ 4 - 1; decide
  have he : smooth.ejk 2 3 ≠ 0 := (smooth_physical.diag_neg le_rfl (by decide) (by decide) (by decide)).ne
  have s1 : ∀ j k, ((tuned w E).trajectory 1).2 j k = ((tuned w E).sweep 1 1 (fun _ _ => 0)).u j k := fun _ _ => rfl
  have s2 : ∀ j k, ((tuned w E).trajectory 2).2 j k =
      ((tuned w E).sweep 2 ((tuned w E).trajectory 1).1 ((tuned w E).trajectory 1).2).u j k := fun _ _ => rfl
  have a1 : ((tuned w E).trajectory 1).2 1 2 = (tuned w E).bound 2 := by rw [s1, sweep_south hg]
  have a2 : ((tuned w E).trajectory 1).2 3 2 = 0 := by rw [s1]; exact sweep_north hg 2
  have a3 : ((tuned w E).trajectory 1).2 2 1 = 0 := by rw [s1, sweep_bottom hg le_rfl j2]
  have a4 : ((tuned w E).trajectory 1).2 2 2 = 0 := by
    rw [s1, sweep_interior hg le_rfl j2 le_rfl k2, if_neg]
    rintro ⟨_, x⟩
    revert x
    decide
  have a5 : ((tuned w E).trajectory 1).2 2 3 = smooth.fjk 2 3 / smooth.ejk 2 3 := by
    rw [s1, sweep_interior hg le_rfl j2 (by decide) k3, if_pos ⟨⟨by decide, k3⟩, by decide⟩]
    unfold relax
    rw [if_pos (show (tuned w E).ejk 2 3 ≠ 0 from he)]
    show 0 - 1 * (tuned w E).resid (fun _ _ => 0) 2 3 / smooth.ejk 2 3 = _
    unfold resid
    show 0 - 1 * (_ - smooth.fjk 2 3) / smooth.ejk 2 3 = _
    simp [neg_div]
  have r1 : (tuned w E).resid ((tuned w E).trajectory 1).2 2 2 = 0 := by
    unfold resid
    norm_num only [Int.reduceAdd, Int.reduceSub]
    rw [a1, a2, a3, a4, a5]
    refine Eq.trans ?_ h2
    show smooth.ajk 2 * 0 + smooth.bjk 2 * _ + smooth.cjk 2 2 * _ + smooth.djk 2 2 * 0 + smooth.ejk 2 2 * 0 - smooth.fjk 2 2 = _
    ring
  refine ⟨r1, ?_⟩
  have b1 : ((tuned w E).trajectory 2).2 1 3 = (tuned w E).bound 3 := by rw [s2, sweep_south hg]
  have b2 : ((tuned w E).trajectory 2).2 3 3 = 0 := by rw [s2]; exact sweep_north hg 3
  have b3 : ((tuned w E).trajectory 2).2 2 2 = 0 := by
    rw [s2, sweep_interior hg le_rfl j2 le_rfl k2, if_pos ⟨⟨le_rfl, k2⟩, by decide⟩]
    unfold relax
    rw [r1, a4]
    simp
  have b4 : ((tuned w E).trajectory 2).2 2 3 = smooth.fjk 2 3 / smooth.ejk 2 3 := by
    rw [s2, sweep_interior hg le_rfl j2 (by decide) k3, if_neg, a5]
    rintro ⟨_, x⟩
    revert x
    decide
  have b5 : ((tuned w E).trajectory 2).2 2 4 = -smooth.uz 2 := by
    have := sweep_top hg (n := 2) (om := ((tuned w E).trajectory 1).1) (u := ((tuned w E).trajectory 1).2) (j := 2) le_rfl j2
    have e : ((tuned w E).trajectory 2).2 2 4 = ((tuned w E).trajectory 2).2 2 2 - smooth.uz 2 := this
    rw [e, b3, zero_sub]
  unfold resid
  norm_num only [Int.reduceAdd, Int.reduceSub]
  rw [b1, b2, b3, b4, b5]
  show smooth.ajk 2 * 0 + smooth.bjk 2 * _ + smooth.cjk 2 3 * _ + smooth.djk 2 3 * 0 +
    smooth.ejk 2 3 * (smooth.fjk 2 3 / smooth.ejk 2 3) - smooth.fjk 2 3 = _
  rw [mul_div_cancel₀ _ he]
  ring

/-! ### What the stopping criterion says about the wind returned -/

/-- The wind returned, times the cosine of latitude, with the boundary values of the equatorward row. -/
def wind (I : RefIn) (j k : ℤ) : ℝ := if j = 1 then I.bound k else I.uref j k * cos (I.planet.lat j)

theorem resid_congr_dom {u v : ℤ → ℤ → ℝ} (h : ∀ j k, I.Dom j k → u j k = v j k) {j k : ℤ} (j1 : 2 ≤ j) (j2 : j ≤ I.jd - 1)
    (k1 : 2 ≤ k) (k2 : k ≤ I.kmax - 1) : I.resid u j k = I.resid v j k := by
  unfold resid
  rw [h (j + 1) k ⟨⟨by omega, by omega⟩, by omega, by omega⟩, h (j - 1) k ⟨⟨by omega, by omega⟩, by omega, by omega⟩,
    h j (k + 1) ⟨⟨by omega, by omega⟩, by omega, by omega⟩, h j (k - 1) ⟨⟨by omega, by omega⟩, by omega, by omega⟩,
    h j k ⟨⟨by omega, by omega⟩, by omega, by omega⟩]

/-- If the solver reports convergence, the wind is that of the first sweep that meets the criterion. -/
theorem wind_eq (h : I.Geometry) {n : ℕ} (hn : n ≤ I.maxits) (hs : I.Stop n) (hl : ∀ l, l < n → ¬ I.Stop l) :
    ∀ j k, I.Dom j k → I.wind j k = (I.trajectory n).2 j k := by
  rintro j k ⟨⟨j1, j2⟩, k1, k2⟩
  obtain ⟨m, rfl⟩ : ∃ m, n = m + 1 := ⟨n - 1, by have := hs.1; omega⟩
  unfold wind
  by_cases e1 : j = 1
  · rw [if_pos e1, e1]
    show _ = (I.sweep ((m + 1 : ℕ) : ℤ) (I.trajectory m).1 (I.trajectory m).2).u 1 k
    rw [sweep_south h]
  · rw [if_neg e1]
    by_cases e2 : j = I.jd
    · have : I.planet.lat j = π / 2 := by
        rw [← phi_eq_lat, e2]
        unfold phi
        push_cast
        exact h.dphi_mul
      rw [this, cos_pi_div_two, mul_zero, e2]
      show _ = (I.sweep ((m + 1 : ℕ) : ℤ) (I.trajectory m).1 (I.trajectory m).2).u I.jd k
      rw [sweep_north h]
    · exact ((C55_count h).2.2.1 (m + 1) hn hs hl).2 j k (by omega) (by omega)

/-- At a point treated in a sweep, the residual is multiplied by one minus the relaxation factor. -/
theorem resid_after (hP : I.Physical) (n : ℕ) {j k : ℤ} (j1 : 2 ≤ j) (j2 : j ≤ I.jd - 1) (k1 : 2 ≤ k) (k2 : k ≤ I.kmax - 1)
    (hc : (j + k) % 2 = ((n + 2 : ℕ) : ℤ) % 2) :
    I.resid (I.trajectory (n + 2)).2 j k = (1 - (I.trajectory (n + 1)).1) * I.resid (I.trajectory (n + 1)).2 j k := by
  have hg := hP.geom
  have hkm := hg.kmax3
  have hjm := hg.jd3
  have he := hP.diag_neg j1 j2 k1 k2
  have other : ∀ j' k', 2 ≤ j' → j' ≤ I.jd - 1 → 2 ≤ k' → k' ≤ I.kmax - 1 → (j' + k') % 2 ≠ ((n + 2 : ℕ) : ℤ) % 2 →
      (I.trajectory (n + 2)).2 j' k' = (I.trajectory (n + 1)).2 j' k' := by
    intro j' k' a1 a2 a3 a4 a5
    show (I.sweep ((n + 2 : ℕ) : ℤ) (I.trajectory (n + 1)).1 (I.trajectory (n + 1)).2).u j' k' = _
    rw [sweep_interior hg a1 a2 a3 a4, if_neg (fun x => a5 x.2)]
  have south : ∀ n k', (I.trajectory (n + 1)).2 1 k' = I.bound k' := fun n k' => by
    show (I.sweep ((n + 1 : ℕ) : ℤ) (I.trajectory n).1 (I.trajectory n).2).u 1 k' = _
    rw [sweep_south hg]
  have north : ∀ n k', (I.trajectory (n + 1)).2 I.jd k' = 0 := fun n k' => by
    show (I.sweep ((n + 1 : ℕ) : ℤ) (I.trajectory n).1 (I.trajectory n).2).u I.jd k' = _
    rw [sweep_north hg]
  have bottom : ∀ n, (I.trajectory (n + 1)).2 j 1 = 0 := fun n => by
    show (I.sweep ((n + 1 : ℕ) : ℤ) (I.trajectory n).1 (I.trajectory n).2).u j 1 = _
    rw [sweep_bottom hg j1 j2]
  have top : ∀ n, (I.trajectory (n + 1)).2 j I.kmax = (I.trajectory (n + 1)).2 j (I.kmax - 2) - I.uz j := fun n => by
    show (I.sweep ((n + 1 : ℕ) : ℤ) (I.trajectory n).1 (I.trajectory n).2).u j I.kmax =
      (I.sweep ((n + 1 : ℕ) : ℤ) (I.trajectory n).1 (I.trajectory n).2).u j (I.kmax - 2) - I.uz j
    rw [sweep_top hg j1 j2]
  have e1 : (I.trajectory (n + 2)).2 (j + 1) k = (I.trajectory (n + 1)).2 (j + 1) k := by
    by_cases c : j + 1 = I.jd
    · rw [c, north (n + 1), north n]
    · exact other _ _ (by omega) (by omega) k1 k2 (by omega)
  have e2 : (I.trajectory (n + 2)).2 (j - 1) k = (I.trajectory (n + 1)).2 (j - 1) k := by
    by_cases c : j - 1 = 1
    · rw [c, south (n + 1), south n]
    · exact other _ _ (by omega) (by omega) k1 k2 (by omega)
  have e4 : (I.trajectory (n + 2)).2 j (k - 1) = (I.trajectory (n + 1)).2 j (k - 1) := by
    by_cases c : k - 1 = 1
    · rw [c, bottom (n + 1), bottom n]
    · exact other _ _ j1 j2 (by omega) (by omega) (by omega)
  have e3 : (I.trajectory (n + 2)).2 j (k + 1) = (I.trajectory (n + 1)).2 j (k + 1) := by
    by_cases c : k + 1 = I.kmax
    · rw [c, top (n + 1), top n, show I.kmax - 2 = k - 1 by omega, e4]
    · exact other _ _ j1 j2 (by omega) (by omega) (by omega)
  have e5 : (I.trajectory (n + 2)).2 j k = (I.trajectory (n + 1)).2 j k -
      (I.trajectory (n + 1)).1 * I.resid (I.trajectory (n + 1)).2 j k / I.ejk j k := by
    show (I.sweep ((n + 2 : ℕ) : ℤ) (I.trajectory (n + 1)).1 (I.trajectory (n + 1)).2).u j k = _
    rw [sweep_interior hg j1 j2 k1 k2, if_pos ⟨⟨k1, k2⟩, hc⟩]
    unfold relax
    rw [if_pos he.ne]
  have e6 : I.resid (I.trajectory (n + 2)).2 j k = I.resid (I.trajectory (n + 1)).2 j k -
      I.ejk j k * ((I.trajectory (n + 1)).1 * I.resid (I.trajectory (n + 1)).2 j k / I.ejk j k) := by
    generalize hR : (I.trajectory (n + 1)).1 * I.resid (I.trajectory (n + 1)).2 j k / I.ejk j k = R at e5
    unfold resid
    rw [e1, e2, e3, e4, e5]
    ring
  rw [e6, mul_div_cancel₀ _ he.ne]
  ring

/-- C113 as stated: if the solver reports convergence, the residuals of the wind returned add up to less than the tolerance times
the sum of the right-hand sides. -/
def C113_Statement : Prop :=
  ∀ I : RefIn, I.Physical → I.rjac ^ 2 < 1 → 0 < I.eps →
    (∀ k, 2 ≤ k → k ≤ I.kmax - 1 → ((I.area k).placed 1).isSome = true) → I.numOfIter ≤ I.maxits →
    ∑ j ∈ Icc 2 (I.jd - 1), ∑ k ∈ Icc 2 (I.kmax - 1), |I.resid I.wind j k| <
      I.eps * ∑ j ∈ Icc 2 (I.jd - 1), ∑ k ∈ Icc 2 (I.kmax - 1), |I.fjk j k|

/-- C113, what holds: this is so for the residuals at the points treated in the last sweep, one half of the points. -/
theorem C113_half_partial (hP : I.Physical) (hr : I.rjac ^ 2 < 1) (hc : I.numOfIter ≤ I.maxits) :
    ∑ j ∈ Icc 2 (I.jd - 1), ∑ k ∈ Icc 2 (I.kmax - 1), (if (j + k) % 2 = I.numOfIter % 2 then |I.resid I.wind j k| else 0) <
      I.eps * ∑ j ∈ Icc 2 (I.jd - 1), ∑ k ∈ Icc 2 (I.kmax - 1), |I.fjk j k| := by
  classical
  have hg := hP.geom
  have hex : ∃ n, n ≤ I.maxits ∧ I.Stop n := (C55_count hg).1.1 hc
  obtain ⟨hm, hs⟩ := Nat.find_spec hex
  have hl : ∀ l, l < Nat.find hex → ¬ I.Stop l := fun l h1 h2 => Nat.find_min hex h1 ⟨by omega, h2⟩
  generalize Nat.find hex = n at hm hs hl
  rw [((C55_count hg).2.2.1 n hm hs hl).1]
  have hw := wind_eq hg hm hs hl
  obtain ⟨m, rfl⟩ : ∃ m, n = m + 2 := ⟨n - 2, by have := hs.1; omega⟩
  refine lt_of_le_of_lt (sum_le_sum fun j hj => sum_le_sum fun k hk => ?_) hs.2
  rw [mem_Icc] at hj hk
  rw [show m + 2 - 1 = m + 1 by omega]
  beta_reduce
  split_ifs with c
  · rw [resid_congr_dom hw hj.1 hj.2 hk.1 hk.2, resid_after hP m hj.1 hj.2 hk.1 hk.2 c, abs_mul]
    obtain ⟨o1, o2⟩ := omega_mem hr (m + 1)
    obtain ⟨_, o3⟩ := omegaMax_lt_two hr
    have : |1 - (I.trajectory (m + 1)).1| ≤ 1 := abs_le.2 ⟨by linarith, by linarith⟩
    exact mul_le_of_le_one_left (abs_nonneg _) this
  · rfl

/-- For every tolerance and every bound there is an input for which the solver reports convergence after two sweeps, and the
residual of the wind returned at some point is at least the bound times the sum of the right-hand sides. -/
theorem C113_unbounded (E : ℝ) (hE : 0 < E) (M : ℝ) :
    ∃ I : RefIn, I.Physical ∧ I.rjac ^ 2 < 1 ∧ I.eps = E ∧
      (∀ k, 2 ≤ k → k ≤ I.kmax - 1 → ((I.area k).placed 1).isSome = true) ∧ I.numOfIter = 2 ∧ I.numOfIter ≤ I.maxits ∧
      ∃ j k, (2 ≤ j ∧ j ≤ I.jd - 1) ∧ (2 ≤ k ∧ k ≤ I.kmax - 1) ∧
        M * ∑ j ∈ Icc 2 (I.jd - 1), ∑ k ∈ Icc 2 (I.kmax - 1), |I.fjk j k| ≤ |I.resid I.wind j k| := by
  obtain ⟨N, hN⟩ : ∃ N, N = M * ∑ j ∈ Icc 2 (smooth.jd - 1), ∑ k ∈ Icc 2 (smooth.kmax - 1), |smooth.fjk j k| := ⟨_, rfl⟩
  have hb : smooth.bjk 2 ≠ 0 := (smooth_physical.row_pos le_rfl (by decide)).2.1.ne'
  obtain ⟨β, hβ⟩ : ∃ β : ℤ → ℝ, ∀ w E k, 2 ≤ k → k ≤ 3 → (tuned w E).bound k = w k + β k := ⟨_, tuned_bound⟩
  obtain ⟨w, hw2, hw3⟩ : ∃ w : ℤ → ℝ,
      smooth.bjk 2 * (w 2 + β 2) + smooth.cjk 2 2 * (smooth.fjk 2 3 / smooth.ejk 2 3) - smooth.fjk 2 2 = 0 ∧
      smooth.bjk 2 * (w 3 + β 3) - smooth.cjk 2 3 * smooth.uz 2 = N := by
    refine ⟨fun k => if k = 2 then (smooth.fjk 2 2 - smooth.cjk 2 2 * (smooth.fjk 2 3 / smooth.ejk 2 3)) / smooth.bjk 2 - β 2
      else (N + smooth.cjk 2 3 * smooth.uz 2) / smooth.bjk 2 - β 3, ?_, ?_⟩
    · beta_reduce
      rw [if_pos rfl, sub_add_cancel, mul_div_cancel₀ _ hb]
      ring
    · beta_reduce
      rw [if_neg (by decide), sub_add_cancel, mul_div_cancel₀ _ hb]
      ring
  rw [← hβ w E 2 le_rfl (by decide)] at hw2
  rw [← hβ w E 3 (by decide) le_rfl] at hw3
  obtain ⟨r1, r2⟩ := tuned_sweeps w E hw2
  have hg := tuned_geometry w E
  have hst : (tuned w E).Stop 2 := by
    refine ⟨le_rfl, ?_⟩
    have e1 : Icc (2 : ℤ) ((tuned w E).jd - 1) = {2} := by show Icc (2 : ℤ) (3 - 1) = {2}; decide
    have e2 : Icc (2 : ℤ) ((tuned w E).kmax - 1) = {2, 3} := by show Icc (2 : ℤ) (4 - 1) = {2, 3}; decide
    rw [e1, e2]
    simp only [sum_singleton]
    rw [sum_pair (by decide), sum_pair (by decide), if_pos (by decide), if_neg (by decide), r1, abs_zero, add_zero]
    have := abs_pos.2 (smooth_fjk 2 le_rfl (by decide))
    exact mul_pos hE (add_pos_of_pos_of_nonneg this (abs_nonneg _))
  have hmax : (2 : ℕ) ≤ (tuned w E).maxits := by show 2 ≤ 100; decide
  have hl : ∀ l, l < 2 → ¬ (tuned w E).Stop l := fun l h1 h2 => by have := h2.1; omega
  have hn := ((C55_count hg).2.2.1 2 hmax hst hl).1
  refine ⟨tuned w E, tuned_physical w E, by norm_num [tuned, smooth], rfl, fun k _ _ => AreaIn.ramp_placed_all 1 le_rfl (by decide),
    hn, by rw [hn]; exact_mod_cast hmax, 2, 3, by show (2 : ℤ) ≤ 2 ∧ (2 : ℤ) ≤ 3 - 1; decide,
    by show (2 : ℤ) ≤ 3 ∧ (3 : ℤ) ≤ 4 - 1; decide, ?_⟩
  rw [resid_congr_dom (wind_eq hg hmax hst hl) le_rfl (by show (2 : ℤ) ≤ 3 - 1; decide) (by decide) (by show (3 : ℤ) ≤ 4 - 1; decide),
    r2, hw3]
  exact le_trans (le_of_eq hN.symm) (le_abs_self N)

/-- C113 fails as stated. -/
theorem C113_refuted : ¬ C113_Statement := by
  intro h
  obtain ⟨I, h1, h2, h3, h4, _, h6, j, k, hj, hk, h7⟩ := C113_unbounded 1 one_pos 1
  refine absurd (h I h1 h2 (by rw [h3]; exact one_pos) h4 h6) (not_lt.2 ?_)
  rw [h3]
  refine h7.trans (le_trans (single_le_sum (f := fun k => |I.resid I.wind j k|) (fun k _ => abs_nonneg _) (mem_Icc.2 hk)) ?_)
  exact single_le_sum (f := fun j => ∑ k ∈ Icc 2 (I.kmax - 1), |I.resid I.wind j k|)
    (fun j _ => sum_nonneg fun k _ => abs_nonneg _) (mem_Icc.2 hj)

example : ∃ I : RefIn, I.Physical ∧ I.rjac ^ 2 < 1 ∧ I.numOfIter ≤ I.maxits := by
  obtain ⟨I, h1, h2, _, _, _, h6, _⟩ := C113_unbounded 1 one_pos 1
  exact ⟨I, h1, h2, h6⟩

end Falwa.RefIn
