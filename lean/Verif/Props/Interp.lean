import Verif.Model.Interp
import Mathlib.Tactic.FieldSimp
import Mathlib.Tactic.Linarith
import Mathlib.Tactic.IntervalCases
import Mathlib.Analysis.SpecialFunctions.Pow.Real

/-!
# Interpolations and preparation of the input (C91 – C98)
-/

noncomputable section

namespace Falwa

open Finset

namespace Spec

/-- The value at `t` of the line through `(x₀, y₀)` and `(x₁, y₁)`. -/
def line (x₀ y₀ x₁ y₁ t : ℝ) : ℝ := y₀ + (y₁ - y₀) * (t - x₀) / (x₁ - x₀)

end Spec

open Spec

section Nodes

/-- Nodes in ascending order. -/
def Ascending (n : ℕ) (x : ℕ → ℝ) : Prop := ∀ i j, i < j → j < n → x i < x j

variable {n : ℕ} {x : ℕ → ℝ}

theorem Ascending.lt_iff (h : Ascending n x) {i j : ℕ} (hi : i < n) (hj : j < n) : x i < x j ↔ i < j := by
  constructor
  · intro hx
    by_contra c
    rcases Nat.lt_or_eq_of_le (not_lt.mp c) with c | c
    · exact absurd (h j i c hi) (not_lt.mpr hx.le)
    · subst c; exact lt_irrefl _ hx
  · exact fun hij => h i j hij hj

theorem Ascending.le_of_le (h : Ascending n x) {i j : ℕ} (hij : i ≤ j) (hj : j < n) : x i ≤ x j := by
  rcases Nat.lt_or_eq_of_le hij with c | c
  · exact (h i j c hj).le
  · rw [c]

/-- Between two neighbouring nodes `searchsorted` finds the upper one. -/
theorem searchLeft_eq (h : Ascending n x) {m : ℕ} {t : ℝ} (hm : m < n) (h0 : ∀ i, i < m → x i < t) (h1 : t ≤ x m) :
    searchLeft n x t = m := by
  have : (range n).filter (fun i => x i < t) = range m := by
    ext i
    simp only [mem_filter, mem_range]
    constructor
    · rintro ⟨hi, hx⟩
      exact (h.lt_iff hi hm).1 (lt_of_lt_of_le hx h1)
    · exact fun hi => ⟨lt_trans hi hm, h0 i hi⟩
  unfold searchLeft
  rw [this, card_range]

theorem upperNode_inside (h : Ascending n x) {m : ℕ} {t : ℝ} (hm : m + 1 < n) (h0 : x m < t) (h1 : t ≤ x (m + 1)) :
    upperNode n x t = m + 1 := by
  unfold upperNode
  rw [searchLeft_eq h hm (fun i hi => lt_of_le_of_lt (h.le_of_le (Nat.lt_succ_iff.mp hi) (by omega)) h0) h1]
  omega

theorem upperNode_below (h : Ascending n x) (hn : 2 ≤ n) {t : ℝ} (h1 : t ≤ x 0) : upperNode n x t = 1 := by
  unfold upperNode
  rw [searchLeft_eq h (by omega : 0 < n) (fun i hi => absurd hi (by omega)) h1]
  omega

theorem upperNode_above (h : Ascending n x) (hn : 2 ≤ n) {t : ℝ} (h1 : x (n - 1) < t) : upperNode n x t = n - 1 := by
  have : (range n).filter (fun i => x i < t) = range n := by
    refine filter_true_of_mem fun i hi => lt_of_le_of_lt (h.le_of_le ?_ (by omega)) h1
    have := mem_range.1 hi
    omega
  unfold upperNode searchLeft
  rw [this, card_range]
  omega

theorem upperNode_range (hn : 2 ≤ n) (t : ℝ) : 1 ≤ upperNode n x t ∧ upperNode n x t < n := by
  unfold upperNode
  omega

/-- Between neighbouring nodes, ends included, `interp1d` is the line through the two points. -/
theorem interp1d_inside (h : Ascending n x) (y : ℕ → ℝ) {m : ℕ} {t : ℝ} (hm : m + 1 < n) (h0 : x m ≤ t) (h1 : t ≤ x (m + 1)) :
    interp1d n x y t = line (x m) (y m) (x (m + 1)) (y (m + 1)) t := by
  have hd : x (m + 1) - x m ≠ 0 := (sub_pos.2 (h m (m + 1) (by omega) hm)).ne'
  rcases lt_or_eq_of_le h0 with c | c
  · unfold interp1d line
    rw [upperNode_inside h hm c h1, Nat.add_sub_cancel]
    ring
  · subst c
    unfold interp1d line
    rcases Nat.eq_zero_or_pos m with c | c
    · subst c
      rw [upperNode_below h (by omega) le_rfl]
      simp
    · obtain ⟨p, rfl⟩ : ∃ p, m = p + 1 := ⟨m - 1, by omega⟩
      have hd' : x (p + 1) - x p ≠ 0 := (sub_pos.2 (h p (p + 1) (by omega) (by omega))).ne'
      rw [upperNode_inside h (by omega : p + 1 < n) (h p (p + 1) (by omega) (by omega)) le_rfl, Nat.add_sub_cancel]
      field_simp
      ring

theorem interp1d_below (h : Ascending n x) (hn : 2 ≤ n) (y : ℕ → ℝ) {t : ℝ} (h1 : t ≤ x 0) :
    interp1d n x y t = line (x 0) (y 0) (x 1) (y 1) t := by
  unfold interp1d line
  rw [upperNode_below h hn h1]
  ring

theorem interp1d_above (h : Ascending n x) (hn : 2 ≤ n) (y : ℕ → ℝ) {t : ℝ} (h1 : x (n - 1) ≤ t) :
    interp1d n x y t = line (x (n - 2)) (y (n - 2)) (x (n - 1)) (y (n - 1)) t := by
  rcases lt_or_eq_of_le h1 with c | c
  · unfold interp1d line
    rw [upperNode_above h hn c, show n - 1 - 1 = n - 2 by omega]
    ring
  · have := interp1d_inside h y (m := n - 2) (t := t) (by omega)
      (by rw [← c]; exact h.le_of_le (by omega) (by omega)) (by rw [← c, show n - 2 + 1 = n - 1 by omega])
    rw [this, show n - 2 + 1 = n - 1 by omega]

/-- Every point between the first and the last node lies between two neighbouring nodes. -/
theorem bracket (hn : 2 ≤ n) {t : ℝ} (h0 : x 0 ≤ t) (h1 : t ≤ x (n - 1)) :
    ∃ m, m + 1 < n ∧ x m ≤ t ∧ t ≤ x (m + 1) := by
  have key : ∀ p, p + 1 < n → t ≤ x (p + 1) → ∃ m, m + 1 < n ∧ x m ≤ t ∧ t ≤ x (m + 1) := by
    intro p
    induction p with
    | zero => exact fun hp ht => ⟨0, hp, h0, ht⟩
    | succ p ih =>
      intro hp ht
      by_cases c : x (p + 1) ≤ t
      · exact ⟨p + 1, hp, c, ht⟩
      · exact ih (by omega) (not_le.mp c).le
  exact key (n - 2) (by omega) (by rwa [show n - 2 + 1 = n - 1 by omega])

theorem line_between {x₀ y₀ x₁ y₁ t lo hi : ℝ} (hx : x₀ < x₁) (h0 : x₀ ≤ t) (h1 : t ≤ x₁) (a0 : lo ≤ y₀) (a1 : lo ≤ y₁)
    (b0 : y₀ ≤ hi) (b1 : y₁ ≤ hi) : lo ≤ line x₀ y₀ x₁ y₁ t ∧ line x₀ y₀ x₁ y₁ t ≤ hi := by
  have hd : 0 < x₁ - x₀ := sub_pos.2 hx
  have e : line x₀ y₀ x₁ y₁ t = (y₀ * (x₁ - t) + y₁ * (t - x₀)) / (x₁ - x₀) := by
    unfold line
    rw [eq_div_iff hd.ne']
    field_simp
    ring
  have p0 : 0 ≤ x₁ - t := by linarith
  have p1 : 0 ≤ t - x₀ := by linarith
  rw [e, le_div_iff₀ hd, div_le_iff₀ hd]
  constructor <;> nlinarith [mul_le_mul_of_nonneg_right a0 p0, mul_le_mul_of_nonneg_right a1 p1,
    mul_le_mul_of_nonneg_right b0 p0, mul_le_mul_of_nonneg_right b1 p1]

/-- Values that are affine in the coordinate are reproduced everywhere, outside the nodes as well. -/
theorem interp1d_affine (h : Ascending n x) (hn : 2 ≤ n) (a b : ℝ) {y : ℕ → ℝ} (hy : ∀ i, i < n → y i = a + b * x i) (t : ℝ) :
    interp1d n x y t = a + b * t := by
  obtain ⟨u1, u2⟩ := upperNode_range (n := n) (x := x) hn t
  unfold interp1d
  generalize upperNode n x t = m at u1 u2
  rw [hy m u2, hy (m - 1) (by omega)]
  have hd : x m - x (m - 1) ≠ 0 := (sub_pos.2 (h (m - 1) m (by omega) u2)).ne'
  field_simp
  ring

theorem interp1d_linear (y y' : ℕ → ℝ) (a b t : ℝ) :
    interp1d n x (fun i => a * y i + b * y' i) t = a * interp1d n x y t + b * interp1d n x y' t := by
  unfold interp1d
  ring

theorem interp1d_congr (hn : 2 ≤ n) {y y' : ℕ → ℝ} (hy : ∀ i, i < n → y i = y' i) (t : ℝ) :
    interp1d n x y t = interp1d n x y' t := by
  obtain ⟨u1, u2⟩ := upperNode_range (n := n) (x := x) hn t
  unfold interp1d
  rw [hy _ u2, hy _ (by omega)]

/-- At a node the value there comes back. -/
theorem interp1d_node (h : Ascending n x) (hn : 2 ≤ n) (y : ℕ → ℝ) {m : ℕ} (hm : m < n) :
    interp1d n x y (x m) = y m := by
  by_cases c : m + 1 < n
  · rw [interp1d_inside h y c le_rfl (h m (m + 1) (by omega) c).le]
    unfold line
    rw [sub_self, mul_zero, zero_div, add_zero]
  · obtain ⟨p, rfl⟩ : ∃ p, m = p + 1 := ⟨m - 1, by omega⟩
    have hlt := h p (p + 1) (by omega) hm
    rw [interp1d_inside h y hm hlt.le le_rfl]
    unfold line
    rw [mul_div_cancel_right₀ _ (sub_pos.2 hlt).ne']
    ring

end Nodes

/-! ### C91, C92: vertical interpolation -/

namespace VertGrid

variable {V : VertGrid}

/-- Pressure decreases upward, and the constructor accepted the grid. -/
structure Accepted (V : VertGrid) : Prop where
  nlev2 : 2 ≤ V.nlev
  pos : ∀ l, l < V.nlev → 0 < V.plev l
  descending : ∀ l m, l < m → m < V.nlev → V.plev m < V.plev l
  hpos : 0 < V.h
  dzpos : 0 < V.dz
  check : checkPlev V.nlev V.plev V.h V.kmax V.dz = .ok

theorem Accepted.ascending (hV : V.Accepted) : Ascending V.nlev V.z := by
  intro i j hij hj
  have hp := hV.pos j hj
  have := Real.log_lt_log (div_pos hp (by norm_num : (0 : ℝ) < 1000))
    (div_lt_div_of_pos_right (hV.descending i j hij hj) (by norm_num))
  unfold z
  nlinarith [hV.hpos]

/-- C91: linear in the field. -/
theorem C91_linear (V : VertGrid) (y y' : ℕ → ℝ) (a b : ℝ) (k : ℕ) :
    V.column (fun l => a * y l + b * y' l) k = a * V.column y k + b * V.column y' k := interp1d_linear y y' a b _

/-- C91: at an analysis level that is a level of the data, the data come back; between two levels of the data, the value is on the
line through the data of these two. -/
theorem C91_between (hV : V.Accepted) (y : ℕ → ℝ) (k l : ℕ) :
    (l < V.nlev → V.z l = V.level k → V.column y k = y l) ∧
    (l + 1 < V.nlev → V.z l ≤ V.level k → V.level k ≤ V.z (l + 1) →
      V.column y k = line (V.z l) (y l) (V.z (l + 1)) (y (l + 1)) (V.level k)) := by
  have ha := hV.ascending
  have hn := hV.nlev2
  refine ⟨fun hl hz => ?_, fun hl h0 h1 => interp1d_inside ha y hl h0 h1⟩
  by_cases c : l + 1 < V.nlev
  · rw [show V.column y k = _ from interp1d_inside ha y c hz.le (by rw [← hz]; exact (ha l (l + 1) (by omega) c).le), ← hz]
    unfold line
    simp
  · obtain ⟨p, rfl⟩ : ∃ p, l = p + 1 := ⟨l - 1, by omega⟩
    have hd : V.z (p + 1) - V.z p ≠ 0 := (sub_pos.2 (ha p (p + 1) (by omega) hl)).ne'
    rw [show V.column y k = _ from interp1d_inside ha y hl (by rw [← hz]; exact (ha p (p + 1) (by omega) hl).le) hz.ge, ← hz]
    unfold line
    field_simp
    ring

/-- C91: a column that is affine in pseudoheight is reproduced on every level, below the lowest level of the data as well. -/
theorem C91_affine (hV : V.Accepted) (a b : ℝ) (y : ℕ → ℝ) (hy : ∀ l, l < V.nlev → y l = a + b * V.z l) (k : ℕ) :
    V.column y k = a + b * V.level k := interp1d_affine hV.ascending hV.nlev2 a b hy _

/-- C92: interpolated values stay within the range of the column. -/
def C92_Statement : Prop :=
  ∀ V : VertGrid, V.Accepted → ∀ (y : ℕ → ℝ) (lo hi : ℝ), (∀ l, l < V.nlev → lo ≤ y l ∧ y l ≤ hi) →
    ∀ k, k < V.kmax → lo ≤ V.column y k ∧ V.column y k ≤ hi

/-- C92, the upper end: no analysis level is above the data. -/
theorem C92_top_partial (hV : V.Accepted) (k : ℕ) (hk : k < V.kmax) : V.level k ≤ V.z (V.nlev - 1) := by
  have h := hV.check
  unfold checkPlev at h
  split_ifs at h with c1 c2
  have h2 := not_lt.mp c2
  have : (k : ℝ) + 1 ≤ (V.kmax : ℝ) := by exact_mod_cast hk
  have hz : plevTop V.nlev V.plev V.h = V.z (V.nlev - 1) := rfl
  rw [hz] at h2
  push_cast at h2
  unfold level
  nlinarith [hV.dzpos]

/-- C92, what holds: levels at or above the lowest level of the data; all levels if the data reach down to 1000 hPa. -/
theorem C92_range_partial (hV : V.Accepted) (y : ℕ → ℝ) (lo hi : ℝ) (hy : ∀ l, l < V.nlev → lo ≤ y l ∧ y l ≤ hi)
    (k : ℕ) (hk : k < V.kmax) (hb : V.z 0 ≤ V.level k) : lo ≤ V.column y k ∧ V.column y k ≤ hi := by
  obtain ⟨m, hm, h0, h1⟩ := bracket (x := V.z) hV.nlev2 hb (C92_top_partial hV k hk)
  rw [(C91_between hV y k m).2 hm h0 h1]
  exact line_between (hV.ascending m (m + 1) (by omega) hm) h0 h1 (hy m (by omega)).1 (hy (m + 1) hm).1
    (hy m (by omega)).2 (hy (m + 1) hm).2

theorem C92_ground_partial (hV : V.Accepted) (hp : 1000 ≤ V.plev 0) (y : ℕ → ℝ) (lo hi : ℝ)
    (hy : ∀ l, l < V.nlev → lo ≤ y l ∧ y l ≤ hi) (k : ℕ) (hk : k < V.kmax) : lo ≤ V.column y k ∧ V.column y k ≤ hi := by
  refine C92_range_partial hV y lo hi hy k hk ?_
  have h1 : 0 ≤ Real.log (V.plev 0 / 1000) := Real.log_nonneg (by rw [le_div_iff₀ (by norm_num)]; linarith)
  have h2 : 0 ≤ V.level k := mul_nonneg (Nat.cast_nonneg _) hV.dzpos.le
  unfold z
  nlinarith [hV.hpos]

/-- Below the data: the line through the two lowest levels, so the result overshoots by the gradient times the gap. -/
theorem C92_below_partial (hV : V.Accepted) (y : ℕ → ℝ) (k : ℕ) (hb : V.level k ≤ V.z 0) :
    V.column y k = line (V.z 0) (y 0) (V.z 1) (y 1) (V.level k) := interp1d_below hV.ascending hV.nlev2 y hb

/-- Two pressure levels, at pseudoheights 1 and 2; three analysis levels 0, 1, 2. -/
def high : VertGrid where
  nlev := 2
  plev := fun l => 1000 * Real.exp (-((l : ℝ) + 1))
  h := 1
  kmax := 3
  dz := 1

theorem high_z (l : ℕ) : high.z l = (l : ℝ) + 1 := by
  show -1 * Real.log (1000 * Real.exp (-((l : ℝ) + 1)) / 1000) = (l : ℝ) + 1
  rw [mul_div_cancel_left₀ _ (by norm_num : (1000 : ℝ) ≠ 0), Real.log_exp]
  ring

theorem high_accepted : high.Accepted where
  nlev2 := le_refl 2
  pos := fun l _ => mul_pos (by norm_num) (Real.exp_pos _)
  descending := fun l m h _ => by
    have : (l : ℝ) < m := by exact_mod_cast h
    exact mul_lt_mul_of_pos_left (Real.exp_lt_exp.2 (by linarith)) (by norm_num)
  hpos := one_pos
  dzpos := one_pos
  check := by
    unfold checkPlev
    have e : plevTop high.nlev high.plev high.h = 2 := by
      show high.z (2 - 1) = 2
      rw [high_z]; norm_num
    have d : ¬ (high.plev 1 - high.plev 0 > 0) := by
      show ¬ (1000 * Real.exp (-(((1 : ℕ) : ℝ) + 1)) - 1000 * Real.exp (-(((0 : ℕ) : ℝ) + 1)) > 0)
      have := Real.exp_lt_exp.2 (show -(((1 : ℕ) : ℝ) + 1) < -(((0 : ℕ) : ℝ) + 1) by norm_num)
      linarith
    rw [if_neg d, e, if_neg]
    show ¬ ((2 : ℝ) < (((3 : ℕ) : ℤ) - 1) * 1)
    norm_num

/-- C92 fails: data that start above the ground are extrapolated downward. -/
theorem C92_refuted : ¬ C92_Statement := by
  intro h
  have h0 := (h high high_accepted (fun l => l) 0 1
    (fun l hl => ⟨Nat.cast_nonneg _, by have : l ≤ 1 := Nat.lt_succ_iff.mp hl; exact_mod_cast this⟩) 0 (by decide)).1
  rw [C91_affine high_accepted (-1) 1 _ (fun l _ => by rw [high_z]; ring)] at h0
  have : high.level 0 = 0 := by unfold level; simp
  rw [this] at h0
  norm_num at h0

example : ∃ V : VertGrid, V.Accepted ∧ V.z 0 ≤ V.level 1 ∧ 1 < V.kmax ∧ V.z 1 = V.level 2 ∧ V.level 0 ≤ V.z 0 :=
  ⟨high, high_accepted, by rw [high_z]; unfold level; simp [high], by decide, by rw [high_z]; unfold level; norm_num [high],
    by rw [high_z]; unfold level; simp⟩

/-- A grid that starts on the ground. -/
def grounded : VertGrid := { high with plev := fun l => 1000 * Real.exp (-(l : ℝ)), kmax := 2 }

example : grounded.Accepted ∧ 1000 ≤ grounded.plev 0 := by
  have hz : ∀ l : ℕ, grounded.z l = l := fun l => by
    show -1 * Real.log (1000 * Real.exp (-(l : ℝ)) / 1000) = l
    rw [mul_div_cancel_left₀ _ (by norm_num : (1000 : ℝ) ≠ 0), Real.log_exp]; ring
  refine ⟨⟨le_refl 2, fun l _ => mul_pos (by norm_num) (Real.exp_pos _), fun l m h _ => ?_, one_pos, one_pos, ?_⟩, ?_⟩
  · have : (l : ℝ) < m := by exact_mod_cast h
    exact mul_lt_mul_of_pos_left (Real.exp_lt_exp.2 (by linarith)) (by norm_num)
  · unfold checkPlev
    have e : plevTop grounded.nlev grounded.plev grounded.h = 1 := by
      show grounded.z (2 - 1) = 1
      rw [hz]; norm_num
    have d : ¬ (grounded.plev 1 - grounded.plev 0 > 0) := by
      show ¬ (1000 * Real.exp (-((1 : ℕ) : ℝ)) - 1000 * Real.exp (-((0 : ℕ) : ℝ)) > 0)
      have := Real.exp_lt_exp.2 (show -((1 : ℕ) : ℝ) < -((0 : ℕ) : ℝ) by norm_num)
      linarith
    rw [if_neg d, e, if_neg]
    show ¬ ((1 : ℝ) < (((2 : ℕ) : ℤ) - 1) * 1)
    norm_num
  · show 1000 ≤ 1000 * Real.exp (-((0 : ℕ) : ℝ))
    norm_num

/-! ### C95: potential temperature -/

/-- C95: `theta_field` is Poisson's potential temperature with reference pressure 1000 hPa, whatever the scale height. -/
theorem C95_poisson (V : VertGrid) (rr cp : ℝ) (t : ℕ → ℝ) (l : ℕ) (hp : 0 < V.plev l) (hh : V.h ≠ 0) :
    V.theta rr cp t l = t l * (1000 / V.plev l) ^ (rr / cp) := by
  unfold theta z
  rw [Real.rpow_def_of_pos (div_pos (by norm_num) hp), ← inv_div (V.plev l), Real.log_inv]
  congr 2
  field_simp

/-- C95: an atmosphere whose temperature follows the dry adiabat has the same potential temperature on every analysis level. -/
theorem C95_adiabat (hV : V.Accepted) (rr cp c : ℝ) (t : ℕ → ℝ)
    (ht : ∀ l, l < V.nlev → t l = c * (V.plev l / 1000) ^ (rr / cp)) (k : ℕ) : V.column (V.theta rr cp t) k = c := by
  have := C91_affine hV c 0 (V.theta rr cp t) (fun l hl => ?_) k
  · rw [this]; ring
  · have hp := hV.pos l hl
    rw [C95_poisson V rr cp t l hp hV.hpos.ne', ht l hl, mul_assoc, ← Real.mul_rpow (by positivity) (by positivity)]
    rw [show V.plev l / 1000 * (1000 / V.plev l) = 1 by field_simp, Real.one_rpow]
    ring

example : high.Accepted ∧ ∀ l, l < high.nlev → (fun l => 300 * (high.plev l / 1000) ^ ((287 : ℝ) / 1004)) l =
    300 * (high.plev l / 1000) ^ ((287 : ℝ) / 1004) := ⟨high_accepted, fun _ _ => rfl⟩

end VertGrid

/-! ### C93, C94: even latitude grids -/

theorem analysisLat_ascending {n : ℕ} (hn : 0 < n) : Ascending (n + 1) (analysisLat n) := by
  intro i j hij _
  have hN : (0 : ℝ) < n := by exact_mod_cast hn
  have : (i : ℝ) < j := by exact_mod_cast hij
  unfold analysisLat
  have := div_lt_div_of_pos_right (show 180 * (i : ℝ) < 180 * j by linarith) hN
  linarith

/-- C93: the way to the analysis grid and the way back are linear, and exact for fields that are affine in latitude (constants in
particular), on every grid and row, the poles included. -/
theorem C93_affine {n : ℕ} {ylat : ℕ → ℝ} (hn : 2 ≤ n) (ha : Ascending n ylat) (a b : ℝ) (y : ℕ → ℝ)
    (hy : ∀ i, i < n → y i = a + b * ylat i) :
    (∀ r, toAnalysis n ylat y r = a + b * analysisLat n r) ∧
    (∀ i, i < n → fromAnalysis n ylat (toAnalysis n ylat y) i = y i) := by
  have h1 : ∀ r, toAnalysis n ylat y r = a + b * analysisLat n r := fun r => interp1d_affine ha hn a b hy _
  refine ⟨h1, fun i hi => ?_⟩
  rw [hy i hi]
  exact interp1d_affine (analysisLat_ascending (by omega)) (by omega) a b (fun r _ => h1 r) _

theorem C93_linear (n : ℕ) (ylat y y' : ℕ → ℝ) (a b : ℝ) (i : ℕ) :
    fromAnalysis n ylat (toAnalysis n ylat fun i => a * y i + b * y' i) i =
      a * fromAnalysis n ylat (toAnalysis n ylat y) i + b * fromAnalysis n ylat (toAnalysis n ylat y') i := by
  have : toAnalysis n ylat (fun i => a * y i + b * y' i) = fun r => a * toAnalysis n ylat y r + b * toAnalysis n ylat y' r :=
    funext fun r => interp1d_linear y y' a b _
  rw [this]
  exact interp1d_linear _ _ a b _

/-- Rows in the middle of `n` equal strips between the poles. -/
def centredLat (n i : ℕ) : ℝ := -90 + 180 * ((i : ℝ) + 1 / 2) / n

theorem centredLat_ascending {n : ℕ} (hn : 0 < n) : Ascending n (centredLat n) := by
  intro i j hij _
  have hN : (0 : ℝ) < n := by exact_mod_cast hn
  have : (i : ℝ) < j := by exact_mod_cast hij
  unfold centredLat
  have := div_lt_div_of_pos_right (show 180 * ((i : ℝ) + 1 / 2) < 180 * (j + 1 / 2) by linarith) hN
  linarith

example : Ascending 4 (centredLat 4) ∧ ∀ i, i < 4 → (fun i => 3 + 2 * centredLat 4 i) i = 3 + 2 * centredLat 4 i :=
  ⟨centredLat_ascending (by decide), fun _ _ => rfl⟩

/-- C94: where no vertical interpolation is needed, the reported field is the given field. -/
def C94_Statement : Prop :=
  ∀ (n : ℕ) (ylat y : ℕ → ℝ), Ascending n ylat → (∃ g, checkYlat n ylat = .ok g) → ∀ i, i < n → reportedRow n ylat y i = y i

/-- C94 holds on grids with equator. -/
theorem C94_equator_partial (n : ℕ) (ylat y : ℕ → ℝ) (g : LatGrid ℝ) (hg : checkYlat n ylat = .ok g) (h0 : ∃ i, i < n ∧ ylat i = 0)
    (i : ℕ) : reportedRow n ylat y i = y i := by
  have hz : zeroCount n ylat ≠ 0 := by
    obtain ⟨i, hi, h⟩ := h0
    exact (card_pos.2 ⟨i, mem_filter.2 ⟨mem_range.2 hi, h⟩⟩).ne'
  have : g.needInterp = false := by
    unfold checkYlat at hg
    split_ifs at hg with c1 c2 c3 c4
    · exact absurd c3.2 hz
    · cases hf : firstZero n ylat with
      | error e => rw [hf] at hg; cases hg
      | ok e => rw [hf] at hg; cases hg; rfl
  unfold reportedRow
  rw [hg]
  simp [this]

theorem toAnalysis_centred {n : ℕ} (hn : 2 ≤ n) (y : ℕ → ℝ) :
    toAnalysis n (centredLat n) y 0 = (3 * y 0 - y 1) / 2 ∧
    (∀ r, r + 1 < n → toAnalysis n (centredLat n) y (r + 1) = (y r + y (r + 1)) / 2) ∧
    toAnalysis n (centredLat n) y n = (3 * y (n - 1) - y (n - 2)) / 2 := by
  have hN : (0 : ℝ) < n := by exact_mod_cast (by omega : 0 < n)
  have ha := centredLat_ascending (n := n) (by omega)
  refine ⟨?_, fun r hr => ?_, ?_⟩
  · unfold toAnalysis
    rw [interp1d_below ha hn y (by unfold analysisLat centredLat; simp; positivity)]
    unfold line analysisLat centredLat
    push_cast
    field_simp
    ring
  · unfold toAnalysis
    have e : analysisLat n (r + 1) = -90 + 180 * ((r : ℝ) + 1) / n := by unfold analysisLat; push_cast; ring
    rw [e, interp1d_inside ha y hr]
    · unfold line centredLat
      push_cast
      field_simp
      ring
    · unfold centredLat
      have := div_le_div_of_nonneg_right (show 180 * ((r : ℝ) + 1 / 2) ≤ 180 * (r + 1) by linarith) hN.le
      linarith
    · unfold centredLat
      push_cast
      have := div_le_div_of_nonneg_right (show 180 * ((r : ℝ) + 1) ≤ 180 * ((r : ℝ) + 1 + 1 / 2) by linarith) hN.le
      linarith
  · obtain ⟨m, rfl⟩ : ∃ m, n = m + 2 := ⟨n - 2, by omega⟩
    unfold toAnalysis
    rw [interp1d_above ha hn y]
    · rw [show m + 2 - 1 = m + 1 by omega, show m + 2 - 2 = m by omega]
      unfold line analysisLat centredLat
      push_cast
      push_cast at hN
      have : (m : ℝ) + 2 ≠ 0 := hN.ne'
      field_simp
      ring
    · rw [show m + 2 - 1 = m + 1 by omega]
      unfold analysisLat centredLat
      have := div_le_div_of_nonneg_right (show 180 * (((m + 1 : ℕ) : ℝ) + 1 / 2) ≤ 180 * ((m + 2 : ℕ) : ℝ) by push_cast; linarith) hN.le
      linarith

/-- C94, what holds on even grids of equal strips: the first and the last row come back, every other row comes back as the weighted
mean 1-2-1 of itself and its neighbours. -/
theorem C94_smoothing_partial {n : ℕ} (hn : 2 ≤ n) (y : ℕ → ℝ) :
    fromAnalysis n (centredLat n) (toAnalysis n (centredLat n) y) 0 = y 0 ∧
    fromAnalysis n (centredLat n) (toAnalysis n (centredLat n) y) (n - 1) = y (n - 1) ∧
    ∀ i, i + 2 < n → fromAnalysis n (centredLat n) (toAnalysis n (centredLat n) y) (i + 1) =
      (y i + 2 * y (i + 1) + y (i + 2)) / 4 := by
  have hN : (0 : ℝ) < n := by exact_mod_cast (by omega : 0 < n)
  have hA := analysisLat_ascending (n := n) (by omega)
  have mid : ∀ (a : ℕ → ℝ) i, i < n → fromAnalysis n (centredLat n) a i = (a i + a (i + 1)) / 2 := by
    intro a i hi
    unfold fromAnalysis
    rw [interp1d_inside hA a (m := i) (by omega)]
    · unfold line analysisLat centredLat
      push_cast
      field_simp
      ring
    · unfold analysisLat centredLat
      have := div_le_div_of_nonneg_right (show 180 * (i : ℝ) ≤ 180 * (i + 1 / 2) by linarith) hN.le
      linarith
    · unfold analysisLat centredLat
      push_cast
      have := div_le_div_of_nonneg_right (show 180 * ((i : ℝ) + 1 / 2) ≤ 180 * ((i : ℝ) + 1) by linarith) hN.le
      linarith
  obtain ⟨h0, hr, hN'⟩ := toAnalysis_centred hn y
  refine ⟨?_, ?_, fun i hi => ?_⟩
  · rw [mid _ 0 (by omega), h0, hr 0 (by omega)]
    ring
  · rw [mid _ (n - 1) (by omega), show n - 1 + 1 = n by omega, hN']
    have := hr (n - 2) (by omega)
    rw [show n - 2 + 1 = n - 1 by omega] at this
    rw [this]
    ring
  · rw [mid _ (i + 1) (by omega), hr i (by omega), hr (i + 1) (by omega)]
    ring

/-- C94 fails on every even grid of equal strips with at least four rows: an alternating wind is reported as zero inside. -/
theorem C94_refuted : ¬ C94_Statement := by
  intro h
  have hz : ∀ i, i < 4 → centredLat 4 i ≠ 0 := by
    intro i hi
    unfold centredLat
    interval_cases i <;> norm_num
  have hc : zeroCount 4 (centredLat 4) = 0 := by
    unfold zeroCount
    rw [card_eq_zero, filter_eq_empty_iff]
    exact fun i hi => hz i (mem_range.1 hi)
  have hd : ¬ (centredLat 4 1 - centredLat 4 0 < 0) := by unfold centredLat; norm_num
  have hk : ∃ e, checkYlat 4 (centredLat 4) =
      .ok { needInterp := true, nlat := 4 + 1, ylat := fun i => -90 + 180 * (i : ℝ) / ((4 : ℕ) : ℝ), equatorIdx := e + 1 } := by
    unfold checkYlat
    rw [if_neg (by decide), if_neg hd, if_pos ⟨by decide, hc⟩]
    have : firstZero (4 + 1) (fun i : ℕ => -90 + 180 * (i : ℝ) / ((4 : ℕ) : ℝ)) = .ok 2 := by
      unfold firstZero
      rw [show List.range (4 + 1) = [0, 1, 2, 3, 4] from rfl]
      norm_num [List.find?]
    refine ⟨2, ?_⟩
    show (firstZero (4 + 1) (fun i : ℕ => -90 + 180 * (i : ℝ) / ((4 : ℕ) : ℝ))).map _ = _
    rw [this]
    rfl
  obtain ⟨e, hk⟩ := hk
  have h0 := h 4 (centredLat 4) (fun i => (-1) ^ i) (centredLat_ascending (by decide)) ⟨_, hk⟩ 1 (by decide)
  unfold reportedRow at h0
  rw [hk] at h0
  dsimp only at h0
  rw [if_pos rfl, (C94_smoothing_partial (by decide : 2 ≤ 4) _).2.2 0 (by decide)] at h0
  norm_num at h0

/-! ### C97: masked arrays -/

/-- C97: values under the mask have no influence on the fields the object stores. -/
def C97_Statement : Prop :=
  ∀ m m' : MaskedArray, m.mask = m'.mask → (∀ k j i, m.mask k j i = false → m.data k j i = m'.data k j i) → m.convert = m'.convert

/-- C97, what holds: an array in which nothing is masked keeps its values. -/
theorem C97_unmasked_partial (m m' : MaskedArray) (hm : ∀ k j i, m.mask k j i = false)
    (h : ∀ k j i, m.mask k j i = false → m.data k j i = m'.data k j i) : m.convert = m'.convert := by
  funext k j i
  exact h k j i (hm k j i)

example : ∃ m m' : MaskedArray, (∀ k j i, m.mask k j i = false) ∧ (∀ k j i, m.mask k j i = false → m.data k j i = m'.data k j i) ∧
    m.data 0 0 0 ≠ 0 :=
  ⟨⟨fun _ _ _ => 1, fun _ _ _ => false⟩, ⟨fun _ _ _ => 1, fun _ _ _ => false⟩, fun _ _ _ => rfl, fun _ _ _ _ => rfl, one_ne_zero⟩

/-- C97 fails: the data under the mask are used. -/
theorem C97_refuted : ¬ C97_Statement := by
  intro h
  have := h ⟨fun _ _ _ => 0, fun _ _ _ => true⟩ ⟨fun _ _ _ => 1, fun _ _ _ => true⟩ rfl (fun _ _ _ c => Bool.noConfusion c)
  have := congrFun (congrFun (congrFun this 0) 0) 0
  exact zero_ne_one this

end Falwa
