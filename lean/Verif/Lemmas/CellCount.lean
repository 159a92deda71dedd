import Verif.Lemmas.Rearrange
import Verif.Spec.Contour
import Verif.Props.Rearrange

/-!
# Counting cells: areas on a regular grid against areas on the sphere, without a limit
-/

noncomputable section

namespace Falwa

open Finset Spec MeasureTheory

/-- A rectangle cut into columns. -/
theorem strip_sum {f : ℝ × ℝ → ℝ} {s : Set ℝ} {y : ℕ → ℝ} (hs : MeasurableSet s) (hy : Monotone y) :
    ∀ m, IntegrableOn f (s ×ˢ Set.Ioc (y 0) (y m)) →
      ∑ c ∈ range m, ∫ p in s ×ˢ Set.Ioc (y c) (y (c + 1)), f p = ∫ p in s ×ˢ Set.Ioc (y 0) (y m), f p := by
  intro m
  induction m with
  | zero => intro _; simp
  | succ m ih =>
    intro hf
    have e : s ×ˢ Set.Ioc (y 0) (y (m + 1)) = (s ×ˢ Set.Ioc (y 0) (y m)) ∪ (s ×ˢ Set.Ioc (y m) (y (m + 1))) := by
      rw [← Set.prod_union, Set.Ioc_union_Ioc_eq_Ioc (hy (Nat.zero_le m)) (hy (Nat.le_succ m))]
    have hd : Disjoint (s ×ˢ Set.Ioc (y 0) (y m)) (s ×ˢ Set.Ioc (y m) (y (m + 1))) :=
      Set.disjoint_left.2 fun p hp hp' => absurd hp.2.2 (not_le.2 hp'.2.1)
    rw [e] at hf ⊢
    rw [sum_range_succ, ih (hf.mono_set Set.subset_union_left),
      setIntegral_union hd (hs.prod measurableSet_Ioc) (hf.mono_set Set.subset_union_left) (hf.mono_set Set.subset_union_right)]

/-- A rectangle cut into cells. -/
theorem rectangle_sum {f : ℝ × ℝ → ℝ} {x y : ℕ → ℝ} (hx : Monotone x) (hy : Monotone y) (m : ℕ) :
    ∀ n, IntegrableOn f (Set.Ioc (x 0) (x n) ×ˢ Set.Ioc (y 0) (y m)) →
      ∑ r ∈ range n, ∑ c ∈ range m, ∫ p in Set.Ioc (x r) (x (r + 1)) ×ˢ Set.Ioc (y c) (y (c + 1)), f p =
        ∫ p in Set.Ioc (x 0) (x n) ×ˢ Set.Ioc (y 0) (y m), f p := by
  intro n
  induction n with
  | zero => intro _; simp
  | succ n ih =>
    intro hf
    have e : Set.Ioc (x 0) (x (n + 1)) ×ˢ Set.Ioc (y 0) (y m) =
        (Set.Ioc (x 0) (x n) ×ˢ Set.Ioc (y 0) (y m)) ∪ (Set.Ioc (x n) (x (n + 1)) ×ˢ Set.Ioc (y 0) (y m)) := by
      rw [← Set.union_prod, Set.Ioc_union_Ioc_eq_Ioc (hx (Nat.zero_le n)) (hx (Nat.le_succ n))]
    have hd : Disjoint (Set.Ioc (x 0) (x n) ×ˢ Set.Ioc (y 0) (y m)) (Set.Ioc (x n) (x (n + 1)) ×ˢ Set.Ioc (y 0) (y m)) :=
      Set.disjoint_left.2 fun p hp hp' => absurd hp.1.2 (not_le.2 hp'.1.1)
    rw [e] at hf ⊢
    rw [sum_range_succ, ih (hf.mono_set Set.subset_union_left), strip_sum measurableSet_Ioc hy m (hf.mono_set Set.subset_union_right),
      setIntegral_union hd (measurableSet_Ioc.prod measurableSet_Ioc) (hf.mono_set Set.subset_union_left) (hf.mono_set Set.subset_union_right)]

/-- Area of a cell between two latitudes. -/
theorem cell_area {a x x' y y' : ℝ} (hx : x ≤ x') (hy : y ≤ y') :
    ∫ p in Set.Ioc x x' ×ˢ Set.Ioc y y', a ^ 2 * Real.cos p.1 = a ^ 2 * (Real.sin x' - Real.sin x) * (y' - y) := by
  have e := setIntegral_prod_mul (μ := (volume : Measure ℝ)) (ν := (volume : Measure ℝ)) (fun u : ℝ => a ^ 2 * Real.cos u) (fun _ : ℝ => (1 : ℝ))
    (Set.Ioc x x') (Set.Ioc y y')
  simp only [mul_one] at e
  rw [Measure.volume_eq_prod, e, ← intervalIntegral.integral_of_le hx, ← intervalIntegral.integral_of_le hy,
    intervalIntegral.integral_const_mul, integral_cos]
  simp

/-- The field changes by at most `L` per radian of latitude and `K` per radian of longitude. -/
def Spec.SlopeBound (q : ℝ → ℝ → ℝ) (L K : ℝ) : Prop :=
  ∀ p ∈ band (-(Real.pi / 2)) (Real.pi / 2), ∀ p' ∈ band (-(Real.pi / 2)) (Real.pi / 2),
    |q p.1 p.2 - q p'.1 p'.2| ≤ L * |p.1 - p'.1| + K * |p.2 - p'.2|

/-- Area of a cell of a regular grid as the package has it. -/
def cellWeight (a : ℝ) (N M : ℕ) (r _c : ℕ) : ℝ :=
  a ^ 2 * Real.cos (-(Real.pi / 2) + r * (Real.pi / N)) * (Real.pi / N * (2 * Real.pi / M))

/-- The field at the points of a regular grid. -/
def cellValue (q : ℝ → ℝ → ℝ) (N M : ℕ) (r c : ℕ) : ℝ := q (-(Real.pi / 2) + r * (Real.pi / N)) (c * (2 * Real.pi / M))

section
variable {a L K : ℝ} {q : ℝ → ℝ → ℝ} {N M : ℕ}

theorem inner_cell (hN : 2 ≤ N) (hM : 1 ≤ M) {r c : ℕ} (hr : r < N - 1) (hc : c < M) :
    Set.Ioc (-(Real.pi / 2) + Real.pi / N / 2 + r * (Real.pi / N)) (-(Real.pi / 2) + Real.pi / N / 2 + ((r + 1 : ℕ) : ℝ) * (Real.pi / N)) ×ˢ
      Set.Ioc (c * (2 * Real.pi / M)) (((c + 1 : ℕ) : ℝ) * (2 * Real.pi / M)) ⊆ band (-(Real.pi / 2)) (Real.pi / 2) := by
  have hpi := Real.pi_pos
  have hN' : (0 : ℝ) < N := by exact_mod_cast (by omega : 0 < N)
  have hM' : (0 : ℝ) < M := by exact_mod_cast hM
  have hh : 0 < Real.pi / N := by positivity
  have hk : 0 < 2 * Real.pi / M := by positivity
  have e1 : (N : ℝ) * (Real.pi / N) = Real.pi := mul_div_cancel₀ _ hN'.ne'
  have e2 : (M : ℝ) * (2 * Real.pi / M) = 2 * Real.pi := mul_div_cancel₀ _ hM'.ne'
  have b1 : ((r + 1 : ℕ) : ℝ) + 1 ≤ N := by exact_mod_cast (by omega : r + 1 + 1 ≤ N)
  have b2 : ((c + 1 : ℕ) : ℝ) ≤ M := by exact_mod_cast hc
  rintro ⟨u, w⟩ ⟨⟨u1, u2⟩, w1, w2⟩
  have c1 := mul_le_mul_of_nonneg_right b1 hh.le
  have c2 := mul_le_mul_of_nonneg_right b2 hk.le
  have c3 : 0 ≤ (r : ℝ) * (Real.pi / N) := by positivity
  have c4 : 0 ≤ (c : ℝ) * (2 * Real.pi / M) := by positivity
  simp only at u1 u2 w1 w2
  refine ⟨⟨?_, ?_⟩, ?_, ?_⟩ <;> simp only <;> nlinarith

/-- Distance of the points of a cell from the point of the grid. -/
theorem cell_near (hq : SlopeBound q L K) (hL : 0 ≤ L) (hK : 0 ≤ K) (hN : 2 ≤ N) (hM : 1 ≤ M) {r c : ℕ} (hr : r < N - 1) (hc : c < M) {p : ℝ × ℝ}
    (hp : p ∈ Set.Ioc (-(Real.pi / 2) + Real.pi / N / 2 + r * (Real.pi / N)) (-(Real.pi / 2) + Real.pi / N / 2 + ((r + 1 : ℕ) : ℝ) * (Real.pi / N)) ×ˢ
      Set.Ioc (c * (2 * Real.pi / M)) (((c + 1 : ℕ) : ℝ) * (2 * Real.pi / M))) :
    |q p.1 p.2 - cellValue q N M (r + 1) c| ≤ L * (Real.pi / N / 2) + K * (2 * Real.pi / M) := by
  have hpi := Real.pi_pos
  have hN' : (0 : ℝ) < N := by exact_mod_cast (by omega : 0 < N)
  have hM' : (0 : ℝ) < M := by exact_mod_cast hM
  have hh : 0 < Real.pi / N := by positivity
  have hk : 0 < 2 * Real.pi / M := by positivity
  have e1 : (N : ℝ) * (Real.pi / N) = Real.pi := mul_div_cancel₀ _ hN'.ne'
  have e2 : (M : ℝ) * (2 * Real.pi / M) = 2 * Real.pi := mul_div_cancel₀ _ hM'.ne'
  have b1 : ((r + 1 : ℕ) : ℝ) ≤ N := by exact_mod_cast (by omega : r + 1 ≤ N)
  have b2 : (c : ℝ) ≤ M := by exact_mod_cast hc.le
  have c1 := mul_le_mul_of_nonneg_right b1 hh.le
  have c2 := mul_le_mul_of_nonneg_right b2 hk.le
  have hg : ((-(Real.pi / 2) + ((r + 1 : ℕ) : ℝ) * (Real.pi / N), (c : ℝ) * (2 * Real.pi / M)) : ℝ × ℝ) ∈ band (-(Real.pi / 2)) (Real.pi / 2) := by
    refine ⟨⟨?_, ?_⟩, ?_, ?_⟩
    · show -(Real.pi / 2) ≤ -(Real.pi / 2) + ((r + 1 : ℕ) : ℝ) * (Real.pi / N)
      have : 0 ≤ ((r + 1 : ℕ) : ℝ) * (Real.pi / N) := by positivity
      linarith
    · show -(Real.pi / 2) + ((r + 1 : ℕ) : ℝ) * (Real.pi / N) ≤ Real.pi / 2
      linarith
    · show 0 ≤ (c : ℝ) * (2 * Real.pi / M)
      positivity
    · show (c : ℝ) * (2 * Real.pi / M) ≤ 2 * Real.pi
      linarith
  refine (hq p (inner_cell hN hM hr hc hp) _ hg).trans (add_le_add (mul_le_mul_of_nonneg_left ?_ hL) (mul_le_mul_of_nonneg_left ?_ hK))
  · obtain ⟨⟨u1, u2⟩, -⟩ := hp
    show |p.1 - (-(Real.pi / 2) + ((r + 1 : ℕ) : ℝ) * (Real.pi / N))| ≤ _
    push_cast at u2 ⊢
    rw [abs_le]
    constructor <;> nlinarith
  · obtain ⟨-, w1, w2⟩ := hp
    show |p.2 - (c : ℝ) * (2 * Real.pi / M)| ≤ _
    push_cast at w2
    rw [abs_le]
    constructor <;> nlinarith

/-- Weight of a cell against its area. -/
theorem weight_area (hN : 2 ≤ N) (hM : 1 ≤ M) (a : ℝ) (r c : ℕ) :
    Real.sin (Real.pi / N / 2) / (Real.pi / N / 2) * cellWeight a N M (r + 1) c =
      ∫ p in Set.Ioc (-(Real.pi / 2) + Real.pi / N / 2 + r * (Real.pi / N)) (-(Real.pi / 2) + Real.pi / N / 2 + ((r + 1 : ℕ) : ℝ) * (Real.pi / N)) ×ˢ
        Set.Ioc (c * (2 * Real.pi / M)) (((c + 1 : ℕ) : ℝ) * (2 * Real.pi / M)), a ^ 2 * Real.cos p.1 := by
  have hpi := Real.pi_pos
  have hN' : (0 : ℝ) < N := by exact_mod_cast (by omega : 0 < N)
  have hM' : (0 : ℝ) < M := by exact_mod_cast hM
  have hh : 0 < Real.pi / N := by positivity
  have hk : 0 < 2 * Real.pi / M := by positivity
  rw [cell_area (by push_cast; nlinarith) (by push_cast; nlinarith), Real.sin_sub_sin]
  unfold cellWeight
  rw [show (-(Real.pi / 2) + Real.pi / N / 2 + ((r + 1 : ℕ) : ℝ) * (Real.pi / N) - (-(Real.pi / 2) + Real.pi / N / 2 + r * (Real.pi / N))) / 2 =
      Real.pi / N / 2 by push_cast; ring,
    show (-(Real.pi / 2) + Real.pi / N / 2 + ((r + 1 : ℕ) : ℝ) * (Real.pi / N) + (-(Real.pi / 2) + Real.pi / N / 2 + r * (Real.pi / N))) / 2 =
      -(Real.pi / 2) + ((r + 1 : ℕ) : ℝ) * (Real.pi / N) by push_cast; ring,
    show ((c + 1 : ℕ) : ℝ) * (2 * Real.pi / M) - (c : ℝ) * (2 * Real.pi / M) = 2 * Real.pi / M by push_cast; ring]
  generalize hη : Real.pi / N = η at hh
  have : η ≠ 0 := hh.ne'
  field_simp

theorem cellWeight_first (a : ℝ) (c : ℕ) : cellWeight a N M 0 c = 0 := by
  unfold cellWeight
  simp

theorem cellWeight_last (hN : 2 ≤ N) (a : ℝ) (c : ℕ) : cellWeight a N M N c = 0 := by
  have hN' : (N : ℝ) ≠ 0 := by exact_mod_cast (by omega : N ≠ 0)
  unfold cellWeight
  rw [mul_div_cancel₀ _ hN', show -(Real.pi / 2) + Real.pi = Real.pi / 2 by ring, Real.cos_pi_div_two]
  ring

/-- Sums over all rows are sums over the rows between the poles. -/
theorem inner_rows (hN : 2 ≤ N) (P : ℕ → ℕ → Prop) [∀ r c, Decidable (P r c)] :
    ∑ r ∈ range (N + 1), ∑ c ∈ range M, (if P r c then cellWeight a N M r c else 0) =
      ∑ r ∈ range (N - 1), ∑ c ∈ range M, if P (r + 1) c then cellWeight a N M (r + 1) c else 0 := by
  rw [sum_range_succ]
  conv_lhs => rw [show N = N - 1 + 1 by omega, sum_range_succ']
  rw [show N - 1 + 1 = N by omega]
  simp [cellWeight_first, cellWeight_last hN]

/-- The rectangle made of the inner cells. -/
def innerBand (N : ℕ) : Set (ℝ × ℝ) := Set.Ioc (-(Real.pi / 2) + Real.pi / N / 2) (Real.pi / 2 - Real.pi / N / 2) ×ˢ Set.Ioc 0 (2 * Real.pi)

theorem innerBand_subset (N : ℕ) : innerBand N ⊆ band (-(Real.pi / 2)) (Real.pi / 2) := by
  have : 0 ≤ Real.pi / N / 2 := by have := Real.pi_pos; positivity
  rintro ⟨u, w⟩ ⟨⟨u1, u2⟩, w1, w2⟩
  simp only at u1 u2 w1 w2
  exact ⟨⟨by simp only; linarith, by simp only; linarith⟩, w1.le, w2⟩

theorem inner_sum (hN : 2 ≤ N) (hM : 1 ≤ M) {f : ℝ × ℝ → ℝ} (hf : IntegrableOn f (band (-(Real.pi / 2)) (Real.pi / 2))) :
    ∑ r ∈ range (N - 1), ∑ c ∈ range M,
      ∫ p in Set.Ioc (-(Real.pi / 2) + Real.pi / N / 2 + r * (Real.pi / N)) (-(Real.pi / 2) + Real.pi / N / 2 + ((r + 1 : ℕ) : ℝ) * (Real.pi / N)) ×ˢ
        Set.Ioc (c * (2 * Real.pi / M)) (((c + 1 : ℕ) : ℝ) * (2 * Real.pi / M)), f p = ∫ p in innerBand N, f p := by
  have hpi := Real.pi_pos
  have hN' : (N : ℝ) ≠ 0 := by exact_mod_cast (by omega : N ≠ 0)
  have hM' : (M : ℝ) ≠ 0 := by exact_mod_cast (by omega : M ≠ 0)
  have e : innerBand N = Set.Ioc (-(Real.pi / 2) + Real.pi / N / 2 + ((0 : ℕ) : ℝ) * (Real.pi / N))
      (-(Real.pi / 2) + Real.pi / N / 2 + ((N - 1 : ℕ) : ℝ) * (Real.pi / N)) ×ˢ
      Set.Ioc (((0 : ℕ) : ℝ) * (2 * Real.pi / M)) ((M : ℝ) * (2 * Real.pi / M)) := by
    unfold innerBand
    rw [mul_div_cancel₀ _ hM', Nat.cast_sub (by omega : 1 ≤ N), sub_mul, mul_div_cancel₀ _ hN']
    push_cast
    rw [show -(Real.pi / 2) + Real.pi / N / 2 + (Real.pi - 1 * (Real.pi / N)) = Real.pi / 2 - Real.pi / N / 2 by ring]
    simp
  have hx : Monotone fun r : ℕ => -(Real.pi / 2) + Real.pi / N / 2 + (r : ℝ) * (Real.pi / N) := fun r s h => by
    have : (r : ℝ) ≤ s := by exact_mod_cast h
    have h0 : 0 ≤ Real.pi / N := by positivity
    have := mul_le_mul_of_nonneg_right this h0
    show _ + _ ≤ _ + _
    linarith
  have hy : Monotone fun c : ℕ => (c : ℝ) * (2 * Real.pi / M) := fun r s h =>
    mul_le_mul_of_nonneg_right (by exact_mod_cast h) (by positivity)
  have key := rectangle_sum (f := f) hx hy M (N - 1) (by
    rw [← e]
    exact hf.mono_set (innerBand_subset N))
  rw [e]
  exact key

/-- **Cells up to a value**: their true area fits into the area of the sphere where the field is little greater at most. -/
theorem count_le (hq : Continuous fun p : ℝ × ℝ => q p.1 p.2) (hs : SlopeBound q L K) (hL : 0 ≤ L) (hK : 0 ≤ K) (hN : 2 ≤ N) (hM : 1 ≤ M)
    (a u : ℝ) : Real.sin (Real.pi / N / 2) / (Real.pi / N / 2) * areaUpTo (N + 1) M (cellValue q N M) (cellWeight a N M) u ≤
      areaAtMost a q (-(Real.pi / 2)) (Real.pi / 2) (u + (L * (Real.pi / N / 2) + K * (2 * Real.pi / M))) := by
  classical
  set e := L * (Real.pi / N / 2) + K * (2 * Real.pi / M) with he
  have hi := areaAtMost_integrable hq a (-(Real.pi / 2)) (Real.pi / 2) (u + e)
  have h0 : ∀ p ∈ band (-(Real.pi / 2)) (Real.pi / 2), 0 ≤ if q p.1 p.2 ≤ u + e then a ^ 2 * Real.cos p.1 else 0 := fun p hp => by
    split_ifs
    · exact mul_nonneg (sq_nonneg a) (band_cos_nonneg le_rfl le_rfl hp)
    · exact le_rfl
  have h1 : ∫ p in innerBand N, (if q p.1 p.2 ≤ u + e then a ^ 2 * Real.cos p.1 else 0) ≤ areaAtMost a q (-(Real.pi / 2)) (Real.pi / 2) (u + e) :=
    setIntegral_mono_set hi ((ae_restrict_iff' (measurableSet_band _ _)).2 (Filter.Eventually.of_forall h0))
      (Filter.Eventually.of_forall (innerBand_subset N))
  refine le_trans ?_ h1
  rw [← inner_sum hN hM hi]
  unfold areaUpTo
  rw [inner_rows hN (fun r c => cellValue q N M r c ≤ u), mul_sum]
  refine sum_le_sum fun r hr => ?_
  rw [mul_sum]
  refine sum_le_sum fun c hc => ?_
  have hr' := mem_range.1 hr
  have hc' := mem_range.1 hc
  have sub := inner_cell hN hM hr' hc'
  split_ifs with h
  · rw [weight_area hN hM]
    refine le_of_eq (setIntegral_congr_fun (measurableSet_Ioc.prod measurableSet_Ioc) fun p hp => ?_)
    have := (abs_le.1 (cell_near hs hL hK hN hM hr' hc' hp)).2
    exact (if_pos (by rw [he]; linarith)).symm
  · rw [mul_zero]
    exact setIntegral_nonneg (measurableSet_Ioc.prod measurableSet_Ioc) fun p hp => h0 p (sub hp)

/-- **Cells below a value**: apart from the surroundings of the poles they cover the area where the field is little less. -/
theorem count_ge (hq : Continuous fun p : ℝ × ℝ => q p.1 p.2) (hs : SlopeBound q L K) (hL : 0 ≤ L) (hK : 0 ≤ K) (hN : 2 ≤ N) (hM : 1 ≤ M)
    (a : ℝ) {u w : ℝ} (hw : w < u - (L * (Real.pi / N / 2) + K * (2 * Real.pi / M))) :
    areaAtMost a q (-(Real.pi / 2)) (Real.pi / 2) w ≤
      Real.sin (Real.pi / N / 2) / (Real.pi / N / 2) * areaBelow (N + 1) M (cellValue q N M) (cellWeight a N M) u +
        2 * Real.pi * a ^ 2 * (2 - 2 * Real.cos (Real.pi / N / 2)) := by
  classical
  have hpi := Real.pi_pos
  have hN' : (0 : ℝ) < N := by exact_mod_cast (by omega : 0 < N)
  have hhalf : Real.pi / N / 2 ≤ Real.pi / 2 := by
    have : Real.pi / N ≤ Real.pi := div_le_self hpi.le (by exact_mod_cast (by omega : 1 ≤ N))
    linarith
  set e := L * (Real.pi / N / 2) + K * (2 * Real.pi / M) with he
  have hi := areaAtMost_integrable hq a (-(Real.pi / 2)) (Real.pi / 2) w
  have hc : IntegrableOn (fun p : ℝ × ℝ => a ^ 2 * Real.cos p.1) (band (-(Real.pi / 2)) (Real.pi / 2)) :=
    (Continuous.continuousOn (by fun_prop)).integrableOn_compact (isCompact_band _ _)
  have hpos : ∀ p ∈ band (-(Real.pi / 2)) (Real.pi / 2), 0 ≤ a ^ 2 * Real.cos p.1 := fun p hp =>
    mul_nonneg (sq_nonneg a) (band_cos_nonneg le_rfl le_rfl hp)
  have hg : ∀ p ∈ band (-(Real.pi / 2)) (Real.pi / 2), 0 ≤ a ^ 2 * Real.cos p.1 - if q p.1 p.2 ≤ w then a ^ 2 * Real.cos p.1 else 0 :=
    fun p hp => by
      split_ifs
      · rw [sub_self]
      · rw [sub_zero]
        exact hpos p hp
  have h1 : ∫ p in innerBand N, (a ^ 2 * Real.cos p.1 - if q p.1 p.2 ≤ w then a ^ 2 * Real.cos p.1 else 0) ≤
      ∫ p in band (-(Real.pi / 2)) (Real.pi / 2), (a ^ 2 * Real.cos p.1 - if q p.1 p.2 ≤ w then a ^ 2 * Real.cos p.1 else 0) :=
    setIntegral_mono_set (hc.sub hi) ((ae_restrict_iff' (measurableSet_band _ _)).2 (Filter.Eventually.of_forall hg))
      (Filter.Eventually.of_forall (innerBand_subset N))
  rw [integral_sub (hc.mono_set (innerBand_subset N)) (hi.mono_set (innerBand_subset N)), integral_sub hc hi, band_area (by linarith)] at h1
  have h2 : ∫ p in innerBand N, a ^ 2 * Real.cos p.1 = a ^ 2 * (2 * Real.cos (Real.pi / N / 2)) * (2 * Real.pi) := by
    unfold innerBand
    rw [cell_area (by linarith) (by positivity), Real.sin_pi_div_two_sub, show -(Real.pi / 2) + Real.pi / N / 2 = -(Real.pi / 2 - Real.pi / N / 2) by ring,
      Real.sin_neg, Real.sin_pi_div_two_sub]
    ring
  rw [h2, Real.sin_neg, Real.sin_pi_div_two] at h1
  have h3 : ∫ p in innerBand N, (if q p.1 p.2 ≤ w then a ^ 2 * Real.cos p.1 else 0) ≤
      Real.sin (Real.pi / N / 2) / (Real.pi / N / 2) * areaBelow (N + 1) M (cellValue q N M) (cellWeight a N M) u := by
    rw [← inner_sum hN hM hi]
    unfold areaBelow
    rw [inner_rows hN (fun r c => cellValue q N M r c < u), mul_sum]
    refine sum_le_sum fun r hr => ?_
    rw [mul_sum]
    refine sum_le_sum fun c hc' => ?_
    have hr' := mem_range.1 hr
    have hc'' := mem_range.1 hc'
    have sub := inner_cell hN hM hr' hc''
    split_ifs with h
    · rw [weight_area hN hM]
      refine setIntegral_mono_on (hi.mono_set sub) (hc.mono_set sub) (measurableSet_Ioc.prod measurableSet_Ioc) fun p hp => ?_
      split_ifs
      · exact le_rfl
      · exact hpos p (sub hp)
    · rw [mul_zero]
      refine le_of_eq ?_
      refine setIntegral_eq_zero_of_forall_eq_zero fun p hp => ?_
      have := (abs_le.1 (cell_near hs hL hK hN hM hr' hc'' hp)).1
      have h5 : ¬ q p.1 p.2 ≤ w := by
        rw [← he] at this
        exact not_le.2 (by linarith [not_lt.1 h])
      exact if_neg h5
  have h4 : areaAtMost a q (-(Real.pi / 2)) (Real.pi / 2) w =
    ∫ p in band (-(Real.pi / 2)) (Real.pi / 2), if q p.1 p.2 ≤ w then a ^ 2 * Real.cos p.1 else 0 := by
    unfold areaAtMost
    congr
  rw [h4]
  nlinarith

end

end Falwa

end
