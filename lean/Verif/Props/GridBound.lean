import Verif.Lemmas.CellCount
import Verif.Props.Zonal

/-!
# C205: How far the computed reference state and wave activity can be from those of the sphere on a given grid
-/

noncomputable section

namespace Falwa

open Finset Spec MeasureTheory

/-! ## Caps between the rows of a regular grid -/

theorem odd_step {N j : ℕ} (hN : 2 ≤ N) {m : ℕ} (hm : m = 2 * j + 1) (hj : j + 1 ≤ N) :
    Real.sin (Real.pi / N / 2) ≤ Real.sin (m * (Real.pi / N / 2)) := by
  have hpi := Real.pi_pos
  obtain ⟨h1, h2, hs, hc⟩ := half_step hN
  have hN' : (0 : ℝ) < N := by exact_mod_cast (by omega : 0 < N)
  have e : (N : ℝ) * (Real.pi / N / 2) = Real.pi / 2 := by field_simp
  set y := Real.pi / N / 2 with hy
  have hm' : (m : ℝ) = 2 * j + 1 := by rw [hm]; push_cast; ring
  have hj' : (j : ℝ) + 1 ≤ N := by exact_mod_cast hj
  have c1 := mul_le_mul_of_nonneg_right hj' h1.le
  have c0 : 0 ≤ (j : ℝ) * y := by positivity
  rcases le_total ((m : ℝ) * y) (Real.pi / 2) with h | h
  · exact Real.sin_le_sin_of_le_of_le_pi_div_two (by linarith) h (by rw [hm']; nlinarith)
  · rw [← Real.sin_pi_sub (m * y)]
    exact Real.sin_le_sin_of_le_of_le_pi_div_two (by linarith) (by linarith) (by rw [hm']; nlinarith)

theorem flatness {y : ℝ} (h0 : 0 < y) (h1 : y ≤ 1) : 1 - Real.sin y / y ≤ Real.sin y ^ 2 := by
  have a1 := Real.sin_gt_sub_cube h0
  have hpi := Real.pi_gt_three
  have hpi4 := Real.pi_le_four
  have a2 := Real.mul_le_sin h0.le (by linarith)
  have a3 : y / 2 ≤ Real.sin y := by
    refine le_trans ?_ a2
    rw [div_mul_eq_mul_div, le_div_iff₀ Real.pi_pos]
    nlinarith
  have a4 : 1 - Real.sin y / y ≤ y ^ 2 / 4 := by
    rw [sub_le_iff_le_add, ← sub_le_iff_le_add', le_div_iff₀ h0]
    have : 0 < y ^ 3 := by positivity
    nlinarith
  nlinarith

theorem cap_cos (a : ℝ) (N j : ℕ) : southCap a (-(Real.pi / 2) + j * (Real.pi / N)) = 2 * Real.pi * a ^ 2 * (1 - Real.cos (j * (Real.pi / N))) := by
  unfold southCap
  rw [show -(Real.pi / 2) + (j : ℝ) * (Real.pi / N) = j * (Real.pi / N) - Real.pi / 2 by ring, Real.sin_sub_pi_div_two]
  ring

theorem half_le_one {N : ℕ} (hN : 2 ≤ N) : Real.pi / N / 2 ≤ 1 := by
  have hN' : (2 : ℝ) ≤ N := by exact_mod_cast hN
  have : Real.pi / N ≤ 2 := by
    rw [div_le_iff₀ (by linarith)]
    linarith [Real.pi_le_four]
  linarith

/-- The cap of the row before, against that of the row reduced by the factor between the weights and the areas of cells. -/
theorem cap_before (a : ℝ) {N j : ℕ} (hN : 2 ≤ N) (h0 : 0 < j) (hj : j ≤ N) :
    southCap a (-(Real.pi / 2) + ((j - 1 : ℕ) : ℝ) * (Real.pi / N)) ≤
      Real.sin (Real.pi / N / 2) / (Real.pi / N / 2) * southCap a (-(Real.pi / 2) + j * (Real.pi / N)) := by
  obtain ⟨h1, h2, hs, hc⟩ := half_step hN
  have f := flatness h1 (half_le_one hN)
  have o := odd_step (m := 2 * (j - 1) + 1) hN rfl (by omega : j - 1 + 1 ≤ N)
  rw [cap_cos, cap_cos]
  have c1 : ((j - 1 : ℕ) : ℝ) = j - 1 := by rw [Nat.cast_sub h0]; simp
  rw [show ((2 * (j - 1) + 1 : ℕ) : ℝ) = 2 * j - 1 by push_cast; rw [c1]; ring] at o
  rw [c1]
  set y := Real.pi / N / 2 with hy
  rw [show (Real.pi / N : ℝ) = 2 * y by rw [hy]; ring]
  have e : Real.cos (((j : ℝ) - 1) * (2 * y)) - Real.cos (j * (2 * y)) = 2 * Real.sin ((2 * j - 1) * y) * Real.sin y := by
    rw [Real.cos_sub_cos, show (((j : ℝ) - 1) * (2 * y) + j * (2 * y)) / 2 = (2 * j - 1) * y by ring,
      show (((j : ℝ) - 1) * (2 * y) - j * (2 * y)) / 2 = -y by ring, Real.sin_neg]
    ring
  have b : 2 * Real.sin y ^ 2 ≤ Real.cos (((j : ℝ) - 1) * (2 * y)) - Real.cos (j * (2 * y)) := by
    rw [e]
    nlinarith
  have s1 : Real.sin y / y ≤ 1 := (div_le_one h1).2 (Real.sin_le h1.le)
  have k1 := Real.neg_one_le_cos (j * (2 * y))
  have hA : 0 ≤ 2 * Real.pi * a ^ 2 := by have := Real.pi_pos; positivity
  rw [show Real.sin y / y * (2 * Real.pi * a ^ 2 * (1 - Real.cos (j * (2 * y)))) = 2 * Real.pi * a ^ 2 * (Real.sin y / y * (1 - Real.cos (j * (2 * y)))) by ring]
  refine mul_le_mul_of_nonneg_left ?_ hA
  nlinarith

/-- The cap of the next row holds that of the row and the surroundings of both poles. -/
theorem cap_after {a : ℝ} (ha : 0 < a) {N j : ℕ} (hN : 2 ≤ N) (hj : j < N) :
    southCap a (-(Real.pi / 2) + j * (Real.pi / N)) + 2 * Real.pi * a ^ 2 * (2 - 2 * Real.cos (Real.pi / N / 2)) <
      southCap a (-(Real.pi / 2) + ((j + 1 : ℕ) : ℝ) * (Real.pi / N)) := by
  obtain ⟨h1, h2, hs, hc⟩ := half_step hN
  have o := odd_step (m := 2 * j + 1) hN rfl hj
  rw [cap_cos, cap_cos]
  push_cast at o ⊢
  set y := Real.pi / N / 2 with hy
  rw [show (Real.pi / N : ℝ) = 2 * y by rw [hy]; ring]
  have e : Real.cos ((j : ℝ) * (2 * y)) - Real.cos (((j : ℝ) + 1) * (2 * y)) = 2 * Real.sin ((2 * j + 1) * y) * Real.sin y := by
    rw [Real.cos_sub_cos, show ((j : ℝ) * (2 * y) + (j + 1) * (2 * y)) / 2 = (2 * j + 1) * y by ring,
      show ((j : ℝ) * (2 * y) - (j + 1) * (2 * y)) / 2 = -y by ring, Real.sin_neg]
    ring
  have b : 2 * Real.sin y ^ 2 ≤ Real.cos ((j : ℝ) * (2 * y)) - Real.cos (((j : ℝ) + 1) * (2 * y)) := by
    rw [e]
    nlinarith
  have p := Real.sin_sq_add_cos_sq y
  have l : Real.cos y < 1 := by
    have : 0 < Real.sin y ^ 2 := by positivity
    nlinarith
  have hA : 0 < 2 * Real.pi * a ^ 2 := by have := Real.pi_pos; positivity
  rw [← mul_add]
  refine mul_lt_mul_of_pos_left ?_ hA
  nlinarith

/-! ## The contour of a row -/

section
variable {a L K : ℝ} {q : ℝ → ℝ → ℝ} {N M : ℕ}

theorem cellWeight_nonneg {r : ℕ} (hN : 2 ≤ N) (hr : r < N + 1) (c : ℕ) : 0 ≤ cellWeight a N M r c := by
  have hpi := Real.pi_pos
  have hN' : (0 : ℝ) < N := by exact_mod_cast (by omega : 0 < N)
  have b : (r : ℝ) * (Real.pi / N) ≤ N * (Real.pi / N) := mul_le_mul_of_nonneg_right (by exact_mod_cast (by omega : r ≤ N)) (by positivity)
  rw [mul_div_cancel₀ _ hN'.ne'] at b
  have : 0 ≤ (r : ℝ) * (Real.pi / N) := by positivity
  have hc : 0 ≤ Real.cos (-(Real.pi / 2) + r * (Real.pi / N)) := Real.cos_nonneg_of_mem_Icc ⟨by linarith, by linarith⟩
  unfold cellWeight
  positivity

theorem total_weight (hM : 1 ≤ M) (a : ℝ) (n : ℕ) : ∑ r ∈ range n, ∑ c ∈ range M, cellWeight a N M r c =
    2 * Real.pi * a ^ 2 * ((∑ r ∈ range n, Real.sin (r * (Real.pi / N))) * (Real.pi / N)) := by
  have hM' : (M : ℝ) ≠ 0 := by exact_mod_cast (by omega : M ≠ 0)
  rw [sum_mul, mul_sum]
  refine sum_congr rfl fun r _ => ?_
  unfold cellWeight
  rw [sum_const, card_range, nsmul_eq_mul, show -(Real.pi / 2) + (r : ℝ) * (Real.pi / N) = r * (Real.pi / N) - Real.pi / 2 by ring,
    Real.cos_sub_pi_div_two]
  field_simp

theorem cap_lt_total (ha : 0 < a) (hN : 2 ≤ N) (hM : 1 ≤ M) {j : ℕ} (h0 : 0 < j) (hj : j < N) :
    southCap a (-(Real.pi / 2) + j * (Real.pi / N)) < ∑ r ∈ range (N + 1), ∑ c ∈ range M, cellWeight a N M r c := by
  have hA : 0 < 2 * Real.pi * a ^ 2 := by have := Real.pi_pos; positivity
  have h1 : ∑ r ∈ range (j + 1), ∑ c ∈ range M, cellWeight a N M r c ≤ ∑ r ∈ range (N + 1), ∑ c ∈ range M, cellWeight a N M r c :=
    sum_le_sum_of_subset_of_nonneg (range_mono (by omega)) fun r hr _ => sum_nonneg fun c _ => cellWeight_nonneg hN (mem_range.1 hr) c
  refine lt_of_lt_of_le ?_ h1
  rw [total_weight hM, cap_cos]
  exact mul_lt_mul_of_pos_left (cap_lt_rows hN h0 hj) hA

/-- The contour of a row on the grid: the area of the sphere up to a little more is more than the cap of the row before, and the area up to
less than a little less is less than the cap of the next row. -/
theorem contour_between (hq : Continuous fun p : ℝ × ℝ => q p.1 p.2) (hs : SlopeBound q L K) (hL : 0 ≤ L) (hK : 0 ≤ K) (hN : 2 ≤ N) (hM : 1 ≤ M)
    (ha : 0 < a) {j : ℕ} (h0 : 0 < j) (hj : j < N) {u : ℝ}
    (hu : IsContour (N + 1) M (cellValue q N M) (cellWeight a N M) (southCap a (-(Real.pi / 2) + j * (Real.pi / N))) u) :
    southCap a (-(Real.pi / 2) + ((j - 1 : ℕ) : ℝ) * (Real.pi / N)) <
        areaAtMost a q (-(Real.pi / 2)) (Real.pi / 2) (u + (L * (Real.pi / N / 2) + K * (2 * Real.pi / M))) ∧
      ∀ w, w < u - (L * (Real.pi / N / 2) + K * (2 * Real.pi / M)) → areaAtMost a q (-(Real.pi / 2)) (Real.pi / 2) w <
        southCap a (-(Real.pi / 2) + ((j + 1 : ℕ) : ℝ) * (Real.pi / N)) := by
  obtain ⟨h1, h2, hs', hc⟩ := half_step hN
  have s0 : 0 < Real.sin (Real.pi / N / 2) / (Real.pi / N / 2) := div_pos hs' h1
  have s1 : Real.sin (Real.pi / N / 2) / (Real.pi / N / 2) ≤ 1 := (div_le_one h1).2 (Real.sin_le h1.le)
  constructor
  · refine lt_of_lt_of_le ?_ (count_le hq hs hL hK hN hM a u)
    exact (cap_before a hN h0 hj.le).trans_lt (mul_lt_mul_of_pos_left hu.2 s0)
  · intro w hw
    refine lt_of_le_of_lt (count_ge hq hs hL hK hN hM a hw) (lt_of_le_of_lt ?_ (cap_after ha hN hj))
    have c0 : 0 ≤ areaBelow (N + 1) M (cellValue q N M) (cellWeight a N M) u := sum_nonneg fun r hr => sum_nonneg fun c _ => by
      split_ifs
      · exact cellWeight_nonneg hN (mem_range.1 hr) c
      · exact le_rfl
    have := hu.1
    nlinarith

/-- The contour of a row is a value of the field on the grid. -/
theorem contour_value {n m : ℕ} {g w : ℕ → ℕ → ℝ} {T u : ℝ} (hu : IsContour n m g w T u) : ∃ r < n, ∃ c < m, g r c = u := by
  by_contra h
  push Not at h
  have : areaBelow n m g w u = areaUpTo n m g w u := by
    unfold areaBelow areaUpTo
    refine sum_congr rfl fun r hr => sum_congr rfl fun c hc => ?_
    have := h r (mem_range.1 hr) c (mem_range.1 hc)
    by_cases hl : g r c < u
    · rw [if_pos hl, if_pos hl.le]
    · rw [if_neg hl, if_neg fun h' => hl (lt_of_le_of_ne h' this)]
  linarith [hu.1, hu.2]

theorem point_mem (hN : 2 ≤ N) (hM : 1 ≤ M) {r c : ℕ} (hr : r < N + 1) (hc : c < M) :
    ((-(Real.pi / 2) + r * (Real.pi / N), c * (2 * Real.pi / M)) : ℝ × ℝ) ∈ band (-(Real.pi / 2)) (Real.pi / 2) := by
  have hpi := Real.pi_pos
  have hN' : (0 : ℝ) < N := by exact_mod_cast (by omega : 0 < N)
  have hM' : (0 : ℝ) < M := by exact_mod_cast hM
  have b : (r : ℝ) * (Real.pi / N) ≤ N * (Real.pi / N) := mul_le_mul_of_nonneg_right (by exact_mod_cast (by omega : r ≤ N)) (by positivity)
  have b' : (c : ℝ) * (2 * Real.pi / M) ≤ M * (2 * Real.pi / M) := mul_le_mul_of_nonneg_right (by exact_mod_cast hc.le) (by positivity)
  rw [mul_div_cancel₀ _ hN'.ne'] at b
  rw [mul_div_cancel₀ _ hM'.ne'] at b'
  have b0 : 0 ≤ (r : ℝ) * (Real.pi / N) := by positivity
  have b1 : 0 ≤ (c : ℝ) * (2 * Real.pi / M) := by positivity
  exact ⟨⟨by simp only; linarith, by simp only; linarith⟩, b1, b'⟩

theorem slope_range (hs : SlopeBound q L K) (hL : 0 ≤ L) (hK : 0 ≤ K) {p p' : ℝ × ℝ} (hp : p ∈ band (-(Real.pi / 2)) (Real.pi / 2))
    (hp' : p' ∈ band (-(Real.pi / 2)) (Real.pi / 2)) : |q p.1 p.2 - q p'.1 p'.2| ≤ L * Real.pi + K * (2 * Real.pi) := by
  refine (hs p hp p' hp').trans (add_le_add (mul_le_mul_of_nonneg_left ?_ hL) (mul_le_mul_of_nonneg_left ?_ hK))
  · rw [abs_le]
    constructor <;> linarith [hp.1.1, hp.1.2, hp'.1.1, hp'.1.2]
  · rw [abs_le]
    constructor <;> linarith [hp.2.1, hp.2.2, hp'.2.1, hp'.2.2]

theorem sampled_cellValue : sampled q (N + 1) M = cellValue q N M := by
  rw [sampled_eq]
  funext r c
  unfold cellValue
  rw [Nat.add_sub_cancel, show Real.pi / 2 - -(Real.pi / 2) = Real.pi by ring]

/-- Everything about the profile of one grid. -/
theorem profile_contour (hs : SlopeBound q L K) (hL : 0 ≤ L) (hK : 0 ≤ K) (hN : 2 ≤ N) (hM : 1 ≤ M) (ha : 0 < a) {np : Option ℕ}
    (hnp : 2 ≤ np.getD (N + 1)) {Q : ℕ → ℝ}
    (hQ : (baroStep (baroInit (N + 1) M (regularLat (N + 1)) a false none none np) (baroFresh (sampled q (N + 1) M)) .readEqv).2 = .eqv (.ok Q))
    {j : ℕ} (h0 : 0 < j) (hj : j < N) :
    ∃ u, IsContour (N + 1) M (cellValue q N M) (cellWeight a N M) (southCap a (-(Real.pi / 2) + j * (Real.pi / N))) u ∧
      |Q j - u| ≤ (L * Real.pi + K * (2 * Real.pi)) / ((np.getD (N + 1) - 1 : ℕ) : ℝ) := by
  have hcap0 : 0 ≤ southCap a (-(Real.pi / 2) + j * (Real.pi / N)) := by
    unfold southCap
    have := Real.neg_one_le_sin (-(Real.pi / 2) + j * (Real.pi / N))
    have : 0 ≤ 1 + Real.sin (-(Real.pi / 2) + j * (Real.pi / N)) := by linarith
    have := Real.pi_pos
    positivity
  obtain ⟨u, hu, -⟩ := C115_contour_exists_unique (q := cellValue q N M) (area := cellWeight a N M) (nlat := N + 1) (nlon := M)
    (fun r hr c _ => cellWeight_nonneg hN hr c) hcap0 (cap_lt_total ha hN hM h0 hj)
  refine ⟨u, hu, ?_⟩
  obtain ⟨Q', e1, -, e3⟩ := barotropic_grid ha (by omega : 3 ≤ N + 1) hM np hnp q
  rw [hQ] at e1
  cases e1
  have hb := e3 j (by omega) u (by
    rw [sampled_cellValue, regularLat_rad, Nat.add_sub_cancel, show Real.pi / 2 - -(Real.pi / 2) = Real.pi by ring]
    exact hu)
  refine hb.trans (div_le_div_of_nonneg_right ?_ (Nat.cast_nonneg _))
  have hne : (cells (N + 1) M).Nonempty := ⟨(0, 0), mem_cells.2 ⟨by omega, by omega⟩⟩
  obtain ⟨p, hp, f1⟩ := exists_amax (vort := sampled q (N + 1) M) hne
  obtain ⟨p', hp', f2⟩ := exists_amin (vort := sampled q (N + 1) M) hne
  rw [f1, f2, sampled_cellValue]
  obtain ⟨r1, r2⟩ := mem_cells.1 hp
  obtain ⟨r3, r4⟩ := mem_cells.1 hp'
  exact (le_abs_self _).trans (slope_range hs hL hK (point_mem hN hM r1 r2) (point_mem hN hM r3 r4))

end

/-! ## The claims -/

/-- What the cells of the grid and the partition of the values can contribute to an error of the reference value: half a step of latitude, a step of
longitude and an interval of the partition, for a field with the slopes `L` and `K`. -/
def Spec.gridError (L K : ℝ) (N M parts : ℕ) : ℝ :=
  L * (Real.pi / N / 2) + K * (2 * Real.pi / M) + (L * Real.pi + K * (2 * Real.pi)) / ((parts - 1 : ℕ) : ℝ)

variable {a L K : ℝ} {q : ℝ → ℝ → ℝ} {N M : ℕ} {np : Option ℕ} {Q : ℕ → ℝ} {j : ℕ}

/-- **C205 (between the neighbouring rows).** For a field of bounded slope on a regular grid of `N` intervals of latitude and `M` columns, the value of
`equivalent_latitudes` at a row between the poles lies, up to `gridError`, between the values whose contours on the sphere enclose the caps of the
neighbouring rows. -/
theorem C205_between (hq : Continuous fun p : ℝ × ℝ => q p.1 p.2) (hs : SlopeBound q L K) (hL : 0 ≤ L) (hK : 0 ≤ K) (hN : 2 ≤ N) (hM : 1 ≤ M)
    (ha : 0 < a) (hnp : 2 ≤ np.getD (N + 1))
    (hQ : (baroStep (baroInit (N + 1) M (regularLat (N + 1)) a false none none np) (baroFresh (sampled q (N + 1) M)) .readEqv).2 = .eqv (.ok Q))
    (h0 : 0 < j) (hj : j < N) :
    (∀ v, Encloses a q (-(Real.pi / 2)) (Real.pi / 2) (southCap a (-(Real.pi / 2) + ((j - 1 : ℕ) : ℝ) * (Real.pi / N))) v →
      v - gridError L K N M (np.getD (N + 1)) ≤ Q j) ∧
    ∀ v, Encloses a q (-(Real.pi / 2)) (Real.pi / 2) (southCap a (-(Real.pi / 2) + ((j + 1 : ℕ) : ℝ) * (Real.pi / N))) v →
      Q j ≤ v + gridError L K N M (np.getD (N + 1)) := by
  obtain ⟨u, hu, hQu⟩ := profile_contour hs hL hK hN hM ha hnp hQ h0 hj
  obtain ⟨b1, b2⟩ := contour_between hq hs hL hK hN hM ha h0 hj hu
  rw [abs_le] at hQu
  unfold gridError
  constructor
  · intro v hv
    have : v ≤ u + (L * (Real.pi / N / 2) + K * (2 * Real.pi / M)) := by
      by_contra h
      exact absurd b1 (not_lt.2 (hv.below _ (not_le.1 h)).le)
    linarith [hQu.1]
  · intro v hv
    have : u - (L * (Real.pi / N / 2) + K * (2 * Real.pi / M)) ≤ v := by
      refine le_of_forall_lt fun w hw => ?_
      by_contra h
      obtain ⟨w', hw1, hw2⟩ := exists_between (lt_of_le_of_lt (not_lt.1 h) hw)
      exact absurd (b2 w' hw2) (not_lt.2 (hv.above w' hw1).le)
    linarith [hQu.2]

/-- **C205 (profile).** Let `P` be the reference state on the sphere, with a slope of at most `B`. At every row between the poles of a regular grid the value of
`equivalent_latitudes` differs from it by at most the change of `P` over one interval of latitude plus `gridError`. -/
theorem C205_profile (hq : Continuous fun p : ℝ × ℝ => q p.1 p.2) (hs : SlopeBound q L K) (hL : 0 ≤ L) (hK : 0 ≤ K) (hN : 2 ≤ N) (hM : 1 ≤ M)
    (ha : 0 < a) (hnp : 2 ≤ np.getD (N + 1))
    (hQ : (baroStep (baroInit (N + 1) M (regularLat (N + 1)) a false none none np) (baroFresh (sampled q (N + 1) M)) .readEqv).2 = .eqv (.ok Q))
    (h0 : 0 < j) (hj : j < N) {P : ℝ → ℝ} {B : ℝ} (hB : 0 ≤ B)
    (hP : ∀ φ ∈ Set.Ioo (-(Real.pi / 2)) (Real.pi / 2), Encloses a q (-(Real.pi / 2)) (Real.pi / 2) (southCap a φ) (P φ))
    (hPB : ∀ φ ∈ Set.Ioo (-(Real.pi / 2)) (Real.pi / 2), ∀ φ' ∈ Set.Ioo (-(Real.pi / 2)) (Real.pi / 2), |P φ - P φ'| ≤ B * |φ - φ'|) :
    |Q j - P (-(Real.pi / 2) + j * (Real.pi / N))| ≤ B * (Real.pi / N) + gridError L K N M (np.getD (N + 1)) := by
  have hpi := Real.pi_pos
  have hN' : (0 : ℝ) < N := by exact_mod_cast (by omega : 0 < N)
  obtain ⟨u, hu, hQu⟩ := profile_contour hs hL hK hN hM ha hnp hQ h0 hj
  obtain ⟨b1, b2⟩ := contour_between hq hs hL hK hN hM ha h0 hj hu
  set e := L * (Real.pi / N / 2) + K * (2 * Real.pi / M) with he
  have hh : 0 < Real.pi / N := by positivity
  have e1 : (N : ℝ) * (Real.pi / N) = Real.pi := mul_div_cancel₀ _ hN'.ne'
  have c1 : ((j - 1 : ℕ) : ℝ) = j - 1 := by rw [Nat.cast_sub h0]; simp
  have c2 : (1 : ℝ) ≤ j := by exact_mod_cast h0
  have c3 : (j : ℝ) + 1 ≤ N := by exact_mod_cast hj
  have d2 := mul_le_mul_of_nonneg_right c2 hh.le
  have d3 := mul_le_mul_of_nonneg_right c3 hh.le
  rw [c1] at b1
  push_cast at b2
  set x := -(Real.pi / 2) + (j : ℝ) * (Real.pi / N) with hx
  have hlow : -(Real.pi / 2) ≤ x - Real.pi / N := by rw [hx]; linarith
  have hhigh : x + Real.pi / N ≤ Real.pi / 2 := by rw [hx]; linarith
  rw [show -(Real.pi / 2) + ((j : ℝ) - 1) * (Real.pi / N) = x - Real.pi / N by rw [hx]; ring] at b1
  rw [show -(Real.pi / 2) + ((j : ℝ) + 1) * (Real.pi / N) = x + Real.pi / N by rw [hx]; ring] at b2
  have hcont : Continuous (southCap a) := by unfold southCap; fun_prop
  have hxm : x ∈ Set.Ioo (-(Real.pi / 2)) (Real.pi / 2) := ⟨by linarith, by linarith⟩
  have low : P x - B * (Real.pi / N) ≤ u + e := by
    obtain ⟨φ, hφ1, hφ2⟩ : ∃ φ ∈ Set.Ioo (x - Real.pi / N) x, southCap a φ < areaAtMost a q (-(Real.pi / 2)) (Real.pi / 2) (u + e) := by
      have ev := hcont.continuousAt.eventually_lt continuousAt_const b1
      have ev2 : ∀ᶠ φ in nhdsWithin (x - Real.pi / N) (Set.Ioi (x - Real.pi / N)), φ ∈ Set.Ioo (x - Real.pi / N) x :=
        Ioo_mem_nhdsGT (by linarith)
      obtain ⟨φ, h1, h2⟩ := ((ev.filter_mono nhdsWithin_le_nhds).and ev2).exists
      exact ⟨φ, h2, h1⟩
    have hφm : φ ∈ Set.Ioo (-(Real.pi / 2)) (Real.pi / 2) := ⟨by linarith [hφ1.1], by linarith [hφ1.2, hxm.2]⟩
    have h1 : P φ ≤ u + e := by
      by_contra h
      exact absurd hφ2 (not_lt.2 ((hP φ hφm).below _ (not_le.1 h)).le)
    have h2 := (abs_le.1 (hPB x hxm φ hφm)).2
    have h3 : |x - φ| ≤ Real.pi / N := by rw [abs_le]; constructor <;> linarith [hφ1.1, hφ1.2]
    have := mul_le_mul_of_nonneg_left h3 hB
    linarith
  have high : u - e ≤ P x + B * (Real.pi / N) := by
    refine le_of_forall_lt fun w hw => ?_
    have b3 := b2 w hw
    obtain ⟨w', hw1, hw2⟩ := exists_between hw
    obtain ⟨φ, hφ1, hφ2⟩ : ∃ φ ∈ Set.Ioo x (x + Real.pi / N), areaAtMost a q (-(Real.pi / 2)) (Real.pi / 2) w' < southCap a φ := by
      have ev := continuousAt_const.eventually_lt hcont.continuousAt (b2 w' hw2)
      have ev2 : ∀ᶠ φ in nhdsWithin (x + Real.pi / N) (Set.Iio (x + Real.pi / N)), φ ∈ Set.Ioo x (x + Real.pi / N) :=
        Ioo_mem_nhdsLT (by linarith)
      obtain ⟨φ, h1, h2⟩ := ((ev.filter_mono nhdsWithin_le_nhds).and ev2).exists
      exact ⟨φ, h2, h1⟩
    have hφm : φ ∈ Set.Ioo (-(Real.pi / 2)) (Real.pi / 2) := ⟨by linarith [hφ1.1, hxm.1], by linarith [hφ1.2]⟩
    have h1 : w' ≤ P φ := by
      by_contra h
      exact absurd hφ2 (not_lt.2 ((hP φ hφm).above _ (not_le.1 h)).le)
    have h2 := (abs_le.1 (hPB φ hφm x hxm)).2
    have h3 : |φ - x| ≤ Real.pi / N := by rw [abs_le]; constructor <;> linarith [hφ1.1, hφ1.2]
    have := mul_le_mul_of_nonneg_left h3 hB
    linarith
  rw [abs_le] at hQu ⊢
  unfold gridError
  rw [← he]
  constructor <;> linarith [hQu.1, hQu.2]

/-- **C205 (wave activity).** With the same hypotheses, the local wave activity of every cell of such a row differs from the integral that defines it on the
sphere by at most an explicit amount that is proportional to the spacings and to the interval of the partition. -/
theorem C205_lwa (hq : Continuous fun p : ℝ × ℝ => q p.1 p.2) (hs : SlopeBound q L K) (hL : 0 ≤ L) (hK : 0 ≤ K) (hN : 2 ≤ N) (hM : 1 ≤ M)
    (ha : 0 < a) (hnp : 2 ≤ np.getD (N + 1)) (h0 : 0 < j) (hj : j < N) {c : ℕ} (hc : c < M) {P : ℝ → ℝ} {B : ℝ} (hB : 0 ≤ B)
    (hP : ∀ φ ∈ Set.Ioo (-(Real.pi / 2)) (Real.pi / 2), Encloses a q (-(Real.pi / 2)) (Real.pi / 2) (southCap a φ) (P φ))
    (hPB : ∀ φ ∈ Set.Ioo (-(Real.pi / 2)) (Real.pi / 2), ∀ φ' ∈ Set.Ioo (-(Real.pi / 2)) (Real.pi / 2), |P φ - P φ'| ≤ B * |φ - φ'|) :
    ∃ A, (baroStep (baroInit (N + 1) M (regularLat (N + 1)) a false none none np) (baroFresh (sampled q (N + 1) M)) .readLwa).2 = .lwa (.ok (.total A)) ∧
      |A j c - meridionalWaveActivity a (fun φ => q φ (c * (2 * Real.pi / M))) (P (-(Real.pi / 2) + j * (Real.pi / N))) (-(Real.pi / 2)) (Real.pi / 2)
          (-(Real.pi / 2) + j * (Real.pi / N))| ≤
        a * (Real.pi / N) * ((L + 2 * (L * Real.pi + K * (2 * Real.pi))) * Real.pi + 2 * (L * Real.pi + K * (2 * Real.pi))) +
          a * (B * (Real.pi / N) + gridError L K N M (np.getD (N + 1))) * Real.pi := by
  have hpi := Real.pi_pos
  have hN' : (0 : ℝ) < N := by exact_mod_cast (by omega : 0 < N)
  have hM' : (0 : ℝ) < M := by exact_mod_cast hM
  have hh : 0 < Real.pi / N := by positivity
  have e1 : (N : ℝ) * (Real.pi / N) = Real.pi := mul_div_cancel₀ _ hN'.ne'
  obtain ⟨Q, hQ, hA, -⟩ := barotropic_grid ha (by omega : 3 ≤ N + 1) hM np hnp q
  obtain ⟨u, hu, hQu⟩ := profile_contour hs hL hK hN hM ha hnp hQ h0 hj
  have prof := C205_profile hq hs hL hK hN hM ha hnp hQ h0 hj hB hP hPB
  refine ⟨_, hA, ?_⟩
  set D := L * Real.pi + K * (2 * Real.pi) with hD
  have hD0 : 0 ≤ D := by positivity
  have hend : -(Real.pi / 2) + (N : ℝ) * (Real.pi / N) = Real.pi / 2 := by rw [e1]; ring
  have hl : (c : ℝ) * (2 * Real.pi / M) ∈ Set.Icc 0 (2 * Real.pi) := (point_mem hN hM (by omega : 0 < N + 1) hc).2
  have hg : GradientBound (fun φ => q φ (c * (2 * Real.pi / M))) L (-(Real.pi / 2)) (-(Real.pi / 2) + N * (Real.pi / N)) := by
    rw [hend]
    intro x hx y hy
    have := hs (x, c * (2 * Real.pi / M)) ⟨hx, hl⟩ (y, c * (2 * Real.pi / M)) ⟨hy, hl⟩
    simpa using this
  have hr : ∀ φ ∈ Set.Icc (-(Real.pi / 2)) (-(Real.pi / 2) + N * (Real.pi / N)), |q φ (c * (2 * Real.pi / M)) - Q j| ≤ 2 * D := by
    rw [hend]
    intro φ hφ
    obtain ⟨r, hr, c', hc', hval⟩ := contour_value hu
    have d1 : |q φ (c * (2 * Real.pi / M)) - u| ≤ D := by
      rw [← hval]
      exact slope_range hs hL hK (p := (φ, c * (2 * Real.pi / M))) ⟨hφ, hl⟩ (point_mem hN hM hr hc')
    have d2 : |Q j - u| ≤ D := hQu.trans (div_le_self hD0 (by exact_mod_cast (by omega : 1 ≤ np.getD (N + 1) - 1)))
    rw [abs_le] at d1 d2 ⊢
    constructor <;> linarith [d1.1, d1.2, d2.1, d2.2]
  obtain ⟨f, hf, hb⟩ := C119_lwa q (fun c' : ℕ => (c' : ℝ) * (2 * Real.pi / M)) Q (Q := P (-(Real.pi / 2) + j * (Real.pi / N))) none ha.le hh.le hL hg hr hj
  have hfe : lwaTotal (N + 1) (sampled q (N + 1) M) Q (lengthElement a (regularLat (N + 1)) (poleToPole (N + 1))) j c = f j c := by
    rw [lwaTotal_congr_dmu (fun r hr => lengthElement_regular (by omega : 3 ≤ N + 1) a hr) (by omega : j + 1 < N + 1), sampled_cellValue]
    injection hf with hf
    rw [← hf]
    simp only [Nat.add_sub_cancel, show Real.pi / 2 - -(Real.pi / 2) = Real.pi by ring]
    rfl
  rw [hfe]
  rw [hend, e1] at hb
  refine hb.trans (add_le_add le_rfl ?_)
  exact mul_le_mul_of_nonneg_right (mul_le_mul_of_nonneg_left prof ha.le) hpi.le

/-! ### A field that varies with longitude only -/

/-- Falls from the meridian 0 to the meridian of 180 degrees and rises again. -/
def valley (_x l : ℝ) : ℝ := |l - Real.pi| * (2 / Real.pi) - 1

theorem valley_continuous : Continuous fun p : ℝ × ℝ => valley p.1 p.2 := by
  unfold valley
  fun_prop

theorem valley_slope : SlopeBound valley 0 (2 / Real.pi) := by
  intro p _ p' _
  have hpi := Real.pi_pos
  unfold valley
  rw [zero_mul, zero_add, show |p.2 - Real.pi| * (2 / Real.pi) - 1 - (|p'.2 - Real.pi| * (2 / Real.pi) - 1) =
    2 / Real.pi * (|p.2 - Real.pi| - |p'.2 - Real.pi|) by ring, abs_mul, abs_of_pos (by positivity : 0 < 2 / Real.pi)]
  refine mul_le_mul_of_nonneg_left ?_ (by positivity)
  have := abs_abs_sub_abs_le_abs_sub (p.2 - Real.pi) (p'.2 - Real.pi)
  rwa [sub_sub_sub_cancel_right] at this

theorem valley_area (a : ℝ) {w : ℝ} (h0 : -1 ≤ w) (h1 : w ≤ 1) :
    areaAtMost a valley (-(Real.pi / 2)) (Real.pi / 2) w = 2 * Real.pi * a ^ 2 * (1 + w) := by
  classical
  have hpi := Real.pi_pos
  unfold areaAtMost band
  have e := setIntegral_prod_mul (μ := (volume : Measure ℝ)) (ν := (volume : Measure ℝ)) (fun u : ℝ => a ^ 2 * Real.cos u)
    ((Set.Icc (Real.pi - (w + 1) * (Real.pi / 2)) (Real.pi + (w + 1) * (Real.pi / 2))).indicator fun _ : ℝ => (1 : ℝ))
    (Set.Icc (-(Real.pi / 2)) (Real.pi / 2)) (Set.Icc 0 (2 * Real.pi))
  have t0 : 0 ≤ (w + 1) * (Real.pi / 2) := mul_nonneg (by linarith) (by linarith)
  have t1 : (w + 1) * (Real.pi / 2) ≤ Real.pi := by nlinarith
  have i1 : ∫ u in Set.Icc (-(Real.pi / 2)) (Real.pi / 2), a ^ 2 * Real.cos u = a ^ 2 * 2 := by
    rw [integral_Icc_eq_integral_Ioc, ← intervalIntegral.integral_of_le (by linarith), intervalIntegral.integral_const_mul, integral_cos, Real.sin_neg,
      Real.sin_pi_div_two]
    norm_num
  have i2 : ∫ l in Set.Icc 0 (2 * Real.pi), (Set.Icc (Real.pi - (w + 1) * (Real.pi / 2)) (Real.pi + (w + 1) * (Real.pi / 2))).indicator
      (fun _ : ℝ => (1 : ℝ)) l = (w + 1) * Real.pi := by
    rw [setIntegral_indicator measurableSet_Icc, Set.inter_eq_self_of_subset_right (Set.Icc_subset_Icc (by linarith) (by linarith)),
      integral_Icc_eq_integral_Ioc, ← intervalIntegral.integral_of_le (by linarith), intervalIntegral.integral_const]
    simp only [smul_eq_mul, mul_one]
    ring
  rw [i1, i2] at e
  rw [show 2 * Real.pi * a ^ 2 * (1 + w) = a ^ 2 * 2 * ((w + 1) * Real.pi) by ring, ← e, Measure.volume_eq_prod]
  refine integral_congr_ae (Filter.Eventually.of_forall fun p => ?_)
  have iff : valley p.1 p.2 ≤ w ↔ p.2 ∈ Set.Icc (Real.pi - (w + 1) * (Real.pi / 2)) (Real.pi + (w + 1) * (Real.pi / 2)) := by
    unfold valley
    rw [sub_le_iff_le_add, ← le_div_iff₀ (by positivity), abs_le, show (w + 1) / (2 / Real.pi) = (w + 1) * (Real.pi / 2) by field_simp]
    constructor
    · rintro ⟨h, h'⟩
      exact ⟨by linarith, by linarith⟩
    · rintro ⟨h, h'⟩
      exact ⟨by linarith, by linarith⟩
  by_cases h : valley p.1 p.2 ≤ w
  · simp [h, Set.indicator_of_mem (iff.1 h)]
  · simp [h, Set.indicator_of_notMem (fun h' => h (iff.2 h'))]

theorem valley_reference {a : ℝ} (ha : 0 < a) {φ : ℝ} (hφ : φ ∈ Set.Ioo (-(Real.pi / 2)) (Real.pi / 2)) :
    Encloses a valley (-(Real.pi / 2)) (Real.pi / 2) (southCap a φ) (Real.sin φ) := by
  have hpi := Real.pi_pos
  have hA : 0 < 2 * Real.pi * a ^ 2 := by positivity
  have s0 : -1 < Real.sin φ := by
    rw [← Real.sin_pi_div_two, ← Real.sin_neg]
    exact Real.sin_lt_sin_of_lt_of_le_pi_div_two le_rfl hφ.2.le hφ.1
  have s1 : Real.sin φ < 1 := by
    rw [← Real.sin_pi_div_two]
    exact Real.sin_lt_sin_of_lt_of_le_pi_div_two hφ.1.le le_rfl hφ.2
  unfold southCap
  refine ⟨fun w hw => ?_, fun w hw => ?_⟩
  · have hm := areaAtMost_mono (a := a) valley_continuous le_rfl le_rfl (le_max_left w (-1))
    have hl : max w (-1) < Real.sin φ := max_lt hw s0
    rw [valley_area a (le_max_right _ _) (by linarith)] at hm
    exact hm.trans_lt (mul_lt_mul_of_pos_left (by linarith) hA)
  · have hm := areaAtMost_mono (a := a) valley_continuous le_rfl le_rfl (min_le_left w 1)
    have hl : Real.sin φ < min w 1 := lt_min hw s1
    rw [valley_area a (by linarith) (min_le_right _ _)] at hm
    exact (mul_lt_mul_of_pos_left (by linarith) hA).trans_le hm

/-- Hypotheses of `C205_between`, `C205_profile` and `C205_lwa`: this field on a grid of four intervals and eight columns, with the default number of
partitions. Its reference state is that of solid body rotation. -/
example : (Continuous fun p : ℝ × ℝ => valley p.1 p.2) ∧ SlopeBound valley 0 (2 / Real.pi) ∧ 2 ≤ (none : Option ℕ).getD (4 + 1) ∧
    (∃ Q, (baroStep (baroInit (4 + 1) 8 (regularLat (4 + 1)) 1 false none none none) (baroFresh (sampled valley (4 + 1) 8)) .readEqv).2 = .eqv (.ok Q)) ∧
    (∀ φ ∈ Set.Ioo (-(Real.pi / 2)) (Real.pi / 2), Encloses 1 valley (-(Real.pi / 2)) (Real.pi / 2) (southCap 1 φ) (Real.sin φ)) ∧
    ∀ φ ∈ Set.Ioo (-(Real.pi / 2)) (Real.pi / 2), ∀ φ' ∈ Set.Ioo (-(Real.pi / 2)) (Real.pi / 2), |Real.sin φ - Real.sin φ'| ≤ 1 * |φ - φ'| := by
  obtain ⟨Q, hQ, -⟩ := barotropic_grid one_pos (by norm_num : 3 ≤ 4 + 1) (by norm_num : 1 ≤ 8) none (by simp) valley
  refine ⟨valley_continuous, valley_slope, by simp, ⟨Q, hQ⟩, fun φ hφ => valley_reference one_pos hφ, fun φ _ φ' _ => ?_⟩
  rw [one_mul]
  exact Real.abs_sin_sub_sin_le φ φ'

end Falwa

end
