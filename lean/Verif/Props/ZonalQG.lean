import Verif.Props.Zonal
import Verif.Props.AreaAnalysis
import Verif.Props.RefBoundary
import Verif.Props.NorthOnly
import Verif.Props.QGFawa

/-!
# C145: the reference QGPV of a nearly zonal state

The counterpart of C144 for the Fortran routines. The area analysis leaves out the first partition, so the reference value of a row can be
that of a row further south; how far is decided by the area of the cells within one contour interval of the largest value.
-/

set_option linter.unusedSectionVars false

noncomputable section

namespace Falwa

open Real Finset Spec Classical

/-! ## Areas of the rows of a spherical grid -/

namespace AreaIn

variable {I : AreaIn}

theorem area_mono (h : I.Valid) {P Q : ℤ → ℤ → Prop} (hPQ : ∀ i j, I.grid.Mem i j → P i j → Q i j) : I.grid.area P ≤ I.grid.area Q := by
  rw [h.area_eq, h.area_eq]
  refine sum_le_sum fun c hc => ?_
  rw [I.mem_cells] at hc
  have hd := h.da_nonneg hc.2.1 hc.2.2
  by_cases hp : P c.1 c.2
  · rw [if_pos hp, if_pos (hPQ _ _ ⟨hc.1, hc.2⟩ hp)]
  · rw [if_neg hp]; split_ifs
    · exact hd
    · exact le_rfl

theorem area_nonneg (h : I.Valid) (P : ℤ → ℤ → Prop) : 0 ≤ I.grid.area P := by
  rw [h.area_eq]
  refine sum_nonneg fun c hc => ?_
  rw [I.mem_cells] at hc
  split_ifs
  · exact h.da_nonneg hc.2.1 hc.2.2
  · exact le_rfl

/-- Latitude, counted from the north pole. -/
theorem latitude_north (h : I.Valid) {n : ℕ} (hn : (n : ℤ) = I.jmax - 1) (i : ℕ) :
    I.grid.latitude (I.jmax - i) = π / 2 - i * (π / n) := by
  have hodd := h.odd
  have hnd := h.nd2
  have hn0 : (n : ℝ) ≠ 0 := by exact_mod_cast (by omega : (n : ℤ) ≠ 0)
  have e : (I.jmax : ℝ) = n + 1 := by exact_mod_cast (by omega : I.jmax = (n : ℤ) + 1)
  unfold SphereGrid.latitude grid
  push_cast
  rw [e]
  have : (n : ℝ) + 1 - 1 = n := by ring
  rw [this]
  field_simp
  ring

/-- Area of the `i` northernmost rows. -/
theorem area_rows (h : I.Valid) {n : ℕ} (hn : (n : ℤ) = I.jmax - 1) (i : ℕ) (hi : (i : ℤ) ≤ I.jmax) :
    I.grid.area (fun _ r => I.jmax + 1 - i ≤ r) =
      2 * π * I.a ^ 2 * ((∑ r ∈ range i, sin (r * (π / n))) * (π / n)) := by
  have hm : (I.imax : ℝ) ≠ 0 := by have := h.imax1; exact_mod_cast (by omega : I.imax ≠ 0)
  have hodd := h.odd
  have hnd := h.nd2
  have hn0 : (n : ℝ) ≠ 0 := by exact_mod_cast (by omega : (n : ℤ) ≠ 0)
  have key : ∀ i : ℕ, (i : ℤ) ≤ I.jmax → ∑ j ∈ Icc (I.jmax + 1 - i) I.jmax, I.grid.cell j =
      I.a ^ 2 * (2 * π / I.imax) * ((∑ r ∈ range i, sin (r * (π / n))) * (π / n)) := by
    intro i
    induction i with
    | zero => intro _; simp
    | succ i ih =>
      intro hi
      push_cast at hi
      have e1 : I.jmax + 1 - ((i + 1 : ℕ) : ℤ) = (I.jmax + 1 - i) - 1 := by push_cast; ring
      rw [e1, sum_Icc_sub_one (by omega), ih (by omega), sum_range_succ, add_mul, mul_add, add_comm]
      congr 1
      rw [show I.jmax + 1 - (i : ℤ) - 1 = I.jmax - i by ring]
      have e2 : (I.jmax : ℝ) - 1 = n := by exact_mod_cast hn.symm
      unfold SphereGrid.cell
      rw [latitude_north h hn, cos_pi_div_two_sub]
      show I.a ^ 2 * sin (i * (π / n)) * (π / ((I.jmax : ℝ) - 1)) * (2 * π / (I.imax : ℝ)) = _
      rw [e2]
      ring
  have e : I.grid.area (fun _ r => I.jmax + 1 - i ≤ r) = I.imax * ∑ j ∈ Icc (I.jmax + 1 - i) I.jmax, I.grid.cell j := by
    have hc : (((I.grid.m + 1 - 1).toNat : ℕ) : ℝ) = I.imax := by
      have h0 : (((I.grid.m + 1 - 1).toNat : ℕ) : ℤ) = I.imax := by
        show (((I.imax + 1 - 1).toNat : ℕ) : ℤ) = I.imax
        have := h.imax1; omega
      exact_mod_cast h0
    have e1 : I.grid.area (fun _ r => I.jmax + 1 - i ≤ r) =
        ∑ j ∈ Icc 1 I.grid.n, if I.jmax + 1 - (i : ℤ) ≤ j then I.imax * I.grid.cell j else 0 := by
      unfold SphereGrid.area
      refine sum_congr rfl fun j _ => ?_
      rw [sum_const, nsmul_eq_mul, Int.card_Icc, hc]
      by_cases hj : I.jmax + 1 - (i : ℤ) ≤ j
      · rw [if_pos hj, if_pos hj]
      · rw [if_neg hj, if_neg hj, mul_zero]
    rw [e1, ← sum_filter, mul_sum]
    refine sum_congr ?_ fun _ _ => rfl
    ext j
    simp only [mem_filter, mem_Icc]
    show (1 ≤ j ∧ j ≤ I.jmax) ∧ _ ↔ _
    omega
  rw [e, key i hi]
  field_simp

/-- The rows north of row `J` cover at most the cap of row `J`. -/
theorem rows_north_le (h : I.Valid) {J : ℤ} (h1 : 1 ≤ J) (h2 : J ≤ I.jmax) :
    I.grid.area (fun _ r => J + 1 ≤ r) ≤ I.grid.polarCap (I.grid.latitude J) := by
  have hodd := h.odd
  have hnd := h.nd2
  have hpi := pi_pos
  have ha := h.a0
  have hn : ((I.jmax - 1).toNat : ℤ) = I.jmax - 1 := by omega
  have hi : ((I.jmax - J).toNat : ℤ) = I.jmax - J := by omega
  have e1 : J + 1 = I.jmax + 1 - ((I.jmax - J).toNat : ℤ) := by omega
  have e2 : J = I.jmax - ((I.jmax - J).toNat : ℤ) := by omega
  have e3 := latitude_north h hn (I.jmax - J).toNat
  rw [← e2] at e3
  rw [e1, area_rows h hn _ (by omega)]
  unfold SphereGrid.polarCap
  rw [e3, sin_pi_div_two_sub]
  exact mul_le_mul_of_nonneg_left (rows_le_cap (by omega) (by omega)) (by positivity)

/-- Together with row `J` they cover more than the cap. -/
theorem cap_lt_rows_from (h : I.Valid) {J : ℤ} (h1 : 1 < J) (h2 : J < I.jmax) :
    I.grid.polarCap (I.grid.latitude J) < I.grid.area (fun _ r => J ≤ r) := by
  have hodd := h.odd
  have hnd := h.nd2
  have hpi := pi_pos
  have ha := h.a0
  have hn : ((I.jmax - 1).toNat : ℤ) = I.jmax - 1 := by omega
  have hi : ((I.jmax - J).toNat : ℤ) = I.jmax - J := by omega
  have e1 : J = I.jmax + 1 - (((I.jmax - J).toNat + 1 : ℕ) : ℤ) := by push_cast; omega
  have e2 : J = I.jmax - ((I.jmax - J).toNat : ℤ) := by omega
  have e3 := latitude_north h hn (I.jmax - J).toNat
  rw [← e2] at e3
  have e4 := area_rows h hn ((I.jmax - J).toNat + 1) (by push_cast; omega)
  rw [← e1] at e4
  rw [e4]
  unfold SphereGrid.polarCap
  rw [e3, sin_pi_div_two_sub]
  exact mul_lt_mul_of_pos_left (cap_lt_rows (by omega) (by omega) (by omega)) (by show 0 < 2 * π * I.a ^ 2; positivity)

/-! ## One level -/

/-- The field is within `e` of a zonal state `P` that does not decrease from south to north. -/
structure CloseToZonal (I : AreaIn) (P : ℤ → ℝ) (e : ℝ) : Prop where
  mono : ∀ r s, 1 ≤ r → r ≤ s → s ≤ I.jmax → P r ≤ P s
  close : ∀ i r, 1 ≤ i → i ≤ I.imax → 1 ≤ r → r ≤ I.jmax → |I.q i r - P r| ≤ e

/-- C145: the reference QGPV is within `e` and two contour intervals of the zonal state, in every row. -/
def C145_Statement : Prop :=
  ∀ (I : AreaIn) (P : ℤ → ℝ) (e : ℝ), I.Valid → I.CloseToZonal P e → ∀ j, 1 ≤ j → j ≤ I.nd →
    |I.qref j - P (j + I.nd - 1)| ≤ e + 2 * I.dq

variable {P : ℤ → ℝ} {e : ℝ}

/-- C145, at the pole the value is within `e` of the zonal state. -/
theorem C145_pole_row (h : I.Valid) (hz : I.CloseToZonal P e) : |I.qref I.nd - P I.jmax| ≤ e := by
  have hodd := h.odd
  have hnd := h.nd2
  have hi := h.imax1
  unfold qref
  rw [if_pos rfl]
  obtain ⟨hle, i, j, i1, i2, j1, j2, hq⟩ := maxval_spec (A := I.q) h.imax1 h.jmax1
  change _ = I.qmax at hq
  have m1 := (abs_le.1 (hz.close i j i1 i2 j1 j2)).2
  have m2 := hz.mono j I.jmax j1 j2 le_rfl
  have m3 : I.q 1 I.jmax ≤ I.qmax := hle 1 I.jmax le_rfl hi (by omega) le_rfl
  have m4 := (abs_le.1 (hz.close 1 I.jmax le_rfl hi (by omega) le_rfl)).1
  rw [abs_le]
  constructor <;> linarith

/-- C145, upper half: if the rows north of `K` cover at most the cap of the row and the first partition together and the row is assigned
at all, its value exceeds that of the zonal state in row `K` by at most `e` and two contour intervals. -/
theorem C145_upper (h : I.Valid) (hz : I.CloseToZonal P e) {j K : ℤ} (j2 : j < I.nd) (K2 : K ≤ I.jmax)
    (hs : (I.placed j).isSome = true)
    (hK : I.grid.area (fun _ r => K + 1 ≤ r) ≤
      I.grid.polarCap (I.grid.latitude (j + I.nd - 1)) + I.grid.area (fun i r => I.qmax - I.dq < I.q i r)) :
    I.qref j ≤ P K + e + 2 * I.dq := by
  obtain ⟨n, n1, n2, n3, n4⟩ := qref_of_placed h (by omega) hs
  have hb := h.value_between n3
  rw [← n4] at hb
  by_contra hlt
  push Not at hlt
  have hf := n3.2
  rw [aan_area h (by omega) (by omega), h.alat_eq] at hf
  have hn2 : I.qn 2 = I.qmax - I.dq := by unfold qn; norm_num
  rw [hn2] at hf
  have hn : I.qn (n + 1 + 1) = I.qn n - 2 * I.dq := by unfold qn; push_cast; ring
  have a1 : I.grid.area (fun i r => I.qn (n + 1 + 1) < I.q i r) ≤ I.grid.area (fun _ r => K + 1 ≤ r) := by
    refine area_mono h fun i r hm hq => ?_
    by_contra hr
    have m1 := hz.mono r K hm.2.1 (by omega) K2
    have m2 := (abs_le.1 (hz.close i r hm.1.1 hm.1.2 hm.2.1 hm.2.2)).2
    rw [hn] at hq
    linarith [hb.2]
  linarith

/-- C145, lower half: if the rows from `K` northward cover more than the cap of the row and the first partition together, the row is
assigned and its value is at least that of the zonal state in row `K`, up to `e`. -/
theorem C145_lower (h : I.Valid) (hz : I.CloseToZonal P e) {j K : ℤ} (j2 : j < I.nd) (K1 : 1 ≤ K)
    (hK : I.grid.polarCap (I.grid.latitude (j + I.nd - 1)) + I.grid.area (fun i r => I.qmax - I.dq < I.q i r) <
      I.grid.area (fun _ r => K ≤ r)) :
    (I.placed j).isSome = true ∧ P K - e ≤ I.qref j := by
  have hs : (I.placed j).isSome = true := by
    rw [(C49_assigned_partial h j).1]
    have := area_mono h (P := fun _ r => K ≤ r) (Q := fun _ _ => True) (fun _ _ _ _ => trivial)
    linarith
  refine ⟨hs, ?_⟩
  obtain ⟨n, n1, n2, n3, n4⟩ := qref_of_placed h (by omega) hs
  have hb := h.value_between n3
  rw [← n4] at hb
  by_contra hlt
  push Not at hlt
  have hf := n3.1
  rw [aan_area h n1 (by omega), h.alat_eq] at hf
  have hn : I.qn 2 = I.qmax - I.dq := by unfold qn; norm_num
  rw [hn] at hf
  have a1 : I.grid.area (fun _ r => K ≤ r) ≤ I.grid.area (fun i r => I.qn (n + 1) < I.q i r) := by
    refine area_mono h fun i r hm hr => ?_
    have m1 := hz.mono K r K1 hr hm.2.2
    have m2 := (abs_le.1 (hz.close i r hm.1.1 hm.1.2 hm.2.1 hm.2.2)).1
    linarith [hb.1]
  linarith

/-- C145, both halves: the value is that of the zonal state in the row `K` in which the cap of the row and the first partition together
end, up to `e` and two contour intervals. -/
theorem C145_profile_partial (h : I.Valid) (hz : I.CloseToZonal P e) {j K : ℤ} (j2 : j < I.nd) (K1 : 1 ≤ K) (K2 : K ≤ I.jmax)
    (h1 : I.grid.area (fun _ r => K + 1 ≤ r) ≤
      I.grid.polarCap (I.grid.latitude (j + I.nd - 1)) + I.grid.area (fun i r => I.qmax - I.dq < I.q i r))
    (h2 : I.grid.polarCap (I.grid.latitude (j + I.nd - 1)) + I.grid.area (fun i r => I.qmax - I.dq < I.q i r) <
      I.grid.area (fun _ r => K ≤ r)) : |I.qref j - P K| ≤ e + 2 * I.dq := by
  obtain ⟨hs, hl⟩ := C145_lower h hz j2 K1 h2
  have hu := C145_upper h hz j2 K2 hs h1
  have := h.dq_pos
  rw [abs_le]
  constructor <;> linarith

/-- The cap of the row `i` rows from the pole and the `s` rows next to the pole together are smaller than the `i + s` rows next to the pole. -/
theorem rows_shift {n i s : ℕ} (hn : 2 ≤ n) (hi : 1 ≤ i) (hin : i < n) (hs : i + 2 * s ≤ n) :
    1 - cos (i * (π / n)) + (∑ r ∈ range (s + 1), sin (r * (π / n))) * (π / n) <
      (∑ r ∈ range (i + s + 1), sin (r * (π / n))) * (π / n) := by
  have hpi := pi_pos
  have hn0 : (0 : ℝ) < n := by exact_mod_cast (by omega : 0 < n)
  have hx : 0 < π / n := by positivity
  have hnx : (n : ℝ) * (π / n) = π := by field_simp
  have h1 := cap_lt_rows hn hi hin
  have e1 : ∑ r ∈ range (i + s + 1), sin (r * (π / n)) =
      ∑ r ∈ range (i + 1), sin (r * (π / n)) + ∑ t ∈ range s, sin (((i + 1 + t : ℕ) : ℝ) * (π / n)) := by
    rw [show i + s + 1 = (i + 1) + s by omega, sum_range_add]
  have e2 : ∑ r ∈ range (s + 1), sin (r * (π / n)) = ∑ t ∈ range s, sin (((t + 1 : ℕ) : ℝ) * (π / n)) := by
    rw [sum_range_succ']
    simp
  have h2 : ∑ t ∈ range s, sin (((t + 1 : ℕ) : ℝ) * (π / n)) ≤ ∑ t ∈ range s, sin (((i + 1 + t : ℕ) : ℝ) * (π / n)) := by
    refine sum_le_sum fun t ht => ?_
    have ht' : t < s := mem_range.1 ht
    have b : (((t + 1 : ℕ) : ℝ)) + ((i + 1 + t : ℕ) : ℝ) ≤ n := by exact_mod_cast (by omega : (t + 1) + (i + 1 + t) ≤ n)
    have b1 : (((t + 1 : ℕ) : ℝ)) ≤ ((i + 1 + t : ℕ) : ℝ) := by exact_mod_cast (by omega : t + 1 ≤ i + 1 + t)
    set y : ℝ := ((t + 1 : ℕ) : ℝ) with hy
    set w : ℝ := ((i + 1 + t : ℕ) : ℝ) with hw
    have hy0 : 0 ≤ y := by rw [hy]; positivity
    have m1 : y * (π / n) ≤ w * (π / n) := mul_le_mul_of_nonneg_right b1 hx.le
    have m2 : y * (π / n) + w * (π / n) ≤ π := by
      rw [← add_mul]
      calc (y + w) * (π / n) ≤ n * (π / n) := mul_le_mul_of_nonneg_right b hx.le
        _ = π := hnx
    have m0 : 0 ≤ y * (π / n) := by positivity
    rw [← sub_nonneg, sin_sub_sin]
    have c1 : 0 ≤ sin ((w * (π / n) - y * (π / n)) / 2) := sin_nonneg_of_nonneg_of_le_pi (by linarith) (by linarith)
    have c2 : 0 ≤ cos ((w * (π / n) + y * (π / n)) / 2) := cos_nonneg_of_mem_Icc ⟨by linarith, by linarith⟩
    positivity
  rw [e1, e2, add_mul]
  have := mul_le_mul_of_nonneg_right h2 hx.le
  linarith

/-- C145: if only the `s + 1` rows next to the pole reach into the first partition, all of them poleward of 45 degrees, the reference value
lies between the values of the zonal state in the row itself and `s` rows further south, up to `e` and two contour intervals. -/
theorem C145_shift_partial (h : I.Valid) (hz : I.CloseToZonal P e) {s : ℕ} (hs : 2 * (s : ℤ) ≤ I.nd - 1)
    (hp : I.dq + 2 * e ≤ P (I.jmax - s) - P (I.jmax - s - 1)) {j : ℤ} (j1 : 1 ≤ j) (j2 : j < I.nd) :
    (I.placed j).isSome = true ∧ P (j + I.nd - 1 - s) - e ≤ I.qref j ∧ I.qref j ≤ P (j + I.nd - 1) + e + 2 * I.dq := by
  have hodd := h.odd
  have hnd := h.nd2
  have hi := h.imax1
  have hpi := pi_pos
  have ha := h.a0
  set J : ℤ := j + I.nd - 1 with hJ
  have hA : I.grid.area (fun i r => I.qmax - I.dq < I.q i r) ≤ I.grid.area (fun _ r => I.jmax - s ≤ r) := by
    refine area_mono h fun i r hm hq => ?_
    by_contra hr
    have m1 := hz.mono r (I.jmax - s - 1) hm.2.1 (by omega) (by omega)
    have m2 := (abs_le.1 (hz.close i r hm.1.1 hm.1.2 hm.2.1 hm.2.2)).2
    have m3 := hz.mono (I.jmax - s) I.jmax (by omega) (by omega) le_rfl
    have m4 := (abs_le.1 (hz.close 1 I.jmax le_rfl hi (by omega) le_rfl)).1
    have m5 : I.q 1 I.jmax ≤ I.qmax := (maxval_spec (A := I.q) h.imax1 h.jmax1).1 1 I.jmax le_rfl hi (by omega) le_rfl
    linarith
  have hn : ((I.jmax - 1).toNat : ℤ) = I.jmax - 1 := by omega
  have hJn : ((I.jmax - J).toNat : ℤ) = I.jmax - J := by omega
  have e1 := area_rows h hn (s + 1) (by push_cast; omega)
  have e2 := area_rows h hn ((I.jmax - J).toNat + s + 1) (by push_cast; omega)
  rw [show I.jmax + 1 - ((s + 1 : ℕ) : ℤ) = I.jmax - s by push_cast; ring] at e1
  rw [show I.jmax + 1 - (((I.jmax - J).toNat + s + 1 : ℕ) : ℤ) = J - s by push_cast; omega] at e2
  have e3 := latitude_north h hn (I.jmax - J).toNat
  rw [hJn, show I.jmax - (I.jmax - J) = J by ring] at e3
  have key := rows_shift (n := (I.jmax - 1).toNat) (i := (I.jmax - J).toNat) (s := s) (by omega) (by omega) (by omega) (by omega)
  have hK : I.grid.polarCap (I.grid.latitude J) + I.grid.area (fun i r => I.qmax - I.dq < I.q i r) <
      I.grid.area (fun _ r => J - s ≤ r) := by
    rw [e2]
    refine lt_of_le_of_lt (add_le_add le_rfl hA) ?_
    rw [e1]
    unfold SphereGrid.polarCap
    rw [e3, sin_pi_div_two_sub]
    show 2 * π * I.a ^ 2 * _ + _ < _
    rw [← mul_add]
    exact mul_lt_mul_of_pos_left key (by positivity)
  obtain ⟨hpl, hl⟩ := C145_lower h hz j2 (K := J - s) (by omega) hK
  refine ⟨hpl, hl, C145_upper h hz j2 (K := J) (by omega) hpl ?_⟩
  have := rows_north_le h (J := J) (by omega) (by omega)
  have := area_nonneg h (fun i r => I.qmax - I.dq < I.q i r)
  linarith

/-- C145: if the zonal state is so flat next to the pole that the last row before it lies in the first partition, the value in that row
is that of a row further south, up to `e` and two contour intervals. -/
theorem C145_displaced_partial (h : I.Valid) (hz : I.CloseToZonal P e) (hp : P I.jmax - P (I.jmax - 1) + 2 * e < I.dq)
    (hs : (I.placed (I.nd - 1)).isSome = true) : I.qref (I.nd - 1) ≤ P (I.jmax - 2) + e + 2 * I.dq := by
  have hodd := h.odd
  have hnd := h.nd2
  refine C145_upper h hz (by omega) (by omega) hs ?_
  have hpole := (abs_le.1 (C145_pole_row h hz)).2
  unfold qref at hpole
  rw [if_pos rfl] at hpole
  have a1 : I.grid.area (fun _ r => I.jmax - 2 + 1 ≤ r) ≤ I.grid.area (fun i r => I.qmax - I.dq < I.q i r) := by
    refine area_mono h fun i r hm hr => ?_
    have m1 := hz.mono (I.jmax - 1) r (by omega) (by omega) hm.2.2
    have m2 := (abs_le.1 (hz.close i r hm.1.1 hm.1.2 hm.2.1 hm.2.2)).1
    linarith
  have : 0 ≤ I.grid.polarCap (I.grid.latitude (I.nd - 1 + I.nd - 1)) := by
    rw [← h.alat_eq]; exact h.alat_nonneg _
  linarith

theorem ramp_dq : ramp.dq = 2 := by
  unfold dq
  rw [ramp_qmax, ramp_qmin]
  norm_num [ramp]

theorem ramp_zonal : ramp.CloseToZonal (fun r => 2 * (r : ℝ)) 0 where
  mono := by
    intro r s _ h _
    have : (r : ℝ) ≤ s := by exact_mod_cast h
    show 2 * (r : ℝ) ≤ 2 * (s : ℝ)
    linarith
  close := by
    intro i r _ _ _ _
    show |2 * (r : ℝ) - 2 * (r : ℝ)| ≤ 0
    simp

/-- The ramp: the first partition is the row at the pole, so the reference value is that of the row itself. -/
example : ramp.Valid ∧ ramp.CloseToZonal (fun r => 2 * (r : ℝ)) 0 ∧ 2 * ((0 : ℕ) : ℤ) ≤ ramp.nd - 1 ∧
    ramp.dq + 2 * 0 ≤ (fun r : ℤ => 2 * (r : ℝ)) (ramp.jmax - (0 : ℕ)) - (fun r : ℤ => 2 * (r : ℝ)) (ramp.jmax - (0 : ℕ) - 1) := by
  refine ⟨ramp_valid, ramp_zonal, by decide, ?_⟩
  rw [ramp_dq]
  norm_num [ramp]

/-- A ramp that ends one row before the pole, with 25 partitions. -/
def capped : AreaIn := { ramp with q := fun _ j => if j = 5 then 8 else 2 * (j : ℝ), npart := 25 }

theorem capped_qmax : capped.qmax = 8 :=
  maxval_eq (by decide) (by decide) (fun i j _ _ _ h => by
    show (if j = 5 then (8 : ℝ) else 2 * (j : ℝ)) ≤ 8
    split_ifs with hj
    · exact le_rfl
    · have : (j : ℝ) ≤ 4 := by
        have h' : j ≤ 5 := h
        exact_mod_cast (by omega : j ≤ 4)
      linarith) 1 5 (by decide) (by decide) (by norm_num [capped])

theorem capped_qmin : capped.qmin = 2 :=
  minval_eq (by decide) (by decide) (fun i j _ _ h _ => by
    show 2 ≤ (if j = 5 then (8 : ℝ) else 2 * (j : ℝ))
    have : (1 : ℝ) ≤ (j : ℝ) := by exact_mod_cast h
    split_ifs <;> linarith) 1 1 (by decide) (by decide) (by norm_num [capped])

theorem capped_dq : capped.dq = 1 / 4 := by
  unfold dq
  rw [capped_qmax, capped_qmin]
  norm_num [capped, ramp]

theorem capped_valid : capped.Valid where
  imax1 := by decide
  nd2 := by decide
  odd := by rfl
  npart2 := by decide
  dphiEq := by norm_num [capped, ramp]
  dlam := by norm_num [capped, ramp]; ring
  a0 := by norm_num [capped, ramp]
  spread := by rw [capped_qmax, capped_qmin]; norm_num

theorem capped_zonal : capped.CloseToZonal (fun r => if r = 5 then 8 else 2 * (r : ℝ)) 0 where
  mono := by
    intro r s h1 h2 h3
    have h3' : s ≤ 5 := h3
    show (if r = 5 then (8 : ℝ) else 2 * (r : ℝ)) ≤ if s = 5 then 8 else 2 * (s : ℝ)
    split_ifs with a b b
    · exact le_rfl
    · omega
    · have : (r : ℝ) ≤ 4 := by exact_mod_cast (by omega : r ≤ 4)
      linarith
    · have : (r : ℝ) ≤ s := by exact_mod_cast h2
      linarith
  close := by
    intro i r _ _ _ _
    show |(if r = 5 then (8 : ℝ) else 2 * (r : ℝ)) - if r = 5 then 8 else 2 * (r : ℝ)| ≤ 0
    simp

theorem capped_shift : capped.dq + 2 * 0 ≤ (fun r : ℤ => if r = 5 then (8 : ℝ) else 2 * (r : ℝ)) (capped.jmax - (1 : ℕ)) -
    (fun r : ℤ => if r = 5 then (8 : ℝ) else 2 * (r : ℝ)) (capped.jmax - (1 : ℕ) - 1) := by
  rw [capped_dq]
  norm_num [capped, ramp]

/-- Here one row before the pole lies in the first partition: one row is skipped, and the row before the pole is displaced. -/
example : capped.Valid ∧ capped.CloseToZonal (fun r => if r = 5 then 8 else 2 * (r : ℝ)) 0 ∧ 2 * ((1 : ℕ) : ℤ) ≤ capped.nd - 1 ∧
    capped.dq + 2 * 0 ≤ (fun r : ℤ => if r = 5 then (8 : ℝ) else 2 * (r : ℝ)) (capped.jmax - (1 : ℕ)) -
      (fun r : ℤ => if r = 5 then (8 : ℝ) else 2 * (r : ℝ)) (capped.jmax - (1 : ℕ) - 1) ∧
    (fun r : ℤ => if r = 5 then (8 : ℝ) else 2 * (r : ℝ)) capped.jmax -
      (fun r : ℤ => if r = 5 then (8 : ℝ) else 2 * (r : ℝ)) (capped.jmax - 1) + 2 * 0 < capped.dq ∧
    (capped.placed (capped.nd - 1)).isSome = true :=
  ⟨capped_valid, capped_zonal, by decide, capped_shift, by rw [capped_dq]; norm_num [capped, ramp],
    (C145_shift_partial capped_valid capped_zonal (by decide) capped_shift (by decide) (by decide)).1⟩

theorem plateau_zonal : plateau.CloseToZonal (fun r => if r = 1 then 1 else 2) 0 where
  mono := by
    intro r s h1 h2 _
    show (if r = 1 then (1 : ℝ) else 2) ≤ if s = 1 then 1 else 2
    split_ifs
    · norm_num
    · norm_num
    · omega
    · norm_num
  close := by
    intro i r _ _ _ _
    show |(if r = 1 then (1 : ℝ) else 2) - if r = 1 then 1 else 2| ≤ 0
    simp

/-- C145 fails: in the zonal state `capped` the row before the pole has the value of the row south of it. -/
theorem C145_refuted : ¬ C145_Statement := by
  intro H
  have := H capped _ 0 capped_valid capped_zonal 2 (by decide) (by decide)
  have hd := C145_displaced_partial capped_valid capped_zonal (by rw [capped_dq]; norm_num [capped, ramp])
    (C145_shift_partial capped_valid capped_zonal (by decide) capped_shift (by decide) (by decide)).1
  have e1 : capped.nd - 1 = 2 := rfl
  have e2 : capped.jmax - 2 = 3 := rfl
  have e3 : (2 : ℤ) + capped.nd - 1 = 4 := rfl
  rw [e1, e2, capped_dq] at hd
  rw [e3, capped_dq] at this
  have := (abs_le.1 this).1
  norm_num at this hd
  linarith

/-- In the zonal state `plateau` with values 1 and 2 the row is not assigned and the value 0 is returned where the state is 2. -/
theorem C145_unassigned : ¬ |plateau.qref 2 - (fun r : ℤ => if r = 1 then (1 : ℝ) else 2) (2 + plateau.nd - 1)| ≤ 0 + 2 * plateau.dq := by
  intro this
  rw [C49_out_of_range.1] at this
  have hd : plateau.dq = 1 / 4 := by
    unfold dq
    rw [plateau_qmax, plateau_qmin]
    norm_num [plateau, ramp]
  rw [hd] at this
  have e : (2 : ℤ) + plateau.nd - 1 ≠ 1 := by decide
  simp only [e, if_false] at this
  norm_num at this

end AreaIn

/-! ## The classes -/

namespace Atmos

variable {A : Atmos}

/-- The area analysis of level `k` for the Northern Hemisphere. -/
def levelN (A : Atmos) : Scheme → ℤ → AreaIn
  | .nh18, k => A.refN.area k
  | .nhn22, k => A.nhnN.area A.nhnN.pv k

/-- The same for the Southern Hemisphere. -/
def levelS (A : Atmos) : Scheme → ℤ → AreaIn
  | .nh18, k => A.refS.area k
  | .nhn22, k => A.nhn.south.area A.nhn.south.pv k

/-- Grid and planet. -/
structure Regular (A : Atmos) : Prop where
  nlon1 : 1 ≤ A.nlon
  odd : A.nlat = 2 * A.nd - 1
  jb0 : 0 ≤ A.jb
  jd3 : 3 ≤ A.jd
  kmax3 : 3 ≤ A.kmax
  npart2 : 2 ≤ A.npart
  a0 : 0 < A.a
  om0 : A.om ≠ 0

theorem Regular.nd3 (h : A.Regular) : 3 ≤ A.nd := by
  have := h.jd3; have := h.jb0
  unfold jd at *
  omega

theorem Regular.refN (h : A.Regular) : A.refN.Geometry where
  nlon1 := h.nlon1
  jd3 := h.nd3
  kmax3 := h.kmax3
  odd := h.odd
  dphiEq := by show A.dphi = _; unfold dphi; push_cast; rfl

theorem Regular.refS (h : A.Regular) : A.refS.Geometry where
  nlon1 := h.nlon1
  jd3 := h.nd3
  kmax3 := h.kmax3
  odd := h.odd
  dphiEq := by show A.dphi = _; unfold dphi; push_cast; rfl

theorem Regular.nhnN (h : A.Regular) : A.nhnN.Geometry where
  imax1 := h.nlon1
  jb0 := h.jb0
  jd3 := h.jd3
  kmax3 := h.kmax3
  odd := h.odd
  dphiEq := by show A.dphi = _; unfold dphi; push_cast; rfl

theorem Regular.nhnS (h : A.Regular) : A.nhn.south.Geometry := Nhn22.south_geometry (F := A.nhn) h.nhnN

/-- Reference QGPV off the equator, north. -/
theorem qref_north (h : A.Regular) (c : Scheme) {j k : ℤ} (j1 : 2 ≤ j) (j2 : j ≤ A.nd) (hk : 2 ≤ k ∧ k ≤ A.kmax - 1) :
    A.qref c (A.rows - A.nd + j) k = (A.levelN c k).qref j := by
  have hodd := h.odd
  have hc : ¬ (A.nhOnly = false ∧ A.rows - A.nd + j ≤ A.nd) := by
    rintro ⟨h3, h4⟩
    have : A.rows = A.nlat := by unfold rows; rw [h3]; rfl
    omega
  have e2 : 2 * A.om * sin (A.lat (A.outRow (A.rows - A.nd + j))) = A.refN.planet.f j := by
    unfold lat outRow Planet.f Planet.lat
    show _ = 2 * A.om * sin (((j : ℝ) - 1) * A.dphi)
    have : A.nlat - A.rows + (A.rows - A.nd + j) - A.nd = j - 1 := by omega
    rw [this]
    push_cast
    rw [mul_comm A.dphi]
  have st : ∀ x y : ℤ → ℤ → ℝ, A.storeRef A.nd x y (A.rows - A.nd + j) k = x j k := by
    intro x y
    unfold storeRef
    rw [if_neg hc, if_pos (by omega)]
    congr 1
    ring
  unfold qref
  rw [mul_assoc, mul_assoc, ← mul_assoc 2, e2]
  cases c
  · show A.storeRef A.nd A.refN.qref A.refS.qref _ k * _ = _
    rw [st]
    exact (RefIn.C117_qgpv_nh18 h.refN h.om0).1 j k j1 j2 hk.1 hk.2
  · show A.storeRef A.nd A.nhnN.qrefOut A.nhn.south.qrefOut _ k * _ = _
    rw [st]
    exact (NhnIn.C117_qgpv_nhn22 h.nhnN h.om0).1 j k j1 j2 hk.1 hk.2

/-- Reference QGPV off the equator, south: row `g` of the array is row `nd + 1 - g` of the southern call, with the sign changed. -/
theorem qref_south (h : A.Regular) (hg : A.nhOnly = false) (c : Scheme) {g k : ℤ} (g1 : 1 ≤ g) (g2 : g < A.nd)
    (hk : 2 ≤ k ∧ k ≤ A.kmax - 1) : A.qref c g k = -(A.levelS c k).qref (A.nd + 1 - g) := by
  have hodd := h.odd
  have e2 : 2 * A.om * sin (A.lat (A.outRow g)) = -A.refS.planet.f (A.nd + 1 - g) := by
    unfold lat outRow Planet.f Planet.lat
    show _ = -(2 * A.om * sin ((((A.nd + 1 - g : ℤ) : ℝ) - 1) * A.dphi))
    have hr : A.rows = A.nlat := by unfold rows; rw [hg]; rfl
    rw [hr, show A.nlat - A.nlat + g - A.nd = -(A.nd - g) by ring]
    push_cast
    rw [show A.dphi * -((A.nd : ℝ) - g) = -(((A.nd : ℝ) + 1 - g - 1) * A.dphi) by ring, sin_neg]
    ring
  have st : ∀ x y : ℤ → ℤ → ℝ, A.storeRef A.nd x y g k = y (A.nd + 1 - g) k := by
    intro x y
    unfold storeRef
    rw [if_pos ⟨hg, g2.le⟩]
  unfold qref
  rw [mul_assoc, mul_assoc, ← mul_assoc 2, e2, mul_neg]
  congr 1
  cases c
  · show A.storeRef A.nd A.refN.qref A.refS.qref _ k * _ = _
    rw [st]
    exact (RefIn.C117_qgpv_nh18 h.refS h.om0).1 _ k (by omega) (by show A.nd + 1 - g ≤ A.nd; omega) hk.1 hk.2
  · show A.storeRef A.nd A.nhnN.qrefOut A.nhn.south.qrefOut _ k * _ = _
    rw [st]
    exact (NhnIn.C117_qgpv_nhn22 h.nhnS h.om0).1 _ k (by omega) (by show A.nd + 1 - g ≤ A.nd; omega) hk.1 hk.2

/-- The QGPV of level `k` is within `e` of a zonal state that does not decrease from south to north, and is not constant. -/
structure CloseToZonal (A : Atmos) (c : Scheme) (k : ℤ) (P : ℤ → ℝ) (e : ℝ) : Prop where
  mono : ∀ r s, 1 ≤ r → r ≤ s → s ≤ A.nlat → P r ≤ P s
  close : ∀ i r, 1 ≤ i → i ≤ A.nlon → 1 ≤ r → r ≤ A.nlat → |A.qgpv c i r k - P r| ≤ e
  spread : ∃ i r i' r', (1 ≤ i ∧ i ≤ A.nlon) ∧ (1 ≤ r ∧ r ≤ A.nlat) ∧ (1 ≤ i' ∧ i' ≤ A.nlon) ∧ (1 ≤ r' ∧ r' ≤ A.nlat) ∧
    A.qgpv c i r k < A.qgpv c i' r' k

/-- The contour interval of level `k`: the range of the QGPV over the number of intervals, `npart - 1` or `nlat - 1`. -/
def interval (A : Atmos) (c : Scheme) (k : ℤ) : ℝ := (A.levelN c k).dq

variable {c : Scheme} {k : ℤ} {P : ℤ → ℝ} {e : ℝ}

theorem levelN_field (c : Scheme) (k i r : ℤ) : (A.levelN c k).q i r = A.qgpv c i r k := by cases c <;> rfl

theorem levelS_field (c : Scheme) (k i r : ℤ) : (A.levelS c k).q i r = -A.qgpv c i (A.nlat + 1 - r) k := by cases c <;> rfl

theorem levelN_dims (c : Scheme) (k : ℤ) : (A.levelN c k).imax = A.nlon ∧ (A.levelN c k).jmax = A.nlat ∧ (A.levelN c k).nd = A.nd := by
  cases c <;> exact ⟨rfl, rfl, rfl⟩

theorem levelS_dims (c : Scheme) (k : ℤ) : (A.levelS c k).imax = A.nlon ∧ (A.levelS c k).jmax = A.nlat ∧ (A.levelS c k).nd = A.nd := by
  cases c <;> exact ⟨rfl, rfl, rfl⟩

theorem CloseToZonal.north (hz : A.CloseToZonal c k P e) : (A.levelN c k).CloseToZonal P e := by
  obtain ⟨d1, d2, _⟩ := levelN_dims (A := A) c k
  refine ⟨?_, ?_⟩
  · rw [d2]; exact hz.mono
  · rw [d1, d2]
    intro i r i1 i2 r1 r2
    rw [levelN_field]
    exact hz.close i r i1 i2 r1 r2

theorem CloseToZonal.south (hz : A.CloseToZonal c k P e) : (A.levelS c k).CloseToZonal (fun r => -P (A.nlat + 1 - r)) e := by
  obtain ⟨d1, d2, _⟩ := levelS_dims (A := A) c k
  refine ⟨?_, ?_⟩
  · rw [d2]
    intro r s r1 rs s2
    have := hz.mono (A.nlat + 1 - s) (A.nlat + 1 - r) (by omega) (by omega) (by omega)
    show -P _ ≤ -P _
    linarith
  · rw [d1, d2]
    intro i r i1 i2 r1 r2
    rw [levelS_field]
    have := hz.close i (A.nlat + 1 - r) i1 i2 (by omega) (by omega)
    rw [show -A.qgpv c i (A.nlat + 1 - r) k - -P (A.nlat + 1 - r) = -(A.qgpv c i (A.nlat + 1 - r) k - P (A.nlat + 1 - r)) by ring, abs_neg]
    exact this

theorem CloseToZonal.validN (h : A.Regular) (hz : A.CloseToZonal c k P e) : (A.levelN c k).Valid := by
  have hn := h.nd3
  have hodd := h.odd
  have hl := h.nlon1
  have hsp : (A.levelN c k).qmin < (A.levelN c k).qmax := by
    obtain ⟨i, r, i', r', hi, hr, hi', hr', hlt⟩ := hz.spread
    obtain ⟨d1, d2, _⟩ := levelN_dims (A := A) c k
    have a := (minval_spec (A := (A.levelN c k).q) (m := (A.levelN c k).imax) (n := (A.levelN c k).jmax) (by omega) (by omega)).1
      i r hi.1 (by omega) hr.1 (by omega)
    have b := (maxval_spec (A := (A.levelN c k).q) (m := (A.levelN c k).imax) (n := (A.levelN c k).jmax) (by omega) (by omega)).1
      i' r' hi'.1 (by omega) hr'.1 (by omega)
    rw [levelN_field] at a b
    unfold AreaIn.qmin AreaIn.qmax
    linarith
  cases c
  · exact ⟨hl, by show 2 ≤ A.nd; omega, hodd, h.npart2, rfl, rfl, h.a0, hsp⟩
  · exact ⟨hl, by show 2 ≤ A.nd; omega, hodd, by show 2 ≤ A.nlat; omega, rfl, rfl, h.a0, hsp⟩

theorem CloseToZonal.validS (h : A.Regular) (hz : A.CloseToZonal c k P e) : (A.levelS c k).Valid := by
  have hn := h.nd3
  have hodd := h.odd
  have hl := h.nlon1
  have hsp : (A.levelS c k).qmin < (A.levelS c k).qmax := by
    obtain ⟨i, r, i', r', hi, hr, hi', hr', hlt⟩ := hz.spread
    obtain ⟨d1, d2, _⟩ := levelS_dims (A := A) c k
    have a := (minval_spec (A := (A.levelS c k).q) (m := (A.levelS c k).imax) (n := (A.levelS c k).jmax) (by omega) (by omega)).1
      i' (A.nlat + 1 - r') hi'.1 (by omega) (by omega) (by omega)
    have b := (maxval_spec (A := (A.levelS c k).q) (m := (A.levelS c k).imax) (n := (A.levelS c k).jmax) (by omega) (by omega)).1
      i (A.nlat + 1 - r) hi.1 (by omega) (by omega) (by omega)
    rw [levelS_field, show A.nlat + 1 - (A.nlat + 1 - r') = r' by ring] at a
    rw [levelS_field, show A.nlat + 1 - (A.nlat + 1 - r) = r by ring] at b
    unfold AreaIn.qmin AreaIn.qmax
    linarith
  cases c
  · exact ⟨hl, by show 2 ≤ A.nd; omega, hodd, h.npart2, rfl, rfl, h.a0, hsp⟩
  · exact ⟨hl, by show 2 ≤ A.nd; omega, hodd, by show 2 ≤ A.nlat; omega, rfl, rfl, h.a0, hsp⟩

/-- Both hemispheres use the same contour interval. -/
theorem interval_south (h : A.Regular) (c : Scheme) (k : ℤ) : (A.levelS c k).dq = A.interval c k := by
  have hn := h.nd3
  have hodd := h.odd
  have hl := h.nlon1
  obtain ⟨d1, d2, _⟩ := levelS_dims (A := A) c k
  obtain ⟨n1, n2, _⟩ := levelN_dims (A := A) c k
  obtain ⟨a1, a⟩ := minval_spec (A := (A.levelN c k).q) (m := (A.levelN c k).imax) (n := (A.levelN c k).jmax) (by omega) (by omega)
  obtain ⟨b1, b⟩ := maxval_spec (A := (A.levelN c k).q) (m := (A.levelN c k).imax) (n := (A.levelN c k).jmax) (by omega) (by omega)
  obtain ⟨ai, aj, ai1, ai2, aj1, aj2, aq⟩ := a
  obtain ⟨bi, bj, bi1, bi2, bj1, bj2, bq⟩ := b
  have f1 : (A.levelS c k).qmax = -(A.levelN c k).qmin := by
    refine maxval_eq (by omega) (by omega) (fun i j i1 i2 j1 j2 => ?_) ai (A.nlat + 1 - aj) ⟨by omega, by omega⟩ ⟨by omega, by omega⟩ ?_
    · have := a1 i (A.nlat + 1 - j) i1 (by omega) (by omega) (by omega)
      rw [levelN_field] at this
      rw [levelS_field]
      unfold AreaIn.qmin
      linarith
    · rw [levelS_field, show A.nlat + 1 - (A.nlat + 1 - aj) = aj by ring, ← levelN_field, aq]
      rfl
  have f2 : (A.levelS c k).qmin = -(A.levelN c k).qmax := by
    refine minval_eq (by omega) (by omega) (fun i j i1 i2 j1 j2 => ?_) bi (A.nlat + 1 - bj) ⟨by omega, by omega⟩ ⟨by omega, by omega⟩ ?_
    · have := b1 i (A.nlat + 1 - j) i1 (by omega) (by omega) (by omega)
      rw [levelN_field] at this
      rw [levelS_field]
      unfold AreaIn.qmax
      linarith
    · rw [levelS_field, show A.nlat + 1 - (A.nlat + 1 - bj) = bj by ring, ← levelN_field, bq]
      rfl
  have f3 : (A.levelS c k).npart = (A.levelN c k).npart := by cases c <;> rfl
  unfold interval AreaIn.dq
  rw [f1, f2, f3]
  congr 1
  ring

/-- C145 for both classes, Northern Hemisphere: the property `qref` of a nearly zonal level, between the equator and the pole. -/
theorem C145_north_partial (h : A.Regular) (hz : A.CloseToZonal c k P e) (hk : 2 ≤ k ∧ k ≤ A.kmax - 1) {s : ℕ}
    (hs : 2 * (s : ℤ) ≤ A.nd - 1) (hp : A.interval c k + 2 * e ≤ P (A.nlat - s) - P (A.nlat - s - 1)) {j : ℤ} (j1 : 2 ≤ j)
    (j2 : j < A.nd) :
    P (A.nd - 1 + j - s) - e ≤ A.qref c (A.rows - A.nd + j) k ∧
      A.qref c (A.rows - A.nd + j) k ≤ P (A.nd - 1 + j) + e + 2 * A.interval c k := by
  obtain ⟨d1, d2, d3⟩ := levelN_dims (A := A) c k
  have := AreaIn.C145_shift_partial (hz.validN h) hz.north (s := s) (by omega) (by rw [d2]; exact hp) (j := j) (by omega) (by omega)
  rw [qref_north h c j1 j2.le hk]
  rw [d3, show j + A.nd - 1 = A.nd - 1 + j by ring] at this
  exact this.2

/-- C145 for both classes, Southern Hemisphere. -/
theorem C145_south_partial (h : A.Regular) (hg : A.nhOnly = false) (hz : A.CloseToZonal c k P e) (hk : 2 ≤ k ∧ k ≤ A.kmax - 1) {s : ℕ}
    (hs : 2 * (s : ℤ) ≤ A.nd - 1) (hp : A.interval c k + 2 * e ≤ P (s + 2) - P (s + 1)) {g : ℤ} (g1 : 1 < g) (g2 : g < A.nd) :
    P g - e - 2 * A.interval c k ≤ A.qref c g k ∧ A.qref c g k ≤ P (g + s) + e := by
  obtain ⟨d1, d2, d3⟩ := levelS_dims (A := A) c k
  have hodd := h.odd
  have := AreaIn.C145_shift_partial (hz.validS h) hz.south (s := s) (by omega) (by
    rw [d2, interval_south h]
    show A.interval c k + 2 * e ≤ -P (A.nlat + 1 - (A.nlat - s)) - -P (A.nlat + 1 - (A.nlat - s - 1))
    rw [show A.nlat + 1 - (A.nlat - (s : ℤ)) = s + 1 by ring, show A.nlat + 1 - (A.nlat - (s : ℤ) - 1) = s + 2 by ring]
    linarith) (j := A.nd + 1 - g) (by omega) (by omega)
  rw [qref_south h hg c (by omega) g2 hk]
  rw [d3, interval_south h, show A.nd + 1 - g + A.nd - 1 = A.nlat + 1 - g by omega] at this
  obtain ⟨_, l, u⟩ := this
  have e1 : A.nlat + 1 - (A.nlat + 1 - g - (s : ℤ)) = g + s := by ring
  have e2 : A.nlat + 1 - (A.nlat + 1 - g) = g := by ring
  simp only [e1, e2] at l u
  constructor <;> linarith

theorem Regular.valid (h : A.Regular) (c : Scheme) : (A.analysis c).Valid := by
  have h3 := h.jd3
  have e : A.jd = A.nd - A.jb := rfl
  exact ⟨h.odd, h.jb0, by show A.jb + 2 ≤ A.nd; omega, rfl, h.a0.le⟩

/-- C145, wave activity, Northern Hemisphere: if moreover the zonal state rises northward by at least `γ` times the width of a row, the
local wave activity is at most `ε² / γ` and `ε` times the width of the row, where `ε` is twice the distance from the zonal state plus
the error of the reference state. -/
theorem C145_wave_north_partial (h : A.Regular) (hz : A.CloseToZonal c k P e) (hk : 2 ≤ k ∧ k ≤ A.kmax - 1) {s : ℕ}
    (hs : 2 * (s : ℤ) ≤ A.nd - 1) (hp : A.interval c k + 2 * e ≤ P (A.nlat - s) - P (A.nlat - s - 1)) {γ : ℝ} (hγ : 0 < γ)
    (hP : ∀ r, A.nd ≤ r → r < A.nlat → γ * (A.analysis c).rowWeight r ≤ P (r + 1) - P r ∧
      γ * (A.analysis c).rowWeight (r + 1) ≤ P (r + 1) - P r) {i j : ℤ} (hi : 1 ≤ i ∧ i ≤ A.nlon) (j1 : 2 ≤ j) (jb : A.jb < j) (j2 : j < A.nd)
    {ε : ℝ} (hε : ε = 2 * e + max (2 * A.interval c k) (P (A.nd - 1 + j) - P (A.nd - 1 + j - s))) :
    (A.analysis c).lwa i (A.rows - A.nd + j) k ≤ ε ^ 2 / γ + ε * (A.analysis c).rowWeight (A.nd - 1 + j) := by
  have hodd := h.odd
  obtain ⟨l, u⟩ := C145_north_partial h hz hk hs hp j1 j2
  set Q := A.qref c (A.rows - A.nd + j) k with hQ
  have ho : (A.analysis c).outRow (A.rows - A.nd + j) = A.nd - 1 + j := by
    show A.nlat - A.rows + (A.rows - A.nd + j) = _
    omega
  have hd : |Q - P (A.nd - 1 + j)| ≤ e + max (2 * A.interval c k) (P (A.nd - 1 + j) - P (A.nd - 1 + j - s)) := by
    have m1 := le_max_left (2 * A.interval c k) (P (A.nd - 1 + j) - P (A.nd - 1 + j - s))
    have m2 := le_max_right (2 * A.interval c k) (P (A.nd - 1 + j) - P (A.nd - 1 + j - s))
    rw [abs_le]
    constructor <;> linarith
  have := QGAnalysis.C128_qg_north_upper (h.valid c) i (A.rows - A.nd + j) k hi hk
    (by rw [ho]; show A.nd + A.jb ≤ A.nd - 1 + j ∧ A.nd - 1 + j < A.nlat; omega)
    (by
      show A.nhOnly = true ∨ A.nd < A.rows - A.nd + j
      by_cases hn : A.nhOnly = true
      · exact Or.inl hn
      · right
        have : A.rows = A.nlat := by unfold rows; rw [if_neg hn]
        omega)
    (fun r => P r + (Q - P (A.nd - 1 + j))) (by rw [ho]; show P (A.nd - 1 + j) + (Q - P (A.nd - 1 + j)) = Q; ring) (ε := ε) hγ
    (fun r r1 r2 => by
      have c1 := hz.close i r hi.1 hi.2 (by have := h.nd3; change A.nd ≤ r at r1; omega) r2
      show |A.qgpv c i r k - (P r + (Q - P (A.nd - 1 + j)))| ≤ ε
      rw [show A.qgpv c i r k - (P r + (Q - P (A.nd - 1 + j))) = (A.qgpv c i r k - P r) - (Q - P (A.nd - 1 + j)) by ring]
      have := abs_sub (A.qgpv c i r k - P r) (Q - P (A.nd - 1 + j))
      linarith)
    (fun r r1 r2 => by
      have := hP r r1 r2
      constructor
      · show _ ≤ P (r + 1) + _ - (P r + _)
        linarith [this.1]
      · show _ ≤ P (r + 1) + _ - (P r + _)
        linarith [this.2])
  rw [ho] at this
  exact this

/-- C145, wave activity, Southern Hemisphere. -/
theorem C145_wave_south_partial (h : A.Regular) (hg : A.nhOnly = false) (hz : A.CloseToZonal c k P e) (hk : 2 ≤ k ∧ k ≤ A.kmax - 1)
    {s : ℕ} (hs : 2 * (s : ℤ) ≤ A.nd - 1) (hp : A.interval c k + 2 * e ≤ P (s + 2) - P (s + 1)) {γ : ℝ} (hγ : 0 < γ)
    (hP : ∀ r, 1 ≤ r → r < A.nd → γ * (A.analysis c).rowWeight r ≤ P (r + 1) - P r ∧
      γ * (A.analysis c).rowWeight (r + 1) ≤ P (r + 1) - P r) {i g : ℤ} (hi : 1 ≤ i ∧ i ≤ A.nlon) (g1 : 1 < g) (g2 : g < A.nd)
    (gb : g ≤ A.nd - A.jb) {ε : ℝ} (hε : ε = 2 * e + max (2 * A.interval c k) (P (g + s) - P g)) :
    (A.analysis c).lwa i g k ≤ ε ^ 2 / γ + ε * (A.analysis c).rowWeight g := by
  have hodd := h.odd
  obtain ⟨l, u⟩ := C145_south_partial h hg hz hk hs hp g1 g2
  set Q := A.qref c g k with hQ
  have hd : |Q - P g| ≤ e + max (2 * A.interval c k) (P (g + s) - P g) := by
    have m1 := le_max_left (2 * A.interval c k) (P (g + s) - P g)
    have m2 := le_max_right (2 * A.interval c k) (P (g + s) - P g)
    rw [abs_le]
    constructor <;> linarith
  exact QGAnalysis.C128_qg_south_upper (h.valid c) hg i g k hi hk ⟨g1, gb⟩
    (fun r => P r + (Q - P g)) (by show P g + (Q - P g) = Q; ring) (ε := ε) hγ
    (fun r r1 r2 => by
      have c1 := hz.close i r hi.1 hi.2 r1 (by change r ≤ A.nd at r2; have := h.nd3; omega)
      show |A.qgpv c i r k - (P r + (Q - P g))| ≤ ε
      rw [show A.qgpv c i r k - (P r + (Q - P g)) = (A.qgpv c i r k - P r) - (Q - P g) by ring]
      have := abs_sub (A.qgpv c i r k - P r) (Q - P g)
      linarith)
    (fun r r1 r2 => by
      have := hP r r1 r2
      constructor
      · show _ ≤ P (r + 1) + _ - (P r + _)
        linarith [this.1]
      · show _ ≤ P (r + 1) + _ - (P r + _)
        linarith [this.2])

/-! ### A sample: air at rest -/

/-- The calm atmosphere, analysed up to the equator. -/
def calmer : Atmos := { calm with jb := 0 }

theorem calmer_pv (i j : ℤ) (h1 : 1 ≤ j) (h2 : j ≤ 5) :
    calmer.qgpv .nhn22 i j 2 = if j ≤ 2 then -√2 else if j = 3 then 0 else √2 := calm_value i j h1 h2

theorem calmer_regular : calmer.Regular where
  nlon1 := by decide
  odd := by decide
  jb0 := by decide
  jd3 := by decide
  kmax3 := by decide
  npart2 := by decide
  a0 := by show (0 : ℝ) < 1; norm_num
  om0 := by show (1 : ℝ) ≠ 0; norm_num

/-- A zonal state close to its QGPV that rises up to both poles. -/
def calmState (r : ℤ) : ℝ := if r ≤ 1 then -√2 - 1 / 4 else if r = 2 then -√2 else if r = 3 then 0 else if r = 4 then √2 else √2 + 1 / 4

theorem sqrt2_bounds : 7 / 5 ≤ √2 ∧ √2 ≤ 3 / 2 := by
  constructor
  · exact le_sqrt_of_sq_le (by norm_num)
  · exact sqrt_le_iff.2 ⟨by norm_num, by norm_num⟩

theorem calmer_zonal : calmer.CloseToZonal .nhn22 2 calmState (1 / 4) where
  mono := by
    intro r s _ h _
    have := sqrt2_bounds
    unfold calmState
    split_ifs <;> first | omega | linarith
  close := by
    intro i r _ _ h1 h2
    have h2' : r ≤ 5 := h2
    rw [calmer_pv i r h1 h2']
    unfold calmState
    have hr : r = 1 ∨ r = 2 ∨ r = 3 ∨ r = 4 ∨ r = 5 := by omega
    rcases hr with rfl | rfl | rfl | rfl | rfl <;> norm_num
  spread := by
    refine ⟨1, 1, 1, 5, by decide, by decide, by decide, by decide, ?_⟩
    rw [calmer_pv 1 1 (by decide) (by decide), calmer_pv 1 5 (by decide) (by decide)]
    have := sqrt2_bounds
    norm_num

theorem calmer_interval : calmer.interval .nhn22 2 = √2 / 2 := by
  show ((calm.nhnN.area (calm.qgpv .nhn22) 2).qmax - (calm.nhnN.area (calm.qgpv .nhn22) 2).qmin) / ((5 - 1 : ℤ) : ℝ) = _
  rw [calm_qmax, calm_qmin]
  norm_num
  ring

theorem calmer_weight (r : ℤ) : (calmer.analysis .nhn22).rowWeight r ≤ 4 / 5 := by
  have hd : (calmer.analysis .nhn22).dphi ≤ 4 / 5 := by
    show π / ((5 - 1 : ℤ) : ℝ) ≤ _
    have := pi_lt_d2
    norm_num
    linarith
  have hd0 : 0 ≤ (calmer.analysis .nhn22).dphi := by
    show 0 ≤ π / ((5 - 1 : ℤ) : ℝ)
    have := pi_pos
    norm_num
    linarith
  show (1 : ℝ) * cos _ * (calmer.analysis .nhn22).dphi ≤ _
  have := cos_le_one ((calmer.analysis .nhn22).lat r)
  nlinarith

/-- The hypotheses of the four theorems hold for air at rest: two rows next to each pole have the extreme value, so `s = 1`. -/
example : calmer.Regular ∧ calmer.nhOnly = false ∧ calmer.CloseToZonal .nhn22 2 calmState (1 / 4) ∧ (2 ≤ (2 : ℤ) ∧ 2 ≤ calmer.kmax - 1) ∧
    2 * ((1 : ℕ) : ℤ) ≤ calmer.nd - 1 ∧
    calmer.interval .nhn22 2 + 2 * (1 / 4) ≤ calmState (calmer.nlat - (1 : ℕ)) - calmState (calmer.nlat - (1 : ℕ) - 1) ∧
    calmer.interval .nhn22 2 + 2 * (1 / 4) ≤ calmState (((1 : ℕ) : ℤ) + 2) - calmState (((1 : ℕ) : ℤ) + 1) ∧ (0 : ℝ) < 1 / 4 ∧
    (∀ r, 1 ≤ r → r < calmer.nlat → 1 / 4 * (calmer.analysis .nhn22).rowWeight r ≤ calmState (r + 1) - calmState r ∧
      1 / 4 * (calmer.analysis .nhn22).rowWeight (r + 1) ≤ calmState (r + 1) - calmState r) ∧
    (calmer.jb < 2 ∧ (2 : ℤ) < calmer.nd ∧ (2 : ℤ) ≤ calmer.nd - calmer.jb) := by
  have hb := sqrt2_bounds
  refine ⟨calmer_regular, rfl, calmer_zonal, by decide, by decide, ?_, ?_, by norm_num, ?_, by decide⟩
  · rw [calmer_interval, show calmer.nlat - ((1 : ℕ) : ℤ) = 4 by decide, show (4 : ℤ) - 1 = 3 by norm_num]
    unfold calmState
    norm_num
    linarith
  · rw [calmer_interval]
    unfold calmState
    norm_num
    linarith
  · intro r r1 r2
    have r2' : r < 5 := r2
    have w1 := calmer_weight r
    have w2 := calmer_weight (r + 1)
    have hstep : 1 / 4 ≤ calmState (r + 1) - calmState r := by
      unfold calmState
      have hr : r = 1 ∨ r = 2 ∨ r = 3 ∨ r = 4 := by omega
      rcases hr with rfl | rfl | rfl | rfl <;> norm_num <;> linarith
    constructor <;> linarith

end Atmos

end Falwa
