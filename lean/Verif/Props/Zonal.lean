import Verif.Props.Stability
import Verif.Props.Minimal
import Verif.Props.Quadratic

/-!
# C144: the reference profile of a nearly zonal state

`BarotropicField` with default areas on a regular grid. The cells of the rows south of row `j` cover at most the cap south of row `j`, and
more than that together with row `j` itself. So the contour that belongs to row `j` is the value of a zonal state in row `j`.
-/

noncomputable section

namespace Falwa

open Finset Spec

/-! ## Areas of the rows of a regular grid -/

/-- `sin x * cos x < x`. -/
theorem sin_mul_cos_lt {x : ℝ} (h : 0 < x) : Real.sin x * Real.cos x < x := by
  have := Real.sin_lt (show 0 < 2 * x by linarith)
  rw [Real.sin_two_mul] at this
  linarith

/-- The sum of the sines of the rows below `j`, times the spacing. -/
theorem rows_closed (n j : ℕ) :
    Real.sin (Real.pi / n / 2) * ((∑ r ∈ range j, Real.sin (r * (Real.pi / n))) * (Real.pi / n)) =
      Real.pi / n / 2 * (Real.cos (Real.pi / n / 2) * (1 - Real.cos (j * (Real.pi / n))) -
        Real.sin (Real.pi / n / 2) * Real.sin (j * (Real.pi / n))) := by
  have hS := sum_sin_telescope (Real.pi / n) j
  have e : ((j : ℝ) - 1 / 2) * (Real.pi / n) = j * (Real.pi / n) - Real.pi / n / 2 := by ring
  rw [e, Real.cos_sub] at hS
  linear_combination (Real.pi / n / 2) * hS

theorem half_step {n : ℕ} (hn : 2 ≤ n) :
    0 < Real.pi / n / 2 ∧ Real.pi / n / 2 < Real.pi / 2 ∧ 0 < Real.sin (Real.pi / n / 2) ∧ 0 < Real.cos (Real.pi / n / 2) := by
  have hpi := Real.pi_pos
  have hn0 : (0 : ℝ) < n := by exact_mod_cast (by omega : 0 < n)
  have hn2 : (2 : ℝ) ≤ n := by exact_mod_cast hn
  have h1 : 0 < Real.pi / n / 2 := by positivity
  have h2 : Real.pi / n / 2 < Real.pi / 2 := by
    have : Real.pi / n < Real.pi := by rw [div_lt_iff₀ hn0]; nlinarith
    linarith
  exact ⟨h1, h2, Real.sin_pos_of_pos_of_lt_pi h1 (by linarith), Real.cos_pos_of_mem_Ioo ⟨by linarith, h2⟩⟩

/-- The rows below `j` cover at most the cap below row `j`. -/
theorem rows_le_cap {n j : ℕ} (hn : 2 ≤ n) (hj : j ≤ n) :
    (∑ r ∈ range j, Real.sin (r * (Real.pi / n))) * (Real.pi / n) ≤ 1 - Real.cos (j * (Real.pi / n)) := by
  obtain ⟨h1, h2, hs, hc⟩ := half_step hn
  have key := rows_closed n j
  have hpi := Real.pi_pos
  have hn0 : (0 : ℝ) < n := by exact_mod_cast (by omega : 0 < n)
  have htan := Real.le_tan h1.le h2
  rw [Real.tan_eq_sin_div_cos, le_div_iff₀ hc] at htan
  have hsj : 0 ≤ Real.sin (j * (Real.pi / n)) := by
    apply Real.sin_nonneg_of_nonneg_of_le_pi (by positivity)
    have : (j : ℝ) ≤ n := by exact_mod_cast hj
    rw [← mul_div_assoc, div_le_iff₀ hn0]; nlinarith
  have hcj : 0 ≤ 1 - Real.cos (j * (Real.pi / n)) := by linarith [Real.cos_le_one (j * (Real.pi / n))]
  refine le_of_mul_le_mul_left ?_ hs
  rw [key]
  have a1 := mul_le_mul_of_nonneg_right htan hcj
  have a2 : 0 ≤ Real.pi / n / 2 * (Real.sin (Real.pi / n / 2) * Real.sin (j * (Real.pi / n))) := by positivity
  linarith

/-- The rows up to `j` cover more than the cap below row `j`. -/
theorem cap_lt_rows {n j : ℕ} (hn : 2 ≤ n) (hj0 : 1 ≤ j) (hj : j < n) :
    1 - Real.cos (j * (Real.pi / n)) < (∑ r ∈ range (j + 1), Real.sin (r * (Real.pi / n))) * (Real.pi / n) := by
  obtain ⟨h1, h2, hs, hc⟩ := half_step hn
  have key := rows_closed n j
  have hpi := Real.pi_pos
  have hn0 : (0 : ℝ) < n := by exact_mod_cast (by omega : 0 < n)
  rw [sum_range_succ, add_mul]
  -- the tangent of half the polar angle of row j is at most that of the last row but one
  set x := Real.pi / n / 2 with hx
  have hstep : Real.pi / n = 2 * x := by rw [hx]; ring
  rw [hstep] at key ⊢
  set y : ℝ := j * x with hy
  have ey : (j : ℝ) * (2 * x) = 2 * y := by rw [hy]; ring
  rw [ey] at key ⊢
  have hnx : (n : ℝ) * x = Real.pi / 2 := by rw [hx]; field_simp
  have hy1 : x ≤ y := by
    have : (1 : ℝ) ≤ j := by exact_mod_cast hj0
    nlinarith
  have hy2 : y ≤ Real.pi / 2 - x := by
    have : (j : ℝ) + 1 ≤ n := by exact_mod_cast hj
    nlinarith
  have hsy : 0 < Real.sin y := Real.sin_pos_of_pos_of_lt_pi (by linarith) (by linarith)
  have hcy : Real.sin x ≤ Real.cos y := by
    have := Real.cos_le_cos_of_nonneg_of_le_pi (x := y) (y := Real.pi / 2 - x) (by linarith) (by linarith) hy2
    rwa [Real.cos_pi_div_two_sub] at this
  have hsy1 : Real.sin y ≤ Real.cos x := by
    have := Real.sin_le_sin_of_le_of_le_pi_div_two (x := y) (y := Real.pi / 2 - x) (by linarith) (by linarith) hy2
    rwa [Real.sin_pi_div_two_sub] at this
  refine lt_of_mul_lt_mul_left ?_ hs.le
  rw [mul_add, key, Real.cos_two_mul', Real.sin_two_mul]
  have hcos := Real.cos_sq_add_sin_sq y
  have e1 : 1 - (Real.cos y ^ 2 - Real.sin y ^ 2) = 2 * Real.sin y ^ 2 := by linarith
  rw [e1]
  -- divide by 2 sin y
  have hmain : (Real.sin x - x * Real.cos x) * Real.sin y < x * Real.sin x * Real.cos y := by
    have hsx := sin_mul_cos_lt h1
    have hd : 0 ≤ Real.sin x - x * Real.cos x := by
      have htan := Real.le_tan h1.le h2
      rw [Real.tan_eq_sin_div_cos, le_div_iff₀ hc] at htan
      linarith
    calc (Real.sin x - x * Real.cos x) * Real.sin y ≤ (Real.sin x - x * Real.cos x) * Real.cos x :=
          mul_le_mul_of_nonneg_left hsy1 hd
      _ < x * Real.sin x * Real.sin x := by
          have := Real.cos_sq_add_sin_sq x
          nlinarith
      _ ≤ x * Real.sin x * Real.cos y := mul_le_mul_of_nonneg_left hcy (by positivity)
  nlinarith [mul_pos (sub_pos.2 hmain) hsy]

/-! ## The contour of a nearly zonal field -/

/-- A field within `e` of a zonal state that does not decrease with latitude. -/
def NearZonal (nlat nlon : ℕ) (q : ℕ → ℕ → ℝ) (P : ℕ → ℝ) (e : ℝ) : Prop :=
  (∀ r s, r ≤ s → s < nlat → P r ≤ P s) ∧ ∀ r < nlat, ∀ c < nlon, |q r c - P r| ≤ e

variable {nlat nlon : ℕ} {q area : ℕ → ℕ → ℝ} {P : ℕ → ℝ} {e : ℝ}

/-- If the area lies between those of the rows below `j` and up to `j`, the contour is the value of the zonal state in row `j` up to
the distance of the field from the zonal state. -/
theorem NearZonal.contour (h : NearZonal nlat nlon q P e) (ha : ∀ r < nlat, ∀ c < nlon, 0 ≤ area r c) {j : ℕ} (hj : j < nlat) {T v : ℝ}
    (h1 : ∑ r ∈ range j, ∑ c ∈ range nlon, area r c ≤ T) (h2 : T < ∑ r ∈ range (j + 1), ∑ c ∈ range nlon, area r c)
    (hv : IsContour nlat nlon q area T v) : |v - P j| ≤ e := by
  rw [abs_le]
  constructor
  · by_contra hlt
    push Not at hlt
    have : areaUpTo nlat nlon q area v ≤ ∑ r ∈ range j, ∑ c ∈ range nlon, area r c := by
      unfold areaUpTo
      have hs : range j ⊆ range nlat := range_subset_range.2 hj.le
      rw [← sum_subset hs (f := fun r => ∑ c ∈ range nlon, if q r c ≤ v then area r c else 0)]
      · refine sum_le_sum fun r hr => sum_le_sum fun c hc => ?_
        split_ifs
        · exact le_rfl
        · exact ha r (lt_trans (mem_range.1 hr) hj) c (mem_range.1 hc)
      · intro r hr hrj
        refine sum_eq_zero fun c hc => if_neg ?_
        have := h.1 j r (not_lt.1 fun h => hrj (mem_range.2 h)) (mem_range.1 hr)
        have := (abs_le.1 (h.2 r (mem_range.1 hr) c (mem_range.1 hc))).1
        linarith
    linarith [hv.2]
  · by_contra hlt
    push Not at hlt
    have : ∑ r ∈ range (j + 1), ∑ c ∈ range nlon, area r c ≤ areaBelow nlat nlon q area v := by
      unfold areaBelow
      have hs : range (j + 1) ⊆ range nlat := range_subset_range.2 hj
      refine le_trans (sum_le_sum fun r hr => sum_le_sum fun c hc => ?_) (sum_le_sum_of_subset_of_nonneg hs fun r hr _ =>
        sum_nonneg fun c hc => ?_)
      · have hr' : r < j + 1 := mem_range.1 hr
        have := h.1 r j (by omega) hj
        have := (abs_le.1 (h.2 r (by omega) c (mem_range.1 hc))).2
        rw [if_pos (by linarith)]
      · split_ifs
        · exact ha r (mem_range.1 hr) c (mem_range.1 hc)
        · exact le_rfl
    linarith [hv.1]

/-! ## `BarotropicField` -/

theorem regular_south {nlat : ℕ} (h1 : 3 ≤ nlat) (radius : ℝ) (j : ℕ) : southOf radius (regularLat nlat j) =
    2 * Real.pi * radius ^ 2 * (1 - Real.cos (j * (Real.pi / ((nlat - 1 : ℕ) : ℝ)))) := by
  unfold southOf
  have hn0 : (((nlat - 1 : ℕ) : ℝ)) ≠ 0 := by exact_mod_cast (by omega : nlat - 1 ≠ 0)
  have e : regularLat nlat j * Real.pi / 180 = j * (Real.pi / ((nlat - 1 : ℕ) : ℝ)) - Real.pi / 2 := by
    unfold regularLat
    field_simp
    ring
  rw [e, Real.sin_sub_pi_div_two]
  ring

theorem regular_rows {nlat nlon : ℕ} (h1 : 3 ≤ nlat) (h2 : 1 ≤ nlon) (radius : ℝ) (part : Bool) (np : Option ℕ) (j : ℕ) :
    ∑ r ∈ range j, ∑ c ∈ range nlon, (baroInit nlat nlon (regularLat nlat) radius part none none np).area r c =
      2 * Real.pi * radius ^ 2 * ((∑ r ∈ range j, Real.sin (r * (Real.pi / ((nlat - 1 : ℕ) : ℝ)))) *
        (Real.pi / ((nlat - 1 : ℕ) : ℝ))) := by
  have hl0 : (nlon : ℝ) ≠ 0 := by exact_mod_cast (by omega : nlon ≠ 0)
  rw [sum_mul, mul_sum]
  refine sum_congr rfl fun r _ => ?_
  show ∑ c ∈ range nlon, 2 * Real.pi * radius ^ 2 * (Real.cos (regularLat nlat r * Real.pi / 180) *
      (Real.pi / ((nlat - 1 : ℕ) : ℝ))) / nlon = _
  rw [sum_const, card_range, nsmul_eq_mul, cos_regularLat nlat r h1]
  field_simp

theorem regular_range {nlat j : ℕ} (h1 : 3 ≤ nlat) (hj : j < nlat) : -90 ≤ regularLat nlat j ∧ regularLat nlat j ≤ 90 := by
  have hn0 : (0 : ℝ) < ((nlat - 1 : ℕ) : ℝ) := by exact_mod_cast (by omega : 0 < nlat - 1)
  unfold regularLat
  have hle : (j : ℝ) ≤ ((nlat - 1 : ℕ) : ℝ) := by exact_mod_cast (by omega : j ≤ nlat - 1)
  constructor
  · have : 0 ≤ 180 * (j : ℝ) / ((nlat - 1 : ℕ) : ℝ) := by positivity
    linarith
  · have : 180 * (j : ℝ) / ((nlat - 1 : ℕ) : ℝ) ≤ 180 := by rw [div_le_iff₀ hn0]; linarith
    linarith

theorem regular_sensible {nlat nlon : ℕ} {radius : ℝ} (h1 : 3 ≤ nlat) (h2 : 1 ≤ nlon) (hr : 0 < radius) (part : Bool) {np : Option ℕ}
    (hnp : 2 ≤ np.getD nlat) (pv : ℕ → ℕ → ℝ) :
    ((baroInit nlat nlon (regularLat nlat) radius part none none np).eqvInput pv).Sensible := by
  obtain ⟨c1, c2, _⟩ := C12_default_areas_fit nlat nlon radius h1 h2 hr part np (by rintro rfl; simp at hnp) pv
  exact { nlat_pos := show 0 < nlat by omega
          nlon_pos := show 0 < nlon by omega
          nPoints_pos := show 0 < np.getD nlat by omega
          radius_ne := hr.ne'
          area_nonneg := c1
          area_fits := c2 }

/-- C144, profile: if the field is within `e` of a zonal state that does not decrease with latitude, the reference profile is within `e`
and one contour interval of the zonal state, in every row but the first; at the south pole it is that close to the second row. -/
theorem C144_profile (nlat nlon : ℕ) (radius : ℝ) (h1 : 3 ≤ nlat) (h2 : 1 ≤ nlon) (hr : 0 < radius) (part : Bool) (np : Option ℕ)
    (hnp : 2 ≤ np.getD nlat) (pv : ℕ → ℕ → ℝ) (P : ℕ → ℝ) (e : ℝ) (h : NearZonal nlat nlon pv P e) :
    ∃ Q, (baroStep (baroInit nlat nlon (regularLat nlat) radius part none none np) (baroFresh pv) .readEqv).2 = .eqv (.ok Q) ∧
      (∀ j, 1 ≤ j → j < nlat → |Q j - P j| ≤ e + (amax nlat nlon pv - amin nlat nlon pv) / ((np.getD nlat - 1 : ℕ) : ℝ)) ∧
      |Q 0 - P 1| ≤ e + (amax nlat nlon pv - amin nlat nlon pv) / ((np.getD nlat - 1 : ℕ) : ℝ) := by
  have hI := regular_sensible h1 h2 hr part hnp pv
  obtain ⟨Q, hQ⟩ := hI.ok
  have hpi := Real.pi_pos
  have hA : 0 < 2 * Real.pi * radius ^ 2 := by positivity
  set C := baroInit nlat nlon (regularLat nlat) radius part none none np with hC
  set I := C.eqvInput pv with hIdef
  set d : ℝ := (amax nlat nlon pv - amin nlat nlon pv) / ((np.getD nlat - 1 : ℕ) : ℝ) with hd
  have hd0 : 0 ≤ d := I.interval_nonneg
  refine ⟨Q, ?_, ?_⟩
  · rw [(C25_read_values C pv).1, show (C.eqvInput pv).qref = .ok Q from hQ]
  -- row i whose value is attained at the latitude of row j
  have key : ∀ i j, i < nlat → j < nlat →
      ∑ r ∈ range i, ∑ c ∈ range nlon, C.area r c ≤ southOf radius (regularLat nlat j) →
      southOf radius (regularLat nlat j) < ∑ r ∈ range (i + 1), ∑ c ∈ range nlon, C.area r c → |Q j - P i| ≤ e + d := by
    intro i j hi hj t1 t2
    have htot : southOf radius (regularLat nlat j) < ∑ r ∈ range nlat, ∑ c ∈ range nlon, C.area r c :=
      lt_of_lt_of_le t2 (sum_le_sum_of_subset_of_nonneg (range_subset_range.2 hi) fun r hr _ =>
        sum_nonneg fun c hc => hI.nonneg r (mem_range.1 hr) c (mem_range.1 hc))
    obtain ⟨v, hv, -⟩ := C115_contour_exists_unique (q := pv) hI.nonneg (EqvInput.southOf_nonneg radius (regularLat nlat j)) htot
    obtain ⟨f, hf, hb⟩ := EqvInput.C115_within_interval hI (show 2 ≤ np.getD nlat from hnp) (j := j) (regular_range h1 hj) hv
    rw [hQ] at hf
    cases hf
    have hc := h.contour hI.nonneg hi t1 t2 hv
    change |Q j - v| ≤ d at hb
    have := abs_sub_le (Q j) v (P i)
    linarith
  have hnn : 2 ≤ nlat - 1 := by omega
  constructor
  · intro j hj0 hj
    rcases Nat.lt_or_ge j (nlat - 1) with hlt | hge
    · refine key j j hj hj ?_ ?_
      · rw [regular_rows h1 h2, regular_south h1]
        exact mul_le_mul_of_nonneg_left (rows_le_cap hnn hlt.le) hA.le
      · rw [regular_rows h1 h2, regular_south h1]
        exact mul_lt_mul_of_pos_left (cap_lt_rows hnn hj0 hlt) hA
    · have hjn : j = nlat - 1 := by omega
      have htot : ∑ r ∈ range nlat, ∑ c ∈ range nlon, C.area r c ≤ southOf radius (regularLat nlat j) := by
        rw [regular_rows h1 h2, regular_south h1, hjn]
        refine mul_le_mul_of_nonneg_left ?_ hA.le
        have := cos_sum_le_two (nlat - 1) hnn
        rw [show nlat - 1 + 1 = nlat by omega] at this
        have hn0 : (((nlat - 1 : ℕ) : ℝ)) ≠ 0 := by exact_mod_cast (by omega : nlat - 1 ≠ 0)
        rw [mul_div_cancel₀ _ hn0, Real.cos_pi]
        linarith
      obtain ⟨f, hf, hb⟩ := EqvInput.C115_beyond_total hI (show 2 ≤ np.getD nlat from hnp) (j := j) (regular_range h1 hj) htot
      rw [hQ] at hf
      cases hf
      change Q j = amax nlat nlon pv at hb
      rw [hb]
      obtain ⟨p, hp, hmax⟩ := exists_amax (vort := pv) (cells_nonempty (show 0 < nlat by omega) (show 0 < nlon by omega))
      have m1 := (abs_le.1 (h.2 p.1 (mem_cells.1 hp).1 p.2 (mem_cells.1 hp).2)).2
      have m2 := h.1 p.1 j (by have := (mem_cells.1 hp).1; omega) hj
      have m3 := le_amax (vort := pv) (p := (j, 0)) (mem_cells.2 ⟨hj, show 0 < nlon by omega⟩)
      have m4 := (abs_le.1 (h.2 j hj 0 (by omega))).1
      rw [abs_le]
      constructor <;> linarith
  · refine key 1 0 (by omega) (by omega) ?_ ?_
    · rw [regular_rows h1 h2, regular_south h1]
      refine mul_le_mul_of_nonneg_left ?_ hA.le
      simp
    · rw [regular_rows h1 h2, regular_south h1]
      refine mul_lt_mul_of_pos_left ?_ hA
      have a1 := cap_lt_rows (n := nlat - 1) (j := 1) hnn le_rfl (by omega)
      have a2 := Real.cos_le_one (((1 : ℕ) : ℝ) * (Real.pi / ((nlat - 1 : ℕ) : ℝ)))
      rw [Nat.cast_zero, zero_mul, Real.cos_zero]
      linarith

/-- C144, limit: the profile of a zonal state that does not decrease with latitude tends to the state as the number of partitions grows,
in every row but the first. -/
theorem C144_limit (nlat nlon : ℕ) (radius : ℝ) (h1 : 3 ≤ nlat) (h2 : 1 ≤ nlon) (hr : 0 < radius) (part : Bool) (P : ℕ → ℝ)
    (hP : ∀ r s, r ≤ s → s < nlat → P r ≤ P s) (Q : ℕ → ℕ → ℝ)
    (hQ : ∀ n, 2 ≤ n → (baroStep (baroInit nlat nlon (regularLat nlat) radius part none none (some n)) (baroFresh fun r _ => P r)
      .readEqv).2 = .eqv (.ok (Q n))) {j : ℕ} (hj0 : 1 ≤ j) (hj : j < nlat) :
    Filter.Tendsto (fun n => Q n j) Filter.atTop (nhds (P j)) := by
  have hb : ∀ n, 2 ≤ n → |Q n j - P j| ≤
      (amax nlat nlon (fun r _ => P r) - amin nlat nlon (fun r _ => P r)) / ((n - 1 : ℕ) : ℝ) := by
    intro n hn
    obtain ⟨Q', hQ', hb, _⟩ := C144_profile nlat nlon radius h1 h2 hr part (some n) hn (fun r _ => P r) P 0
      ⟨hP, fun r _ c _ => by simp⟩
    rw [hQ n hn] at hQ'
    cases hQ'
    simpa using hb j hj0 hj
  have hl : Filter.Tendsto (fun n : ℕ => (amax nlat nlon (fun r _ => P r) - amin nlat nlon (fun r _ => P r)) / ((n - 1 : ℕ) : ℝ))
      Filter.atTop (nhds 0) := (tendsto_const_div_atTop_nhds_zero_nat _).comp (Filter.tendsto_sub_atTop_nat 1)
  rw [tendsto_iff_dist_tendsto_zero]
  refine squeeze_zero' (Filter.Eventually.of_forall fun n => dist_nonneg) ?_ hl
  filter_upwards [Filter.eventually_ge_atTop 2] with n hn
  rw [Real.dist_eq]
  exact hb n hn

/-- The sequence of profiles exists. -/
example (nlat nlon : ℕ) (h1 : 3 ≤ nlat) (h2 : 1 ≤ nlon) (P : ℕ → ℝ) : ∃ Q : ℕ → ℕ → ℝ, ∀ n, 2 ≤ n →
    (baroStep (baroInit nlat nlon (regularLat nlat) 1 false none none (some n)) (baroFresh fun r _ => P r) .readEqv).2 =
      .eqv (.ok (Q n)) := by
  have : ∀ n : ℕ, ∃ Q : ℕ → ℝ, 2 ≤ n →
      (baroStep (baroInit nlat nlon (regularLat nlat) 1 false none none (some n)) (baroFresh fun r _ => P r) .readEqv).2 =
        .eqv (.ok Q) := fun n => by
    by_cases hn : 2 ≤ n
    · obtain ⟨Q, hQ⟩ := (regular_sensible (np := some n) h1 h2 one_pos false hn fun r _ => P r).ok
      exact ⟨Q, fun _ => by rw [(C25_read_values _ _).1, hQ]⟩
    · exact ⟨fun _ => 0, fun h => absurd h hn⟩
  choose Q hQ using this
  exact ⟨Q, hQ⟩

/-- C144, wave activity: its value for a field within `e` of a zonal state is at most `2e` and one contour interval, times the diameter
of the planet. If the zonal state rises by at least `γ` per unit of weight, it is also at most second order in that error. -/
theorem C144_wave_activity (nlat nlon : ℕ) (radius : ℝ) (h1 : 3 ≤ nlat) (h2 : 1 ≤ nlon) (hr : 0 < radius) (np : Option ℕ)
    (hnp : 2 ≤ np.getD nlat) (pv : ℕ → ℕ → ℝ) (P : ℕ → ℝ) (e ε : ℝ) (h : NearZonal nlat nlon pv P e)
    (hε : ε = 2 * e + (amax nlat nlon pv - amin nlat nlon pv) / ((np.getD nlat - 1 : ℕ) : ℝ)) :
    ∃ l, (baroStep (baroInit nlat nlon (regularLat nlat) radius false none none np) (baroFresh pv) .readLwa).2 = .lwa (.ok (.total l)) ∧
      (∀ j, j + 1 < nlat → ∀ c < nlon, l j c ≤ ε * (2 * radius)) ∧
      ∀ γ, 0 < γ → (∀ r, r + 1 < nlat →
          γ * lengthElement radius (regularLat nlat) (poleToPole nlat) r ≤ P (r + 1) - P r ∧
          γ * lengthElement radius (regularLat nlat) (poleToPole nlat) (r + 1) ≤ P (r + 1) - P r) →
        ∀ j, 1 ≤ j → j + 1 < nlat → ∀ c < nlon,
          l j c ≤ ε ^ 2 / γ + ε * lengthElement radius (regularLat nlat) (poleToPole nlat) j := by
  obtain ⟨Q, hQ, hb, hb0⟩ := C144_profile nlat nlon radius h1 h2 hr false np hnp pv P e h
  have hn0 : (0 : ℝ) < ((nlat - 1 : ℕ) : ℝ) := by exact_mod_cast (by omega : 0 < nlat - 1)
  have hpi := Real.pi_pos
  set C := baroInit nlat nlon (regularLat nlat) radius false none none np with hC
  set d : ℝ := (amax nlat nlon pv - amin nlat nlon pv) / ((np.getD nlat - 1 : ℕ) : ℝ) with hd
  set dmu := lengthElement radius (regularLat nlat) (poleToPole nlat) with hdmu
  obtain ⟨r1, r2⟩ := C25_read_values C pv
  have hq : (C.eqvInput pv).qref = .ok Q := by
    rw [r1] at hQ
    injection hQ
  have hlwa : (baroStep C (baroFresh pv) .readLwa).2 = .lwa (.ok (.total (lwaTotal nlat pv Q dmu))) := by
    rw [r2, hq]
    rfl
  have hsin : ∀ r < nlat, dmu r = radius * (Real.sin (r * (Real.pi / ((nlat - 1 : ℕ) : ℝ))) * (Real.pi / ((nlat - 1 : ℕ) : ℝ))) := by
    intro r hrn
    have hs : 0 ≤ Real.sin (r * (Real.pi / ((nlat - 1 : ℕ) : ℝ))) := by
      apply Real.sin_nonneg_of_nonneg_of_le_pi (by positivity)
      have : (r : ℝ) ≤ ((nlat - 1 : ℕ) : ℝ) := by exact_mod_cast (by omega : r ≤ nlat - 1)
      rw [← mul_div_assoc, div_le_iff₀ hn0]; nlinarith
    rw [hdmu]
    unfold lengthElement poleToPole
    rw [cos_regularLat nlat r h1, abs_of_nonneg hs]
    ring
  have hpos : ∀ r < nlat, 0 ≤ dmu r := fun r _ => by
    rw [hdmu]; unfold lengthElement poleToPole; positivity
  have hsum : ∑ r ∈ range nlat, dmu r ≤ 2 * radius := by
    rw [sum_congr rfl fun r hrn => hsin r (mem_range.1 hrn), ← mul_sum, ← sum_mul]
    have := cos_sum_le_two (nlat - 1) (by omega)
    rw [show nlat - 1 + 1 = nlat by omega] at this
    nlinarith
  have he0 : 0 ≤ e := (abs_nonneg _).trans (h.2 0 (by omega) 0 (by omega))
  have hd0 : 0 ≤ d := ((baroInit nlat nlon (regularLat nlat) radius false none none np).eqvInput pv).interval_nonneg
  have hε0 : 0 ≤ ε := by rw [hε]; linarith
  refine ⟨_, hlwa, fun j hj c hc => ?_, fun γ hγ hP j hj0 hj c hc => ?_⟩
  · rw [lwaTotal_eq_spec hj, waveActivity_eq_add, deficit_eq, surplus_eq, ← sum_add_distrib]
    refine le_trans (sum_le_sum (g := fun r => ε * dmu r) fun r hrn => ?_) ?_
    · have hrn' := mem_range.1 hrn
      have hd' := hpos r hrn'
      have hq1 := abs_le.1 (h.2 r hrn' c hc)
      rw [← add_mul]
      by_cases hjr : j < r
      · rw [if_pos hjr, if_neg (by omega), add_zero]
        refine mul_le_mul_of_nonneg_right (max_le ?_ hε0) hd'
        rcases Nat.eq_zero_or_pos j with rfl | hj1
        · have := (abs_le.1 hb0).2
          have := h.1 1 r (by omega) hrn'
          rw [hε]; linarith
        · have := (abs_le.1 (hb j hj1 (by omega))).2
          have := h.1 j r hjr.le hrn'
          rw [hε]; linarith
      · rw [if_neg hjr, if_pos (by omega), zero_add]
        rcases Nat.eq_zero_or_pos r with rfl | hr1
        · have : dmu 0 = 0 := by rw [hsin 0 (by omega)]; simp
          rw [this, mul_zero, mul_zero]
        · refine mul_le_mul_of_nonneg_right (max_le ?_ hε0) hd'
          have := (abs_le.1 (hb j (by omega) (by omega))).1
          have := h.1 r j (by omega) (by omega)
          rw [hε]; linarith
    · rw [← mul_sum]
      exact mul_le_mul_of_nonneg_left hsum hε0
  · -- shift the zonal state so that it meets the profile in row j
    obtain ⟨f, hf, hfb⟩ := C128_upper nlat pv (fun r => P r + (Q j - P j)) dmu none c hγ hpos (ε := ε)
      (fun r hrn => by
        have a1 := abs_le.1 (h.2 r hrn c hc)
        have a2 := abs_le.1 (hb j hj0 (by omega))
        rw [abs_le, hε]
        constructor <;> linarith)
      (fun r hrn => by
        have := hP r hrn
        constructor
        · have := this.1; show _ ≤ P (r + 1) + (Q j - P j) - (P r + (Q j - P j)); linarith
        · have := this.2; show _ ≤ P (r + 1) + (Q j - P j) - (P r + (Q j - P j)); linarith)
    have e1 : lwaTotal nlat pv Q dmu j c = lwaTotal nlat pv (fun r => P r + (Q j - P j)) dmu j c := by
      rw [lwaTotal_eq_spec hj, lwaTotal_eq_spec hj, waveActivity_eq_add, waveActivity_eq_add, deficit_eq, surplus_eq, deficit_eq,
        surplus_eq]
      have : P j + (Q j - P j) = Q j := by ring
      simp only [this]
    rw [e1]
    cases hf
    exact hfb j hj

/-- A zonal state on 121 rows with a wave of amplitude `1/10` on it. -/
theorem nearZonal_wave : NearZonal 121 240 (fun r c => (r : ℝ) + (if c % 2 = 0 then 1 / 10 else -(1 / 10))) (fun r => r) (1 / 10) := by
  refine ⟨fun r s h _ => by show (r : ℝ) ≤ s; exact_mod_cast h, fun r _ c _ => ?_⟩
  show |(r : ℝ) + (if c % 2 = 0 then 1 / 10 else -(1 / 10)) - r| ≤ 1 / 10
  split_ifs <;> norm_num [abs_of_pos]

/-- It rises in every row by more than the weight of the row. -/
example : (3 ≤ 121 ∧ 1 ≤ 240 ∧ (0 : ℝ) < 1 ∧ 2 ≤ (none : Option ℕ).getD 121) ∧
    ∀ r, r + 1 < 121 →
      1 * lengthElement 1 (regularLat 121) (poleToPole 121) r ≤ ((r + 1 : ℕ) : ℝ) - (r : ℝ) ∧
      1 * lengthElement 1 (regularLat 121) (poleToPole 121) (r + 1) ≤ ((r + 1 : ℕ) : ℝ) - (r : ℝ) := by
  refine ⟨⟨by norm_num, by norm_num, by norm_num, by norm_num⟩, fun r _ => ?_⟩
  have hpi := Real.pi_lt_four
  have hb : ∀ s : ℕ, lengthElement 1 (regularLat 121) (poleToPole 121) s ≤ 1 := fun s => by
    unfold lengthElement poleToPole
    have := Real.abs_cos_le_one (regularLat 121 s * Real.pi / 180)
    have h0 : 0 ≤ Real.pi / ((121 - 1 : ℕ) : ℝ) := by have := Real.pi_pos; positivity
    have h1 : Real.pi / ((121 - 1 : ℕ) : ℝ) ≤ 1 := by rw [div_le_one (by norm_num)]; norm_num; linarith
    nlinarith [abs_nonneg (Real.cos (regularLat 121 s * Real.pi / 180))]
  have h1 := hb r
  have h2 := hb (r + 1)
  push_cast
  constructor <;> linarith

end Falwa

end
