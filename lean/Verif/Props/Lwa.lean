import Verif.Lemmas.Lwa
import Mathlib.Tactic.NormNum
import Mathlib.Tactic.IntervalCases

/-!
# Properties of `basis.lwa` (C01-C07)

Each theorem is followed by an `example` showing that its hypotheses are met by a concrete
non-trivial case.
-/

set_option linter.unusedSectionVars false

namespace Falwa

open Finset

variable {K : Type*} [Field K] [LinearOrder K] [IsStrictOrderedRing K]

/-- A small test field with a displaced contour: 3 rows, values `0, 5, 2` in each column. -/
def wavyField : ℕ → ℕ → ℚ := fun r _ => if r = 0 then 0 else if r = 1 then 5 else 2

/-- The values of a result, whichever form it has. -/
def LwaOut.All (P : K → Prop) : LwaOut K → Prop
  | .partitioned a b => ∀ j c, P (a j c) ∧ P (b j c)
  | .total f => ∀ j c, P (f j c)

/-! ## C01 -/

/-- C01. Every value that `basis.lwa` returns is non-negative, with and without partitioning,
for every field and every reference profile, as long as `dmu ≥ 0`. -/
theorem C01_lwa_nonneg (nlat : ℕ) (vort : ℕ → ℕ → K) (q dmu : ℕ → K) (part : Bool)
    (nc : Option (ℕ → ℕ → K)) (hd : ∀ r < nlat, 0 ≤ dmu r) :
    (lwa nlat vort q dmu part nc).1.All (0 ≤ ·) := by
  have ha : ∀ j c, 0 ≤ lwaAnticyclonic nlat vort q dmu j c := fun j c => by
    by_cases h : j + 1 < nlat
    · rw [lwaAnticyclonic_eq_spec h]; exact deficitPoleward_nonneg hd
    · rw [lwaAnticyclonic_eq_of_ge (by omega)]
  have hc : ∀ j c, 0 ≤ lwaCyclonic nlat vort q dmu j c := fun j c => by
    by_cases h : j + 1 < nlat
    · rw [lwaCyclonic_eq_spec h]; exact surplusEquatorward_nonneg hd
    · rw [lwaCyclonic_eq_of_ge (by omega)]
  cases part
  · exact fun j c => add_nonneg (ha j c) (hc j c)
  · exact fun j c => ⟨ha j c, hc j c⟩

example : ∀ r < 3, (0 : ℚ) ≤ (fun _ : ℕ => (1 : ℚ)) r := by intro r _; norm_num
/-- and the result is not identically zero in that case -/
example : lwaTotal 3 wavyField (fun r => r) (fun _ => 1) 1 0 = 4 := by
  norm_num [lwaTotal, lwaAnticyclonic, lwaCyclonic, anticyclonicMask, cyclonicMask, vortE, wavyField,
    sum_range_succ]

/-! ## C02 -/

/-- C02, full statement: the returned field equals the displaced-contour integral on every row. -/
def C02_Statement (K : Type*) [Field K] [LinearOrder K] [IsStrictOrderedRing K] : Prop :=
  ∀ (nlat : ℕ) (vort : ℕ → ℕ → K) (Q dmu : ℕ → K) (j c : ℕ), j < nlat →
    lwaTotal nlat vort Q dmu j c = Spec.waveActivity nlat vort Q dmu j c

/-- C02, partial: it holds on every row but the last one, for the total and for both components.
Missing: the last row, which the loop `range(0, nlat-1)` never visits (see `C02_refuted`). -/
theorem C02_lwa_eq_displaced_integral_partial (nlat : ℕ) (vort : ℕ → ℕ → K) (Q dmu : ℕ → K)
    (nc : Option (ℕ → ℕ → K)) (j c : ℕ) (h : j + 1 < nlat) :
    (∃ f, (lwa nlat vort Q dmu false nc).1 = .total f ∧
      f j c = Spec.waveActivity nlat vort Q dmu j c) ∧
    (∃ a b, (lwa nlat vort Q dmu true nc).1 = .partitioned a b ∧
      a j c = Spec.deficitPoleward nlat vort Q dmu j c ∧
      b j c = Spec.surplusEquatorward nlat vort Q dmu j c) :=
  ⟨⟨_, rfl, lwaTotal_eq_spec h⟩, _, _, rfl, lwaAnticyclonic_eq_spec h, lwaCyclonic_eq_spec h⟩

example : 1 + 1 < 3 ∧ Spec.waveActivity 3 wavyField (fun r => r) (fun _ => 1) 1 0 = 4 := by
  refine ⟨by norm_num, ?_⟩
  rw [← lwaTotal_eq_spec (by norm_num)]
  norm_num [lwaTotal, lwaAnticyclonic, lwaCyclonic, anticyclonicMask, cyclonicMask, vortE, wavyField,
    sum_range_succ]

/-- C02 on the last row: it holds there exactly if the integral is zero, in particular if the
reference value of the last row is at least every value of the column, as it is for the profile
of `eqvlat_fawa` at the pole. -/
theorem C02_last_row_partial (nlat : ℕ) (vort : ℕ → ℕ → K) (Q dmu : ℕ → K) (j c : ℕ)
    (hj : j + 1 = nlat) (hQ : ∀ r < nlat, vort r c ≤ Q j) :
    lwaTotal nlat vort Q dmu j c = Spec.waveActivity nlat vort Q dmu j c := by
  rw [lwaTotal_eq_of_ge (by omega), waveActivity_eq_zero]
  rintro r hr (⟨h1, _⟩ | ⟨_, h2⟩)
  · omega
  · exact absurd (hQ r hr) (not_le.2 h2)

example : ∀ r < 3, wavyField r 0 ≤ (fun _ : ℕ => (5 : ℚ)) 2 := by
  intro r hr; interval_cases r <;> norm_num [wavyField]

/-- C02 fails on the last row: with values `0, 5, 2` and reference `0, 1, 2` the value 5 is displaced
across the contour of the last row but the code returns 0 there. -/
theorem C02_refuted : ¬ C02_Statement ℚ := by
  intro h
  have := h 3 wavyField (fun r => r) (fun _ => 1) 2 0 (by norm_num)
  rw [lwaTotal_eq_of_ge (by norm_num)] at this
  have h2 := (waveActivity_eq_zero_iff (nlat := 3) (vort := wavyField) (Q := fun r => (r : ℚ))
    (dmu := fun _ => 1) (j := 2) (c := 0) (fun _ _ => one_pos)).1 this.symm 1 (by norm_num)
  exact h2 (Or.inr ⟨by norm_num, by norm_num [wavyField]⟩)

/-! ## C03 -/

/-- C03, first part: a zonally symmetric, monotone state equal to its reference has no wave activity. -/
theorem C03_no_wave_no_activity (nlat : ℕ) (vort : ℕ → ℕ → K) (q dmu : ℕ → K)
    (hsym : ∀ r < nlat, ∀ c, vort r c = q r) (hmono : ∀ r s, r ≤ s → s < nlat → q r ≤ q s) (part : Bool) :
    (∀ nc, (lwa nlat vort q dmu part nc).1.All (0 = ·)) := by
  intro nc
  have key : ∀ j c, 0 = lwaAnticyclonic nlat vort q dmu j c ∧ 0 = lwaCyclonic nlat vort q dmu j c := by
    intro j c
    by_cases h : j + 1 < nlat
    · rw [lwaAnticyclonic_eq_spec h, lwaCyclonic_eq_spec h]
      unfold Spec.deficitPoleward Spec.surplusEquatorward
      constructor
      · rw [filter_false_of_mem, sum_empty]
        rintro r hr ⟨h1, h2⟩
        rw [hsym r (mem_range.1 hr)] at h2
        exact absurd (hmono j r h1.le (mem_range.1 hr)) (not_le.2 h2)
      · rw [filter_false_of_mem, sum_empty]
        rintro r hr ⟨h1, h2⟩
        rw [hsym r (mem_range.1 hr)] at h2
        exact absurd (hmono r j h1 (by omega)) (not_le.2 h2)
    · rw [lwaAnticyclonic_eq_of_ge (by omega), lwaCyclonic_eq_of_ge (by omega)]; exact ⟨rfl, rfl⟩
  cases part
  · intro j c
    obtain ⟨h1, h2⟩ := key j c
    show 0 = lwaAnticyclonic nlat vort q dmu j c + lwaCyclonic nlat vort q dmu j c
    rw [← h1, ← h2, add_zero]
  · exact key

example : (∀ r < 4, ∀ c : ℕ, (fun r _ => (r : ℚ) : ℕ → ℕ → ℚ) r c = (fun r : ℕ => (r : ℚ)) r) ∧
    (∀ r s, r ≤ s → s < 4 → (fun r : ℕ => (r : ℚ)) r ≤ (fun r : ℕ => (r : ℚ)) s) :=
  ⟨fun _ _ _ => rfl, fun r s h _ => by simpa using h⟩

/-- C03, second part: with positive `dmu`, the returned value on a row that is not the last is zero
exactly if no value of that longitude is displaced across the contour of that row. -/
theorem C03_zero_iff_undisturbed (nlat : ℕ) (vort : ℕ → ℕ → K) (q dmu : ℕ → K) (nc : Option (ℕ → ℕ → K))
    (hd : ∀ r < nlat, 0 < dmu r) (j c : ℕ) (hj : j + 1 < nlat) :
    ∃ f, (lwa nlat vort q dmu false nc).1 = .total f ∧
      (f j c = 0 ↔ ∀ r < nlat, ¬ Spec.Displaced vort q j r c) := by
  refine ⟨_, rfl, ?_⟩
  show lwaTotal nlat vort q dmu j c = 0 ↔ _
  rw [lwaTotal_eq_spec hj, waveActivity_eq_zero_iff hd]

example : (∀ r < 3, (0 : ℚ) < (fun _ : ℕ => (1 : ℚ)) r) ∧ 1 + 1 < 3 ∧
    Spec.Displaced wavyField (fun r => (r : ℚ)) 1 1 0 :=
  ⟨fun _ _ => one_pos, by norm_num, Or.inr ⟨le_rfl, by norm_num [wavyField]⟩⟩

/-! ## C04 -/

/-- C04. The two components add up to the total; the first only collects deficits poleward of the row
and the second only surpluses at or equatorward of it: each vanishes if there is none. -/
theorem C04_partition_adds_up (nlat : ℕ) (vort : ℕ → ℕ → K) (q dmu : ℕ → K) (nc nc' : Option (ℕ → ℕ → K)) :
    ∃ a b f, (lwa nlat vort q dmu true nc).1 = .partitioned a b ∧
      (lwa nlat vort q dmu false nc').1 = .total f ∧
      (∀ j c, a j c + b j c = f j c) ∧
      (∀ j c, (∀ r < nlat, j < r → q j ≤ vort r c) → a j c = 0) ∧
      (∀ j c, (∀ r < nlat, r ≤ j → vort r c ≤ q j) → b j c = 0) := by
  refine ⟨_, _, _, rfl, rfl, fun _ _ => rfl, fun j c h => ?_, fun j c h => ?_⟩
  · by_cases hj : j + 1 < nlat
    · rw [lwaAnticyclonic_eq_spec hj, Spec.deficitPoleward, filter_false_of_mem, sum_empty]
      rintro r hr ⟨h1, h2⟩
      exact absurd (h r (mem_range.1 hr) h1) (not_le.2 h2)
    · exact lwaAnticyclonic_eq_of_ge (by omega)
  · by_cases hj : j + 1 < nlat
    · rw [lwaCyclonic_eq_spec hj, Spec.surplusEquatorward, filter_false_of_mem, sum_empty]
      rintro r hr ⟨h1, h2⟩
      exact absurd (h r (mem_range.1 hr) h1) (not_le.2 h2)
    · exact lwaCyclonic_eq_of_ge (by omega)

/-- In the test field the cyclonic component at row 1 is 4 and the anticyclonic one is 0. -/
example : lwaCyclonic 3 wavyField (fun r => r) (fun _ => 1) 1 0 = 4 ∧
    lwaAnticyclonic 3 wavyField (fun r => r) (fun _ => 1) 1 0 = 0 := by
  norm_num [lwaAnticyclonic, lwaCyclonic, anticyclonicMask, cyclonicMask, vortE, wavyField,
    sum_range_succ]

/-! ## C05 -/

/-- The values of a result at one grid point: one or two, by its form. -/
def LwaOut.valuesAt (j c : ℕ) : LwaOut K → List K
  | .partitioned a b => [a j c, b j c]
  | .total f => [f j c]

/-- All values that a call returns at one grid point: wave activity and forcing term (if any). -/
def lwaColumn (nlat : ℕ) (vort : ℕ → ℕ → K) (q dmu : ℕ → K) (part : Bool) (nc : Option (ℕ → ℕ → K))
    (j c : ℕ) : List K × Option K :=
  ((lwa nlat vort q dmu part nc).1.valuesAt j c, (lwa nlat vort q dmu part nc).2.map (fun s => s j c))

/-- C05, locality: two calls whose fields and forcings agree on longitude `c` of the first and `c'` of
the second, on the rows of the grid, return the same values there. -/
theorem C05_local_in_longitude (nlat : ℕ) (vort vort' : ℕ → ℕ → K) (q dmu : ℕ → K) (part : Bool)
    (nc nc' : ℕ → ℕ → K) (c c' : ℕ)
    (h : ∀ r < nlat, vort r c = vort' r c') (hn : ∀ r < nlat, nc r c = nc' r c') (j : ℕ) :
    lwaColumn nlat vort q dmu part (some nc) j c = lwaColumn nlat vort' q dmu part (some nc') j c' ∧
    lwaColumn nlat vort q dmu part none j c = lwaColumn nlat vort' q dmu part none j c' := by
  have ha : lwaAnticyclonic nlat vort q dmu j c = lwaAnticyclonic nlat vort' q dmu j c' := by
    unfold lwaAnticyclonic anticyclonicMask vortE
    split_ifs with hj
    · exact sum_congr rfl fun r hr => by rw [h r (mem_range.1 hr)]
    · rfl
  have hc : lwaCyclonic nlat vort q dmu j c = lwaCyclonic nlat vort' q dmu j c' := by
    unfold lwaCyclonic cyclonicMask vortE
    split_ifs with hj
    · exact sum_congr rfl fun r hr => by rw [h r (mem_range.1 hr)]
    · rfl
  have hs : lwaBigsigma nlat vort q dmu nc j c = lwaBigsigma nlat vort' q dmu nc' j c' := by
    unfold lwaBigsigma anticyclonicMask cyclonicMask vortE
    split_ifs with hj
    · exact sum_congr rfl fun r hr => by rw [h r (mem_range.1 hr), hn r (mem_range.1 hr)]
    · rfl
  cases part <;> constructor <;> simp [lwaColumn, LwaOut.valuesAt, lwa, ha, hc, hs]

/-- C05, equivariance: any relabelling `σ` of longitudes (a permutation, in particular a rotation
`c ↦ (c + s) % nlon`) of the inputs relabels the outputs in the same way. -/
theorem C05_relabel_longitudes (nlat : ℕ) (vort : ℕ → ℕ → K) (q dmu : ℕ → K) (part : Bool)
    (nc : ℕ → ℕ → K) (σ : ℕ → ℕ) (j c : ℕ) :
    lwaColumn nlat (fun r c => vort r (σ c)) q dmu part (some fun r c => nc r (σ c)) j c =
      lwaColumn nlat vort q dmu part (some nc) j (σ c) :=
  (C05_local_in_longitude nlat _ vort q dmu part _ nc c (σ c) (fun _ _ => rfl) (fun _ _ => rfl) j).1

/-- The hypotheses of the locality theorem are met by a field and its rotation by one of 4 longitudes,
which is a different field. -/
example : let v : ℕ → ℕ → ℚ := fun r c => r + c
    (∀ r < 3, v r 3 = (fun r c => v r ((c + 3) % 4)) r 0) ∧ v 0 0 ≠ (fun r c => v r ((c + 3) % 4)) 0 0 := by
  simp

/-! ## C06 -/

/-- The result with `f` applied to each value. -/
def LwaOut.mapValues (f : K → K) : LwaOut K → LwaOut K
  | .partitioned a b => .partitioned (fun j c => f (a j c)) (fun j c => f (b j c))
  | .total g => .total (fun j c => f (g j c))

/-- C06, scaling of the field: a non-negative factor on field and profile multiplies every value of
the wave activity. -/
theorem C06_scale_field (nlat : ℕ) (vort : ℕ → ℕ → K) (q dmu : ℕ → K) (part : Bool)
    (nc : Option (ℕ → ℕ → K)) (t : K) (ht : 0 ≤ t) :
    (lwa nlat (fun r c => t * vort r c) (fun r => t * q r) dmu part nc).1 =
      (lwa nlat vort q dmu part nc).1.mapValues (t * ·) := by
  have key : ∀ j c, lwaAnticyclonic nlat (fun r c => t * vort r c) (fun r => t * q r) dmu j c =
      t * lwaAnticyclonic nlat vort q dmu j c ∧
      lwaCyclonic nlat (fun r c => t * vort r c) (fun r => t * q r) dmu j c =
      t * lwaCyclonic nlat vort q dmu j c := by
    intro j c
    by_cases hj : j + 1 < nlat
    · rw [lwaAnticyclonic_eq_spec hj, lwaAnticyclonic_eq_spec hj, lwaCyclonic_eq_spec hj,
        lwaCyclonic_eq_spec hj]
      unfold Spec.deficitPoleward Spec.surplusEquatorward
      rcases ht.eq_or_lt with rfl | ht
      · simp
      · simp only [mul_lt_mul_iff_right₀ ht, mul_sum]
        exact ⟨sum_congr rfl fun r _ => by ring, sum_congr rfl fun r _ => by ring⟩
    · rw [lwaAnticyclonic_eq_of_ge (by omega), lwaAnticyclonic_eq_of_ge (by omega),
        lwaCyclonic_eq_of_ge (by omega), lwaCyclonic_eq_of_ge (by omega), mul_zero]; exact ⟨rfl, rfl⟩
  cases part <;>
    simp [lwa, LwaOut.mapValues, funext fun j => funext fun c => (key j c).1,
      funext fun j => funext fun c => (key j c).2, mul_add]

/-- C06, scaling of the field and the forcing term: a positive factor does not change it. -/
theorem C06_scale_field_forcing (nlat : ℕ) (vort : ℕ → ℕ → K) (q dmu : ℕ → K) (part : Bool)
    (nc : Option (ℕ → ℕ → K)) (t : K) (ht : 0 < t) :
    (lwa nlat (fun r c => t * vort r c) (fun r => t * q r) dmu part nc).2 =
      (lwa nlat vort q dmu part nc).2 := by
  have key : lwaBigsigma nlat (fun r c => t * vort r c) (fun r => t * q r) dmu =
      lwaBigsigma nlat vort q dmu := by
    funext f j c
    unfold lwaBigsigma anticyclonicMask cyclonicMask vortE
    have hneg : ∀ x : K, t * x < 0 ↔ x < 0 := fun x => by
      have h := mul_lt_mul_iff_right₀ (b := x) (c := 0) ht
      rwa [mul_zero] at h
    simp only [← mul_sub, mul_pos_iff_of_pos_left ht, hneg]
  cases part <;> simp [lwa, key]

/-- C06, offset: adding the same constant to field and profile changes nothing. -/
theorem C06_offset_field (nlat : ℕ) (vort : ℕ → ℕ → K) (q dmu : ℕ → K) (part : Bool)
    (nc : Option (ℕ → ℕ → K)) (t : K) :
    lwa nlat (fun r c => vort r c + t) (fun r => q r + t) dmu part nc = lwa nlat vort q dmu part nc := by
  have h1 : lwaAnticyclonic nlat (fun r c => vort r c + t) (fun r => q r + t) dmu =
      lwaAnticyclonic nlat vort q dmu := by
    funext j c
    unfold lwaAnticyclonic anticyclonicMask vortE
    simp only [add_sub_add_right_eq_sub]
  have h2 : lwaCyclonic nlat (fun r c => vort r c + t) (fun r => q r + t) dmu =
      lwaCyclonic nlat vort q dmu := by
    funext j c
    unfold lwaCyclonic cyclonicMask vortE
    simp only [add_sub_add_right_eq_sub]
  have h3 : lwaBigsigma nlat (fun r c => vort r c + t) (fun r => q r + t) dmu =
      lwaBigsigma nlat vort q dmu := by
    funext f j c
    unfold lwaBigsigma anticyclonicMask cyclonicMask vortE
    simp only [add_sub_add_right_eq_sub]
  simp only [lwa, h1, h2, h3]

/-- C06, scaling of the length element: any factor on `dmu` multiplies every output, the forcing term
included. -/
theorem C06_scale_dmu (nlat : ℕ) (vort : ℕ → ℕ → K) (q dmu : ℕ → K) (part : Bool)
    (nc : Option (ℕ → ℕ → K)) (t : K) :
    (lwa nlat vort q (fun r => t * dmu r) part nc).1 = (lwa nlat vort q dmu part nc).1.mapValues (t * ·) ∧
    (lwa nlat vort q (fun r => t * dmu r) part nc).2 =
      (lwa nlat vort q dmu part nc).2.map (fun s j c => t * s j c) := by
  have h1 : ∀ j c, lwaAnticyclonic nlat vort q (fun r => t * dmu r) j c =
      t * lwaAnticyclonic nlat vort q dmu j c := by
    intro j c
    unfold lwaAnticyclonic
    split_ifs
    · rw [mul_sum]; exact sum_congr rfl fun r _ => by ring
    · rw [mul_zero]
  have h2 : ∀ j c, lwaCyclonic nlat vort q (fun r => t * dmu r) j c =
      t * lwaCyclonic nlat vort q dmu j c := by
    intro j c
    unfold lwaCyclonic
    split_ifs
    · rw [mul_sum]; exact sum_congr rfl fun r _ => by ring
    · rw [mul_zero]
  have h3 : ∀ f j c, lwaBigsigma nlat vort q (fun r => t * dmu r) f j c =
      t * lwaBigsigma nlat vort q dmu f j c := by
    intro f j c
    unfold lwaBigsigma
    split_ifs
    · rw [mul_sum]; exact sum_congr rfl fun r _ => by ring
    · rw [mul_zero]
  cases part <;> cases nc <;>
    simp [lwa, LwaOut.mapValues, mul_add, funext fun j => funext fun c => h1 j c,
      funext fun j => funext fun c => h2 j c, fun f => funext fun j => funext fun c => h3 f j c]

/-- A factor 2 on the test field doubles the value 4. -/
example : (0 : ℚ) ≤ 2 ∧
    lwaTotal 3 (fun r c => 2 * wavyField r c) (fun r => 2 * (r : ℚ)) (fun _ => 1) 1 0 = 8 := by
  norm_num [lwaTotal, lwaAnticyclonic, lwaCyclonic, anticyclonicMask, cyclonicMask, vortE, wavyField,
    sum_range_succ]

/-! ## C07 -/

/-- C07, presence: the forcing term is returned exactly if a forcing is given, and the wave activity
does not depend on it. -/
theorem C07_forcing_presence (nlat : ℕ) (vort : ℕ → ℕ → K) (q dmu : ℕ → K) (part : Bool)
    (nc : Option (ℕ → ℕ → K)) :
    ((lwa nlat vort q dmu part nc).2 = none ↔ nc = none) ∧
    (lwa nlat vort q dmu part nc).1 = (lwa nlat vort q dmu part none).1 := by
  cases part <;> cases nc <;> simp [lwa]

/-- C07, linearity: the forcing term is linear in the forcing. -/
theorem C07_forcing_linear (nlat : ℕ) (vort : ℕ → ℕ → K) (q dmu : ℕ → K) (part : Bool)
    (f g : ℕ → ℕ → K) (s t : K) :
    ∃ F G H, (lwa nlat vort q dmu part (some f)).2 = some F ∧
      (lwa nlat vort q dmu part (some g)).2 = some G ∧
      (lwa nlat vort q dmu part (some fun r c => s * f r c + t * g r c)).2 = some H ∧
      ∀ j c, H j c = s * F j c + t * G j c := by
  refine ⟨_, _, _, by cases part <;> rfl, by cases part <;> rfl, by cases part <;> rfl, fun j c => ?_⟩
  unfold lwaBigsigma
  split_ifs
  · rw [mul_sum, mul_sum, ← sum_add_distrib]
    exact sum_congr rfl fun r _ => by ring
  · ring

/-- C07, support and sign: at a row that is not the last the forcing term is the sum of
`∓ forcing * dmu` over the displaced rows (minus poleward, plus equatorward),
so it vanishes if no value is displaced. -/
theorem C07_forcing_supported_on_displaced (nlat : ℕ) (vort : ℕ → ℕ → K) (q dmu : ℕ → K) (part : Bool) (f : ℕ → ℕ → K)
    (j c : ℕ) (hj : j + 1 < nlat) :
    ∃ F, (lwa nlat vort q dmu part (some f)).2 = some F ∧
      F j c = ∑ r ∈ (range nlat).filter (fun r => Spec.Displaced vort q j r c),
        (if j < r then - f r c else f r c) * dmu r := by
  refine ⟨_, by cases part <;> rfl, ?_⟩
  unfold lwaBigsigma
  rw [if_pos (by omega), sum_filter]
  refine sum_congr rfl fun r _ => ?_
  unfold anticyclonicMask cyclonicMask vortE
  by_cases h1 : r < j + 1
  · rw [if_pos h1, if_pos h1, if_neg (show ¬ j < r by omega)]
    by_cases h2 : q j < vort r c
    · have h3 : Spec.Displaced vort q j r c := Or.inr ⟨by omega, h2⟩
      rw [if_pos (show 0 < vort r c - q j by linarith), if_pos h3]; ring
    · have h3 : ¬ Spec.Displaced vort q j r c := by
        rintro (⟨h, _⟩ | ⟨_, h⟩)
        · omega
        · exact h2 h
      rw [if_neg (show ¬ 0 < vort r c - q j by linarith), if_neg h3]; ring
  · rw [if_neg h1, if_neg h1, if_pos (show j < r by omega)]
    by_cases h2 : vort r c < q j
    · have h3 : Spec.Displaced vort q j r c := Or.inl ⟨by omega, h2⟩
      rw [if_pos (show vort r c - q j < 0 by linarith), if_pos h3]; ring
    · have h3 : ¬ Spec.Displaced vort q j r c := by
        rintro (⟨_, h⟩ | ⟨h, _⟩)
        · exact h2 h
        · omega
      rw [if_neg (show ¬ vort r c - q j < 0 by linarith), if_neg h3]; ring

/-- C07: no displaced value, no forcing term (on any row). -/
theorem C07_forcing_zero_without_waves (nlat : ℕ) (vort : ℕ → ℕ → K) (q dmu : ℕ → K) (part : Bool) (f : ℕ → ℕ → K)
    (j c : ℕ) (h : ∀ r < nlat, ¬ Spec.Displaced vort q j r c) :
    ∃ F, (lwa nlat vort q dmu part (some f)).2 = some F ∧ F j c = 0 := by
  by_cases hj : j + 1 < nlat
  · obtain ⟨F, h1, h2⟩ := C07_forcing_supported_on_displaced nlat vort q dmu part f j c hj
    refine ⟨F, h1, ?_⟩
    rw [h2, filter_false_of_mem (fun r hr => h r (mem_range.1 hr)), sum_empty]
  · refine ⟨_, by cases part <;> rfl, ?_⟩
    unfold lwaBigsigma; rw [if_neg (by omega)]

/-- A case with a displaced value and one without. -/
example : (1 + 1 < 3 ∧ Spec.Displaced wavyField (fun r => (r : ℚ)) 1 1 0) ∧
    (∀ r < 3, ¬ Spec.Displaced wavyField (fun r => (r : ℚ)) 0 r 0) := by
  refine ⟨⟨by norm_num, Or.inr ⟨le_rfl, by norm_num [wavyField]⟩⟩, ?_⟩
  intro r hr; interval_cases r <;> simp [Spec.Displaced, wavyField]

end Falwa
