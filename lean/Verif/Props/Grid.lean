import Verif.Model.Grid
import Mathlib.Algebra.Order.Floor.Ring
import Mathlib.Tactic.FieldSimp
import Mathlib.Tactic.Ring
import Mathlib.Tactic.Linarith
import Mathlib.Tactic.IntervalCases
import Mathlib.Algebra.Order.Archimedean.Real.Basic

/-!
# Properties of the grid checks (C32-C35)
-/

namespace Falwa

open Finset

set_option linter.unusedSectionVars false

section

variable {K : Type*} [Field K] [LinearOrder K] [IsStrictOrderedRing K]

theorem firstZero_spec (n : ℕ) (y : ℕ → K) (h : ∃ i < n, y i = 0) :
    ∃ e, firstZero n y = .ok e ∧ e < n ∧ y e = 0 ∧ ∀ i < e, y i ≠ 0 := by
  obtain ⟨i, hi, hyi⟩ := h
  unfold firstZero
  cases hf : (List.range n).find? (fun i => decide (y i = 0)) with
  | none =>
    rw [List.find?_eq_none] at hf
    exact absurd hyi (by simpa using hf i (List.mem_range.mpr hi))
  | some e =>
    rw [List.find?_range_eq_some] at hf
    obtain ⟨h1, h2, h3⟩ := hf
    refine ⟨e, rfl, List.mem_range.mp h2, by simpa using h1, fun i hi => by simpa using h3 i hi⟩

theorem exists_of_zeroCount (n : ℕ) (y : ℕ → K) (h : zeroCount n y = 1) : ∃ i < n, y i = 0 := by
  unfold zeroCount at h
  obtain ⟨i, hi⟩ := card_pos.mp (by omega : 0 < ((range n).filter fun i => y i = 0).card)
  rw [mem_filter, mem_range] at hi
  exact ⟨i, hi⟩

theorem zeroCount_unique (n : ℕ) (y : ℕ → K) (h : zeroCount n y = 1) {i j : ℕ} (hi : i < n) (hj : j < n)
    (hyi : y i = 0) (hyj : y j = 0) : i = j := by
  unfold zeroCount at h
  exact (card_le_one.mp h.le) i (by simp [hi, hyi]) j (by simp [hj, hyj])

/-- The regular grid of the even branch contains the equator exactly in the middle. -/
theorem evenGrid_zero (n : ℕ) (hn : 2 ≤ n) (i : ℕ) : (-90 + 180 * (i : K) / n = 0) ↔ 2 * i = n := by
  have h0 : (n : K) ≠ 0 := by exact_mod_cast (by omega : n ≠ 0)
  constructor
  · intro h
    field_simp at h
    have : (2 * i : K) = n := by linarith
    exact_mod_cast this
  · intro h
    have : (2 * i : K) = n := by exact_mod_cast h
    field_simp
    linarith

/-! ## C32 -/

/-- The documented condition on a latitude array. -/
def DocumentedYlat (n : ℕ) (ylat : ℕ → K) : Prop :=
  ylat 0 ≤ ylat 1 ∧ ((Even n ∧ ∀ i < n, ylat i ≠ 0) ∨ ∃! i, i < n ∧ ylat i = 0)

theorem zeroCount_eq_zero (n : ℕ) (y : ℕ → K) : zeroCount n y = 0 ↔ ∀ i < n, y i ≠ 0 := by
  unfold zeroCount
  rw [card_eq_zero, filter_eq_empty_iff]
  simp [mem_range]

theorem zeroCount_eq_one (n : ℕ) (y : ℕ → K) : zeroCount n y = 1 ↔ ∃! i, i < n ∧ y i = 0 := by
  unfold zeroCount
  rw [card_eq_one]
  constructor
  · rintro ⟨i, hi⟩
    have : ∀ j, (j < n ∧ y j = 0) ↔ j = i := fun j => by
      have : j ∈ (range n).filter (fun i => y i = 0) ↔ j = i := by rw [hi, mem_singleton]
      rwa [mem_filter, mem_range] at this
    exact ⟨i, (this i).mpr rfl, fun j hj => (this j).mp hj⟩
  · rintro ⟨i, hi, hu⟩
    refine ⟨i, ?_⟩
    ext j
    rw [mem_filter, mem_range, mem_singleton]
    exact ⟨fun h => hu j h, fun h => h ▸ hi⟩

/-- C32, decision: with at least two latitudes the constructor accepts exactly the documented arrays and raises
`TypeError` for all others. -/
theorem C32_accepts_exactly (n : ℕ) (ylat : ℕ → K) (hn : 2 ≤ n) :
    ((∃ g, checkYlat n ylat = .ok g) ↔ DocumentedYlat n ylat) ∧
    (¬ DocumentedYlat n ylat → checkYlat n ylat = .error .typeError) := by
  have hdec : DocumentedYlat n ylat ↔ ¬ (ylat 1 - ylat 0 < 0) ∧
      ((n % 2 = 0 ∧ zeroCount n ylat = 0) ∨ zeroCount n ylat = 1) := by
    unfold DocumentedYlat
    rw [zeroCount_eq_zero, zeroCount_eq_one, Nat.even_iff, sub_neg, not_lt]
  rw [hdec]
  unfold checkYlat
  rw [if_neg (by omega)]
  by_cases h1 : ylat 1 - ylat 0 < 0
  · simp [h1]
  · simp only [h1, if_false, not_false_eq_true, true_and]
    by_cases h2 : n % 2 = 0 ∧ zeroCount n ylat = 0
    · obtain ⟨e, he, _⟩ := firstZero_spec (n + 1) (fun i : ℕ => (-90 + 180 * (i : K) / n : K))
        ⟨n / 2, by omega, (evenGrid_zero n hn (n / 2)).mpr (by omega)⟩
      rw [if_pos h2, he]
      simp [h2, Except.map]
    · rw [if_neg h2]
      by_cases h3 : zeroCount n ylat = 1
      · obtain ⟨e, he, _⟩ := firstZero_spec n ylat (exists_of_zeroCount n ylat h3)
        rw [if_pos h3, he]
        simp [h3, Except.map]
      · rw [if_neg h3]
        simp [h2, h3]

/-- C32, the analysis grid: the equator is at the recorded (1-based) index and nowhere else, and the number of
latitudes is the input number, plus one if the input has no equator. -/
theorem C32_analysis_grid (n : ℕ) (ylat : ℕ → K) (g : LatGrid K) (h : checkYlat n ylat = .ok g) :
    1 ≤ g.equatorIdx ∧ g.equatorIdx ≤ g.nlat ∧ (∀ i < g.nlat, g.ylat i = 0 ↔ i + 1 = g.equatorIdx) ∧
    (g.needInterp = true ↔ ∀ i < n, ylat i ≠ 0) ∧
    g.nlat = (if g.needInterp then n + 1 else n) ∧
    (g.needInterp = false → g.ylat = ylat) := by
  unfold checkYlat at h
  split_ifs at h with h0 h1 h2 h3
  · obtain ⟨e, he, hlt, hz, hf⟩ := firstZero_spec (n + 1) (fun i : ℕ => (-90 + 180 * (i : K) / n : K))
      ⟨n / 2, by omega, (evenGrid_zero n (by omega) (n / 2)).mpr (by omega)⟩
    simp only [he, Except.map, Except.ok.injEq] at h
    subst h
    have hz' := (evenGrid_zero n (by omega) e).mp hz
    refine ⟨by simp, by simpa using hlt, fun i _ => ?_, ?_, rfl, by simp⟩
    · show (-90 + 180 * (i : K) / n = 0) ↔ i + 1 = e + 1
      rw [evenGrid_zero n (by omega) i]; omega
    · simpa using (zeroCount_eq_zero n ylat).mp h2.2
  · obtain ⟨e, he, hlt, hz, hf⟩ := firstZero_spec n ylat (exists_of_zeroCount n ylat h3)
    rw [he] at h
    simp only [Except.map, Except.ok.injEq] at h
    subst h
    refine ⟨by simp, by simpa using hlt, fun i hi => ?_, ?_, rfl, fun _ => rfl⟩
    · show ylat i = 0 ↔ i + 1 = e + 1
      constructor
      · intro hi0
        rw [zeroCount_unique n ylat h3 hi hlt hi0 hz]
      · intro hie
        rw [show i = e by omega]; exact hz
    · simp only [Bool.false_eq_true, false_iff, not_forall, not_not]
      exact ⟨e, hlt, hz⟩

/-- An odd grid with the equator and an even grid without it are documented; a grid without equator of odd size is not. -/
example : DocumentedYlat 3 (fun i : ℕ => (i : ℚ) - 1) ∧ DocumentedYlat 2 (fun i : ℕ => 2 * (i : ℚ) - 1) ∧
    ¬ DocumentedYlat 3 (fun i : ℕ => (i : ℚ) + 1) := by
  refine ⟨⟨by norm_num, Or.inr ⟨1, by norm_num, ?_⟩⟩, ⟨by norm_num, Or.inl ⟨by decide, ?_⟩⟩, ?_⟩
  · rintro j ⟨hj, h⟩
    interval_cases j
    · simp at h
    · rfl
    · norm_num at h
  · intro i hi; interval_cases i <;> norm_num
  · rintro ⟨_, h | ⟨i, ⟨_, h⟩, _⟩⟩
    · exact absurd h.1 (by decide)
    · have : (0 : ℚ) ≤ i := Nat.cast_nonneg i
      linarith

/-! ## C33 -/

/-- C33, full statement: an accepted grid has an odd number of analysis latitudes with the equator in the middle. -/
def C33_Statement (K : Type*) [Field K] [LinearOrder K] : Prop :=
  ∀ (n : ℕ) (ylat : ℕ → K) (g : LatGrid K), checkYlat n ylat = .ok g → g.nlat = 2 * g.equatorIdx - 1

/-- C33, partial: it holds for every accepted grid without the equator (these get a new grid), and for accepted grids that
are symmetric about the equator, i.e. latitude `i` from the south is minus latitude `i` from the north.
Missing: accepted grids with the equator elsewhere than in the middle (`C33_refuted`). -/
theorem C33_middle_equator_partial (n : ℕ) (ylat : ℕ → K) (g : LatGrid K) (h : checkYlat n ylat = .ok g)
    (hs : g.needInterp = true ∨ (∀ i < n, ylat (n - 1 - i) = - ylat i)) : g.nlat = 2 * g.equatorIdx - 1 := by
  obtain ⟨h1, h2, h3, h4, h5, h6⟩ := C32_analysis_grid n ylat g h
  cases hi : g.needInterp with
  | true =>
    unfold checkYlat at h
    split_ifs at h with a b c d
    · obtain ⟨e, he, hlt, hz, hf⟩ := firstZero_spec (n + 1) (fun i : ℕ => (-90 + 180 * (i : K) / n : K))
        ⟨n / 2, by omega, (evenGrid_zero n (by omega) (n / 2)).mpr (by omega)⟩
      simp only [he, Except.map, Except.ok.injEq] at h
      subst h
      have := (evenGrid_zero n (by omega) e).mp hz
      show n + 1 = 2 * (e + 1) - 1
      omega
    · obtain ⟨e, he, _⟩ := firstZero_spec n ylat (exists_of_zeroCount n ylat d)
      rw [he] at h
      simp only [Except.map, Except.ok.injEq] at h
      subst h
      cases hi
  | false =>
    rw [hi] at hs h5
    have hs := hs.resolve_left (by simp)
    simp only [Bool.false_eq_true, if_false] at h5
    have hy := h6 hi
    have hlt : g.equatorIdx - 1 < n := by omega
    have hz : ylat (g.equatorIdx - 1) = 0 := by
      rw [← hy]; exact (h3 _ (by omega)).mpr (by omega)
    have hz' := hs _ hlt
    rw [hz, neg_zero, ← hy] at hz'
    have := (h3 (n - 1 - (g.equatorIdx - 1)) (by omega)).mp hz'
    omega

example : ∀ i < 5, ((5 - 1 - i : ℕ) : ℚ) * 45 - 90 = - ((i : ℚ) * 45 - 90) := by
  intro i hi; interval_cases i <;> norm_num

/-- C33 fails: the latitudes 0 and 90 are accepted, with two analysis latitudes and the equator in the first place. -/
theorem C33_refuted : ¬ C33_Statement ℚ := by
  intro h
  have hz : zeroCount 2 (fun i : ℕ => (90 * i : ℚ)) = 1 := by
    rw [zeroCount_eq_one]
    refine ⟨0, by norm_num, ?_⟩
    rintro j ⟨hj, hy⟩
    interval_cases j <;> simp at hy ⊢
  obtain ⟨g, hg⟩ := ((C32_accepts_exactly 2 (fun i : ℕ => (90 * i : ℚ)) le_rfl).1).mpr
    ⟨by norm_num, Or.inr ((zeroCount_eq_one _ _).mp hz)⟩
  obtain ⟨_, _, h3, h4, h5, h6⟩ := C32_analysis_grid _ _ g hg
  have hni : g.needInterp = false := by
    rcases Bool.eq_false_or_eq_true g.needInterp with ht | hf
    · exact absurd (by norm_num) (h4.mp ht 0 (by norm_num))
    · exact hf
  have := h _ _ g hg
  rw [hni] at h5
  simp only [Bool.false_eq_true, if_false] at h5
  have he := (h3 0 (by omega)).mp (by rw [h6 hni]; norm_num)
  omega

end

/-! ## C34 -/

/-- C34. For levels that start descending: `kmax` is accepted exactly if the top level reaches `(kmax-1) dz`; the number
in the error message is the largest accepted `kmax`. -/
theorem C34_kmax_bound (n : ℕ) (plev : ℕ → ℝ) (scaleHeight dz : ℝ) (kmax : ℤ) (hp : plev 1 ≤ plev 0) (hdz : 0 < dz) :
    (checkPlev n plev scaleHeight kmax dz = .ok ↔ (kmax - 1) * dz ≤ -scaleHeight * Real.log (plev (n - 1) / 1000)) ∧
    (∀ q, checkPlev n plev scaleHeight kmax dz = .valueError q →
      checkPlev n plev scaleHeight q dz = .ok ∧ ∀ k, q < k → checkPlev n plev scaleHeight k dz = .valueError q) := by
  have hd : ¬ (plev 1 - plev 0 > 0) := by linarith
  have key : ∀ k : ℤ, plevTop n plev scaleHeight < (k - 1) * dz ↔ ⌊plevTop n plev scaleHeight / dz⌋ + 1 < k := by
    intro k
    rw [← div_lt_iff₀ hdz]
    have : (((k - 1 : ℤ)) : ℝ) = (k : ℝ) - 1 := by push_cast; ring
    rw [← this, ← Int.floor_lt]
    omega
  unfold checkPlev
  simp only [hd, if_false]
  constructor
  · split_ifs with h
    · simp only [false_iff]
      exact not_le.mpr h
    · simp only [true_iff]; exact not_lt.mp h
  · intro q hq
    split_ifs at hq with h
    injection hq with hq
    constructor
    · rw [if_neg]
      rw [key, hq]; omega
    · intro k hk
      rw [if_pos, hq]
      rw [key, hq]; exact hk

/-- Two levels, 1000 and 500 hPa, with `dz` = 1 km meet the hypotheses. -/
example : (fun i : ℕ => if i = 0 then (1000 : ℝ) else 500) 1 ≤ (fun i : ℕ => if i = 0 then (1000 : ℝ) else 500) 0 ∧
    (0 : ℝ) < 1000 := by norm_num

/-- C34, levels that start ascending are refused whatever `kmax`. -/
theorem C34_ascending_refused (n : ℕ) (plev : ℕ → ℝ) (scaleHeight dz : ℝ) (kmax : ℤ) (hp : plev 0 < plev 1) :
    checkPlev n plev scaleHeight kmax dz = .typeError := by
  unfold checkPlev
  rw [if_pos (by linarith)]

/-! ## C35 -/

/-- C35, full statement: accepted latitudes are strictly ascending and accepted levels strictly descending. -/
def C35_Statement : Prop :=
  (∀ (n : ℕ) (ylat : ℕ → ℝ) (g : LatGrid ℝ), checkYlat n ylat = .ok g → ∀ i, i + 1 < n → ylat i < ylat (i + 1)) ∧
  (∀ (n : ℕ) (plev : ℕ → ℝ) (H dz : ℝ) (kmax : ℤ), 2 ≤ n → checkPlev n plev H kmax dz = .ok →
    ∀ i, i + 1 < n → plev (i + 1) < plev i)

/-- C35, partial: only the first pair is known to be in (weak) order; and the grid that replaces an even grid is strictly
ascending. Missing: all other pairs (`C35_refuted`). -/
theorem C35_first_pair_partial :
    (∀ (n : ℕ) (ylat : ℕ → ℝ) (g : LatGrid ℝ), checkYlat n ylat = .ok g →
      ylat 0 ≤ ylat 1 ∧ (g.needInterp = true → ∀ i, g.ylat i < g.ylat (i + 1))) ∧
    (∀ (n : ℕ) (plev : ℕ → ℝ) (H dz : ℝ) (kmax : ℤ), checkPlev n plev H kmax dz = .ok → plev 1 ≤ plev 0) := by
  constructor
  · intro n ylat g h
    unfold checkYlat at h
    split_ifs at h with h0 h1 h2 h3
    · refine ⟨by linarith, fun _ i => ?_⟩
      obtain ⟨e, he, _⟩ := firstZero_spec (n + 1) (fun i : ℕ => (-90 + 180 * (i : ℝ) / n : ℝ))
        ⟨n / 2, by omega, (evenGrid_zero n (by omega) (n / 2)).mpr (by omega)⟩
      simp only [he, Except.map, Except.ok.injEq] at h
      subst h
      have hn : (0 : ℝ) < n := by exact_mod_cast (by omega : 0 < n)
      show -90 + 180 * (i : ℝ) / n < -90 + 180 * ((i + 1 : ℕ) : ℝ) / n
      push_cast
      have : 180 * (i : ℝ) / n < 180 * ((i : ℝ) + 1) / n := by
        apply div_lt_div_of_pos_right _ hn; linarith
      linarith
    · refine ⟨by linarith, fun hi => ?_⟩
      obtain ⟨e, he, _⟩ := firstZero_spec n ylat (exists_of_zeroCount n ylat h3)
      rw [he] at h
      simp only [Except.map, Except.ok.injEq] at h
      subst h
      cases hi
  · intro n plev H dz kmax h
    unfold checkPlev at h
    split_ifs at h with h1
    linarith

/-- C35 fails for latitudes -10, 0, -20 (accepted as an odd grid). -/
theorem C35_refuted : ¬ C35_Statement := by
  rintro ⟨h, _⟩
  set y : ℕ → ℝ := fun i => if i = 0 then -10 else if i = 1 then 0 else -20 with hy
  obtain ⟨g, hg⟩ := ((C32_accepts_exactly 3 y (by norm_num)).1).mpr
    ⟨by norm_num [hy], Or.inr ⟨1, by norm_num [hy], by
      rintro j ⟨hj, h0⟩
      interval_cases j
      · norm_num [hy] at h0
      · rfl
      · norm_num [hy] at h0⟩⟩
  have := h 3 y g hg 1 (by norm_num)
  norm_num [hy] at this

/-- C35 fails for levels, too: 1000, 500, 700 hPa are accepted with `kmax = 1`. -/
theorem C35_levels_refuted : ∃ (plev : ℕ → ℝ), checkPlev 3 plev 7000 1 1000 = .ok ∧ plev 1 < plev 2 := by
  refine ⟨fun i => if i = 0 then 1000 else if i = 1 then 500 else 700, ?_, by norm_num⟩
  refine ((C34_kmax_bound 3 _ 7000 1000 1 (by norm_num) (by norm_num)).1).mpr ?_
  have : Real.log (700 / 1000) ≤ 0 := Real.log_nonpos (by norm_num) (by norm_num)
  norm_num at this ⊢
  linarith

end Falwa
