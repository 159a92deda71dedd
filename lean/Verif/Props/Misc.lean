import Verif.Model.Misc
import Verif.Props.Flux
import Verif.Props.Storage
import Mathlib.Algebra.BigOperators.Field
import Mathlib.Tactic.FieldSimp

/-!
# Covariance map, gap filling, index map, units of the reference QGPV, stored components (C66 – C70)
-/

set_option linter.unusedSectionVars false
set_option linter.unusedSimpArgs false

noncomputable section

namespace Falwa

open Real Finset

/-! ### C66 -/

/-- Sum over all ordered pairs of observations of half the product of differences; no means occur in it. -/
def pairwiseCov (T : ℕ) (x y : ℕ → ℝ) : ℝ :=
  (∑ s ∈ range T, ∑ t ∈ range T, (x s - x t) * (y s - y t)) / (2 * (T : ℝ) * ((T : ℝ) - 1))

theorem centred_sum {T : ℕ} (hT : 1 ≤ T) (x y : ℕ → ℝ) :
    ∑ t ∈ range T, (x t - timeMean T x) * (y t - timeMean T y) =
      ∑ t ∈ range T, x t * y t - (∑ t ∈ range T, x t) * (∑ t ∈ range T, y t) / (T : ℝ) := by
  have hT' : (T : ℝ) ≠ 0 := by positivity
  have e : ∀ t, (x t - timeMean T x) * (y t - timeMean T y) =
      x t * y t - timeMean T y * x t - timeMean T x * y t + timeMean T x * timeMean T y := fun t => by ring
  simp only [e, sum_add_distrib, sum_sub_distrib, ← mul_sum, sum_const, card_range, nsmul_eq_mul]
  unfold timeMean
  field_simp
  ring

theorem pair_sum (T : ℕ) (x y : ℕ → ℝ) :
    ∑ s ∈ range T, ∑ t ∈ range T, (x s - x t) * (y s - y t) =
      2 * ((T : ℝ) * ∑ t ∈ range T, x t * y t - (∑ t ∈ range T, x t) * (∑ t ∈ range T, y t)) := by
  have e : ∀ s, ∑ t ∈ range T, (x s - x t) * (y s - y t) =
      (T : ℝ) * (x s * y s) - x s * (∑ t ∈ range T, y t) - y s * (∑ t ∈ range T, x t) + ∑ t ∈ range T, x t * y t := by
    intro s
    have : ∀ t, (x s - x t) * (y s - y t) = x s * y s - x s * y t - y s * x t + x t * y t := fun t => by ring
    simp only [this, sum_add_distrib, sum_sub_distrib, ← mul_sum, sum_const, card_range, nsmul_eq_mul]
    ring
  simp only [e, sum_add_distrib, sum_sub_distrib, ← mul_sum, sum_const, card_range, nsmul_eq_mul, ← sum_mul]
  ring

theorem covariance_eq (T n : ℕ) (a b : ℕ → ℕ → ℕ → ℝ) {i : ℕ} (hi : i < n) (j : ℕ) :
    calculateCovariance T n a b j i =
      (∑ t ∈ range T, (a t j i - timeMean T (fun t => a t j i)) * (b t j i - timeMean T (fun t => b t j i))) / ((T : ℝ) - 1) := by
  unfold calculateCovariance npDiagonal npCov
  simp only [if_pos hi, if_neg (show ¬ i + n < n by omega), Nat.add_sub_cancel]

/-- C66: the entry at `(lat, lon)` is the sample covariance of the two series at this point. -/
theorem C66_covariance {T n : ℕ} (hT : 2 ≤ T) (a b : ℕ → ℕ → ℕ → ℝ) (j : ℕ) {i : ℕ} (hi : i < n) :
    calculateCovariance T n a b j i = pairwiseCov T (fun t => a t j i) (fun t => b t j i) := by
  have hT' : (T : ℝ) ≠ 0 := by positivity
  have hT1 : (T : ℝ) - 1 ≠ 0 := by
    have : (2 : ℝ) ≤ T := by exact_mod_cast hT
    linarith
  rw [covariance_eq T n a b hi, centred_sum (by omega)]
  unfold pairwiseCov
  rw [pair_sum]
  field_simp

/-- C66: symmetric, bilinear, unchanged by shifts, and nonnegative for equal arguments. -/
theorem C66_laws {T n : ℕ} (hT : 2 ≤ T) (a b c : ℕ → ℕ → ℕ → ℝ) (p q : ℝ) (sa sb : ℕ → ℕ → ℝ) (j : ℕ) {i : ℕ} (hi : i < n) :
    calculateCovariance T n a b j i = calculateCovariance T n b a j i ∧
    calculateCovariance T n (fun t j i => p * a t j i + q * c t j i) b j i =
      p * calculateCovariance T n a b j i + q * calculateCovariance T n c b j i ∧
    calculateCovariance T n (fun t j i => a t j i + sa j i) (fun t j i => b t j i + sb j i) j i = calculateCovariance T n a b j i ∧
    0 ≤ calculateCovariance T n a a j i := by
  simp only [C66_covariance hT _ _ j hi]
  unfold pairwiseCov
  have hT2 : (2 : ℝ) ≤ T := by exact_mod_cast hT
  refine ⟨?_, ?_, ?_, ?_⟩
  · congr 1
    exact sum_congr rfl fun s _ => sum_congr rfl fun t _ => mul_comm _ _
  · rw [← mul_div_assoc, ← mul_div_assoc, ← add_div]
    congr 1
    rw [mul_sum, mul_sum, ← sum_add_distrib]
    refine sum_congr rfl fun s _ => ?_
    rw [mul_sum, mul_sum, ← sum_add_distrib]
    exact sum_congr rfl fun t _ => by ring
  · congr 1
    exact sum_congr rfl fun s _ => sum_congr rfl fun t _ => by ring
  · refine div_nonneg (sum_nonneg fun s _ => sum_nonneg fun t _ => mul_self_nonneg _) ?_
    have : (0 : ℝ) ≤ (T : ℝ) - 1 := by linarith
    positivity

/-- Two observations 0, 2 and 1, 5: the covariance is 4. -/
example : pairwiseCov 2 (fun t => 2 * t) (fun t => 1 + 4 * t) = 4 := by
  norm_num [pairwiseCov, sum_range_succ]

/-! ### C67 -/

/-- C67: without NaN the input is returned and the filler is not called; with a NaN the filler is called, with all invalid
values masked, and its result is returned. -/
theorem C67_gridfill (fill : List (List (Option ℝ)) → List (List Cell)) (field : List (List Cell)) :
    ((∀ row ∈ field, Cell.nan ∉ row) → gridfillEachLevel fill field = (field, none)) ∧
    ((∃ row ∈ field, Cell.nan ∈ row) → ∃ arg, gridfillEachLevel fill field = (fill arg, some arg) ∧
      List.Forall₂ (List.Forall₂ fun c o => (∀ x, c = .finite x ↔ o = some x)) field arg) := by
  have hnan : ∀ c : Cell, c.isNan = true ↔ c = .nan := by intro c; cases c <;> simp [Cell.isNan]
  have hsum : (field.map fun row => (row.filter Cell.isNan).length).sum = 0 ↔ ∀ row ∈ field, Cell.nan ∉ row := by
    rw [List.sum_eq_zero_iff]
    simp only [List.mem_map, forall_exists_index, and_imp, forall_apply_eq_imp_iff₂, List.length_eq_zero_iff,
      List.filter_eq_nil_iff, hnan]
    exact forall₂_congr fun row _ => ⟨fun h hn => h _ hn rfl, fun h a ha e => h (e ▸ ha)⟩
  constructor
  · intro h
    unfold gridfillEachLevel
    rw [if_pos (hsum.2 h)]
  · rintro ⟨row, hr, hn⟩
    refine ⟨field.map fun row => row.map Cell.masked, ?_, ?_⟩
    · unfold gridfillEachLevel
      rw [if_neg fun e => hsum.1 e row hr hn]
    · rw [List.forall₂_map_right_iff, List.forall₂_same]
      intro row _
      rw [List.forall₂_map_right_iff, List.forall₂_same]
      intro c _ x
      cases c <;> simp [Cell.masked]

example : (∃ row ∈ [[Cell.finite 1, Cell.nan], [Cell.infinite true]], Cell.nan ∈ row) ∧
    (∀ row ∈ [[Cell.infinite true]], Cell.nan ∉ row) := by simp

/-! ### C68 -/

/-- C68: every number below `jmax * kmax` belongs to exactly one pair of indices, and every pair has such a number. -/
theorem C68_numbering (jmax kmax : ℕ) :
    (∀ j k, j < jmax → k < kmax → inputJkOutputIndex j k kmax < jmax * kmax) ∧
    ∀ n, n < jmax * kmax → ∃! p : ℕ × ℕ, p.1 < jmax ∧ p.2 < kmax ∧ inputJkOutputIndex p.1 p.2 kmax = n := by
  unfold inputJkOutputIndex
  refine ⟨fun j k hj hk => ?_, fun n hn => ?_⟩
  · calc j * kmax + k < j * kmax + kmax := by omega
      _ = (j + 1) * kmax := by ring
      _ ≤ jmax * kmax := Nat.mul_le_mul_right _ hj
  · have hp : 0 < kmax := Nat.pos_of_ne_zero fun e => by rw [e] at hn; omega
    refine ⟨(n / kmax, n % kmax), ⟨(Nat.div_lt_iff_lt_mul hp).2 hn, Nat.mod_lt _ hp, Nat.div_add_mod' n kmax⟩, ?_⟩
    rintro ⟨j, k⟩ ⟨-, hk, rfl⟩
    simp only at hk
    have h1 : (j * kmax + k) / kmax = j := by
      rw [add_comm, Nat.add_mul_div_right _ _ hp, Nat.div_eq_of_lt hk, zero_add]
    have h2 : (j * kmax + k) % kmax = k := by
      rw [add_comm, Nat.add_mul_mod_self_right, Nat.mod_eq_of_lt hk]
    rw [h1, h2]

example : inputJkOutputIndex 2 1 3 = 7 ∧ 7 < 3 * 3 := by decide

/-! ### C69 -/

theorem sin_row_pos {m j : ℕ} (h1 : 1 ≤ j) (h2 : j ≤ m) : 0 < sin (π / ((2 * m : ℕ) : ℝ) * (j : ℝ)) := by
  have hm : (0 : ℝ) < m := by
    have : 0 < m := by omega
    exact_mod_cast this
  have hj : (0 : ℝ) < j := by exact_mod_cast h1
  have hjm : (j : ℝ) ≤ m := by exact_mod_cast h2
  push_cast
  refine sin_pos_of_pos_of_lt_pi (by positivity) ?_
  rw [div_mul_eq_mul_div, div_lt_iff₀ (by positivity)]
  nlinarith [pi_pos]

/-- Contents of the storage. -/
theorem storedQref_data (m : ℕ) (north south : ℤ → ℤ → ℝ) :
    (∀ j k : ℕ, j ≤ m → (storedQref m true north south).data j k = north (j + 1) (k + 1)) ∧
    (∀ j k : ℕ, 1 ≤ j → j ≤ m → (storedQref m false north south).data (m + j) k = north (j + 1) (k + 1)) ∧
    (∀ j k : ℕ, j ≤ m → (storedQref m false north south).data (m - j) k = south (j + 1) (k + 1)) := by
  refine ⟨fun j k hj => ?_, fun j k h1 hj => ?_, fun j k hj => ?_⟩
  · unfold storedQref Storage.setN
    simp only [if_true]
    rw [if_neg (by omega)]
    show (if m + 1 - (m + 1) ≤ j then fun k : ℕ => north (((j - (m + 1 - (m + 1)) : ℕ) : ℤ) + 1) (k + 1) else _) k = _
    rw [if_pos (by omega)]
    congr 2
    omega
  · unfold storedQref Storage.setN Storage.setS
    simp only [Bool.false_eq_true, if_false]
    rw [if_neg (show ¬ (m + 1 = 0 ∨ 2 * m + 1 < m + 1) by omega), if_neg (show ¬ 2 * m + 1 < m + 1 by omega)]
    show (if m + j < m + 1 then _ else if 2 * m + 1 - (m + 1) ≤ m + j then
      fun k : ℕ => north (((m + j - (2 * m + 1 - (m + 1)) : ℕ) : ℤ) + 1) (k + 1) else _) k = _
    rw [if_neg (by omega), if_pos (by omega)]
    congr 2
    omega
  · unfold storedQref Storage.setN Storage.setS
    simp only [Bool.false_eq_true, if_false]
    rw [if_neg (show ¬ (m + 1 = 0 ∨ 2 * m + 1 < m + 1) by omega), if_neg (show ¬ 2 * m + 1 < m + 1 by omega)]
    show (if m - j < m + 1 then fun k : ℕ => south (((m + 1 - 1 - (m - j) : ℕ) : ℤ) + 1) (k + 1) else _) k = _
    rw [if_pos (by omega)]
    congr 2
    omega

/-- What the user reads, in terms of the reference QGPV `qN`, `qS` that the area analysis of the two calls finds (rows counted
from the equator, the southern call seeing the field with reversed sign). -/
structure ReportedQref (m : ℕ) (omega : ℝ) (n s qN qS : ℤ → ℤ → ℝ) : Prop where
  northOnly : ∀ j k : ℕ, 1 ≤ j → j ≤ m →
    qrefCorrectUnit (storedQref m true n s).data (storedYlat m true) omega j k = qN (j + 1) (k + 1)
  north : ∀ j k : ℕ, 1 ≤ j → j ≤ m →
    qrefCorrectUnit (storedQref m false n s).data (storedYlat m false) omega (m + j) k = qN (j + 1) (k + 1)
  south : ∀ j k : ℕ, 1 ≤ j → j ≤ m →
    qrefCorrectUnit (storedQref m false n s).data (storedYlat m false) omega (m - j) k = -qS (j + 1) (k + 1)
  equator : ∀ k : ℕ, qrefCorrectUnit (storedQref m false n s).data (storedYlat m false) omega m k = 0 ∧
    qrefCorrectUnit (storedQref m true n s).data (storedYlat m true) omega 0 k = 0

theorem reported_of {m : ℕ} (hm : 1 ≤ m) {omega : ℝ} (ho : omega ≠ 0) {north south qN qS : ℤ → ℤ → ℝ}
    (hN : ∀ j k : ℕ, 1 ≤ j → j ≤ m →
      north (j + 1) (k + 1) = qN (j + 1) (k + 1) / (2 * omega * sin (π / ((2 * m : ℕ) : ℝ) * (j : ℝ))))
    (hS : ∀ j k : ℕ, 1 ≤ j → j ≤ m →
      south (j + 1) (k + 1) = qS (j + 1) (k + 1) / (2 * omega * sin (π / ((2 * m : ℕ) : ℝ) * (j : ℝ)))) :
    ReportedQref m omega north south qN qS := by
  have hm' : (m : ℝ) ≠ 0 := by
    have : m ≠ 0 := by omega
    exact_mod_cast this
  obtain ⟨d1, d2, d3⟩ := storedQref_data m north south
  refine ⟨fun j k h1 h2 => ?_, fun j k h1 h2 => ?_, fun j k h1 h2 => ?_, fun k => ⟨?_, ?_⟩⟩
  · have hs := (sin_row_pos h1 h2).ne'
    unfold qrefCorrectUnit storedYlat
    rw [d1 j k h2, hN j k h1 h2, if_pos rfl,
      show 180 * (j : ℝ) / (2 * m) * (π / 180) = π / ((2 * m : ℕ) : ℝ) * (j : ℝ) by push_cast; field_simp]
    generalize sin (π / ((2 * m : ℕ) : ℝ) * (j : ℝ)) = x at hs
    field_simp
  · have hs := (sin_row_pos h1 h2).ne'
    unfold qrefCorrectUnit storedYlat
    rw [d2 j k h1 h2, hN j k h1 h2, if_neg (by simp),
      show (-90 + 180 * ((m + j : ℕ) : ℝ) / (2 * m)) * (π / 180) = π / ((2 * m : ℕ) : ℝ) * (j : ℝ) by
        push_cast; field_simp; ring]
    generalize sin (π / ((2 * m : ℕ) : ℝ) * (j : ℝ)) = x at hs
    field_simp
  · have hs := (sin_row_pos h1 h2).ne'
    unfold qrefCorrectUnit storedYlat
    rw [d3 j k h2, hS j k h1 h2, if_neg (by simp),
      show (-90 + 180 * ((m - j : ℕ) : ℝ) / (2 * m)) * (π / 180) = -(π / ((2 * m : ℕ) : ℝ) * (j : ℝ)) by
        rw [Nat.cast_sub h2]; push_cast; field_simp; ring, sin_neg]
    generalize sin (π / ((2 * m : ℕ) : ℝ) * (j : ℝ)) = x at hs
    field_simp
  · unfold qrefCorrectUnit storedYlat
    rw [if_neg (by simp), show (-90 + 180 * (m : ℝ) / (2 * m)) * (π / 180) = 0 by field_simp; ring, sin_zero, mul_zero]
  · unfold qrefCorrectUnit storedYlat
    rw [if_pos rfl, Nat.cast_zero, show 180 * (0 : ℝ) / (2 * m) * (π / 180) = 0 by simp, sin_zero, mul_zero]

/-- C69, `QGFieldNH18`: the user reads the reference QGPV of the area analysis, with the southern sign in the south and zero at
the equator, in both modes. -/
theorem C69_nh18 {m : ℕ} (hm : 1 ≤ m) (I J : RefIn) (ho : I.om ≠ 0) (hJ : J.om = I.om) (h1 : I.dphi = π / ((2 * m : ℕ) : ℝ))
    (h2 : J.dphi = π / ((2 * m : ℕ) : ℝ)) : ReportedQref m I.om I.qref J.qref I.qrefRaw J.qrefRaw := by
  have key : ∀ K : RefIn, K.om = I.om → K.dphi = π / ((2 * m : ℕ) : ℝ) → ∀ j k : ℕ, 1 ≤ j → j ≤ m →
      K.qref (j + 1) (k + 1) = K.qrefRaw (j + 1) (k + 1) / (2 * I.om * sin (π / ((2 * m : ℕ) : ℝ) * (j : ℝ))) := by
    intro K hK hd j k hj _
    unfold RefIn.qref
    rw [if_neg (by omega)]
    unfold RefIn.qrefNorm RefIn.cor RefIn.phi
    rw [hK, hd]
    push_cast
    rw [add_sub_cancel_right]
  exact reported_of hm ho (key I rfl h1) (key J hJ h2)

/-- C69, `QGFieldNHN22`. -/
theorem C69_nhn22 {m : ℕ} (hm : 1 ≤ m) (I J : NhnIn) (ho : I.om ≠ 0) (hJ : J.om = I.om) (h1 : I.dphi = π / ((2 * m : ℕ) : ℝ))
    (h2 : J.dphi = π / ((2 * m : ℕ) : ℝ)) : ReportedQref m I.om I.qrefOut J.qrefOut I.qrefRaw J.qrefRaw := by
  have key : ∀ K : NhnIn, K.om = I.om → K.dphi = π / ((2 * m : ℕ) : ℝ) → ∀ j k : ℕ, 1 ≤ j → j ≤ m →
      K.qrefOut (j + 1) (k + 1) = K.qrefRaw (j + 1) (k + 1) / (2 * I.om * sin (π / ((2 * m : ℕ) : ℝ) * (j : ℝ))) := by
    intro K hK hd j k hj _
    unfold NhnIn.qrefOut NhnIn.qref
    rw [if_neg (by omega)]
    unfold NhnIn.qrefNorm
    rw [hK, hd, div_div, mul_comm (sin _)]
    push_cast
    rw [add_sub_cancel_right]
  exact reported_of hm ho (key I rfl h1) (key J hJ h2)

/-- The 1-degree grid of the documentation: 181 rows, 90 north of the equator. -/
example : (1 : ℕ) ≤ 90 ∧ (7.29e-5 : ℝ) ≠ 0 := by norm_num

/-! ### C70 -/

namespace QGAnalysis

/-- C70: starting from a fresh storage in global mode, the stored components add up to the wave activity everywhere. -/
def C70_Statement : Prop :=
  ∀ S : QGAnalysis, S.Valid → S.nhOnly = false → ∀ i g k, 1 ≤ i → i ≤ S.nlon → 1 ≤ g → g ≤ S.nlat → 1 ≤ k → k ≤ S.kmax →
    S.astar1OfLwaOnly (fun _ _ _ => 0) i g k + S.astar2OfLwaOnly (fun _ _ _ => 0) i g k = S.lwaOfLwaOnly i g k

/-- C70, what holds: north of the equator (everywhere in northern-only mode) the components add up, whatever the storage held
before. -/
theorem C70_north_partial {S : QGAnalysis} (hv : S.Valid) (old : ℤ → ℤ → ℤ → ℝ) {i g k : ℤ} (heq : S.nhOnly = true ∨ S.nd < g)
    (hg : S.rows - S.nd + 1 ≤ g) :
    S.astar1OfLwaOnly old i g k + S.astar2OfLwaOnly old i g k = S.lwaOfLwaOnly i g k := by
  have hn : ¬ (S.nhOnly = false ∧ g ≤ S.nd) := by
    rintro ⟨a, b⟩
    rcases heq with h | h
    · rw [h] at a; cases a
    · omega
  have c1 : ∀ x y, (layerwiseClass.declared.lookup x = some y) → S.rows - S.nd + 1 ≤ g → ∀ sAcc o n s,
      S.layerwiseAfter y x sAcc o n s g = n (g - (S.rows - S.nd)) := by
    intro x y h1 h2 sAcc o n s
    unfold layerwiseAfter
    rw [if_neg (fun h => hn ⟨h.1, h.2.2⟩), if_pos ⟨h1, h2⟩]
  unfold astar1OfLwaOnly astar2OfLwaOnly lwaOfLwaOnly
  rw [c1 _ _ (by decide) hg, c1 _ _ (by decide) hg, store_north heq hg]
  have h := lwaOnly_components S.northLwaIn S.northIn hv.jb0 rfl rfl rfl rfl rfl rfl rfl rfl i (g - (S.rows - S.nd)) k
  have hp := C42_nonneg hv i (g - (S.rows - S.nd)) k
  show |_| + |_| = |_|
  rw [h.1, h.2, abs_of_nonneg hp.1, abs_of_nonneg hp.2.1, abs_of_nonneg (add_nonneg hp.1 hp.2.1)]

/-- C70, what the code does south of the equator: the components keep what the storage held before, for every field. -/
theorem C70_south_unchanged_partial {S : QGAnalysis} (hv : S.Valid) (hm : S.nhOnly = false) (old : ℤ → ℤ → ℤ → ℝ) {i g k : ℤ}
    (hg : g < S.nd) : S.astar1OfLwaOnly old i g k = old i g k ∧ S.astar2OfLwaOnly old i g k = old i g k := by
  have hodd := hv.odd
  have hr : S.rows = S.nlat := by simp [rows, hm]
  have c : ∀ x y sAcc o n s, (layerwiseClass.declared.lookup sAcc ≠ some y) → S.layerwiseAfter y x sAcc o n s g = o g := by
    intro x y sAcc o n s h1
    unfold layerwiseAfter
    rw [if_neg (fun h => h1 h.2.1), if_neg (by rintro ⟨-, h⟩; omega)]
  unfold astar1OfLwaOnly astar2OfLwaOnly
  exact ⟨c _ _ _ _ _ _ (by decide), c _ _ _ _ _ _ (by decide)⟩

/-- A trough at the equator: the southern row next to it has wave activity. -/
def southSample : QGAnalysis := { sample with qgpv := fun _ g _ => if g = 3 then -1 else 0 }

theorem southSample_valid : southSample.Valid := ⟨by rfl, by decide, by decide, by rfl, by norm_num [southSample, sample]⟩

theorem southSample_lwa : 0 < southSample.lwa 1 2 2 := by
  rw [C42_south southSample_valid rfl 1 2 2 (by decide) (by decide) (by decide), Spec.waveActivitySouth, sum_filter]
  have hterm : ∀ r ∈ Icc 1 southSample.nd, (if Spec.DisplacedSouth (fun r => southSample.qgpv 1 r 2) (southSample.qref 2 2) 2 r
      then |southSample.qgpv 1 r 2 - southSample.qref 2 2| * (southSample.a * cos (southSample.lat r) * southSample.dphi) else 0)
      = if r = 3 then π / 4 else 0 := by
    intro r hr
    rw [mem_Icc] at hr
    by_cases h3 : r = 3
    · subst h3
      rw [if_pos, if_pos rfl]
      · simp [southSample, sample, lat, dphi]
      · exact Or.inr ⟨by decide, by simp [southSample, sample]⟩
    · rw [if_neg h3]
      have : southSample.qgpv 1 r 2 = 0 := by simp [southSample, h3]
      rw [this]
      simp [southSample, sample]
  rw [sum_congr rfl hterm, sum_ite_eq', if_pos (by decide)]
  positivity

/-- C70 fails: lines 689-690 assign to names that the layerwise storage does not declare. -/
theorem C70_refuted : ¬ C70_Statement := by
  intro h
  have h1 := h southSample southSample_valid rfl 1 2 2 (by decide) (by decide) (by decide) (by decide) (by decide) (by decide)
  obtain ⟨a, b⟩ := C70_south_unchanged_partial southSample_valid rfl (fun _ _ _ => 0) (i := 1) (g := 2) (k := 2) (by decide)
  rw [a, b, C43_lwa southSample_valid] at h1
  have := southSample_lwa
  linarith

example : southSample.Valid ∧ southSample.nhOnly = false ∧ southSample.nd < 4 ∧ southSample.rows - southSample.nd + 1 ≤ 4 :=
  ⟨southSample_valid, rfl, by decide, by decide⟩

end QGAnalysis

end Falwa
