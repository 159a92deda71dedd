import Verif.Model.Linspace
import Verif.Props.Rounding
import Verif.Props.FluxRounding
import Verif.Props.Arange
import Verif.Props.Grid
import Verif.Props.AreaRounding
import Verif.Props.PartitionArea

/-!
# C143: even latitude grids in double precision
-/

noncomputable section

namespace Falwa

open Finset

/-- An ascending latitude grid without equator. -/
def NoEquator (n : ℕ) (ylat : ℕ → ℝ) : Prop := ylat 0 < ylat 1 ∧ ∀ i < n, ylat i ≠ 0

/-- The claim: in double precision every ascending latitude grid with an even number of rows and no equator is accepted, and the grid
of the analysis has its equator in the middle. -/
def C143_Statement : Prop := ∀ (m : ℕ) (ylat : ℕ → ℝ), 1 ≤ m → m ≤ 10000 → NoEquator (2 * m) ylat →
  ∃ g, checkYlatFl (roundBits 52) (2 * m) ylat = .ok g ∧ g.equatorIdx = m + 1

/-! ## Rounding to nearest -/

/-- Error of rounding to nearest: half a unit in the last place. -/
theorem roundBits_half {p : ℕ} {x : ℝ} (L : ℤ) (h1 : (2 : ℝ) ^ L ≤ x) (h2 : x < (2 : ℝ) ^ (L + 1)) :
    |roundBits p x - x| ≤ (2 : ℝ) ^ (L - p) / 2 := by
  have hx : 0 < x := lt_of_lt_of_le (zpow_pos (by norm_num) _) h1
  have hl : Int.log 2 |x| = L := by
    rw [abs_of_pos hx]
    apply le_antisymm
    · have := (Int.lt_zpow_iff_log_lt (R := ℝ) (b := 2) (by norm_num) (x := L + 1) hx).1 (by exact_mod_cast h2)
      omega
    · exact (Int.zpow_le_iff_le_log (R := ℝ) (b := 2) (by norm_num) (x := L) hx).1 (by exact_mod_cast h1)
  have hs : (0 : ℝ) < (2 : ℝ) ^ (L - p) := zpow_pos (by norm_num) _
  unfold roundBits
  rw [hl]
  have h := abs_sub_round (x / (2 : ℝ) ^ (L - p))
  have e : (round (x / (2 : ℝ) ^ (L - (p : ℤ))) : ℝ) * (2 : ℝ) ^ (L - (p : ℤ)) - x =
      -((x / (2 : ℝ) ^ (L - (p : ℤ)) - round (x / (2 : ℝ) ^ (L - (p : ℤ)))) * (2 : ℝ) ^ (L - (p : ℤ))) := by
    have := div_mul_cancel₀ x hs.ne'
    linear_combination this
  rw [e, abs_neg, abs_mul, abs_of_pos hs]
  nlinarith

theorem roundBits_zero_iff (p : ℕ) (x : ℝ) : roundBits p x = 0 ↔ x = 0 := by
  constructor
  · intro h
    have h1 := relativeError_roundBits (K := ℝ) p x
    rw [h, zero_sub, abs_neg] at h1
    have h2 : (1 / 2 : ℝ) ^ (p + 1) ≤ 1 / 2 := by
      rw [pow_succ]
      have : (1 / 2 : ℝ) ^ p ≤ 1 := pow_le_one₀ (by norm_num) (by norm_num)
      linarith
    have h3 := abs_nonneg x
    have : |x| = 0 := by nlinarith
    exact abs_eq_zero.1 this
  · rintro rfl
    simp [roundBits]

theorem double_180 : roundBits 52 ((90 : ℝ) - (-90)) = 180 := by
  have := roundBits_exact (p := 52) (n := 180) (e := 0) (by norm_num) (by norm_num)
  norm_num at this ⊢
  exact this

/-- `step` of `np.linspace(-90, 90, 2*m + 1)`. -/
def gridStep (m : ℕ) : ℝ := roundBits 52 (90 / (m : ℝ))

theorem linspaceFl_row {m i : ℕ} (hi : i < 2 * m) :
    linspaceFl (roundBits 52) (-90) 90 (2 * m + 1) i = roundBits 52 (roundBits 52 ((i : ℝ) * gridStep m) + (-90)) := by
  have hm : (m : ℝ) ≠ 0 := by
    have : 0 < m := by omega
    positivity
  have hn : ¬ i + 1 = 2 * m + 1 := by omega
  unfold linspaceFl gridStep
  rw [if_neg hn, double_180]
  have : (180 : ℝ) / ((2 * m + 1 - 1 : ℕ) : ℝ) = 90 / (m : ℝ) := by
    rw [Nat.add_sub_cancel]
    push_cast
    field_simp
    norm_num
  rw [this]

theorem linspaceFl_last (m : ℕ) : linspaceFl (roundBits 52) (-90) 90 (2 * m + 1) (2 * m) = 90 := by
  unfold linspaceFl
  rw [if_pos rfl]

theorem linspaceFl_zero_iff {m i : ℕ} (hi : i < 2 * m) :
    linspaceFl (roundBits 52) (-90) 90 (2 * m + 1) i = 0 ↔ roundBits 52 ((i : ℝ) * gridStep m) = 90 := by
  rw [linspaceFl_row hi, roundBits_zero_iff]
  constructor <;> intro h <;> linarith

/-- Only the middle row can be the equator. -/
theorem linspaceFl_only_middle {m i : ℕ} (h0 : 1 ≤ m) (hm : m ≤ 2 ^ 50) (hi : i ≤ 2 * m) (hne : i ≠ m) :
    linspaceFl (roundBits 52) (-90) 90 (2 * m + 1) i ≠ 0 := by
  rcases Nat.lt_or_eq_of_le hi with hlt | rfl
  · rw [Ne, linspaceFl_zero_iff hlt]
    intro h
    have hm0 : (0 : ℝ) < m := by positivity
    have hmb : (m : ℝ) ≤ 2 ^ 50 := by exact_mod_cast hm
    have hs := relativeError_roundBits (K := ℝ) 52 (90 / (m : ℝ))
    have hp := relativeError_roundBits (K := ℝ) 52 ((i : ℝ) * gridStep m)
    change |gridStep m - _| ≤ _ at hs
    rw [h] at hp
    have hq : (0 : ℝ) < 90 / m := by positivity
    rw [abs_of_pos hq] at hs
    have hs1 := (abs_le.1 hs).1
    have hs2 := (abs_le.1 hs).2
    have hg : 0 ≤ gridStep m := by nlinarith [show (1 / 2 : ℝ) ^ (52 + 1) < 1 by norm_num]
    have hx : 0 ≤ (i : ℝ) * gridStep m := by positivity
    rw [abs_of_nonneg hx] at hp
    have hp1 := (abs_le.1 hp).1
    have hp2 := (abs_le.1 hp).2
    have e : (90 / (m : ℝ)) * m = 90 := by field_simp
    generalize 90 / (m : ℝ) = q at *
    generalize gridStep m = s at *
    rcases Nat.lt_or_gt_of_ne hne with hl | hg'
    · have hi1 : (i : ℝ) ≤ m - 1 := by
        have : i + 1 ≤ m := hl
        have : ((i + 1 : ℕ) : ℝ) ≤ m := by exact_mod_cast this
        push_cast at this
        linarith
      have a1 : s ≤ q * (1 + (1 / 2) ^ 53) := by linarith
      have a2 : (90 : ℝ) ≤ (i * s) * (1 + (1 / 2) ^ 53) := by linarith
      have a3 : (i : ℝ) * s ≤ (m - 1) * (q * (1 + (1 / 2) ^ 53)) :=
        mul_le_mul hi1 a1 hg (by linarith [show (0 : ℝ) ≤ i from Nat.cast_nonneg i])
      have a4 : (90 : ℝ) ≤ (m - 1) * (q * (1 + (1 / 2) ^ 53)) * (1 + (1 / 2) ^ 53) :=
        le_trans a2 (mul_le_mul_of_nonneg_right a3 (by norm_num))
      have a5 : (m - 1) * (q * (1 + (1 / 2) ^ 53)) * (1 + (1 / 2) ^ 53) =
          (90 - q) * ((1 + (1 / 2 : ℝ) ^ 53) * (1 + (1 / 2) ^ 53)) := by linear_combination ((1 + (1 / 2 : ℝ) ^ 53) * (1 + (1 / 2) ^ 53)) * e
      rw [a5] at a4
      have a6 : 90 ≤ q * 2 ^ 50 := by
        rw [← e]; exact mul_le_mul_of_nonneg_left hmb hq.le
      have : q * 1 ≤ 90 * ((1 + (1 / 2 : ℝ) ^ 53) * (1 + (1 / 2) ^ 53) - 1) := by
        have hc : (1 : ℝ) ≤ (1 + (1 / 2 : ℝ) ^ 53) * (1 + (1 / 2) ^ 53) := by norm_num
        have := mul_le_mul_of_nonneg_left hc hq.le
        linarith
      norm_num at this a6
      linarith
    · have hi1 : (m : ℝ) + 1 ≤ i := by exact_mod_cast hg'
      have a1 : q * (1 - (1 / 2) ^ 53) ≤ s := by linarith
      have a2 : (i * s) * (1 - (1 / 2) ^ 53) ≤ (90 : ℝ) := by linarith
      have a3 : ((m : ℝ) + 1) * (q * (1 - (1 / 2) ^ 53)) ≤ i * s :=
        mul_le_mul hi1 a1 (mul_nonneg hq.le (by norm_num)) (Nat.cast_nonneg i)
      have a4 : ((m : ℝ) + 1) * (q * (1 - (1 / 2) ^ 53)) * (1 - (1 / 2) ^ 53) ≤ 90 :=
        le_trans (mul_le_mul_of_nonneg_right a3 (by norm_num)) a2
      have a5 : ((m : ℝ) + 1) * (q * (1 - (1 / 2) ^ 53)) * (1 - (1 / 2) ^ 53) =
          (90 + q) * ((1 - (1 / 2 : ℝ) ^ 53) * (1 - (1 / 2) ^ 53)) := by linear_combination ((1 - (1 / 2 : ℝ) ^ 53) * (1 - (1 / 2) ^ 53)) * e
      rw [a5] at a4
      have a6 : 90 ≤ q * 2 ^ 50 := by
        rw [← e]; exact mul_le_mul_of_nonneg_left hmb hq.le
      norm_num at a4 a6
      linarith
  · rw [linspaceFl_last]; norm_num

theorem firstZero_none {n : ℕ} {y : ℕ → ℝ} (h : ∀ i < n, y i ≠ 0) : firstZero n y = .error .indexError := by
  unfold firstZero
  have : (List.range n).find? (fun i => decide (y i = 0)) = none := by
    rw [List.find?_eq_none]
    intro i hi
    simpa using h i (List.mem_range.1 hi)
  rw [this]

/-! ## When the grid is accepted -/

theorem roundBits_sign {x : ℝ} (h : 0 < x) : ¬ roundBits 52 x < 0 :=
  not_lt.2 (((relativeError_roundBits (K := ℝ) 52).keepsSign (by norm_num)).nonneg x h.le)

theorem zeroCount_noEquator {n : ℕ} {ylat : ℕ → ℝ} (h : ∀ i < n, ylat i ≠ 0) : zeroCount n ylat = 0 := by
  unfold zeroCount
  rw [Finset.card_eq_zero, Finset.filter_eq_empty_iff]
  intro i hi
  exact h i (mem_range.1 hi)

/-- An even grid is accepted exactly if the rounded product of half the number of rows and the rounded spacing is 90; otherwise
the constructor fails with `IndexError`. -/
theorem C143_accepted_iff {m : ℕ} (h0 : 1 ≤ m) (hm : m ≤ 2 ^ 50) {ylat : ℕ → ℝ} (h : NoEquator (2 * m) ylat) :
    (roundBits 52 ((m : ℝ) * gridStep m) = 90 →
      ∃ g, checkYlatFl (roundBits 52) (2 * m) ylat = .ok g ∧ g.needInterp = true ∧ g.nlat = 2 * m + 1 ∧ g.equatorIdx = m + 1 ∧
        (∀ i ≤ 2 * m, g.ylat i = 0 ↔ i = m)) ∧
    (roundBits 52 ((m : ℝ) * gridStep m) ≠ 90 → checkYlatFl (roundBits 52) (2 * m) ylat = .error .indexError) := by
  have hz := zeroCount_noEquator h.2
  have c1 : ¬ 2 * m < 2 := by omega
  have c2 : ¬ roundBits 52 (ylat 1 - ylat 0) < 0 := roundBits_sign (by linarith [h.1])
  have c3 : 2 * m % 2 = 0 ∧ zeroCount (2 * m) ylat = 0 := ⟨by omega, hz⟩
  have hc : checkYlatFl (roundBits 52) (2 * m) ylat =
      (firstZero (2 * m + 1) (linspaceFl (roundBits 52) (-90) 90 (2 * m + 1))).map fun e =>
        { needInterp := true, nlat := 2 * m + 1, ylat := linspaceFl (roundBits 52) (-90) 90 (2 * m + 1), equatorIdx := e + 1 } := by
    unfold checkYlatFl
    rw [if_neg c1, if_neg c2, if_pos c3]
  constructor
  · intro h9
    have hmid := (linspaceFl_zero_iff (m := m) (i := m) (by omega)).2 h9
    obtain ⟨e, he, hlt, hz, hf⟩ := firstZero_spec (2 * m + 1) (linspaceFl (roundBits 52) (-90) 90 (2 * m + 1)) ⟨m, by omega, hmid⟩
    have hem : e = m := by
      by_contra hne
      exact linspaceFl_only_middle h0 hm (by omega) hne hz
    rw [hc, he]
    refine ⟨_, rfl, rfl, rfl, by rw [hem], ?_⟩
    intro i hi
    constructor
    · intro hy
      by_contra hne
      exact linspaceFl_only_middle h0 hm hi hne hy
    · rintro rfl
      exact hmid
  · intro h9
    have : ∀ i < 2 * m + 1, linspaceFl (roundBits 52) (-90) 90 (2 * m + 1) i ≠ 0 := by
      intro i hi
      by_cases hne : i = m
      · subst hne
        rw [Ne, linspaceFl_zero_iff (by omega)]
        exact h9
      · exact linspaceFl_only_middle h0 hm (by omega) hne
    rw [hc, firstZero_none this]
    rfl

/-- Products close to 90 are rounded to 90. -/
theorem round_to_90 {x : ℝ} (h1 : 90 - (1 / 2) ^ 47 ≤ x) (h2 : x < 90 + (1 / 2) ^ 47) : roundBits 52 x = 90 := by
  have e : (2 : ℝ) ^ ((6 : ℤ) - (52 : ℕ)) = 1 / 70368744177664 := by norm_num
  rw [LwaIn.roundBits_eq 6 (90 * 2 ^ 46) (by norm_num at h1 ⊢; linarith) (by norm_num at h2 ⊢; linarith)
    (by rw [e]; norm_num at h1 ⊢; linarith) (by rw [e]; norm_num at h2 ⊢; linarith), e]
  norm_num

/-- Products further away are not. -/
theorem round_not_90 {x : ℝ} (h : (1 / 2) ^ 47 < |x - 90|) : roundBits 52 x ≠ 90 := by
  intro h9
  rcases le_or_gt 64 x with h64 | h64
  · rcases lt_or_ge x 128 with h128 | h128
    · have := roundBits_half (p := 52) (x := x) 6 (by norm_num; exact h64) (by norm_num; exact h128)
      rw [h9, abs_sub_comm] at this
      norm_num at this h
      linarith
    · have := relativeError_roundBits (K := ℝ) 52 x
      rw [h9, abs_of_pos (by linarith : (0 : ℝ) < x)] at this
      have := (abs_le.1 this).1
      norm_num at this
      linarith
  · have := relativeError_roundBits (K := ℝ) 52 x
    rw [h9] at this
    have h3 := (abs_le.1 this).2
    rcases abs_cases x with ⟨e, _⟩ | ⟨e, _⟩ <;> rw [e] at h3 <;> norm_num at h3 <;> linarith

/-- Half the number of rows between 45/32 and 2 times a power of two: accepted. -/
theorem C143_upper_partial {m k : ℕ} (hk : k ≤ 49) (h1 : 45 * 2 ^ k < 32 * m) (h2 : m ≤ 2 ^ (k + 1)) {ylat : ℕ → ℝ}
    (h : NoEquator (2 * m) ylat) :
    ∃ g, checkYlatFl (roundBits 52) (2 * m) ylat = .ok g ∧ g.nlat = 2 * m + 1 ∧ g.equatorIdx = m + 1 := by
  have hm1 : 1 ≤ m := by
    have : 0 < 2 ^ k := by positivity
    omega
  have hmb : m ≤ 2 ^ 50 := le_trans h2 (Nat.pow_le_pow_right (by norm_num) (by omega))
  obtain ⟨g, hg, _, hn, he, _⟩ := (C143_accepted_iff hm1 hmb h).1 (by
    have hm0 : (0 : ℝ) < m := by positivity
    have hp : (0 : ℝ) < 2 ^ k := by positivity
    have r1 : 45 * (2 : ℝ) ^ k < 32 * m := by exact_mod_cast h1
    have r2 : (m : ℝ) ≤ 2 * 2 ^ k := by
      have : (m : ℝ) ≤ 2 ^ (k + 1) := by exact_mod_cast h2
      rw [pow_succ] at this
      linarith
    have z5 : (2 : ℝ) ^ ((5 : ℤ) - k) = 32 / 2 ^ k := by
      rw [zpow_sub₀ (by norm_num), zpow_natCast]; norm_num
    have z6 : (2 : ℝ) ^ ((5 : ℤ) - k + 1) = 64 / 2 ^ k := by
      rw [zpow_add₀ (by norm_num), z5]; ring
    have z7 : (2 : ℝ) ^ ((5 : ℤ) - k - (52 : ℕ)) = 32 / 2 ^ k / 2 ^ 52 := by
      rw [zpow_sub₀ (by norm_num), z5, zpow_natCast]
    have b1 : (2 : ℝ) ^ ((5 : ℤ) - k) ≤ 90 / m := by
      rw [z5, div_le_div_iff₀ hp hm0]; linarith
    have b2 : 90 / (m : ℝ) < (2 : ℝ) ^ ((5 : ℤ) - k + 1) := by
      rw [z6, div_lt_div_iff₀ hm0 hp]; linarith
    by_cases hq : (m : ℝ) = 2 * 2 ^ k
    · -- a power of two: the spacing is exact
      have hs : gridStep m = 90 / m := by
        unfold gridStep
        have := roundBits_exact (p := 52) (n := 45) (e := -(k : ℤ)) (by norm_num) (by norm_num)
        have e : (90 : ℝ) / m = ((45 : ℤ) : ℝ) * 2 ^ (-(k : ℤ)) := by
          rw [hq, zpow_neg, zpow_natCast]
          push_cast
          field_simp
          norm_num
        rw [e]
        exact this
      rw [hs, mul_div_cancel₀ _ hm0.ne']
      exact round_to_90 (by norm_num) (by norm_num)
    · have r3 : (m : ℝ) < 2 * 2 ^ k := lt_of_le_of_ne r2 hq
      have he := roundBits_half (p := 52) _ b1 b2
      rw [z7] at he
      change |gridStep m - _| ≤ _ at he
      have e1 : |(m : ℝ) * gridStep m - 90| < (1 / 2) ^ 47 := by
        have e2 : (m : ℝ) * gridStep m - 90 = m * (gridStep m - 90 / m) := by
          field_simp
        rw [e2, abs_mul, abs_of_pos hm0]
        calc (m : ℝ) * |gridStep m - 90 / m| ≤ m * (32 / 2 ^ k / 2 ^ 52 / 2) := mul_le_mul_of_nonneg_left he hm0.le
          _ < 2 * 2 ^ k * (32 / 2 ^ k / 2 ^ 52 / 2) := mul_lt_mul_of_pos_right r3 (by positivity)
          _ = (1 / 2) ^ 47 := by field_simp; norm_num
      have e3 := abs_lt.1 e1
      exact round_to_90 (by linarith [e3.1]) (by linarith [e3.2]))
  exact ⟨g, hg, hn, he⟩

/-- Half the number of rows between 1 and 45/32 times a power of two: let `r` be the remainder of 90*2^(46+k) divided by it that is
nearest to zero. The grid is accepted if `2*|r| < 2^k` and refused with `IndexError` if `2*|r| > 2^k`. -/
theorem C143_lower {m k : ℕ} (hk : k ≤ 49) (h1 : 2 ^ k ≤ m) (h2 : 32 * m ≤ 45 * 2 ^ k) {z r : ℤ}
    (hr : 90 * 2 ^ (46 + k) = z * m + r) (hr2 : 2 * |r| < m) {ylat : ℕ → ℝ} (h : NoEquator (2 * m) ylat) :
    (2 * |r| < 2 ^ k → ∃ g, checkYlatFl (roundBits 52) (2 * m) ylat = .ok g ∧ g.nlat = 2 * m + 1 ∧ g.equatorIdx = m + 1) ∧
    (2 ^ k < 2 * |r| → checkYlatFl (roundBits 52) (2 * m) ylat = .error .indexError) := by
  have hm1 : 1 ≤ m := le_trans (Nat.one_le_pow _ _ (by norm_num)) h1
  have hmb : m ≤ 2 ^ 50 := by
    have h3 : 2 ^ k ≤ 2 ^ 49 := Nat.pow_le_pow_right (by norm_num) hk
    omega
  have hm0 : (0 : ℝ) < m := by positivity
  have hp : (0 : ℝ) < 2 ^ k := by positivity
  have r1 : (2 : ℝ) ^ k ≤ m := by exact_mod_cast h1
  have r2 : 32 * (m : ℝ) ≤ 45 * 2 ^ k := by exact_mod_cast h2
  have hrR : (90 : ℝ) * 2 ^ (46 + k) = z * m + r := by exact_mod_cast hr
  have hr2R : 2 * |(r : ℝ)| < m := by exact_mod_cast hr2
  have z6 : (2 : ℝ) ^ ((6 : ℤ) - k) = 64 / 2 ^ k := by
    rw [zpow_sub₀ (by norm_num), zpow_natCast]; norm_num
  have z7 : (2 : ℝ) ^ ((6 : ℤ) - k + 1) = 128 / 2 ^ k := by
    rw [zpow_add₀ (by norm_num), z6]; ring
  have z8 : (2 : ℝ) ^ ((6 : ℤ) - k - (52 : ℕ)) = 1 / 2 ^ (46 + k) := by
    rw [zpow_sub₀ (by norm_num), z6, zpow_natCast, pow_add]
    field_simp
    norm_num
  have hd : (90 / (m : ℝ)) / (1 / 2 ^ (46 + k)) = z + r / m := by
    field_simp
    linarith
  have hrm : |(r : ℝ) / m| < 1 / 2 := by
    rw [abs_div, abs_of_pos hm0, div_lt_iff₀ hm0]; linarith
  have hrm' := abs_lt.1 hrm
  have hs : gridStep m = z * (1 / 2 ^ (46 + k)) := by
    unfold gridStep
    rw [LwaIn.roundBits_eq ((6 : ℤ) - k) z (by rw [z6, div_le_div_iff₀ hp hm0]; linarith)
      (by rw [z7, div_lt_div_iff₀ hm0 hp]; linarith) (by rw [z8, hd]; linarith [hrm'.1]) (by rw [z8, hd]; linarith [hrm'.2]), z8]
  have hx : (m : ℝ) * gridStep m - 90 = -(r / 2 ^ (46 + k)) := by
    rw [hs]
    field_simp
    linarith
  have ha : |(m : ℝ) * gridStep m - 90| = |(r : ℝ)| / 2 ^ k / 2 ^ 46 := by
    rw [hx, abs_neg, abs_div, abs_of_pos (by positivity : (0 : ℝ) < 2 ^ (46 + k)), pow_add]
    field_simp
  constructor
  · intro hlt
    have hltR : 2 * |(r : ℝ)| < 2 ^ k := by exact_mod_cast hlt
    have hb : |(r : ℝ)| / 2 ^ k < 1 / 2 := by rw [div_lt_iff₀ hp]; linarith
    have e3 : |(m : ℝ) * gridStep m - 90| < (1 / 2) ^ 47 := by
      rw [ha]; norm_num; linarith
    have e4 := abs_lt.1 e3
    obtain ⟨g, hg, _, hn, he, _⟩ := (C143_accepted_iff hm1 hmb h).1
      (round_to_90 (by linarith [e4.1]) (by linarith [e4.2]))
    exact ⟨g, hg, hn, he⟩
  · intro hgt
    have hgtR : (2 : ℝ) ^ k < 2 * |(r : ℝ)| := by exact_mod_cast hgt
    have hb : 1 / 2 < |(r : ℝ)| / 2 ^ k := by rw [lt_div_iff₀ hp]; linarith
    exact (C143_accepted_iff hm1 hmb h).2 (round_not_90 (by rw [ha]; norm_num; linarith))

/-- Every number of rows of the form 78*2^j is refused, whatever the latitudes are. -/
theorem C143_never {j : ℕ} (hj : j ≤ 44) {ylat : ℕ → ℝ} (h : NoEquator (78 * 2 ^ j) ylat) :
    checkYlatFl (roundBits 52) (78 * 2 ^ j) ylat = .error .indexError := by
  have e : 78 * 2 ^ j = 2 * (39 * 2 ^ j) := by ring
  rw [e] at h ⊢
  have hp : (0 : ℤ) < 2 ^ j := by positivity
  have hpn : 0 < 2 ^ j := by positivity
  have ha : |(18 * 2 ^ j : ℤ)| = 18 * 2 ^ j := abs_of_pos (by positivity)
  have ek : 2 ^ (5 + j) = 32 * 2 ^ j := by rw [pow_add]; norm_num
  have ekz : (2 : ℤ) ^ (5 + j) = 32 * 2 ^ j := by rw [pow_add]; norm_num
  refine (C143_lower (m := 39 * 2 ^ j) (k := 5 + j) (z := 5196461108504418) (r := 18 * 2 ^ j) (by omega) (by omega) (by omega) ?_ ?_ h).2 ?_
  · push_cast
    rw [show 46 + (5 + j) = 51 + j by omega, pow_add]
    ring
  · rw [ha]; push_cast; linarith
  · rw [ha, ekz]; linarith

/-- Violated: 78 rows at the centres of equal strips. -/
theorem C143_refuted : ¬ C143_Statement := by
  intro h
  have hn : NoEquator 78 (fun i => -90 + 180 * ((i : ℝ) + 1 / 2) / 78) := by
    refine ⟨by norm_num, fun i hi h0 => ?_⟩
    have h1 : (i : ℝ) = 77 / 2 := by linarith
    have h2 : ((2 * i : ℕ) : ℝ) = (77 : ℕ) := by push_cast; linarith
    have : 2 * i = 77 := by exact_mod_cast h2
    omega
  obtain ⟨g, hg, _⟩ := h 39 _ (by norm_num) (by norm_num) hn
  have hr := C143_never (j := 0) (by norm_num) hn
  rw [show 2 * 39 = 78 * 2 ^ 0 by norm_num, hr] at hg
  cases hg

/-- Accepted if the spacing 90/m is a short binary fraction: m divides 90 times a power of two. -/
theorem C143_exact_partial {m j : ℕ} (hm : m ≤ 2 ^ 50) (h0 : 1 ≤ m) (hd : m ∣ 90 * 2 ^ j) (hj : j ≤ 40) {ylat : ℕ → ℝ}
    (h : NoEquator (2 * m) ylat) :
    ∃ g, checkYlatFl (roundBits 52) (2 * m) ylat = .ok g ∧ g.nlat = 2 * m + 1 ∧ g.equatorIdx = m + 1 := by
  obtain ⟨c, hc⟩ := hd
  have hm0 : (0 : ℝ) < m := by positivity
  have hc0 : 0 < c := by
    rcases Nat.eq_zero_or_pos c with rfl | h
    · have : 0 < 90 * 2 ^ j := by positivity
      omega
    · exact h
  have hcb : c < 2 ^ 53 := by
    have h1 : c ≤ 90 * 2 ^ j := by rw [hc]; exact Nat.le_mul_of_pos_left _ (by omega)
    have h2 : 2 ^ j ≤ 2 ^ 40 := Nat.pow_le_pow_right (by norm_num) hj
    omega
  have hs : gridStep m = 90 / m := by
    unfold gridStep
    have := roundBits_exact (p := 52) (n := (c : ℤ)) (e := -(j : ℤ)) (by exact_mod_cast hc0) (by exact_mod_cast hcb)
    have e : (90 : ℝ) / m = ((c : ℤ) : ℝ) * 2 ^ (-(j : ℤ)) := by
      have hcR : (90 : ℝ) * 2 ^ j = m * c := by exact_mod_cast hc
      rw [zpow_neg, zpow_natCast]
      push_cast
      field_simp
      linarith
    rw [e]
    exact this
  obtain ⟨g, hg, _, hn, he, _⟩ := (C143_accepted_iff h0 hm h).1 (by
    rw [hs, mul_div_cancel₀ _ hm0.ne']
    exact round_to_90 (by norm_num) (by norm_num))
  exact ⟨g, hg, hn, he⟩

/-- The input `np.linspace(-90, 90, 2*m + 1)`: accepted with the equator in the middle if the middle is rounded to zero; otherwise the
constructor fails with the `TypeError` for more than one equator. -/
theorem C143_linspace_input {m : ℕ} (h0 : 1 ≤ m) (hm : m ≤ 2 ^ 50) :
    (roundBits 52 ((m : ℝ) * gridStep m) = 90 →
      ∃ g, checkYlatFl (roundBits 52) (2 * m + 1) (linspaceFl (roundBits 52) (-90) 90 (2 * m + 1)) = .ok g ∧
        g.needInterp = false ∧ g.equatorIdx = m + 1) ∧
    (roundBits 52 ((m : ℝ) * gridStep m) ≠ 90 →
      checkYlatFl (roundBits 52) (2 * m + 1) (linspaceFl (roundBits 52) (-90) 90 (2 * m + 1)) = .error .typeError) := by
  have c1 : ¬ 2 * m + 1 < 2 := by omega
  have hne : ∀ i ≤ 2 * m, i ≠ m → linspaceFl (roundBits 52) (-90) 90 (2 * m + 1) i ≠ 0 :=
    fun i hi h => linspaceFl_only_middle h0 hm hi h
  have c2 : ¬ roundBits 52 (linspaceFl (roundBits 52) (-90) 90 (2 * m + 1) 1 -
      linspaceFl (roundBits 52) (-90) 90 (2 * m + 1) 0) < 0 := by
    have hk := (relativeError_roundBits (K := ℝ) 52).keepsSign (by norm_num)
    have hs : 0 ≤ gridStep m := hk.nonneg _ (by positivity)
    refine not_lt.2 (hk.nonneg _ ?_)
    have y0 : linspaceFl (roundBits 52) (-90) 90 (2 * m + 1) 0 = -90 := by
      rw [linspaceFl_row (by omega)]
      have : ((0 : ℕ) : ℝ) * gridStep m = 0 := by simp
      rw [this, (roundBits_zero_iff 52 0).2 rfl, zero_add]
      exact roundBits_fix (-(90 * 2 ^ 46)) (by
        have : Int.log 2 |(-90 : ℝ)| = 6 := by
          rw [abs_neg, abs_of_pos (by norm_num)]
          apply le_antisymm
          · have := (Int.lt_zpow_iff_log_lt (R := ℝ) (b := 2) (by norm_num) (x := 7) (show (0 : ℝ) < 90 by norm_num)).1 (by norm_num)
            omega
          · exact (Int.zpow_le_iff_le_log (R := ℝ) (b := 2) (by norm_num) (x := 6) (by norm_num)).1 (by norm_num)
        rw [this]; norm_num)
    rw [y0]
    have y1 : -90 ≤ linspaceFl (roundBits 52) (-90) 90 (2 * m + 1) 1 := by
      rw [linspaceFl_row (by omega)]
      have hp : 0 ≤ roundBits 52 (((1 : ℕ) : ℝ) * gridStep m) := hk.nonneg _ (by positivity)
      have := roundBits_mono 52 (show (-90 : ℝ) ≤ roundBits 52 (((1 : ℕ) : ℝ) * gridStep m) + (-90) by linarith)
      have y0' : roundBits 52 (-90 : ℝ) = -90 := by
        rw [linspaceFl_row (by omega)] at y0
        have : ((0 : ℕ) : ℝ) * gridStep m = 0 := by simp
        rw [this, (roundBits_zero_iff 52 0).2 rfl, zero_add] at y0
        exact y0
      rw [y0'] at this
      exact this
    linarith
  have c3 : ¬ ((2 * m + 1) % 2 = 0 ∧ zeroCount (2 * m + 1) (linspaceFl (roundBits 52) (-90) 90 (2 * m + 1)) = 0) := by omega
  constructor
  · intro h9
    have hmid := (linspaceFl_zero_iff (m := m) (i := m) (by omega)).2 h9
    have c4 : zeroCount (2 * m + 1) (linspaceFl (roundBits 52) (-90) 90 (2 * m + 1)) = 1 := by
      unfold zeroCount
      rw [Finset.card_eq_one]
      refine ⟨m, ?_⟩
      ext i
      simp only [mem_filter, mem_range, mem_singleton]
      constructor
      · rintro ⟨hi, hy⟩
        by_contra hn
        exact hne i (by omega) hn hy
      · rintro rfl
        exact ⟨by omega, hmid⟩
    obtain ⟨e, he, hlt, hz, hf⟩ := firstZero_spec (2 * m + 1) (linspaceFl (roundBits 52) (-90) 90 (2 * m + 1)) ⟨m, by omega, hmid⟩
    have hem : e = m := by
      by_contra hn
      exact hne e (by omega) hn hz
    unfold checkYlatFl
    rw [if_neg c1, if_neg c2, if_neg c3, if_pos c4, he]
    exact ⟨_, rfl, rfl, by rw [hem]⟩
  · intro h9
    have c4 : ¬ zeroCount (2 * m + 1) (linspaceFl (roundBits 52) (-90) 90 (2 * m + 1)) = 1 := by
      rw [zeroCount_noEquator]
      · norm_num
      · intro i hi
        by_cases hn : i = m
        · subst hn
          rw [Ne, linspaceFl_zero_iff (by omega)]
          exact h9
        · exact hne i (by omega) hn
    unfold checkYlatFl
    rw [if_neg c1, if_neg c2, if_neg c3, if_neg c4]

/-- Grids of equal strips without equator: any even number of rows. -/
theorem centred_noEquator {m : ℕ} (h0 : 1 ≤ m) : NoEquator (2 * m) fun i => -90 + 180 * ((i : ℝ) + 1 / 2) / ((2 * m : ℕ) : ℝ) := by
  have hm : (0 : ℝ) < ((2 * m : ℕ) : ℝ) := by positivity
  refine ⟨?_, fun i hi h => ?_⟩
  · have : 180 * (((0 : ℕ) : ℝ) + 1 / 2) / ((2 * m : ℕ) : ℝ) < 180 * (((1 : ℕ) : ℝ) + 1 / 2) / ((2 * m : ℕ) : ℝ) :=
      div_lt_div_of_pos_right (by norm_num) hm
    show -90 + _ < -90 + _
    linarith
  · have h1 : 180 * ((i : ℝ) + 1 / 2) / ((2 * m : ℕ) : ℝ) = 90 := by linarith
    rw [div_eq_iff hm.ne'] at h1
    have h2 : ((2 * i + 1 : ℕ) : ℝ) = ((2 * m : ℕ) : ℝ) := by push_cast at h1 ⊢; linarith
    have : 2 * i + 1 = 2 * m := by exact_mod_cast h2
    omega

/-- Half-degree spacing: 180 divides 90*2. -/
example : ∃ g, checkYlatFl (roundBits 52) 360 (fun i => -90 + 180 * ((i : ℝ) + 1 / 2) / ((360 : ℕ) : ℝ)) = .ok g ∧
    g.nlat = 361 ∧ g.equatorIdx = 181 :=
  C143_exact_partial (m := 180) (j := 1) (by norm_num) (by norm_num) (by norm_num) (by norm_num) (centred_noEquator (by norm_num))

/-- 94 rows (T62). -/
example : ∃ g, checkYlatFl (roundBits 52) 94 (fun i => -90 + 180 * ((i : ℝ) + 1 / 2) / ((94 : ℕ) : ℝ)) = .ok g ∧
    g.nlat = 95 ∧ g.equatorIdx = 48 :=
  C143_upper_partial (m := 47) (k := 5) (by norm_num) (by norm_num) (by norm_num) (centred_noEquator (by norm_num))

/-- 146 rows: remainder -14. -/
example : ∃ g, checkYlatFl (roundBits 52) 146 (fun i => -90 + 180 * ((i : ℝ) + 1 / 2) / ((146 : ℕ) : ℝ)) = .ok g ∧
    g.nlat = 147 ∧ g.equatorIdx = 74 :=
  (C143_lower (m := 73) (k := 6) (z := 5552383102237598) (r := -14) (by norm_num) (by norm_num) (by norm_num) (by norm_num)
    (by norm_num) (centred_noEquator (by norm_num))).1 (by norm_num)

/-- 312 rows, refused by `C143_never`. -/
example : NoEquator (78 * 2 ^ 2) (fun i => -90 + 180 * ((i : ℝ) + 1 / 2) / ((78 * 2 ^ 2 : ℕ) : ℝ)) := by
  have := centred_noEquator (m := 156) (by norm_num)
  norm_num at this ⊢
  exact this

end Falwa

end
