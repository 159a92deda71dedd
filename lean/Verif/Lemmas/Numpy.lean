import Verif.Model.Numpy
import Mathlib.Tactic.Ring
import Mathlib.Tactic.Linarith
import Mathlib.Tactic.FieldSimp
import Mathlib.Tactic.GCongr
import Mathlib.Tactic.Positivity
import Mathlib.Algebra.Order.BigOperators.Group.Finset
import Mathlib.Algebra.BigOperators.Ring.Finset

/-! Helper lemmas for the numpy models. -/

set_option linter.unusedSectionVars false

namespace Falwa

open Finset

variable {K : Type*} [Field K] [LinearOrder K] [IsStrictOrderedRing K]

/-! ### linspace -/

theorem linspace_zero (lo hi : K) (n : ℕ) : linspace lo hi n 0 = lo := by simp [linspace]

theorem linspace_last (lo hi : K) {n : ℕ} (h : 2 ≤ n) : linspace lo hi n (n - 1) = hi := by
  unfold linspace
  have : ((n - 1 : ℕ) : K) ≠ 0 := by exact_mod_cast (by omega : n - 1 ≠ 0)
  field_simp; ring

theorem linspace_mono {lo hi : K} (h : lo ≤ hi) (n : ℕ) : Monotone (linspace lo hi n) := by
  intro i j hij
  unfold linspace
  have h1 : 0 ≤ (hi - lo) / ((n - 1 : ℕ) : K) := div_nonneg (by linarith) (Nat.cast_nonneg _)
  have h2 : (i : K) ≤ j := by exact_mod_cast hij
  have := mul_le_mul_of_nonneg_right h2 h1
  linarith

theorem linspace_le_hi {lo hi : K} (h : lo ≤ hi) {n i : ℕ} (hi' : i < n) : linspace lo hi n i ≤ hi := by
  by_cases hn : 2 ≤ n
  · calc linspace lo hi n i ≤ linspace lo hi n (n - 1) := linspace_mono h n (by omega)
      _ = hi := linspace_last lo hi hn
  · have : i = 0 := by omega
    rw [this, linspace_zero]; exact h

theorem linspace_affine (lo hi a b : K) (n i : ℕ) :
    linspace (a * lo + b) (a * hi + b) n i = a * linspace lo hi n i + b := by
  unfold linspace; ring

/-! ### digitize -/

theorem digitize_le (n : ℕ) (bins : ℕ → K) (x : K) : digitize n bins x ≤ n := by
  unfold digitize; exact (card_filter_le _ _).trans (card_range n).le

theorem one_le_digitize {n : ℕ} (hn : 0 < n) {bins : ℕ → K} {x : K} (h : bins 0 ≤ x) :
    1 ≤ digitize n bins x := by
  unfold digitize
  exact card_pos.2 ⟨0, mem_filter.2 ⟨mem_range.2 hn, h⟩⟩

/-- `digitize ≤ i` exactly if `x` is below bin edge `i`. -/
theorem digitize_le_iff {n : ℕ} {bins : ℕ → K} (hb : Monotone bins) {x : K} {i : ℕ} (hi : i < n) :
    digitize n bins x ≤ i ↔ x < bins i := by
  unfold digitize
  constructor
  · intro h
    by_contra hx
    have : range (i + 1) ⊆ (range n).filter (fun k => bins k ≤ x) := fun k hk => by
      rw [mem_range] at hk
      exact mem_filter.2 ⟨mem_range.2 (by omega), (hb (by omega)).trans (not_lt.1 hx)⟩
    have := card_le_card this
    rw [card_range] at this
    omega
  · intro h
    have : (range n).filter (fun k => bins k ≤ x) ⊆ range i := fun k hk => by
      rw [mem_filter] at hk
      rw [mem_range]
      by_contra hki
      exact absurd (hb (not_lt.1 hki)) (not_le.2 (hk.2.trans_lt h))
    exact (card_le_card this).trans (card_range i).le

theorem digitize_eq_last_iff {n : ℕ} (hn : 0 < n) {bins : ℕ → K} (hb : Monotone bins) {x : K} :
    digitize n bins x = n ↔ bins (n - 1) ≤ x := by
  have h1 := digitize_le_iff hb (x := x) (show n - 1 < n by omega)
  have h2 := digitize_le n bins x
  constructor
  · intro h
    by_contra hx
    have := h1.2 (not_le.1 hx)
    omega
  · intro h
    by_contra hx
    exact absurd (h1.1 (by omega)) (not_lt.2 h)

theorem digitize_congr {n : ℕ} {bins bins' : ℕ → K} {x x' : K}
    (h : ∀ i < n, bins i ≤ x ↔ bins' i ≤ x') : digitize n bins x = digitize n bins' x' := by
  unfold digitize
  congr 1
  exact filter_congr fun i hi => h i (mem_range.1 hi)

/-! ### interp -/

section Interp

variable {n : ℕ} {xp fp : ℕ → K}

/-- The index found by the search in `np.interp`. -/
theorem npInterp_index {x : K} (h0 : xp 0 ≤ x) (hn : 0 < n) :
    let j := Nat.findGreatest (fun j => xp j ≤ x) (n - 1)
    j < n ∧ xp j ≤ x ∧ ∀ k < n, j < k → x < xp k := by
  intro j
  refine ⟨?_, ?_, ?_⟩
  · have : j ≤ n - 1 := Nat.findGreatest_le _
    omega
  · exact Nat.findGreatest_spec (P := fun j => xp j ≤ x) (Nat.zero_le _) h0
  · intro k hk hjk
    have := Nat.findGreatest_is_greatest hjk (by omega)
    exact not_le.1 this

/-- Characterisation of `np.interp` by its three cases. -/
theorem npInterp_cases (hn : 0 < n) (x : K) :
    (x < xp 0 ∧ npInterp n xp fp x = fp 0) ∨
    (∃ j, j + 1 < n ∧ xp j ≤ x ∧ x < xp (j + 1) ∧
      npInterp n xp fp x = fp j + (fp (j + 1) - fp j) / (xp (j + 1) - xp j) * (x - xp j)) ∨
    (xp (n - 1) ≤ x ∧ ¬ x < xp 0 ∧ npInterp n xp fp x = fp (n - 1)) := by
  by_cases h0 : x < xp 0
  · left; exact ⟨h0, by unfold npInterp; rw [if_pos h0]⟩
  · right
    obtain ⟨h1, h2, h3⟩ := npInterp_index (xp := xp) (not_lt.1 h0) hn
    set j := Nat.findGreatest (fun j => xp j ≤ x) (n - 1) with hj
    by_cases hjn : j = n - 1
    · right
      refine ⟨hjn ▸ h2, h0, ?_⟩
      unfold npInterp
      rw [if_neg h0]
      simp only [← hj, if_pos hjn]
    · left
      refine ⟨j, by omega, h2, h3 _ (by omega) (by omega), ?_⟩
      unfold npInterp
      rw [if_neg h0]
      simp only [← hj, if_neg hjn]

theorem interp_segment_bounds {a b f g x : K} (hax : a ≤ x) (hxb : x < b) (hfg : f ≤ g) :
    f ≤ f + (g - f) / (b - a) * (x - a) ∧ f + (g - f) / (b - a) * (x - a) ≤ g := by
  have hab : 0 < b - a := by linarith
  have h1 : 0 ≤ (g - f) / (b - a) := div_nonneg (by linarith) hab.le
  constructor
  · have := mul_nonneg h1 (show 0 ≤ x - a by linarith); linarith
  · have : (g - f) / (b - a) * (x - a) ≤ (g - f) / (b - a) * (b - a) :=
      mul_le_mul_of_nonneg_left (by linarith) h1
    rw [div_mul_cancel₀ _ hab.ne'] at this; linarith

theorem npInterp_bounds (hn : 0 < n) (hf : ∀ i j, i ≤ j → j < n → fp i ≤ fp j) (x : K) :
    fp 0 ≤ npInterp n xp fp x ∧ npInterp n xp fp x ≤ fp (n - 1) := by
  rcases npInterp_cases (xp := xp) (fp := fp) hn x with ⟨_, h⟩ | ⟨j, hj, h1, h2, h⟩ | ⟨_, _, h⟩
  · rw [h]; exact ⟨le_rfl, hf _ _ (by omega) (by omega)⟩
  · rw [h]
    obtain ⟨h3, h4⟩ := interp_segment_bounds h1 h2 (hf j (j + 1) (by omega) hj)
    exact ⟨(hf 0 j (by omega) (by omega)).trans h3, h4.trans (hf _ _ (by omega) (by omega))⟩
  · rw [h]; exact ⟨hf _ _ (by omega) (by omega), le_rfl⟩

/-- `np.interp` of a non-decreasing table is non-decreasing. -/
theorem npInterp_mono (hn : 0 < n) (hx : ∀ i j, i ≤ j → j < n → xp i ≤ xp j)
    (hf : ∀ i j, i ≤ j → j < n → fp i ≤ fp j) : Monotone (npInterp n xp fp) := by
  intro x y hxy
  obtain ⟨bx0, bx1⟩ := npInterp_bounds (xp := xp) hn hf x
  obtain ⟨by0, by1⟩ := npInterp_bounds (xp := xp) hn hf y
  rcases npInterp_cases (xp := xp) (fp := fp) hn x with ⟨_, h⟩ | ⟨j, hj, h1, h2, h⟩ | ⟨g1, g2, h⟩
  · rw [h]; exact by0
  · rcases npInterp_cases (xp := xp) (fp := fp) hn y with ⟨g, _⟩ | ⟨k, hk, k1, k2, g⟩ | ⟨_, _, g⟩
    · exact absurd (hx 0 j (by omega) (by omega)) (not_le.2 (lt_of_le_of_lt (h1.trans hxy) g))
    · have hjk : j ≤ k := by
        by_contra hc
        exact absurd (hx (k + 1) j (by omega) (by omega)) (not_le.2 (lt_of_le_of_lt (h1.trans hxy) k2))
      rcases hjk.eq_or_lt with rfl | hlt
      · rw [h, g]
        have : 0 ≤ (fp (j + 1) - fp j) / (xp (j + 1) - xp j) :=
          div_nonneg (by linarith [hf j (j + 1) (by omega) hj]) (by linarith)
        have := mul_le_mul_of_nonneg_left (show x - xp j ≤ y - xp j by linarith) this
        linarith
      · rw [h, g]
        have e1 := (interp_segment_bounds h1 h2 (hf j (j + 1) (by omega) hj)).2
        have e2 := (interp_segment_bounds k1 k2 (hf k (k + 1) (by omega) hk)).1
        exact e1.trans ((hf (j + 1) k hlt (by omega)).trans e2)
    · rw [g]; exact bx1
  · rcases npInterp_cases (xp := xp) (fp := fp) hn y with ⟨g, _⟩ | ⟨k, hk, k1, k2, g⟩ | ⟨_, _, g⟩
    · exact absurd (lt_of_le_of_lt hxy g) g2
    · exact absurd (hx (k + 1) (n - 1) (by omega) (by omega))
        (not_le.2 (lt_of_le_of_lt (g1.trans hxy) k2))
    · rw [h, g]

theorem npInterp_affine (a b : K) (x : K) :
    npInterp n xp (fun i => a * fp i + b) x = a * npInterp n xp fp x + b := by
  unfold npInterp
  split_ifs
  · rfl
  · simp only
    split_ifs
    · rfl
    · rw [add_sub_add_right_eq_sub, ← mul_sub, mul_div_assoc]; ring

theorem findGreatest_congr {P Q : ℕ → Prop} [DecidablePred P] [DecidablePred Q] (m : ℕ)
    (h : ∀ i ≤ m, P i ↔ Q i) : Nat.findGreatest P m = Nat.findGreatest Q m := by
  induction m with
  | zero => rfl
  | succ m ih =>
    rw [Nat.findGreatest_succ, Nat.findGreatest_succ, ih (fun i hi => h i (by omega))]
    by_cases hp : P (m + 1)
    · rw [if_pos hp, if_pos ((h _ le_rfl).1 hp)]
    · rw [if_neg hp, if_neg (fun hq => hp ((h _ le_rfl).2 hq))]

/-- `np.interp` only looks at the first `n` samples. -/
theorem npInterp_congr {xp' fp' : ℕ → K} (hn : 0 < n) (hx : ∀ i < n, xp i = xp' i)
    (hf : ∀ i < n, fp i = fp' i) (x : K) : npInterp n xp fp x = npInterp n xp' fp' x := by
  have hj : Nat.findGreatest (fun j => xp j ≤ x) (n - 1) = Nat.findGreatest (fun j => xp' j ≤ x) (n - 1) :=
    findGreatest_congr _ fun i hi => by rw [hx i (by omega)]
  unfold npInterp
  rw [hx 0 hn, hf 0 hn, hf (n - 1) (by omega)]
  simp only [hj]
  split_ifs with h1 h2
  · rfl
  · rfl
  · have : Nat.findGreatest (fun j => xp' j ≤ x) (n - 1) ≤ n - 1 := Nat.findGreatest_le _
    set j := Nat.findGreatest (fun j => xp' j ≤ x) (n - 1)
    rw [hf j (by omega), hf (j + 1) (by omega), hx j (by omega), hx (j + 1) (by omega)]

end Interp

/-! ### amin, amax -/

section MinMax

variable {nlat nlon : ℕ} {vort : ℕ → ℕ → K}

theorem cells_nonempty (h1 : 0 < nlat) (h2 : 0 < nlon) : (cells nlat nlon).Nonempty :=
  ⟨(0, 0), by simp [cells, h1, h2]⟩

theorem mem_cells {p : ℕ × ℕ} : p ∈ cells nlat nlon ↔ p.1 < nlat ∧ p.2 < nlon := by
  simp [cells]

theorem amin_le {p : ℕ × ℕ} (hp : p ∈ cells nlat nlon) : amin nlat nlon vort ≤ vort p.1 p.2 := by
  unfold amin; rw [dif_pos ⟨p, hp⟩]; exact inf'_le (fun p : ℕ × ℕ => vort p.1 p.2) hp

theorem le_amax {p : ℕ × ℕ} (hp : p ∈ cells nlat nlon) : vort p.1 p.2 ≤ amax nlat nlon vort := by
  unfold amax; rw [dif_pos ⟨p, hp⟩]; exact le_sup' (fun p : ℕ × ℕ => vort p.1 p.2) hp

theorem exists_amin (h : (cells nlat nlon).Nonempty) :
    ∃ p ∈ cells nlat nlon, amin nlat nlon vort = vort p.1 p.2 := by
  unfold amin; rw [dif_pos h]; exact exists_mem_eq_inf' h _

theorem exists_amax (h : (cells nlat nlon).Nonempty) :
    ∃ p ∈ cells nlat nlon, amax nlat nlon vort = vort p.1 p.2 := by
  unfold amax; rw [dif_pos h]; exact exists_mem_eq_sup' h _

theorem amin_le_amax : amin nlat nlon vort ≤ amax nlat nlon vort := by
  by_cases h : (cells nlat nlon).Nonempty
  · obtain ⟨p, hp⟩ := h; exact (amin_le hp).trans (le_amax hp)
  · unfold amin amax; rw [dif_neg h, dif_neg h]

theorem amin_affine {a : K} (ha : 0 < a) (b : K) (h : (cells nlat nlon).Nonempty) :
    amin nlat nlon (fun r c => a * vort r c + b) = a * amin nlat nlon vort + b := by
  apply le_antisymm
  · obtain ⟨p, hp, e⟩ := exists_amin (vort := vort) h
    rw [e]; exact amin_le (vort := fun r c => a * vort r c + b) hp
  · obtain ⟨p, hp, e⟩ := exists_amin (vort := fun r c => a * vort r c + b) h
    rw [e]
    have := mul_le_mul_of_nonneg_left (amin_le (vort := vort) hp) ha.le
    linarith

theorem amax_affine {a : K} (ha : 0 < a) (b : K) (h : (cells nlat nlon).Nonempty) :
    amax nlat nlon (fun r c => a * vort r c + b) = a * amax nlat nlon vort + b := by
  apply le_antisymm
  · obtain ⟨p, hp, e⟩ := exists_amax (vort := fun r c => a * vort r c + b) h
    rw [e]
    have := mul_le_mul_of_nonneg_left (le_amax (vort := vort) hp) ha.le
    linarith
  · obtain ⟨p, hp, e⟩ := exists_amax (vort := vort) h
    rw [e]; exact le_amax (vort := fun r c => a * vort r c + b) hp

end MinMax

end Falwa
