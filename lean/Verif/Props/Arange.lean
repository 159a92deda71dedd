import Verif.Model.Arange
import Verif.Props.FluxRounding

/-!
# Which vertical grids the NHN22 solver accepts (C134)
-/

noncomputable section

namespace Falwa

/-- The claim: in double precision the solver accepts every number of levels and every spacing. -/
def C134_Statement : Prop := ∀ (kmax : ℤ) (dz : ℝ), 3 ≤ kmax → kmax ≤ 1000 → 0 < dz → roundBits 52 dz = dz →
  nhn22Dims (roundBits 52) kmax dz = .ok ()

theorem callB4_ok {fl : ℝ → ℝ} {kmax : ℤ} {dz : ℝ} (h : zLen fl kmax dz = kmax) : callB4 fl kmax dz = .ok () := if_pos h

theorem callB4_error {fl : ℝ → ℝ} {kmax : ℤ} {dz : ℝ} (h : zLen fl kmax dz ≠ kmax) : callB4 fl kmax dz = .error .valueError := if_neg h

theorem sweepDims_ok {fl : ℝ → ℝ} {kmax : ℤ} {dz : ℝ} (h : zLen fl kmax dz = kmax) (n : ℕ) : sweepDims fl kmax dz n = .ok () := by
  induction n with
  | zero => rfl
  | succ n ih => simp only [sweepDims, callB4_ok h, bind, Except.bind, ih]

/-- A call succeeds exactly if `np.arange` returned `kmax` heights, and fails with an exception otherwise. -/
theorem C134_accepts_iff (fl : ℝ → ℝ) {kmax : ℤ} (hk : 3 ≤ kmax) (dz : ℝ) :
    (nhn22Dims fl kmax dz = .ok () ↔ zLen fl kmax dz = kmax) ∧
    (nhn22Dims fl kmax dz = .error .valueError ↔ zLen fl kmax dz ≠ kmax) := by
  obtain ⟨n, hn⟩ : ∃ n : ℕ, (kmax - 2).toNat = n + 1 := ⟨(kmax - 3).toNat, by omega⟩
  unfold nhn22Dims
  rw [hn]
  by_cases h : zLen fl kmax dz = kmax
  · rw [sweepDims_ok h]; simp [h]
  · have e : sweepDims fl kmax dz (n + 1) = .error .valueError := by
      simp only [sweepDims, callB4_error h, bind, Except.bind]
    rw [e]; simp [h]

/-- Whatever the spacing, there are at most one too many heights and never too few. -/
theorem C134_length {u : ℝ} {fl : ℝ → ℝ} (hf : RelativeError u fl) (h0 : 0 ≤ u) (h1 : u < 1) {kmax : ℤ} (hk : 1 ≤ kmax) {dz : ℝ}
    (hd : 0 < dz) (hs : (kmax : ℝ) * ((1 + u) ^ 3 - 1) < 1) : zLen fl kmax dz = kmax ∨ zLen fl kmax dz = kmax + 1 := by
  have hk' : (1 : ℝ) ≤ kmax := by exact_mod_cast hk
  have hkp : (0 : ℝ) < kmax := by linarith
  have bound : ∀ {x : ℝ}, 0 ≤ x → (1 - u) * x ≤ fl x ∧ fl x ≤ (1 + u) * x := by
    intro x hx
    have := abs_le.1 (hf x)
    rw [abs_of_nonneg hx] at this
    constructor <;> linarith [this.1, this.2]
  have p1 := bound (x := (kmax : ℝ) * dz) (by positivity)
  have hu1 : 0 ≤ 1 + u := by linarith
  have hu2 : 0 ≤ 1 - u := by linarith
  have q1 : 0 ≤ fl ((kmax : ℝ) * dz) := le_trans (by positivity) p1.1
  have p2 := bound (x := fl ((kmax : ℝ) * dz) - 0) (by rw [sub_zero]; exact q1)
  rw [sub_zero] at p2
  have q2 : 0 ≤ fl (fl ((kmax : ℝ) * dz) - 0) := by rw [sub_zero]; exact le_trans (mul_nonneg hu2 q1) p2.1
  have p3 := bound (x := fl (fl ((kmax : ℝ) * dz) - 0) / dz) (by positivity)
  have up : fl (fl (fl ((kmax : ℝ) * dz) - 0) / dz) < kmax + 1 := by
    calc _ ≤ (1 + u) * (fl (fl ((kmax : ℝ) * dz) - 0) / dz) := p3.2
      _ ≤ (1 + u) * ((1 + u) * ((1 + u) * (kmax * dz)) / dz) := by
          apply mul_le_mul_of_nonneg_left _ hu1
          apply div_le_div_of_nonneg_right _ hd.le
          rw [sub_zero]
          exact p2.2.trans (mul_le_mul_of_nonneg_left p1.2 hu1)
      _ = (1 + u) ^ 3 * kmax := by field_simp
      _ < kmax + 1 := by linarith
  have low : (kmax : ℝ) - 1 < fl (fl (fl ((kmax : ℝ) * dz) - 0) / dz) := by
    have hc : (1 : ℝ) - ((1 + u) ^ 3 - 1) ≤ (1 - u) ^ 3 := by nlinarith [sq_nonneg u]
    calc (kmax : ℝ) - 1 < kmax * (1 - ((1 + u) ^ 3 - 1)) := by linarith
      _ ≤ kmax * (1 - u) ^ 3 := mul_le_mul_of_nonneg_left hc hkp.le
      _ = (1 - u) * ((1 - u) * ((1 - u) * (kmax * dz)) / dz) := by field_simp
      _ ≤ (1 - u) * (fl (fl ((kmax : ℝ) * dz) - 0) / dz) := by
          apply mul_le_mul_of_nonneg_left _ hu2
          apply div_le_div_of_nonneg_right _ hd.le
          rw [sub_zero]
          exact (mul_le_mul_of_nonneg_left p1.1 hu2).trans p2.1
      _ ≤ _ := p3.1
  unfold zLen arangeLen
  have c1 : ⌈fl (fl (fl ((kmax : ℝ) * dz) - 0) / dz)⌉ ≤ kmax + 1 := Int.ceil_le.2 (by push_cast; exact up.le)
  have c2 : kmax - 1 < ⌈fl (fl (fl ((kmax : ℝ) * dz) - 0) / dz)⌉ := Int.lt_ceil.2 (by push_cast; exact low)
  rcases le_or_gt ⌈fl (fl (fl ((kmax : ℝ) * dz) - 0) / dz)⌉ kmax with h | h
  · left; rw [max_eq_right (by omega)]; omega
  · right; rw [max_eq_right (by omega)]; omega

/-- If the height of the top needs no rounding, the grid is accepted. -/
theorem C134_exact_partial {fl : ℝ → ℝ} {kmax : ℤ} (hk : 3 ≤ kmax) {dz : ℝ} (hd : 0 < dz) (h1 : fl (kmax * dz) = kmax * dz)
    (h2 : fl kmax = kmax) : nhn22Dims fl kmax dz = .ok () := by
  refine ((C134_accepts_iff fl hk dz).1).2 ?_
  unfold zLen arangeLen
  rw [h1, sub_zero, h1, mul_div_assoc, div_self hd.ne', mul_one, h2, Int.ceil_intCast, max_eq_right (by omega)]

/-- Numbers with few binary digits are not rounded. -/
theorem roundBits_exact {p : ℕ} {n e : ℤ} (h0 : 0 < n) (h1 : n < 2 ^ (p + 1)) : roundBits p ((n : ℝ) * 2 ^ e) = n * 2 ^ e := by
  have hn : (0 : ℝ) < n := by exact_mod_cast h0
  have hx : (0 : ℝ) < (n : ℝ) * 2 ^ e := mul_pos hn (zpow_pos (by norm_num) _)
  have hb : (n : ℝ) * 2 ^ e < 2 ^ ((p : ℤ) + 1 + e) := by
    rw [zpow_add₀ (by norm_num)]
    apply mul_lt_mul_of_pos_right _ (zpow_pos (by norm_num) _)
    have : (n : ℝ) < 2 ^ (p + 1) := by exact_mod_cast h1
    simpa [← zpow_natCast] using this
  have hl : Int.log 2 ((n : ℝ) * 2 ^ e) < (p : ℤ) + 1 + e :=
    (Int.lt_zpow_iff_log_lt (R := ℝ) (b := 2) (by norm_num) hx).1 (by exact_mod_cast hb)
  unfold roundBits
  rw [abs_of_pos hx]
  obtain ⟨d, hd⟩ : ∃ d : ℕ, e - (Int.log 2 ((n : ℝ) * 2 ^ e) - p) = d := ⟨(e - (Int.log 2 ((n : ℝ) * 2 ^ e) - p)).toNat, by omega⟩
  generalize hg : Int.log 2 ((n : ℝ) * 2 ^ e) - (p : ℤ) = L at *
  have he : e = d + L := by omega
  have hq : (n : ℝ) * 2 ^ e / 2 ^ L = ((n * 2 ^ d : ℤ) : ℝ) := by
    rw [he, zpow_add₀ (by norm_num), zpow_natCast]
    have : (2 : ℝ) ^ L ≠ 0 := (zpow_pos (by norm_num) _).ne'
    push_cast
    field_simp
  rw [hq, round_intCast, ← hq, div_mul_cancel₀ _ (zpow_pos (by norm_num : (0 : ℝ) < 2) _).ne']

/-- Spacings `n * 2^e` with `kmax * n < 2^53` are accepted; for `e = 0` these are whole metres. -/
theorem C134_dyadic_partial {kmax n e : ℤ} (hk : 3 ≤ kmax) (hn : 0 < n) (hb : kmax * n < 2 ^ 53) :
    nhn22Dims (roundBits 52) kmax ((n : ℝ) * 2 ^ e) = .ok () := by
  have hkb : kmax < 2 ^ (52 + 1) := lt_of_le_of_lt (by nlinarith) hb
  refine C134_exact_partial hk (mul_pos (by exact_mod_cast hn) (zpow_pos (by norm_num) _)) ?_ ?_
  · have := roundBits_exact (p := 52) (n := kmax * n) (e := e) (by positivity) hb
    rw [← mul_assoc]
    push_cast at this
    exact this
  · simpa using roundBits_exact (p := 52) (n := kmax) (e := 0) (by omega) hkb

/-- The double next but one above 750: the spacing of the levels `-7000*log(plev/1000)` for `plev = 1000*exp(-750*k/7000)`. -/
def dz750 : ℝ := 3298534883328001 / 4398046511104

/-- 49 levels with this spacing: `np.arange` returns 50 heights. -/
theorem C134_fifty : zLen (roundBits 52) 49 dz750 = 50 := by
  have e1 : (2 : ℝ) ^ ((15 : ℤ) - (52 : ℕ)) = 1 / 137438953472 := by norm_num
  have e2 : (2 : ℝ) ^ ((5 : ℤ) - (52 : ℕ)) = 1 / 140737488355328 := by norm_num
  have r1 : roundBits 52 (((49 : ℤ) : ℝ) * dz750) = 2525440770048001 / 68719476736 := by
    unfold dz750
    rw [LwaIn.roundBits_eq 15 5050881540096002 (by norm_num) (by norm_num) (by rw [e1]; norm_num) (by rw [e1]; norm_num), e1]
    norm_num
  have r2 : roundBits 52 ((2525440770048001 / 68719476736 : ℝ) - 0) = 2525440770048001 / 68719476736 := by
    rw [LwaIn.roundBits_eq 15 5050881540096002 (by norm_num) (by norm_num) (by rw [e1]; norm_num) (by rw [e1]; norm_num), e1]
    norm_num
  have r3 : roundBits 52 ((2525440770048001 / 68719476736 : ℝ) / dz750) = 6896136929411073 / 140737488355328 := by
    unfold dz750
    rw [LwaIn.roundBits_eq 5 6896136929411073 (by norm_num) (by norm_num) (by rw [e2]; norm_num) (by rw [e2]; norm_num), e2]
    norm_num
  unfold zLen arangeLen
  rw [r1, r2, r3]
  have : ⌈(6896136929411073 / 140737488355328 : ℝ)⌉ = 50 := Int.ceil_eq_iff.2 ⟨by norm_num, by norm_num⟩
  rw [this]
  rfl

theorem dz750_double : roundBits 52 dz750 = dz750 := by
  have e : (2 : ℝ) ^ ((9 : ℤ) - (52 : ℕ)) = 1 / 8796093022208 := by norm_num
  unfold dz750
  rw [LwaIn.roundBits_eq 9 6597069766656002 (by norm_num) (by norm_num) (by rw [e]; norm_num) (by rw [e]; norm_num), e]
  norm_num

/-- With 49 levels of this spacing no reference state can be computed. -/
theorem C134_refuted : ¬ C134_Statement := by
  intro h
  have h1 := h 49 dz750 (by norm_num) (by norm_num) (by unfold dz750; norm_num) dz750_double
  rw [(C134_accepts_iff _ (by norm_num) _).1, C134_fifty] at h1
  norm_num at h1

/-- Hypotheses of `C134_length` in double precision for up to 1000 levels, and of the partial claims for the default grid. -/
example : RelativeError ((1 / 2 : ℝ) ^ 53) (roundBits 52) ∧ ((1000 : ℤ) : ℝ) * ((1 + (1 / 2 : ℝ) ^ 53) ^ 3 - 1) < 1 :=
  ⟨relativeError_roundBits 52, by norm_num⟩

example : nhn22Dims (roundBits 52) 49 1000 = .ok () := by
  have := C134_dyadic_partial (kmax := 49) (n := 1000) (e := 0) (by norm_num) (by norm_num) (by norm_num)
  simpa using this

end Falwa
