import Verif.Model.Rounding
import Verif.Props.Lwa
import Mathlib.Algebra.Order.Floor.Ring
import Mathlib.Data.Rat.Floor
import Mathlib.Tactic.Positivity
import Mathlib.Tactic.FieldSimp
import Mathlib.Algebra.BigOperators.Group.List.Basic

/-!
# Local wave activity under rounding (C118)

The arithmetic is arbitrary up to `KeepsSign` or `RelativeError`; the order of summation is arbitrary.
-/

set_option linter.unusedSectionVars false

namespace Falwa

open Finset

variable {K : Type*} [Field K] [LinearOrder K] [IsStrictOrderedRing K]

/-- `y` approximates the non-negative `x` up to `k` relative errors of size `u`. -/
def Approx (u : K) (k : ℕ) (x y : K) : Prop := (1 - u) ^ k * x ≤ y ∧ y ≤ (1 + u) ^ k * x

theorem RelativeError.keepsSign {u : K} {fl : K → K} (h : RelativeError u fl) (hu : u < 1) : KeepsSign fl := by
  constructor <;> intro x hx
  · have := h x; rw [abs_of_nonneg hx, abs_le] at this; nlinarith [this.1]
  · have := h x; rw [abs_of_nonpos hx, abs_le] at this; nlinarith [this.2]

theorem RelativeError.pos {u : K} {fl : K → K} (h : RelativeError u fl) (hu : u < 1) {x : K} (hx : 0 < x) : 0 < fl x := by
  have := h x; rw [abs_of_pos hx, abs_le] at this; nlinarith [this.1]

theorem RelativeError.neg {u : K} {fl : K → K} (h : RelativeError u fl) (hu : u < 1) {x : K} (hx : x < 0) : fl x < 0 := by
  have := h x; rw [abs_of_neg hx, abs_le] at this; nlinarith [this.2]

theorem KeepsSign.zero {fl : K → K} (h : KeepsSign fl) : fl 0 = 0 := le_antisymm (h.nonpos 0 le_rfl) (h.nonneg 0 le_rfl)

theorem Approx.fl {u : K} {fl : K → K} (h : RelativeError u fl) (h0 : 0 ≤ u) (hu : u < 1) {k : ℕ} {x y : K} (hx : 0 ≤ x)
    (a : Approx u k x y) : Approx u (k + 1) x (fl y) := by
  have hp : (0 : K) ≤ (1 - u) ^ k * x := mul_nonneg (pow_nonneg (by linarith) k) hx
  have hy : 0 ≤ y := hp.trans a.1
  have e := h y
  rw [abs_of_nonneg hy, abs_le] at e
  constructor
  · calc (1 - u) ^ (k + 1) * x = (1 - u) * ((1 - u) ^ k * x) := by ring
      _ ≤ (1 - u) * y := mul_le_mul_of_nonneg_left a.1 (by linarith)
      _ ≤ fl y := by linarith [e.1]
  · calc fl y ≤ (1 + u) * y := by linarith [e.2]
      _ ≤ (1 + u) * ((1 + u) ^ k * x) := mul_le_mul_of_nonneg_left a.2 (by linarith)
      _ = (1 + u) ^ (k + 1) * x := by ring

theorem Approx.mono {u : K} (h0 : 0 ≤ u) (hu : u < 1) {k l : ℕ} (hk : k ≤ l) {x y : K} (hx : 0 ≤ x)
    (a : Approx u k x y) : Approx u l x y :=
  ⟨(mul_le_mul_of_nonneg_right (pow_le_pow_of_le_one (by linarith) (by linarith) hk) hx).trans a.1,
   a.2.trans (mul_le_mul_of_nonneg_right (pow_le_pow_right₀ (by linarith) hk) hx)⟩

theorem Approx.add {u : K} {k : ℕ} {x y x' y' : K} (a : Approx u k x y) (b : Approx u k x' y') :
    Approx u k (x + x') (y + y') := by
  refine ⟨?_, ?_⟩ <;> rw [mul_add]
  · exact add_le_add a.1 b.1
  · exact add_le_add a.2 b.2

theorem Approx.mul_right {u : K} {k : ℕ} {x y w : K} (hw : 0 ≤ w) (a : Approx u k x y) : Approx u k (x * w) (y * w) := by
  refine ⟨?_, ?_⟩ <;> rw [← mul_assoc]
  · exact mul_le_mul_of_nonneg_right a.1 hw
  · exact mul_le_mul_of_nonneg_right a.2 hw

theorem Approx.refl {u x : K} : Approx u 0 x x := by constructor <;> simp

theorem SumOrder.eval_nonneg {fl : K → K} (h : KeepsSign fl) (f : ℕ → K) (t : SumOrder) (hf : ∀ r ∈ t.rows, 0 ≤ f r) :
    0 ≤ t.eval fl f := by
  induction t with
  | row r => exact hf r (by simp [rows])
  | add a b ha hb =>
    exact h.nonneg _ (add_nonneg (ha fun r hr => hf r (by simp [rows, hr])) (hb fun r hr => hf r (by simp [rows, hr])))

theorem SumOrder.eval_zero {fl : K → K} (h : KeepsSign fl) (f : ℕ → K) (t : SumOrder) (hf : ∀ r ∈ t.rows, f r = 0) :
    t.eval fl f = 0 := by
  induction t with
  | row r => exact hf r (by simp [rows])
  | add a b ha hb =>
    show fl (a.eval fl f + b.eval fl f) = 0
    rw [ha fun r hr => hf r (by simp [rows, hr]), hb fun r hr => hf r (by simp [rows, hr]), add_zero, h.zero]

theorem SumOrder.eval_approx {u : K} {fl : K → K} (h : RelativeError u fl) (h0 : 0 ≤ u) (hu : u < 1) {k : ℕ} (f g : ℕ → K)
    (t : SumOrder) (hf : ∀ r ∈ t.rows, 0 ≤ f r) (hg : ∀ r ∈ t.rows, Approx u k (f r) (g r)) :
    Approx u (k + t.depth) (t.rows.map f).sum (t.eval fl g) := by
  induction t with
  | row r => simpa [rows, depth, eval] using hg r (by simp [rows])
  | add a b ha hb =>
    have na : 0 ≤ (a.rows.map f).sum := List.sum_nonneg fun x hx => by
      obtain ⟨r, hr, rfl⟩ := List.mem_map.1 hx; exact hf r (by simp [rows, hr])
    have nb : 0 ≤ (b.rows.map f).sum := List.sum_nonneg fun x hx => by
      obtain ⟨r, hr, rfl⟩ := List.mem_map.1 hx; exact hf r (by simp [rows, hr])
    have ia := (ha (fun r hr => hf r (by simp [rows, hr])) fun r hr => hg r (by simp [rows, hr])).mono h0 hu
      (Nat.add_le_add_left (le_max_left a.depth b.depth) k) na
    have ib := (hb (fun r hr => hf r (by simp [rows, hr])) fun r hr => hg r (by simp [rows, hr])).mono h0 hu
      (Nat.add_le_add_left (le_max_right a.depth b.depth) k) nb
    have := (ia.add ib).fl h h0 hu (add_nonneg na nb)
    simpa [rows, depth, eval, add_assoc] using this

theorem SumOrder.Sums.sum_eq {t : SumOrder} {n : ℕ} (h : t.Sums n) (f : ℕ → K) : (t.rows.map f).sum = ∑ r ∈ range n, f r := by
  rw [(h.map f).sum_eq]
  clear h
  induction n with
  | zero => simp
  | succ n ih => rw [List.range_succ, List.map_append, List.sum_append, ih, sum_range_succ]; simp

theorem SumOrder.sequential_sums (n : ℕ) : (sequential n).Sums (n + 1) := by
  induction n with
  | zero => simp [Sums, sequential, rows]
  | succ n ih =>
    show ((sequential n).rows ++ [n + 1]).Perm (List.range (n + 1 + 1))
    rw [List.range_succ]
    exact ih.append_right _

theorem SumOrder.depth_sequential (n : ℕ) : (sequential n).depth = n := by
  induction n with
  | zero => rfl
  | succ n ih => show max (sequential n).depth 0 + 1 = n + 1; rw [ih]; simp

theorem SumOrder.eval_id (f : ℕ → K) (t : SumOrder) : t.eval id f = (t.rows.map f).sum := by
  induction t with
  | row r => simp [eval, rows]
  | add a b ha hb => simp [eval, rows, ha, hb]

/-- Without rounding the model is that of `Model/Lwa.lean`, for every order of summation. -/
theorem flLwa_id {t : SumOrder} {nlat : ℕ} (ht : t.Sums nlat) (vort : ℕ → ℕ → K) (q dmu : ℕ → K) (part : Bool)
    (nc : Option (ℕ → ℕ → K)) : flLwa id t nlat vort q dmu part = (lwa nlat vort q dmu part nc).1 := by
  have ha : flLwaAnticyclonic id t nlat vort q dmu = lwaAnticyclonic nlat vort q dmu := by
    funext j c; unfold flLwaAnticyclonic lwaAnticyclonic; rw [SumOrder.eval_id, ht.sum_eq]; rfl
  have hc : flLwaCyclonic id t nlat vort q dmu = lwaCyclonic nlat vort q dmu := by
    funext j c; unfold flLwaCyclonic lwaCyclonic; rw [SumOrder.eval_id, ht.sum_eq]; rfl
  cases part
  · show LwaOut.total _ = LwaOut.total _
    rw [ha, hc]; rfl
  · show LwaOut.partitioned _ _ = LwaOut.partitioned _ _
    rw [ha, hc]

/-! ## The summands -/

theorem anticyclonic_summand_nonneg {fl : K → K} (h : KeepsSign fl) (vort : ℕ → ℕ → K) (q dmu : ℕ → K) (j r c : ℕ)
    (hd : 0 ≤ dmu r) : 0 ≤ fl (fl (flVortE fl vort q j r c * flAnticyclonicMask fl vort q j r c) * dmu r) := by
  refine h.nonneg _ (mul_nonneg (h.nonneg _ ?_) hd)
  unfold flAnticyclonicMask
  split_ifs with h1 h2
  · simp
  · nlinarith
  · simp

theorem cyclonic_summand_nonneg {fl : K → K} (h : KeepsSign fl) (vort : ℕ → ℕ → K) (q dmu : ℕ → K) (j r c : ℕ)
    (hd : 0 ≤ dmu r) : 0 ≤ fl (fl (flVortE fl vort q j r c * flCyclonicMask fl vort q j r c) * dmu r) := by
  refine h.nonneg _ (mul_nonneg (h.nonneg _ ?_) hd)
  unfold flCyclonicMask
  split_ifs with h1 h2
  · linarith
  · simp
  · simp

theorem approx_abs {u : K} {fl : K → K} (h : RelativeError u fl) {x : K} (hx : 0 ≤ x) :
    Approx u 1 x (fl x) := by
  have e := h x
  rw [abs_of_nonneg hx, abs_le] at e
  constructor
  · rw [pow_one]; linarith [e.1]
  · rw [pow_one]; linarith [e.2]

theorem approx_neg {u : K} {fl : K → K} (h : RelativeError u fl) {x : K} (hx : x ≤ 0) :
    Approx u 1 (-x) (-fl x) := by
  have e := h x
  rw [abs_of_nonpos hx, abs_le] at e
  constructor
  · rw [pow_one]; linarith [e.2]
  · rw [pow_one]; linarith [e.1]

theorem anticyclonic_summand {u : K} {fl : K → K} (h : RelativeError u fl) (h0 : 0 ≤ u) (hu : u < 1) (vort : ℕ → ℕ → K)
    (q dmu : ℕ → K) (j r c : ℕ) (hd : 0 ≤ dmu r) :
    Approx u 3 (if j < r ∧ vort r c < q j then (q j - vort r c) * dmu r else 0)
      (fl (fl (flVortE fl vort q j r c * flAnticyclonicMask fl vort q j r c) * dmu r)) := by
  have hs := h.keepsSign hu
  unfold flAnticyclonicMask
  by_cases h1 : r < j + 1
  · rw [if_pos h1, if_neg (by omega), mul_zero, hs.zero, zero_mul, hs.zero]; constructor <;> simp
  · rw [if_neg h1]
    by_cases h2 : vort r c < q j
    · rw [if_pos (show flVortE fl vort q j r c < 0 from h.neg hu (by linarith)), if_pos ⟨by omega, h2⟩, mul_neg_one]
      have a := approx_neg h (x := vort r c - q j) (by linarith)
      rw [neg_sub] at a
      have hx : 0 ≤ q j - vort r c := by linarith
      exact ((a.fl h h0 hu hx).mul_right hd).fl h h0 hu (mul_nonneg hx hd)
    · rw [if_neg (show ¬ flVortE fl vort q j r c < 0 from not_lt.2 (hs.nonneg _ (by linarith))), if_neg (fun h => h2 h.2),
        mul_zero, hs.zero, zero_mul, hs.zero]
      constructor <;> simp

theorem cyclonic_summand {u : K} {fl : K → K} (h : RelativeError u fl) (h0 : 0 ≤ u) (hu : u < 1) (vort : ℕ → ℕ → K)
    (q dmu : ℕ → K) (j r c : ℕ) (hd : 0 ≤ dmu r) :
    Approx u 3 (if r ≤ j ∧ q j < vort r c then (vort r c - q j) * dmu r else 0)
      (fl (fl (flVortE fl vort q j r c * flCyclonicMask fl vort q j r c) * dmu r)) := by
  have hs := h.keepsSign hu
  unfold flCyclonicMask
  by_cases h1 : r < j + 1
  · rw [if_pos h1]
    by_cases h2 : q j < vort r c
    · rw [if_pos (show 0 < flVortE fl vort q j r c from h.pos hu (by linarith)), if_pos ⟨by omega, h2⟩, mul_one]
      have hx : 0 ≤ vort r c - q j := by linarith
      have a := approx_abs h hx
      exact ((a.fl h h0 hu hx).mul_right hd).fl h h0 hu (mul_nonneg hx hd)
    · rw [if_neg (show ¬ 0 < flVortE fl vort q j r c from not_lt.2 (hs.nonpos _ (by linarith))), if_neg (fun h => h2 h.2),
        mul_zero, hs.zero, zero_mul, hs.zero]
      constructor <;> simp
  · rw [if_neg h1, if_neg (by omega), mul_zero, hs.zero, zero_mul, hs.zero]; constructor <;> simp

/-! ## C118 -/

/-- C118. Every value that `basis.lwa` returns is non-negative in every arithmetic that keeps signs, whatever the order of summation,
with and without partitioning. -/
theorem C118_nonneg {fl : K → K} (h : KeepsSign fl) {t : SumOrder} {nlat : ℕ} (ht : t.Sums nlat) (vort : ℕ → ℕ → K)
    (q dmu : ℕ → K) (hd : ∀ r < nlat, 0 ≤ dmu r) (part : Bool) : (flLwa fl t nlat vort q dmu part).All (0 ≤ ·) := by
  have hr : ∀ r ∈ t.rows, 0 ≤ dmu r := fun r hr => hd r (List.mem_range.1 ((ht.mem_iff).1 hr))
  have ha : ∀ j c, 0 ≤ flLwaAnticyclonic fl t nlat vort q dmu j c := fun j c => by
    unfold flLwaAnticyclonic
    split_ifs
    · exact SumOrder.eval_nonneg h _ t fun r hr' => anticyclonic_summand_nonneg h vort q dmu j r c (hr r hr')
    · exact le_rfl
  have hc : ∀ j c, 0 ≤ flLwaCyclonic fl t nlat vort q dmu j c := fun j c => by
    unfold flLwaCyclonic
    split_ifs
    · exact SumOrder.eval_nonneg h _ t fun r hr' => cyclonic_summand_nonneg h vort q dmu j r c (hr r hr')
    · exact le_rfl
  cases part
  · exact fun j c => h.nonneg _ (add_nonneg (ha j c) (hc j c))
  · exact fun j c => ⟨ha j c, hc j c⟩

/-- C118. Both components are computed to relative accuracy; no accuracy is lost by cancellation.
With unit roundoff `u` and at most `t.depth` additions per summand, the result is between `(1 - u)^(t.depth + 3)` and
`(1 + u)^(t.depth + 3)` times the exact displaced-contour integral. -/
theorem C118_components {u : K} {fl : K → K} (h : RelativeError u fl) (h0 : 0 ≤ u) (hu : u < 1) {t : SumOrder} {nlat : ℕ}
    (ht : t.Sums nlat) (vort : ℕ → ℕ → K) (q dmu : ℕ → K) (hd : ∀ r < nlat, 0 ≤ dmu r) {j : ℕ} (hj : j + 1 < nlat) (c : ℕ) :
    ∃ a b, flLwa fl t nlat vort q dmu true = .partitioned a b ∧
      ((1 - u) ^ (t.depth + 3) * Spec.deficitPoleward nlat vort q dmu j c ≤ a j c ∧
        a j c ≤ (1 + u) ^ (t.depth + 3) * Spec.deficitPoleward nlat vort q dmu j c) ∧
      ((1 - u) ^ (t.depth + 3) * Spec.surplusEquatorward nlat vort q dmu j c ≤ b j c ∧
        b j c ≤ (1 + u) ^ (t.depth + 3) * Spec.surplusEquatorward nlat vort q dmu j c) := by
  have hr : ∀ r ∈ t.rows, 0 ≤ dmu r := fun r hr => hd r (List.mem_range.1 ((ht.mem_iff).1 hr))
  refine ⟨_, _, rfl, ?_, ?_⟩
  · have e := SumOrder.eval_approx h h0 hu
      (fun r => if j < r ∧ vort r c < q j then (q j - vort r c) * dmu r else 0) _ t
      (fun r hr' => by
        split_ifs with h1
        · exact mul_nonneg (by linarith [h1.2]) (hr r hr')
        · exact le_rfl)
      fun r hr' => anticyclonic_summand h h0 hu vort q dmu j r c (hr r hr')
    rw [ht.sum_eq, ← sum_filter, add_comm 3] at e
    unfold flLwaAnticyclonic
    rw [if_pos (by omega)]
    exact e
  · have e := SumOrder.eval_approx h h0 hu
      (fun r => if r ≤ j ∧ q j < vort r c then (vort r c - q j) * dmu r else 0) _ t
      (fun r hr' => by
        split_ifs with h1
        · exact mul_nonneg (by linarith [h1.2]) (hr r hr')
        · exact le_rfl)
      fun r hr' => cyclonic_summand h h0 hu vort q dmu j r c (hr r hr')
    rw [ht.sum_eq, ← sum_filter, add_comm 3] at e
    unfold flLwaCyclonic
    rw [if_pos (by omega)]
    exact e

/-- C118. The same for the total wave activity, with one more addition. -/
theorem C118_total {u : K} {fl : K → K} (h : RelativeError u fl) (h0 : 0 ≤ u) (hu : u < 1) {t : SumOrder} {nlat : ℕ}
    (ht : t.Sums nlat) (vort : ℕ → ℕ → K) (q dmu : ℕ → K) (hd : ∀ r < nlat, 0 ≤ dmu r) {j : ℕ} (hj : j + 1 < nlat) (c : ℕ) :
    ∃ f, flLwa fl t nlat vort q dmu false = .total f ∧
      (1 - u) ^ (t.depth + 4) * Spec.waveActivity nlat vort q dmu j c ≤ f j c ∧
        f j c ≤ (1 + u) ^ (t.depth + 4) * Spec.waveActivity nlat vort q dmu j c := by
  obtain ⟨a, b, e, ha, hb⟩ := C118_components h h0 hu ht vort q dmu hd hj c
  cases e
  refine ⟨_, rfl, ?_⟩
  have hs : Spec.waveActivity nlat vort q dmu j c =
      Spec.deficitPoleward nlat vort q dmu j c + Spec.surplusEquatorward nlat vort q dmu j c := by
    rw [← lwaTotal_eq_spec hj, ← lwaAnticyclonic_eq_spec hj, ← lwaCyclonic_eq_spec hj]; rfl
  rw [hs]
  exact (Approx.add (show Approx u _ _ _ from ha) (show Approx u _ _ _ from hb)).fl h h0 hu
    (add_nonneg (deficitPoleward_nonneg hd) (surplusEquatorward_nonneg hd))

/-- C118. With positive weights the computed wave activity is zero exactly where the exact one is: rounding neither creates
nor hides waves. -/
theorem C118_zero_iff {u : K} {fl : K → K} (h : RelativeError u fl) (h0 : 0 ≤ u) (hu : u < 1) {t : SumOrder} {nlat : ℕ}
    (ht : t.Sums nlat) (vort : ℕ → ℕ → K) (q dmu : ℕ → K) (hd : ∀ r < nlat, 0 < dmu r) {j : ℕ} (hj : j + 1 < nlat) (c : ℕ) :
    ∃ f, flLwa fl t nlat vort q dmu false = .total f ∧
      (f j c = 0 ↔ ∀ r < nlat, ¬ Spec.Displaced vort q j r c) := by
  obtain ⟨f, e, h1, h2⟩ := C118_total h h0 hu ht vort q dmu (fun r hr => (hd r hr).le) hj c
  refine ⟨f, e, ?_⟩
  have hn : ∀ r ∈ (range nlat).filter (fun r => Spec.Displaced vort q j r c), 0 ≤ |vort r c - q j| * dmu r := fun r hr =>
    mul_nonneg (abs_nonneg _) (hd r (mem_range.1 (mem_filter.1 hr).1)).le
  have hz : Spec.waveActivity nlat vort q dmu j c = 0 ↔ ∀ r < nlat, ¬ Spec.Displaced vort q j r c := by
    unfold Spec.waveActivity
    rw [sum_eq_zero_iff_of_nonneg hn]
    constructor
    · intro hr r hlt hD
      have := hr r (mem_filter.2 ⟨mem_range.2 hlt, hD⟩)
      rcases mul_eq_zero.1 this with h3 | h3
      · have h4 : vort r c - q j = 0 := abs_eq_zero.1 h3
        rcases hD with hD | hD <;> linarith [hD.2]
      · exact (hd r hlt).ne' h3
    · intro hr r hm
      exact absurd (mem_filter.1 hm).2 (hr r (mem_range.1 (mem_filter.1 hm).1))
  rw [← hz]
  have hw : 0 ≤ Spec.waveActivity nlat vort q dmu j c := sum_nonneg hn
  constructor
  · intro hf
    rw [hf] at h1
    have hp : (0 : K) < (1 - u) ^ (t.depth + 4) := pow_pos (by linarith) _
    by_contra hne
    exact absurd h1 (not_le.2 (mul_pos hp (lt_of_le_of_ne hw (Ne.symm hne))))
  · intro hw0
    rw [hw0, mul_zero] at h1 h2
    exact le_antisymm h2 h1

/-! Rounding to `p` binary digits is an arithmetic of this kind, for every `p`. -/

theorem relativeError_roundBits [FloorRing K] (p : ℕ) : RelativeError ((1 / 2 : K) ^ (p + 1)) (roundBits p) := by
  intro x
  by_cases hx : x = 0
  · subst hx; simp [roundBits]
  have hpos : 0 < |x| := abs_pos.2 hx
  have hs : (0 : K) < (2 : K) ^ (Int.log 2 |x| - p) := zpow_pos (by norm_num) _
  have he : roundBits p x - x = -((x / (2 : K) ^ (Int.log 2 |x| - p) - (round (x / (2 : K) ^ (Int.log 2 |x| - p)) : K)) *
      (2 : K) ^ (Int.log 2 |x| - p)) := by
    unfold roundBits; rw [sub_mul, div_mul_cancel₀ _ hs.ne']; ring
  rw [he, abs_neg, abs_mul, abs_of_pos hs]
  have hl : (2 : K) ^ Int.log 2 |x| ≤ |x| := by
    have := Int.zpow_log_le_self (b := 2) (by norm_num) hpos
    simpa using this
  calc _ ≤ 1 / 2 * (2 : K) ^ (Int.log 2 |x| - p) := mul_le_mul_of_nonneg_right (abs_sub_round _) hs.le
    _ = (1 / 2) ^ (p + 1) * (2 : K) ^ Int.log 2 |x| := by
        rw [zpow_sub₀ (by norm_num), zpow_natCast, pow_succ, one_div, inv_pow]; field_simp
    _ ≤ _ := mul_le_mul_of_nonneg_left hl (by positivity)

/-- Hypotheses of C118: double precision, rows added one after the other. -/
example : RelativeError ((1 / 2 : ℚ) ^ 53) (roundBits 52) ∧ (0 : ℚ) ≤ (1 / 2) ^ 53 ∧ (1 / 2 : ℚ) ^ 53 < 1 ∧
    KeepsSign (roundBits (K := ℚ) 52) ∧ (SumOrder.sequential 120).Sums 121 ∧ (SumOrder.sequential 120).depth = 120 :=
  ⟨relativeError_roundBits 52, by positivity, by norm_num,
    (relativeError_roundBits 52).keepsSign (by norm_num), SumOrder.sequential_sums 120, SumOrder.depth_sequential 120⟩

/-- With 121 rows in double precision the total is known to a relative error of 10^-13. -/
example : (1 + (1 / 2 : ℚ) ^ 53) ^ (120 + 4) ≤ 1 + 1 / 10 ^ 13 ∧ 1 - 1 / 10 ^ 13 ≤ (1 - (1 / 2 : ℚ) ^ 53) ^ (120 + 4) := by
  constructor <;> norm_num

/-- Rounding does change results: one third with three binary digits. -/
example : roundBits 2 (1 / 3 : ℚ) ≠ 1 / 3 := by
  intro h
  have h2 : ((round ((1 / 3 : ℚ) / (2 : ℚ) ^ (Int.log 2 |(1 / 3 : ℚ)| - 2)) : ℤ) : ℚ) *
      (2 : ℚ) ^ (Int.log 2 |(1 / 3 : ℚ)| - 2) = 1 / 3 := by simpa [roundBits] using h
  have hl : Int.log 2 |(1 / 3 : ℚ)| = -2 := by
    rw [abs_of_pos (by norm_num)]
    have h1 : Int.log 2 ((2 : ℕ) : ℚ)⁻¹ = -1 := by
      have := Int.log_zpow (R := ℚ) (b := 2) (by norm_num) (-1); simpa using this
    apply le_antisymm
    · have := (Int.lt_zpow_iff_log_lt (R := ℚ) (b := 2) (by norm_num) (x := -1) (r := 1 / 3) (by norm_num)).1 (by norm_num)
      omega
    · exact (Int.zpow_le_iff_le_log (R := ℚ) (b := 2) (by norm_num) (x := -2) (r := 1 / 3) (by norm_num)).1 (by norm_num)
  rw [hl] at h2
  generalize round ((1 / 3 : ℚ) / (2 : ℚ) ^ ((-2 : ℤ) - 2)) = n at h2
  have h3 : ((3 * n : ℤ) : ℚ) = ((16 : ℤ) : ℚ) := by
    push_cast
    have : (2 : ℚ) ^ ((-2 : ℤ) - 2) = 1 / 16 := by norm_num
    rw [this] at h2; linarith
  have h4 : 3 * n = 16 := by exact_mod_cast h3
  omega

end Falwa
