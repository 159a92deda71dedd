import Verif.Lemmas.Quadratic
import Verif.Props.Minimal

/-!
# C128: wave activity is quadratic in the anomaly

If the values of a column are within `ε` of a profile with slope at least `γ` per unit of weight, the wave activity is at most
`ε² / γ + ε · dmu`: linear in the amplitude only through the width of one row. Conversely, with slopes of the field up to `G`, twice
`G` times the wave activity bounds the square of each displaced anomaly. So the diagnostic is small exactly for small waves, and of
second order.
-/

namespace Falwa

open Finset

/-! ### `basis.lwa` -/

section Basis

variable {K : Type*} [Field K] [LinearOrder K] [IsStrictOrderedRing K]

/-- The wave activity of one column. -/
theorem lwaTotal_column {nlat : ℕ} {q : ℕ → ℕ → K} {Q dmu : ℕ → K} {j c : ℕ} (hj : j + 1 < nlat) :
    lwaTotal nlat q Q dmu j c =
      crossing (Icc (0 : ℤ) (nlat - 1)) (fun r => dmu r.toNat) (fun r => q r.toNat c) (fun r => r < (j : ℤ) + 1) (Q j) := by
  unfold crossing
  rw [lwaTotal_eq_spec hj, waveActivity_eq_add, deficit_eq, surplus_eq, ← sum_add_distrib]
  refine sum_bij (fun r _ => (r : ℤ)) (fun r hr => ?_) (fun r _ r' _ h => by exact_mod_cast h) (fun z hz => ?_) fun r hr => ?_
  · have := mem_range.1 hr; simp only [mem_Icc]; omega
  · have := mem_Icc.1 hz
    exact ⟨z.toNat, mem_range.2 (by omega), by omega⟩
  · simp only [Int.toNat_natCast]
    rcases lt_or_ge j r with h | h
    · rw [if_pos h, if_neg (not_le.2 h), if_neg (by omega), zero_mul, add_zero]
    · rw [if_neg (not_lt.2 h), if_pos h, if_pos (by omega), zero_mul, zero_add]

/-- C128, upper bound. -/
theorem C128_upper (nlat : ℕ) (q : ℕ → ℕ → K) (Q dmu : ℕ → K) (nc : Option (ℕ → ℕ → K)) (c : ℕ) {γ ε : K} (hγ : 0 < γ)
    (hd : ∀ r < nlat, 0 ≤ dmu r) (hq : ∀ r < nlat, |q r c - Q r| ≤ ε)
    (hQ : ∀ r, r + 1 < nlat → γ * dmu r ≤ Q (r + 1) - Q r ∧ γ * dmu (r + 1) ≤ Q (r + 1) - Q r) :
    ∃ f, (lwa nlat q Q dmu false nc).1 = .total f ∧ ∀ j, j + 1 < nlat → f j c ≤ ε ^ 2 / γ + ε * dmu j := by
  refine ⟨_, rfl, fun j hj => ?_⟩
  change lwaTotal nlat q Q dmu j c ≤ _
  rw [lwaTotal_column hj]
  have := crossing_le_sq (q := fun r : ℤ => q r.toNat c) (P := fun r : ℤ => Q r.toNat) (w := fun r : ℤ => dmu r.toNat)
    (lo := 0) (hi := nlat - 1) (a := j) (g := (j : ℤ) + 1) (ε := ε) hγ (by omega) (Or.inr rfl)
    (fun r _ _ => hd _ (by omega)) (fun r _ _ => hq _ (by omega)) (fun r h1 h2 => by
      have := hQ r.toNat (by omega)
      rwa [show (r + 1).toNat = r.toNat + 1 by omega])
  simpa only [Int.toNat_natCast] using this

/-- C128, lower bounds: for rows on the southern side too high, and rows on the northern side too low. The ends of the column count
only if they are displaced themselves. No slope is asked of the first and last row, whose weights may be zero. -/
theorem C128_lower (nlat : ℕ) (q : ℕ → ℕ → K) (Q dmu : ℕ → K) (nc : Option (ℕ → ℕ → K)) (c : ℕ) {G : K} (hG : 0 ≤ G)
    (hd : ∀ r < nlat, 0 ≤ dmu r)
    (hq : ∀ r, r + 2 < nlat → q (r + 1) c - q r c ≤ G * dmu (r + 1) ∧ q (r + 2) c - q (r + 1) c ≤ G * dmu (r + 1)) :
    ∃ f, (lwa nlat q Q dmu false nc).1 = .total f ∧ ∀ j, j + 1 < nlat →
      (∀ r ≤ j, max (q r c - Q j) 0 ^ 2 ≤ 2 * G * f j c + max (q 0 c - Q j) 0 ^ 2) ∧
      (∀ r, j < r → r < nlat → max (Q j - q r c) 0 ^ 2 ≤ 2 * G * f j c + max (Q j - q (nlat - 1) c) 0 ^ 2) := by
  refine ⟨_, rfl, fun j hj => ?_⟩
  change (∀ r ≤ j, _ ≤ 2 * G * lwaTotal nlat q Q dmu j c + _) ∧ (∀ r, j < r → r < nlat → _ ≤ 2 * G * lwaTotal nlat q Q dmu j c + _)
  rw [lwaTotal_column hj]
  have := crossing_ge_sq (q := fun r : ℤ => q r.toNat c) (w := fun r : ℤ => dmu r.toNat) (v := Q j)
    (lo := 0) (hi := nlat - 1) (g := (j : ℤ) + 1) hG (by omega) (by omega)
    (fun r _ _ => hd _ (by omega)) (fun r h1 h2 => by
      have := (hq (r.toNat - 1) (by omega)).1
      rwa [show r.toNat - 1 + 1 = r.toNat by omega, show r.toNat - 1 = (r - 1).toNat by omega] at this) (fun r h1 h2 => by
      have := (hq (r.toNat - 1) (by omega)).2
      rwa [show r.toNat - 1 + 2 = (r + 1).toNat by omega, show r.toNat - 1 + 1 = r.toNat by omega] at this)
  refine ⟨fun r hr => ?_, fun r h1 h2 => ?_⟩
  · simpa only [Int.toNat_natCast, Int.toNat_zero] using this.1 r (by omega) (by omega)
  · have := this.2 r (by omega) (by omega)
    rwa [Int.toNat_natCast, show ((nlat : ℤ) - 1).toNat = nlat - 1 by omega] at this

/-- Four rows; the field differs from the profile by 1/2 with alternating sign. -/
example : (0 : ℚ) < 1 ∧ (∀ r < 4, (0 : ℚ) ≤ (fun _ : ℕ => (1 : ℚ)) r) ∧
    (∀ r < 4, |(fun r _ : ℕ => (r : ℚ) + (if r % 2 = 0 then 1 / 2 else -1 / 2)) r 0 - (fun r : ℕ => (r : ℚ)) r| ≤ 1 / 2) ∧
    (∀ r, r + 1 < 4 → (1 : ℚ) * 1 ≤ ((r + 1 : ℕ) : ℚ) - (r : ℚ)) ∧
    (∀ r, r + 1 < 4 → ((r + 1 : ℕ) : ℚ) + (if (r + 1) % 2 = 0 then 1 / 2 else -1 / 2) - ((r : ℚ) + (if r % 2 = 0 then 1 / 2 else -1 / 2)) ≤ 2 * 1) ∧
    lwaTotal 4 (fun r _ => (r : ℚ) + (if r % 2 = 0 then 1 / 2 else -1 / 2)) (fun r => (r : ℚ)) (fun _ => 1) 2 0 = 1 / 2 := by
  refine ⟨by norm_num, fun _ _ => by norm_num, fun r hr => ?_, fun r _ => by push_cast; linarith, fun r hr => ?_, ?_⟩
  · interval_cases r <;> norm_num [abs_of_pos, abs_of_neg]
  · have : r < 3 := by omega
    interval_cases r <;> norm_num
  · norm_num [lwaTotal, lwaAnticyclonic, lwaCyclonic, vortE, anticyclonicMask, cyclonicMask, sum_range_succ]

end Basis

/-! ### `QGField` -/

noncomputable section

namespace QGAnalysis

open Spec

variable {S : QGAnalysis}

theorem waveActivityNorth_crossing (H : Finset ℤ) (q : ℤ → ℝ) (v : ℝ) (w : ℤ → ℝ) (g : ℤ) :
    waveActivityNorth H q v w g = crossing H w q (fun r => r < g) v := by
  have := sum_waveActivityNorth H {0} (fun _ => q) v w g
  rw [sum_singleton] at this
  rw [this]
  unfold crossing
  rw [sum_product]
  simp only [sum_singleton]

theorem waveActivitySouth_crossing (H : Finset ℤ) (q : ℤ → ℝ) (v : ℝ) (w : ℤ → ℝ) (g : ℤ) :
    waveActivitySouth H q v w g = crossing H w q (fun r => r < g + 1) v := by
  have := sum_waveActivitySouth H {0} (fun _ => q) v w g
  rw [sum_singleton] at this
  rw [this]
  unfold crossing
  rw [sum_product]
  simp only [sum_singleton, Int.lt_add_one_iff]

/-- C128 for `QGField`, Northern Hemisphere. `P` is the reference PV by global row. -/
theorem C128_qg_north_upper (hv : S.Valid) (i g k : ℤ) (hi : 1 ≤ i ∧ i ≤ S.nlon) (hk : 2 ≤ k ∧ k ≤ S.kmax - 1)
    (hg : S.nd + S.jb ≤ S.outRow g ∧ S.outRow g < S.nlat) (heq : S.nhOnly = true ∨ S.nd < g) (P : ℤ → ℝ)
    (hPg : P (S.outRow g) = S.qref g k) {γ ε : ℝ} (hγ : 0 < γ)
    (hq : ∀ r, S.nd ≤ r → r ≤ S.nlat → |S.qgpv i r k - P r| ≤ ε)
    (hP : ∀ r, S.nd ≤ r → r < S.nlat → γ * S.rowWeight r ≤ P (r + 1) - P r ∧ γ * S.rowWeight (r + 1) ≤ P (r + 1) - P r) :
    S.lwa i g k ≤ ε ^ 2 / γ + ε * S.rowWeight (S.outRow g) := by
  have hodd := hv.odd
  have hj := hv.jb0
  have hj' := hv.jbnd
  rw [C42_north hv i g k hi hk hg heq]
  change waveActivityNorth (Icc S.nd S.nlat) (fun r => S.qgpv i r k) (S.qref g k) S.rowWeight (S.outRow g) ≤ _
  rw [waveActivityNorth_crossing, ← hPg]
  exact crossing_le_sq hγ (by omega) (Or.inl rfl) (fun r h1 h2 => hv.rowWeight_nonneg (by omega) h2) hq hP

/-- C128 for `QGField`, Southern Hemisphere. -/
theorem C128_qg_south_upper (hv : S.Valid) (hm : S.nhOnly = false) (i g k : ℤ) (hi : 1 ≤ i ∧ i ≤ S.nlon)
    (hk : 2 ≤ k ∧ k ≤ S.kmax - 1) (hg : 1 < g ∧ g ≤ S.nd - S.jb) (P : ℤ → ℝ)
    (hPg : P g = S.qref g k) {γ ε : ℝ} (hγ : 0 < γ)
    (hq : ∀ r, 1 ≤ r → r ≤ S.nd → |S.qgpv i r k - P r| ≤ ε)
    (hP : ∀ r, 1 ≤ r → r < S.nd → γ * S.rowWeight r ≤ P (r + 1) - P r ∧ γ * S.rowWeight (r + 1) ≤ P (r + 1) - P r) :
    S.lwa i g k ≤ ε ^ 2 / γ + ε * S.rowWeight g := by
  have hodd := hv.odd
  have hj := hv.jb0
  have hj' := hv.jbnd
  rw [C42_south hv hm i g k hi hk hg]
  change waveActivitySouth (Icc 1 S.nd) (fun r => S.qgpv i r k) (S.qref g k) S.rowWeight g ≤ _
  rw [waveActivitySouth_crossing, ← hPg]
  exact crossing_le_sq hγ (by omega) (Or.inr rfl) (fun r h1 h2 => hv.rowWeight_nonneg (by omega) (by omega)) hq hP

/-- C128 for `QGField`, Northern Hemisphere: lower bounds. -/
theorem C128_qg_north_lower (hv : S.Valid) (i g k : ℤ) (hi : 1 ≤ i ∧ i ≤ S.nlon) (hk : 2 ≤ k ∧ k ≤ S.kmax - 1)
    (hg : S.nd + S.jb ≤ S.outRow g ∧ S.outRow g < S.nlat) (heq : S.nhOnly = true ∨ S.nd < g) {G : ℝ} (hG : 0 ≤ G)
    (hs : ∀ r, S.nd < r → r < S.nlat → S.qgpv i r k - S.qgpv i (r - 1) k ≤ G * S.rowWeight r)
    (hd : ∀ r, S.nd ≤ r → r < S.nlat → S.qgpv i (r + 1) k - S.qgpv i r k ≤ G * S.rowWeight r) :
    (∀ r, S.nd ≤ r → r < S.outRow g → max (S.qgpv i r k - S.qref g k) 0 ^ 2 ≤
      2 * G * S.lwa i g k + max (S.qgpv i S.nd k - S.qref g k) 0 ^ 2) ∧
    (∀ r, S.outRow g ≤ r → r ≤ S.nlat → max (S.qref g k - S.qgpv i r k) 0 ^ 2 ≤
      2 * G * S.lwa i g k + max (S.qref g k - S.qgpv i S.nlat k) 0 ^ 2) := by
  have hodd := hv.odd
  have hj := hv.jb0
  have hj' := hv.jbnd
  rw [C42_north hv i g k hi hk hg heq]
  change (∀ r, S.nd ≤ r → r < S.outRow g → _ ≤ 2 * G * waveActivityNorth (Icc S.nd S.nlat) (fun r => S.qgpv i r k)
      (S.qref g k) S.rowWeight (S.outRow g) + _) ∧ (∀ r, S.outRow g ≤ r → r ≤ S.nlat → _ ≤ 2 * G *
      waveActivityNorth (Icc S.nd S.nlat) (fun r => S.qgpv i r k) (S.qref g k) S.rowWeight (S.outRow g) + _)
  rw [waveActivityNorth_crossing]
  exact crossing_ge_sq (q := fun r => S.qgpv i r k) hG (by omega) (by omega)
    (fun r h1 h2 => hv.rowWeight_nonneg (by omega) h2) (fun r h1 h2 => hs r h1 (by omega)) (fun r h1 h2 => hd r (by omega) h2)

/-- C128 for `QGField`, Southern Hemisphere: lower bounds. -/
theorem C128_qg_south_lower (hv : S.Valid) (hm : S.nhOnly = false) (i g k : ℤ) (hi : 1 ≤ i ∧ i ≤ S.nlon)
    (hk : 2 ≤ k ∧ k ≤ S.kmax - 1) (hg : 1 < g ∧ g ≤ S.nd - S.jb) {G : ℝ} (hG : 0 ≤ G)
    (hs : ∀ r, 1 < r → r ≤ S.nd → S.qgpv i r k - S.qgpv i (r - 1) k ≤ G * S.rowWeight r)
    (hd : ∀ r, 1 < r → r < S.nd → S.qgpv i (r + 1) k - S.qgpv i r k ≤ G * S.rowWeight r) :
    (∀ r, 1 ≤ r → r ≤ g → max (S.qgpv i r k - S.qref g k) 0 ^ 2 ≤
      2 * G * S.lwa i g k + max (S.qgpv i 1 k - S.qref g k) 0 ^ 2) ∧
    (∀ r, g < r → r ≤ S.nd → max (S.qref g k - S.qgpv i r k) 0 ^ 2 ≤
      2 * G * S.lwa i g k + max (S.qref g k - S.qgpv i S.nd k) 0 ^ 2) := by
  have hodd := hv.odd
  have hj := hv.jb0
  have hj' := hv.jbnd
  rw [C42_south hv hm i g k hi hk hg]
  change (∀ r, 1 ≤ r → r ≤ g → _ ≤ 2 * G * waveActivitySouth (Icc 1 S.nd) (fun r => S.qgpv i r k) (S.qref g k) S.rowWeight g + _) ∧
    (∀ r, g < r → r ≤ S.nd → _ ≤ 2 * G * waveActivitySouth (Icc 1 S.nd) (fun r => S.qgpv i r k) (S.qref g k) S.rowWeight g + _)
  rw [waveActivitySouth_crossing]
  have := crossing_ge_sq (q := fun r => S.qgpv i r k) (w := S.rowWeight) (v := S.qref g k) (lo := 1) (hi := S.nd) (g := g + 1) hG
    (by omega) (by omega) (fun r h1 h2 => hv.rowWeight_nonneg (by omega) (by omega))
    (fun r h1 h2 => hs r h1 (by omega)) (fun r h1 h2 => hd r (by omega) h2)
  exact ⟨fun r h1 h2 => this.1 r h1 (by omega), fun r h1 h2 => this.2 r (by omega) h2⟩

/-- Five rows with PV that alternates about a linear profile: the hypotheses of the upper bounds hold with `γ = ε = 1`. -/
example : (sample.withPv (fun _ r _ => (r : ℝ) + if r % 2 = 0 then 1 else -1) (fun g _ => (g : ℝ))).Valid ∧
    (∀ r : ℤ, 1 ≤ r → r ≤ 5 → |((r : ℝ) + if r % 2 = 0 then 1 else -1) - (r : ℝ)| ≤ 1) ∧
    (∀ r : ℤ, 1 * (sample.withPv (fun _ r _ => (r : ℝ) + if r % 2 = 0 then 1 else -1) (fun g _ => (g : ℝ))).rowWeight r ≤ 1) ∧
    (sample.withPv (fun _ r _ => (r : ℝ) + if r % 2 = 0 then 1 else -1) (fun g _ => (g : ℝ))).outRow 4 = 4 := by
  refine ⟨⟨sample_valid.odd, sample_valid.jb0, sample_valid.jbnd, sample_valid.jdEq, sample_valid.a0⟩, fun r _ _ => ?_, fun r => ?_, rfl⟩
  · rw [add_sub_cancel_left]; split_ifs <;> norm_num
  · have h1 : Real.cos ((sample.withPv (fun _ r _ => (r : ℝ) + if r % 2 = 0 then 1 else -1) (fun g _ => (g : ℝ))).lat r) ≤ 1 :=
      Real.cos_le_one _
    have h2 := Real.pi_lt_four
    have h3 := Real.pi_pos
    change 1 * (1 * Real.cos _ * (Real.pi / ((5 - 1 : ℤ) : ℝ))) ≤ 1
    push_cast
    nlinarith

/-- On the sample grid the slopes of every field are bounded in this sense: the weights of the rows between the poles are positive. -/
example (q : ℤ → ℝ) : ∃ G, 0 ≤ G ∧ ∀ r, 1 < r → r < sample.nlat →
    q r - q (r - 1) ≤ G * sample.rowWeight r ∧ q (r + 1) - q r ≤ G * sample.rowWeight r := by
  have hw : ∀ r : ℤ, 1 < r → r < sample.nlat → 0 < sample.rowWeight r := fun r h1 h2 => by
    have h2 : r < 5 := h2
    have hpi := Real.pi_pos
    refine mul_pos (mul_pos (by norm_num [sample]) (Real.cos_pos_of_mem_Ioo ?_)) ?_
    · have hr : r = 2 ∨ r = 3 ∨ r = 4 := by omega
      rcases hr with rfl | rfl | rfl <;> constructor <;> simp only [lat, dphi, sample] <;> push_cast <;> linarith
    · change 0 < Real.pi / ((5 - 1 : ℤ) : ℝ)
      push_cast; positivity
  refine ⟨∑ r ∈ Icc 2 4, (|q r - q (r - 1)| + |q (r + 1) - q r|) / sample.rowWeight r, sum_nonneg fun r hr => ?_, fun r h1 h2 => ?_⟩
  · have := mem_Icc.1 hr
    have := hw r (by omega) (show r < 5 by omega)
    positivity
  · have h5 : r < 5 := h2
    have h0 := hw r h1 h2
    have := single_le_sum (f := fun r => (|q r - q (r - 1)| + |q (r + 1) - q r|) / sample.rowWeight r) (s := Icc 2 4) (fun r hr => by
      have := mem_Icc.1 hr
      have := hw r (by omega) (show r < 5 by omega)
      show 0 ≤ (|q r - q (r - 1)| + |q (r + 1) - q r|) / sample.rowWeight r
      positivity) (mem_Icc.2 ⟨by omega, by omega⟩ : r ∈ Icc 2 4)
    rw [div_le_iff₀ h0] at this
    have a1 := le_abs_self (q r - q (r - 1))
    have a2 := le_abs_self (q (r + 1) - q r)
    have a3 := abs_nonneg (q r - q (r - 1))
    have a4 := abs_nonneg (q (r + 1) - q r)
    constructor <;> linarith

end QGAnalysis

end

end Falwa
