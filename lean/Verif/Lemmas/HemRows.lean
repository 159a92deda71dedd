import Verif.Props.HemBudget
import Verif.Lemmas.Parts

/-!
# Rows of the two parts of a hemispheric analysis

Limits of the sums of `basis.lwa` in each part, for any profile that has a limit. Used for C198 and C199.
-/

noncomputable section

namespace Falwa

open Finset Spec MeasureTheory Filter

variable {a φ σ v l : ℝ} {q : ℝ → ℝ → ℝ} {nlat nlon : ℕ → ℕ} {S np : ℕ → Option ℕ} {j c : ℕ → ℕ}

/-- On southern rows the southern array is kept. -/
theorem SouthRows.keeps (hr : SouthRows nlat S j σ φ) (i : ℕ) {α : Type} [Zero α] (x y : ℕ → α) :
    (hemOn a q (nlat i) (nlon i) (S i) (np i)).assemble x y (j i) = x (j i) := by
  have h1 := (hr.part i).1
  have h2 := (hr.part i).2
  unfold HemInput.assemble
  have n1 : ¬ ((hemOn a q (nlat i) (nlon i) (S i) (np i)).nlat - (hemOn a q (nlat i) (nlon i) (S i) (np i)).nlatS ≤ j i ∧
      0 < (hemOn a q (nlat i) (nlon i) (S i) (np i)).nlatS) := fun h => by
    have : nlat i - (S i).getD (nlat i / 2) ≤ j i := h.1
    omega
  have n2 : j i < (hemOn a q (nlat i) (nlon i) (S i) (np i)).nlatS := by
    show j i < (S i).getD (nlat i / 2)
    omega
  rw [if_neg n1, if_pos n2]

/-- On northern rows the northern array is written. -/
theorem NorthRows.writes (hr : NorthRows nlat S j σ φ) (hg : HemGrids nlat nlon S np σ) (i : ℕ) {α : Type} [Zero α] (x y : ℕ → α) :
    (hemOn a q (nlat i) (nlon i) (S i) (np i)).assemble x y (j i) = y (j i - (nlat i - (S i).getD (nlat i / 2))) := by
  unfold HemInput.assemble
  have n1 : (hemOn a q (nlat i) (nlon i) (S i) (np i)).nlat - (hemOn a q (nlat i) (nlon i) (S i) (np i)).nlatS ≤ j i ∧
      0 < (hemOn a q (nlat i) (nlon i) (S i) (np i)).nlatS := ⟨(hr.part i).1, hg.some i⟩
  rw [if_pos n1]
  rfl

/-- Sums of `basis.lwa` over the first `nlat_s` rows, with any profile that tends to `v` at the rows. -/
theorem HemGrids.activity (hg : HemGrids nlat nlon S np σ) (hj : ∀ i, j i + 1 < (S i).getD (nlat i / 2))
    (hrow : Tendsto (fun i => regularLat (nlat i) (j i) * Real.pi / 180) atTop (nhds φ)) (h1 : -(Real.pi / 2) < φ) (h2 : φ < σ)
    (hq : Continuous fun p : ℝ × ℝ => q p.1 p.2)
    (hcol : Tendsto (fun i => 2 * Real.pi * c i / nlon i) atTop (nhds l)) {f : ℕ → ℕ → ℝ} (hf : Tendsto (fun i => f i (j i)) atTop (nhds v)) :
    Tendsto (fun i => lwaTotal ((S i).getD (nlat i / 2)) (sampled q (nlat i) (nlon i)) (f i) (regularLength a (nlat i)) (j i) (c i)) atTop
      (nhds (meridionalWaveActivity a (fun y => q y l) v (-(Real.pi / 2)) σ φ)) := by
  have hrow' : Tendsto (fun i => -(Real.pi / 2) + (j i : ℝ) * (Real.pi / ((nlat i - 1 : ℕ) : ℝ))) atTop (nhds φ) :=
    hrow.congr fun i => regularLat_step _
  have rows : NearRows (-(Real.pi / 2)) σ φ l (fun i => (S i).getD (nlat i / 2)) j
      (fun i r => -(Real.pi / 2) + r * (Real.pi / ((nlat i - 1 : ℕ) : ℝ)))
      (fun i => |(S i).getD (nlat i / 2) * (Real.pi / ((nlat i - 1 : ℕ) : ℝ)) - (σ + Real.pi / 2)|)
      (fun i => Real.pi / ((nlat i - 1 : ℕ) : ℝ)) (fun i => 2 * Real.pi * c i / nlon i) :=
    { wide := hg.south
      inside := ⟨h1.le, h2.le⟩
      many := hg.moreS
      small := hg.off
      near := fun i r hr => by
        rw [show -(Real.pi / 2) + (r : ℝ) * (Real.pi / ((nlat i - 1 : ℕ) : ℝ)) - (-(Real.pi / 2) + r * ((σ - -(Real.pi / 2)) /
          (((S i).getD (nlat i / 2) : ℕ) : ℝ))) = r * (Real.pi / ((nlat i - 1 : ℕ) : ℝ)) - r * ((σ + Real.pi / 2) /
          (((S i).getD (nlat i / 2) : ℕ) : ℝ)) by ring]
        exact off_le (hg.some i).ne' hr _ _
      whole := by rw [sub_neg_eq_add]; exact hg.edge
      column := hcol
      upper := fun i => by have := hj i; omega
      row := hrow' }
  refine (rows.activity (a := a) hq hf (D := fun i r => r = (S i).getD (nlat i / 2)) fun i r h => Or.inr h).congr fun i => ?_
  rw [lwaTotal_sum (hj i), sum_range_succ, if_pos rfl, mul_zero, add_zero]
  refine sum_congr rfl fun r hr => ?_
  rw [if_neg (mem_range.1 hr).ne]
  unfold sampled regularLength
  rw [regularLat_step]

/-- Wave activity of the southern call, with any profile that tends to `v` at the rows. -/
theorem SouthRows.activity (hr : SouthRows nlat S j σ φ) (hq : Continuous fun p : ℝ × ℝ => q p.1 p.2) (hg : HemGrids nlat nlon S np σ)
    (hcol : Tendsto (fun i => 2 * Real.pi * c i / nlon i) atTop (nhds l)) {f : ℕ → ℕ → ℝ} (hf : Tendsto (fun i => f i (j i)) atTop (nhds v)) :
    Tendsto (fun i => lwaTotal ((S i).getD (nlat i / 2)) (sampled q (nlat i) (nlon i)) (f i) (regularLength a (nlat i)) (j i) (c i)) atTop
      (nhds (meridionalWaveActivity a (fun y => q y l) v (-(Real.pi / 2)) σ φ)) :=
  hg.activity (fun i => (hr.part i).1) hr.toward hr.south hr.north hq hcol hf

/-- Wave activity of the northern call, with any profile that tends to `v` at the rows. -/
theorem NorthRows.activity (hr : NorthRows nlat S j σ φ) (hq : Continuous fun p : ℝ × ℝ => q p.1 p.2) (hg : HemGrids nlat nlon S np σ)
    (hcol : Tendsto (fun i => 2 * Real.pi * c i / nlon i) atTop (nhds l)) {Q : ℕ → ℕ → ℝ} (hQ : Tendsto (fun i => Q i (j i)) atTop (nhds v)) :
    Tendsto (fun i => lwaTotal ((S i).getD (nlat i / 2)) ((hemOn a q (nlat i) (nlon i) (S i) (np i)).north (sampled q (nlat i) (nlon i)))
      ((hemOn a q (nlat i) (nlon i) (S i) (np i)).north (Q i)) ((hemOn a q (nlat i) (nlon i) (S i) (np i)).north (regularLength a (nlat i)))
      (j i - (nlat i - (S i).getD (nlat i / 2))) (c i)) atTop
      (nhds (meridionalWaveActivity a (fun y => q y l) v (-σ) (Real.pi / 2) φ)) := by
  have hpi := Real.pi_pos
  have hsouth := hg.south
  have hj := hr.part
  have hstep : ∀ i, ((nlat i - 1 : ℕ) : ℝ) * (Real.pi / ((nlat i - 1 : ℕ) : ℝ)) = Real.pi := fun i => by
    have h3 : ((nlat i - 1 : ℕ) : ℝ) ≠ 0 := by exact_mod_cast (by have := hg.rows i; omega : nlat i - 1 ≠ 0)
    rw [mul_div_cancel₀ _ h3]
  have hxr : ∀ i, ∀ r < (S i).getD (nlat i / 2), regularLat (nlat i) (nlat i - (S i).getD (nlat i / 2) + r) * Real.pi / 180 =
      Real.pi / 2 - (((S i).getD (nlat i / 2) : ℕ) - ((r + 1 : ℕ) : ℝ)) * (Real.pi / ((nlat i - 1 : ℕ) : ℝ)) := by
    intro i r hr
    have hS := hg.extent i
    have e : nlat i - (S i).getD (nlat i / 2) + r = nlat i - 1 - ((S i).getD (nlat i / 2) - (r + 1)) := by omega
    rw [regularLat_step, e, Nat.cast_sub (by omega : (S i).getD (nlat i / 2) - (r + 1) ≤ nlat i - 1), sub_mul, hstep,
      Nat.cast_sub (by omega : r + 1 ≤ (S i).getD (nlat i / 2))]
    ring
  have rows : NearRows (-σ) (Real.pi / 2) φ l (fun i => (S i).getD (nlat i / 2)) (fun i => j i - (nlat i - (S i).getD (nlat i / 2)) + 1)
      (fun i r => Real.pi / 2 - (((S i).getD (nlat i / 2) : ℕ) - (r : ℝ)) * (Real.pi / ((nlat i - 1 : ℕ) : ℝ)))
      (fun i => |(S i).getD (nlat i / 2) * (Real.pi / ((nlat i - 1 : ℕ) : ℝ)) - (σ + Real.pi / 2)|)
      (fun i => Real.pi / ((nlat i - 1 : ℕ) : ℝ)) (fun i => 2 * Real.pi * c i / nlon i) :=
    { wide := by linarith
      inside := ⟨hr.south.le, hr.north.le⟩
      many := hg.moreS
      small := hg.off
      near := fun i r hr => by
        have m0 : (((S i).getD (nlat i / 2) : ℕ) : ℝ) ≠ 0 := by exact_mod_cast (hg.some i).ne'
        have e : Real.pi / 2 - ((((S i).getD (nlat i / 2) : ℕ) : ℝ) - (r : ℝ)) * (Real.pi / ((nlat i - 1 : ℕ) : ℝ)) -
            (-σ + r * ((Real.pi / 2 - -σ) / (((S i).getD (nlat i / 2) : ℕ) : ℝ))) =
            -((((S i).getD (nlat i / 2) - r : ℕ) : ℝ) * (Real.pi / ((nlat i - 1 : ℕ) : ℝ)) -
              (((S i).getD (nlat i / 2) - r : ℕ) : ℝ) * ((σ + Real.pi / 2) / (((S i).getD (nlat i / 2) : ℕ) : ℝ))) := by
          rw [Nat.cast_sub hr, sub_mul _ _ ((σ + Real.pi / 2) / _), mul_div_cancel₀ _ m0]
          ring
        rw [e, abs_neg]
        exact off_le (hg.some i).ne' (Nat.sub_le _ _) _ _
      whole := by rw [sub_neg_eq_add, add_comm]; exact hg.edge
      column := hcol
      upper := fun i => by have := hj i; have := hg.extent i; have := hg.some i; omega
      row := hr.toward.congr fun i => by
        have h1 := hj i
        have h2 := hg.extent i
        rw [← hxr i _ (by omega)]
        congr 3
        omega }
  have hjS : ∀ i, j i - (nlat i - (S i).getD (nlat i / 2)) + 1 < (S i).getD (nlat i / 2) := fun i => by
    have := hj i; have := hg.extent i; omega
  have hnq : ∀ i, (hemOn a q (nlat i) (nlon i) (S i) (np i)).north (Q i) (j i - (nlat i - (S i).getD (nlat i / 2))) = Q i (j i) := fun i => by
    show Q i (nlat i - (S i).getD (nlat i / 2) + (j i - (nlat i - (S i).getD (nlat i / 2)))) = _
    congr 1
    have := hj i; omega
  refine (rows.activity (a := a) hq hQ (D := fun i r => r = 0) fun i r h => Or.inl h).congr fun i => ?_
  rw [lwaTotal_sum (hjS i), sum_range_succ', if_pos rfl, mul_zero, add_zero, hnq]
  refine sum_congr rfl fun r hr => ?_
  rw [if_neg (Nat.succ_ne_zero r)]
  simp only [Nat.add_lt_add_iff_right]
  rw [← hxr i r (mem_range.1 hr)]
  rfl

/-- Areas of a field turned about the equator. -/
theorem areaAtMost_turn (a : ℝ) (q : ℝ → ℝ → ℝ) (s n w : ℝ) :
    areaAtMost a (fun x l => q (-x) l) s n w = areaAtMost a q (-n) (-s) w := by
  have := areaAtMost_mirror a (fun x l => -q x l) s n w
  simp only [neg_neg, neg_le_neg_iff] at this
  exact this

theorem encloses_turn {s n T : ℝ} (hv : Encloses a q (-n) (-s) T v) : Encloses a (fun x l => q (-x) l) s n T v :=
  ⟨fun w hw => by rw [areaAtMost_turn]; exact hv.below w hw, fun w hw => by rw [areaAtMost_turn]; exact hv.above w hw⟩

/-- A zonal field that falls toward the pole: its own value encloses the area poleward. -/
theorem falling_part {t : ℝ → ℝ} {s n : ℝ} (ha : 0 < a) (ht : Continuous t) (h1 : -(Real.pi / 2) ≤ s) (h2 : n ≤ Real.pi / 2)
    (hanti : StrictAntiOn t (Set.Icc s n)) (hs : s < φ) (hn : φ < n) :
    Encloses a (fun x _ => t x) s n (2 * Real.pi * a ^ 2 * (Real.sin n - Real.sin φ)) (t φ) := by
  have hpi := Real.pi_pos
  have ha2 : 0 < 2 * Real.pi * a ^ 2 := by positivity
  have hq : Continuous fun p : ℝ × ℝ => (fun x _ : ℝ => t x) p.1 p.2 := ht.comp continuous_fst
  constructor
  · intro w hw
    obtain ⟨ψ, hψ, hψ1, hψ2⟩ : ∃ ψ, w < t ψ ∧ φ < ψ ∧ ψ < n := by
      have hc : ∀ᶠ y in nhdsWithin φ (Set.Ioi φ), w < t y := (ht.continuousAt.eventually (lt_mem_nhds hw)).filter_mono nhdsWithin_le_nhds
      have hu : ∀ᶠ y in nhdsWithin φ (Set.Ioi φ), y ∈ Set.Ioo φ n := Ioo_mem_nhdsGT hn
      obtain ⟨ψ, h, h'⟩ := (hc.and hu).exists
      exact ⟨ψ, h, h'.1, h'.2⟩
    rw [areaAtMost_split (m := ψ) hq (by linarith) hψ2.le, areaAtMost_none fun p hp => ?_, zero_add]
    · refine (areaAtMost_le_all hq (by linarith) h2 hψ2.le w).trans_lt (mul_lt_mul_of_pos_left ?_ ha2)
      have := Real.sin_lt_sin_of_lt_of_le_pi_div_two (by linarith : -(Real.pi / 2) ≤ φ) (by linarith) hψ1
      linarith
    · have hp1 := hp.1
      exact lt_of_lt_of_le hψ (hanti.antitoneOn ⟨hp1.1, by linarith [hp1.2]⟩ ⟨by linarith, hψ2.le⟩ hp1.2)
  · intro w hw
    obtain ⟨ψ, hψ, hψ1, hψ2⟩ : ∃ ψ, t ψ < w ∧ s < ψ ∧ ψ < φ := by
      have hc : ∀ᶠ y in nhdsWithin φ (Set.Iio φ), t y < w := (ht.continuousAt.eventually (gt_mem_nhds hw)).filter_mono nhdsWithin_le_nhds
      have hu : ∀ᶠ y in nhdsWithin φ (Set.Iio φ), y ∈ Set.Ioo s φ := Ioo_mem_nhdsLT hs
      obtain ⟨ψ, h, h'⟩ := (hc.and hu).exists
      exact ⟨ψ, h, h'.1, h'.2⟩
    rw [areaAtMost_split (m := ψ) hq hψ1.le (by linarith), areaAtMost_all (s := ψ) fun p hp => ?_, band_area (by linarith)]
    · have h0 := areaAtMost_nonneg (a := a) (q := fun x _ => t x) (s := s) (n := ψ) h1 (by linarith) w
      have := mul_lt_mul_of_pos_left (sub_lt_sub_left (Real.sin_lt_sin_of_lt_of_le_pi_div_two (by linarith : -(Real.pi / 2) ≤ ψ)
        (by linarith) hψ2) (Real.sin n)) ha2
      linarith
    · have hp1 := hp.1
      exact (hanti.antitoneOn ⟨hψ1.le, by linarith⟩ ⟨by linarith [hp1.1], hp1.2⟩ hp1.1).trans hψ.le

end Falwa
