import Verif.Lemmas.QgFlux
import Verif.Props.Utilities
import Mathlib.Tactic.NormNum
import Mathlib.Tactic.IntervalCases

/-!
# Column averages, QG wave activity and fluxes (C40 – C46, C74, C75)

`QGAnalysis` is the state of a `QGField` before the fluxes are computed; `S.lwa`, `S.uBaro`, `S.advFluxF1`, … are the arrays
that the user reads afterwards, with longitudes `1 … nlon`, rows `1 … rows` from south to north, levels `1 … kmax`.
-/

set_option linter.unusedSectionVars false
set_option linter.unusedSimpArgs false

noncomputable section

namespace Falwa

open Real Finset Spec

namespace QGAnalysis

variable {S : QGAnalysis}

/-- A concrete state: 5 rows, 3 levels, QGPV 1 on the equator and 0 elsewhere, reference 0, wind 1. -/
def sample : QGAnalysis where
  nlon := 2
  nlat := 5
  kmax := 3
  nd := 3
  jb := 0
  jd := 3
  nhOnly := false
  qgpv := fun _ g _ => if g = 3 then 1 else 0
  u := fun _ _ _ => 1
  v := fun _ _ _ => 1
  theta := fun _ _ _ => 0
  ncforce := fun _ _ _ => 0
  tn0 := fun k => k
  ts0 := fun k => k
  qref := fun _ _ => 0
  uref := fun _ _ => 0
  ptref := fun _ _ => 0
  height := fun k => 1 + ((k - 1 : ℤ) : ℝ)
  a := 1
  om := 1
  dz := 1
  h := 1
  rr := 1
  cp := 1

/-- The same with heights `0, dz, 2 dz, …`, as `QGField` sets them for data on pressure levels. -/
def sampleStd : QGAnalysis := { sample with height := fun k => ((k - 1 : ℤ) : ℝ) }

theorem sample_valid : sample.Valid := ⟨by rfl, by decide, by decide, by rfl, by norm_num [sample]⟩
theorem sampleStd_valid : sampleStd.Valid := ⟨by rfl, by decide, by decide, by rfl, by norm_num [sampleStd, sample]⟩

/-- Heights `0, dz, 2 dz, …` (oopinterface.py line 121). -/
def StandardHeights (S : QGAnalysis) : Prop := ∀ k, S.height k = S.dz * ((k - 1 : ℤ) : ℝ)

/-- Evenly spaced heights (the documented requirement of `data_on_evenly_spaced_pseudoheight_grid=True`). -/
def EvenHeights (S : QGAnalysis) : Prop := ∃ h0, ∀ k, S.height k = h0 + S.dz * ((k - 1 : ℤ) : ℝ)

/-! ### C40, C41 -/

/-- C40: a wind that does not vary with height is its own column average. -/
def C40_Statement : Prop :=
  ∀ (S : QGAnalysis) (c : ℤ → ℤ → ℝ), S.Valid → S.StandardHeights → 0 < S.dz → 0 < S.h → 3 ≤ S.kmax →
    (∀ i g k, S.u i g k = c i g) → ∀ i g, 1 ≤ i → i ≤ S.nlon → 1 ≤ g → g ≤ S.rows →
      S.uBaro i g = c i (S.outRow g) ∧ S.uBaroOfLwaOnly i g = c i (S.outRow g)

theorem verticalAverage_const (hs : S.StandardHeights) (hdz : 0 < S.dz) (hk : 3 ≤ S.kmax) (c : ℝ) :
    S.verticalAverage (fun _ => c) = c * (1 + exp (-(S.dz * ((S.kmax - 1 : ℤ) : ℝ)) / S.h) * S.dz / S.prefactor) := by
  unfold verticalAverage
  have hI : Icc 2 S.kmax = insert S.kmax (Icc 2 (S.kmax - 1)) := by
    ext x; simp only [mem_Icc, mem_insert]; omega
  rw [hI, sum_insert (by simp)]
  have e : ∑ k ∈ Icc 2 (S.kmax - 1), c * exp (-S.height k / S.h) * (S.dz / S.prefactor) = c := by
    rw [sum_congr rfl fun k _ => by rw [hs k, mul_assoc], ← mul_sum, sum_weights hdz hk, mul_one]
  rw [e, hs]
  ring

/-- C40, what holds. After `compute_lwa_and_barotropic_fluxes` the average of a constant is too large by the exact factor
`1 + w_top`, where `w_top > 0` is the weight of the top level, which `_compute_prefactor` leaves out; after
`compute_lwa_only` it is exact on analysed rows and 0 on all others. -/
theorem C40_average_partial (hv : S.Valid) (hs : S.StandardHeights) (hdz : 0 < S.dz) (hk : 3 ≤ S.kmax)
    (c : ℤ → ℤ → ℝ) (hu : ∀ i g k, S.u i g k = c i g) (i g : ℤ) (hg1 : 1 ≤ g) (hg2 : g ≤ S.rows) :
    S.uBaro i g =
      c i (S.outRow g) * (1 + exp (-(S.dz * ((S.kmax - 1 : ℤ) : ℝ)) / S.h) * S.dz / S.prefactor) ∧
    ((S.nd + S.jb ≤ S.outRow g ∧ S.outRow g < S.nlat ∨ 1 < S.outRow g ∧ S.outRow g ≤ S.nd - S.jb) →
      S.uBaroOfLwaOnly i g = c i (S.outRow g)) ∧
    (¬ (S.nd + S.jb ≤ S.outRow g ∧ S.outRow g < S.nlat ∨ 1 < S.outRow g ∧ S.outRow g ≤ S.nd - S.jb) →
      S.uBaroOfLwaOnly i g = 0) := by
  have hodd := hv.odd
  have hjb := hv.jb0
  have hjbnd := hv.jbnd
  have key : ∀ (J : LwaIn), J.imax = S.nlon → J.jmax = S.nlat → J.kmax = S.kmax → J.nd = S.nd → J.jb = S.jb →
      J.dz = S.dz → J.h = S.h → J.prefac = S.prefactor → ∀ j d, 1 ≤ j → j ≤ S.nd → (∀ k, J.uu i (S.nd - 1 + j) k = d) →
      J.lwaOnly.ubaro i j = if S.jb + 1 ≤ j ∧ j ≤ S.nd - 1 then d else 0 := by
    intro J _ e2 e3 e4 e5 e6 e7 e8 j d h1 h2 hd
    rw [(LwaIn.lwaOnly_eq J (by omega) i j).2.2.2, e5, e4, e3]
    by_cases hc : S.jb + 1 ≤ j ∧ j ≤ S.nd - 1
    · rw [if_pos hc, if_pos hc]
      have : ∀ k ∈ Icc 2 (S.kmax - 1), rd3 J.jmax J.uu i (S.nd - 1 + j) k * J.weight k =
          d * (exp (-(S.dz * ((k - 1 : ℤ) : ℝ)) / S.h) * (S.dz / S.prefactor)) := by
        intro k _
        rw [rd3_of_mem (by omega) (by omega), hd, LwaIn.weight, e6, e7, e8]
      rw [sum_congr rfl this, ← mul_sum, sum_weights hdz hk, mul_one]
    · rw [if_neg hc, if_neg hc]
  have hN := key S.northLwaIn rfl rfl rfl rfl rfl rfl rfl rfl
  have hS := key S.southLwaIn rfl rfl rfl rfl rfl rfl rfl rfl
  unfold uBaro uBaroOfLwaOnly
  cases hnh : S.nhOnly
  · have hrows : S.rows = S.nlat := by simp [rows, hnh]
    have hout : S.outRow g = g := by rw [outRow, hrows]; ring
    rw [hrows] at hg2
    rw [hout]
    by_cases hgs : g ≤ S.nd
    · rw [store_south hnh hgs, store_south hnh hgs]
      have hc := hS (S.nd + 1 - g) (c i g) (by omega) (by omega) (fun k => by
        show S.u i (S.nlat + 1 - (S.nd - 1 + (S.nd + 1 - g))) k = _
        rw [hu]; congr 1; omega)
      refine ⟨?_, fun hr => ?_, fun hr => ?_⟩
      · rw [← verticalAverage_const hs hdz hk]
        congr 1
        funext k
        rw [hu]; congr 1; omega
      · rw [hc, if_pos (by omega)]
      · rw [hc, if_neg (by omega)]
    · rw [store_north (Or.inr (by omega)) (by omega), store_north (Or.inr (by omega)) (by omega), hrows]
      have hc := hN (g - (S.nlat - S.nd)) (c i g) (by omega) (by omega) (fun k => by
        show S.u i (S.nd - 1 + (g - (S.nlat - S.nd))) k = _
        rw [hu]; congr 1; omega)
      refine ⟨?_, fun hr => ?_, fun hr => ?_⟩
      · rw [← verticalAverage_const hs hdz hk]
        congr 1
        funext k
        rw [hu]; congr 1; omega
      · rw [hc, if_pos (by omega)]
      · rw [hc, if_neg (by omega)]
  · have hrows : S.rows = S.nd := by simp [rows, hnh]
    have hout : S.outRow g = S.nd - 1 + g := by rw [outRow, hrows]; omega
    rw [hrows] at hg2
    rw [hout, store_north (Or.inl hnh) (by omega), store_north (Or.inl hnh) (by omega), hrows]
    have hc := hN (g - (S.nd - S.nd)) (c i (S.nd - 1 + g)) (by omega) (by omega) (fun k => by
      show S.u i (S.nd - 1 + (g - (S.nd - S.nd))) k = _
      rw [hu]; congr 1; omega)
    refine ⟨?_, fun hr => ?_, fun hr => ?_⟩
    · rw [← verticalAverage_const hs hdz hk]
      congr 1
      funext k
      rw [hu]; congr 1; omega
    · rw [hc, if_pos (by omega)]
    · rw [hc, if_neg (by omega)]

example : sampleStd.Valid ∧ sampleStd.StandardHeights ∧ 0 < sampleStd.dz ∧ 3 ≤ sampleStd.kmax ∧
    (∀ i g k, sampleStd.u i g k = (fun _ _ => 1 : ℤ → ℤ → ℝ) i g) :=
  ⟨sampleStd_valid, fun k => by simp [sampleStd, sample], by norm_num [sampleStd, sample], by decide, fun _ _ _ => rfl⟩

/-- C40 fails: the average of the constant 1 after `compute_lwa_and_barotropic_fluxes` is greater than 1. -/
theorem C40_refuted : ¬ C40_Statement := by
  intro h
  have hs : sampleStd.StandardHeights := fun k => by simp [sampleStd, sample]
  have hdz : (0 : ℝ) < sampleStd.dz := by norm_num [sampleStd, sample]
  have h1 := (h sampleStd (fun _ _ => 1) sampleStd_valid hs hdz (by norm_num [sampleStd, sample]) (by decide)
    (fun _ _ _ => rfl) 1 4 (by decide) (by decide) (by decide) (by decide)).1
  rw [(C40_average_partial sampleStd_valid hs hdz (by decide) (fun _ _ => 1) (fun _ _ _ => rfl) 1 4 (by decide)
    (by decide)).1] at h1
  have hp := prefactor_pos (S := sampleStd) hdz (by decide)
  have : 0 < exp (-(sampleStd.dz * ((sampleStd.kmax - 1 : ℤ) : ℝ)) / sampleStd.h) * sampleStd.dz / sampleStd.prefactor := by
    positivity
  linarith

/-- C41: the column average is linear, keeps inequalities, and is positive on positive fields. -/
theorem C41_linear_monotone (S : QGAnalysis) (f g : ℤ → ℝ) (α β : ℝ) :
    S.verticalAverage (fun k => α * f k + β * g k) = α * S.verticalAverage f + β * S.verticalAverage g ∧
    (0 < S.dz → 3 ≤ S.kmax → (∀ k, 2 ≤ k → k ≤ S.kmax → f k ≤ g k) → S.verticalAverage f ≤ S.verticalAverage g) ∧
    (0 < S.dz → 3 ≤ S.kmax → (∀ k, 2 ≤ k → k ≤ S.kmax → f k ≤ g k) → (∃ k, 2 ≤ k ∧ k ≤ S.kmax ∧ f k < g k) →
      S.verticalAverage f < S.verticalAverage g) := by
  unfold verticalAverage
  refine ⟨?_, fun hdz hk hfg => ?_, fun hdz hk hfg hex => ?_⟩
  · rw [mul_sum, mul_sum, ← sum_add_distrib]
    exact sum_congr rfl fun k _ => by ring
  · have hp := prefactor_pos (S := S) hdz hk
    refine sum_le_sum fun k hk' => ?_
    rw [mem_Icc] at hk'
    have := hfg k hk'.1 hk'.2
    gcongr
  · have hp := prefactor_pos (S := S) hdz hk
    obtain ⟨k₀, h1, h2, h3⟩ := hex
    refine sum_lt_sum (fun k hk' => ?_) ⟨k₀, mem_Icc.2 ⟨h1, h2⟩, ?_⟩
    · rw [mem_Icc] at hk'
      have := hfg k hk'.1 hk'.2
      gcongr
    · gcongr

example : (0 : ℝ) < sample.dz ∧ 3 ≤ sample.kmax ∧ (∀ k, 2 ≤ k → k ≤ sample.kmax → (0 : ℝ) ≤ (k : ℝ)) := by
  refine ⟨by norm_num [sample], by decide, fun k h _ => ?_⟩
  exact_mod_cast (by omega : (0 : ℤ) ≤ k)

/-- C41 for the column average inside `compute_lwa_only`: `u_baro` is linear and monotone in the wind. -/
theorem C41_lwa_only (I : LwaIn) (hjb : 0 ≤ I.jb) (f g : ℤ → ℤ → ℤ → ℝ) (α β : ℝ) (i j : ℤ) :
    ({ I with uu := fun i j k => α * f i j k + β * g i j k } : LwaIn).lwaOnly.ubaro i j =
      α * ({ I with uu := f } : LwaIn).lwaOnly.ubaro i j + β * ({ I with uu := g } : LwaIn).lwaOnly.ubaro i j ∧
    (0 ≤ I.dz → 0 ≤ I.prefac → (∀ i j k, f i j k ≤ g i j k) →
      ({ I with uu := f } : LwaIn).lwaOnly.ubaro i j ≤ ({ I with uu := g } : LwaIn).lwaOnly.ubaro i j) := by
  have e : ∀ w : ℤ → ℤ → ℤ → ℝ, ({ I with uu := w } : LwaIn).lwaOnly.ubaro i j =
      if I.jb + 1 ≤ j ∧ j ≤ I.nd - 1 then
        ∑ k ∈ Icc 2 (I.kmax - 1), rd3 I.jmax w i (I.nd - 1 + j) k * I.weight k else 0 :=
    fun w => (LwaIn.lwaOnly_eq { I with uu := w } hjb i j).2.2.2
  rw [e, e, e]
  by_cases hc : I.jb + 1 ≤ j ∧ j ≤ I.nd - 1
  · simp only [if_pos hc]
    refine ⟨?_, fun h1 h2 h3 => ?_⟩
    · rw [mul_sum, mul_sum, ← sum_add_distrib]
      exact sum_congr rfl fun k _ => by unfold rd3; ring
    · refine sum_le_sum fun k _ => mul_le_mul_of_nonneg_right (h3 _ _ _) ?_
      unfold LwaIn.weight
      positivity
  · simp [hc]

example : ∃ I : LwaIn, 0 ≤ I.jb ∧ 0 ≤ I.dz ∧ I.jb + 1 ≤ 2 ∧ 2 ≤ I.nd - 1 :=
  ⟨sample.northLwaIn, by decide, by norm_num [northLwaIn, sample], by decide, by decide⟩

/-! ### C42 -/

theorem lwa_hem (I : FluxIn) (h : I.Shaped) (ha : 0 ≤ I.a) (i j k : ℤ) :
    |I.fluxDirinv.astar1 i j k + I.fluxDirinv.astar2 i j k| =
      if FluxIn.Iter I i j k then (I.acc i j k).astar1 + (I.acc i j k).astar2 else 0 := by
  rw [I.astar1_eq h.jb0, I.astar2_eq h.jb0]
  by_cases hc : FluxIn.Iter I i j k
  · rw [if_pos hc, if_pos hc, if_pos hc, abs_of_nonneg]
    exact add_nonneg (h.acc_nonneg ha i j k).1 (h.acc_nonneg ha i j k).2
  · simp [hc]

/-- C42, Northern Hemisphere, both modes: on interior levels and analysed rows the wave activity is the sum of
`|q - Qref| a cos φ dφ` over the displaced rows between the equator and the pole. Row `g` of the output is row `outRow g`
of the analysis grid. In global mode the equator row belongs to the Southern Hemisphere. -/
theorem C42_north (hv : S.Valid) (i g k : ℤ) (hi : 1 ≤ i ∧ i ≤ S.nlon) (hk : 2 ≤ k ∧ k ≤ S.kmax - 1)
    (hg : S.nd + S.jb ≤ S.outRow g ∧ S.outRow g < S.nlat) (heq : S.nhOnly = true ∨ S.nd < g) :
    S.lwa i g k = waveActivityNorth (Icc S.nd S.nlat) (fun r => S.qgpv i r k) (S.qref g k)
      (fun r => S.a * cos (S.lat r) * S.dphi) (S.outRow g) := by
  have hodd := hv.odd
  have hjb := hv.jb0
  have hjbnd := hv.jbnd
  unfold lwa
  unfold outRow at hg ⊢
  rw [store_north heq (by omega), lwa_hem _ hv.north hv.a0, if_pos, hv.acc_north (by omega) (by omega)]
  · congr 2 <;> omega
  · refine ⟨hk, hi, ?_, ?_⟩
    · show S.jb + 1 ≤ _
      omega
    · show _ ≤ S.nd - 1
      omega

/-- C42, Southern Hemisphere. -/
theorem C42_south (hv : S.Valid) (hm : S.nhOnly = false) (i g k : ℤ) (hi : 1 ≤ i ∧ i ≤ S.nlon)
    (hk : 2 ≤ k ∧ k ≤ S.kmax - 1) (hg : 1 < g ∧ g ≤ S.nd - S.jb) :
    S.lwa i g k = waveActivitySouth (Icc 1 S.nd) (fun r => S.qgpv i r k) (S.qref g k)
      (fun r => S.a * cos (S.lat r) * S.dphi) g := by
  have hjb := hv.jb0
  unfold lwa
  rw [store_south hm (by omega), lwa_hem _ hv.south hv.a0, if_pos, hv.acc_south (by omega) (by omega)]
  · congr 2 <;> omega
  · refine ⟨hk, hi, ?_, ?_⟩
    · show S.jb + 1 ≤ _
      omega
    · show _ ≤ S.nd - 1
      omega

/-- C42: on other levels and rows the wave activity is zero. -/
theorem C42_zero (hv : S.Valid) (i g k : ℤ)
    (h : ¬ (2 ≤ k ∧ k ≤ S.kmax - 1) ∨
      ¬ ((S.nd + S.jb ≤ S.outRow g ∧ S.outRow g < S.nlat) ∨ (1 < S.outRow g ∧ S.outRow g ≤ S.nd - S.jb))) :
    S.lwa i g k = 0 := by
  have hodd := hv.odd
  have hjb := hv.jb0
  have hjbnd := hv.jbnd
  unfold lwa store
  have e1 : S.northIn.jb = S.jb := rfl
  have e2 : S.northIn.nd = S.nd := rfl
  have e3 : S.northIn.kmax = S.kmax := rfl
  have e4 : S.southIn.jb = S.jb := rfl
  have e5 : S.southIn.nd = S.nd := rfl
  have e6 : S.southIn.kmax = S.kmax := rfl
  unfold outRow at h
  split_ifs with h1 h2 <;> beta_reduce
  · have hrows : S.rows = S.nlat := by simp [rows, h1.1]
    rw [lwa_hem _ hv.south hv.a0, if_neg]
    rintro ⟨a, b, c⟩
    rw [e4, e5] at c
    rw [e6] at a
    rcases h with h | h
    · exact h a
    · exact h (Or.inr (by omega))
  · rw [lwa_hem _ hv.north hv.a0, if_neg]
    rintro ⟨a, b, c⟩
    rw [e1, e2] at c
    rw [e3] at a
    rcases h with h | h
    · exact h a
    · exact h (Or.inl (by omega))
  · rfl

/-- C42: neither the two parts that the routines return nor the wave activity is ever negative. -/
theorem C42_nonneg (hv : S.Valid) (i j k : ℤ) :
    0 ≤ S.northIn.fluxDirinv.astar1 i j k ∧ 0 ≤ S.northIn.fluxDirinv.astar2 i j k ∧
    0 ≤ S.southIn.fluxDirinv.astar1 i j k ∧ 0 ≤ S.southIn.fluxDirinv.astar2 i j k ∧ 0 ≤ S.lwa i j k := by
  have key : ∀ I : FluxIn, I.Shaped → 0 ≤ I.a → 0 ≤ I.fluxDirinv.astar1 i j k ∧ 0 ≤ I.fluxDirinv.astar2 i j k := by
    intro I h ha
    rw [I.astar1_eq h.jb0, I.astar2_eq h.jb0]
    constructor <;> split_ifs
    · exact (h.acc_nonneg ha i j k).1
    · exact le_rfl
    · exact (h.acc_nonneg ha i j k).2
    · exact le_rfl
  refine ⟨(key _ hv.north hv.a0).1, (key _ hv.north hv.a0).2, (key _ hv.south hv.a0).1, (key _ hv.south hv.a0).2, ?_⟩
  unfold lwa store
  split_ifs <;> first | exact abs_nonneg _ | exact le_rfl

/-- C42: the anticyclonic part is the deficit at and poleward of the row, the cyclonic part the surplus equatorward. -/
theorem C42_parts (hv : S.Valid) (i j k : ℤ) (hi : 1 ≤ i ∧ i ≤ S.nlon) (hk : 2 ≤ k ∧ k ≤ S.kmax - 1)
    (hj : S.jb + 1 ≤ j ∧ j ≤ S.nd - 1) :
    S.northIn.fluxDirinv.astar1 i j k =
      ∑ r ∈ (Icc 1 S.nd).filter (fun r => r < j ∧ S.qref (S.rows - S.nd + j) k < S.qgpv i (r + S.nd - 1) k),
        (S.qgpv i (r + S.nd - 1) k - S.qref (S.rows - S.nd + j) k) * (S.a * S.dphi * cos (S.lat (r + S.nd - 1))) ∧
    S.northIn.fluxDirinv.astar2 i j k =
      ∑ r ∈ (Icc 1 S.nd).filter (fun r => j ≤ r ∧ S.qgpv i (r + S.nd - 1) k < S.qref (S.rows - S.nd + j) k),
        (S.qref (S.rows - S.nd + j) k - S.qgpv i (r + S.nd - 1) k) * (S.a * S.dphi * cos (S.lat (r + S.nd - 1))) := by
  have hjb := hv.jb0
  have hIter : FluxIn.Iter S.northIn i j k := ⟨hk, hi, hj⟩
  rw [S.northIn.astar1_eq hv.jb0, S.northIn.astar2_eq hv.jb0, if_pos hIter, if_pos hIter, FluxIn.acc_astar1,
    FluxIn.acc_astar2, sum_filter, sum_filter]
  have hq : ∀ r ∈ Icc 1 S.nd, S.northIn.qe i j k r = S.qgpv i (r + S.nd - 1) k - S.qref (S.rows - S.nd + j) k := by
    intro r hr
    rw [mem_Icc] at hr
    exact hv.north.qe_eq hr.1 hr.2 (by omega) (show j ≤ S.nd by omega)
  constructor
  · refine sum_congr rfl fun r hr => ?_
    rw [hq r hr, lat_cos_north]
    by_cases c : r < j ∧ S.qref (S.rows - S.nd + j) k < S.qgpv i (r + S.nd - 1) k
    · rw [if_pos c, if_pos ⟨sub_pos.2 c.2, c.1⟩]; rfl
    · rw [if_neg c, if_neg (fun x => c ⟨x.2, sub_pos.1 x.1⟩)]
  · refine sum_congr rfl fun r hr => ?_
    rw [hq r hr, lat_cos_north]
    by_cases c : j ≤ r ∧ S.qgpv i (r + S.nd - 1) k < S.qref (S.rows - S.nd + j) k
    · rw [if_pos c, if_pos ⟨(sub_neg.2 c.2).le, c.1⟩, ← neg_mul, neg_sub]; rfl
    · rw [if_neg c]
      split_ifs with x
      · have : S.qgpv i (r + S.nd - 1) k - S.qref (S.rows - S.nd + j) k = 0 := by
          refine le_antisymm x.1 (sub_nonneg.2 (le_of_not_gt fun y => c ⟨x.2, y⟩))
        rw [this]; ring
      · rfl

/-- The hypotheses of C42 hold for the sample at longitude 1, row 4 (north), row 2 (south), level 2; the result is not 0. -/
theorem sample_lwa : 0 < sample.lwa 1 4 2 := by
  rw [C42_north sample_valid 1 4 2 (by decide) (by decide) (by decide) (Or.inr (by decide)), waveActivityNorth, sum_filter]
  have hterm : ∀ r ∈ Icc sample.nd sample.nlat, (if DisplacedNorth (fun r => sample.qgpv 1 r 2) (sample.qref 4 2)
      (sample.outRow 4) r then |sample.qgpv 1 r 2 - sample.qref 4 2| * (sample.a * cos (sample.lat r) * sample.dphi) else 0)
      = if r = 3 then π / 4 else 0 := by
    intro r hr
    rw [mem_Icc] at hr
    by_cases h3 : r = 3
    · subst h3
      rw [if_pos, if_pos rfl]
      · simp [sample, lat, dphi]
      · exact Or.inr ⟨by decide, by simp [sample]⟩
    · rw [if_neg h3]
      have : sample.qgpv 1 r 2 = 0 := by simp [sample, h3]
      rw [this]
      simp [sample]
  rw [sum_congr rfl hterm, sum_ite_eq', if_pos (by decide)]
  positivity

example : sample.Valid ∧ sample.nhOnly = false ∧ (1 < (2 : ℤ) ∧ (2 : ℤ) ≤ sample.nd - sample.jb) :=
  ⟨sample_valid, rfl, by decide⟩

/-! ### C43 -/

/-- C43: both entry points give the same wave activity and barotropic wave activity. -/
def C43_Statement : Prop :=
  ∀ S : QGAnalysis, S.Valid → S.EvenHeights → 0 < S.dz → 0 < S.h → 3 ≤ S.kmax →
    (∀ i g k, S.lwaOfLwaOnly i g k = S.lwa i g k) ∧ (∀ i g, S.lwaBaroOfLwaOnly i g = S.lwaBaro i g)

theorem lwaOnly_components (J : LwaIn) (I : FluxIn) (hjb : 0 ≤ J.jb) (h1 : I.jmax = J.jmax) (h2 : I.nd = J.nd)
    (h3 : I.pv = J.pv) (h4 : I.qref = J.qref) (h5 : I.a = J.a) (h6 : I.imax = J.imax) (h7 : I.kmax = J.kmax)
    (h8 : I.jb = J.jb) (i j k : ℤ) :
    J.lwaOnly.astar1 i j k = I.fluxDirinv.astar1 i j k ∧ J.lwaOnly.astar2 i j k = I.fluxDirinv.astar2 i j k := by
  obtain ⟨e1, e2, _, _⟩ := J.lwaOnly_eq hjb i j
  have hIter : (LwaIn.InRange J i j ∧ 2 ≤ k ∧ k ≤ J.kmax - 1) ↔ FluxIn.Iter I i j k := by
    unfold LwaIn.InRange FluxIn.Iter
    rw [h2, h6, h7, h8]
    tauto
  rw [e1, e2, I.astar1_eq (by omega), I.astar2_eq (by omega), J.acc_eq I h1 h2 h3 h4 h5]
  by_cases hc : FluxIn.Iter I i j k
  · simp [hIter.2 hc, hc]
  · have hc' := mt hIter.1 hc
    rw [if_neg hc', if_neg hc', if_neg hc, if_neg hc]
    exact ⟨rfl, rfl⟩

/-- C43: the three-dimensional wave activity is the same, in both hemispheres and with any heights. -/
theorem C43_lwa (hv : S.Valid) (i g k : ℤ) : S.lwaOfLwaOnly i g k = S.lwa i g k := by
  unfold lwaOfLwaOnly lwa
  congr 1
  · funext j
    have := lwaOnly_components S.northLwaIn S.northIn hv.jb0 rfl rfl rfl rfl rfl rfl rfl rfl i j k
    rw [this.1, this.2]
  · funext j
    have := lwaOnly_components S.southLwaIn S.southIn hv.jb0 rfl rfl rfl rfl rfl rfl rfl rfl i j k
    rw [this.1, this.2]

theorem baro_hem (J : LwaIn) (I : FluxIn) (hjb : 0 ≤ J.jb) (h1 : I.jmax = J.jmax) (h2 : I.nd = J.nd) (h3 : I.pv = J.pv)
    (h4 : I.qref = J.qref) (h5 : I.a = J.a) (h6 : I.imax = J.imax) (h7 : I.kmax = J.kmax) (h8 : I.jb = J.jb)
    (hk : J.kmax = S.kmax) (hk3 : 3 ≤ S.kmax) (hdz : J.dz = S.dz) (hh : J.h = S.h) (hp : J.prefac = S.prefactor) (h0 : ℝ)
    (hs : ∀ k, S.height k = h0 + S.dz * ((k - 1 : ℤ) : ℝ)) (i j : ℤ) :
    S.verticalAverage (fun k => I.fluxDirinv.astar1 i j k) + S.verticalAverage (fun k => I.fluxDirinv.astar2 i j k) =
      exp (-h0 / S.h) * J.lwaOnly.astarbaro i j := by
  obtain ⟨e1, e2, e3, _⟩ := J.lwaOnly_eq hjb i j
  have hc := fun k => lwaOnly_components J I hjb h1 h2 h3 h4 h5 h6 h7 h8 i j k
  rw [funext fun k => (hc k).1.symm, funext fun k => (hc k).2.symm,
    verticalAverage_interior _ (by omega) (by rw [e1, if_neg]; omega),
    verticalAverage_interior _ (by omega) (by rw [e2, if_neg]; omega), e3, ← sum_add_distrib, hk]
  by_cases hr : LwaIn.InRange J i j
  · rw [if_pos hr, mul_sum]
    refine sum_congr rfl fun k hk' => ?_
    rw [mem_Icc] at hk'
    rw [e1, e2, if_pos ⟨hr, by omega⟩, if_pos ⟨hr, by omega⟩, hs, LwaIn.weight, hdz, hh, hp,
      show -(h0 + S.dz * ((k - 1 : ℤ) : ℝ)) / S.h = -h0 / S.h + -(S.dz * ((k - 1 : ℤ) : ℝ)) / S.h by ring, exp_add]
    ring
  · rw [if_neg hr, mul_zero]
    refine sum_eq_zero fun k _ => ?_
    rw [e1, e2, if_neg (fun x => hr x.1), if_neg (fun x => hr x.1)]
    ring

/-- C43, what holds for the column averages: they differ by the factor `exp(-z₁/H)`, where `z₁` is the height of the lowest
level. With the usual heights `0, dz, 2 dz, …` the factor is 1. -/
theorem C43_baro_partial (hv : S.Valid) (hk : 3 ≤ S.kmax) (h0 : ℝ)
    (hs : ∀ k, S.height k = h0 + S.dz * ((k - 1 : ℤ) : ℝ)) (i g : ℤ) :
    S.lwaBaro i g = exp (-h0 / S.h) * S.lwaBaroOfLwaOnly i g ∧ (h0 = 0 → S.lwaBaroOfLwaOnly i g = S.lwaBaro i g) := by
  have main : S.lwaBaro i g = exp (-h0 / S.h) * S.lwaBaroOfLwaOnly i g := by
    unfold lwaBaro baro lwaBaroOfLwaOnly store
    split_ifs with h1 h2
    · exact baro_hem S.southLwaIn S.southIn hv.jb0 rfl rfl rfl rfl rfl rfl rfl rfl rfl hk rfl rfl rfl h0 hs i _
    · exact baro_hem S.northLwaIn S.northIn hv.jb0 rfl rfl rfl rfl rfl rfl rfl rfl rfl hk rfl rfl rfl h0 hs i _
    · ring
  refine ⟨main, fun h => ?_⟩
  rw [main, h]
  simp

example : sampleStd.Valid ∧ 3 ≤ sampleStd.kmax ∧
    ∀ k, sampleStd.height k = 0 + sampleStd.dz * ((k - 1 : ℤ) : ℝ) :=
  ⟨sampleStd_valid, by decide, fun k => by simp [sampleStd, sample]⟩

/-- C43 fails on an evenly spaced pseudoheight grid that starts above the ground: `_vertical_average` weights with the
actual height, `compute_lwa_only_nhn22` with `dz*(k-1)`. -/
theorem C43_refuted : ¬ C43_Statement := by
  intro h
  have he : ∀ k, sample.height k = 1 + sample.dz * ((k - 1 : ℤ) : ℝ) := fun k => by simp [sample]
  have h1 := (h sample sample_valid ⟨1, he⟩ (by norm_num [sample]) (by norm_num [sample]) (by decide)).2 1 4
  rw [(C43_baro_partial sample_valid (by decide) 1 he 1 4).1] at h1
  have hpos : 0 < sample.lwaBaroOfLwaOnly 1 4 := by
    have e : sample.lwaBaroOfLwaOnly 1 4 = sample.lwa 1 4 2 * sample.northLwaIn.weight 2 := by
      have hl := lwa_hem sample.northIn sample_valid.north sample_valid.a0 1 2 2
      unfold lwaBaroOfLwaOnly lwa store
      rw [if_neg (by decide), if_pos (by decide), if_neg (by decide), if_pos (by decide)]
      show sample.northLwaIn.lwaOnly.astarbaro 1 2 = |sample.northIn.fluxDirinv.astar1 1 2 2 + sample.northIn.fluxDirinv.astar2 1 2 2| * _
      rw [hl, if_pos (by decide), (sample.northLwaIn.lwaOnly_eq (by decide) 1 2).2.2.1, if_pos (by decide),
        show Icc 2 (sample.northLwaIn.kmax - 1) = {2} by decide, sum_singleton,
        sample.northLwaIn.acc_eq sample.northIn rfl rfl rfl rfl rfl]
    rw [e]
    refine mul_pos sample_lwa ?_
    have hp : 0 < sample.prefactor := prefactor_pos (by norm_num [sample]) (by decide)
    have hdz : (0 : ℝ) < sample.dz := by norm_num [sample]
    exact mul_pos (exp_pos _) (div_pos hdz hp)
  have h2 : exp (-1 / sample.h) < 1 := by
    rw [exp_lt_one_iff]; norm_num [sample]
  nlinarith

end QGAnalysis

end Falwa
