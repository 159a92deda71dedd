import Verif.Props.FluxTerms

/-!
# Formulas of the flux terms in both hemispheres (C83 – C86)

Row `g` of a result is row `S.outRow g` of the analysis grid; `S.lat r` is the latitude of row `r` of that grid. The formulas are
written with the fields as the user gives them (no reflection, no change of sign) and with the actual latitude.
-/

set_option linter.unusedSectionVars false

noncomputable section

namespace Falwa

open Real Finset Spec

/-! ### Specification -/

namespace Spec

/-- Zonal transport of displaced PV: the sum of `|q - Q| u w` over the displaced rows, Northern Hemisphere. -/
def transportNorth (hemisphere : Finset ℤ) (q : ℤ → ℝ) (Q : ℝ) (u : ℤ → ℝ) (w : ℝ) (g : ℤ) : ℝ :=
  ∑ r ∈ hemisphere.filter (fun r => DisplacedNorth q Q g r), |q r - Q| * u r * w

/-- The same for the Southern Hemisphere. -/
def transportSouth (hemisphere : Finset ℤ) (q : ℤ → ℝ) (Q : ℝ) (u : ℤ → ℝ) (w : ℝ) (g : ℤ) : ℝ :=
  ∑ r ∈ hemisphere.filter (fun r => DisplacedSouth q Q g r), |q r - Q| * u r * w

/-- Growth of wave activity by a source `s` of PV, Northern Hemisphere: a source weakens a deficit and strengthens a surplus. -/
def sourceNorth (hemisphere : Finset ℤ) (q : ℤ → ℝ) (Q : ℝ) (s w : ℤ → ℝ) (g : ℤ) : ℝ :=
  ∑ r ∈ hemisphere.filter (fun r => DisplacedNorth q Q g r), (if q r < Q then -s r else s r) * w r

/-- The same for the Southern Hemisphere. -/
def sourceSouth (hemisphere : Finset ℤ) (q : ℤ → ℝ) (Q : ℝ) (s w : ℤ → ℝ) (g : ℤ) : ℝ :=
  ∑ r ∈ hemisphere.filter (fun r => DisplacedSouth q Q g r), (if q r < Q then -s r else s r) * w r

/-- Eddy energy difference `½ (v² - (u - U)² - R/H exp(-κ z/H) (θ - Θ)² / (dθ₀/dz)) cos φ`, Nakamura and Huang (2018). -/
def eddyEnergyTerm (R H kappa z phi stat u U v th TH : ℝ) : ℝ :=
  (v ^ 2 - (u - U) ^ 2 - R / H * exp (-kappa * z / H) * (th - TH) ^ 2 / stat) / 2 * cos phi

end Spec

namespace QGAnalysis

variable {S : QGAnalysis}

/-- Analysed row of the Northern Hemisphere (in global mode the equator row belongs to the south). -/
def NorthRow (S : QGAnalysis) (g : ℤ) : Prop :=
  S.nd + S.jb ≤ S.outRow g ∧ S.outRow g < S.nlat ∧ (S.nhOnly = true ∨ S.nd < g)

/-- Analysed row of the Southern Hemisphere. -/
def SouthRow (S : QGAnalysis) (g : ℤ) : Prop := S.nhOnly = false ∧ 1 < g ∧ g ≤ S.nd - S.jb

/-- Column mean over the levels between the lowest and the highest. -/
def columnMean (S : QGAnalysis) (f : ℤ → ℝ) : ℝ :=
  ∑ k ∈ Icc 2 (S.kmax - 1), f k * exp (-S.height k / S.h) * (S.dz / S.prefactor)

/-- Mean potential temperature that the hemisphere of row `g` uses. -/
def theta0 (S : QGAnalysis) (g : ℤ) : ℤ → ℝ := if S.nhOnly = false ∧ g ≤ S.nd then S.ts0 else S.tn0

theorem SouthRow.outRow_eq {g : ℤ} (h : S.SouthRow g) : S.outRow g = g := by
  unfold outRow rows
  rw [h.1]
  simp

theorem theta0_north {g : ℤ} (h : S.NorthRow g) : S.theta0 g = S.tn0 := by
  unfold theta0
  rw [if_neg]
  rintro ⟨h1, h2⟩
  rcases h.2.2 with h | h
  · rw [h1] at h; exact absurd h (by simp)
  · omega

theorem theta0_south (hv : S.Valid) {g : ℤ} (h : S.SouthRow g) : S.theta0 g = S.ts0 := by
  have := hv.jb0
  unfold theta0
  rw [if_pos ⟨h.1, by have := h.2.2; omega⟩]

theorem NorthRow.iter (hv : S.Valid) {g : ℤ} (h : S.NorthRow g) {i k : ℤ} (hi : 1 ≤ i ∧ i ≤ S.nlon)
    (hk : 2 ≤ k ∧ k ≤ S.kmax - 1) : FluxIn.Iter S.northIn i (g - (S.rows - S.nd)) k := by
  obtain ⟨h1, h2, -⟩ := h
  unfold outRow at h1 h2
  have := hv.odd
  refine ⟨hk, hi, ?_, ?_⟩
  · show S.jb + 1 ≤ _
    omega
  · show _ ≤ S.nd - 1
    omega

theorem SouthRow.iter {g : ℤ} (h : S.SouthRow g) {i k : ℤ} (hi : 1 ≤ i ∧ i ≤ S.nlon)
    (hk : 2 ≤ k ∧ k ≤ S.kmax - 1) : FluxIn.Iter S.southIn i (S.nd + 1 - g) k := by
  obtain ⟨-, h1, h2⟩ := h
  refine ⟨hk, hi, ?_, ?_⟩
  · show S.jb + 1 ≤ _
    omega
  · show _ ≤ S.nd - 1
    omega

theorem top_north (i j : ℤ) : ¬ FluxIn.Iter S.northIn i j S.kmax := fun h => by
  have : S.kmax ≤ S.kmax - 1 := h.1.2
  omega

theorem top_south (i j : ℤ) : ¬ FluxIn.Iter S.southIn i j S.kmax := fun h => by
  have : S.kmax ≤ S.kmax - 1 := h.1.2
  omega

theorem store_northRow (hv : S.Valid) {g : ℤ} (h : S.NorthRow g) (n s : ℤ → ℝ) : S.store n s g = n (g - (S.rows - S.nd)) := by
  have h1 := h.1
  unfold outRow at h1
  have := hv.odd
  have := hv.jb0
  exact store_north h.2.2 (by omega) n s

theorem store_southRow (hv : S.Valid) {g : ℤ} (h : S.SouthRow g) (n s : ℤ → ℝ) : S.store n s g = s (S.nd + 1 - g) := by
  have := hv.jb0
  have := h.2.2
  exact store_south h.1 (by omega) n s

/-- The vertical average of an array that the routine sets on the interior levels only. -/
theorem average_eq (hk : 3 ≤ S.kmax) {f F : ℤ → ℝ} (htop : f S.kmax = 0) (h : ∀ k, 2 ≤ k ∧ k ≤ S.kmax - 1 → f k = F k) :
    S.verticalAverage f = S.columnMean F := by
  rw [verticalAverage_interior f (by omega) htop]
  unfold columnMean
  refine sum_congr rfl fun k hk => ?_
  rw [h k (mem_Icc.1 hk)]

theorem columnMean_congr {f F : ℤ → ℝ} (h : ∀ k, 2 ≤ k ∧ k ≤ S.kmax - 1 → f k = F k) : S.columnMean f = S.columnMean F := by
  unfold columnMean
  refine sum_congr rfl fun k hk => ?_
  rw [h k (mem_Icc.1 hk)]

theorem columnMean_add (f F : ℤ → ℝ) : S.columnMean f + S.columnMean F = S.columnMean (fun k => f k + F k) := by
  unfold columnMean
  rw [← sum_add_distrib]
  refine sum_congr rfl fun k _ => ?_
  ring

/-! ### C83: the advective fluxes F1 and F2 -/

/-- In the routine the reference wind drops out of `ua1 + ua2`. -/
theorem ua_sum (I : FluxIn) (h : I.Shaped) {i j k : ℤ} (hI : FluxIn.Iter I i j k) :
    I.fluxDirinv.ua1 i j k + I.fluxDirinv.ua2 i j k =
      ∑ jj ∈ Icc 1 I.nd, if (j ≤ jj ∧ I.qe i j k jj < 0) ∨ (jj < j ∧ 0 < I.qe i j k jj)
        then |I.qe i j k jj| * I.uu i (jj + I.nd - 1) k * (I.a * I.dp * cos (I.phi j)) else 0 := by
  have hj := hI.2.2
  rw [I.ua1_eq h.jb0, I.ua2_eq h.jb0, if_pos hI, if_pos hI, FluxIn.acc_total, FluxIn.acc_ua2, mul_sum, ← sum_add_distrib]
  refine sum_congr rfl fun jj hjj => ?_
  rw [mem_Icc] at hjj
  have hr : rd3 I.jmax I.uu i (jj + I.nd - 1) k = I.uu i (jj + I.nd - 1) k :=
    rd3_of_mem (by have := h.nd2; omega) (by have := h.odd; omega)
  unfold FluxIn.sgn FluxIn.ue
  rw [hr]
  rcases lt_trichotomy (I.qe i j k jj) 0 with hq | hq | hq
  · by_cases hj : j ≤ jj
    · rw [if_pos (Or.inl ⟨hj, hq⟩), if_pos ⟨hq.le, hj⟩, if_pos (Or.inl ⟨hj, hq⟩), abs_of_neg hq]; ring
    · have hn : ¬ ((j ≤ jj ∧ I.qe i j k jj < 0) ∨ (jj < j ∧ 0 < I.qe i j k jj)) := by
        rintro (c | c)
        · exact hj c.1
        · linarith [c.2]
      rw [if_neg hn, if_neg (fun c => hj c.2), if_neg (fun c => by linarith [c.1]), if_neg hn]; ring
  · rw [hq]; simp
  · by_cases hj : jj < j
    · rw [if_pos (Or.inr ⟨hj, hq⟩), if_neg (fun c => by linarith [c.1]), if_pos ⟨hq, hj⟩, if_pos (Or.inr ⟨hj, hq⟩),
        abs_of_pos hq]; ring
    · have hn : ¬ ((j ≤ jj ∧ I.qe i j k jj < 0) ∨ (jj < j ∧ 0 < I.qe i j k jj)) := by
        rintro (c | c)
        · linarith [c.2]
        · exact hj c.1
      rw [if_neg hn, if_neg (fun c => by linarith [c.1]), if_neg (fun c => hj c.2), if_neg hn]; ring

/-- C83, Northern Hemisphere: F1 + F2 is the column mean of `cos φ Σ |q - Qref| u a dφ` over the displaced rows. -/
theorem C83_north (hv : S.Valid) (hk : 3 ≤ S.kmax) (i g : ℤ) (hi : 1 ≤ i ∧ i ≤ S.nlon) (hg : S.NorthRow g) :
    S.advFluxF1 i g + S.advFluxF2 i g = S.columnMean (fun k => transportNorth (Icc S.nd S.nlat) (fun r => S.qgpv i r k)
      (S.qref g k) (fun r => S.u i r k) (S.a * S.dphi * cos (S.lat (S.outRow g))) (S.outRow g)) := by
  have hodd := hv.odd
  have hjb := hv.jb0
  have h1 := hg.1
  have h2 := hg.2.1
  unfold outRow at h1 h2
  have e3 : S.northIn.kmax = S.kmax := rfl
  have t1 := S.northIn.ua1_eq hjb i (g - (S.rows - S.nd)) S.kmax
  have t2 := S.northIn.ua2_eq hjb i (g - (S.rows - S.nd)) S.kmax
  rw [if_neg (top_north i _)] at t1 t2
  unfold advFluxF1 advFluxF2 baro
  rw [store_northRow hv hg, store_northRow hv hg, average_eq hk t1 (fun k _ => rfl), average_eq hk t2 (fun k _ => rfl),
    columnMean_add]
  refine columnMean_congr fun k hk => ?_
  rw [ua_sum _ hv.north (hg.iter hv hi hk), transportNorth, sum_filter, hodd, ← sum_shift]
  refine sum_congr rfl fun jj hjj => ?_
  have hm : 1 ≤ jj ∧ jj ≤ S.nd := mem_Icc.1 hjj
  rw [hv.north.qe_eq hm.1 hm.2 (by omega) (show _ ≤ S.nd by omega), lat_cos_north]
  have er : S.rows - S.nd + (g - (S.rows - S.nd)) = g := by ring
  have eo : g - (S.rows - S.nd) + S.nd - 1 = S.outRow g := by unfold outRow; omega
  show (if (g - (S.rows - S.nd) ≤ jj ∧ S.qgpv i (jj + S.nd - 1) k - S.qref (S.rows - S.nd + (g - (S.rows - S.nd))) k < 0) ∨
    (jj < g - (S.rows - S.nd) ∧ 0 < S.qgpv i (jj + S.nd - 1) k - S.qref (S.rows - S.nd + (g - (S.rows - S.nd))) k) then
      |S.qgpv i (jj + S.nd - 1) k - S.qref (S.rows - S.nd + (g - (S.rows - S.nd))) k| * S.u i (jj + S.nd - 1) k *
        (S.a * S.dphi * cos (S.lat (g - (S.rows - S.nd) + S.nd - 1))) else 0) = _
  rw [er, eo]
  have hc : ((g - (S.rows - S.nd) ≤ jj ∧ S.qgpv i (jj + S.nd - 1) k - S.qref g k < 0) ∨
    (jj < g - (S.rows - S.nd) ∧ 0 < S.qgpv i (jj + S.nd - 1) k - S.qref g k)) ↔
      DisplacedNorth (fun r => S.qgpv i r k) (S.qref g k) (S.outRow g) (jj + S.nd - 1) := by
    rw [← eo]
    unfold DisplacedNorth
    rw [sub_neg, sub_pos]
    constructor
    · rintro (⟨a, b⟩ | ⟨a, b⟩)
      · exact Or.inl ⟨by omega, b⟩
      · exact Or.inr ⟨by omega, b⟩
    · rintro (⟨a, b⟩ | ⟨a, b⟩)
      · exact Or.inl ⟨by omega, b⟩
      · exact Or.inr ⟨by omega, b⟩
  exact if_congr hc rfl rfl

/-- C83, Southern Hemisphere. -/
theorem C83_south (hv : S.Valid) (hk : 3 ≤ S.kmax) (i g : ℤ) (hi : 1 ≤ i ∧ i ≤ S.nlon) (hg : S.SouthRow g) :
    S.advFluxF1 i g + S.advFluxF2 i g = S.columnMean (fun k => transportSouth (Icc 1 S.nd) (fun r => S.qgpv i r k)
      (S.qref g k) (fun r => S.u i r k) (S.a * S.dphi * cos (S.lat g)) g) := by
  have hodd := hv.odd
  have hjb := hv.jb0
  have h1 := hg.2.1
  have h2 := hg.2.2
  have t1 := S.southIn.ua1_eq hjb i (S.nd + 1 - g) S.kmax
  have t2 := S.southIn.ua2_eq hjb i (S.nd + 1 - g) S.kmax
  rw [if_neg (top_south i _)] at t1 t2
  unfold advFluxF1 advFluxF2 baro
  rw [store_southRow hv hg, store_southRow hv hg, average_eq hk t1 (fun k _ => rfl), average_eq hk t2 (fun k _ => rfl),
    columnMean_add]
  refine columnMean_congr fun k hk => ?_
  rw [ua_sum _ hv.south (hg.iter hi hk), transportSouth, sum_filter]
  refine Eq.trans ?_ (sum_flip S.nd _)
  refine sum_congr rfl fun jj hjj => ?_
  have hm : 1 ≤ jj ∧ jj ≤ S.nd := mem_Icc.1 hjj
  rw [hv.south.qe_eq hm.1 hm.2 (by omega) (show _ ≤ S.nd by omega), lat_cos_south, cos_neg]
  have hrow : S.nlat + 1 - (jj + S.nd - 1) = S.nd + 1 - jj := by rw [hodd]; ring
  have er : S.nd + 1 - (S.nd + 1 - g) = g := by ring
  show (if (S.nd + 1 - g ≤ jj ∧ -S.qgpv i (S.nlat + 1 - (jj + S.nd - 1)) k - -S.qref (S.nd + 1 - (S.nd + 1 - g)) k < 0) ∨
    (jj < S.nd + 1 - g ∧ 0 < -S.qgpv i (S.nlat + 1 - (jj + S.nd - 1)) k - -S.qref (S.nd + 1 - (S.nd + 1 - g)) k) then
      |-S.qgpv i (S.nlat + 1 - (jj + S.nd - 1)) k - -S.qref (S.nd + 1 - (S.nd + 1 - g)) k| *
        S.u i (S.nlat + 1 - (jj + S.nd - 1)) k * (S.a * S.dphi * cos (S.lat (S.nd + 1 - (S.nd + 1 - g)))) else 0) = _
  rw [hrow, er]
  have e : -S.qgpv i (S.nd + 1 - jj) k - -S.qref g k = -(S.qgpv i (S.nd + 1 - jj) k - S.qref g k) := by ring
  rw [e, abs_neg]
  refine if_congr ?_ rfl rfl
  simp only [neg_lt_zero, Left.neg_pos_iff, sub_pos, sub_neg]
  unfold DisplacedSouth
  constructor
  · rintro (⟨a, b⟩ | ⟨a, b⟩)
    · exact Or.inl ⟨by omega, b⟩
    · exact Or.inr ⟨by omega, b⟩
  · rintro (⟨a, b⟩ | ⟨a, b⟩)
    · exact Or.inl ⟨by omega, b⟩
    · exact Or.inr ⟨by omega, b⟩

/-- The same analysis with another reference wind. -/
def withUref (S : QGAnalysis) (U : ℤ → ℤ → ℝ) : QGAnalysis := { S with uref := U }

/-- C83: on analysed rows F1 + F2 does not depend on the reference wind. -/
theorem C83_reference_wind (hv : S.Valid) (hk : 3 ≤ S.kmax) (U : ℤ → ℤ → ℝ) (i g : ℤ) (hi : 1 ≤ i ∧ i ≤ S.nlon)
    (hg : S.NorthRow g ∨ S.SouthRow g) :
    (S.withUref U).advFluxF1 i g + (S.withUref U).advFluxF2 i g = S.advFluxF1 i g + S.advFluxF2 i g := by
  have hv' : (S.withUref U).Valid := ⟨hv.odd, hv.jb0, hv.jbnd, hv.jdEq, hv.a0⟩
  rcases hg with hg | hg
  · have hg' : (S.withUref U).NorthRow g := hg
    rw [C83_north hv' hk i g hi hg', C83_north hv hk i g hi hg]; rfl
  · have hg' : (S.withUref U).SouthRow g := hg
    rw [C83_south hv' hk i g hi hg', C83_south hv hk i g hi hg]; rfl

theorem columnMean_nonneg (hdz : 0 < S.dz) (hk : 3 ≤ S.kmax) {f : ℤ → ℝ} (h : ∀ k, 0 ≤ f k) : 0 ≤ S.columnMean f := by
  unfold columnMean
  have := prefactor_pos hdz hk
  exact sum_nonneg fun k _ => mul_nonneg (mul_nonneg (h k) (exp_pos _).le) (div_nonneg hdz.le this.le)

theorem cos_row_nonneg (hv : S.Valid) {g : ℤ} (hg : S.NorthRow g ∨ S.SouthRow g) : 0 ≤ cos (S.lat (S.outRow g)) := by
  have hodd := hv.odd
  have hjb := hv.jb0
  rcases hg with hg | hg
  · have h1 := hg.1
    have h2 := hg.2.1
    have := hv.north.cos_nonneg (j := S.outRow g - S.nd + 1) (by omega) (show _ ≤ S.nd by omega)
    rw [lat_cos_north] at this
    rwa [show S.outRow g - S.nd + 1 + S.nd - 1 = S.outRow g by ring] at this
  · have h1 := hg.2.1
    have h2 := hg.2.2
    rw [hg.outRow_eq]
    have := hv.south.cos_nonneg (j := S.nd + 1 - g) (by omega) (show _ ≤ S.nd by omega)
    rw [lat_cos_south, cos_neg] at this
    rwa [show S.nd + 1 - (S.nd + 1 - g) = g by ring] at this

/-- C83: where the wind is eastward on all rows, F1 + F2 is not negative. -/
theorem C83_eastward (hv : S.Valid) (hdz : 0 < S.dz) (hk : 3 ≤ S.kmax) (hu : ∀ i r k, 0 ≤ S.u i r k) (i g : ℤ)
    (hi : 1 ≤ i ∧ i ≤ S.nlon) (hg : S.NorthRow g ∨ S.SouthRow g) : 0 ≤ S.advFluxF1 i g + S.advFluxF2 i g := by
  have hc := cos_row_nonneg hv hg
  have hw : 0 ≤ S.a * S.dphi * cos (S.lat (S.outRow g)) := mul_nonneg (mul_nonneg hv.a0 hv.north.dp_pos.le) hc
  rcases hg with hg | hg
  · rw [C83_north hv hk i g hi hg]
    exact columnMean_nonneg hdz hk fun k => sum_nonneg fun r _ => mul_nonneg (mul_nonneg (abs_nonneg _) (hu _ _ _)) hw
  · rw [C83_south hv hk i g hi hg]
    rw [hg.outRow_eq] at hw
    exact columnMean_nonneg hdz hk fun k => sum_nonneg fun r _ => mul_nonneg (mul_nonneg (abs_nonneg _) (hu _ _ _)) hw

/-- Both kinds of rows exist and some PV is displaced. -/
example : sample.Valid ∧ 3 ≤ sample.kmax ∧ sample.NorthRow 4 ∧ sample.SouthRow 2 ∧ 0 < sample.dz ∧
    (∀ i r k, 0 ≤ sample.u i r k) ∧ DisplacedNorth (fun r => sample.qgpv 1 r 2) (sample.qref 4 2) 4 3 := by
  refine ⟨sample_valid, by decide, ⟨by decide, by decide, Or.inr (by decide)⟩, ⟨rfl, by decide, by decide⟩, by norm_num [sample],
    fun _ _ _ => by norm_num [sample], Or.inr ⟨by decide, by norm_num [sample]⟩⟩

/-! ### C84: the third flux term -/

/-- C84: F3 is the column mean of the eddy energy difference, in both hemispheres, with the centred difference of the mean potential
temperature of the hemisphere. -/
theorem C84_f3 (hv : S.Valid) (hk : 3 ≤ S.kmax) (i g : ℤ) (hi : 1 ≤ i ∧ i ≤ S.nlon) (hg : S.NorthRow g ∨ S.SouthRow g) :
    S.advFluxF3 i g = S.columnMean (fun k => eddyEnergyTerm S.rr S.h (S.rr / S.cp) (S.dz * ((k - 1 : ℤ) : ℝ))
      (S.lat (S.outRow g)) ((S.theta0 g (k + 1) - S.theta0 g (k - 1)) / (2 * S.dz))
      (S.u i (S.outRow g) k) (S.uref g k) (S.v i (S.outRow g) k) (S.theta i (S.outRow g) k) (S.ptref g k)) := by
  have hodd := hv.odd
  have hjb := hv.jb0
  have hjd := hv.jdEq
  unfold advFluxF3 baro
  rcases hg with hg | hg
  · have h1 := hg.1
    have h2 := hg.2.1
    unfold outRow at h1 h2
    have t := S.northIn.ep1_eq hjb i (g - (S.rows - S.nd)) S.kmax
    rw [if_neg (top_north i _)] at t
    rw [store_northRow hv hg, theta0_north hg]
    refine average_eq hk t fun k hk => ?_
    rw [S.northIn.ep1_eq hjb, if_pos (hg.iter hv hi hk)]
    unfold FluxIn.ep1Val
    rw [lat_cos_north]
    have eo : g - (S.rows - S.nd) + S.nd - 1 = S.outRow g := by unfold outRow; omega
    have er : S.rows - S.jd + (g - (S.rows - S.nd) - S.jb) = g := by omega
    show (-0.5 * (rd3 S.nlat S.u i (g - (S.rows - S.nd) + S.nd - 1) k -
        rd2 S.jd (fun j k => S.uref (S.rows - S.jd + j) k) (g - (S.rows - S.nd) - S.jb) k) ^ 2 +
        0.5 * rd3 S.nlat S.v i (g - (S.rows - S.nd) + S.nd - 1) k ^ 2 -
        0.5 * (rd3 S.nlat S.theta i (g - (S.rows - S.nd) + S.nd - 1) k -
          rd2 S.jd (fun j k => S.ptref (S.rows - S.jd + j) k) (g - (S.rows - S.nd) - S.jb) k) ^ 2 * (S.rr / S.h) *
          exp (-(S.rr / S.cp) * (S.dz * ((k - 1 : ℤ) : ℝ)) / S.h) * 2 * S.dz / (S.tn0 (k + 1) - S.tn0 (k - 1))) *
        cos (S.lat (g - (S.rows - S.nd) + S.nd - 1)) = _
    rw [eo, rd3_of_mem (by omega) (by omega), rd3_of_mem (by omega) (by omega), rd3_of_mem (by omega) (by omega),
      rd2_of_mem (by omega) (by omega), rd2_of_mem (by omega) (by omega), er]
    unfold eddyEnergyTerm
    rw [div_div_eq_mul_div]
    ring
  · have h1 := hg.2.1
    have h2 := hg.2.2
    have t := S.southIn.ep1_eq hjb i (S.nd + 1 - g) S.kmax
    rw [if_neg (top_south i _)] at t
    rw [store_southRow hv hg, theta0_south hv hg]
    refine average_eq hk t fun k hk => ?_
    rw [S.southIn.ep1_eq hjb, if_pos (hg.iter hi hk)]
    unfold FluxIn.ep1Val
    rw [lat_cos_south, cos_neg]
    have eo : S.nlat + 1 - (S.nd + 1 - g + S.nd - 1) = S.outRow g := by rw [hg.outRow_eq]; omega
    have eo' : S.nd + 1 - (S.nd + 1 - g) = S.outRow g := by rw [hg.outRow_eq]; omega
    have er : S.jd + 1 - (S.nd + 1 - g - S.jb) = g := by omega
    rw [eo']
    show (-0.5 * (rd3 S.nlat (fun i j k => S.u i (S.nlat + 1 - j) k) i (S.nd + 1 - g + S.nd - 1) k -
        rd2 S.jd (fun j k => S.uref (S.jd + 1 - j) k) (S.nd + 1 - g - S.jb) k) ^ 2 +
        0.5 * rd3 S.nlat (fun i j k => -S.v i (S.nlat + 1 - j) k) i (S.nd + 1 - g + S.nd - 1) k ^ 2 -
        0.5 * (rd3 S.nlat (fun i j k => S.theta i (S.nlat + 1 - j) k) i (S.nd + 1 - g + S.nd - 1) k -
          rd2 S.jd (fun j k => S.ptref (S.jd + 1 - j) k) (S.nd + 1 - g - S.jb) k) ^ 2 * (S.rr / S.h) *
          exp (-(S.rr / S.cp) * (S.dz * ((k - 1 : ℤ) : ℝ)) / S.h) * 2 * S.dz / (S.ts0 (k + 1) - S.ts0 (k - 1))) *
        cos (S.lat (S.outRow g)) = _
    rw [rd3_of_mem (by omega) (by omega), rd3_of_mem (by omega) (by omega), rd3_of_mem (by omega) (by omega),
      rd2_of_mem (by omega) (by omega), rd2_of_mem (by omega) (by omega), er, eo]
    unfold eddyEnergyTerm
    rw [div_div_eq_mul_div]
    ring

example : sample.Valid ∧ 3 ≤ sample.kmax ∧ (sample.NorthRow 4 ∨ sample.SouthRow 4) ∧ (1 : ℤ) ≤ 1 ∧ (1 : ℤ) ≤ sample.nlon ∧
    sample.u 1 4 2 ≠ sample.uref 4 2 :=
  ⟨sample_valid, by decide, Or.inl ⟨by decide, by decide, Or.inr (by decide)⟩, by decide, by decide, by norm_num [sample]⟩

/-! ### C85: the low-level heat flux -/

/-- Density-weighted eddy heat flux over the stability, `exp(-z/H) v (θ - θref) / (dθ₀/dz)`, at row `g` and level `k`. -/
def eddyHeatFlux (S : QGAnalysis) (stat : ℝ) (i g k : ℤ) : ℝ :=
  exp (-(S.dz * ((k - 1 : ℤ) : ℝ)) / S.h) * (S.v i (S.outRow g) k * (S.theta i (S.outRow g) k - S.ptref g k)) / stat

/-- C85: `meridional_heat_flux` is `f cos φ` over the mass of the column, times the mean of the eddy heat flux on the two lowest
levels; the stability is the forward difference of the mean potential temperature on the first and the centred one on the second
level. The sign is the same in both hemispheres: `f` and `v` are taken as they are. -/
theorem C85_heat_flux (hv : S.Valid) (hk : 3 ≤ S.kmax) (i g : ℤ) (hi : 1 ≤ i ∧ i ≤ S.nlon)
    (hg : S.NorthRow g ∨ S.SouthRow g) :
    S.heatFlux i g = 2 * S.om * sin (S.lat (S.outRow g)) * cos (S.lat (S.outRow g)) / S.prefactor *
      ((S.eddyHeatFlux ((S.theta0 g 2 - S.theta0 g 1) / S.dz) i g 1 +
        S.eddyHeatFlux ((S.theta0 g 3 - S.theta0 g 1) / (2 * S.dz)) i g 2) / 2) := by
  have hodd := hv.odd
  have hjb := hv.jb0
  have hjd := hv.jdEq
  unfold heatFlux eddyHeatFlux
  have z1 : -(S.dz * ((1 - 1 : ℤ) : ℝ)) / S.h = 0 := by simp
  have z2 : -(S.dz * ((2 - 1 : ℤ) : ℝ)) / S.h = -S.dz / S.h := by norm_num
  rw [z1, z2, exp_zero, div_div_eq_mul_div, div_div_eq_mul_div]
  rcases hg with hg | hg
  · have h1 := hg.1
    have h2 := hg.2.1
    unfold outRow at h1 h2
    rw [store_northRow hv hg, theta0_north hg, S.northIn.ep4_eq hjb, if_pos (hg.iter hv hi ⟨le_refl _, by omega⟩)]
    unfold FluxIn.ep4Val
    rw [lat_cos_north]
    have eo : g - (S.rows - S.nd) + S.nd - 1 = S.outRow g := by unfold outRow; omega
    have er : S.rows - S.jd + (g - (S.rows - S.nd) - S.jb) = g := by omega
    show 2 * S.om * sin (S.lat (g - (S.rows - S.nd) + S.nd - 1)) * cos (S.lat (g - (S.rows - S.nd) + S.nd - 1)) * S.dz /
        S.prefactor * (exp (-S.dz / S.h) * rd3 S.nlat S.v i (g - (S.rows - S.nd) + S.nd - 1) 2 *
          (rd3 S.nlat S.theta i (g - (S.rows - S.nd) + S.nd - 1) 2 -
            rd2 S.jd (fun j k => S.ptref (S.rows - S.jd + j) k) (g - (S.rows - S.nd) - S.jb) 2) / (S.tn0 3 - S.tn0 1) +
        0.5 * (rd3 S.nlat S.v i (g - (S.rows - S.nd) + S.nd - 1) 1 *
          (rd3 S.nlat S.theta i (g - (S.rows - S.nd) + S.nd - 1) 1 -
            rd2 S.jd (fun j k => S.ptref (S.rows - S.jd + j) k) (g - (S.rows - S.nd) - S.jb) 1)) / (S.tn0 2 - S.tn0 1)) = _
    rw [eo, rd3_of_mem (by omega) (by omega), rd3_of_mem (by omega) (by omega), rd3_of_mem (by omega) (by omega),
      rd3_of_mem (by omega) (by omega), rd2_of_mem (by omega) (by omega), rd2_of_mem (by omega) (by omega), er]
    ring
  · have h1 := hg.2.1
    have h2 := hg.2.2
    rw [store_southRow hv hg, theta0_south hv hg, S.southIn.ep4_eq hjb, if_pos (hg.iter hi ⟨le_refl _, by omega⟩)]
    unfold FluxIn.ep4Val
    rw [lat_cos_south, cos_neg, sin_neg]
    have eo : S.nlat + 1 - (S.nd + 1 - g + S.nd - 1) = S.outRow g := by rw [hg.outRow_eq]; omega
    have eo' : S.nd + 1 - (S.nd + 1 - g) = S.outRow g := by rw [hg.outRow_eq]; omega
    have er : S.jd + 1 - (S.nd + 1 - g - S.jb) = g := by omega
    rw [eo']
    show 2 * S.om * -sin (S.lat (S.outRow g)) * cos (S.lat (S.outRow g)) * S.dz /
        S.prefactor * (exp (-S.dz / S.h) * rd3 S.nlat (fun i j k => -S.v i (S.nlat + 1 - j) k) i (S.nd + 1 - g + S.nd - 1) 2 *
          (rd3 S.nlat (fun i j k => S.theta i (S.nlat + 1 - j) k) i (S.nd + 1 - g + S.nd - 1) 2 -
            rd2 S.jd (fun j k => S.ptref (S.jd + 1 - j) k) (S.nd + 1 - g - S.jb) 2) / (S.ts0 3 - S.ts0 1) +
        0.5 * (rd3 S.nlat (fun i j k => -S.v i (S.nlat + 1 - j) k) i (S.nd + 1 - g + S.nd - 1) 1 *
          (rd3 S.nlat (fun i j k => S.theta i (S.nlat + 1 - j) k) i (S.nd + 1 - g + S.nd - 1) 1 -
            rd2 S.jd (fun j k => S.ptref (S.jd + 1 - j) k) (S.nd + 1 - g - S.jb) 1)) / (S.ts0 2 - S.ts0 1)) = _
    rw [rd3_of_mem (by omega) (by omega), rd3_of_mem (by omega) (by omega), rd3_of_mem (by omega) (by omega),
      rd3_of_mem (by omega) (by omega), rd2_of_mem (by omega) (by omega), rd2_of_mem (by omega) (by omega), er, eo]
    ring

example : sample.Valid ∧ 3 ≤ sample.kmax ∧ (sample.NorthRow 2 ∨ sample.SouthRow 2) ∧ (1 : ℤ) ≤ sample.nlon :=
  ⟨sample_valid, by decide, Or.inr ⟨rfl, by decide, by decide⟩, by decide⟩

/-! ### C86: the contribution of non-conservative sources -/

/-- Rows at or north of `g` whose PV equals the reference value. -/
def contourNorth (S : QGAnalysis) (i g k : ℤ) : ℝ :=
  ∑ r ∈ (Icc S.nd S.nlat).filter (fun r => S.outRow g ≤ r ∧ S.qgpv i r k = S.qref g k),
    S.ncforce i r k * (S.a * cos (S.lat r) * S.dphi)

/-- Rows at or south of `g` whose PV equals the reference value. -/
def contourSouth (S : QGAnalysis) (i g k : ℤ) : ℝ :=
  ∑ r ∈ (Icc 1 S.nd).filter (fun r => r ≤ g ∧ S.qgpv i r k = S.qref g k),
    S.ncforce i r k * (S.a * cos (S.lat r) * S.dphi)

theorem verticalAverage_neg (f : ℤ → ℝ) : S.verticalAverage (fun k => -f k) = -S.verticalAverage f := by
  unfold verticalAverage
  rw [← sum_neg_distrib]
  refine sum_congr rfl fun k _ => ?_
  ring

/-- C86: `ncforce_baro` is the column mean of the growth of wave activity that the given PV source produces on the displaced
rows. -/
def C86_Statement : Prop :=
  ∀ S : QGAnalysis, S.Valid → 3 ≤ S.kmax → ∀ i g, 1 ≤ i ∧ i ≤ S.nlon →
    (S.NorthRow g → S.ncforceBaro i g = S.columnMean (fun k => sourceNorth (Icc S.nd S.nlat) (fun r => S.qgpv i r k)
      (S.qref g k) (fun r => S.ncforce i r k) (fun r => S.a * cos (S.lat r) * S.dphi) (S.outRow g))) ∧
    (S.SouthRow g → S.ncforceBaro i g = S.columnMean (fun k => sourceSouth (Icc 1 S.nd) (fun r => S.qgpv i r k)
      (S.qref g k) (fun r => S.ncforce i r k) (fun r => S.a * cos (S.lat r) * S.dphi) g))

/-- C86, what holds in the north: rows on the poleward side whose PV equals the reference value count as a deficit. -/
theorem C86_north_partial (hv : S.Valid) (hk : 3 ≤ S.kmax) (i g : ℤ) (hi : 1 ≤ i ∧ i ≤ S.nlon) (hg : S.NorthRow g) :
    S.ncforceBaro i g = S.columnMean (fun k => sourceNorth (Icc S.nd S.nlat) (fun r => S.qgpv i r k)
      (S.qref g k) (fun r => S.ncforce i r k) (fun r => S.a * cos (S.lat r) * S.dphi) (S.outRow g) -
        S.contourNorth i g k) := by
  have hodd := hv.odd
  have hjb := hv.jb0
  have h1 := hg.1
  have h2 := hg.2.1
  unfold outRow at h1 h2
  have t := S.northIn.ncforce3d_eq hjb i (g - (S.rows - S.nd)) S.kmax
  rw [if_neg (top_north i _)] at t
  unfold ncforceBaro
  rw [store_northRow hv hg]
  refine average_eq hk t fun k hk => ?_
  rw [S.northIn.ncforce3d_eq hjb, if_pos (hg.iter hv hi hk), FluxIn.acc_nc, sourceNorth, contourNorth, sum_filter, sum_filter,
    ← sum_sub_distrib, hodd, ← sum_shift]
  refine sum_congr rfl fun jj hjj => ?_
  have hm : 1 ≤ jj ∧ jj ≤ S.nd := mem_Icc.1 hjj
  unfold FluxIn.sgn
  rw [hv.north.qe_eq hm.1 hm.2 (by omega) (show _ ≤ S.nd by omega), lat_cos_north]
  have er : S.rows - S.nd + (g - (S.rows - S.nd)) = g := by ring
  have eo : g - (S.rows - S.nd) + S.nd - 1 = S.outRow g := by unfold outRow; omega
  show (if S.qgpv i (jj + S.nd - 1) k - S.qref (S.rows - S.nd + (g - (S.rows - S.nd))) k ≤ 0 ∧ jj ≥ g - (S.rows - S.nd) then
      (-1 : ℝ) else if S.qgpv i (jj + S.nd - 1) k - S.qref (S.rows - S.nd + (g - (S.rows - S.nd))) k > 0 ∧
        jj < g - (S.rows - S.nd) then 1 else 0) *
      (rd3 S.nlat S.ncforce i (jj + S.nd - 1) k * (S.a * S.dphi * cos (S.lat (jj + S.nd - 1)))) = _
  rw [rd3_of_mem (by omega) (by omega), er]
  have hD : DisplacedNorth (fun r => S.qgpv i r k) (S.qref g k) (S.outRow g) (jj + S.nd - 1) ↔ (S.outRow g ≤ jj + S.nd - 1 ∧ S.qgpv i (jj + S.nd - 1) k < S.qref g k) ∨
    (jj + S.nd - 1 < S.outRow g ∧ S.qref g k < S.qgpv i (jj + S.nd - 1) k) := Iff.rfl
  rcases lt_trichotomy (S.qgpv i (jj + S.nd - 1) k) (S.qref g k) with hq | hq | hq
  · by_cases hj : g - (S.rows - S.nd) ≤ jj
    · rw [if_pos ⟨by linarith, hj⟩, if_pos (hD.2 <| Or.inl ⟨by omega, hq⟩), if_pos hq, if_neg (fun c => hq.ne c.2)]; ring
    · have hn : ¬ DisplacedNorth (fun r => S.qgpv i r k) (S.qref g k) (S.outRow g) (jj + S.nd - 1) := by
        rintro (c | c)
        · exact hj (by have := c.1; omega)
        · linarith [c.2]
      rw [if_neg (fun c => hj c.2), if_neg (fun c => by linarith [c.1]), if_neg hn, if_neg (fun c => hq.ne c.2)]; ring
  · by_cases hj : g - (S.rows - S.nd) ≤ jj
    · have hn : ¬ DisplacedNorth (fun r => S.qgpv i r k) (S.qref g k) (S.outRow g) (jj + S.nd - 1) := by
        rintro (c | c)
        · exact hq.not_lt c.2
        · exact hq.not_gt c.2
      rw [if_pos ⟨by linarith, hj⟩, if_neg hn, if_pos ⟨by omega, hq⟩]; ring
    · have hn : ¬ DisplacedNorth (fun r => S.qgpv i r k) (S.qref g k) (S.outRow g) (jj + S.nd - 1) := by
        rintro (c | c)
        · exact hq.not_lt c.2
        · exact hq.not_gt c.2
      rw [if_neg (fun c => hj c.2), if_neg (fun c => by linarith [c.1]), if_neg hn, if_neg (fun c => hj (by have := c.1; omega))]; ring
  · by_cases hj : jj < g - (S.rows - S.nd)
    · rw [if_neg (fun c => by linarith [c.1]), if_pos ⟨by linarith, hj⟩, if_pos (hD.2 <| Or.inr ⟨by omega, hq⟩), if_neg hq.not_gt,
        if_neg (fun c => hq.ne' c.2)]; ring
    · have hn : ¬ DisplacedNorth (fun r => S.qgpv i r k) (S.qref g k) (S.outRow g) (jj + S.nd - 1) := by
        rintro (c | c)
        · linarith [c.2]
        · exact hj (by have := c.1; omega)
      rw [if_neg (fun c => by linarith [c.1]), if_neg (fun c => hj c.2), if_neg hn, if_neg (fun c => hq.ne' c.2)]; ring

/-- C86, what holds in the south: rows on the poleward side whose PV equals the reference value count as a surplus. -/
theorem C86_south_partial (hv : S.Valid) (hk : 3 ≤ S.kmax) (i g : ℤ) (hi : 1 ≤ i ∧ i ≤ S.nlon) (hg : S.SouthRow g) :
    S.ncforceBaro i g = S.columnMean (fun k => sourceSouth (Icc 1 S.nd) (fun r => S.qgpv i r k)
      (S.qref g k) (fun r => S.ncforce i r k) (fun r => S.a * cos (S.lat r) * S.dphi) g + S.contourSouth i g k) := by
  have hodd := hv.odd
  have hjb := hv.jb0
  have h1 := hg.2.1
  have h2 := hg.2.2
  have t := S.southIn.ncforce3d_eq hjb i (S.nd + 1 - g) S.kmax
  rw [if_neg (top_south i _)] at t
  unfold ncforceBaro
  rw [store_southRow hv hg, ← verticalAverage_neg]
  refine average_eq hk (by rw [t, neg_zero]) fun k hk => ?_
  rw [S.southIn.ncforce3d_eq hjb, if_pos (hg.iter hi hk), FluxIn.acc_nc, sourceSouth, contourSouth, sum_filter, sum_filter,
    ← sum_add_distrib, ← sum_neg_distrib]
  refine Eq.trans ?_ (sum_flip S.nd _)
  refine sum_congr rfl fun jj hjj => ?_
  have hm : 1 ≤ jj ∧ jj ≤ S.nd := mem_Icc.1 hjj
  unfold FluxIn.sgn
  rw [hv.south.qe_eq hm.1 hm.2 (by omega) (show _ ≤ S.nd by omega), lat_cos_south, cos_neg]
  have hrow : S.nlat + 1 - (jj + S.nd - 1) = S.nd + 1 - jj := by rw [hodd]; ring
  have er : S.nd + 1 - (S.nd + 1 - g) = g := by ring
  show -((if -S.qgpv i (S.nlat + 1 - (jj + S.nd - 1)) k - -S.qref (S.nd + 1 - (S.nd + 1 - g)) k ≤ 0 ∧ jj ≥ S.nd + 1 - g then
      (-1 : ℝ) else if -S.qgpv i (S.nlat + 1 - (jj + S.nd - 1)) k - -S.qref (S.nd + 1 - (S.nd + 1 - g)) k > 0 ∧
        jj < S.nd + 1 - g then 1 else 0) *
      (rd3 S.nlat (fun i j k => S.ncforce i (S.nlat + 1 - j) k) i (jj + S.nd - 1) k *
        (S.a * S.dphi * cos (S.lat (S.nd + 1 - jj))))) = _
  rw [rd3_of_mem (by omega) (by omega), hrow, er]
  have hD : DisplacedSouth (fun r => S.qgpv i r k) (S.qref g k) g (S.nd + 1 - jj) ↔ (S.nd + 1 - jj ≤ g ∧ S.qref g k < S.qgpv i (S.nd + 1 - jj) k) ∨
    (g < S.nd + 1 - jj ∧ S.qgpv i (S.nd + 1 - jj) k < S.qref g k) := Iff.rfl
  rcases lt_trichotomy (S.qgpv i (S.nd + 1 - jj) k) (S.qref g k) with hq | hq | hq
  · by_cases hj : jj < S.nd + 1 - g
    · rw [if_neg (fun c => by linarith [c.1]), if_pos ⟨by linarith, hj⟩, if_pos (hD.2 <| Or.inr ⟨by omega, hq⟩), if_pos hq,
        if_neg (fun c => hq.ne c.2)]; ring
    · have hn : ¬ DisplacedSouth (fun r => S.qgpv i r k) (S.qref g k) g (S.nd + 1 - jj) := by
        rintro (c | c)
        · linarith [c.2]
        · exact hj (by have := c.1; omega)
      rw [if_neg (fun c => by linarith [c.1]), if_neg (fun c => hj c.2), if_neg hn, if_neg (fun c => hq.ne c.2)]; ring
  · by_cases hj : S.nd + 1 - g ≤ jj
    · have hn : ¬ DisplacedSouth (fun r => S.qgpv i r k) (S.qref g k) g (S.nd + 1 - jj) := by
        rintro (c | c)
        · exact hq.not_gt c.2
        · exact hq.not_lt c.2
      rw [if_pos ⟨by linarith, hj⟩, if_neg hn, if_pos ⟨by omega, hq⟩]; ring
    · have hn : ¬ DisplacedSouth (fun r => S.qgpv i r k) (S.qref g k) g (S.nd + 1 - jj) := by
        rintro (c | c)
        · exact hq.not_gt c.2
        · exact hq.not_lt c.2
      rw [if_neg (fun c => hj c.2), if_neg (fun c => by linarith [c.1]), if_neg hn, if_neg (fun c => hj (by have := c.1; omega))]; ring
  · by_cases hj : S.nd + 1 - g ≤ jj
    · rw [if_pos ⟨by linarith, hj⟩, if_pos (hD.2 <| Or.inl ⟨by omega, hq⟩), if_neg hq.not_gt, if_neg (fun c => hq.ne' c.2)]; ring
    · have hn : ¬ DisplacedSouth (fun r => S.qgpv i r k) (S.qref g k) g (S.nd + 1 - jj) := by
        rintro (c | c)
        · exact hj (by have := c.1; omega)
        · linarith [c.2]
      rw [if_neg (fun c => hj c.2), if_neg (fun c => by linarith [c.1]), if_neg hn, if_neg (fun c => hq.ne' c.2)]; ring

/-- C86 holds as stated where no row has exactly the reference PV. -/
theorem C86_off_contour_partial (hv : S.Valid) (hk : 3 ≤ S.kmax) (i g : ℤ) (hi : 1 ≤ i ∧ i ≤ S.nlon)
    (hq : ∀ r k, 1 ≤ r → r ≤ S.nlat → S.qgpv i r k ≠ S.qref g k) :
    (S.NorthRow g → S.ncforceBaro i g = S.columnMean (fun k => sourceNorth (Icc S.nd S.nlat) (fun r => S.qgpv i r k)
      (S.qref g k) (fun r => S.ncforce i r k) (fun r => S.a * cos (S.lat r) * S.dphi) (S.outRow g))) ∧
    (S.SouthRow g → S.ncforceBaro i g = S.columnMean (fun k => sourceSouth (Icc 1 S.nd) (fun r => S.qgpv i r k)
      (S.qref g k) (fun r => S.ncforce i r k) (fun r => S.a * cos (S.lat r) * S.dphi) g)) := by
  have hodd := hv.odd
  have := hv.jb0
  have := hv.jbnd
  constructor
  · intro hg
    rw [C86_north_partial hv hk i g hi hg]
    refine columnMean_congr fun k _ => ?_
    unfold contourNorth
    rw [filter_false_of_mem, sum_empty, sub_zero]
    intro r hr c
    rw [mem_Icc] at hr
    exact hq r k (by omega) (by omega) c.2
  · intro hg
    rw [C86_south_partial hv hk i g hi hg]
    refine columnMean_congr fun k _ => ?_
    unfold contourSouth
    rw [filter_false_of_mem, sum_empty, add_zero]
    intro r hr c
    rw [mem_Icc] at hr
    exact hq r k (by omega) (by omega) c.2

/-- A wave-free state (PV grows northward and equals the reference on every row) with a uniform source of PV. -/
def forced : QGAnalysis := { sample with qgpv := fun _ g _ => g, qref := fun g _ => g, ncforce := fun _ _ _ => 1 }

theorem forced_valid : forced.Valid := ⟨by rfl, by decide, by decide, by rfl, by norm_num [forced, sample]⟩

example : forced.Valid ∧ 3 ≤ forced.kmax ∧ forced.NorthRow 4 ∧ forced.SouthRow 2 ∧
    ({ forced with qref := fun g _ => g + 1 / 2 } : QGAnalysis).Valid ∧
    (∀ r k : ℤ, ({ forced with qref := fun g _ => g + 1 / 2 } : QGAnalysis).qgpv 1 r k ≠
      ({ forced with qref := fun g _ => g + 1 / 2 } : QGAnalysis).qref 4 k) := by
  refine ⟨forced_valid, by decide, ⟨by decide, by decide, Or.inr (by decide)⟩, ⟨rfl, by decide, by decide⟩,
    ⟨by rfl, by decide, by decide, by rfl, by norm_num [forced, sample]⟩, ?_⟩
  intro r k h
  have h' : (r : ℝ) = ((4 : ℤ) : ℝ) + 1 / 2 := h
  have h2 : (2 * r : ℝ) = ((9 : ℤ) : ℝ) := by rw [h']; norm_num
  have h3 : 2 * r = 9 := by exact_mod_cast h2
  omega

/-- C86 fails: without any displaced PV the source still produces (negative) wave activity, from the row itself. -/
theorem C86_refuted : ¬ C86_Statement := by
  intro h
  have hg : forced.NorthRow 4 := ⟨by decide, by decide, Or.inr (by decide)⟩
  have h0 := (h forced forced_valid (by decide) 1 4 ⟨by decide, by decide⟩).1 hg
  rw [C86_north_partial forced_valid (by decide) 1 4 ⟨by decide, by decide⟩ hg] at h0
  unfold columnMean at h0
  rw [show (Icc 2 (forced.kmax - 1) : Finset ℤ) = {2} by decide, sum_singleton, sum_singleton] at h0
  have hp : 0 < forced.prefactor := prefactor_pos (by norm_num [forced, sample]) (by decide)
  have hw : 0 < exp (-forced.height 2 / forced.h) * (forced.dz / forced.prefactor) :=
    mul_pos (exp_pos _) (div_pos (by norm_num [forced, sample]) hp)
  rw [mul_assoc, mul_assoc] at h0
  have h1 := mul_right_cancel₀ hw.ne' h0
  have h2 : forced.contourNorth 1 4 2 = 0 := by linarith
  unfold contourNorth at h2
  have hs : (Icc forced.nd forced.nlat).filter (fun r => forced.outRow 4 ≤ r ∧ forced.qgpv 1 r 2 = forced.qref 4 2) = {4} := by
    ext r
    rw [mem_filter, mem_Icc, mem_singleton]
    have hq : forced.qgpv 1 r 2 = forced.qref 4 2 ↔ r = 4 := by
      show (r : ℝ) = ((4 : ℤ) : ℝ) ↔ _
      exact Int.cast_inj
    rw [hq]
    have e1 : forced.nd = 3 := rfl
    have e2 : forced.nlat = 5 := rfl
    have e3 : forced.outRow 4 = 4 := by decide
    rw [e1, e2, e3]
    omega
  rw [hs, sum_singleton] at h2
  have hl : forced.lat 4 = π / 4 := by
    unfold lat dphi
    rw [show forced.nlat = 5 from rfl, show forced.nd = 3 from rfl]
    norm_num
  have hc : 0 < cos (π / 4) := cos_pos_of_mem_Ioo ⟨by linarith [pi_pos], by linarith [pi_pos]⟩
  have hd : 0 < forced.dphi := forced_valid.north.dp_pos
  rw [hl] at h2
  have : 0 < forced.ncforce 1 4 2 * (forced.a * cos (π / 4) * forced.dphi) := by
    show 0 < (1 : ℝ) * (1 * cos (π / 4) * forced.dphi)
    positivity
  linarith

/-! ### C87: the barotropic zonal wind -/

/-- C87: `u_baro` is the column average of the zonal wind of the same row, on every row of the result. -/
theorem C87_u_baro (hv : S.Valid) (i g : ℤ) (h1 : 1 ≤ g) :
    S.uBaro i g = S.verticalAverage (fun k => S.u i (S.outRow g) k) := by
  have hodd := hv.odd
  have := hv.jb0
  have := hv.jbnd
  unfold uBaro store outRow
  have hr := hv.rows_cases
  split_ifs with c1 c2
  · have e : S.rows = S.nlat := by unfold rows; rw [c1.1]; simp
    beta_reduce
    rw [show S.nlat + 1 - (S.nlat - S.nd + (S.nd + 1 - g)) = S.nlat - S.rows + g by rw [e]; ring]
  · beta_reduce
    rw [show S.nlat - S.nd + (g - (S.rows - S.nd)) = S.nlat - S.rows + g by ring]
  · exfalso
    by_cases hm : S.nhOnly = true
    · have e : S.rows = S.nd := by unfold rows; rw [hm]; simp
      omega
    · have hm' : S.nhOnly = false := by simpa using hm
      have e : S.rows = S.nlat := by unfold rows; rw [hm']; simp
      have : ¬ g ≤ S.nd := fun h => c1 ⟨hm', h⟩
      omega

example : sample.Valid ∧ (1 : ℤ) ≤ 2 := ⟨sample_valid, by decide⟩

end QGAnalysis

end Falwa
