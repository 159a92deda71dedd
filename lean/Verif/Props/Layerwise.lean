import Verif.Model.Layerwise
import Verif.Props.FluxFormulas
import Verif.Lemmas.Telescope

/-!
# Layerwise terms against the barotropic ones (C88 – C90)
-/

set_option linter.unusedSectionVars false

noncomputable section

namespace Falwa

open Real Finset Spec

namespace QGAnalysis

variable {S : QGAnalysis}

/-! ### C88: column averages of the layerwise terms -/

theorem average_store (n s : ℤ → ℤ → ℝ) (g : ℤ) :
    S.verticalAverage (fun k => S.store (fun j => n j k) (fun j => s j k) g) =
      S.store (fun j => S.verticalAverage (n j)) (fun j => S.verticalAverage (s j)) g := by
  unfold store
  split_ifs
  · rfl
  · rfl
  · unfold verticalAverage
    simp

/-- C88: the column averages of the layerwise terms are the barotropic results, on every row. -/
theorem C88_averages (S : QGAnalysis) (i g : ℤ) :
    S.verticalAverage (fun k => S.layer FluxOut.ua1 i g k) = S.advFluxF1 i g ∧
    S.verticalAverage (fun k => S.layer FluxOut.ua2 i g k) = S.advFluxF2 i g ∧
    S.verticalAverage (fun k => S.layer FluxOut.ep1 i g k) = S.advFluxF3 i g ∧
    S.verticalAverage (fun k => S.layerLwa i g k) = S.lwaBaro i g ∧
    S.verticalAverage (fun k => S.layerNcforce i g k) = S.ncforceBaro i g ∧
    S.verticalAverage (fun k => S.layerEp2 i g k - S.layerEp3 i g k) / (2 * S.a * S.dphi * cos (S.lat (S.outRow g))) =
      S.divEddyMomentumFlux i g := by
  have hx : ∀ x : FluxOut → ℤ → ℤ → ℤ → ℝ, S.verticalAverage (fun k => S.layer x i g k) = S.baro x i g := fun x =>
    average_store (fun j k => x S.northIn.fluxDirinv i j k) (fun j k => x S.southIn.fluxDirinv i j k) g
  refine ⟨hx _, hx _, hx _, ?_, ?_, ?_⟩
  · show S.verticalAverage (fun k => S.layer FluxOut.astar1 i g k + S.layer FluxOut.astar2 i g k) = _
    have := (C41_linear_monotone S (fun k => S.layer FluxOut.astar1 i g k) (fun k => S.layer FluxOut.astar2 i g k) 1 1).1
    simp only [one_mul] at this
    rw [this, hx, hx]
    rfl
  · show S.verticalAverage (fun k => S.store (fun j => S.northIn.fluxDirinv.ncforce3d i j k)
      (fun j => -S.southIn.fluxDirinv.ncforce3d i j k) g) = _
    rw [average_store (fun j k => S.northIn.fluxDirinv.ncforce3d i j k) (fun j k => -S.southIn.fluxDirinv.ncforce3d i j k)]
    unfold ncforceBaro
    simp only [verticalAverage_neg]
  · unfold divEddyMomentumFlux
    congr 1
    rw [← verticalAverage_sub]
    congr 1
    · show S.verticalAverage (fun k => S.store (fun j => S.northIn.fluxDirinv.ep2 i j k)
        (fun j => -S.southIn.fluxDirinv.ep3 i j k) g) = _
      rw [average_store (fun j k => S.northIn.fluxDirinv.ep2 i j k) (fun j k => -S.southIn.fluxDirinv.ep3 i j k)]
      unfold ep2baro
      simp only [verticalAverage_neg]
    · show S.verticalAverage (fun k => S.store (fun j => S.northIn.fluxDirinv.ep3 i j k)
        (fun j => -S.southIn.fluxDirinv.ep2 i j k) g) = _
      rw [average_store (fun j k => S.northIn.fluxDirinv.ep3 i j k) (fun j k => -S.southIn.fluxDirinv.ep2 i j k)]
      unfold ep3baro
      simp only [verticalAverage_neg]

/-- C88: the wave activity of the layerwise computation is that of the barotropic one, which takes the absolute value. -/
theorem C88_lwa (hv : S.Valid) (i g k : ℤ) : S.layerLwa i g k = S.lwa i g k := by
  have hn := fun j => C42_nonneg hv i j k
  unfold layerLwa layer lwa store
  split_ifs <;> beta_reduce
  · rw [abs_of_nonneg (add_nonneg (hn _).2.2.1 (hn _).2.2.2.1)]
  · rw [abs_of_nonneg (add_nonneg (hn _).1 (hn _).2.1)]
  · ring

example : sample.Valid ∧ sample.lwa 1 4 2 ≠ 0 := by
  refine ⟨sample_valid, ?_⟩
  rw [C42_north sample_valid 1 4 2 ⟨by decide, by decide⟩ ⟨by decide, by decide⟩ ⟨by decide, by decide⟩ (Or.inr (by decide))]
  unfold waveActivityNorth
  have hd : 0 < sample.dphi := sample_valid.north.dp_pos
  have hl : sample.lat 3 = 0 := by unfold lat; rw [show sample.nd = 3 from rfl]; simp
  have h3 : DisplacedNorth (fun r => sample.qgpv 1 r 2) (sample.qref 4 2) 4 3 := Or.inr ⟨by decide, by norm_num [sample]⟩
  refine (lt_of_lt_of_le ?_ (single_le_sum (f := fun r => |sample.qgpv 1 r 2 - sample.qref 4 2| *
    (sample.a * cos (sample.lat r) * sample.dphi)) (fun r hr => ?_) (mem_filter.2 ⟨show (3 : ℤ) ∈ _ by decide, h3⟩))).ne'
  · show 0 < |sample.qgpv 1 3 2 - sample.qref 4 2| * (sample.a * cos (sample.lat 3) * sample.dphi)
    rw [hl, cos_zero]
    have : |sample.qgpv 1 3 2 - sample.qref 4 2| = 1 := by norm_num [sample]
    rw [this]
    have ha : sample.a = 1 := rfl
    rw [ha]
    linarith
  · have hr' : sample.nd ≤ r ∧ r ≤ sample.nlat := mem_Icc.1 (mem_filter.1 hr).1
    have e1 : sample.nd = 3 := rfl
    have e2 : sample.nlat = 5 := rfl
    have := sample_valid.north.cos_nonneg (j := r - sample.nd + 1) (by omega) (show _ ≤ sample.nd by omega)
    rw [lat_cos_north, show r - sample.nd + 1 + sample.nd - 1 = r by ring] at this
    exact mul_nonneg (abs_nonneg _) (mul_nonneg (mul_nonneg sample_valid.a0 this) hd.le)

/-! ### C89: the column average of the stretching term -/

/-- Static stability of row `g`: southern, northern, or the mean of both at the equator. -/
def rowStability (S : QGAnalysis) (statN statS : ℤ → ℝ) (g k : ℤ) : ℝ :=
  if S.outRow g < S.nd then statS k else if S.outRow g = S.nd then (statS k + statN k) / 2 else statN k

/-- `exp(-z/H) v (θ - θref) cos φ / (dθ₀/dz)` on level `k`, with the height of the level as the object stores it. -/
def heatTransport (S : QGAnalysis) (statN statS : ℤ → ℝ) (i g k : ℤ) : ℝ :=
  exp (-S.height k / S.h) * (S.v i (S.outRow g) k * (S.theta i (S.outRow g) k - S.ptref g k) * |cos (S.lat (S.outRow g))|) /
    S.rowStability statN statS g k

/-- C89, as documented: the vertical average of the stretching term is the low-level meridional heat flux. `stat` is the derivative
of the mean potential temperature. -/
def C89_Statement : Prop :=
  ∀ (S : QGAnalysis) (statN statS : ℤ → ℝ), S.Valid → S.StandardHeights → 4 ≤ S.kmax → 0 < S.dz →
    (∀ k, statN k ≠ 0 ∧ statS k ≠ 0) →
    (statN 1 = (S.tn0 2 - S.tn0 1) / S.dz ∧ ∀ k, 2 ≤ k → k ≤ S.kmax - 1 → statN k = (S.tn0 (k + 1) - S.tn0 (k - 1)) / (2 * S.dz)) →
    (statS 1 = (S.ts0 2 - S.ts0 1) / S.dz ∧ ∀ k, 2 ≤ k → k ≤ S.kmax - 1 → statS k = (S.ts0 (k + 1) - S.ts0 (k - 1)) / (2 * S.dz)) →
    ∀ i g, 1 ≤ i ∧ i ≤ S.nlon → S.NorthRow g ∨ S.SouthRow g → S.outRow g ≠ S.nd →
      S.verticalAverage (fun k => S.stretchTerm statN statS i g k) = S.heatFlux i g

/-- What `z_derivative_of_prod` differentiates is the heat transport of the row. -/
theorem toBeDiff_eq (hv : S.Valid) (statN statS : ℤ → ℝ) {g : ℤ} (i : ℤ) (hi : 1 ≤ i) (h1 : 1 ≤ g) (h2 : g ≤ S.rows) (K : ℕ) :
    toBeDiff S.nlat.toNat S.nd.toNat (fun k => statN ((k : ℤ) + 1)) (fun k => statS ((k : ℤ) + 1))
      (fun k => exp (-S.height ((k : ℤ) + 1) / S.h)) S.vThetaClat K (S.outRow g - 1).toNat (i - 1).toNat =
      S.heatTransport statN statS i g ((K : ℤ) + 1) := by
  have hodd := hv.odd
  have := hv.jb0
  have := hv.jbnd
  obtain ⟨hr1, hr2, -⟩ := hv.rows_cases
  have hr : 1 ≤ S.outRow g := by unfold outRow; omega
  have ho : S.outRow g = S.nlat - S.rows + g := rfl
  unfold toBeDiff bcast
  have hw : statTableWidth S.nd.toNat ≠ 1 := by unfold statTableWidth; omega
  rw [if_neg (by omega), if_neg hw]
  have ej : (((S.outRow g - 1).toNat : ℕ) : ℤ) + 1 = S.outRow g := by omega
  have ei : (((i - 1).toNat : ℕ) : ℤ) + 1 = i := by omega
  unfold vThetaClat heatTransport ptrefFull
  rw [ej, ei, if_pos (by omega), show S.outRow g - (S.nlat - S.rows) = g by omega]
  congr 1
  unfold statTable rowStability
  by_cases c1 : S.outRow g < S.nd
  · rw [if_pos c1, if_pos (by omega)]
  · rw [if_neg c1, if_neg (by omega)]
    by_cases c2 : S.outRow g = S.nd
    · rw [if_pos c2, if_pos (by omega)]; ring
    · rw [if_neg c2, if_neg (by omega)]

/-- C89, what holds for every field and every stability: besides the low levels the upper boundary contributes. -/
theorem C89_average_partial (hv : S.Valid) (hk : 3 ≤ S.kmax) (hdz : 0 < S.dz) (statN statS : ℤ → ℝ) (i g : ℤ)
    (hi : 1 ≤ i) (h1 : 1 ≤ g) (h2 : g ≤ S.rows) :
    S.verticalAverage (fun k => S.stretchTerm statN statS i g k) =
      2 * S.om * sin (S.lat (S.outRow g)) / S.prefactor *
        ((S.heatTransport statN statS i g 1 + S.heatTransport statN statS i g 2) / 2 -
          (3 * S.heatTransport statN statS i g S.kmax - S.heatTransport statN statS i g (S.kmax - 1)) / 2) := by
  have hodd := hv.odd
  have := hv.jb0
  have := hv.jbnd
  obtain ⟨hr1, hr2, -⟩ := hv.rows_cases
  have hr : 1 ≤ S.outRow g := by unfold outRow; omega
  have hp := prefactor_pos hdz hk
  have ej : (((S.outRow g - 1).toNat : ℕ) : ℤ) + 1 = S.outRow g := by omega
  have hb : bcast S.nlat.toNat (S.outRow g - 1).toNat = (S.outRow g - 1).toNat := by
    unfold bcast; rw [if_neg (by omega)]
  have hT := toBeDiff_eq hv statN statS i hi h1 h2
  have hin : ∀ k, 2 ≤ k → k ≤ S.kmax - 1 →
      S.stretchTerm statN statS i g k * exp (-S.height k / S.h) * (S.dz / S.prefactor) =
        2 * S.om * sin (S.lat (S.outRow g)) / S.prefactor / 2 *
          (S.heatTransport statN statS i g (k - 1) - S.heatTransport statN statS i g (k + 1)) := by
    intro k k1 k2
    have ek : (((k - 1).toNat : ℕ) : ℤ) + 1 = k := by omega
    unfold stretchTerm zDer
    simp only [hb, hT]
    rw [if_neg (by omega), if_neg (by omega), ej, ek]
    rw [show (((k - 1).toNat + 1 : ℕ) : ℤ) + 1 = k + 1 by push_cast; omega,
      show (((k - 1).toNat - 1 : ℕ) : ℤ) + 1 = k - 1 by omega]
    have he : exp (S.height k / S.h) * exp (-S.height k / S.h) = 1 := by
      rw [← exp_add, show S.height k / S.h + -S.height k / S.h = 0 by ring, exp_zero]
    generalize S.heatTransport statN statS i g (k + 1) = x
    generalize S.heatTransport statN statS i g (k - 1) = y
    generalize 2 * S.om * sin (S.lat (S.outRow g)) = f
    have : -((x - y) / (2 * S.dz) * (f * exp (S.height k / S.h))) * exp (-S.height k / S.h) * (S.dz / S.prefactor) =
        -((x - y) / (2 * S.dz) * f) * (S.dz / S.prefactor) * (exp (S.height k / S.h) * exp (-S.height k / S.h)) := by ring
    rw [this, he]
    field_simp
    ring
  have htop : S.stretchTerm statN statS i g S.kmax * exp (-S.height S.kmax / S.h) * (S.dz / S.prefactor) =
      2 * S.om * sin (S.lat (S.outRow g)) / S.prefactor *
        (S.heatTransport statN statS i g (S.kmax - 1) - S.heatTransport statN statS i g S.kmax) := by
    have ek : ((S.kmax.toNat - 1 : ℕ) : ℤ) + 1 = S.kmax := by omega
    unfold stretchTerm zDer
    simp only [hb, hT]
    rw [if_pos (by omega), ej, ek]
    rw [show ((S.kmax.toNat - 2 : ℕ) : ℤ) + 1 = S.kmax - 1 by omega]
    have he : exp (S.height S.kmax / S.h) * exp (-S.height S.kmax / S.h) = 1 := by
      rw [← exp_add, show S.height S.kmax / S.h + -S.height S.kmax / S.h = 0 by ring, exp_zero]
    generalize S.heatTransport statN statS i g S.kmax = x
    generalize S.heatTransport statN statS i g (S.kmax - 1) = y
    generalize 2 * S.om * sin (S.lat (S.outRow g)) = f
    have : -(f * exp (S.height S.kmax / S.h) * (x - y) / S.dz) * exp (-S.height S.kmax / S.h) * (S.dz / S.prefactor) =
        -(f * (x - y) / S.dz) * (S.dz / S.prefactor) * (exp (S.height S.kmax / S.h) * exp (-S.height S.kmax / S.h)) := by ring
    rw [this, he]
    field_simp
    ring
  unfold verticalAverage
  rw [show Icc 2 S.kmax = insert S.kmax (Icc 2 (S.kmax - 1)) by ext x; simp only [mem_Icc, mem_insert]; omega,
    sum_insert (by simp), htop, sum_congr rfl fun k hk => hin k (mem_Icc.1 hk).1 (mem_Icc.1 hk).2, ← mul_sum,
    sum_centred_diff _ (by omega)]
  rw [show (2 : ℤ) - 1 = 1 by decide, show S.kmax - 1 + 1 = S.kmax by ring]
  ring

/-- C89 as documented, if there is no heat transport on the two highest levels and the stability of the row is the difference
quotient of the mean potential temperature on the two lowest levels. -/
theorem C89_documented_partial (hv : S.Valid) (hs : S.StandardHeights) (hk : 3 ≤ S.kmax) (hdz : 0 < S.dz)
    (statN statS : ℤ → ℝ) (i g : ℤ) (hi : 1 ≤ i ∧ i ≤ S.nlon) (hg : S.NorthRow g ∨ S.SouthRow g)
    (hs1 : S.rowStability statN statS g 1 = (S.theta0 g 2 - S.theta0 g 1) / S.dz)
    (hs2 : S.rowStability statN statS g 2 = (S.theta0 g 3 - S.theta0 g 1) / (2 * S.dz))
    (ht1 : S.heatTransport statN statS i g S.kmax = 0) (ht2 : S.heatTransport statN statS i g (S.kmax - 1) = 0) :
    S.verticalAverage (fun k => S.stretchTerm statN statS i g k) = S.heatFlux i g := by
  have hodd := hv.odd
  have := hv.jb0
  have := hv.jbnd
  have hb : 1 ≤ g ∧ g ≤ S.rows := by
    obtain ⟨hr1, hr2, hr3⟩ := hv.rows_cases
    rcases hg with h | h
    · have a := h.1
      have b := h.2.1
      unfold outRow at a b
      omega
    · have a := h.2.1
      have b := h.2.2
      have := hr3 h.1
      omega
  rw [C89_average_partial hv hk hdz statN statS i g hi.1 hb.1 hb.2, C85_heat_flux hv hk i g hi hg, ht1, ht2]
  unfold heatTransport eddyHeatFlux
  rw [hs1, hs2, hs 1, hs 2, abs_of_nonneg (cos_row_nonneg hv hg)]
  ring

/-- Four levels; only the highest level is warmer than the reference. -/
def warmTop : QGAnalysis where
  nlon := 2
  nlat := 5
  kmax := 4
  nd := 3
  jb := 0
  jd := 3
  nhOnly := false
  qgpv := fun _ _ _ => 0
  u := fun _ _ _ => 0
  v := fun _ _ _ => 1
  theta := fun _ _ k => if k = 4 then 1 else 0
  ncforce := fun _ _ _ => 0
  tn0 := fun k => k
  ts0 := fun k => k
  qref := fun _ _ => 0
  uref := fun _ _ => 0
  ptref := fun _ _ => 0
  height := fun k => ((k - 1 : ℤ) : ℝ)
  a := 1
  om := 1
  dz := 1
  h := 1
  rr := 1
  cp := 1

theorem warmTop_valid : warmTop.Valid := ⟨by rfl, by decide, by decide, by rfl, by norm_num [warmTop]⟩

theorem warmTop_heights : warmTop.StandardHeights := fun k => by
  show ((k - 1 : ℤ) : ℝ) = 1 * ((k - 1 : ℤ) : ℝ)
  ring

theorem warmTop_lat : warmTop.lat 4 = π / 4 := by
  unfold lat dphi
  rw [show warmTop.nlat = 5 from rfl, show warmTop.nd = 3 from rfl]
  norm_num

/-- C89 fails: a heat transport on the highest level alone changes the average of the stretching term. -/
theorem C89_refuted : ¬ C89_Statement := by
  intro h
  have hg : warmTop.NorthRow 4 := ⟨by decide, by decide, Or.inr (by decide)⟩
  have hst : ∀ k : ℤ, (((k + 1 : ℤ) : ℝ) - ((k - 1 : ℤ) : ℝ)) / (2 * 1) = 1 := fun k => by push_cast; ring
  have h0 := h warmTop (fun _ => 1) (fun _ => 1) warmTop_valid warmTop_heights (by decide) (by norm_num [warmTop])
    (fun k => ⟨one_ne_zero, one_ne_zero⟩)
    ⟨by show (1 : ℝ) = (((2 : ℤ) : ℝ) - ((1 : ℤ) : ℝ)) / 1; norm_num, fun k _ _ => (hst k).symm⟩
    ⟨by show (1 : ℝ) = (((2 : ℤ) : ℝ) - ((1 : ℤ) : ℝ)) / 1; norm_num, fun k _ _ => (hst k).symm⟩
    1 4 ⟨by decide, by decide⟩ (Or.inl hg) (by decide)
  have hp : 0 < warmTop.prefactor := prefactor_pos (by norm_num [warmTop]) (by decide)
  rw [C89_average_partial warmTop_valid (by decide) (by norm_num [warmTop]) _ _ 1 4 (by decide) (by decide) (by decide),
    C85_heat_flux warmTop_valid (by decide) 1 4 ⟨by decide, by decide⟩ (Or.inl hg)] at h0
  have ho : warmTop.outRow 4 = 4 := by decide
  have hz : ∀ k, k ≠ 4 → warmTop.theta 1 4 k - warmTop.ptref 4 k = 0 := fun k hk => by
    show (if k = 4 then (1 : ℝ) else 0) - 0 = 0
    rw [if_neg hk]; ring
  have h4 : warmTop.theta 1 4 4 - warmTop.ptref 4 4 = 1 := by
    show (if (4 : ℤ) = 4 then (1 : ℝ) else 0) - 0 = 1
    norm_num
  have hv4 : warmTop.v 1 4 4 = 1 := rfl
  have hs4 : warmTop.rowStability (fun _ => 1) (fun _ => 1) 4 4 = 1 := by
    unfold rowStability; split_ifs <;> norm_num
  have hk4 : warmTop.kmax = 4 := rfl
  unfold heatTransport eddyHeatFlux at h0
  rw [hk4, ho, hz 1 (by decide), hz 2 (by decide), hz (4 - 1) (by decide), h4, hv4, hs4, warmTop_lat] at h0
  have hom : warmTop.om = 1 := rfl
  rw [hom] at h0
  simp [hp.ne', (exp_pos _).ne'] at h0

/-- The hypotheses of the documented form: a heat transport on the lowest level alone. -/
example : ∃ S : QGAnalysis, S.Valid ∧ S.StandardHeights ∧ 3 ≤ S.kmax ∧ 0 < S.dz ∧ S.NorthRow 4 ∧
    S.rowStability (fun _ => 1) (fun _ => 1) 4 1 = (S.theta0 4 2 - S.theta0 4 1) / S.dz ∧
    S.rowStability (fun _ => 1) (fun _ => 1) 4 2 = (S.theta0 4 3 - S.theta0 4 1) / (2 * S.dz) ∧
    S.heatTransport (fun _ => 1) (fun _ => 1) 1 4 S.kmax = 0 ∧ S.heatTransport (fun _ => 1) (fun _ => 1) 1 4 (S.kmax - 1) = 0 ∧
    S.v 1 4 1 * (S.theta 1 4 1 - S.ptref 4 1) ≠ 0 := by
  refine ⟨{ warmTop with theta := fun _ _ k => if k = 1 then 1 else 0 },
    ⟨by rfl, by decide, by decide, by rfl, by norm_num [warmTop]⟩, warmTop_heights, by decide, by norm_num [warmTop],
    ⟨by decide, by decide, Or.inr (by decide)⟩, ?_, ?_, ?_, ?_, ?_⟩
  · unfold rowStability theta0; norm_num [warmTop]
  · unfold rowStability theta0; norm_num [warmTop]
  · unfold heatTransport; norm_num [warmTop]
  · unfold heatTransport; norm_num [warmTop]
  · norm_num [warmTop]

/-! ### C90: momentum-flux divergence and the meridional flux vector -/

/-- Rows on which the divergence is a centred difference (see C75), with both neighbours in the result. -/
def InnerRow (S : QGAnalysis) (g : ℤ) : Prop :=
  (S.nd + S.jb < S.outRow g ∧ S.outRow g < S.nlat ∧ (S.nhOnly = true ∨ S.nd < g)) ∨
    (S.nhOnly = false ∧ 1 < g ∧ g < S.nd - S.jb)

/-- Minus the centred divergence of `flux_vector_phi_baro`, `-1 / (a cos φ) ∂(F cos φ)/∂φ`. -/
def fluxVectorConvergence (S : QGAnalysis) (i g : ℤ) : ℝ :=
  -((S.fluxVectorPhi i (g + 1) * cos (S.lat (S.outRow (g + 1))) - S.fluxVectorPhi i (g - 1) * cos (S.lat (S.outRow (g - 1)))) /
    (2 * S.a * S.dphi * cos (S.lat (S.outRow g))))

/-- C90: `divergence_eddy_momentum_flux` is minus the divergence of `flux_vector_phi_baro`. -/
def C90_Statement : Prop :=
  ∀ S : QGAnalysis, S.Valid → 3 ≤ S.kmax → ∀ i g, 1 ≤ i ∧ i ≤ S.nlon → S.InnerRow g →
    S.divEddyMomentumFlux i g = S.fluxVectorConvergence i g

theorem cos_outRow_nonneg (hv : S.Valid) {g : ℤ} (h1 : 1 ≤ S.outRow g) (h2 : S.outRow g ≤ S.nlat) :
    0 ≤ cos (S.lat (S.outRow g)) := by
  have hodd := hv.odd
  by_cases h : S.nd ≤ S.outRow g
  · have := hv.north.cos_nonneg (j := S.outRow g - S.nd + 1) (by omega) (show _ ≤ S.nd by omega)
    rw [lat_cos_north] at this
    rwa [show S.outRow g - S.nd + 1 + S.nd - 1 = S.outRow g by ring] at this
  · have := hv.south.cos_nonneg (j := S.nd + 1 - S.outRow g) (by omega) (show _ ≤ S.nd by omega)
    rw [lat_cos_south, cos_neg] at this
    rwa [show S.nd + 1 - (S.nd + 1 - S.outRow g) = S.outRow g by ring] at this

theorem fluxVector_cos (hv : S.Valid) (i : ℤ) {g : ℤ} (h1 : 1 ≤ S.outRow g) (h2 : S.outRow g ≤ S.nlat) :
    S.fluxVectorPhi i g * cos (S.lat (S.outRow g)) = -S.verticalAverage (fun k => S.eddyMomentumFlux i g k) := by
  unfold fluxVectorPhi
  rw [abs_of_nonneg (cos_outRow_nonneg hv h1 h2), ← verticalAverage_neg]
  unfold verticalAverage eddyMomentumFlux
  rw [sum_mul]
  refine sum_congr rfl fun k _ => ?_
  ring

/-- C90, what holds: the divergence leaves out the highest level, the flux vector includes it. -/
theorem C90_divergence_partial (hv : S.Valid) (hk : 3 ≤ S.kmax) (i g : ℤ) (hi : 1 ≤ i ∧ i ≤ S.nlon) (hg : S.InnerRow g) :
    S.divEddyMomentumFlux i g = S.fluxVectorConvergence i g -
      (S.eddyMomentumFlux i (g + 1) S.kmax - S.eddyMomentumFlux i (g - 1) S.kmax) *
        exp (-S.height S.kmax / S.h) * (S.dz / S.prefactor) / (2 * S.a * S.dphi * cos (S.lat (S.outRow g))) := by
  have hodd := hv.odd
  have := hv.jb0
  have := hv.jbnd
  obtain ⟨hr1, hr2, hr3⟩ := hv.rows_cases
  have hrow : 2 ≤ S.outRow g ∧ S.outRow g ≤ S.nlat - 1 := by
    rcases hg with h | h
    · omega
    · have := hr3 h.1
      unfold outRow
      omega
  have ep : S.outRow (g + 1) = S.outRow g + 1 := by unfold outRow; ring
  have em : S.outRow (g - 1) = S.outRow g - 1 := by unfold outRow; ring
  rw [C75_divergence_partial hv i g hi hg]
  unfold fluxVectorConvergence
  rw [fluxVector_cos hv i (by omega) (by omega), fluxVector_cos hv i (by omega) (by omega)]
  have hI : Icc 2 S.kmax = insert S.kmax (Icc 2 (S.kmax - 1)) := by ext x; simp only [mem_Icc, mem_insert]; omega
  have e : S.centredDifference (S.eddyMomentumFlux i) g =
      S.verticalAverage (fun k => S.eddyMomentumFlux i (g + 1) k) - S.verticalAverage (fun k => S.eddyMomentumFlux i (g - 1) k) -
        (S.eddyMomentumFlux i (g + 1) S.kmax - S.eddyMomentumFlux i (g - 1) S.kmax) *
          exp (-S.height S.kmax / S.h) * (S.dz / S.prefactor) := by
    rw [verticalAverage_sub]
    unfold centredDifference verticalAverage
    rw [hI, sum_insert (by simp), sum_insert (by simp)]
    beta_reduce
    rw [if_neg (lt_irrefl _)]
    rw [sum_congr rfl fun k hk => show (if k < S.kmax then S.eddyMomentumFlux i (g + 1) k - S.eddyMomentumFlux i (g - 1) k
        else 0) * exp (-S.height k / S.h) * (S.dz / S.prefactor) =
      (S.eddyMomentumFlux i (g + 1) k - S.eddyMomentumFlux i (g - 1) k) * exp (-S.height k / S.h) * (S.dz / S.prefactor) by
        rw [if_pos (by rw [mem_Icc] at hk; omega)]]
    ring
  rw [e]
  ring

/-- C90 as stated, if the air on the highest level does not move meridionally. -/
theorem C90_calm_top_partial (hv : S.Valid) (hk : 3 ≤ S.kmax) (i g : ℤ) (hi : 1 ≤ i ∧ i ≤ S.nlon) (hg : S.InnerRow g)
    (htop : ∀ r, S.v i r S.kmax = 0) : S.divEddyMomentumFlux i g = S.fluxVectorConvergence i g := by
  rw [C90_divergence_partial hv hk i g hi hg]
  unfold eddyMomentumFlux
  rw [htop, htop]
  ring

/-- Seven rows; a sheared zonal wind with a meridional wind on the highest level. -/
def windyTop : QGAnalysis :=
  { warmTop with nlat := 7, nd := 4, jd := 4, kmax := 3, u := fun _ r _ => if r = 5 then 1 else 0
                 v := fun _ _ k => if k = 3 then 1 else 0 }

theorem windyTop_valid : windyTop.Valid := ⟨by rfl, by decide, by decide, by rfl, by norm_num [windyTop, warmTop]⟩

example : ∃ S : QGAnalysis, S.Valid ∧ 3 ≤ S.kmax ∧ S.InnerRow 6 ∧ (∀ r, S.v 1 r S.kmax = 0) ∧ S.v 1 5 2 ≠ 0 :=
  ⟨{ windyTop with v := fun _ _ k => if k = 2 then 1 else 0 }, ⟨by rfl, by decide, by decide, by rfl, by norm_num [windyTop, warmTop]⟩,
    by decide, Or.inl ⟨by decide, by decide, Or.inr (by decide)⟩, fun r => by norm_num [windyTop, warmTop], by norm_num⟩

/-- C90 fails: the flux vector sees the highest level, the divergence does not. -/
theorem C90_refuted : ¬ C90_Statement := by
  intro h
  have hg : windyTop.InnerRow 6 := Or.inl ⟨by decide, by decide, Or.inr (by decide)⟩
  have h0 := h windyTop windyTop_valid (by decide) 1 6 ⟨by decide, by decide⟩ hg
  rw [C90_divergence_partial windyTop_valid (by decide) 1 6 ⟨by decide, by decide⟩ hg] at h0
  have hd : 0 < windyTop.dphi := windyTop_valid.north.dp_pos
  have hdv : windyTop.dphi = π / 6 := by unfold dphi; rw [show windyTop.nlat = 7 from rfl]; norm_num
  have hl6 : windyTop.lat (windyTop.outRow 6) = π / 3 := by
    rw [show windyTop.outRow 6 = 6 by decide]
    unfold lat; rw [hdv, show windyTop.nd = 4 from rfl]; push_cast; ring
  have hl5 : windyTop.lat 5 = π / 6 := by
    unfold lat; rw [hdv, show windyTop.nd = 4 from rfl]; push_cast; ring
  have hp : 0 < windyTop.prefactor := prefactor_pos (by norm_num [windyTop, warmTop]) (by decide)
  have c6 : cos (windyTop.lat (windyTop.outRow 6)) ≠ 0 := by
    rw [hl6]; exact (cos_pos_of_mem_Ioo ⟨by linarith [pi_pos], by linarith [pi_pos]⟩).ne'
  have c5 : cos (windyTop.lat 5) ≠ 0 := by
    rw [hl5]; exact (cos_pos_of_mem_Ioo ⟨by linarith [pi_pos], by linarith [pi_pos]⟩).ne'
  have e7 : windyTop.eddyMomentumFlux 1 (6 + 1) windyTop.kmax = 0 := by
    unfold eddyMomentumFlux
    have : windyTop.u 1 (windyTop.outRow (6 + 1)) windyTop.kmax - windyTop.uref (6 + 1) windyTop.kmax = 0 := by
      rw [show windyTop.outRow (6 + 1) = 7 by decide]
      show (if (7 : ℤ) = 5 then (1 : ℝ) else 0) - 0 = 0
      norm_num
    rw [this]; ring
  have e5 : windyTop.eddyMomentumFlux 1 (6 - 1) windyTop.kmax = cos (windyTop.lat 5) ^ 2 := by
    unfold eddyMomentumFlux
    rw [show windyTop.outRow (6 - 1) = 5 by decide]
    show ((if (5 : ℤ) = 5 then (1 : ℝ) else 0) - 0) * cos (windyTop.lat 5) ^ 2 * (if (3 : ℤ) = 3 then (1 : ℝ) else 0) = _
    norm_num
  have ha : windyTop.a = 1 := rfl
  have hz : windyTop.dz = 1 := rfl
  rw [e7, e5, ha, hz] at h0
  have h1 : (0 - cos (windyTop.lat 5) ^ 2) * exp (-windyTop.height windyTop.kmax / windyTop.h) * (1 / windyTop.prefactor) /
      (2 * 1 * windyTop.dphi * cos (windyTop.lat (windyTop.outRow 6))) = 0 := by linarith
  simp [c5, c6, hd.ne', hp.ne', (exp_pos _).ne'] at h1

end QGAnalysis

end Falwa
