import Verif.Props.SmoothLwa
import Verif.Props.FluxFormulas

/-!
# C172: column-averaged zonal wind and zonal advective flux for smooth winds and temperature
-/

noncomputable section

namespace Falwa

open Real Finset Spec MeasureTheory Filter

namespace Atmos

variable {F : Flow} {θ : ℝ → ℝ → ℝ → ℝ} {N S : Layers} {A : ℕ → Atmos} {ε : ℕ → ℝ} {a om H top : ℝ} {c : Scheme}
variable {φ l : ℝ} {v : ℝ → ℝ} {g x : ℕ → ℤ}

/-- The column average over the inner levels. -/
theorem mean_limit (hA : Refines a om H top A) (hlast : ∀ n, (A n).height (A n).kmax = top) {G : ℕ → ℤ → ℝ} {L : ℝ → ℝ}
    (hG : ∀ (f : ℕ → ℕ) (k : ℕ → ℤ) (z : ℝ), z ∈ Set.Icc 0 top → Tendsto f atTop atTop → (∀ n, 2 ≤ k n ∧ k n ≤ (A (f n)).kmax - 1) →
      Tendsto (fun n => (A (f n)).height (k n)) atTop (nhds z) → Tendsto (fun n => G (f n) (k n)) atTop (nhds (L z))) :
    Tendsto (fun n => ((A n).analysis c).columnMean (G n)) atTop (nhds (columnMean H top L)) := by
  classical
  refine (average_limit (c := c) hA hlast (G := fun n k => if k = (A n).kmax then 0 else G n k) (fun n => if_pos rfl)
    fun f k z hz hf hk ht => (hG f k z hz hf hk ht).congr fun n => ?_).congr fun n => ?_
  · rw [if_neg (by have := hk n; omega)]
  · refine QGAnalysis.average_eq (hA.regular n).kmax3 (if_pos rfl) fun k hk => if_neg ?_
    have h1 : k ≤ (A n).kmax - 1 := hk.2
    omega

/-- A field `X` that is sampled from a continuous one, on the rows of a hemisphere. -/
theorem field_rows (hA : Refines a om H top A) {G : ℝ → ℝ → ℝ → ℝ} (hG : Continuous fun p : ℝ × ℝ × ℝ => G p.1 p.2.1 p.2.2)
    {X : ℕ → ℤ → ℤ → ℤ → ℝ} {e : ℕ → ℝ} (he : Tendsto e atTop (nhds 0))
    (hX : ∀ n i j k, (A n).sphere.Mem i j → 2 ≤ k → k ≤ (A n).kmax - 1 →
      |X n i j k - G ((A n).sphere.latitude j) ((A n).sphere.longitude i) ((A n).height k)| ≤ e n)
    (hx : ∀ n, 1 ≤ x n ∧ x n ≤ (A n).nlon)
    (hcol : Tendsto (fun n => (A n).sphere.longitude (x n)) atTop (nhds l)) {f : ℕ → ℕ} (hf : Tendsto f atTop atTop) {k : ℕ → ℤ}
    (hk : ∀ n, 2 ≤ k n ∧ k n ≤ (A (f n)).kmax - 1) {z : ℝ} (hz : Tendsto (fun n => (A (f n)).height (k n)) atTop (nhds z))
    {s t : ℝ} {b : ℕ → ℤ} (hb : ∀ n, 1 ≤ b n ∧ b n + (A (f n)).cells ≤ (A (f n)).nlat)
    (hlat : ∀ n r, s + (r : ℕ) * ((t - s) / (A (f n)).cells) = (A (f n)).lat (b n + r)) :
    RowLimit s t (fun n => (A (f n)).cells) (fun n r => X (f n) (x (f n)) (b n + r) (k n)) fun y => G y l z := by
  have hsamp : ∀ n r, r ≤ (A (f n)).cells → |X (f n) (x (f n)) (b n + r) (k n) -
      G ((A (f n)).lat (b n + r)) ((A (f n)).sphere.longitude (x (f n))) ((A (f n)).height (k n))| ≤ e (f n) := fun n r hr => by
    have hm : (A (f n)).sphere.Mem (x (f n)) (b n + r) := ⟨hx (f n), by
      have := hb n
      constructor
      · omega
      · show b n + r ≤ (A (f n)).nlat
        omega⟩
    rw [← lat_sphere (hA.regular _)]
    exact hX (f n) _ _ _ hm (hk n).1 (hk n).2
  have hmem : ∀ n r, r ≤ (A (f n)).cells → (A (f n)).lat (b n + r) ∈ Set.Icc (-(π / 2)) (π / 2) := fun n r hr =>
    lat_mem (hA.regular _) (by have := hb n; omega) (by have := hb n; omega)
  have hlon : ∀ n, (A (f n)).sphere.longitude (x (f n)) ∈ Set.Icc 0 (2 * π) := fun n => by
    have hpi := pi_pos
    have hm' : (0 : ℝ) < (A (f n)).nlon := by exact_mod_cast (by have := (hA.regular (f n)).nlon1; omega : 0 < (A (f n)).nlon)
    have x1 : (1 : ℝ) ≤ x (f n) := by exact_mod_cast (hx (f n)).1
    have x2 : (x (f n) : ℝ) ≤ (A (f n)).nlon := by exact_mod_cast (hx (f n)).2
    show 0 ≤ 2 * π / ((A (f n)).nlon : ℝ) * ((x (f n) : ℝ) - 1) ∧ 2 * π / ((A (f n)).nlon : ℝ) * ((x (f n) : ℝ) - 1) ≤ 2 * π
    constructor
    · exact mul_nonneg (by positivity) (by linarith)
    · rw [div_mul_eq_mul_div, div_le_iff₀ hm']
      nlinarith
  have hh : ∀ n, (A (f n)).height (k n) ∈ Set.Icc 0 top := fun n =>
    hA.height_mem (f n) (by have := hk n; omega) (by have := hk n; omega)
  refine ⟨hG.comp (f := fun y : ℝ => (y, l, z)) (by fun_prop), ?_, fun y _ r hr hy => ?_⟩
  · have hK : IsCompact (Set.Icc (-(π / 2)) (π / 2) ×ˢ (Set.Icc (0 : ℝ) (2 * π) ×ˢ Set.Icc (0 : ℝ) top)) :=
      isCompact_Icc.prod (isCompact_Icc.prod isCompact_Icc)
    obtain ⟨M, hM⟩ := hK.exists_bound_of_continuousOn hG.continuousOn
    refine ⟨M + 1, ?_⟩
    filter_upwards [(he.comp hf).eventually (gt_mem_nhds one_pos)] with n hn r hr
    have h1 := hM ((A (f n)).lat (b n + r), (A (f n)).sphere.longitude (x (f n)), (A (f n)).height (k n)) ⟨hmem n r hr, hlon n, hh n⟩
    rw [Real.norm_eq_abs] at h1
    have h2 := hsamp n r hr
    have h3 : e (f n) < 1 := hn
    have h4 := abs_sub_abs_le_abs_sub (X (f n) (x (f n)) (b n + r) (k n))
      (G ((A (f n)).lat (b n + r)) ((A (f n)).sphere.longitude (x (f n))) ((A (f n)).height (k n)))
    linarith
  · have h1 : Tendsto (fun n => (A (f n)).lat (b n + r n)) atTop (nhds y) := hy.congr fun n => hlat n (r n)
    have h2 : Tendsto (fun n => G ((A (f n)).lat (b n + r n)) ((A (f n)).sphere.longitude (x (f n))) ((A (f n)).height (k n))) atTop
        (nhds (G y l z)) := (hG.tendsto (y, l, z)).comp (h1.prodMk_nhds ((hcol.comp hf).prodMk_nhds hz))
    have h3 : Tendsto (fun n => X (f n) (x (f n)) (b n + r n) (k n) -
        G ((A (f n)).lat (b n + r n)) ((A (f n)).sphere.longitude (x (f n))) ((A (f n)).height (k n))) atTop (nhds 0) := by
      refine squeeze_zero_norm' (hr.mono fun n hn => ?_) (he.comp hf)
      rw [Real.norm_eq_abs]
      exact hsamp n (r n) hn
    have := h3.add h2
    simpa using this

/-- The winds on the rows of a hemisphere. -/
theorem wind_rows (hA : Refines a om H top A) (hU : Continuous fun p : ℝ × ℝ × ℝ => F.U p.1 p.2.1 p.2.2)
    (hO : ∀ n, (A n).Observes F θ N S (ε n)) (hx : ∀ n, 1 ≤ x n ∧ x n ≤ (A n).nlon)
    (hcol : Tendsto (fun n => (A n).sphere.longitude (x n)) atTop (nhds l)) {f : ℕ → ℕ} (hf : Tendsto f atTop atTop) {k : ℕ → ℤ}
    (hk : ∀ n, 2 ≤ k n ∧ k n ≤ (A (f n)).kmax - 1) {z : ℝ} (hz : Tendsto (fun n => (A (f n)).height (k n)) atTop (nhds z))
    {s t : ℝ} {b : ℕ → ℤ} (hb : ∀ n, 1 ≤ b n ∧ b n + (A (f n)).cells ≤ (A (f n)).nlat)
    (hlat : ∀ n r, s + (r : ℕ) * ((t - s) / (A (f n)).cells) = (A (f n)).lat (b n + r)) :
    RowLimit s t (fun n => (A (f n)).cells) (fun n r => a * (A (f n)).u (x (f n)) (b n + r) (k n)) fun y => a * F.U y l z :=
  field_rows hA (G := fun y l z => a * F.U y l z) (hU.const_mul a) (X := fun n i j k => a * (A n).u i j k) (e := fun _ => 0)
    tendsto_const_nhds (fun n i j k hm k1 k2 => by rw [(hO n).u i j k hm (by omega) (by omega), sub_self, abs_zero]) hx hcol hf hk hz hb hlat

/-- Transport with the same weight on every row is a wave activity with the weighted wind. -/
theorem transport_north (R : Finset ℤ) (q u : ℤ → ℝ) (Q a d w : ℝ) (j : ℤ) :
    transportNorth R q Q u (a * d * w) j = w * waveActivityNorth R q Q (fun r => a * u r * d) j := by
  unfold transportNorth waveActivityNorth
  rw [mul_sum]
  exact sum_congr rfl fun r _ => by ring

theorem transport_south (R : Finset ℤ) (q u : ℤ → ℝ) (Q a d w : ℝ) (j : ℤ) :
    transportSouth R q Q u (a * d * w) j = w * waveActivitySouth R q Q (fun r => a * u r * d) j := by
  unfold transportSouth waveActivitySouth
  rw [mul_sum]
  exact sum_congr rfl fun r _ => by ring

/-- The total advective flux of both classes in the Northern Hemisphere, from the limit of the QGPV. -/
theorem flux_north {Q : ℝ → ℝ → ℝ → ℝ} (hT : QgpvTends c Q A) (hQ : Continuous fun p : ℝ × ℝ × ℝ => Q p.1 p.2.1 p.2.2)
    (hU : Continuous fun p : ℝ × ℝ × ℝ => F.U p.1 p.2.1 p.2.2) (hO : ∀ n, (A n).Observes F θ N S (ε n))
    (hA : Refines a om H top A) (hlast : ∀ n, (A n).height (A n).kmax = top) (hp : c = .nh18 → Tendsto (fun n => (A n).npart) atTop atTop)
    (hW : WaveNorth a top Q φ v) (hP : TowardNorth A x g l φ) :
    Tendsto (fun n => ((A n).analysis c).advFluxF1 (x n) (g n) + ((A n).analysis c).advFluxF2 (x n) (g n)) atTop
      (nhds (columnMean H top fun z => cos φ * meridionalTransport a (fun y => Q y l z) (fun y => F.U y l z) (v z) 0 (π / 2) φ)) := by
  have ha := hA.radius_pos
  refine (mean_limit (c := c) hA hlast (G := fun n k => cos ((A n).lat ((A n).outRow (g n))) *
    waveActivityNorth (Icc (A n).nd (A n).nlat) (fun r => (A n).qgpv c (x n) r k) ((A n).qref c (g n) k)
      (fun r => a * (A n).u (x n) r k * (A n).dphi) ((A n).outRow (g n))) fun f k z hz hf hk ht => ?_).congr fun n => ?_
  · obtain ⟨e, he⟩ := hT.approaches hQ hA hp hf hk ht
    have hqc : Continuous fun p : ℝ × ℝ => (fun x l => Q x l z) p.1 p.2 := hQ.comp (f := fun p : ℝ × ℝ => (p.1, p.2, z)) (by fun_prop)
    have hlat := (continuous_cos.tendsto φ).comp (hP.latitude.comp hf)
    refine hlat.mul (he.displaced_north ha hqc (hW.high z hz.1 hz.2) (g := fun n => g (f n)) (x := fun n => x (f n)) (fun n => hP.col (f n))
      (fun n => ⟨(hP.row (f n)).1, (hP.row (f n)).2.2.le⟩) (hP.latitude.comp hf) hW.north hW.pole (hP.longitude.comp hf)
      (hW.encloses z hz.1 hz.2) (W := fun n r => a * (A (f n)).u (x (f n)) r (k n))
      (wind_rows hA hU hO hP.col hP.longitude hf hk ht (fun n => ?_) fun n r => lat_north (hA.regular (f n)) r))
    have := (hA.regular (f n)).nd3
    have := (hA.regular (f n)).odd
    have := cells_eq (hA.regular (f n))
    omega
  · have e := QGAnalysis.C83_north ((hA.regular n).valid c) (hA.regular n).kmax3 (x n) (g n) (hP.col n)
      ⟨(hP.row n).2.1, (hP.row n).2.2, north_mode (hP.row n).1⟩
    rw [e]
    refine QGAnalysis.columnMean_congr fun k _ => ?_
    rw [transport_north, ← hA.radius n]
    rfl

/-- The same in the Southern Hemisphere. -/
theorem flux_south {Q : ℝ → ℝ → ℝ → ℝ} (hT : QgpvTends c Q A) (hQ : Continuous fun p : ℝ × ℝ × ℝ => Q p.1 p.2.1 p.2.2)
    (hU : Continuous fun p : ℝ × ℝ × ℝ => F.U p.1 p.2.1 p.2.2) (hO : ∀ n, (A n).Observes F θ N S (ε n))
    (hA : Refines a om H top A) (hlast : ∀ n, (A n).height (A n).kmax = top) (hp : c = .nh18 → Tendsto (fun n => (A n).npart) atTop atTop)
    (hW : WaveSouth a top Q φ v) (hP : TowardSouth A x g l φ) :
    Tendsto (fun n => ((A n).analysis c).advFluxF1 (x n) (g n) + ((A n).analysis c).advFluxF2 (x n) (g n)) atTop
      (nhds (columnMean H top fun z => cos φ * meridionalTransport a (fun y => Q y l z) (fun y => F.U y l z) (v z) (-(π / 2)) 0 φ)) := by
  have ha := hA.radius_pos
  refine (mean_limit (c := c) hA hlast (G := fun n k => cos ((A n).lat (g n)) *
    waveActivitySouth (Icc 1 (A n).nd) (fun r => (A n).qgpv c (x n) r k) ((A n).qref c (g n) k)
      (fun r => a * (A n).u (x n) r k * (A n).dphi) (g n)) fun f k z hz hf hk ht => ?_).congr fun n => ?_
  · obtain ⟨e, he⟩ := hT.approaches hQ hA hp hf hk ht
    have hqc : Continuous fun p : ℝ × ℝ => (fun x l => Q x l z) p.1 p.2 := hQ.comp (f := fun p : ℝ × ℝ => (p.1, p.2, z)) (by fun_prop)
    have hlat := (continuous_cos.tendsto φ).comp (hP.latitude.comp hf)
    refine hlat.mul (he.displaced_south ha hqc (hW.low z hz.1 hz.2) (fun n => hP.globe (f n)) (g := fun n => g (f n))
      (x := fun n => x (f n)) (fun n => hP.col (f n))
      (fun n => ⟨(hP.row (f n)).1.le, (hP.row (f n)).2.1⟩) (hP.latitude.comp hf) hW.south hW.pole (hP.longitude.comp hf)
      (hW.encloses z hz.1 hz.2) (W := fun n r => a * (A (f n)).u (x (f n)) r (k n))
      (wind_rows hA hU hO hP.col hP.longitude hf hk ht (b := fun _ => 1) (fun n => ?_) fun n r => lat_south (hA.regular (f n)) r))
    have := (hA.regular (f n)).nd3
    have := (hA.regular (f n)).odd
    have := cells_eq (hA.regular (f n))
    omega
  · have e := QGAnalysis.C83_south ((hA.regular n).valid c) (hA.regular n).kmax3 (x n) (g n) (hP.col n)
      ⟨hP.globe n, (hP.row n).1, (hP.row n).2.2⟩
    rw [e]
    refine QGAnalysis.columnMean_congr fun k _ => ?_
    rw [transport_south, ← hA.radius n]
    rfl

/-- The weight of the highest level in a column average vanishes. -/
theorem top_weight (hA : Refines a om H top A) (hlast : ∀ n, (A n).height (A n).kmax = top) :
    Tendsto (fun n => exp (-(A n).height (A n).kmax / (A n).h) * ((A n).dz / ((A n).analysis c).prefactor)) atTop (nhds 0) := by
  obtain ⟨h1, h2⟩ := prefactor_limit (c := c) hA hlast
  have h3 : Tendsto (fun n => (A n).dz) atTop (nhds 0) := hA.levels
  have h4 := (h3.div h1 h2.ne').const_mul (exp (-top / H))
  rw [zero_div, mul_zero] at h4
  refine h4.congr fun n => ?_
  rw [hlast n, hA.scale n, Pi.div_apply]

/-- **C172, barotropic wind, both classes.** On every row of the result, poles and equator included, `u_baro` at points that tend to
longitude `l` and latitude `φ` tends to the mean of the zonal wind over the column, although the code counts the highest level in the sum
but not in the weight it divides by. -/
theorem C172_wind (hU : Continuous fun p : ℝ × ℝ × ℝ => F.U p.1 p.2.1 p.2.2) (hO : ∀ n, (A n).Observes F θ N S (ε n))
    (hA : Refines a om H top A) (hlast : ∀ n, (A n).height (A n).kmax = top) (hx : ∀ n, 1 ≤ x n ∧ x n ≤ (A n).nlon)
    (hg : ∀ n, 1 ≤ g n ∧ (A n).outRow (g n) ≤ (A n).nlat) (hcol : Tendsto (fun n => (A n).sphere.longitude (x n)) atTop (nhds l))
    (hrow : Tendsto (fun n => (A n).lat ((A n).outRow (g n))) atTop (nhds φ)) :
    Tendsto (fun n => ((A n).analysis c).uBaro (x n) (g n)) atTop (nhds (columnMean H top fun z => F.U φ l z)) := by
  classical
  have hr1 : ∀ n, 1 ≤ (A n).outRow (g n) := fun n => by
    have h1 := (hg n).1
    have h2 : (A n).outRow (g n) = (A n).nlat - (A n).rows + g n := rfl
    have h3 : (A n).rows ≤ (A n).nlat := by
      unfold rows
      have := (hA.regular n).odd
      have := (hA.regular n).nd3
      split_ifs <;> omega
    omega
  have hs : ∀ n k, 1 ≤ k → k ≤ (A n).kmax → (A n).u (x n) ((A n).outRow (g n)) k =
      F.U ((A n).lat ((A n).outRow (g n))) ((A n).sphere.longitude (x n)) ((A n).height k) := fun n k k1 k2 => by
    rw [(hO n).u _ _ _ ⟨hx n, hr1 n, (hg n).2⟩ k1 k2, lat_sphere (hA.regular n)]
  have hsub : ∀ (f : ℕ → ℕ) (k : ℕ → ℤ) (z : ℝ), Tendsto f atTop atTop → (∀ n, 1 ≤ k n ∧ k n ≤ (A (f n)).kmax) →
      Tendsto (fun n => (A (f n)).height (k n)) atTop (nhds z) →
      Tendsto (fun n => (A (f n)).u (x (f n)) ((A (f n)).outRow (g (f n))) (k n)) atTop (nhds (F.U φ l z)) := fun f k z hf hk ht => by
    have h1 := (hU.tendsto (φ, l, z)).comp ((hrow.comp hf).prodMk_nhds ((hcol.comp hf).prodMk_nhds ht))
    exact h1.congr fun n => (hs (f n) (k n) (hk n).1 (hk n).2).symm
  have h1 := mean_limit (c := c) hA hlast (G := fun n k => (A n).u (x n) ((A n).outRow (g n)) k) (L := fun z => F.U φ l z)
    fun f k z _ hf hk ht => hsub f k z hf (fun n => by have := hk n; omega) ht
  have h2 : Tendsto (fun n => (A n).u (x n) ((A n).outRow (g n)) (A n).kmax) atTop (nhds (F.U φ l top)) :=
    hsub id (fun n => (A n).kmax) top tendsto_id (fun n => ⟨by have := (hA.regular n).kmax3; show 1 ≤ (A n).kmax; omega, le_rfl⟩)
      (tendsto_const_nhds.congr fun n => (hlast n).symm)
  have h3 := h1.add (h2.mul (top_weight (c := c) hA hlast))
  rw [mul_zero, add_zero] at h3
  refine h3.congr fun n => ?_
  rw [QGAnalysis.C87_u_baro ((hA.regular n).valid c) _ _ (hg n).1]
  have e0 : Icc 2 (A n).kmax = insert (A n).kmax (Icc 2 ((A n).kmax - 1)) := by
    ext i
    have := (hA.regular n).kmax3
    simp only [mem_insert, mem_Icc]
    omega
  show _ = ∑ k ∈ Icc 2 (A n).kmax, (A n).u (x n) ((A n).outRow (g n)) k * exp (-(A n).height k / (A n).h) *
    ((A n).dz / ((A n).analysis c).prefactor)
  rw [e0, sum_insert (by simp), add_comm]
  congr 1
  rw [mul_assoc]

/-- **C172, `QGFieldNHN22`.** Winds and temperature sampled from smooth fields on ever finer grids with equal spacings: the sum of
`adv_flux_f1` and `adv_flux_f2` tends to the column mean of the transport of the displaced QGPV of the flow by the zonal wind, in both
hemispheres, whatever the reference wind is. -/
theorem C172_nhn22 (hF : F.IsCurl a top) (hU : Continuous fun p : ℝ × ℝ × ℝ => F.U p.1 p.2.1 p.2.2) (hN : N.Of θ H top) (hS : S.Of θ H top)
    (hNg : Continuous fun p : ℝ × ℝ × ℝ => N.g p.1 p.2.1 p.2.2) (hSg : Continuous fun p : ℝ × ℝ × ℝ => S.g p.1 p.2.1 p.2.2)
    (hA : Refines a om H top A) (hlast : ∀ n, (A n).height (A n).kmax = top) (hO : ∀ n, (A n).Observes F θ N S (ε n))
    (hεN : ∀ n, 2 * ε n ≤ N.s) (hεS : ∀ n, 2 * ε n ≤ S.s) (hε : Tendsto (fun n => ε n / (A n).dz) atTop (nhds 0)) :
    (WaveNorth a top (F.qgpv om H N S) φ v → TowardNorth A x g l φ →
      Tendsto (fun n => ((A n).analysis .nhn22).advFluxF1 (x n) (g n) + ((A n).analysis .nhn22).advFluxF2 (x n) (g n)) atTop
        (nhds (columnMean H top fun z =>
          cos φ * meridionalTransport a (fun y => F.qgpv om H N S y l z) (fun y => F.U y l z) (v z) 0 (π / 2) φ))) ∧
    (WaveSouth a top (F.qgpv om H N S) φ v → TowardSouth A x g l φ →
      Tendsto (fun n => ((A n).analysis .nhn22).advFluxF1 (x n) (g n) + ((A n).analysis .nhn22).advFluxF2 (x n) (g n)) atTop
        (nhds (columnMean H top fun z =>
          cos φ * meridionalTransport a (fun y => F.qgpv om H N S y l z) (fun y => F.U y l z) (v z) (-(π / 2)) 0 φ))) := by
  have hT : QgpvTends .nhn22 (F.qgpv om H N S) A := C168_qgpv hF hN hS hA hO hεN hεS hε
  have hQ := qgpv_continuous (om := om) (H := H) hF.continuous hNg hSg
  exact ⟨flux_north hT hQ hU hO hA hlast (fun h => nomatch h), flux_south hT hQ hU hO hA hlast (fun h => nomatch h)⟩

/-- **C172, `QGFieldNH18`.** The same with more and more partitions, for the QGPV of C169. -/
theorem C172_nh18 {L : Layers} {G : ℝ} (hF : F.IsCurl a top) (hU : Continuous fun p : ℝ × ℝ × ℝ => F.U p.1 p.2.1 p.2.2)
    (hL : L.Of θ H top) (hLg : Continuous fun p : ℝ × ℝ × ℝ => L.g p.1 p.2.1 p.2.2)
    (hmean : ∀ z, L.mean z = (N.mean z + S.mean z) / 2) (hstat : ∀ z, L.stability z = (N.stability z + S.stability z) / 2)
    (hG : ∀ φ l z, 0 ≤ z → z ≤ top → |L.g φ l z| ≤ G)
    (hA : Refines a om H top A) (hlast : ∀ n, (A n).height (A n).kmax = top) (hO : ∀ n, (A n).Observes F θ N S (ε n))
    (hεL : ∀ n, 2 * ε n ≤ L.s) (hε : Tendsto (fun n => ε n / (A n).dz) atTop (nhds 0))
    (hp : Tendsto (fun n => (A n).npart) atTop atTop) :
    (WaveNorth a top (F.qgpvZonal om H L) φ v → TowardNorth A x g l φ →
      Tendsto (fun n => ((A n).analysis .nh18).advFluxF1 (x n) (g n) + ((A n).analysis .nh18).advFluxF2 (x n) (g n)) atTop
        (nhds (columnMean H top fun z =>
          cos φ * meridionalTransport a (fun y => F.qgpvZonal om H L y l z) (fun y => F.U y l z) (v z) 0 (π / 2) φ))) ∧
    (WaveSouth a top (F.qgpvZonal om H L) φ v → TowardSouth A x g l φ →
      Tendsto (fun n => ((A n).analysis .nh18).advFluxF1 (x n) (g n) + ((A n).analysis .nh18).advFluxF2 (x n) (g n)) atTop
        (nhds (columnMean H top fun z =>
          cos φ * meridionalTransport a (fun y => F.qgpvZonal om H L y l z) (fun y => F.U y l z) (v z) (-(π / 2)) 0 φ))) := by
  have hT : QgpvTends .nh18 (F.qgpvZonal om H L) A := C169_limit_partial hF hL hmean hstat hG hA hO hεL hε
  have hQ := qgpvZonal_continuous (om := om) (H := H) hF.continuous hLg
  exact ⟨flux_north hT hQ hU hO hA hlast (fun _ => hp), flux_south hT hQ hU hO hA hlast (fun _ => hp)⟩

theorem acrossPoles_wind : Continuous fun p : ℝ × ℝ × ℝ => acrossPoles.U p.1 p.2.1 p.2.2 := by
  show Continuous fun p : ℝ × ℝ × ℝ => -(sin p.1 * cos p.2.1)
  fun_prop

/-- Hypotheses of `C172_wind`: the flow across the poles at 45°N, both classes. The limit is not zero. -/
example (c : Scheme) : Tendsto (fun n => ((polarFine n).analysis c).uBaro 1 ((polarFine n).nd + (n + 1))) atTop (nhds (-sin (π / 4))) := by
  have h := C172_wind (c := c) (N := evenLayers) (S := evenLayers) (ε := fun _ => 0) (l := 0) (φ := π / 4) (x := fun _ => 1)
    (g := fun n => (polarFine n).nd + (n + 1)) acrossPoles_wind (fun n => polarWave_observes (2 * n)) polarFine_refines polarFine_last
    polarFine_north.col (fun n => ⟨by have := (polarFine_refines.regular n).nd3; omega, (polarFine_north.row n).2.2.le⟩)
    polarFine_north.longitude polarFine_north.latitude
  obtain ⟨-, h1⟩ := prefactor_limit (c := c) polarFine_refines polarFine_last
  have e : columnMean 1 1 (fun z => acrossPoles.U (π / 4) 0 z) = -sin (π / 4) := by
    unfold columnMean
    show (∫ z in (0 : ℝ)..1, -(sin (π / 4) * cos 0) * exp (-z / 1)) / (∫ z in (0 : ℝ)..1, exp (-z / 1)) = _
    rw [intervalIntegral.integral_const_mul, mul_div_assoc, div_self h1.ne', cos_zero]
    ring
  rwa [e] at h

/-- Hypotheses of `C172_nhn22` and `C172_nh18`: the flow across the poles with a temperature wave, at 45°N and 45°S. -/
example : ∃ v w : ℝ → ℝ, ∀ c : Scheme,
    Tendsto (fun n => ((polarFine n).analysis c).advFluxF1 1 ((polarFine n).nd + (n + 1)) +
        ((polarFine n).analysis c).advFluxF2 1 ((polarFine n).nd + (n + 1))) atTop (nhds (columnMean 1 1 fun z =>
      cos (π / 4) * meridionalTransport 1 (fun y => polarQ y 0 z) (fun y => acrossPoles.U y 0 z) (v z) 0 (π / 2) (π / 4))) ∧
    Tendsto (fun n => ((polarFine n).analysis c).advFluxF1 1 ((polarFine n).nd - (n + 1)) +
        ((polarFine n).analysis c).advFluxF2 1 ((polarFine n).nd - (n + 1))) atTop (nhds (columnMean 1 1 fun z =>
      cos (-(π / 4)) * meridionalTransport 1 (fun y => polarQ y 0 z) (fun y => acrossPoles.U y 0 z) (w z) (-(π / 2)) 0 (-(π / 4)))) := by
  have hpi := pi_pos
  obtain ⟨v, hv⟩ := polarQ_encloses (φ := π / 4) (by linarith) (by linarith)
  obtain ⟨w, hw⟩ := polarQ_encloses (φ := -(π / 4)) (by linarith) (by linarith)
  have hN : WaveNorth 1 1 polarQ (π / 4) v := ⟨by linarith, by linarith, fun z _ _ => polarQ_high z, fun z _ _ => hv z⟩
  have hS : WaveSouth 1 1 polarQ (-(π / 4)) w := ⟨by linarith, by linarith, fun z _ _ => polarQ_low z, fun z _ _ => hw z⟩
  have hg : Continuous fun p : ℝ × ℝ × ℝ => evenLayers.g p.1 p.2.1 p.2.2 := by
    show Continuous fun p : ℝ × ℝ × ℝ => cos p.1 * cos p.2.1
    fun_prop
  have h2 : ∀ _ : ℕ, 2 * (0 : ℝ) ≤ evenLayers.s := fun _ => by show 2 * (0 : ℝ) ≤ 1; norm_num
  refine ⟨v, w, fun c => ?_⟩
  cases c
  · have h := fun {φ v g} => C172_nh18 (N := evenLayers) (S := evenLayers) (L := evenLayers) (ε := fun _ => 0) (l := 0) (φ := φ) (v := v)
      (g := g) (x := fun _ => 1) acrossPoles_curl acrossPoles_wind evenLayers_of hg (fun z => (add_self_div_two z).symm)
      (fun z => (add_self_div_two (1 : ℝ)).symm) evenLayers_bound polarFine_refines polarFine_last (fun n => polarWave_observes (2 * n)) h2
      (by simp) polarFine_npart
    simp only [acrossPoles_qgpvZonal] at h
    exact ⟨h.1 hN polarFine_north, h.2 hS polarFine_south⟩
  · have h := fun {φ v g} => C172_nhn22 (N := evenLayers) (S := evenLayers) (ε := fun _ => 0) (l := 0) (φ := φ) (v := v)
      (g := g) (x := fun _ => 1) acrossPoles_curl acrossPoles_wind evenLayers_of evenLayers_of hg hg polarFine_refines
      polarFine_last (fun n => polarWave_observes (2 * n)) h2 h2 (by simp)
    simp only [acrossPoles_qgpv] at h
    exact ⟨h.1 hN polarFine_north, h.2 hS polarFine_south⟩

end Atmos

end Falwa
