import Verif.Lemmas.Columns
import Verif.Props.SmoothWind
import Verif.Spec.Waves

/-!
# C171: reference QGPV, local wave activity and its column average for smooth winds and temperature

Sampling, QGPV, area analysis, wave activity and vertical average together, for both classes and both hemispheres.
-/

noncomputable section

namespace Falwa

open Real Finset Spec MeasureTheory Filter

/-- The QGPV with the zonal mean of the vorticity is continuous. -/
theorem qgpvZonal_continuous {F : Flow} {L : Layers} {om H : ℝ} (hF : Continuous fun p : ℝ × ℝ × ℝ => F.vort p.1 p.2.1 p.2.2)
    (hL : Continuous fun p : ℝ × ℝ × ℝ => L.g p.1 p.2.1 p.2.2) : Continuous fun p : ℝ × ℝ × ℝ => F.qgpvZonal om H L p.1 p.2.1 p.2.2 := by
  have h1 : Continuous fun y : ℝ × ℝ => F.zonalVort y.1 y.2 := by
    unfold Flow.zonalVort
    refine Continuous.div_const (intervalIntegral.continuous_parametric_intervalIntegral_of_continuous'
      (f := fun (y : ℝ × ℝ) l => F.vort y.1 l y.2) ?_ 0 (2 * π)) _
    exact hF.comp (f := fun p : (ℝ × ℝ) × ℝ => (p.1.1, p.2, p.1.2)) (by fun_prop)
  have h2 : Continuous fun p : ℝ × ℝ × ℝ => F.zonalVort p.1 p.2.2 := h1.comp (f := fun p : ℝ × ℝ × ℝ => (p.1, p.2.2)) (by fun_prop)
  unfold Flow.qgpvZonal
  fun_prop

namespace Atmos

variable {F : Flow} {θ : ℝ → ℝ → ℝ → ℝ} {N S : Layers} {A : ℕ → Atmos} {ε : ℕ → ℝ} {a om H top : ℝ} {c : Scheme}

/-- The QGPV of class `c` tends to `Q`, uniformly. C168 and C169 are statements of this kind. -/
def QgpvTends (c : Scheme) (Q : ℝ → ℝ → ℝ → ℝ) (A : ℕ → Atmos) : Prop :=
  ∃ e : ℕ → ℝ, Tendsto e atTop (nhds 0) ∧ ∀ n k, 2 ≤ k → k ≤ (A n).kmax - 1 →
    (A n).sphere.Samples (fun x l => Q x l ((A n).height k)) (e n) fun i j => (A n).qgpv c i j k

/-- On levels that tend to a height the QGPV approaches the one at this height. -/
theorem QgpvTends.approaches {Q : ℝ → ℝ → ℝ → ℝ} (h : QgpvTends c Q A) (hQ : Continuous fun p : ℝ × ℝ × ℝ => Q p.1 p.2.1 p.2.2)
    (hA : Refines a om H top A) (hp : c = .nh18 → Tendsto (fun n => (A n).npart) atTop atTop) {f : ℕ → ℕ} (hf : Tendsto f atTop atTop)
    {k : ℕ → ℤ} (hk : ∀ n, 2 ≤ k n ∧ k n ≤ (A (f n)).kmax - 1) {z : ℝ} (hz : Tendsto (fun n => (A (f n)).height (k n)) atTop (nhds z)) :
    ∃ e, Approaches c a (fun x l => Q x l z) (fun n => A (f n)) k e := by
  obtain ⟨e, e0, he⟩ := h
  obtain ⟨d, d0, hd⟩ := level_error hQ hz
  have hcols : Tendsto (fun n => (A n).nlon) atTop atTop := by
    refine tendsto_atTop_mono (fun n => ?_) hA.rows
    have h1 := hA.square n
    have h2 := (hA.regular n).nd3
    have h3 := (hA.regular n).odd
    omega
  refine ⟨fun n => e (f n) + d n, ⟨fun n => hA.regular (f n), hk, fun n => hA.radius (f n), hA.rows.comp hf, hcols.comp hf,
    fun hc => (hp hc).comp hf, fun n x y hm => ?_, ?_⟩⟩
  · have h1 := he (f n) (k n) (hk n).1 (hk n).2 x y hm
    have hb : ((A (f n)).sphere.latitude y, (A (f n)).sphere.longitude x) ∈ band (-(π / 2)) (π / 2) :=
      grid_mem_band (by
        have h2 := (hA.regular (f n)).nd3
        have h3 := (hA.regular (f n)).odd
        show 2 ≤ (A (f n)).nlat
        omega) (hA.regular (f n)).nlon1 hm
    exact (abs_sub_le _ _ _).trans (add_le_add h1 (hd n _ hb))
  · have := (e0.comp hf).add d0
    simpa using this

theorem height_eq (A : Atmos) (k : ℤ) : A.height k = ((k : ℝ) - 1) * A.dz := by
  show ((k - 1 : ℤ) : ℝ) * A.dz = _
  push_cast
  rfl

theorem prefactor_eq (hA : Refines a om H top A) (n : ℕ) :
    ((A n).analysis c).prefactor = ∑ k ∈ Icc 2 ((A n).kmax - 1), exp (-(((k : ℝ) - 1) * (A n).dz) / H) * (A n).dz := by
  show ∑ k ∈ Icc 1 ((A n).kmax - 2), exp (-((k : ℤ) : ℝ) * (A n).dz / (A n).h) * (A n).dz = _
  rw [hA.scale n]
  refine sum_bij' (fun k _ => k + 1) (fun k _ => k - 1) ?_ ?_ ?_ ?_ ?_
  · intro k hk; rw [mem_Icc] at hk ⊢; omega
  · intro k hk; rw [mem_Icc] at hk ⊢; omega
  · intro k _; ring
  · intro k _; ring
  · intro k _
    push_cast
    rw [add_sub_cancel_right, neg_mul]

/-- `prefactor` tends to the mass of the column. -/
theorem prefactor_limit (hA : Refines a om H top A) (hlast : ∀ n, (A n).height (A n).kmax = top) :
    Tendsto (fun n => ((A n).analysis c).prefactor) atTop (nhds (∫ z in (0 : ℝ)..top, exp (-z / H))) ∧
      0 < ∫ z in (0 : ℝ)..top, exp (-z / H) := by
  have hK : ∀ n, 3 ≤ (A n).kmax := fun n => (hA.regular n).kmax3
  have htop : ∀ n, (((A n).kmax : ℝ) - 1) * (A n).dz = top := fun n => by rw [← hlast n, height_eq]
  have hw : Continuous fun z : ℝ => exp (-z / H) := by fun_prop
  have hK' : ∀ n, (0 : ℝ) < ((A n).kmax : ℝ) - 1 := fun n => by
    have : (3 : ℝ) ≤ (A n).kmax := by exact_mod_cast hK n
    linarith
  have ht0 : 0 < top := by rw [← htop 0]; exact mul_pos (hK' 0) (hA.dz0 0)
  exact ⟨(levels_sum hK hA.dz0 htop hA.levels hw).congr fun n => (prefactor_eq hA n).symm,
    intervalIntegral.intervalIntegral_pos_of_pos (hw.intervalIntegrable _ _) (fun z => exp_pos _) ht0⟩

/-- Column averages of quantities that have limits on the levels. -/
theorem average_limit (hA : Refines a om H top A) (hlast : ∀ n, (A n).height (A n).kmax = top) {G : ℕ → ℤ → ℝ} {L : ℝ → ℝ}
    (hG0 : ∀ n, G n (A n).kmax = 0)
    (hG : ∀ (f : ℕ → ℕ) (k : ℕ → ℤ) (z : ℝ), z ∈ Set.Icc 0 top → Tendsto f atTop atTop → (∀ n, 2 ≤ k n ∧ k n ≤ (A (f n)).kmax - 1) →
      Tendsto (fun n => (A (f n)).height (k n)) atTop (nhds z) → Tendsto (fun n => G (f n) (k n)) atTop (nhds (L z))) :
    Tendsto (fun n => ((A n).analysis c).verticalAverage (G n)) atTop (nhds (columnMean H top L)) := by
  have hK : ∀ n, 3 ≤ (A n).kmax := fun n => (hA.regular n).kmax3
  have htop : ∀ n, (((A n).kmax : ℝ) - 1) * (A n).dz = top := fun n => by rw [← hlast n, height_eq]
  have hw : Continuous fun z : ℝ => exp (-z / H) := by fun_prop
  have h1 := column_limit hK hA.dz0 htop hA.levels (F := G) (L := L) (fun f k z hz hf hk ht => hG f k z hz hf hk (by
    simp only [height_eq]
    exact ht)) hw
  obtain ⟨h2, hpos⟩ := prefactor_limit (c := c) hA hlast
  refine (h1.div h2 hpos.ne').congr fun n => ?_
  have e0 : Icc 2 (A n).kmax = insert (A n).kmax (Icc 2 ((A n).kmax - 1)) := by
    ext i
    have := hK n
    simp only [mem_insert, mem_Icc]
    omega
  show _ = ∑ k ∈ Icc 2 (A n).kmax, G n k * exp (-(A n).height k / (A n).h) * ((A n).dz / ((A n).analysis c).prefactor)
  rw [e0, sum_insert (by simp), hG0, zero_mul, zero_mul, zero_add, Pi.div_apply, sum_div, hA.scale n]
  refine sum_congr rfl fun k _ => ?_
  rw [height_eq]
  ring

variable {φ l : ℝ} {v : ℝ → ℝ} {g x : ℕ → ℤ}

/-- Points of the output in the Northern Hemisphere that tend to longitude `l` and latitude `φ`. -/
structure TowardNorth (A : ℕ → Atmos) (x g : ℕ → ℤ) (l φ : ℝ) : Prop where
  col : ∀ n, 1 ≤ x n ∧ x n ≤ (A n).nlon
  row : ∀ n, (A n).nd < (A n).outRow (g n) ∧ (A n).nd + (A n).jb ≤ (A n).outRow (g n) ∧ (A n).outRow (g n) < (A n).nlat
  longitude : Tendsto (fun n => (A n).sphere.longitude (x n)) atTop (nhds l)
  latitude : Tendsto (fun n => (A n).lat ((A n).outRow (g n))) atTop (nhds φ)

/-- The same in the Southern Hemisphere. -/
structure TowardSouth (A : ℕ → Atmos) (x g : ℕ → ℤ) (l φ : ℝ) : Prop where
  globe : ∀ n, (A n).nhOnly = false
  col : ∀ n, 1 ≤ x n ∧ x n ≤ (A n).nlon
  row : ∀ n, 1 < g n ∧ g n < (A n).nd ∧ g n ≤ (A n).nd - (A n).jb
  longitude : Tendsto (fun n => (A n).sphere.longitude (x n)) atTop (nhds l)
  latitude : Tendsto (fun n => (A n).lat (g n)) atTop (nhds φ)

/-- On levels that tend to a height `z`, the reference QGPV at the points tends to `v z` and the wave activity to `w z`; its column
average tends to the mean of `w` over the column. -/
structure WaveLimits (c : Scheme) (A : ℕ → Atmos) (x g : ℕ → ℤ) (H top : ℝ) (v w : ℝ → ℝ) : Prop where
  reference : ∀ (k : ℕ → ℤ) (z : ℝ), (∀ n, 2 ≤ k n ∧ k n ≤ (A n).kmax - 1) → Tendsto (fun n => (A n).height (k n)) atTop (nhds z) →
    Tendsto (fun n => (A n).qref c (g n) (k n)) atTop (nhds (v z))
  wave : ∀ (k : ℕ → ℤ) (z : ℝ), (∀ n, 2 ≤ k n ∧ k n ≤ (A n).kmax - 1) → Tendsto (fun n => (A n).height (k n)) atTop (nhds z) →
    Tendsto (fun n => ((A n).analysis c).lwa (x n) (g n) (k n)) atTop (nhds (w z))
  column : Tendsto (fun n => ((A n).analysis c).lwaBaro (x n) (g n)) atTop (nhds (columnMean H top w))

theorem lwaBaro_average (A : Atmos) (h : A.Regular) (c : Scheme) (i g : ℤ) :
    (A.analysis c).lwaBaro i g = (A.analysis c).verticalAverage fun k => (A.analysis c).lwa i g k := by
  rw [← ((A.analysis c).C88_averages i g).2.2.2.1]
  congr 1
  funext k
  exact QGAnalysis.C88_lwa (h.valid c) i g k

theorem lwa_top (A : Atmos) (h : A.Regular) (c : Scheme) (i g : ℤ) : (A.analysis c).lwa i g A.kmax = 0 := by
  refine QGAnalysis.C42_zero (h.valid c) i g A.kmax (Or.inl ?_)
  show ¬(2 ≤ A.kmax ∧ A.kmax ≤ A.kmax - 1)
  omega

/-- Limits along all sequences of levels of subsequences give the three limits. -/
theorem WaveLimits.of {w : ℝ → ℝ} (hA : Refines a om H top A) (hlast : ∀ n, (A n).height (A n).kmax = top)
    (h : ∀ (f : ℕ → ℕ) (k : ℕ → ℤ) (z : ℝ), z ∈ Set.Icc 0 top → Tendsto f atTop atTop → (∀ n, 2 ≤ k n ∧ k n ≤ (A (f n)).kmax - 1) →
      Tendsto (fun n => (A (f n)).height (k n)) atTop (nhds z) →
      Tendsto (fun n => (A (f n)).qref c (g (f n)) (k n)) atTop (nhds (v z)) ∧
        Tendsto (fun n => ((A (f n)).analysis c).lwa (x (f n)) (g (f n)) (k n)) atTop (nhds (w z))) : WaveLimits c A x g H top v w := by
  have hz : ∀ (k : ℕ → ℤ) (z : ℝ), (∀ n, 2 ≤ k n ∧ k n ≤ (A n).kmax - 1) → Tendsto (fun n => (A n).height (k n)) atTop (nhds z) →
      z ∈ Set.Icc 0 top := fun k z hk ht =>
    isClosed_Icc.mem_of_tendsto ht (Eventually.of_forall fun n => hA.height_mem n (by have := hk n; omega) (by have := hk n; omega))
  refine ⟨fun k z hk ht => (h id k z (hz k z hk ht) tendsto_id hk ht).1, fun k z hk ht => (h id k z (hz k z hk ht) tendsto_id hk ht).2, ?_⟩
  refine (average_limit (c := c) hA hlast (G := fun n k => ((A n).analysis c).lwa (x n) (g n) k)
    (fun n => lwa_top (A n) (hA.regular n) c _ _) fun f k z hz hf hk ht => (h f k z hz hf hk ht).2).congr fun n => ?_
  rw [lwaBaro_average _ (hA.regular n)]

/-- Reference QGPV and wave activity on levels that tend to a height. -/
theorem levels_north {Q : ℝ → ℝ → ℝ → ℝ} (hT : QgpvTends c Q A) (hQ : Continuous fun p : ℝ × ℝ × ℝ => Q p.1 p.2.1 p.2.2)
    (hA : Refines a om H top A) (hp : c = .nh18 → Tendsto (fun n => (A n).npart) atTop atTop)
    (hW : WaveNorth a top Q φ v) (hP : TowardNorth A x g l φ)
    (f : ℕ → ℕ) (k : ℕ → ℤ) (z : ℝ) (hz : z ∈ Set.Icc 0 top) (hf : Tendsto f atTop atTop) (hk : ∀ n, 2 ≤ k n ∧ k n ≤ (A (f n)).kmax - 1)
    (ht : Tendsto (fun n => (A (f n)).height (k n)) atTop (nhds z)) :
    Tendsto (fun n => (A (f n)).qref c (g (f n)) (k n)) atTop (nhds (v z)) ∧
      Tendsto (fun n => ((A (f n)).analysis c).lwa (x (f n)) (g (f n)) (k n)) atTop (nhds (meridionalWaveActivity a (fun y => Q y l z) (v z) 0 (π / 2) φ)) := by
  have ha := hA.radius_pos
  obtain ⟨e, he⟩ := hT.approaches hQ hA hp hf hk ht
  have hqc : Continuous fun p : ℝ × ℝ => (fun x l => Q x l z) p.1 p.2 := hQ.comp (f := fun p : ℝ × ℝ => (p.1, p.2, z)) (by fun_prop)
  exact ⟨C160_north_partial ha hqc (hW.high z hz.1 hz.2) he (g := fun n => g (f n)) (fun n => ⟨(hP.row (f n)).1, (hP.row (f n)).2.2.le⟩)
      (hP.latitude.comp hf) hW.north hW.pole (hW.encloses z hz.1 hz.2),
    C160_wave_north_partial ha hqc (hW.high z hz.1 hz.2) he (g := fun n => g (f n)) (x := fun n => x (f n)) (fun n => hP.col (f n))
      (fun n => hP.row (f n)) (hP.latitude.comp hf) hW.north hW.pole (hP.longitude.comp hf) (hW.encloses z hz.1 hz.2)⟩

/-- The wave activity of both classes in the Northern Hemisphere, from the limit of the QGPV. -/
theorem wave_north {Q : ℝ → ℝ → ℝ → ℝ} (hT : QgpvTends c Q A) (hQ : Continuous fun p : ℝ × ℝ × ℝ => Q p.1 p.2.1 p.2.2)
    (hA : Refines a om H top A) (hlast : ∀ n, (A n).height (A n).kmax = top) (hp : c = .nh18 → Tendsto (fun n => (A n).npart) atTop atTop)
    (hW : WaveNorth a top Q φ v) (hP : TowardNorth A x g l φ) :
    WaveLimits c A x g H top v fun z => meridionalWaveActivity a (fun y => Q y l z) (v z) 0 (π / 2) φ :=
  WaveLimits.of hA hlast (levels_north hT hQ hA hp hW hP)

/-- Reference QGPV and wave activity on levels that tend to a height. -/
theorem levels_south {Q : ℝ → ℝ → ℝ → ℝ} (hT : QgpvTends c Q A) (hQ : Continuous fun p : ℝ × ℝ × ℝ => Q p.1 p.2.1 p.2.2)
    (hA : Refines a om H top A) (hp : c = .nh18 → Tendsto (fun n => (A n).npart) atTop atTop)
    (hW : WaveSouth a top Q φ v) (hP : TowardSouth A x g l φ)
    (f : ℕ → ℕ) (k : ℕ → ℤ) (z : ℝ) (hz : z ∈ Set.Icc 0 top) (hf : Tendsto f atTop atTop) (hk : ∀ n, 2 ≤ k n ∧ k n ≤ (A (f n)).kmax - 1)
    (ht : Tendsto (fun n => (A (f n)).height (k n)) atTop (nhds z)) :
    Tendsto (fun n => (A (f n)).qref c (g (f n)) (k n)) atTop (nhds (v z)) ∧
      Tendsto (fun n => ((A (f n)).analysis c).lwa (x (f n)) (g (f n)) (k n)) atTop (nhds (meridionalWaveActivity a (fun y => Q y l z) (v z) (-(π / 2)) 0 φ)) := by
  have ha := hA.radius_pos
  obtain ⟨e, he⟩ := hT.approaches hQ hA hp hf hk ht
  have hqc : Continuous fun p : ℝ × ℝ => (fun x l => Q x l z) p.1 p.2 := hQ.comp (f := fun p : ℝ × ℝ => (p.1, p.2, z)) (by fun_prop)
  exact ⟨C160_south_partial ha hqc (hW.low z hz.1 hz.2) he (fun n => hP.globe (f n)) (g := fun n => g (f n))
      (fun n => ⟨(hP.row (f n)).1.le, (hP.row (f n)).2.1⟩) (hP.latitude.comp hf) hW.south hW.pole (hW.encloses z hz.1 hz.2),
    C160_wave_south_partial ha hqc (hW.low z hz.1 hz.2) he (fun n => hP.globe (f n)) (g := fun n => g (f n)) (x := fun n => x (f n))
      (fun n => hP.col (f n)) (fun n => hP.row (f n)) (hP.latitude.comp hf) hW.south hW.pole (hP.longitude.comp hf)
      (hW.encloses z hz.1 hz.2)⟩

/-- The same in the Southern Hemisphere. -/
theorem wave_south {Q : ℝ → ℝ → ℝ → ℝ} (hT : QgpvTends c Q A) (hQ : Continuous fun p : ℝ × ℝ × ℝ => Q p.1 p.2.1 p.2.2)
    (hA : Refines a om H top A) (hlast : ∀ n, (A n).height (A n).kmax = top) (hp : c = .nh18 → Tendsto (fun n => (A n).npart) atTop atTop)
    (hW : WaveSouth a top Q φ v) (hP : TowardSouth A x g l φ) :
    WaveLimits c A x g H top v fun z => meridionalWaveActivity a (fun y => Q y l z) (v z) (-(π / 2)) 0 φ :=
  WaveLimits.of hA hlast (levels_south hT hQ hA hp hW hP)

/-- **C171, `QGFieldNHN22`.** Winds and temperature sampled from smooth fields on ever finer grids with equal spacings: reference QGPV,
wave activity and its column average tend to those of the QGPV of the flow on the sphere, in both hemispheres. -/
theorem C171_nhn22 (hF : F.IsCurl a top) (hN : N.Of θ H top) (hS : S.Of θ H top)
    (hNg : Continuous fun p : ℝ × ℝ × ℝ => N.g p.1 p.2.1 p.2.2) (hSg : Continuous fun p : ℝ × ℝ × ℝ => S.g p.1 p.2.1 p.2.2)
    (hA : Refines a om H top A) (hlast : ∀ n, (A n).height (A n).kmax = top) (hO : ∀ n, (A n).Observes F θ N S (ε n))
    (hεN : ∀ n, 2 * ε n ≤ N.s) (hεS : ∀ n, 2 * ε n ≤ S.s) (hε : Tendsto (fun n => ε n / (A n).dz) atTop (nhds 0)) :
    (WaveNorth a top (F.qgpv om H N S) φ v → TowardNorth A x g l φ →
      WaveLimits .nhn22 A x g H top v fun z => meridionalWaveActivity a (fun y => F.qgpv om H N S y l z) (v z) 0 (π / 2) φ) ∧
    (WaveSouth a top (F.qgpv om H N S) φ v → TowardSouth A x g l φ →
      WaveLimits .nhn22 A x g H top v fun z => meridionalWaveActivity a (fun y => F.qgpv om H N S y l z) (v z) (-(π / 2)) 0 φ) := by
  have hT : QgpvTends .nhn22 (F.qgpv om H N S) A := C168_qgpv hF hN hS hA hO hεN hεS hε
  have hQ := qgpv_continuous (om := om) (H := H) hF.continuous hNg hSg
  exact ⟨wave_north hT hQ hA hlast (fun h => nomatch h), wave_south hT hQ hA hlast (fun h => nomatch h)⟩

/-- **C171, `QGFieldNH18`.** The same with more and more partitions, for the QGPV with the zonal mean of the absolute vorticity in the
stretching term (C169) and the mean state of both hemispheres. -/
theorem C171_nh18 {L : Layers} {G : ℝ} (hF : F.IsCurl a top) (hL : L.Of θ H top) (hLg : Continuous fun p : ℝ × ℝ × ℝ => L.g p.1 p.2.1 p.2.2)
    (hmean : ∀ z, L.mean z = (N.mean z + S.mean z) / 2) (hstat : ∀ z, L.stability z = (N.stability z + S.stability z) / 2)
    (hG : ∀ φ l z, 0 ≤ z → z ≤ top → |L.g φ l z| ≤ G)
    (hA : Refines a om H top A) (hlast : ∀ n, (A n).height (A n).kmax = top) (hO : ∀ n, (A n).Observes F θ N S (ε n))
    (hεL : ∀ n, 2 * ε n ≤ L.s) (hε : Tendsto (fun n => ε n / (A n).dz) atTop (nhds 0))
    (hp : Tendsto (fun n => (A n).npart) atTop atTop) :
    (WaveNorth a top (F.qgpvZonal om H L) φ v → TowardNorth A x g l φ →
      WaveLimits .nh18 A x g H top v fun z => meridionalWaveActivity a (fun y => F.qgpvZonal om H L y l z) (v z) 0 (π / 2) φ) ∧
    (WaveSouth a top (F.qgpvZonal om H L) φ v → TowardSouth A x g l φ →
      WaveLimits .nh18 A x g H top v fun z => meridionalWaveActivity a (fun y => F.qgpvZonal om H L y l z) (v z) (-(π / 2)) 0 φ) := by
  have hT : QgpvTends .nh18 (F.qgpvZonal om H L) A := C169_limit_partial hF hL hmean hstat hG hA hO hεL hε
  have hQ := qgpvZonal_continuous (om := om) (H := H) hF.continuous hLg
  exact ⟨wave_north hT hQ hA hlast (fun _ => hp), wave_south hT hQ hA hlast (fun _ => hp)⟩

/-! ### A sample: the flow across the poles with its temperature wave, at 45 degrees -/

/-- Its QGPV on a level. -/
def polarQ (x l z : ℝ) : ℝ := sin x + cos x * (2 + exp z * sin x) * cos l

theorem acrossPoles_qgpv : acrossPoles.qgpv (1 / 2) 1 evenLayers evenLayers = polarQ := by
  funext x l z
  unfold Flow.qgpv polarQ
  rw [ite_self, div_one]
  show 2 * (1 / 2) * sin x + 2 * (cos l * cos x) + 2 * (1 / 2) * sin x * (exp z * (cos x * cos l)) = _
  ring

theorem acrossPoles_qgpvZonal : acrossPoles.qgpvZonal (1 / 2) 1 evenLayers = polarQ := by
  funext x l z
  have e : acrossPoles.zonalVort x z = 0 := by
    show (∫ l in (0 : ℝ)..2 * π, 2 * (cos l * cos x)) / (2 * π) = 0
    rw [intervalIntegral.integral_const_mul, intervalIntegral.integral_mul_const, integral_cos]
    simp
  unfold Flow.qgpvZonal polarQ
  rw [e, div_one]
  show 2 * (1 / 2) * sin x + 2 * (cos l * cos x) + (2 * (1 / 2) * sin x + 0) * (exp z * (cos x * cos l)) = _
  ring

/-- Points where the wave has no amplitude, or at its crest or trough. -/
theorem polarQ_null (z : ℝ) {s : Set (ℝ × ℝ)} (hs : s ⊆ band (-(π / 2)) (π / 2))
    (h : ∀ p ∈ s, cos p.1 * (2 + exp z * sin p.1) = 0 ∨ sin p.2 = 0) : volume s = 0 := by
  have hpi := pi_pos
  refine measure_mono_null (t := (({-(π / 2), π / 2, arcsin (-(2 / exp z))} : Set ℝ) ×ˢ (Set.univ : Set ℝ)) ∪
    ((Set.univ : Set ℝ) ×ˢ ({0, π, 2 * π} : Set ℝ))) ?_ ?_
  · intro p hp
    obtain ⟨⟨b1, b2⟩, b3, b4⟩ := hs hp
    rcases h p hp with h | h
    · left
      refine ⟨?_, trivial⟩
      rcases mul_eq_zero.1 h with h | h
      · by_contra hne
        simp only [Set.mem_insert_iff, Set.mem_singleton_iff, not_or] at hne
        exact (cos_pos_of_mem_Ioo ⟨lt_of_le_of_ne b1 (Ne.symm hne.1), lt_of_le_of_ne b2 hne.2.1⟩).ne' h
      · have e : sin p.1 = -(2 / exp z) := by
          have := exp_pos z
          field_simp
          linarith
        rw [← e, arcsin_sin b1 b2]
        simp
    · right
      refine ⟨trivial, ?_⟩
      obtain ⟨m, hm⟩ := sin_eq_zero_iff.1 h
      have m0 : (0 : ℝ) ≤ m := by
        by_contra hh
        nlinarith
      have m2 : (m : ℝ) ≤ 2 := by
        by_contra hh
        nlinarith
      have m0' : 0 ≤ m := by exact_mod_cast m0
      have m2' : m ≤ 2 := by exact_mod_cast m2
      rw [← hm]
      obtain rfl | rfl | rfl : m = 0 ∨ m = 1 ∨ m = 2 := by omega
      · simp
      · simp
      · simp
  · refine measure_union_null ?_ ?_
    · rw [Measure.volume_eq_prod, Measure.prod_prod, (Set.toFinite _).measure_zero, zero_mul]
    · rw [Measure.volume_eq_prod, Measure.prod_prod, (Set.toFinite ({0, π, 2 * π} : Set ℝ)).measure_zero, mul_zero]

theorem cos_extreme {b l : ℝ} (h1 : b ≤ b * cos l) (h2 : -b ≤ b * cos l) : b = 0 ∨ sin l = 0 := by
  by_cases hb : b = 0
  · exact Or.inl hb
  right
  have h3 := neg_one_le_cos l
  have h4 := cos_le_one l
  have h5 := sin_sq_add_cos_sq l
  have : cos l ^ 2 = 1 := by
    rcases lt_or_gt_of_ne hb with hb | hb
    · have : cos l = -1 := by nlinarith
      rw [this]; norm_num
    · have : cos l = 1 := by nlinarith
      rw [this]; norm_num
  exact pow_eq_zero_iff two_ne_zero |>.1 (by linarith)

theorem polarQ_high (z : ℝ) : volume (highest fun x l => polarQ x l z) = 0 := by
  have hpi := pi_pos
  refine polarQ_null z (fun p hp => hp.1) fun p hp => ?_
  have h1 := hp.2 (p.1, 0) ⟨hp.1.1, le_rfl, by show (0 : ℝ) ≤ 2 * π; positivity⟩
  have h2 := hp.2 (p.1, π) ⟨hp.1.1, hpi.le, by show π ≤ 2 * π; linarith⟩
  simp only [polarQ, cos_zero, cos_pi] at h1 h2
  exact cos_extreme (by linarith) (by linarith)

theorem polarQ_low (z : ℝ) : volume (lowest fun x l => polarQ x l z) = 0 := by
  have hpi := pi_pos
  refine polarQ_null z (fun p hp => hp.1) fun p hp => ?_
  have h1 := hp.2 (p.1, 0) ⟨hp.1.1, le_rfl, by show (0 : ℝ) ≤ 2 * π; positivity⟩
  have h2 := hp.2 (p.1, π) ⟨hp.1.1, hpi.le, by show π ≤ 2 * π; linarith⟩
  simp only [polarQ, cos_zero, cos_pi] at h1 h2
  refine (cos_extreme (b := -(cos p.1 * (2 + exp z * sin p.1))) (l := p.2) (by linarith) (by linarith)).imp_left fun h => by linarith

theorem polarQ_encloses {φ : ℝ} (h1 : -(π / 2) < φ) (h2 : φ < π / 2) :
    ∃ v : ℝ → ℝ, ∀ z, Encloses 1 (fun x l => polarQ x l z) (-(π / 2)) (π / 2) (southCap 1 φ) (v z) := by
  have hpi := pi_pos
  have s1 : sin φ < 1 := by
    have := strictMonoOn_sin (a := φ) (b := π / 2) ⟨h1.le, h2.le⟩ ⟨by linarith, le_rfl⟩ h2
    rwa [sin_pi_div_two] at this
  have s2 : -1 < sin φ := by
    have := strictMonoOn_sin (a := -(π / 2)) (b := φ) ⟨le_rfl, by linarith⟩ ⟨h1.le, h2.le⟩ h1
    rwa [sin_neg, sin_pi_div_two] at this
  refine Classical.axiomOfChoice fun z => (C159_reference_exists one_pos ?_ le_rfl (by linarith) le_rfl ?_ ?_).exists
  · unfold polarQ
    fun_prop
  · unfold southCap
    have : 0 < 1 + sin φ := by linarith
    positivity
  · unfold southCap
    rw [sin_neg, sin_pi_div_two]
    have : 0 < 2 * π * 1 ^ 2 := by positivity
    nlinarith

/-- Every second grid of `polarWave`, which has rows at 45 degrees. -/
def polarFine (n : ℕ) : Atmos := polarWave (2 * n)

theorem polarFine_refines : Refines 1 (1 / 2) 1 1 polarFine where
  regular := fun n => polarWave_refines.regular (2 * n)
  square := fun n => polarWave_refines.square (2 * n)
  radius := fun _ => rfl
  rotation := fun _ => rfl
  scale := fun _ => rfl
  scale0 := one_pos
  dz0 := fun n => polarWave_refines.dz0 (2 * n)
  top := fun n => polarWave_refines.top (2 * n)
  rows := polarWave_refines.rows.comp (tendsto_id.const_mul_atTop' two_pos)
  levels := polarWave_refines.levels.comp (tendsto_id.const_mul_atTop' two_pos)

theorem polarFine_last (n : ℕ) : (polarFine n).height (polarFine n).kmax = 1 := by
  show ((((2 * n : ℕ) : ℤ) + 3 - 1 : ℤ) : ℝ) * (1 / (((2 * n : ℕ) : ℝ) + 2)) = 1
  have : (0 : ℝ) < ((2 * n : ℕ) : ℝ) + 2 := by positivity
  push_cast at this ⊢
  field_simp
  ring

theorem polarFine_npart : Tendsto (fun n => (polarFine n).npart) atTop atTop := by
  show Tendsto (fun n : ℕ => (2 * ((2 * n : ℕ) : ℤ) + 5 : ℤ)) atTop atTop
  refine tendsto_atTop_mono (fun n => ?_) tendsto_natCast_atTop_atTop
  push_cast
  omega

theorem polarFine_nd (n : ℕ) : (polarFine n).nd = 2 * n + 3 := by
  have := polarWave_nd (2 * n)
  push_cast at this
  exact this

theorem polarFine_lat (n : ℕ) (j : ℤ) : (polarFine n).lat j = π / (4 * n + 4) * ((j : ℝ) - (2 * n + 3)) := by
  unfold lat
  rw [polarFine_nd]
  show π / ((2 * ((2 * n : ℕ) : ℤ) + 5 - 1 : ℤ) : ℝ) * _ = _
  push_cast
  ring_nf

theorem polarFine_north : TowardNorth polarFine (fun _ => 1) (fun n => (polarFine n).nd + (n + 1)) 0 (π / 4) where
  col := fun n => ⟨le_rfl, (polarFine_refines.regular n).nlon1⟩
  row := fun n => by
    have e : (polarFine n).outRow ((polarFine n).nd + (n + 1)) = (polarFine n).nd + (n + 1) := by
      show (polarFine n).nlat - (polarFine n).nlat + _ = _
      ring
    have e2 : (polarFine n).nlat = 2 * ((2 * n : ℕ) : ℤ) + 5 := rfl
    have e3 : (polarFine n).jb = 0 := rfl
    rw [e, e2, e3, polarFine_nd]
    push_cast
    omega
  longitude := by
    unfold SphereGrid.longitude
    simp
  latitude := by
    refine tendsto_const_nhds.congr fun n => ?_
    have e : (polarFine n).outRow ((polarFine n).nd + (n + 1)) = (polarFine n).nd + (n + 1) := by
      show (polarFine n).nlat - (polarFine n).nlat + _ = _
      ring
    rw [e, polarFine_lat, polarFine_nd]
    push_cast
    field_simp
    ring

theorem polarFine_south : TowardSouth polarFine (fun _ => 1) (fun n => (polarFine n).nd - (n + 1)) 0 (-(π / 4)) where
  globe := fun _ => rfl
  col := fun n => ⟨le_rfl, (polarFine_refines.regular n).nlon1⟩
  row := fun n => by
    have e3 : (polarFine n).jb = 0 := rfl
    rw [e3, polarFine_nd]
    omega
  longitude := by
    unfold SphereGrid.longitude
    simp
  latitude := by
    refine tendsto_const_nhds.congr fun n => ?_
    rw [polarFine_lat, polarFine_nd]
    push_cast
    field_simp
    ring

/-- Hypotheses of `C171_nhn22` and `C171_nh18`: flow across the poles with a temperature wave, both classes, at 45°N and 45°S. -/
example : ∃ v w : ℝ → ℝ, ∀ c : Scheme,
    WaveLimits c polarFine (fun _ => 1) (fun n => (polarFine n).nd + (n + 1)) 1 1 v
        (fun z => meridionalWaveActivity 1 (fun y => polarQ y 0 z) (v z) 0 (π / 2) (π / 4)) ∧
      WaveLimits c polarFine (fun _ => 1) (fun n => (polarFine n).nd - (n + 1)) 1 1 w
        (fun z => meridionalWaveActivity 1 (fun y => polarQ y 0 z) (w z) (-(π / 2)) 0 (-(π / 4))) := by
  have hpi := pi_pos
  obtain ⟨v, hv⟩ := polarQ_encloses (φ := π / 4) (by linarith) (by linarith)
  obtain ⟨w, hw⟩ := polarQ_encloses (φ := -(π / 4)) (by linarith) (by linarith)
  have hN : WaveNorth 1 1 polarQ (π / 4) v :=
    ⟨by linarith, by linarith, fun z _ _ => polarQ_high z, fun z _ _ => hv z⟩
  have hS : WaveSouth 1 1 polarQ (-(π / 4)) w :=
    ⟨by linarith, by linarith, fun z _ _ => polarQ_low z, fun z _ _ => hw z⟩
  have hg : Continuous fun p : ℝ × ℝ × ℝ => evenLayers.g p.1 p.2.1 p.2.2 := by
    show Continuous fun p : ℝ × ℝ × ℝ => cos p.1 * cos p.2.1
    fun_prop
  have h2 : ∀ _ : ℕ, 2 * (0 : ℝ) ≤ evenLayers.s := fun _ => by show 2 * (0 : ℝ) ≤ 1; norm_num
  refine ⟨v, w, fun c => ?_⟩
  cases c
  · have h := fun {φ v g} => C171_nh18 (N := evenLayers) (S := evenLayers) (L := evenLayers) (ε := fun _ => 0) (l := 0) (φ := φ) (v := v)
      (g := g) (x := fun _ => 1) acrossPoles_curl evenLayers_of hg (fun z => (add_self_div_two z).symm)
      (fun z => (add_self_div_two (1 : ℝ)).symm) evenLayers_bound polarFine_refines polarFine_last (fun n => polarWave_observes (2 * n)) h2
      (by simp) polarFine_npart
    simp only [acrossPoles_qgpvZonal] at h
    exact ⟨h.1 hN polarFine_north, h.2 hS polarFine_south⟩
  · have h := fun {φ v g} => C171_nhn22 (N := evenLayers) (S := evenLayers) (ε := fun _ => 0) (l := 0) (φ := φ) (v := v)
      (g := g) (x := fun _ => 1) acrossPoles_curl evenLayers_of evenLayers_of hg hg polarFine_refines
      polarFine_last (fun n => polarWave_observes (2 * n)) h2 h2 (by simp)
    simp only [acrossPoles_qgpv] at h
    exact ⟨h.1 hN polarFine_north, h.2 hS polarFine_south⟩

end Atmos

end Falwa
