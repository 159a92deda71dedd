import Verif.Lemmas.Uniform
import Verif.Props.BalanceMean
import Verif.Props.Kelvin

/-!
# C167: from fields on the sphere to the wind of the reference state

Area analysis and inversion together: the reference wind that the direct solver computes from samples of QGPV and absolute vorticity on ever
finer grids, and the solution of the balance equation for the QGPV that is rearranged on the sphere.
-/

noncomputable section

namespace Falwa

open Real Finset Spec MeasureTheory Filter

namespace NhnIn

/-- A sequence of calls of the direct solver on ever finer grids of the atmosphere `B`. The arguments `pv` and `vort` are the fields `q`
and `ζ` (functions of latitude, longitude and height), up to an error `e i`. -/
structure Sampled (B : BalancedState) (q ζ : ℝ → ℝ → ℝ → ℝ) (I : ℕ → NhnIn) (e : ℕ → ℝ) : Prop where
  geometry : ∀ i, (I i).Geometry
  width : ∀ i, (I i).dlambda = 2 * π / ((I i).imax : ℝ)
  parts : ∀ i, 2 ≤ (I i).nnd
  rows : ∀ i, 4 ≤ (I i).jd
  inverse : ∀ i, (I i).InvCorrect
  grid : ∀ i, B.Grid (I i).planet (I i).statn ((I i).jb + 1) (I i).nd (I i).kmax
  moreCols : Tendsto (fun i => (I i).imax) atTop atTop
  moreRows : Tendsto (fun i => (I i).jmax) atTop atTop
  moreParts : Tendsto (fun i => (I i).nnd) atTop atTop
  moreLevels : Tendsto (fun i => (I i).dz) atTop (nhds 0)
  boundary : Tendsto (fun i => (I i).planet.lat (((I i).jb + 1 : ℤ) : ℝ)) atTop (nhds B.south)
  pv : ∀ i k, 2 ≤ k → k ≤ (I i).kmax - 1 →
    ((I i).area (I i).pv k).grid.Samples (fun x l => q x l ((I i).planet.height k)) (e i) fun x y => (I i).pv x y k
  vort : ∀ i k, 2 ≤ k → k ≤ (I i).kmax - 1 →
    ((I i).area (I i).vort k).grid.Samples (fun x l => ζ x l ((I i).planet.height k)) (e i) fun x y => (I i).vort x y k
  error : Tendsto e atTop (nhds 0)

namespace Sampled

variable {B : BalancedState} {q ζ : ℝ → ℝ → ℝ → ℝ} {I : ℕ → NhnIn} {e : ℕ → ℝ}

theorem a_eq (h : Sampled B q ζ I e) (i : ℕ) : (I i).a = B.a := (h.grid i).a

theorem om_eq (h : Sampled B q ζ I e) (i : ℕ) : (I i).om = B.om := (h.grid i).om

/-- Rows of the area analysis and rows of the inversion. -/
theorem latitude_eq (h : Sampled B q ζ I e) (i : ℕ) (A : ℤ → ℤ → ℤ → ℝ) (k j : ℤ) :
    ((I i).area A k).grid.latitude (j + ((I i).area A k).nd - 1) = (I i).planet.lat j := by
  have hg := h.geometry i
  have h3 := hg.jd3
  have h0 := hg.jb0
  have hjd : (I i).jd = (I i).nd - (I i).jb := rfl
  have hn : (0 : ℝ) < (I i).nd - 1 := by
    have : (1 : ℝ) < ((I i).nd : ℝ) := by exact_mod_cast (by omega : 1 < (I i).nd)
    linarith
  show -(π / 2) + π / (((I i).jmax : ℝ) - 1) * (((j + (I i).nd - 1 : ℤ) : ℝ) - 1) = ((j : ℝ) - 1) * (I i).dphi
  rw [hg.dphiEq, hg.odd]
  push_cast
  rw [show 2 * ((I i).nd : ℝ) - 1 - 1 = 2 * ((I i).nd - 1) by ring]
  field_simp
  ring

theorem height_range (h : Sampled B q ζ I e) (i : ℕ) {k : ℤ} (k1 : 1 ≤ k) (k2 : k ≤ (I i).kmax) :
    (I i).planet.height k ∈ Set.Icc 0 B.top := by
  have hz : 0 < (I i).planet.dz := (h.grid i).dz
  have c1 : (1 : ℝ) ≤ k := by exact_mod_cast k1
  have c2 : (k : ℝ) ≤ ((I i).kmax : ℝ) := by exact_mod_cast k2
  rw [← (h.grid i).last]
  unfold Planet.height
  exact ⟨mul_nonneg (by linarith) hz.le, mul_le_mul_of_nonneg_right (by linarith) hz.le⟩

theorem lat_range (h : Sampled B q ζ I e) (i : ℕ) {j : ℤ} (j1 : (I i).jb + 1 ≤ j) (j2 : j ≤ (I i).nd) :
    (I i).planet.lat j ∈ Set.Icc B.south (π / 2) := by
  have hd : 0 < (I i).planet.dphi := (h.grid i).dphi
  have f := (h.grid i).first
  have c1 : (((I i).jb + 1 : ℤ) : ℝ) ≤ j := by exact_mod_cast j1
  have c2 : (j : ℝ) ≤ ((I i).nd : ℝ) := by exact_mod_cast j2
  rw [← (h.grid i).pole]
  unfold Planet.lat at f ⊢
  push_cast at c1 f
  exact ⟨f.trans (mul_le_mul_of_nonneg_right (by linarith) hd.le), mul_le_mul_of_nonneg_right (by linarith) hd.le⟩

theorem refining (h : Sampled B q ζ I e) {f : ℕ → ℕ} (hf : Tendsto f atTop atTop) (k : ℕ → ℤ) (A : ℕ → NhnIn → ℤ → ℤ → ℤ → ℝ) :
    Refining B.a fun n => ((I (f n)).area (A n (I (f n))) (k n)).grid where
  rows n := by
    show 2 ≤ (I (f n)).jmax
    have := (h.geometry (f n)).odd
    have := (h.geometry (f n)).jd3
    have := (h.geometry (f n)).jb0
    have hjd : (I (f n)).jd = (I (f n)).nd - (I (f n)).jb := rfl
    omega
  cols n := (h.geometry (f n)).imax1
  radius n := h.a_eq (f n)
  moreRows := h.moreRows.comp hf
  moreCols := h.moreCols.comp hf

theorem valid (h : Sampled B q ζ I e) (hB : B.Solves) (i : ℕ) (A : ℤ → ℤ → ℤ → ℝ) (k : ℤ)
    (hs : ((I i).area A k).qmin < ((I i).area A k).qmax) : ((I i).area A k).Valid := by
  have hg := h.geometry i
  have h3 := hg.jd3
  have h0 := hg.jb0
  have hjd : (I i).jd = (I i).nd - (I i).jb := rfl
  refine ⟨hg.imax1, by show 2 ≤ (I i).nd; omega, hg.odd, h.parts i, ?_, h.width i, by show 0 < (I i).a; rw [h.a_eq]; exact hB.a0, hs⟩
  show (I i).dphi = _
  rw [hg.dphiEq]
  push_cast
  rfl

/-- Samples of levels whose heights tend to `c` are samples of the field at `c`. -/
theorem limit_samples (h : Sampled B q ζ I e) {g : ℝ → ℝ → ℝ → ℝ} (hg : Continuous fun p : ℝ × ℝ × ℝ => g p.1 p.2.1 p.2.2)
    {f : ℕ → ℕ} (hf : Tendsto f atTop atTop) {k : ℕ → ℤ} {c : ℝ}
    (hz : Tendsto (fun n => (I (f n)).planet.height (k n)) atTop (nhds c)) (A : ℕ → ℤ → ℤ → ℤ → ℝ)
    (hs : ∀ n, ((I (f n)).area (A n) (k n)).grid.Samples (fun x l => g x l ((I (f n)).planet.height (k n))) (e (f n))
      ((I (f n)).area (A n) (k n)).q) :
    ∃ e' : ℕ → ℝ, Tendsto e' atTop (nhds 0) ∧
      ∀ n, ((I (f n)).area (A n) (k n)).grid.Samples (fun x l => g x l c) (e' n) ((I (f n)).area (A n) (k n)).q := by
  obtain ⟨d, d0, hd⟩ := level_error hg hz
  have hG := h.refining hf k (fun n _ => A n)
  refine ⟨fun n => e (f n) + d n, ?_, fun n x y hm => ?_⟩
  · have := (h.error.comp hf).add d0
    rwa [add_zero] at this
  · have h1 := hs n x y hm
    have h2 := hd n _ (grid_mem_band (hG.rows n) (hG.cols n) hm)
    exact (abs_sub_le _ _ _).trans (add_le_add h1 h2)

/-- The reference QGPV tends to the rearranged one, uniformly in rows and levels. -/
theorem qref_uniform (h : Sampled B q ζ I e) (hB : B.Solves) (hs : 0 < B.south) (hs' : B.south < π / 2)
    (hq : Continuous fun p : ℝ × ℝ × ℝ => q p.1 p.2.1 p.2.2)
    (htop : ∀ z, 0 ≤ z → z ≤ B.top → volume (highest fun x l => q x l z) = 0)
    (hE : ∀ z φ, 0 ≤ z → z ≤ B.top → B.south ≤ φ → φ < π / 2 →
      Encloses B.a (fun x l => q x l z) (-(π / 2)) (π / 2) (southCap B.a φ) (2 * B.om * sin φ * B.Q (φ, z)))
    {δ : ℝ} (hδ : 0 < δ) : ∀ᶠ i in atTop, ∀ j k, (I i).jb + 1 ≤ j → j ≤ (I i).nd → 2 ≤ k → k ≤ (I i).kmax - 1 →
      |(I i).qrefOut j k - B.Q ((I i).planet.lat j, (I i).planet.height k)| ≤ δ := by
  have hpi := pi_pos
  have hom := hB.om0
  have hsin : 0 < sin B.south := sin_pos_of_pos_of_lt_pi hs (by linarith)
  have hQc : Continuous B.Q := hB.smoothQ.continuous
  have key := uniformly_of_sequences (K := Set.Icc B.south (π / 2) ×ˢ Set.Icc 0 B.top) (isCompact_Icc.prod isCompact_Icc)
    (P := fun i (t : ℤ × ℤ) => ((I i).jb + 1 ≤ t.1 ∧ t.1 ≤ (I i).nd) ∧ 2 ≤ t.2 ∧ t.2 ≤ (I i).kmax - 1)
    (x := fun i t => ((I i).planet.lat t.1, (I i).planet.height t.2)) (F := fun i t => ((I i).area (I i).pv t.2).qref t.1)
    (V := fun c => 2 * B.om * sin c.1 * B.Q (c.1, c.2)) (b := 0) (by fun_prop)
    (fun i t ht => ⟨h.lat_range i ht.1.1 ht.1.2, h.height_range i (by omega) (by omega)⟩)
    (fun f t c hc hf ht hx => by
      have hx1 : Tendsto (fun n => (I (f n)).planet.lat (t n).1) atTop (nhds c.1) := (continuous_fst.tendsto c).comp hx
      have hx2 : Tendsto (fun n => (I (f n)).planet.height (t n).2) atTop (nhds c.2) := (continuous_snd.tendsto c).comp hx
      have hG := h.refining hf (fun n => (t n).2) (fun _ J => J.pv)
      have hqc : Continuous fun p : ℝ × ℝ => (fun x l => q x l c.2) p.1 p.2 :=
        hq.comp (f := fun p : ℝ × ℝ => (p.1, p.2, c.2)) (by fun_prop)
      have ht2 := htop c.2 hc.2.1 hc.2.2
      obtain ⟨e', he', hs1⟩ := h.limit_samples hq hf hx2 (fun n => (I (f n)).pv) (fun n => h.pv (f n) (t n).2 (ht n).2.1 (ht n).2.2)
      have hI : ∀ᶠ n in atTop, ((I (f n)).area (I (f n)).pv (t n).2).Valid := by
        filter_upwards [AreaIn.spread_eventually (I := fun n => (I (f n)).area (I (f n)).pv (t n).2) hB.a0 hqc ht2 hG hs1 he'] with n hn
        exact h.valid hB (f n) _ _ hn
      refine ⟨_, AreaIn.qref_rows (I := fun n => (I (f n)).area (I (f n)).pv (t n).2) (s := B.south)
        (V := fun φ => 2 * B.om * sin φ * B.Q (φ, c.2)) hB.a0 hqc ht2 hI hG hs1 he' (h.moreParts.comp hf) hs.le hs' (by fun_prop)
        (fun φ f1 f2 => hE c.2 φ hc.2.1 hc.2.2 f1 f2) (j := fun n => (t n).1)
        (hx1.congr fun n => (h.latitude_eq (f n) _ _ _).symm) hc.1.1 hc.1.2, by simp⟩)
    (δ := 2 * B.om * sin B.south * δ) (by positivity)
  filter_upwards [key] with i hi j k j1 j2 k1 k2
  have hk := hi (j, k) ⟨⟨j1, j2⟩, k1, k2⟩
  simp only [zero_add] at hk
  have hr := h.lat_range i j1 j2
  have hf := (h.grid i).first
  have hjb : 1 ≤ (I i).jb := by
    by_contra hc
    have h0 : (I i).jb = 0 := by have := (h.geometry i).jb0; omega
    rw [h0] at hf
    unfold Planet.lat at hf
    norm_num at hf
    linarith
  have hsj : sin B.south ≤ sin ((I i).planet.lat j) :=
    strictMonoOn_sin.monotoneOn ⟨by linarith, by linarith⟩ ⟨by linarith [hr.1], hr.2⟩ hr.1
  have e1 : (I i).qrefOut j k = ((I i).area (I i).pv k).qref j / (2 * B.om * sin ((I i).planet.lat j)) := by
    unfold qrefOut NhnIn.qref
    rw [if_neg (by omega)]
    unfold qrefNorm qrefRaw
    rw [if_pos ⟨k1, k2⟩, h.om_eq i]
    have : (I i).dphi * ((j - 1 : ℤ) : ℝ) = (I i).planet.lat j := by
      show _ = ((j : ℝ) - 1) * (I i).dphi
      push_cast
      ring
    rw [this]
    field_simp
  have hp : 0 < 2 * B.om * sin ((I i).planet.lat j) := by have := hsin.trans_le hsj; positivity
  rw [e1]
  have e2 : ((I i).area (I i).pv k).qref j / (2 * B.om * sin ((I i).planet.lat j)) - B.Q ((I i).planet.lat j, (I i).planet.height k) =
      (((I i).area (I i).pv k).qref j - 2 * B.om * sin ((I i).planet.lat j) * B.Q ((I i).planet.lat j, (I i).planet.height k)) /
        (2 * B.om * sin ((I i).planet.lat j)) := by
    rw [sub_div, mul_div_cancel_left₀ _ hp.ne']
  rw [e2, abs_div, abs_of_pos hp, div_le_iff₀ hp]
  refine hk.le.trans ?_
  rw [mul_comm δ]
  exact mul_le_mul_of_nonneg_right (mul_le_mul_of_nonneg_left hsj (by positivity)) hδ.le

/-- The boundary circulation tends to that of the rearranged vorticity, uniformly in the levels. -/
theorem circulation_uniform (h : Sampled B q ζ I e) (hB : B.Solves) (hs : 0 < B.south) (hs' : B.south < π / 2)
    (hζ : Continuous fun p : ℝ × ℝ × ℝ => ζ p.1 p.2.1 p.2.2)
    (htop : ∀ z, 0 ≤ z → z ≤ B.top → volume (highest fun x l => ζ x l z) = 0) {V : ℝ → ℝ}
    (hE : ∀ z, 0 ≤ z → z ≤ B.top → Encloses B.a (fun x l => ζ x l z) (-(π / 2)) (π / 2) (southCap B.a B.south) (V z)) {b : ℝ}
    (hb : ∀ z, 0 ≤ z → z ≤ B.top → |refCirculation B.a (fun x l => ζ x l z) (northCap B.a B.south) (V z) / (2 * π * B.a) -
      (B.u (B.south, z) + B.om * B.a) * cos B.south| ≤ b)
    {δ : ℝ} (hδ : 0 < δ) : ∀ᶠ i in atTop, ∀ k, 2 ≤ k → k ≤ (I i).kmax - 1 →
      |((I i).area (I i).vort k).ckref ((I i).jb + 1) / (2 * π * (I i).a) -
        (B.u ((I i).planet.lat (((I i).jb + 1 : ℤ) : ℝ), (I i).planet.height k) + (I i).om * (I i).a) *
          cos ((I i).planet.lat (((I i).jb + 1 : ℤ) : ℝ))| < b + δ := by
  have hpi := pi_pos
  have ha := hB.a0
  have huc : Continuous B.u := hB.smoothU.continuous
  have key := uniformly_of_sequences (K := Set.Icc B.south (π / 2) ×ˢ Set.Icc 0 B.top) (isCompact_Icc.prod isCompact_Icc)
    (P := fun i (k : ℤ) => 2 ≤ k ∧ k ≤ (I i).kmax - 1)
    (x := fun i k => ((I i).planet.lat (((I i).jb + 1 : ℤ) : ℝ), (I i).planet.height k))
    (F := fun i k => ((I i).area (I i).vort k).ckref ((I i).jb + 1) / (2 * π * B.a))
    (V := fun c => (B.u (c.1, c.2) + B.om * B.a) * cos c.1) (b := b) (by fun_prop)
    (fun i k hk => ⟨h.lat_range i le_rfl (by
      have := (h.geometry i).jd3
      have hjd : (I i).jd = (I i).nd - (I i).jb := rfl
      omega), h.height_range i (by omega) (by omega)⟩)
    (fun f k c hc hf hk hx => by
      have hx1 : Tendsto (fun n => (I (f n)).planet.lat (((I (f n)).jb + 1 : ℤ) : ℝ)) atTop (nhds c.1) := (continuous_fst.tendsto c).comp hx
      have hx2 : Tendsto (fun n => (I (f n)).planet.height (k n)) atTop (nhds c.2) := (continuous_snd.tendsto c).comp hx
      have hc1 : c.1 = B.south := tendsto_nhds_unique hx1 (h.boundary.comp hf)
      have hG := h.refining hf k (fun _ J => J.vort)
      have hqc : Continuous fun p : ℝ × ℝ => (fun x l => ζ x l c.2) p.1 p.2 :=
        hζ.comp (f := fun p : ℝ × ℝ => (p.1, p.2, c.2)) (by fun_prop)
      have ht2 := htop c.2 hc.2.1 hc.2.2
      obtain ⟨e', he', hs1⟩ := h.limit_samples hζ hf hx2 (fun n => (I (f n)).vort) (fun n => h.vort (f n) (k n) (hk n).1 (hk n).2)
      have hI : ∀ᶠ n in atTop, ((I (f n)).area (I (f n)).vort (k n)).Valid := by
        filter_upwards [AreaIn.spread_eventually (I := fun n => (I (f n)).area (I (f n)).vort (k n)) hB.a0 hqc ht2 hG hs1 he'] with n hn
        exact h.valid hB (f n) _ _ hn
      have lim := AreaIn.C165_circulation (I := fun n => (I (f n)).area (I (f n)).vort (k n)) ha hqc ht2 hI hG hs1 he'
        (h.moreParts.comp hf) (j := fun n => (I (f n)).jb + 1) (φ := B.south) (v := V c.2)
        ((hc1 ▸ hx1).congr fun n => (h.latitude_eq (f n) _ _ _).symm) hs.le hs' (hE c.2 hc.2.1 hc.2.2) (fun _ => 0)
      refine ⟨_, lim.div_const (2 * π * B.a), ?_⟩
      have := hb c.2 hc.2.1 hc.2.2
      rw [hc1]
      exact this) hδ
  filter_upwards [key] with i hi k k1 k2
  have hk := hi k ⟨k1, k2⟩
  rw [h.a_eq i, h.om_eq i]
  exact hk

end Sampled

/-- **C167 (general).** Let `B` solve the balance equation for the QGPV `q` rearranged on the sphere, and let its boundary wind and the
vorticity `ζ` differ by at most `b` in the boundary condition of the code. There is a constant such that for all sequences of grids and
samples, eventually, the mean-square error of the reference wind over height, whatever row is looked at on each level, is at most the
constant times `(b + t + δ)²`, where `t` bounds the error of the shear prescribed at the top in the limit and `δ` is any positive
number. -/
theorem C167_wind {B : BalancedState} (hB : B.Solves) (hQ : ContDiff ℝ 3 B.Q) (hs : 0 < B.south) (hs' : B.south < π / 2)
    {q ζ : ℝ → ℝ → ℝ → ℝ} (hq : Continuous fun p : ℝ × ℝ × ℝ => q p.1 p.2.1 p.2.2) (hζ : Continuous fun p : ℝ × ℝ × ℝ => ζ p.1 p.2.1 p.2.2)
    (hqtop : ∀ z, 0 ≤ z → z ≤ B.top → volume (highest fun x l => q x l z) = 0)
    (hζtop : ∀ z, 0 ≤ z → z ≤ B.top → volume (highest fun x l => ζ x l z) = 0)
    (hqE : ∀ z φ, 0 ≤ z → z ≤ B.top → B.south ≤ φ → φ < π / 2 →
      Encloses B.a (fun x l => q x l z) (-(π / 2)) (π / 2) (southCap B.a φ) (2 * B.om * sin φ * B.Q (φ, z))) {V : ℝ → ℝ}
    (hζE : ∀ z, 0 ≤ z → z ≤ B.top → Encloses B.a (fun x l => ζ x l z) (-(π / 2)) (π / 2) (southCap B.a B.south) (V z)) {b : ℝ}
    (hb : ∀ z, 0 ≤ z → z ≤ B.top → |refCirculation B.a (fun x l => ζ x l z) (northCap B.a B.south) (V z) / (2 * π * B.a) -
      (B.u (B.south, z) + B.om * B.a) * cos B.south| ≤ b) :
    ∃ C, 0 ≤ C ∧ ∀ (I : ℕ → NhnIn) (e τ : ℕ → ℝ) (t : ℝ), Sampled B q ζ I e →
      (∀ i j, (I i).jb + 2 ≤ j → j ≤ (I i).nd - 1 →
        |-((I i).topFactor j * ((I i).tbar (j - (I i).jb + 1) (I i).kmax - (I i).tbar (j - (I i).jb - 1) (I i).kmax)) -
          cos ((I i).planet.lat j) * B.shear ((I i).planet.lat j) B.top| ≤ τ i) → Tendsto τ atTop (nhds t) →
      ∀ δ, 0 < δ → ∀ᶠ i in atTop, ∀ J : ℤ → ℤ, (∀ k, 2 ≤ J k ∧ J k ≤ (I i).jd - 1) →
        (I i).dz * ∑ k ∈ Icc 2 ((I i).kmax - 1), exp (-((I i).planet.height k / (I i).h)) *
          (|(I i).uref (J k) k - B.u ((I i).planet.lat ((J k + (I i).jb : ℤ) : ℝ), (I i).planet.height k)| *
            cos ((I i).planet.lat ((J k + (I i).jb : ℤ) : ℝ))) ^ 2 ≤ C * (b + t + δ) ^ 2 := by
  obtain ⟨C, C0, hC⟩ := C163_direct hB hQ
  have hpi := pi_pos
  have hb0 : 0 ≤ b := (abs_nonneg _).trans (hb 0 le_rfl hB.top0.le)
  refine ⟨C, C0, fun I e τ t h hτ ht δ hδ => ?_⟩
  have hdphi : Tendsto (fun i => (I i).dphi ^ 2) atTop (nhds 0) := by
    have h1 : Tendsto (fun i => (I i).dphi) atTop (nhds 0) := by
      have : Tendsto (fun i => π / (((I i).jmax : ℝ) - 1)) atTop (nhds 0) := by
        refine tendsto_const_nhds.div_atTop ?_
        have := tendsto_intCast_atTop_atTop (R := ℝ).comp h.moreRows
        exact tendsto_atTop_add_const_right _ (-1) this
      exact this.congr fun i => (h.geometry i).dphiEq.symm
    have := h1.pow 2
    rwa [zero_pow two_ne_zero] at this
  have hδ5 : 0 < δ / 5 := by positivity
  have hτ0 : ∀ i, 0 ≤ τ i := fun i => by
    have := h.rows i
    have hjd : (I i).jd = (I i).nd - (I i).jb := rfl
    exact (abs_nonneg _).trans (hτ i ((I i).jb + 2) le_rfl (by omega))
  filter_upwards [h.qref_uniform hB hs hs' hq hqtop hqE hδ5, h.circulation_uniform hB hs hs' hζ hζtop hζE hb hδ5,
    hdphi.eventually (gt_mem_nhds hδ5), h.moreLevels.eventually (gt_mem_nhds hδ5), ht.eventually (gt_mem_nhds (by linarith : t < t + δ / 5))]
    with i i1 i2 i3 i4 i5 J hJ
  have hz : 0 < (I i).dz := (h.grid i).dz
  refine (hC (I i) (h.geometry i) (h.rows i) (h.inverse i) (h.grid i) (b + δ / 5) (δ / 5) (τ i) (by positivity) hδ5.le (hτ0 i)
    (fun k k1 k2 => by
      have := (i2 k k1 k2).le
      push_cast at this
      exact this) i1 (hτ i) J hJ).trans ?_
  refine mul_le_mul_of_nonneg_left ?_ C0
  have hd2 : 0 ≤ (I i).dphi ^ 2 := sq_nonneg _
  have := hτ0 i
  refine pow_le_pow_left₀ (by positivity) ?_ 2
  linarith

/-- **C167 (Kelvin).** If the boundary wind of `B` is the one whose circulation is that of the rearranged vorticity, the only error that
finer grids cannot remove is `Ω a cos φ (1 - cos φ)` at the southern boundary (the cosine that C166 finds to be missing), besides that of
the top. -/
theorem C167_kelvin {B : BalancedState} (hB : B.Solves) (hQ : ContDiff ℝ 3 B.Q) (hs : 0 < B.south) (hs' : B.south < π / 2)
    {q ζ : ℝ → ℝ → ℝ → ℝ} (hq : Continuous fun p : ℝ × ℝ × ℝ => q p.1 p.2.1 p.2.2) (hζ : Continuous fun p : ℝ × ℝ × ℝ => ζ p.1 p.2.1 p.2.2)
    (hqtop : ∀ z, 0 ≤ z → z ≤ B.top → volume (highest fun x l => q x l z) = 0)
    (hζtop : ∀ z, 0 ≤ z → z ≤ B.top → volume (highest fun x l => ζ x l z) = 0)
    (hqE : ∀ z φ, 0 ≤ z → z ≤ B.top → B.south ≤ φ → φ < π / 2 →
      Encloses B.a (fun x l => q x l z) (-(π / 2)) (π / 2) (southCap B.a φ) (2 * B.om * sin φ * B.Q (φ, z))) {V : ℝ → ℝ}
    (hζE : ∀ z, 0 ≤ z → z ≤ B.top → Encloses B.a (fun x l => ζ x l z) (-(π / 2)) (π / 2) (southCap B.a B.south) (V z))
    (hb : ∀ z, 0 ≤ z → z ≤ B.top → refCirculation B.a (fun x l => ζ x l z) (northCap B.a B.south) (V z) =
      kelvin B.a B.om B.south (B.u (B.south, z))) :
    ∃ C, 0 ≤ C ∧ ∀ (I : ℕ → NhnIn) (e τ : ℕ → ℝ) (t : ℝ), Sampled B q ζ I e →
      (∀ i j, (I i).jb + 2 ≤ j → j ≤ (I i).nd - 1 →
        |-((I i).topFactor j * ((I i).tbar (j - (I i).jb + 1) (I i).kmax - (I i).tbar (j - (I i).jb - 1) (I i).kmax)) -
          cos ((I i).planet.lat j) * B.shear ((I i).planet.lat j) B.top| ≤ τ i) → Tendsto τ atTop (nhds t) →
      ∀ δ, 0 < δ → ∀ᶠ i in atTop, ∀ J : ℤ → ℤ, (∀ k, 2 ≤ J k ∧ J k ≤ (I i).jd - 1) →
        (I i).dz * ∑ k ∈ Icc 2 ((I i).kmax - 1), exp (-((I i).planet.height k / (I i).h)) *
          (|(I i).uref (J k) k - B.u ((I i).planet.lat ((J k + (I i).jb : ℤ) : ℝ), (I i).planet.height k)| *
            cos ((I i).planet.lat ((J k + (I i).jb : ℤ) : ℝ))) ^ 2 ≤
          C * (B.om * B.a * cos B.south * (1 - cos B.south) + t + δ) ^ 2 := by
  have hpi := pi_pos
  have ha := hB.a0
  have hom := hB.om0
  have hc : 0 ≤ cos B.south := cos_nonneg_of_mem_Icc ⟨by linarith, hs'.le⟩
  refine C167_wind hB hQ hs hs' hq hζ hqtop hζtop hqE hζE fun z z1 z2 => ?_
  rw [hb z z1 z2]
  have e1 : kelvin B.a B.om B.south (B.u (B.south, z)) / (2 * π * B.a) - (B.u (B.south, z) + B.om * B.a) * cos B.south =
      -(B.om * B.a * cos B.south * (1 - cos B.south)) := by
    unfold kelvin
    field_simp
    ring
  rw [e1, abs_neg, abs_of_nonneg (mul_nonneg (by positivity) (by linarith [cos_le_one B.south]))]

/-- **C167 (the boundary wind of the code).** If `B` has the boundary wind that the code reads off the circulation of the rearranged
vorticity and the top shear is prescribed consistently, the mean-square error tends to zero. -/
theorem C167_code {B : BalancedState} (hB : B.Solves) (hQ : ContDiff ℝ 3 B.Q) (hs : 0 < B.south) (hs' : B.south < π / 2)
    {q ζ : ℝ → ℝ → ℝ → ℝ} (hq : Continuous fun p : ℝ × ℝ × ℝ => q p.1 p.2.1 p.2.2) (hζ : Continuous fun p : ℝ × ℝ × ℝ => ζ p.1 p.2.1 p.2.2)
    (hqtop : ∀ z, 0 ≤ z → z ≤ B.top → volume (highest fun x l => q x l z) = 0)
    (hζtop : ∀ z, 0 ≤ z → z ≤ B.top → volume (highest fun x l => ζ x l z) = 0)
    (hqE : ∀ z φ, 0 ≤ z → z ≤ B.top → B.south ≤ φ → φ < π / 2 →
      Encloses B.a (fun x l => q x l z) (-(π / 2)) (π / 2) (southCap B.a φ) (2 * B.om * sin φ * B.Q (φ, z))) {V : ℝ → ℝ}
    (hζE : ∀ z, 0 ≤ z → z ≤ B.top → Encloses B.a (fun x l => ζ x l z) (-(π / 2)) (π / 2) (southCap B.a B.south) (V z))
    (hb : ∀ z, 0 ≤ z → z ≤ B.top → B.u (B.south, z) =
      refCirculation B.a (fun x l => ζ x l z) (northCap B.a B.south) (V z) / (2 * π * B.a * cos B.south) - B.om * B.a)
    {I : ℕ → NhnIn} {e τ : ℕ → ℝ} (hI : Sampled B q ζ I e)
    (hτ : ∀ i j, (I i).jb + 2 ≤ j → j ≤ (I i).nd - 1 →
      |-((I i).topFactor j * ((I i).tbar (j - (I i).jb + 1) (I i).kmax - (I i).tbar (j - (I i).jb - 1) (I i).kmax)) -
        cos ((I i).planet.lat j) * B.shear ((I i).planet.lat j) B.top| ≤ τ i) (ht : Tendsto τ atTop (nhds 0))
    {ε : ℝ} (hε : 0 < ε) : ∀ᶠ i in atTop, ∀ J : ℤ → ℤ, (∀ k, 2 ≤ J k ∧ J k ≤ (I i).jd - 1) →
      (I i).dz * ∑ k ∈ Icc 2 ((I i).kmax - 1), exp (-((I i).planet.height k / (I i).h)) *
        (|(I i).uref (J k) k - B.u ((I i).planet.lat ((J k + (I i).jb : ℤ) : ℝ), (I i).planet.height k)| *
          cos ((I i).planet.lat ((J k + (I i).jb : ℤ) : ℝ))) ^ 2 ≤ ε := by
  have hpi := pi_pos
  have ha := hB.a0
  have hc : 0 < cos B.south := cos_pos_of_mem_Ioo ⟨by linarith, hs'⟩
  obtain ⟨C, C0, hC⟩ := C167_wind hB hQ hs hs' hq hζ hqtop hζtop hqE hζE (b := 0) fun z z1 z2 => by
    rw [hb z z1 z2]
    have e1 : refCirculation B.a (fun x l => ζ x l z) (northCap B.a B.south) (V z) / (2 * π * B.a) -
        (refCirculation B.a (fun x l => ζ x l z) (northCap B.a B.south) (V z) / (2 * π * B.a * cos B.south) - B.om * B.a + B.om * B.a) *
          cos B.south = 0 := by
      generalize refCirculation B.a (fun x l => ζ x l z) (northCap B.a B.south) (V z) = r
      field_simp
      ring
    rw [e1, abs_zero]
  have hd : 0 < sqrt (ε / (C + 1)) := sqrt_pos.mpr (by positivity)
  filter_upwards [hC I e τ 0 hI hτ ht _ hd] with i hi J hJ
  refine (hi J hJ).trans ?_
  rw [zero_add, zero_add, sq_sqrt (by positivity), mul_div_assoc', div_le_iff₀ (by positivity)]
  nlinarith

/-- Air at rest between 45 degrees and the pole. -/
def _root_.Falwa.Spec.BalancedState.calm : BalancedState where
  a := 1
  om := 1
  h := 1
  r := 1
  cp := 1
  south := π / 4
  top := 1
  S := fun _ => 1
  u := fun _ => 0
  G := fun _ => 0
  Q := fun _ => 1

theorem _root_.Falwa.Spec.BalancedState.calm_solves : BalancedState.calm.Solves where
  a0 := one_pos
  om0 := one_pos
  h0 := one_pos
  r0 := one_pos
  south0 := by show (0 : ℝ) ≤ π / 4; have := pi_pos; positivity
  top0 := one_pos
  smoothS := contDiff_const
  smoothU := contDiff_const
  smoothG := contDiff_const
  smoothQ := contDiff_const
  stable := fun _ => one_pos
  slope := fun φ z _ _ _ _ => by
    show deriv (fun x => 0 * cos x) φ = sin φ * cos φ * 0
    simp
  balance := fun φ z _ _ _ _ => by
    have s : ∀ y, BalancedState.calm.shear φ y = 0 := fun y => by
      show deriv (fun _ : ℝ => (0 : ℝ)) y = 0
      simp
    simp only [s]
    show deriv (fun _ : ℝ => (0 : ℝ)) φ + _ = -(_ * deriv (fun _ : ℝ => (1 : ℝ)) φ)
    simp
  ground := fun _ _ _ => rfl

/-- Calls with the planetary vorticity as QGPV, `w` times it as absolute vorticity and a uniform temperature, on ever finer grids. -/
def calmCall (w : ℝ) (i : ℕ) : NhnIn where
  imax := (i : ℤ) + 1
  jmax := 2 * (2 * (i : ℤ) + 7) - 1
  kmax := (i : ℤ) + 3
  nd := 2 * (i : ℤ) + 7
  nnd := (i : ℤ) + 2
  jb := (i : ℤ) + 3
  pv := fun _ j _ => 2 * 1 * sin ((⟨(i : ℤ) + 1, 2 * (2 * (i : ℤ) + 7) - 1, 1⟩ : SphereGrid).latitude j)
  uu := fun _ _ _ => 0
  vort := fun _ j _ => 2 * w * sin ((⟨(i : ℤ) + 1, 2 * (2 * (i : ℤ) + 7) - 1, 1⟩ : SphereGrid).latitude j)
  pt := fun _ _ k => 300 + (k : ℝ)
  tb := fun k => 300 + (k : ℝ)
  statn := fun _ => 1
  a := 1
  om := 1
  dz := 1 / ((i : ℝ) + 2)
  h := 1
  dphi := π / (((2 * (2 * (i : ℤ) + 7) - 1 : ℤ) : ℝ) - 1)
  dlambda := 2 * π / (((i : ℤ) + 1 : ℤ) : ℝ)
  rr := 1
  cp := 1
  inv := Classical.choose (exists_inv (Icc 1 (2 * (i : ℤ) + 7 - ((i : ℤ) + 3) - 2)))

theorem calmCall_south (w : ℝ) (i : ℕ) : (calmCall w i).planet.lat (((calmCall w i).jb + 1 : ℤ) : ℝ) = π / 4 := by
  show ((((i : ℤ) + 3 + 1 : ℤ) : ℝ) - 1) * (π / (((2 * (2 * (i : ℤ) + 7) - 1 : ℤ) : ℝ) - 1)) = π / 4
  push_cast
  have : (0 : ℝ) < 2 * (2 * i + 7) - 1 - 1 := by have : (0 : ℝ) ≤ i := Nat.cast_nonneg i; linarith
  rw [mul_div_assoc', div_eq_div_iff this.ne' four_ne_zero]
  ring

theorem calmCall_sampled (w : ℝ) :
    Sampled BalancedState.calm (fun x _ _ => 2 * 1 * sin x) (fun x _ _ => 2 * w * sin x) (calmCall w) fun _ => 0 where
  geometry i := by
    refine ⟨?_, ?_, ?_, ?_, rfl, rfl⟩
    · show (1 : ℤ) ≤ (i : ℤ) + 1
      omega
    · show (0 : ℤ) ≤ (i : ℤ) + 3
      omega
    · show (3 : ℤ) ≤ 2 * (i : ℤ) + 7 - ((i : ℤ) + 3)
      omega
    · show (3 : ℤ) ≤ (i : ℤ) + 3
      omega
  width i := rfl
  parts i := by show (2 : ℤ) ≤ (i : ℤ) + 2; omega
  rows i := by show (4 : ℤ) ≤ 2 * (i : ℤ) + 7 - ((i : ℤ) + 3); omega
  inverse i := Classical.choose_spec (exists_inv (Icc 1 (2 * (i : ℤ) + 7 - ((i : ℤ) + 3) - 2)))
  grid i := by
    have hi : (0 : ℝ) ≤ i := Nat.cast_nonneg i
    have hpi := pi_pos
    have hp : (0 : ℝ) < 2 * (2 * i + 7) - 1 - 1 := by linarith
    refine ⟨rfl, rfl, rfl, rfl, rfl, ?_, ?_, ?_, ?_, ?_, (calmCall_south w i).ge, ?_, fun _ _ _ => rfl⟩
    · show 0 < π / (((2 * (2 * (i : ℤ) + 7) - 1 : ℤ) : ℝ) - 1)
      push_cast
      positivity
    · show (0 : ℝ) < 1 / ((i : ℝ) + 2)
      positivity
    · show (i : ℤ) + 3 + 1 < 2 * (i : ℤ) + 7
      omega
    · show (3 : ℤ) ≤ (i : ℤ) + 3
      omega
    · show (((2 * (i : ℤ) + 7 : ℤ) : ℝ) - 1) * (π / (((2 * (2 * (i : ℤ) + 7) - 1 : ℤ) : ℝ) - 1)) = π / 2
      push_cast
      rw [mul_div_assoc', div_eq_div_iff hp.ne' two_ne_zero]
      ring
    · show ((((i : ℤ) + 3 : ℤ) : ℝ) - 1) * (1 / ((i : ℝ) + 2)) = 1
      push_cast
      field_simp
      ring
  moreCols := tendsto_atTop_add_const_right _ 1 tendsto_natCast_atTop_atTop
  moreRows := by
    show Tendsto (fun i : ℕ => 2 * (2 * (i : ℤ) + 7) - 1) atTop atTop
    refine tendsto_atTop_mono (fun i => ?_) (tendsto_natCast_atTop_atTop (R := ℤ))
    omega
  moreParts := tendsto_atTop_add_const_right _ 2 tendsto_natCast_atTop_atTop
  moreLevels := by
    show Tendsto (fun i : ℕ => 1 / ((i : ℝ) + 2)) atTop (nhds 0)
    exact tendsto_const_nhds.div_atTop (tendsto_atTop_add_const_right _ 2 tendsto_natCast_atTop_atTop)
  boundary := by
    simp only [calmCall_south]
    exact tendsto_const_nhds
  pv i k _ _ x y _ := by
    have e : (calmCall w i).pv x y k = 2 * 1 * sin (((calmCall w i).area (calmCall w i).pv k).grid.latitude y) := rfl
    simp only [e, sub_self, abs_zero, le_refl]
  vort i k _ _ x y _ := by
    have e : (calmCall w i).vort x y k = 2 * w * sin (((calmCall w i).area (calmCall w i).vort k).grid.latitude y) := rfl
    simp only [e, sub_self, abs_zero, le_refl]
  error := tendsto_const_nhds

theorem calmCall_top (w : ℝ) (i : ℕ) (j : ℤ) :
    |-((calmCall w i).topFactor j * ((calmCall w i).tbar (j - (calmCall w i).jb + 1) (calmCall w i).kmax -
        (calmCall w i).tbar (j - (calmCall w i).jb - 1) (calmCall w i).kmax)) -
      cos ((calmCall w i).planet.lat j) * BalancedState.calm.shear ((calmCall w i).planet.lat j) BalancedState.calm.top| ≤ 0 := by
  have s : BalancedState.calm.shear ((calmCall w i).planet.lat j) BalancedState.calm.top = 0 := by
    show deriv (fun _ : ℝ => (0 : ℝ)) _ = 0
    simp
  have t : (calmCall w i).tbar (j - (calmCall w i).jb + 1) (calmCall w i).kmax =
      (calmCall w i).tbar (j - (calmCall w i).jb - 1) (calmCall w i).kmax := rfl
  rw [s, t]
  simp

/-- The hypotheses of `C167_kelvin` can be met: air at rest, absolute vorticity `2 Ω sin φ`. -/
example : ∃ C, 0 ≤ C ∧ ∀ δ, 0 < δ → ∀ᶠ i in atTop, ∀ J : ℤ → ℤ, (∀ k, 2 ≤ J k ∧ J k ≤ (calmCall 1 i).jd - 1) →
    (calmCall 1 i).dz * ∑ k ∈ Icc 2 ((calmCall 1 i).kmax - 1), exp (-((calmCall 1 i).planet.height k / (calmCall 1 i).h)) *
      (|(calmCall 1 i).uref (J k) k - 0| * cos ((calmCall 1 i).planet.lat ((J k + (calmCall 1 i).jb : ℤ) : ℝ))) ^ 2 ≤
      C * (1 * 1 * cos (π / 4) * (1 - cos (π / 4)) + 0 + δ) ^ 2 := by
  have hpi := pi_pos
  have h1 : 0 ≤ π / 4 := by positivity
  have h2 : π / 4 < π / 2 := by linarith
  obtain ⟨C, C0, hC⟩ := C167_kelvin (q := fun x _ _ => 2 * 1 * sin x) (ζ := fun x _ _ => 2 * 1 * sin x) BalancedState.calm_solves
    (contDiff_const (c := (1 : ℝ))) (by show 0 < π / 4; positivity) (by show π / 4 < π / 2; linarith) (by fun_prop) (by fun_prop)
    (fun _ _ _ => planetary_highest one_pos) (fun _ _ _ => planetary_highest one_pos)
    (fun _ φ _ _ f1 f2 => by
      have f1 : π / 4 ≤ φ := f1
      have := planetary_encloses (a := 1) one_pos one_pos (by linarith : (0 : ℝ) ≤ φ) f2
      show Encloses 1 _ _ _ _ (2 * 1 * sin φ * 1)
      rwa [mul_one (2 * 1 * sin φ)])
    (V := fun _ => 2 * 1 * sin (π / 4)) (fun _ _ _ => planetary_encloses one_pos one_pos h1 h2)
    (fun _ _ _ => planetary_circulation one_pos h1 h2)
  exact ⟨C, C0, hC (calmCall 1) _ (fun _ => 0) 0 (calmCall_sampled 1) (fun i j _ _ => calmCall_top 1 i j) tendsto_const_nhds⟩

/-- The hypotheses of `C167_code` can be met: air at rest, and the larger vorticity from which the code reads no wind at the boundary. -/
example : ∀ ε, 0 < ε → ∀ᶠ i in atTop, ∀ J : ℤ → ℤ, (∀ k, 2 ≤ J k ∧ J k ≤ (calmCall (1 / cos (π / 4)) i).jd - 1) →
    (calmCall (1 / cos (π / 4)) i).dz * ∑ k ∈ Icc 2 ((calmCall (1 / cos (π / 4)) i).kmax - 1),
      exp (-((calmCall (1 / cos (π / 4)) i).planet.height k / (calmCall (1 / cos (π / 4)) i).h)) *
      (|(calmCall (1 / cos (π / 4)) i).uref (J k) k - 0| *
        cos ((calmCall (1 / cos (π / 4)) i).planet.lat ((J k + (calmCall (1 / cos (π / 4)) i).jb : ℤ) : ℝ))) ^ 2 ≤ ε := by
  have hpi := pi_pos
  have hc : 0 < cos (π / 4) := cos_pos_of_mem_Ioo ⟨by linarith, by linarith⟩
  have hw : 0 < 1 / cos (π / 4) := by positivity
  have h1 : 0 ≤ π / 4 := by positivity
  have h2 : π / 4 < π / 2 := by linarith
  intro ε hε
  refine C167_code (B := BalancedState.calm) (q := fun x _ _ => 2 * 1 * sin x) (ζ := fun x _ _ => 2 * (1 / cos (π / 4)) * sin x)
    BalancedState.calm_solves (contDiff_const (c := (1 : ℝ))) (by show 0 < π / 4; positivity) (by show π / 4 < π / 2; linarith)
    (by fun_prop) (by fun_prop) (fun _ _ _ => planetary_highest one_pos) (fun _ _ _ => planetary_highest hw)
    (fun _ φ _ _ f1 f2 => by
      have f1 : π / 4 ≤ φ := f1
      have := planetary_encloses (a := 1) one_pos one_pos (by linarith : (0 : ℝ) ≤ φ) f2
      show Encloses 1 _ _ _ _ (2 * 1 * sin φ * 1)
      rwa [mul_one (2 * 1 * sin φ)])
    (V := fun _ => 2 * (1 / cos (π / 4)) * sin (π / 4)) (fun _ _ _ => planetary_encloses one_pos hw h1 h2)
    (fun _ _ _ => ?_) (calmCall_sampled (1 / cos (π / 4))) (fun i j _ _ => calmCall_top _ i j) tendsto_const_nhds hε
  have := planetary_circulation (a := 1) hw h1 h2
  show (0 : ℝ) = refCirculation 1 _ (northCap 1 (π / 4)) _ / (2 * π * 1 * cos (π / 4)) - 1 * 1
  rw [this]
  unfold kelvin
  generalize cos (π / 4) = c at hc
  field_simp
  ring

end NhnIn

end Falwa
