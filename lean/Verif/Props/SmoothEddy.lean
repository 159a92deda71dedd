import Verif.Props.Conserved
import Verif.Props.FluxTerms
import Mathlib.Analysis.Calculus.MeanValue

/-!
# C182: limits of `adv_flux_f3`, `meridional_heat_flux` and `divergence_eddy_momentum_flux` for smooth input
-/

noncomputable section

namespace Falwa

open Filter Finset Real Spec

namespace QGAnalysis

/-- The same analysis with another reference wind and reference potential temperature. -/
def withReference (S : QGAnalysis) (U T : ℤ → ℤ → ℝ) : QGAnalysis := { S with uref := U, ptref := T }

theorem Valid.withReference {S : QGAnalysis} (h : S.Valid) (U T : ℤ → ℤ → ℝ) : (S.withReference U T).Valid :=
  ⟨h.odd, h.jb0, h.jbnd, h.jdEq, h.a0⟩

end QGAnalysis

namespace Atmos

/-- Difference quotients of functions that are known up to an error small compared with the step. -/
theorem slope_limit {μ σ : ℕ → ℝ → ℝ} (hd : ∀ n y, HasDerivAt (μ n) (σ n y) y) {a b : ℕ → ℝ} (hab : ∀ n, a n < b n) {z s : ℝ}
    (ha : Tendsto a atTop (nhds z)) (hb : Tendsto b atTop (nhds z))
    (hσ : ∀ ξ : ℕ → ℝ, Tendsto ξ atTop (nhds z) → Tendsto (fun n => σ n (ξ n)) atTop (nhds s)) {α β e : ℕ → ℝ}
    (hα : ∀ n, |α n - μ n (a n)| ≤ e n) (hβ : ∀ n, |β n - μ n (b n)| ≤ e n)
    (he : Tendsto (fun n => e n / (b n - a n)) atTop (nhds 0)) :
    Tendsto (fun n => (β n - α n) / (b n - a n)) atTop (nhds s) := by
  have hex : ∀ n, ∃ c ∈ Set.Ioo (a n) (b n), σ n c = (μ n (b n) - μ n (a n)) / (b n - a n) := fun n =>
    exists_hasDerivAt_eq_slope (μ n) (σ n) (hab n) (fun y _ => (hd n y).continuousAt.continuousWithinAt) fun y _ => hd n y
  choose ξ hξ hs using hex
  have hξz : Tendsto ξ atTop (nhds z) :=
    tendsto_of_tendsto_of_tendsto_of_le_of_le ha hb (fun n => (hξ n).1.le) fun n => (hξ n).2.le
  have h1 := hσ ξ hξz
  have h2 : Tendsto (fun n => (β n - α n) / (b n - a n) - σ n (ξ n)) atTop (nhds 0) := by
    refine squeeze_zero_norm (a := fun n => 2 * (e n / (b n - a n))) (fun n => ?_) (by simpa using he.const_mul 2)
    have hp : 0 < b n - a n := sub_pos.2 (hab n)
    rw [hs n, ← sub_div, Real.norm_eq_abs, abs_div, abs_of_pos hp, ← mul_div_assoc]
    refine div_le_div_of_nonneg_right ?_ hp.le
    have e1 : β n - α n - (μ n (b n) - μ n (a n)) = (β n - μ n (b n)) - (α n - μ n (a n)) := by ring
    rw [e1]
    have := abs_sub (β n - μ n (b n)) (α n - μ n (a n))
    linarith [hα n, hβ n]
  have h3 := h2.add h1
  rw [zero_add] at h3
  exact h3.congr fun n => by ring

variable {c : Scheme} {A : ℕ → Atmos} {F : Flow} {θ : ℝ → ℝ → ℝ → ℝ} {N S : Layers} {ε : ℕ → ℝ} {a om H top l φ : ℝ} {x g : ℕ → ℤ}
  {Ur Θ : ℝ → ℝ → ℝ} {μ σ : ℝ → ℝ} {ur pr : ℕ → ℤ → ℤ → ℝ}

/-- Longitudes and analysed rows of the output, in either hemisphere, that tend to the point `(φ, l)`. -/
structure Toward (c : Scheme) (A : ℕ → Atmos) (x g : ℕ → ℤ) (l φ : ℝ) : Prop where
  col : ∀ n, 1 ≤ x n ∧ x n ≤ (A n).nlon
  row : ∀ n, ((A n).analysis c).NorthRow (g n) ∨ ((A n).analysis c).SouthRow (g n)
  longitude : Tendsto (fun n => (A n).sphere.longitude (x n)) atTop (nhds l)
  latitude : Tendsto (fun n => (A n).lat ((A n).outRow (g n))) atTop (nhds φ)

/-- The rows have two analysed neighbours. -/
def Inside (A : ℕ → Atmos) (g : ℕ → ℤ) : Prop :=
  ∀ n, ((A n).nd + (A n).jb < (A n).outRow (g n) ∧ (A n).outRow (g n) < (A n).nlat ∧ ((A n).nhOnly = true ∨ (A n).nd < g n)) ∨
    ((A n).nhOnly = false ∧ 1 < g n ∧ g n < (A n).nd - (A n).jb)

/-- The reference wind `ur` and reference potential temperature `pr` on row `g n` and its neighbours are the values of `Ur` and `Θ`, up to
errors that are small compared with the spacing of the rows. -/
def ReferenceTends (A : ℕ → Atmos) (g : ℕ → ℤ) (Ur Θ : ℝ → ℝ → ℝ) (ur pr : ℕ → ℤ → ℤ → ℝ) : Prop :=
  ∃ e : ℕ → ℝ, Tendsto (fun n => e n / (A n).dphi) atTop (nhds 0) ∧
    ∀ n m k, g n - 1 ≤ m → m ≤ g n + 1 → 1 ≤ k → k ≤ (A n).kmax - 1 →
      |ur n m k - Ur ((A n).lat ((A n).outRow m)) ((A n).height k)| ≤ e n ∧
        |pr n m k - Θ ((A n).lat ((A n).outRow m)) ((A n).height k)| ≤ e n

/-- The mean potential temperature that the rows `g n` use is the profile `μ` with derivative `σ`, up to errors that are small compared
with the spacing of the levels. -/
structure Stratified (c : Scheme) (A : ℕ → Atmos) (g : ℕ → ℤ) (top : ℝ) (μ σ : ℝ → ℝ) : Prop where
  mean : ∃ e : ℕ → ℝ, Tendsto (fun n => e n / (A n).dz) atTop (nhds 0) ∧
    ∀ n k, 1 ≤ k → k ≤ (A n).kmax → |((A n).analysis c).theta0 (g n) k - μ ((A n).height k)| ≤ e n
  deriv : ∀ z, HasDerivAt μ (σ z) z
  continuous : Continuous σ
  stable : ∀ z, 0 ≤ z → z ≤ top → σ z ≠ 0

theorem row_spacing {A : Atmos} (h : A.Regular) : 0 < A.dphi := by
  have hn := h.nd3
  have hodd := h.odd
  unfold dphi
  refine div_pos pi_pos ?_
  exact_mod_cast (by omega : (0 : ℤ) < A.nlat - 1)

theorem Toward.mem (hP : Toward c A x g l φ) (hA : Refines a om H top A) (n : ℕ) :
    1 ≤ (A n).outRow (g n) ∧ (A n).outRow (g n) ≤ (A n).nlat := by
  have h := hA.regular n
  have hv := h.valid c
  have hn := h.nd3
  have hodd := h.odd
  have hj : 0 ≤ (A n).jb := hv.jb0
  rcases hP.row n with hg | hg
  · have h1 : (A n).nd + (A n).jb ≤ (A n).outRow (g n) := hg.1
    have h2 : (A n).outRow (g n) < (A n).nlat := hg.2.1
    omega
  · have h1 : (A n).outRow (g n) = g n := hg.outRow_eq
    have h2 : 1 < g n := hg.2.1
    have h3 : g n ≤ (A n).nd - (A n).jb := hg.2.2
    omega

/-- Samples of a continuous field near a point. -/
theorem sample_tends (hA : Refines a om H top A) {G : ℝ → ℝ → ℝ → ℝ} (hG : Continuous fun p : ℝ × ℝ × ℝ => G p.1 p.2.1 p.2.2)
    {X : ℕ → ℤ → ℤ → ℤ → ℝ} (hX : ∀ n i j k, (A n).sphere.Mem i j → 1 ≤ k → k ≤ (A n).kmax →
      X n i j k = G ((A n).sphere.latitude j) ((A n).sphere.longitude i) ((A n).height k))
    (hcol : ∀ n, 1 ≤ x n ∧ x n ≤ (A n).nlon) (hlon : Tendsto (fun n => (A n).sphere.longitude (x n)) atTop (nhds l))
    {f : ℕ → ℕ} (hf : Tendsto f atTop atTop) {r k : ℕ → ℤ} {y z : ℝ} (hr : ∀ n, 1 ≤ r n ∧ r n ≤ (A (f n)).nlat)
    (hlat : Tendsto (fun n => (A (f n)).lat (r n)) atTop (nhds y)) (hk : ∀ n, 1 ≤ k n ∧ k n ≤ (A (f n)).kmax)
    (hz : Tendsto (fun n => (A (f n)).height (k n)) atTop (nhds z)) :
    Tendsto (fun n => X (f n) (x (f n)) (r n) (k n)) atTop (nhds (G y l z)) := by
  have h1 := (hG.tendsto (y, l, z)).comp (hlat.prodMk_nhds ((hlon.comp hf).prodMk_nhds hz))
  refine h1.congr fun n => ?_
  rw [hX (f n) (x (f n)) (r n) (k n) ⟨hcol (f n), hr n⟩ (hk n).1 (hk n).2, lat_sphere (hA.regular (f n))]
  rfl

theorem small_of_spacing (hA : Refines a om H top A) {e : ℕ → ℝ} (he : Tendsto (fun n => e n / (A n).dphi) atTop (nhds 0)) :
    Tendsto e atTop (nhds 0) := by
  have h1 : Tendsto (fun n => (A n).dphi) atTop (nhds 0) := hA.spacing
  have h2 := he.mul h1
  rw [mul_zero] at h2
  exact h2.congr fun n => div_mul_cancel₀ _ (row_spacing (hA.regular n)).ne'

/-- Approximate values of a continuous function of latitude and height. -/
theorem near_tends {w : ℝ → ℝ → ℝ} (hw : Continuous fun p : ℝ × ℝ => w p.1 p.2) {y z : ℝ} {p q X e : ℕ → ℝ} (hp : Tendsto p atTop (nhds y))
    (hq : Tendsto q atTop (nhds z)) (he : Tendsto e atTop (nhds 0)) (h : ∀ n, |X n - w (p n) (q n)| ≤ e n) :
    Tendsto X atTop (nhds (w y z)) := by
  have h1 := (hw.tendsto (y, z)).comp (hp.prodMk_nhds hq)
  have h2 : Tendsto (fun n => X n - w (p n) (q n)) atTop (nhds 0) := squeeze_zero_norm h he
  have h3 := h2.add h1
  rw [zero_add] at h3
  exact h3.congr fun n => by
    show X n - w (p n) (q n) + w (p n) (q n) = X n
    ring

/-- Differences of the mean potential temperature between two levels. -/
theorem Stratified.slope (hst : Stratified c A g top μ σ) (hA : Refines a om H top A) {f : ℕ → ℕ} (hf : Tendsto f atTop atTop)
    {i j : ℕ → ℤ} {z : ℝ} {m : ℕ} (hm : 0 < m) (hij : ∀ n, j n = i n + m) (hi : ∀ n, 1 ≤ i n) (hj : ∀ n, j n ≤ (A (f n)).kmax)
    (hz : Tendsto (fun n => (A (f n)).height (i n)) atTop (nhds z)) :
    Tendsto (fun n => (((A (f n)).analysis c).theta0 (g (f n)) (j n) - ((A (f n)).analysis c).theta0 (g (f n)) (i n)) / (m * (A (f n)).dz))
      atTop (nhds (σ z)) := by
  obtain ⟨e, he, hb⟩ := hst.mean
  have hm' : (0 : ℝ) < m := by exact_mod_cast hm
  have hs : ∀ n, (A (f n)).height (j n) - (A (f n)).height (i n) = m * (A (f n)).dz := fun n => by
    rw [height_eq, height_eq, hij n]
    push_cast
    ring
  have hd0 : ∀ n, 0 < m * (A (f n)).dz := fun n => mul_pos hm' (hA.dz0 (f n))
  have hz' : Tendsto (fun n => (A (f n)).height (j n)) atTop (nhds z) := by
    have h1 := hz.add ((hA.levels.comp hf).const_mul (m : ℝ))
    rw [mul_zero, add_zero] at h1
    exact h1.congr fun n => by
      show (A (f n)).height (i n) + m * (A (f n)).dz = _
      rw [← hs n]
      ring
  have key := slope_limit (μ := fun _ => μ) (σ := fun _ => σ) (fun _ y => hst.deriv y) (a := fun n => (A (f n)).height (i n))
    (b := fun n => (A (f n)).height (j n)) (fun n => by have := hs n; have := hd0 n; linarith) hz hz'
    (fun ξ hξ => (hst.continuous.tendsto z).comp hξ) (e := fun n => e (f n))
    (α := fun n => ((A (f n)).analysis c).theta0 (g (f n)) (i n)) (β := fun n => ((A (f n)).analysis c).theta0 (g (f n)) (j n))
    (fun n => hb (f n) (i n) (hi n) (by have := hj n; have := hij n; omega))
    (fun n => hb (f n) (j n) (by have := hi n; have := hij n; omega) (hj n)) (by
      simp only [hs]
      have h1 := (he.comp hf).const_mul (m : ℝ)⁻¹
      rw [mul_zero] at h1
      refine h1.congr fun n => ?_
      show (m : ℝ)⁻¹ * (e (f n) / (A (f n)).dz) = _
      have := (hA.dz0 (f n)).ne'
      field_simp)
  simp only [hs] at key
  exact key

/-- **C182 (F3), both classes and hemispheres.** With any reference wind and potential temperature that tend to smooth ones, `adv_flux_f3`
tends to the column mean of the eddy energy term of the flow. -/
theorem C182_f3 {R cp : ℝ} (hO : ∀ n, (A n).Observes F θ N S (ε n)) (hU : Continuous fun p : ℝ × ℝ × ℝ => F.U p.1 p.2.1 p.2.2)
    (hV : Continuous fun p : ℝ × ℝ × ℝ => F.V p.1 p.2.1 p.2.2) (hθ : Continuous fun p : ℝ × ℝ × ℝ => θ p.1 p.2.1 p.2.2)
    (hUr : Continuous fun p : ℝ × ℝ => Ur p.1 p.2) (hΘ : Continuous fun p : ℝ × ℝ => Θ p.1 p.2) (hA : Refines a om H top A)
    (hlast : ∀ n, (A n).height (A n).kmax = top) (hR : ∀ n, (A n).rr = R) (hcp : ∀ n, (A n).cp = cp) (hP : Toward c A x g l φ)
    (href : ReferenceTends A g Ur Θ ur pr) (hst : Stratified c A g top μ σ) :
    Tendsto (fun n => (((A n).analysis c).withReference (ur n) (pr n)).advFluxF3 (x n) (g n)) atTop
      (nhds (columnMean H top fun z =>
        eddyEnergyTerm R H (R / cp) z φ (σ z) (F.U φ l z) (Ur φ z) (F.V φ l z) (θ φ l z) (Θ φ z))) := by
  obtain ⟨e, he', hb⟩ := href
  have he := small_of_spacing hA he'
  have hl := mean_limit (c := c) hA hlast (G := fun n k => eddyEnergyTerm R H (R / cp) ((A n).height k) ((A n).lat ((A n).outRow (g n)))
      ((((A n).analysis c).theta0 (g n) (k + 1) - ((A n).analysis c).theta0 (g n) (k - 1)) / (2 * (A n).dz))
      ((A n).u (x n) ((A n).outRow (g n)) k) (ur n (g n) k) ((A n).v (x n) ((A n).outRow (g n)) k)
      ((A n).theta (x n) ((A n).outRow (g n)) k) (pr n (g n) k))
    (L := fun z => eddyEnergyTerm R H (R / cp) z φ (σ z) (F.U φ l z) (Ur φ z) (F.V φ l z) (θ φ l z) (Θ φ z))
    fun f k z hz hf hk ht => by
      have hk' : ∀ n, 1 ≤ k n ∧ k n ≤ (A (f n)).kmax := fun n => by have := hk n; omega
      have hr : ∀ n, 1 ≤ (A (f n)).outRow (g (f n)) ∧ (A (f n)).outRow (g (f n)) ≤ (A (f n)).nlat := fun n => hP.mem hA (f n)
      have hlat := hP.latitude.comp hf
      have tu := sample_tends hA hU (X := fun n => (A n).u) (fun n => (hO n).u) hP.col hP.longitude hf hr hlat hk' ht
      have tv := sample_tends hA hV (X := fun n => (A n).v) (fun n => (hO n).v) hP.col hP.longitude hf hr hlat hk' ht
      have tθ := sample_tends hA hθ (X := fun n => (A n).theta) (fun n => (hO n).theta) hP.col hP.longitude hf hr hlat hk' ht
      have tU := near_tends hUr hlat ht (he.comp hf) (X := fun n => ur (f n) (g (f n)) (k n))
        fun n => (hb (f n) (g (f n)) (k n) (by omega) (by omega) (by have := hk n; omega) (hk n).2).1
      have tΘ := near_tends hΘ hlat ht (he.comp hf) (X := fun n => pr (f n) (g (f n)) (k n))
        fun n => (hb (f n) (g (f n)) (k n) (by omega) (by omega) (by have := hk n; omega) (hk n).2).2
      have tz : Tendsto (fun n => (A (f n)).height (k n - 1)) atTop (nhds z) := by
        have h1 := ht.sub (hA.levels.comp hf)
        rw [sub_zero] at h1
        exact h1.congr fun n => by
          show (A (f n)).height (k n) - (A (f n)).dz = _
          rw [height_eq, height_eq]
          push_cast
          ring
      have ts := hst.slope hA hf (i := fun n => k n - 1) (j := fun n => k n + 1) (m := 2) two_pos (fun n => by push_cast; ring)
        (fun n => by have := hk n; omega) (fun n => by have := hk n; omega) tz
      have tc := (continuous_cos.tendsto φ).comp hlat
      have tx : Tendsto (fun n => exp (-(R / cp) * (A (f n)).height (k n) / H)) atTop (nhds (exp (-(R / cp) * z / H))) :=
        (continuous_exp.tendsto _).comp ((ht.const_mul _).div_const _)
      unfold eddyEnergyTerm
      exact ((((tv.pow 2).sub ((tu.sub tU).pow 2)).sub (((tx.const_mul (R / H)).mul ((tθ.sub tΘ).pow 2)).div ts (hst.stable z hz.1 hz.2))).div_const
        2).mul tc
  refine hl.congr fun n => ?_
  have hv := ((hA.regular n).valid c).withReference (ur n) (pr n)
  rw [QGAnalysis.C84_f3 hv (hA.regular n).kmax3 (x n) (g n) (hP.col n) (hP.row n)]
  show ((A n).analysis c).columnMean _ = ((A n).analysis c).columnMean _
  congr 1
  funext k
  show _ = eddyEnergyTerm (A n).rr (A n).h ((A n).rr / (A n).cp) ((A n).dz * ((k - 1 : ℤ) : ℝ)) ((A n).lat ((A n).outRow (g n))) _ _ _ _ _ _
  rw [hR n, hcp n, hA.scale n, mul_comm (A n).dz]
  rfl

/-- **C182 (heat flux), both classes and hemispheres.** `meridional_heat_flux` tends to `f cos φ` times the eddy heat flux at the ground over
the stability there, divided by the mass of the column. -/
theorem C182_heat (hO : ∀ n, (A n).Observes F θ N S (ε n))
    (hV : Continuous fun p : ℝ × ℝ × ℝ => F.V p.1 p.2.1 p.2.2) (hθ : Continuous fun p : ℝ × ℝ × ℝ => θ p.1 p.2.1 p.2.2)
    (hΘ : Continuous fun p : ℝ × ℝ => Θ p.1 p.2) (hA : Refines a om H top A)
    (hlast : ∀ n, (A n).height (A n).kmax = top) (hP : Toward c A x g l φ)
    (href : ReferenceTends A g Ur Θ ur pr) (hst : Stratified c A g top μ σ) :
    Tendsto (fun n => (((A n).analysis c).withReference (ur n) (pr n)).heatFlux (x n) (g n)) atTop
      (nhds (2 * om * sin φ * cos φ / (∫ z in (0 : ℝ)..top, exp (-z / H)) * (F.V φ l 0 * (θ φ l 0 - Θ φ 0) / σ 0))) := by
  obtain ⟨e, he', hb⟩ := href
  have he := small_of_spacing hA he'
  have hkm : ∀ n, 3 ≤ (A n).kmax := fun n => (hA.regular n).kmax3
  have ht0 : 0 ≤ top := by
    have := hA.height_mem 0 (k := 1) le_rfl (by have := hkm 0; omega)
    exact this.1.trans this.2
  have tlev : ∀ k : ℤ, Tendsto (fun n => (A n).height k) atTop (nhds 0) := fun k => by
    have h1 := hA.levels.const_mul ((k : ℝ) - 1)
    rw [mul_zero] at h1
    exact h1.congr fun n => (height_eq (A n) k).symm
  have hr := hP.mem hA
  have one : ∀ (k m : ℤ) (d : ℕ), 1 ≤ k → k ≤ 2 → 0 < d → m = 1 + d → m ≤ 3 →
      Tendsto (fun n => exp (-(A n).height k / H) * ((A n).v (x n) ((A n).outRow (g n)) k *
        ((A n).theta (x n) ((A n).outRow (g n)) k - pr n (g n) k)) /
        ((((A n).analysis c).theta0 (g n) m - ((A n).analysis c).theta0 (g n) 1) / (d * (A n).dz))) atTop
        (nhds (F.V φ l 0 * (θ φ l 0 - Θ φ 0) / σ 0)) := fun k m d k1 k2 d0 hm m3 => by
    have hk' : ∀ n, 1 ≤ k ∧ k ≤ (A n).kmax := fun n => by have := hkm n; omega
    have tv := sample_tends hA hV (X := fun n => (A n).v) (fun n => (hO n).v) hP.col hP.longitude (f := id) tendsto_id hr hP.latitude
      (k := fun _ => k) hk' (tlev k)
    have tθ := sample_tends hA hθ (X := fun n => (A n).theta) (fun n => (hO n).theta) hP.col hP.longitude (f := id) tendsto_id hr hP.latitude
      (k := fun _ => k) hk' (tlev k)
    have tΘ := near_tends hΘ hP.latitude (tlev k) he (X := fun n => pr n (g n) k)
      fun n => (hb n (g n) k (by omega) (by omega) k1 (by have := hkm n; omega)).2
    have ts := hst.slope hA (f := id) tendsto_id (i := fun _ => 1) (j := fun _ => m) (m := d) d0 (fun _ => hm) (fun _ => le_rfl)
      (fun n => by show m ≤ (A n).kmax; have := hkm n; omega) (tlev 1)
    have tx : Tendsto (fun n => exp (-(A n).height k / H)) atTop (nhds 1) := by
      have := (continuous_exp.tendsto _).comp ((tlev k).neg.div_const H)
      rw [neg_zero, zero_div, exp_zero] at this
      exact this
    have h := (tx.mul (tv.mul (tθ.sub tΘ))).div ts (hst.stable 0 le_rfl ht0)
    rw [one_mul] at h
    exact h
  have h1 := one 1 2 1 le_rfl (by norm_num) one_pos (by norm_num) (by norm_num)
  have h2 := one 2 3 2 (by norm_num) le_rfl two_pos (by norm_num) le_rfl
  obtain ⟨hpre, hpos⟩ := prefactor_limit (c := c) hA hlast
  have hs := (continuous_sin.tendsto φ).comp hP.latitude
  have hc := (continuous_cos.tendsto φ).comp hP.latitude
  have h3 := (((hs.const_mul (2 * om)).mul hc).div hpre hpos.ne').mul ((h1.add h2).div_const 2)
  rw [add_self_div_two] at h3
  refine h3.congr fun n => ?_
  have hv := ((hA.regular n).valid c).withReference (ur n) (pr n)
  rw [QGAnalysis.C85_heat_flux hv (hkm n) (x n) (g n) (hP.col n) (hP.row n)]
  unfold QGAnalysis.eddyHeatFlux
  show _ = 2 * (A n).om * sin ((A n).lat ((A n).outRow (g n))) * cos ((A n).lat ((A n).outRow (g n))) / ((A n).analysis c).prefactor *
    ((exp (-((A n).dz * ((1 - 1 : ℤ) : ℝ)) / (A n).h) * ((A n).v (x n) ((A n).outRow (g n)) 1 *
          ((A n).theta (x n) ((A n).outRow (g n)) 1 - pr n (g n) 1)) /
        ((((A n).analysis c).theta0 (g n) 2 - ((A n).analysis c).theta0 (g n) 1) / (A n).dz) +
      exp (-((A n).dz * ((2 - 1 : ℤ) : ℝ)) / (A n).h) * ((A n).v (x n) ((A n).outRow (g n)) 2 *
          ((A n).theta (x n) ((A n).outRow (g n)) 2 - pr n (g n) 2)) /
        ((((A n).analysis c).theta0 (g n) 3 - ((A n).analysis c).theta0 (g n) 1) / (2 * (A n).dz))) / 2)
  rw [hA.rotation n, hA.scale n, mul_comm (A n).dz, mul_comm (A n).dz, Nat.cast_one, one_mul]
  rfl

/-- **C182 (momentum flux), both classes and hemispheres.** `divergence_eddy_momentum_flux` tends to the column mean of the derivative in
latitude of the eddy momentum flux `(U - Uref) V cos² φ`, divided by `a cos φ`. -/
theorem C182_divergence {P : ℝ → ℝ → ℝ → ℝ} (hO : ∀ n, (A n).Observes F θ N S (ε n))
    (hV : Continuous fun p : ℝ × ℝ × ℝ => F.V p.1 p.2.1 p.2.2)
    (hP' : Continuous fun p : ℝ × ℝ × ℝ => P p.1 p.2.1 p.2.2)
    (hd : ∀ y l z, HasDerivAt (fun y => (F.U y l z - Ur y z) * cos y ^ 2 * F.V y l z) (P y l z) y) (hA : Refines a om H top A)
    (hlast : ∀ n, (A n).height (A n).kmax = top) (hP : Toward c A x g l φ) (hin : Inside A g) (hφ : cos φ ≠ 0)
    (href : ReferenceTends A g Ur Θ ur pr) :
    Tendsto (fun n => (((A n).analysis c).withReference (ur n) (pr n)).divEddyMomentumFlux (x n) (g n)) atTop
      (nhds (columnMean H top (fun z => P φ l z) / (a * cos φ))) := by
  obtain ⟨e, he, hb⟩ := href
  have hdp := fun n => row_spacing (hA.regular n)
  have hr : ∀ n, 1 ≤ (A n).outRow (g n - 1) ∧ (A n).outRow (g n + 1) ≤ (A n).nlat := fun n => by
    have h := hA.regular n
    have hn := h.nd3
    have hodd := h.odd
    have hj : 0 ≤ (A n).jb := (h.valid c).jb0
    rcases hin n with hg | hg
    · have h1 := hg.1
      have h2 := hg.2.1
      unfold outRow at *
      omega
    · obtain ⟨h1, h2, h3⟩ := hg
      unfold outRow rows
      rw [h1]
      simp only [Bool.false_eq_true, if_false]
      omega
  have hstep : ∀ n, (A n).lat ((A n).outRow (g n + 1)) - (A n).lat ((A n).outRow (g n - 1)) = 2 * (A n).dphi := fun n => by
    unfold lat outRow
    push_cast
    ring
  have hup : ∀ n, (A n).lat ((A n).outRow (g n + 1)) = (A n).lat ((A n).outRow (g n)) + (A n).dphi := fun n => by
    unfold lat outRow
    push_cast
    ring
  have hdn : ∀ n, (A n).lat ((A n).outRow (g n - 1)) = (A n).lat ((A n).outRow (g n)) - (A n).dphi := fun n => by
    unfold lat outRow
    push_cast
    ring
  have hsp : Tendsto (fun n => (A n).dphi) atTop (nhds 0) := hA.spacing
  have tup : Tendsto (fun n => (A n).lat ((A n).outRow (g n + 1))) atTop (nhds φ) := by
    simp only [hup]
    simpa using hP.latitude.add hsp
  have tdn : Tendsto (fun n => (A n).lat ((A n).outRow (g n - 1))) atTop (nhds φ) := by
    simp only [hdn]
    simpa using hP.latitude.sub hsp
  have hl := mean_limit (c := c) hA hlast (G := fun n k =>
      ((((A n).analysis c).withReference (ur n) (pr n)).eddyMomentumFlux (x n) (g n + 1) k -
        (((A n).analysis c).withReference (ur n) (pr n)).eddyMomentumFlux (x n) (g n - 1) k) / (2 * (A n).dphi))
    (L := fun z => P φ l z) fun f k z hz hf hk ht => by
      have hk' : ∀ n, 1 ≤ k n ∧ k n ≤ (A (f n)).kmax := fun n => by have := hk n; omega
      have hr1 : ∀ n, 1 ≤ (A (f n)).outRow (g (f n) + 1) ∧ (A (f n)).outRow (g (f n) + 1) ≤ (A (f n)).nlat := fun n => by
        have := hr (f n)
        unfold outRow at *
        omega
      have hr2 : ∀ n, 1 ≤ (A (f n)).outRow (g (f n) - 1) ∧ (A (f n)).outRow (g (f n) - 1) ≤ (A (f n)).nlat := fun n => by
        have := hr (f n)
        unfold outRow at *
        omega
      have tv1 := sample_tends hA hV (X := fun n => (A n).v) (fun n => (hO n).v) hP.col hP.longitude hf hr1 (tup.comp hf) hk' ht
      have tv2 := sample_tends hA hV (X := fun n => (A n).v) (fun n => (hO n).v) hP.col hP.longitude hf hr2 (tdn.comp hf) hk' ht
      have err : ∀ n m, g (f n) - 1 ≤ m → m ≤ g (f n) + 1 → 1 ≤ (A (f n)).outRow m → (A (f n)).outRow m ≤ (A (f n)).nlat →
          |(((A (f n)).analysis c).withReference (ur (f n)) (pr (f n))).eddyMomentumFlux (x (f n)) m (k n) -
            (F.U ((A (f n)).lat ((A (f n)).outRow m)) ((A (f n)).sphere.longitude (x (f n))) ((A (f n)).height (k n)) -
              Ur ((A (f n)).lat ((A (f n)).outRow m)) ((A (f n)).height (k n))) * cos ((A (f n)).lat ((A (f n)).outRow m)) ^ 2 *
              F.V ((A (f n)).lat ((A (f n)).outRow m)) ((A (f n)).sphere.longitude (x (f n))) ((A (f n)).height (k n))| ≤
            e (f n) * |(A (f n)).v (x (f n)) ((A (f n)).outRow m) (k n)| := fun n m m1 m2 r1 r2 => by
        have hmem : (A (f n)).sphere.Mem (x (f n)) ((A (f n)).outRow m) := ⟨hP.col (f n), r1, r2⟩
        have eu := (hO (f n)).u _ _ (k n) hmem (hk' n).1 (hk' n).2
        have ev := (hO (f n)).v _ _ (k n) hmem (hk' n).1 (hk' n).2
        rw [lat_sphere (hA.regular (f n))] at eu ev
        rw [← eu, ← ev]
        have e1 : (((A (f n)).analysis c).withReference (ur (f n)) (pr (f n))).eddyMomentumFlux (x (f n)) m (k n) =
            ((A (f n)).u (x (f n)) ((A (f n)).outRow m) (k n) - ur (f n) m (k n)) * cos ((A (f n)).lat ((A (f n)).outRow m)) ^ 2 *
              (A (f n)).v (x (f n)) ((A (f n)).outRow m) (k n) := rfl
        rw [e1]
        have e2 : ∀ p q s t C : ℝ, (p - q) * C * t - (p - s) * C * t = -((q - s) * C * t) := fun p q s t C => by ring
        rw [e2, abs_neg, abs_mul, abs_mul]
        refine mul_le_mul_of_nonneg_right ?_ (abs_nonneg _)
        have hc1 : |cos ((A (f n)).lat ((A (f n)).outRow m)) ^ 2| ≤ 1 := by
          rw [abs_of_nonneg (sq_nonneg _)]
          exact cos_sq_le_one _
        refine (mul_le_of_le_one_right (abs_nonneg _) hc1).trans ?_
        exact (hb (f n) m (k n) m1 m2 (hk' n).1 (hk n).2).1
      have key := slope_limit
        (μ := fun n y => (F.U y ((A (f n)).sphere.longitude (x (f n))) ((A (f n)).height (k n)) - Ur y ((A (f n)).height (k n))) * cos y ^ 2 *
          F.V y ((A (f n)).sphere.longitude (x (f n))) ((A (f n)).height (k n)))
        (σ := fun n y => P y ((A (f n)).sphere.longitude (x (f n))) ((A (f n)).height (k n))) (fun n y => hd y _ _)
        (a := fun n => (A (f n)).lat ((A (f n)).outRow (g (f n) - 1))) (b := fun n => (A (f n)).lat ((A (f n)).outRow (g (f n) + 1)))
        (fun n => by have := hstep (f n); have := hdp (f n); linarith) (tdn.comp hf) (tup.comp hf) (s := P φ l z)
        (fun ξ hξ => (hP'.tendsto (φ, l, z)).comp (hξ.prodMk_nhds ((hP.longitude.comp hf).prodMk_nhds ht)))
        (e := fun n => e (f n) * (|(A (f n)).v (x (f n)) ((A (f n)).outRow (g (f n) - 1)) (k n)| +
          |(A (f n)).v (x (f n)) ((A (f n)).outRow (g (f n) + 1)) (k n)|))
        (α := fun n => (((A (f n)).analysis c).withReference (ur (f n)) (pr (f n))).eddyMomentumFlux (x (f n)) (g (f n) - 1) (k n))
        (β := fun n => (((A (f n)).analysis c).withReference (ur (f n)) (pr (f n))).eddyMomentumFlux (x (f n)) (g (f n) + 1) (k n))
        (fun n => (err n _ le_rfl (by omega) (hr2 n).1 (hr2 n).2).trans (mul_le_mul_of_nonneg_left (le_add_of_nonneg_right (abs_nonneg _))
          ((abs_nonneg _).trans (hb (f n) (g (f n)) (k n) (by omega) (by omega) (hk' n).1 (hk n).2).1)))
        (fun n => (err n _ (by omega) le_rfl (hr1 n).1 (hr1 n).2).trans (mul_le_mul_of_nonneg_left (le_add_of_nonneg_left (abs_nonneg _))
          ((abs_nonneg _).trans (hb (f n) (g (f n)) (k n) (by omega) (by omega) (hk' n).1 (hk n).2).1)))
        (by
          simp only [hstep]
          have h1 := ((he.comp hf).mul (tv2.abs.add tv1.abs)).div_const 2
          rw [zero_mul, zero_div] at h1
          refine h1.congr fun n => ?_
          show e (f n) / (A (f n)).dphi * _ / 2 = _
          have := (hdp (f n)).ne'
          field_simp)
      simp only [hstep] at key
      exact key
  have hc := (continuous_cos.tendsto φ).comp hP.latitude
  have hfin := hl.div (hc.const_mul a) (mul_ne_zero hA.radius_pos.ne' hφ)
  refine hfin.congr fun n => ?_
  have hv := ((hA.regular n).valid c).withReference (ur n) (pr n)
  rw [QGAnalysis.C75_divergence_partial hv (x n) (g n) (hP.col n) (hin n)]
  have hav : (((A n).analysis c).withReference (ur n) (pr n)).centredDifference
      ((((A n).analysis c).withReference (ur n) (pr n)).eddyMomentumFlux (x n)) (g n) =
      ((A n).analysis c).columnMean (fun k => (((A n).analysis c).withReference (ur n) (pr n)).eddyMomentumFlux (x n) (g n + 1) k -
        (((A n).analysis c).withReference (ur n) (pr n)).eddyMomentumFlux (x n) (g n - 1) k) := by
    unfold QGAnalysis.centredDifference
    refine QGAnalysis.average_eq (S := ((A n).analysis c).withReference (ur n) (pr n)) (hA.regular n).kmax3 (if_neg (lt_irrefl _)) fun k hk => if_pos ?_
    have := hk.2
    omega
  rw [hav]
  show ((A n).analysis c).columnMean _ / (a * cos ((A n).lat ((A n).outRow (g n)))) =
    _ / (2 * (A n).a * (A n).dphi * cos ((A n).lat ((A n).outRow (g n))))
  rw [hA.radius n]
  have e1 : ∀ w : ℤ → ℝ, ((A n).analysis c).columnMean (fun k => w k / (2 * (A n).dphi)) = ((A n).analysis c).columnMean w / (2 * (A n).dphi) := fun w => by
    unfold QGAnalysis.columnMean
    rw [sum_div]
    refine sum_congr rfl fun k _ => ?_
    ring
  rw [e1, div_div]
  congr 1
  ring

theorem TowardNorth.toward {A : ℕ → Atmos} {x g : ℕ → ℤ} {l : ℝ} (h : TowardNorth A x g l φ) : Toward c A x g l φ where
  col := h.col
  row := fun n => by
    obtain ⟨h1, h2, h3⟩ := h.row n
    refine Or.inl ⟨h2, h3, ?_⟩
    have hr : (A n).outRow (g n) = (A n).nlat - (if (A n).nhOnly then (A n).nd else (A n).nlat) + g n := rfl
    rcases hb : (A n).nhOnly with _ | _
    · refine Or.inr ?_
      rw [hb] at hr
      simp only [Bool.false_eq_true, if_false] at hr
      show (A n).nd < g n
      omega
    · exact Or.inl hb
  longitude := h.longitude
  latitude := h.latitude

theorem TowardSouth.toward {A : ℕ → Atmos} {x g : ℕ → ℤ} {l : ℝ} (h : TowardSouth A x g l φ) : Toward c A x g l φ where
  col := h.col
  row := fun n => Or.inr ⟨h.globe n, (h.row n).1, (h.row n).2.2⟩
  longitude := h.longitude
  latitude := by
    refine h.latitude.congr fun n => ?_
    have hr : (A n).outRow (g n) = (A n).nlat - (if (A n).nhOnly then (A n).nd else (A n).nlat) + g n := rfl
    rw [hr, h.globe n]
    simp

/-! ### A sample: the turned flow of `Props/Conserved.lean` with a reference jet and a reference temperature below that of the air -/

/-- Samples of the wind `κ cos φ`. -/
def jetSamples (κ s : ℝ) (n : ℕ) (m _k : ℤ) : ℝ := κ * cos ((turnedFine s n).lat ((turnedFine s n).outRow m))

/-- Samples of the potential temperature `z - 1`. -/
def coldSamples (s : ℝ) (n : ℕ) (_m k : ℤ) : ℝ := (turnedFine s n).height k - 1

theorem turnedFine_reference (κ s : ℝ) (g : ℕ → ℤ) :
    ReferenceTends (turnedFine s) g (fun y _ => κ * cos y) (fun _ z => z - 1) (jetSamples κ s) (coldSamples s) :=
  ⟨fun _ => 0, by simp, fun n m k _ _ _ _ => ⟨by unfold jetSamples; simp, by unfold coldSamples; simp⟩⟩

theorem turnedFine_stratified (c : Scheme) (s : ℝ) (g : ℕ → ℤ) : Stratified c (turnedFine s) g 1 (fun z => z) fun _ => 1 where
  mean := ⟨fun _ => 0, by simp, fun n k _ _ => by
    have e : ((turnedFine s n).analysis c).theta0 (g n) k = (turnedFine s n).height k := by
      have e1 : ((turnedFine s n).analysis c).tn0 k = (turnedFine s n).height k := by
        cases c
        · show 0.5 * ((turnedFine s n).ts0 k + (turnedFine s n).tn0 k) = _
          rw [turnedFine_ts0, turnedFine_tn0]
          ring
        · exact turnedFine_tn0 s n k
      have e2 : ((turnedFine s n).analysis c).ts0 k = (turnedFine s n).height k := by
        cases c
        · show 0.5 * ((turnedFine s n).ts0 k + (turnedFine s n).tn0 k) = _
          rw [turnedFine_ts0, turnedFine_tn0]
          ring
        · exact turnedFine_ts0 s n k
      unfold QGAnalysis.theta0
      split_ifs
      · exact e2
      · exact e1
    rw [e, sub_self, abs_zero]⟩
  deriv := fun z => hasDerivAt_id z
  continuous := continuous_const
  stable := fun _ _ _ => one_ne_zero

theorem turnedFine_insideN (s : ℝ) : Inside (turnedFine s) fun n => (turnedFine s n).nd + (n + 1) := fun n => by
  have h := (turnedFine_north s).row n
  have e1 : (turnedFine s n).outRow ((turnedFine s n).nd + (n + 1)) = (turnedFine s n).nd + (n + 1) := by
    show (turnedFine s n).nlat - (turnedFine s n).nlat + _ = _
    ring
  have e2 : (turnedFine s n).jb = 0 := rfl
  refine Or.inl ⟨?_, h.2.2, Or.inr (by beta_reduce; omega)⟩
  rw [e1, e2]
  omega

theorem turnedFine_insideS (s : ℝ) : Inside (turnedFine s) fun n => (turnedFine s n).nd - (n + 1) := fun n => by
  have h := (turnedFine_south s).row n
  have e2 : (turnedFine s n).jb = 0 := rfl
  refine Or.inr ⟨rfl, h.1, ?_⟩
  rw [e2]
  beta_reduce
  omega

/-- Hypotheses of `C182_f3`, `C182_heat` and `C182_divergence`, at 45°N and 45°S; the eddies are not zero. -/
example (c : Scheme) (s : ℝ) (hs : sin s ≠ 0) :
    (∀ n, (turnedFine s n).Observes (turned s) (fun _ _ z => z) calmLayers calmLayers 0) ∧ Refines 1 (1 / 2) 1 1 (turnedFine s) ∧
      Toward c (turnedFine s) (fun _ => 1) (fun n => (turnedFine s n).nd + (n + 1)) 0 (π / 4) ∧
      Toward c (turnedFine s) (fun _ => 1) (fun n => (turnedFine s n).nd - (n + 1)) 0 (-(π / 4)) ∧
      Inside (turnedFine s) (fun n => (turnedFine s n).nd + (n + 1)) ∧ Inside (turnedFine s) (fun n => (turnedFine s n).nd - (n + 1)) ∧
      (∀ g, ReferenceTends (turnedFine s) g (fun y _ => 3 * cos y) (fun _ z => z - 1) (jetSamples 3 s) (coldSamples s)) ∧
      (∀ g, Stratified c (turnedFine s) g 1 (fun z => z) fun _ => 1) ∧
      (∀ n, (turnedFine s n).rr = 1) ∧ (∀ n, (turnedFine s n).cp = 1) ∧
      (∀ y l z, HasDerivAt (fun y => ((turned s).U y l z - 3 * cos y) * cos y ^ 2 * (turned s).V y l z)
        (((-(cos y * cos (l + s)) + 3 * sin y) * cos y ^ 2 + (-(sin y * cos (l + s)) - 3 * cos y) * (2 * cos y * -sin y)) * sin (l + s)) y) ∧
      (turned s).V (π / 4) 0 0 * (0 - (0 - 1)) / 1 ≠ 0 := by
  refine ⟨turnedFine_observes s, turnedFine_refines s, (turnedFine_north s).toward, (turnedFine_south s).toward, turnedFine_insideN s,
    turnedFine_insideS s, turnedFine_reference 3 s, turnedFine_stratified c s, fun _ => rfl, fun _ => rfl, fun y l z => ?_, ?_⟩
  · have h1 := (((hasDerivAt_sin y).mul_const (cos (l + s))).neg).sub ((hasDerivAt_cos y).const_mul 3)
    have h := (h1.mul ((hasDerivAt_cos y).pow 2)).mul_const (sin (l + s))
    refine h.congr_deriv ?_
    simp only [Nat.add_one_sub_one, pow_one, Pi.sub_apply, Pi.neg_apply, Pi.pow_apply]
    push_cast
    ring
  · show sin (0 + s) * (0 - (0 - 1)) / 1 ≠ 0
    rw [zero_add]
    simpa using hs

end Atmos

end Falwa

end
