import Verif.Spec.Flow
import Verif.Lemmas.Central
import Verif.Props.Consistency
import Verif.Props.RearrangeClasses

/-!
# C168: QGPV of smooth winds and temperature

The absolute vorticity and the QGPV that the class computes from samples of smooth fields on ever finer grids tend to the vorticity and
the QGPV of the sphere, uniformly up to the poles.
-/

noncomputable section

namespace Falwa

open Real Finset Spec Filter

/-- A continuous function of a parameter that converges, uniformly on a compact set. -/
theorem parameter_error {X : Type*} [TopologicalSpace X] {K : Set X} (hK : IsCompact K) {f : ℝ → X → ℝ}
    (hf : Continuous fun p : ℝ × X => f p.1 p.2) {s : ℕ → ℝ} {c : ℝ} (hs : Tendsto s atTop (nhds c)) :
    ∃ d : ℕ → ℝ, Tendsto d atTop (nhds 0) ∧ (∀ n, 0 ≤ d n) ∧ ∀ n, ∀ x ∈ K, |f (s n) x - f c x| ≤ d n := by
  rcases K.eq_empty_or_nonempty with rfl | hne
  · exact ⟨fun _ => 0, tendsto_const_nhds, fun _ => le_rfl, fun _ _ hx => hx.elim⟩
  set F : ℝ → X → ℝ := fun t x => |f t x - f c x| with hF
  have hFc : Continuous (Function.uncurry F) :=
    (hf.sub (hf.comp (f := fun p : ℝ × X => (c, p.2)) (by fun_prop))).abs
  have hM := hK.continuous_sSup (f := F) hFc
  have hle : ∀ n, ∀ x ∈ K, F (s n) x ≤ sSup (F (s n) '' K) := fun n x hx =>
    le_csSup (hK.bddAbove_image (hFc.comp (f := fun x => (s n, x)) (by fun_prop)).continuousOn) ⟨x, hx, rfl⟩
  refine ⟨fun n => sSup (F (s n) '' K), ?_, fun n => ?_, hle⟩
  · have h0 : sSup (F c '' K) = 0 := by
      have : F c = fun _ => 0 := by funext x; simp [hF]
      rw [this, hne.image_const]
      exact csSup_singleton 0
    have := (hM.tendsto c).comp hs
    rw [h0] at this
    exact this
  · obtain ⟨x, hx⟩ := hne
    exact (abs_nonneg _).trans (hle n x hx)

/-- An average of values near `c` is near `c`. -/
theorem average_near {n : ℤ} (hn : 1 ≤ n) {f : ℤ → ℝ} {c b : ℝ} (h : ∀ i, 1 ≤ i → i ≤ n → |f i - c| ≤ b) :
    |dosum 1 n (fun i => f i / (n : ℝ)) - c| ≤ b := by
  have hn' : (0 : ℝ) < n := by exact_mod_cast (by omega : 0 < n)
  have hcard : ((Icc 1 n).card : ℝ) = n := by
    rw [Int.card_Icc, ← Int.cast_natCast, Int.toNat_of_nonneg (by omega)]
    push_cast
    ring
  rw [dosum_eq]
  have e : (∑ i ∈ Icc 1 n, f i / (n : ℝ)) - c = ∑ i ∈ Icc 1 n, (f i - c) / (n : ℝ) := by
    simp only [sub_div]
    rw [sum_sub_distrib, sum_const, nsmul_eq_mul, hcard, mul_div_cancel₀ _ hn'.ne']
  rw [e]
  refine (abs_sum_le_sum_abs _ _).trans ?_
  calc ∑ i ∈ Icc 1 n, |(f i - c) / (n : ℝ)| ≤ ∑ _i ∈ Icc 1 n, b / (n : ℝ) := by
        refine sum_le_sum fun i hi => ?_
        rw [abs_div, abs_of_pos hn']
        exact div_le_div_of_nonneg_right (h i (mem_Icc.1 hi).1 (mem_Icc.1 hi).2) hn'.le
    _ = b := by rw [sum_const, nsmul_eq_mul, hcard, mul_div_cancel₀ _ hn'.ne']

namespace Atmos

theorem latitude_eq_sphere (A : Atmos) (j : ℤ) : latitude A.nlat j = A.sphere.latitude j := by
  unfold latitude SphereGrid.latitude sphere
  push_cast
  rfl

theorem longitude_eq_sphere (A : Atmos) (i : ℤ) : ((i - 1 : ℤ) : ℝ) * (2 * π / A.nlon) = A.sphere.longitude i := by
  unfold SphereGrid.longitude sphere
  push_cast
  ring

/-- Cosine of the rows between the poles. -/
theorem cos_row (A : Atmos) {j : ℤ} (h1 : 2 ≤ j) (h2 : j ≤ A.nlat - 1) :
    2 / π * (π / ((A.nlat - 1 : ℤ) : ℝ)) ≤ cos (latitude A.nlat j) := by
  have hpi := pi_pos
  have hL : (1 : ℝ) < ((A.nlat - 1 : ℤ) : ℝ) := by exact_mod_cast (by omega : 1 < A.nlat - 1)
  set N : ℝ := ((A.nlat - 1 : ℤ) : ℝ) with hN
  have hj : (1 : ℝ) ≤ ((j - 1 : ℤ) : ℝ) := by exact_mod_cast (by omega : 1 ≤ j - 1)
  have hj2 : ((j - 1 : ℤ) : ℝ) ≤ N - 1 := by
    have : ((j - 1 : ℤ) : ℝ) ≤ ((A.nlat - 1 - 1 : ℤ) : ℝ) := by exact_mod_cast (by omega : j - 1 ≤ A.nlat - 1 - 1)
    rw [hN]
    push_cast at this ⊢
    linarith
  have hh : π / N ≤ π / 2 := by
    have h2 : (2 : ℝ) ≤ N := by rw [hN]; exact_mod_cast (by omega : 2 ≤ A.nlat - 1)
    exact div_le_div_of_nonneg_left hpi.le two_pos h2
  have hN0 : 0 < N := by linarith
  refine (mul_le_sin (by positivity) hh).trans ?_
  rw [← cos_pi_div_two_sub, ← cos_abs (latitude A.nlat j)]
  have e1 : latitude A.nlat j = -(π / 2) + π / N * ((j - 1 : ℤ) : ℝ) := rfl
  have p0 : 0 < π / N := by positivity
  have p1 : π / N * N = π := by field_simp
  refine cos_le_cos_of_nonneg_of_le_pi (abs_nonneg _) (by linarith) (abs_le.2 ⟨?_, ?_⟩)
  · rw [e1]
    nlinarith
  · rw [e1]
    nlinarith

/-- The atmosphere `A` consists of samples of the flow `F` and the potential temperature `θ` on its analysis grid; mean profiles and static
stabilities of the hemispheres are those of `N` and `S` up to `ε`. -/
structure Observes (A : Atmos) (F : Flow) (θ : ℝ → ℝ → ℝ → ℝ) (N S : Layers) (ε : ℝ) : Prop where
  u : ∀ i j k, A.sphere.Mem i j → 1 ≤ k → k ≤ A.kmax → A.u i j k = F.U (A.sphere.latitude j) (A.sphere.longitude i) (A.height k)
  v : ∀ i j k, A.sphere.Mem i j → 1 ≤ k → k ≤ A.kmax → A.v i j k = F.V (A.sphere.latitude j) (A.sphere.longitude i) (A.height k)
  theta : ∀ i j k, A.sphere.Mem i j → 1 ≤ k → k ≤ A.kmax → A.theta i j k = θ (A.sphere.latitude j) (A.sphere.longitude i) (A.height k)
  meanN : ∀ k, 1 ≤ k → k ≤ A.kmax → |A.tn0 k - N.mean (A.height k)| ≤ ε
  meanS : ∀ k, 1 ≤ k → k ≤ A.kmax → |A.ts0 k - S.mean (A.height k)| ≤ ε
  statN : ∀ k, 1 ≤ k → k ≤ A.kmax → |A.statN k - N.stability (A.height k)| ≤ ε
  statS : ∀ k, 1 ≤ k → k ≤ A.kmax → |A.statS k - S.stability (A.height k)| ≤ ε

variable {F : Flow} {θ : ℝ → ℝ → ℝ → ℝ} {N S : Layers}

/-- Absolute vorticity between the poles, on a grid with equal spacings. -/
theorem inner_error {A : Atmos} {top ε : ℝ} (hF : F.IsCurl A.a top) (hA : A.Regular) (hsq : A.nlon = 2 * (A.nlat - 1))
    (hO : A.Observes F θ N S ε) {i j k : ℤ} (hi : 1 ≤ i ∧ i ≤ A.nlon) (h1 : 2 ≤ j) (h2 : j ≤ A.nlat - 1) (k1 : 1 ≤ k) (k2 : k ≤ A.kmax)
    (hz : A.height k ∈ Set.Icc 0 top) :
    |A.avort i j k - (2 * A.om * sin (A.sphere.latitude j) + F.vort (A.sphere.latitude j) (A.sphere.longitude i) (A.height k))| ≤
      F.D * π / A.a * (π / ((A.nlat - 1 : ℤ) : ℝ)) := by
  have hpi := pi_pos
  have ha := hA.a0
  have hn3 := hA.nd3
  have hodd := hA.odd
  have hD : 0 ≤ F.D := by
    have := (abs_nonneg _).trans ((hF.zonal 0 (A.height k) hz.1 hz.2).bound 1 0)
    norm_num at this
    exact this
  have hL : (0 : ℝ) < ((A.nlat - 1 : ℤ) : ℝ) := by exact_mod_cast (by omega : (0 : ℤ) < A.nlat - 1)
  have key := C120_vorticity A (U := fun x l => F.U x l (A.height k)) (V := fun x l => F.V x l (A.height k))
    (V' := fun x l => F.dV x l (A.height k)) (V'' := fun x l => F.ddV x l (A.height k))
    (by omega) (by omega) ha i j k hi.1 hi.2 h1 h2
    (fun j' a1 a2 => by rw [latitude_eq_sphere, longitude_eq_sphere]; exact hO.u i j' k ⟨hi, a1, a2⟩ k1 k2)
    (fun i' a1 a2 => by rw [latitude_eq_sphere, longitude_eq_sphere]; exact hO.v i' j k ⟨⟨a1, a2⟩, by omega, by show j ≤ A.nlat; omega⟩ k1 k2)
    (hF.meridional _ _ hz.1 hz.2) (hF.zonal _ _ hz.1 hz.2) (fun x => hF.periodic _ x _)
  have hk : 2 * ((A.nlat - 1 : ℤ) : ℝ) / (A.nlon : ℝ) = 1 := by
    rw [hsq]
    push_cast at hL ⊢
    rw [div_self (by linarith)]
  have hl : 2 * π / (A.nlon : ℝ) = π / ((A.nlat - 1 : ℤ) : ℝ) := by
    rw [hsq]
    push_cast at hL ⊢
    rw [mul_div_mul_left _ _ two_ne_zero]
  have hc := A.cos_row h1 h2
  have hp : 0 < π / ((A.nlat - 1 : ℤ) : ℝ) := by positivity
  have hc0 : 0 < cos (latitude A.nlat j) := (by positivity : (0 : ℝ) < 2 / π * (π / ((A.nlat - 1 : ℤ) : ℝ))).trans_le hc
  rw [hk, hl, one_mul, one_mul, ← hl, longitude_eq_sphere, hl] at key
  have hlat : -(π / 2) < latitude A.nlat j ∧ latitude A.nlat j < π / 2 := by
    have hj : (0 : ℝ) < ((j - 1 : ℤ) : ℝ) := by exact_mod_cast (by omega : 0 < j - 1)
    have hj2 : ((j - 1 : ℤ) : ℝ) < ((A.nlat - 1 : ℤ) : ℝ) := by exact_mod_cast (by omega : j - 1 < A.nlat - 1)
    have p1 : π / ((A.nlat - 1 : ℤ) : ℝ) * ((A.nlat - 1 : ℤ) : ℝ) = π := by field_simp
    constructor <;> unfold latitude <;> nlinarith
  have hcurl := hF.curl (latitude A.nlat j) (A.sphere.longitude i) (A.height k) hlat.1 hlat.2 hz.1 hz.2
  rw [← hcurl, mul_div_cancel_left₀ _ (by positivity)] at key
  rw [← latitude_eq_sphere]
  refine key.trans ?_
  rw [div_le_iff₀ (by positivity)]
  generalize π / ((A.nlat - 1 : ℤ) : ℝ) = h at *
  generalize cos (latitude A.nlat j) = c at *
  have e1 : F.D * π / A.a * h * (A.a * c) = F.D * π * h * c := by field_simp
  rw [e1]
  have h3 : 2 * h ≤ π * c := by
    have := mul_le_mul_of_nonneg_left hc hpi.le
    rw [← mul_assoc, mul_div_cancel₀ _ hpi.ne'] at this
    exact this
  have := mul_le_mul_of_nonneg_left h3 (by positivity : 0 ≤ F.D * h)
  linarith

/-- A sequence of atmospheres on ever finer grids with equal spacings in latitude and longitude, up to the height `top`. -/
structure Refines (a om H top : ℝ) (A : ℕ → Atmos) : Prop where
  regular : ∀ n, (A n).Regular
  square : ∀ n, (A n).nlon = 2 * ((A n).nlat - 1)
  radius : ∀ n, (A n).a = a
  rotation : ∀ n, (A n).om = om
  scale : ∀ n, (A n).h = H
  scale0 : 0 < H
  dz0 : ∀ n, 0 < (A n).dz
  top : ∀ n, (A n).height (A n).kmax ≤ top
  rows : Tendsto (fun n => (A n).nlat) atTop atTop
  levels : Tendsto (fun n => (A n).dz) atTop (nhds 0)

namespace Refines

variable {a om H top : ℝ} {A : ℕ → Atmos}

theorem height_mem (h : Refines a om H top A) (n : ℕ) {k : ℤ} (k1 : 1 ≤ k) (k2 : k ≤ (A n).kmax) : (A n).height k ∈ Set.Icc 0 top := by
  have c1 : (0 : ℝ) ≤ ((k - 1 : ℤ) : ℝ) := by exact_mod_cast (by omega : 0 ≤ k - 1)
  have c2 : ((k - 1 : ℤ) : ℝ) ≤ (((A n).kmax - 1 : ℤ) : ℝ) := by exact_mod_cast (by omega : k - 1 ≤ (A n).kmax - 1)
  refine ⟨mul_nonneg c1 (h.dz0 n).le, le_trans ?_ (h.top n)⟩
  exact mul_le_mul_of_nonneg_right c2 (h.dz0 n).le

theorem spacing (h : Refines a om H top A) : Tendsto (fun n => π / (((A n).nlat - 1 : ℤ) : ℝ)) atTop (nhds 0) := by
  refine tendsto_const_nhds.div_atTop ?_
  exact tendsto_intCast_atTop_atTop (R := ℝ).comp (tendsto_atTop_add_const_right _ (-1) h.rows)

theorem radius_pos (h : Refines a om H top A) : 0 < a := h.radius 0 ▸ (h.regular 0).a0

end Refines

/-- **C168 (vorticity).** On ever finer grids with equal spacings the absolute vorticity tends to that of the flow, uniformly in rows,
columns and levels, the rows of the poles included. -/
theorem C168_vorticity {a om H top : ℝ} {A : ℕ → Atmos} {ε : ℕ → ℝ} (hF : F.IsCurl a top) (hA : Refines a om H top A)
    (hO : ∀ n, (A n).Observes F θ N S (ε n)) :
    ∃ e : ℕ → ℝ, Tendsto e atTop (nhds 0) ∧ ∀ n k, 1 ≤ k → k ≤ (A n).kmax →
      (A n).sphere.Samples (fun x l => 2 * om * sin x + F.vort x l ((A n).height k)) (e n) fun i j => (A n).avort i j k := by
  have hpi := pi_pos
  have ha := hA.radius_pos
  set h : ℕ → ℝ := fun n => π / (((A n).nlat - 1 : ℤ) : ℝ) with hh
  have hh0 : Tendsto h atTop (nhds 0) := hA.spacing
  have hw : Continuous fun p : ℝ × (ℝ × ℝ) => (fun (x : ℝ) (y : ℝ × ℝ) => 2 * om * sin x + F.vort x y.1 y.2) p.1 p.2 := by
    have := hF.continuous
    fun_prop
  have hK : IsCompact (Set.Icc (0 : ℝ) (2 * π) ×ˢ Set.Icc (0 : ℝ) top) := isCompact_Icc.prod isCompact_Icc
  have hsn : Tendsto (fun n => π / 2 - h n) atTop (nhds (π / 2)) := by
    have := hh0.const_sub (π / 2)
    rwa [sub_zero] at this
  have hss : Tendsto (fun n => -(π / 2) + h n) atTop (nhds (-(π / 2))) := by
    have := hh0.const_add (-(π / 2))
    rwa [add_zero] at this
  obtain ⟨dn, dn0, dnp, hdn⟩ := parameter_error (f := fun (x : ℝ) (y : ℝ × ℝ) => 2 * om * sin x + F.vort x y.1 y.2) hK hw hsn
  obtain ⟨ds, ds0, dsp, hds⟩ := parameter_error (f := fun (x : ℝ) (y : ℝ × ℝ) => 2 * om * sin x + F.vort x y.1 y.2) hK hw hss
  refine ⟨fun n => F.D * π / a * h n + dn n + ds n, ?_, ?_⟩
  · have := ((hh0.const_mul (F.D * π / a)).add dn0).add ds0
    rwa [mul_zero, add_zero, add_zero] at this
  intro n k k1 k2 i j hm
  have hz := hA.height_mem n k1 k2
  have hn3 := (hA.regular n).nd3
  have hodd := (hA.regular n).odd
  have hm1 : 1 ≤ i ∧ i ≤ (A n).nlon := hm.1
  have hm2 : 1 ≤ j ∧ j ≤ (A n).nlat := hm.2
  have hin : ∀ i' j', 1 ≤ i' → i' ≤ (A n).nlon → 2 ≤ j' → j' ≤ (A n).nlat - 1 → |(A n).avort i' j' k -
      (2 * om * sin ((A n).sphere.latitude j') + F.vort ((A n).sphere.latitude j') ((A n).sphere.longitude i') ((A n).height k))| ≤
      F.D * π / a * h n := by
    intro i' j' a1 a2 b1 b2
    have := inner_error (top := top) (by rw [hA.radius n]; exact hF) (hA.regular n) (hA.square n) (hO n) ⟨a1, a2⟩ b1 b2 k1 k2 hz
    rw [hA.radius n, hA.rotation n] at this
    exact this
  have hlon : ∀ i', 1 ≤ i' → i' ≤ (A n).nlon → ((A n).sphere.longitude i', (A n).height k) ∈ Set.Icc (0 : ℝ) (2 * π) ×ˢ Set.Icc (0 : ℝ) top := by
    intro i' a1 a2
    have hm' : (0 : ℝ) < ((A n).nlon : ℝ) := by exact_mod_cast (by omega : 0 < (A n).nlon)
    have c1 : (1 : ℝ) ≤ i' := by exact_mod_cast a1
    have c2 : (i' : ℝ) ≤ ((A n).nlon : ℝ) := by exact_mod_cast a2
    refine ⟨⟨?_, ?_⟩, hz⟩
    · exact mul_nonneg (by positivity) (by linarith)
    · show 2 * π / ((A n).nlon : ℝ) * ((i' : ℝ) - 1) ≤ 2 * π
      rw [div_mul_eq_mul_div, div_le_iff₀ hm']
      nlinarith
  have hL : (0 : ℝ) < (((A n).nlat - 1 : ℤ) : ℝ) := by exact_mod_cast (by omega : (0 : ℤ) < (A n).nlat - 1)
  have hlatN : (A n).sphere.latitude ((A n).nlat) = π / 2 := by
    rw [← latitude_eq_sphere]
    unfold latitude
    field_simp
    ring
  have hlatS : (A n).sphere.latitude 1 = -(π / 2) := by
    rw [← latitude_eq_sphere]
    unfold latitude
    norm_num
  have hlatN' : (A n).sphere.latitude ((A n).nlat - 1) = π / 2 - h n := by
    rw [← latitude_eq_sphere]
    unfold latitude
    have e1 : (((A n).nlat - 1 - 1 : ℤ) : ℝ) = (((A n).nlat - 1 : ℤ) : ℝ) - 1 := by push_cast; ring
    rw [e1, mul_sub, div_mul_cancel₀ _ hL.ne']
    simp only [hh]
    ring
  have hlatS' : (A n).sphere.latitude 2 = -(π / 2) + h n := by
    rw [← latitude_eq_sphere]
    unfold latitude
    norm_num [hh]
  have hnn := dnp n
  have hsn := dsp n
  show |(A n).avort i j k - (2 * om * sin ((A n).sphere.latitude j) + F.vort ((A n).sphere.latitude j) ((A n).sphere.longitude i) ((A n).height k))|
    ≤ _
  by_cases hN : j = (A n).nlat
  · have e1 : (A n).avort i j k = dosum 1 (A n).nlon fun i' => (A n).avort i' ((A n).nlat - 1) k / ((A n).nlon : ℝ) := by
      show (A n).qgpvIn.avort i j k = dosum 1 (A n).nlon fun i' => (A n).qgpvIn.avort i' ((A n).nlat - 1) k / ((A n).nlon : ℝ)
      unfold QgpvIn.avort
      rw [if_pos (show j = (A n).qgpvIn.nlat from hN)]
      have f1 : ¬ (A n).nlat - 1 = (A n).qgpvIn.nlat := by show ¬ (A n).nlat - 1 = (A n).nlat; omega
      have f2 : ¬ (A n).nlat - 1 = 1 := by omega
      simp only [if_neg f1, if_neg f2]
      rfl
    rw [e1, hN, hlatN]
    refine (average_near (by omega) (b := F.D * π / a * h n + dn n) fun i' a1 a2 => ?_).trans (by linarith)
    have h1 := hin i' ((A n).nlat - 1) a1 a2 (by omega) le_rfl
    rw [hlatN'] at h1
    have h2 := hdn n _ (hlon i' a1 a2)
    rw [hF.north ((A n).sphere.longitude i) ((A n).sphere.longitude i')]
    exact (abs_sub_le _ _ _).trans (add_le_add h1 h2)
  by_cases hS : j = 1
  · have e1 : (A n).avort i j k = dosum 1 (A n).nlon fun i' => (A n).avort i' 2 k / ((A n).nlon : ℝ) := by
      show (A n).qgpvIn.avort i j k = dosum 1 (A n).nlon fun i' => (A n).qgpvIn.avort i' 2 k / ((A n).nlon : ℝ)
      unfold QgpvIn.avort
      rw [if_neg (show ¬ j = (A n).qgpvIn.nlat from hN), if_pos hS]
      have f1 : ¬ (2 : ℤ) = (A n).qgpvIn.nlat := by show ¬ (2 : ℤ) = (A n).nlat; omega
      have f2 : ¬ (2 : ℤ) = 1 := by omega
      simp only [if_neg f1, if_neg f2]
      rfl
    rw [e1, hS, hlatS]
    refine (average_near (by omega) (b := F.D * π / a * h n + ds n) fun i' a1 a2 => ?_).trans (by linarith)
    have h1 := hin i' 2 a1 a2 le_rfl (by omega)
    rw [hlatS'] at h1
    have h2 := hds n _ (hlon i' a1 a2)
    rw [hF.south ((A n).sphere.longitude i) ((A n).sphere.longitude i')]
    exact (abs_sub_le _ _ _).trans (add_le_add h1 h2)
  · refine (hin i j hm1.1 hm1.2 (by omega) (by omega)).trans (by linarith)

/-- The quotient of the stretching term with a mean profile and a stability that are known up to `ε`. -/
theorem quotient_error {x t m σ τ b ε M : ℝ} (hb : 0 < b) (hσ : b ≤ σ) (hm : |t - m| ≤ ε) (hτ : |τ - σ| ≤ ε) (hε : 2 * ε ≤ b)
    (hx : |x - m| ≤ M) : |(x - t) / τ - (x - m) / σ| ≤ (2 / b + 2 * M / b ^ 2) * ε := by
  have h0 : 0 ≤ ε := (abs_nonneg _).trans hm
  have hM : 0 ≤ M := (abs_nonneg _).trans hx
  have hτ2 : b / 2 ≤ τ := by have := (abs_le.1 hτ).1; linarith
  have hσ0 : 0 < σ := by linarith
  have hτ0 : 0 < τ := by linarith
  have e : (x - t) / τ - (x - m) / σ = -(t - m) / τ + (x - m) * -(τ - σ) / (τ * σ) := by
    field_simp
    ring
  rw [e]
  refine (abs_add_le _ _).trans ?_
  rw [abs_div, abs_div, abs_neg, abs_mul, abs_neg, abs_of_pos hτ0, abs_of_pos (mul_pos hτ0 hσ0)]
  have k1 : |t - m| / τ ≤ ε / (b / 2) := div_le_div₀ h0 hm (by positivity) hτ2
  have k2 : |x - m| * |τ - σ| / (τ * σ) ≤ M * ε / (b / 2 * b) :=
    div_le_div₀ (by positivity) (mul_le_mul hx hτ (abs_nonneg _) hM) (by positivity) (mul_le_mul hτ2 hσ hb.le hτ0.le)
  refine (add_le_add k1 k2).trans (le_of_eq ?_)
  field_simp

/-- The stretching term of samples of a smooth field with such a mean state. -/
theorem stretching_error {L : Layers} {H top ε f dz : ℝ} {t0 stat th : ℤ → ℝ} (hL : L.Of θ H top) (hH : 0 < H) (hdz : 0 < dz)
    (hε : 2 * ε ≤ L.s) {φ l : ℝ} {k K : ℤ} (k1 : 2 ≤ k) (k2 : k ≤ K - 1) (htop : ((K - 1 : ℤ) : ℝ) * dz ≤ top)
    (hth : ∀ k, 1 ≤ k → k ≤ K → th k = θ φ l (((k - 1 : ℤ) : ℝ) * dz))
    (ht : ∀ k, 1 ≤ k → k ≤ K → |t0 k - L.mean (((k - 1 : ℤ) : ℝ) * dz)| ≤ ε)
    (hs : ∀ k, 1 ≤ k → k ≤ K → |stat k - L.stability (((k - 1 : ℤ) : ℝ) * dz)| ≤ ε) :
    |stretching f H dz th t0 stat k - f * (exp (((k - 1 : ℤ) : ℝ) * dz / H) * L.g φ l (((k - 1 : ℤ) : ℝ) * dz))| ≤
      |f| * exp (top / H) * (L.D * dz ^ 2 + (2 / L.s + 2 * L.M / L.s ^ 2) * (ε / dz)) := by
  have hmem : ∀ k : ℤ, 1 ≤ k → k ≤ K → 0 ≤ ((k - 1 : ℤ) : ℝ) * dz ∧ ((k - 1 : ℤ) : ℝ) * dz ≤ top := by
    intro k k1 k2
    have c1 : (0 : ℝ) ≤ ((k - 1 : ℤ) : ℝ) := by exact_mod_cast (by omega : 0 ≤ k - 1)
    have c2 : ((k - 1 : ℤ) : ℝ) ≤ ((K - 1 : ℤ) : ℝ) := by exact_mod_cast (by omega : k - 1 ≤ K - 1)
    exact ⟨mul_nonneg c1 hdz.le, (mul_le_mul_of_nonneg_right c2 hdz.le).trans htop⟩
  have q := C120_stretching (f := f) (H := H) hdz k (hL.smooth φ l)
  set C : ℝ := 2 / L.s + 2 * L.M / L.s ^ 2 with hC
  have hterm : ∀ m : ℤ, 1 ≤ m → m ≤ K → |exp (-(((m - 1 : ℤ) : ℝ) * dz) / H) * ((th m - t0 m) / stat m) -
      exp (-(((m - 1 : ℤ) : ℝ) * dz) / H) * ((θ φ l (((m - 1 : ℤ) : ℝ) * dz) - L.mean (((m - 1 : ℤ) : ℝ) * dz)) /
        L.stability (((m - 1 : ℤ) : ℝ) * dz))| ≤ C * ε := by
    intro m m1 m2
    obtain ⟨z0, z1⟩ := hmem m m1 m2
    rw [hth m m1 m2, ← mul_sub, abs_mul, abs_of_pos (exp_pos _)]
    have := quotient_error hL.s0 (hL.stable _ z0 z1) (ht m m1 m2) (hs m m1 m2) hε (hL.anomaly φ l _ z0 z1)
    refine le_trans ?_ this
    have he : exp (-(((m - 1 : ℤ) : ℝ) * dz) / H) ≤ 1 := by
      rw [exp_le_one_iff]
      exact div_nonpos_of_nonpos_of_nonneg (by linarith) hH.le
    exact mul_le_of_le_one_left (abs_nonneg _) he
  obtain ⟨z0, z1⟩ := hmem k (by omega) (by omega)
  have hexp : exp (((k - 1 : ℤ) : ℝ) * dz / H) ≤ exp (top / H) := exp_le_exp.2 (div_le_div_of_nonneg_right z1 hH.le)
  have hdiff : |stretching f H dz th t0 stat k - stretching f H dz (fun k => θ φ l (((k - 1 : ℤ) : ℝ) * dz))
      (fun k => L.mean (((k - 1 : ℤ) : ℝ) * dz)) (fun k => L.stability (((k - 1 : ℤ) : ℝ) * dz)) k| ≤
      |f| * exp (((k - 1 : ℤ) : ℝ) * dz / H) * (C * (ε / dz)) := by
    have p := hterm (k + 1) (by omega) (by omega)
    have m := hterm (k - 1) (by omega) (by omega)
    rw [show k + 1 - 1 = k by ring] at p
    rw [show k - 1 - 1 = k - 2 by ring] at m
    unfold stretching
    beta_reduce
    rw [show k + 1 - 1 = k by ring, show k - 1 - 1 = k - 2 by ring]
    rw [← mul_sub, abs_mul, abs_mul, abs_of_pos (exp_pos _)]
    refine mul_le_mul_of_nonneg_left ?_ (by positivity)
    rw [← sub_div, abs_div, abs_of_pos (by linarith : 0 < 2 * dz), div_le_iff₀ (by linarith)]
    have e : C * (ε / dz) * (2 * dz) = C * ε + C * ε := by
      field_simp
      ring
    rw [e]
    refine le_trans (le_of_eq ?_) ((abs_sub _ _).trans (add_le_add p m))
    congr 1
    ring
  have hn : 0 ≤ C * (ε / dz) := by
    have hε0 : 0 ≤ ε := (abs_nonneg _).trans (ht k (by omega) (by omega))
    have hM : 0 ≤ L.M := (abs_nonneg _).trans (hL.anomaly φ l _ z0 z1)
    have := hL.s0
    positivity
  have hD := (hL.smooth φ l).nonneg
  rw [mul_assoc f] at q
  refine (abs_sub_le _ _ _).trans ((add_le_add hdiff q).trans ?_)
  rw [← mul_add, add_comm (C * (ε / dz))]
  refine mul_le_mul_of_nonneg_right (mul_le_mul_of_nonneg_left hexp (abs_nonneg f)) ?_
  positivity

/-- The rows up to the equator. -/
theorem row_south {A : Atmos} (hA : A.Regular) (j : ℤ) : A.sphere.latitude j ≤ 0 ↔ j ≤ A.nd := by
  have hn3 := hA.nd3
  have hpi := pi_pos
  rw [← latitude_eq_sphere]
  unfold latitude
  have hL : (0 : ℝ) < ((A.nlat - 1 : ℤ) : ℝ) := by exact_mod_cast (by have := hA.odd; omega : (0 : ℤ) < A.nlat - 1)
  have e : ((A.nlat - 1 : ℤ) : ℝ) = 2 * ((A.nd - 1 : ℤ) : ℝ) := by
    rw [hA.odd]
    push_cast
    ring
  have e2 : -(π / 2) + π / ((A.nlat - 1 : ℤ) : ℝ) * ((j - 1 : ℤ) : ℝ) = π / ((A.nlat - 1 : ℤ) : ℝ) * ((j - A.nd : ℤ) : ℝ) := by
    have e3 : ((j - 1 : ℤ) : ℝ) = ((A.nd - 1 : ℤ) : ℝ) + ((j - A.nd : ℤ) : ℝ) := by push_cast; ring
    rw [e] at hL ⊢
    rw [e3]
    generalize ((A.nd - 1 : ℤ) : ℝ) = m at *
    have hm : 0 < m := by linarith
    field_simp
    ring
  rw [e2, mul_nonpos_iff]
  have hp : 0 < π / ((A.nlat - 1 : ℤ) : ℝ) := by positivity
  constructor
  · rintro (⟨_, h⟩ | ⟨h, _⟩)
    · have : j - A.nd ≤ 0 := by exact_mod_cast h
      omega
    · linarith
  · intro h
    left
    exact ⟨hp.le, by exact_mod_cast (by omega : j - A.nd ≤ 0)⟩

/-- **C168 (QGPV).** On ever finer grids with equal spacings the QGPV of NHN22 tends to that of the flow, uniformly in rows, columns and
all levels but the lowest and the highest. -/
theorem C168_qgpv {a om H top : ℝ} {A : ℕ → Atmos} {ε : ℕ → ℝ} (hF : F.IsCurl a top) (hN : N.Of θ H top) (hS : S.Of θ H top)
    (hA : Refines a om H top A) (hO : ∀ n, (A n).Observes F θ N S (ε n)) (hεN : ∀ n, 2 * ε n ≤ N.s) (hεS : ∀ n, 2 * ε n ≤ S.s)
    (hε : Tendsto (fun n => ε n / (A n).dz) atTop (nhds 0)) :
    ∃ e : ℕ → ℝ, Tendsto e atTop (nhds 0) ∧ ∀ n k, 2 ≤ k → k ≤ (A n).kmax - 1 →
      (A n).sphere.Samples (fun x l => F.qgpv om H N S x l ((A n).height k)) (e n) fun i j => (A n).qgpv .nhn22 i j k := by
  obtain ⟨e, e0, he⟩ := C168_vorticity hF hA hO
  set CN : ℝ := 2 / N.s + 2 * N.M / N.s ^ 2 with hCN
  set CS : ℝ := 2 / S.s + 2 * S.M / S.s ^ 2 with hCS
  have hdzs : Tendsto (fun n => (A n).dz ^ 2) atTop (nhds 0) := by
    have := hA.levels.pow 2
    rwa [zero_pow two_ne_zero] at this
  refine ⟨fun n => e n + |2 * om| * exp (top / H) * ((N.D * (A n).dz ^ 2 + CN * (ε n / (A n).dz)) +
    (S.D * (A n).dz ^ 2 + CS * (ε n / (A n).dz))), ?_, ?_⟩
  · have := e0.add ((((hdzs.const_mul N.D).add (hε.const_mul CN)).add ((hdzs.const_mul S.D).add (hε.const_mul CS))).const_mul
      (|2 * om| * exp (top / H)))
    simpa using this
  intro n k k1 k2 i j hm
  have hm2 : 1 ≤ j ∧ j ≤ (A n).nlat := hm.2
  have hz := hA.height_mem n (k := k) (by omega) (by omega)
  have h1 := he n k (by omega) (by omega) i j hm
  beta_reduce at h1 ⊢
  rw [((C81_qgpv_partial (A n) i j k).1 k1 k2).1, hA.rotation n, hA.scale n, latitude_eq_sphere]
  unfold Flow.qgpv
  set φ := (A n).sphere.latitude j with hφ
  set l := (A n).sphere.longitude i with hl
  have hf : |2 * om * sin φ| ≤ |2 * om| := by
    rw [abs_mul]
    exact mul_le_of_le_one_right (abs_nonneg _) (abs_sin_le_one _)
  have hε0 : 0 ≤ ε n := (abs_nonneg _).trans ((hO n).meanN k (by omega) (by omega))
  have hdz := hA.dz0 n
  have pos : ∀ L : Layers, L.Of θ H top → 0 ≤ L.D * (A n).dz ^ 2 + (2 / L.s + 2 * L.M / L.s ^ 2) * (ε n / (A n).dz) := by
    intro L hL
    have hD := (hL.smooth φ l).nonneg
    have hM : 0 ≤ L.M := (abs_nonneg _).trans (hL.anomaly φ l _ hz.1 hz.2)
    have := hL.s0
    positivity
  have key : ∀ L : Layers, L.Of θ H top → 2 * ε n ≤ L.s → ∀ t0 stat : ℤ → ℝ,
      (∀ k, 1 ≤ k → k ≤ (A n).kmax → |t0 k - L.mean ((A n).height k)| ≤ ε n) →
      (∀ k, 1 ≤ k → k ≤ (A n).kmax → |stat k - L.stability ((A n).height k)| ≤ ε n) →
      |stretching (2 * om * sin φ) H (A n).dz (fun k => (A n).theta i j k) t0 stat k -
        2 * om * sin φ * (exp ((A n).height k / H) * L.g φ l ((A n).height k))| ≤
      |2 * om| * exp (top / H) * (L.D * (A n).dz ^ 2 + (2 / L.s + 2 * L.M / L.s ^ 2) * (ε n / (A n).dz)) := by
    intro L hL hLε t0 stat ht hs
    refine (stretching_error (K := (A n).kmax) hL hA.scale0 hdz hLε k1 k2 (hA.top n) (fun k a1 a2 => (hO n).theta i j k hm a1 a2)
      ht hs).trans ?_
    exact mul_le_mul_of_nonneg_right (mul_le_mul_of_nonneg_right hf (exp_pos _).le) (pos L hL)
  have hfin : ∀ X Y Z W V P Q : ℝ, |X - Z| ≤ W → |Y - V| ≤ |2 * om| * exp (top / H) * P → 0 ≤ Q →
      |X + Y - (Z + V)| ≤ W + |2 * om| * exp (top / H) * (P + Q) := by
    intro X Y Z W V P Q a1 a2 a3
    have : |X + Y - (Z + V)| ≤ |X - Z| + |Y - V| := by
      rw [show X + Y - (Z + V) = (X - Z) + (Y - V) by ring]
      exact abs_add_le _ _
    have := mul_nonneg (by positivity : 0 ≤ |2 * om| * exp (top / H)) a3
    linarith
  by_cases hj : j ≤ (A n).nd
  · have hφ0 : φ ≤ 0 := (row_south (hA.regular n) j).2 hj
    have hp : (A n).profile .nhn22 j = (A n).ts0 := if_pos hj
    have hst : (A n).stability .nhn22 j = (A n).statS := if_pos hj
    rw [if_pos hφ0, hp, hst, add_comm (N.D * (A n).dz ^ 2 + CN * (ε n / (A n).dz))]
    exact hfin _ _ _ _ _ _ _ h1 (key S hS (hεS n) _ _ (hO n).meanS (hO n).statS) (pos N hN)
  · have hφ0 : ¬ φ ≤ 0 := fun h => hj ((row_south (hA.regular n) j).1 h)
    have hp : (A n).profile .nhn22 j = (A n).tn0 := if_neg hj
    have hst : (A n).stability .nhn22 j = (A n).statN := if_neg hj
    rw [if_neg hφ0, hp, hst]
    exact hfin _ _ _ _ _ _ _ h1 (key N hN (hεN n) _ _ (hO n).meanN (hO n).statN) (pos S hS)

/-! ### A sample: flow across the poles with a temperature wave -/

/-- Air that rotates about an axis in the plane of the equator, on a planet of radius 1. -/
def acrossPoles : Flow where
  U := fun φ l _ => -(sin φ * cos l)
  V := fun _ l _ => sin l
  vort := fun φ l _ => 2 * (cos l * cos φ)
  dU := fun φ l _ => -(cos (2 * φ) * cos l)
  ddU := fun φ l _ => 2 * (sin (2 * φ) * cos l)
  dV := fun _ l _ => cos l
  ddV := fun _ l _ => -sin l
  D := 4

theorem acrossPoles_curl : acrossPoles.IsCurl 1 1 where
  zonal := fun _ _ _ _ => ⟨fun x => hasDerivAt_sin x, fun x => hasDerivAt_cos x, fun x y => by
    show |-sin x - -sin y| ≤ 4 * |x - y|
    have := abs_sin_sub_sin_le x y
    rw [show -sin x - -sin y = -(sin x - sin y) by ring, abs_neg]
    have := abs_nonneg (x - y)
    linarith⟩
  meridional := fun l _ _ _ => ⟨fun x => by
    have := (((hasDerivAt_sin x).mul (hasDerivAt_cos x)).mul_const (cos l)).neg
    refine (this.congr_of_eventuallyEq (Eventually.of_forall fun y => ?_)).congr_deriv ?_
    · show -(sin y * cos l) * cos y = -(sin y * cos y * cos l)
      ring
    · show _ = -(cos (2 * x) * cos l)
      rw [cos_two_mul']
      ring, fun x => by
    have := (((hasDerivAt_cos (2 * x)).comp x ((hasDerivAt_id x).const_mul 2)).mul_const (cos l)).neg
    refine this.congr_deriv ?_
    show _ = 2 * (sin (2 * x) * cos l)
    ring, fun x y => by
    show |2 * (sin (2 * x) * cos l) - 2 * (sin (2 * y) * cos l)| ≤ 4 * |x - y|
    rw [show 2 * (sin (2 * x) * cos l) - 2 * (sin (2 * y) * cos l) = 2 * (sin (2 * x) - sin (2 * y)) * cos l by ring, abs_mul, abs_mul,
      abs_of_pos (by norm_num : (0 : ℝ) < 2)]
    have h1 := abs_sin_sub_sin_le (2 * x) (2 * y)
    rw [show 2 * x - 2 * y = 2 * (x - y) by ring, abs_mul, abs_of_pos (by norm_num : (0 : ℝ) < 2)] at h1
    have h2 := mul_le_of_le_one_right (by positivity : 0 ≤ 2 * |sin (2 * x) - sin (2 * y)|) (abs_cos_le_one l)
    linarith⟩
  periodic := fun _ l _ => sin_add_two_pi l
  curl := fun φ l _ _ _ _ _ => by
    show 1 * cos φ * (2 * (cos l * cos φ)) = cos l - -(cos (2 * φ) * cos l)
    rw [cos_two_mul]
    ring
  continuous := by
    show Continuous fun p : ℝ × ℝ × ℝ => 2 * (cos p.2.1 * cos p.1)
    fun_prop
  north := fun l l' _ => by
    show 2 * (cos l * cos (π / 2)) = 2 * (cos l' * cos (π / 2))
    rw [cos_pi_div_two]
    ring
  south := fun l l' _ => by
    show 2 * (cos l * cos (-(π / 2))) = 2 * (cos l' * cos (-(π / 2)))
    rw [cos_neg, cos_pi_div_two]
    ring

/-- A wave that grows with height in air of constant stability. -/
def thermalWave (φ l z : ℝ) : ℝ := z + exp z * z * (cos φ * cos l)

def evenLayers : Layers where
  mean := fun z => z
  stability := fun _ => 1
  g := fun φ l _ => cos φ * cos l
  dg := fun _ _ _ => 0
  D := 0
  M := exp 1
  s := 1

theorem evenLayers_of : evenLayers.Of thermalWave 1 1 where
  smooth := fun φ l => by
    have e : (fun z : ℝ => exp (-z / 1) * ((thermalWave φ l z - z) / 1)) = fun z => z * (cos φ * cos l) := by
      funext z
      unfold thermalWave
      rw [div_one, div_one, show z + exp z * z * (cos φ * cos l) - z = exp z * (z * (cos φ * cos l)) by ring, ← mul_assoc, ← exp_add,
        neg_add_cancel, exp_zero, one_mul]
    show Smooth (fun z : ℝ => exp (-z / 1) * ((thermalWave φ l z - z) / 1)) (fun _ => cos φ * cos l) (fun _ => 0) 0
    rw [e]
    refine ⟨fun x => ?_, fun x => hasDerivAt_const x _, fun x y => by simp⟩
    have := (hasDerivAt_id x).mul_const (cos φ * cos l)
    rwa [one_mul] at this
  s0 := one_pos
  stable := fun _ _ _ => le_rfl
  anomaly := fun φ l z h0 h1 => by
    show |thermalWave φ l z - z| ≤ exp 1
    unfold thermalWave
    rw [add_sub_cancel_left, abs_mul, abs_mul, abs_mul, abs_of_pos (exp_pos z), abs_of_nonneg h0]
    have h2 : |cos φ| * |cos l| ≤ 1 := mul_le_one₀ (abs_cos_le_one φ) (abs_nonneg _) (abs_cos_le_one l)
    have h3 : exp z * z ≤ exp 1 * 1 := mul_le_mul (exp_le_exp.2 h1) h1 h0 (exp_pos 1).le
    calc exp z * z * (|cos φ| * |cos l|) ≤ exp z * z := mul_le_of_le_one_right (by positivity) h2
      _ ≤ exp 1 := by linarith

/-- Their samples on `2 n + 5` latitudes, `4 n + 8` longitudes and `n + 3` levels. -/
def polarWave (n : ℕ) : Atmos :=
  { tinyWave with
    nlon := 4 * n + 8
    nlatIn := 2 * n + 5
    nlat := 2 * n + 5
    kmax := n + 3
    npart := 2 * n + 5
    om := 1 / 2
    dz := 1 / (n + 2)
    zlev := fun l => ((l - 1 : ℤ) : ℝ) * (1 / (n + 2))
    uField := fun i j l => acrossPoles.U (SphereGrid.latitude ⟨4 * n + 8, 2 * n + 5, 1⟩ j) (SphereGrid.longitude ⟨4 * n + 8, 2 * n + 5, 1⟩ i)
      (((l - 1 : ℤ) : ℝ) * (1 / (n + 2)))
    vField := fun i j l => acrossPoles.V (SphereGrid.latitude ⟨4 * n + 8, 2 * n + 5, 1⟩ j) (SphereGrid.longitude ⟨4 * n + 8, 2 * n + 5, 1⟩ i)
      (((l - 1 : ℤ) : ℝ) * (1 / (n + 2)))
    tField := fun i j l => thermalWave (SphereGrid.latitude ⟨4 * n + 8, 2 * n + 5, 1⟩ j) (SphereGrid.longitude ⟨4 * n + 8, 2 * n + 5, 1⟩ i)
      (((l - 1 : ℤ) : ℝ) * (1 / (n + 2))) * exp (-(((l - 1 : ℤ) : ℝ) * (1 / (n + 2))))
    ncforce := fun _ j l => sin (SphereGrid.latitude ⟨4 * n + 8, 2 * n + 5, 1⟩ j) *
      (exp (((l - 1 : ℤ) : ℝ) * (1 / (n + 2))) * cos (SphereGrid.latitude ⟨4 * n + 8, 2 * n + 5, 1⟩ j)) }

theorem polarWave_nd (n : ℕ) : (polarWave n).nd = n + 3 := by
  show (2 * (n : ℤ) + 5) / 2 + (2 * (n : ℤ) + 5) % 2 = n + 3
  omega

theorem polarWave_regular (n : ℕ) : (polarWave n).Regular where
  nlon1 := by show (1 : ℤ) ≤ 4 * n + 8; omega
  odd := by rw [polarWave_nd]; show (2 * n + 5 : ℤ) = _; ring
  jb0 := by show (0 : ℤ) ≤ 0; omega
  jd3 := by unfold jd; rw [polarWave_nd]; show (3 : ℤ) ≤ n + 3 - 0; omega
  kmax3 := by show (3 : ℤ) ≤ n + 3; omega
  npart2 := by show (2 : ℤ) ≤ 2 * n + 5; omega
  a0 := by show (0 : ℝ) < 1; norm_num
  om0 := by show (1 / 2 : ℝ) ≠ 0; norm_num

theorem polarWave_refines : Refines 1 (1 / 2) 1 1 polarWave where
  regular := polarWave_regular
  square := fun n => by show (4 * n + 8 : ℤ) = 2 * (2 * n + 5 - 1); ring
  radius := fun _ => rfl
  rotation := fun _ => rfl
  scale := fun _ => rfl
  scale0 := one_pos
  dz0 := fun n => by show (0 : ℝ) < 1 / (n + 2); positivity
  top := fun n => by
    show (((n : ℤ) + 3 - 1 : ℤ) : ℝ) * (1 / ((n : ℝ) + 2)) ≤ 1
    have : (0 : ℝ) < (n : ℝ) + 2 := by positivity
    rw [mul_one_div, div_le_one this]
    push_cast
    linarith
  rows := by
    show Tendsto (fun n : ℕ => (2 * n + 5 : ℤ)) atTop atTop
    refine tendsto_atTop_mono (fun n => ?_) tendsto_natCast_atTop_atTop
    omega
  levels := by
    show Tendsto (fun n : ℕ => 1 / ((n : ℝ) + 2)) atTop (nhds 0)
    exact tendsto_const_nhds.div_atTop (tendsto_atTop_add_const_right _ 2 tendsto_natCast_atTop_atTop)

theorem polarWave_theta (n : ℕ) (i j l : ℤ) : (polarWave n).theta i j l =
    thermalWave ((polarWave n).sphere.latitude j) ((polarWave n).sphere.longitude i) ((polarWave n).height l) := by
  show thermalWave (SphereGrid.latitude ⟨4 * n + 8, 2 * n + 5, 1⟩ j) (SphereGrid.longitude ⟨4 * n + 8, 2 * n + 5, 1⟩ i)
      (((l - 1 : ℤ) : ℝ) * (1 / (n + 2))) * exp (-(((l - 1 : ℤ) : ℝ) * (1 / (n + 2)))) *
      exp (1 / 1 * (((l - 1 : ℤ) : ℝ) * (1 / (n + 2))) / 1) =
    thermalWave (SphereGrid.latitude ⟨4 * n + 8, 2 * n + 5, 1⟩ j) (SphereGrid.longitude ⟨4 * n + 8, 2 * n + 5, 1⟩ i)
      (((l - 1 : ℤ) : ℝ) * (1 / (n + 2)))
  rw [mul_assoc, ← exp_add, show -(((l - 1 : ℤ) : ℝ) * (1 / ((n : ℝ) + 2))) + 1 / 1 * (((l - 1 : ℤ) : ℝ) * (1 / ((n : ℝ) + 2))) / 1 = 0 by ring,
    exp_zero, mul_one]

/-- Opposite longitudes cancel. -/
theorem sum_cos_longitude (n : ℕ) : ∑ i ∈ Icc 1 (polarWave n).nlon, cos ((polarWave n).sphere.longitude i) = 0 := by
  have hl : ∀ i : ℤ, (polarWave n).sphere.longitude (i + (2 * n + 4)) = (polarWave n).sphere.longitude i + π := by
    intro i
    show 2 * π / ((4 * n + 8 : ℤ) : ℝ) * (((i + (2 * n + 4) : ℤ) : ℝ) - 1) = 2 * π / ((4 * n + 8 : ℤ) : ℝ) * ((i : ℝ) - 1) + π
    have : (0 : ℝ) < 4 * n + 8 := by positivity
    push_cast
    field_simp
    ring
  refine sum_involution (fun i _ => if i ≤ 2 * n + 4 then i + (2 * n + 4) else i - (2 * n + 4)) ?_ ?_ ?_ ?_
  · intro i _
    by_cases h : i ≤ 2 * n + 4
    · rw [if_pos h, hl, cos_add_pi]
      ring
    · rw [if_neg h]
      have := hl (i - (2 * n + 4))
      rw [sub_add_cancel] at this
      rw [this, cos_add_pi]
      ring
  · intro i _ _
    split_ifs <;> omega
  · intro i hi
    rw [mem_Icc] at hi ⊢
    have h2 : i ≤ 4 * n + 8 := hi.2
    show 1 ≤ _ ∧ _ ≤ (4 * n + 8 : ℤ)
    split_ifs <;> omega
  · intro i hi
    rw [mem_Icc] at hi
    have h2 : i ≤ 4 * n + 8 := hi.2
    split_ifs <;> omega

theorem polarWave_rowMean (n : ℕ) (l g : ℤ) : (polarWave n).rowMean l g = (polarWave n).height l * (polarWave n).clat g := by
  have h0 : (0 : ℝ) < ((polarWave n).nlon : ℝ) := by
    have : (0 : ℤ) < (polarWave n).nlon := by show (0 : ℤ) < 4 * n + 8; omega
    exact_mod_cast this
  have hc : ((Icc (1 : ℤ) (polarWave n).nlon).card : ℝ) = (polarWave n).nlon := by
    rw [Int.card_Icc]
    have : (((polarWave n).nlon + 1 - 1).toNat : ℤ) = (polarWave n).nlon := by
      have : (0 : ℤ) < (polarWave n).nlon := by exact_mod_cast h0
      omega
    exact_mod_cast this
  have e1 : ∀ x, (polarWave n).theta0 x g l = (polarWave n).height l + exp ((polarWave n).height l) * (polarWave n).height l *
      cos ((polarWave n).sphere.latitude g) * cos ((polarWave n).sphere.longitude x) := fun x => by
    refine (polarWave_theta n x g l).trans ?_
    unfold thermalWave
    ring
  unfold rowMean
  simp only [e1]
  rw [← sum_mul, sum_add_distrib, ← mul_sum, sum_cos_longitude, mul_zero, add_zero, sum_const, nsmul_eq_mul, hc, mul_assoc,
    mul_div_cancel_left₀ _ h0.ne']

theorem polarWave_csm (n : ℕ) : 0 < (polarWave n).csm := by
  refine sum_pos' (fun g _ => abs_nonneg _) ⟨(polarWave n).nd, ?_, ?_⟩
  · rw [mem_Icc]
    unfold jd
    rw [polarWave_nd]
    show (1 : ℤ) ≤ n + 3 ∧ (n + 3 : ℤ) ≤ n + 3 - 0
    omega
  · unfold clat lat
    simp

theorem polarWave_ts0 (n : ℕ) (k : ℤ) : (polarWave n).ts0 k = (polarWave n).height k := by
  show (∑ g ∈ Icc 1 (polarWave n).jd, (polarWave n).rowMean k g) / (polarWave n).csm = _
  simp only [polarWave_rowMean]
  rw [← mul_sum]
  show (polarWave n).height k * (polarWave n).csm / (polarWave n).csm = _
  rw [mul_div_assoc, div_self (polarWave_csm n).ne', mul_one]

theorem polarWave_tn0 (n : ℕ) (k : ℤ) : (polarWave n).tn0 k = (polarWave n).height k := by
  show (∑ g ∈ Icc ((polarWave n).nlat - (polarWave n).jd + 1) (polarWave n).nlat, (polarWave n).rowMean k g) / (polarWave n).csm = _
  simp only [polarWave_rowMean]
  rw [← mul_sum]
  have hsym : ∑ g ∈ Icc ((polarWave n).nlat - (polarWave n).jd + 1) (polarWave n).nlat, (polarWave n).clat g = (polarWave n).csm := by
    unfold csm
    refine sum_bij' (fun g _ => (polarWave n).nlat + 1 - g) (fun g _ => (polarWave n).nlat + 1 - g) ?_ ?_ ?_ ?_ ?_
    · intro g hg; rw [mem_Icc] at hg ⊢; omega
    · intro g hg; rw [mem_Icc] at hg ⊢; omega
    · intro g _; ring
    · intro g _; ring
    · intro g _
      unfold clat
      rw [lat_neg (polarWave_regular n), Real.cos_neg]
  rw [hsym, mul_div_assoc, div_self (polarWave_csm n).ne', mul_one]

theorem polarWave_observes (n : ℕ) : (polarWave n).Observes acrossPoles thermalWave evenLayers evenLayers 0 where
  u := fun _ _ _ _ _ _ => rfl
  v := fun _ _ _ _ _ _ => rfl
  theta := fun i j k _ _ _ => polarWave_theta n i j k
  meanN := fun k _ _ => by rw [polarWave_tn0]; simp [evenLayers]
  meanS := fun k _ _ => by rw [polarWave_ts0]; simp [evenLayers]
  statN := fun k _ _ => by
    have e : (polarWave n).statN k - evenLayers.stability ((polarWave n).height k) = 1 - 1 := rfl
    rw [e, sub_self, abs_zero]
  statS := fun k _ _ => by
    have e : (polarWave n).statS k - evenLayers.stability ((polarWave n).height k) = 1 - 1 := rfl
    rw [e, sub_self, abs_zero]

/-- Hypotheses of `C168_vorticity` and `C168_qgpv`; the limit depends on longitude and height. -/
example : (∃ e : ℕ → ℝ, Tendsto e atTop (nhds 0) ∧ ∀ n k, 2 ≤ k → k ≤ (polarWave n).kmax - 1 →
      (polarWave n).sphere.Samples (fun x l => acrossPoles.qgpv (1 / 2) 1 evenLayers evenLayers x l ((polarWave n).height k)) (e n)
        fun i j => (polarWave n).qgpv .nhn22 i j k) ∧
    ∀ φ l z, acrossPoles.qgpv (1 / 2) 1 evenLayers evenLayers φ l z = sin φ + 2 * (cos l * cos φ) + sin φ * (exp z * (cos φ * cos l)) := by
  refine ⟨C168_qgpv acrossPoles_curl evenLayers_of evenLayers_of polarWave_refines polarWave_observes (fun _ => ?_) (fun _ => ?_) ?_, ?_⟩
  · show 2 * (0 : ℝ) ≤ 1
    norm_num
  · show 2 * (0 : ℝ) ≤ 1
    norm_num
  · simp
  · intro φ l z
    unfold Flow.qgpv
    rw [ite_self, div_one]
    show 2 * (1 / 2) * sin φ + 2 * (cos l * cos φ) + 2 * (1 / 2) * sin φ * (exp z * (cos φ * cos l)) = _
    ring

end Atmos

end Falwa
