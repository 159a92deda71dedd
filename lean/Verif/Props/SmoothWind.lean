import Verif.Props.SmoothQgpv18
import Verif.Props.SphereWind

/-!
# C170: from winds and temperature to the reference wind

Sampling, QGPV, area analysis, inversion and storage together: the reference wind that `QGFieldNHN22` stores for smooth winds and temperature
on ever finer grids.
-/

noncomputable section

namespace Falwa

open Real Finset Spec MeasureTheory Filter

/-- The QGPV of a flow is continuous, the change of the mean state at the equator included. -/
theorem qgpv_continuous {F : Flow} {N S : Layers} {om H : ℝ} (hF : Continuous fun p : ℝ × ℝ × ℝ => F.vort p.1 p.2.1 p.2.2)
    (hN : Continuous fun p : ℝ × ℝ × ℝ => N.g p.1 p.2.1 p.2.2) (hS : Continuous fun p : ℝ × ℝ × ℝ => S.g p.1 p.2.1 p.2.2) :
    Continuous fun p : ℝ × ℝ × ℝ => F.qgpv om H N S p.1 p.2.1 p.2.2 := by
  have e : (fun p : ℝ × ℝ × ℝ => F.qgpv om H N S p.1 p.2.1 p.2.2) = fun p => 2 * om * sin p.1 + F.vort p.1 p.2.1 p.2.2 +
      (if p.1 ≤ 0 then 2 * om * sin p.1 * (exp (p.2.2 / H) * S.g p.1 p.2.1 p.2.2) else
        2 * om * sin p.1 * (exp (p.2.2 / H) * N.g p.1 p.2.1 p.2.2)) := by
    funext p
    unfold Flow.qgpv
    split_ifs <;> rfl
  rw [e]
  refine Continuous.add (by fun_prop) (Continuous.if_le (by fun_prop) (by fun_prop) (by fun_prop) (by fun_prop) fun p hp => ?_)
  rw [hp, sin_zero]
  ring

namespace Atmos

/-- The atmospheres `A n` have the constants, the height and, in the limit, the southern boundary of `B`. -/
structure Frames (B : BalancedState) (A : ℕ → Atmos) : Prop where
  gas : ∀ n, (A n).rr = B.r
  heat : ∀ n, (A n).cp = B.cp
  last : ∀ n, (A n).height (A n).kmax = B.top
  rows : ∀ n, 4 ≤ (A n).jd
  first : ∀ n, B.south ≤ (A n).lat ((A n).nd + (A n).jb)
  boundary : Tendsto (fun n => (A n).lat ((A n).nd + (A n).jb)) atTop (nhds B.south)

/-- They also have its stability in the Northern Hemisphere, and a right matrix inversion. -/
structure Follows (B : BalancedState) (A : ℕ → Atmos) : Prop extends Frames B A where
  stat : ∀ n k, 1 ≤ k → k ≤ (A n).kmax → (A n).statN k = B.S ((A n).height k)
  inverse : ∀ n, (A n).nhnN.InvCorrect

/-- Rows of the stored reference state between the southern boundary and the pole. -/
def RefRow (A : Atmos) (g : ℤ) : Prop := A.rows - A.jd + 2 ≤ g ∧ g ≤ A.rows - 1

variable {F : Flow} {θ : ℝ → ℝ → ℝ → ℝ} {N S : Layers} {B : BalancedState} {A : ℕ → Atmos} {ε : ℕ → ℝ}

theorem planet_height (A : Atmos) (k : ℤ) : A.nhnN.planet.height k = A.height k := by
  show ((k : ℝ) - 1) * A.dz = ((k - 1 : ℤ) : ℝ) * A.dz
  push_cast
  rfl

theorem planet_lat (A : Atmos) (j : ℤ) : A.nhnN.planet.lat j = A.lat (A.nd + j - 1) := by
  show ((j : ℝ) - 1) * A.dphi = A.dphi * ((A.nd + j - 1 - A.nd : ℤ) : ℝ)
  push_cast
  ring

/-- The grids of the calls of the direct solver fit `B`. -/
theorem Frames.grid (hB : Frames B A) (hA : Refines B.a B.om B.h B.top A) (n : ℕ) {st : ℤ → ℝ}
    (hst : ∀ k, 1 ≤ k → k ≤ (A n).kmax → st k = B.S ((A n).height k)) :
    B.Grid (A n).nhnN.planet st ((A n).jb + 1) (A n).nd (A n).kmax := by
  have hpi := pi_pos
  have hL : (0 : ℝ) < (((A n).nlat - 1 : ℤ) : ℝ) := by
    have h2 := (hA.regular n).nd3
    have h3 := (hA.regular n).odd
    exact_mod_cast (by omega : (0 : ℤ) < (A n).nlat - 1)
  exact {
  a := hA.radius n
  om := hA.rotation n
  h := hA.scale n
  r := hB.gas n
  cp := hB.heat n
  dphi := by
    have := hL
    show 0 < π / (((A n).nlat - 1 : ℤ) : ℝ)
    positivity
  dz := hA.dz0 n
  rows := by
    have h1 := hB.rows n
    show (A n).jb + 1 < (A n).nd
    unfold jd at h1
    omega
  levels := (hA.regular n).kmax3
  pole := by
    have h3 := (hA.regular n).odd
    have h4 := hL
    show (((A n).nd : ℝ) - 1) * (π / (((A n).nlat - 1 : ℤ) : ℝ)) = π / 2
    have e : (((A n).nlat - 1 : ℤ) : ℝ) = 2 * (((A n).nd : ℝ) - 1) := by rw [h3]; push_cast; ring
    rw [e] at h4 ⊢
    generalize ((A n).nd : ℝ) - 1 = x at *
    have : 0 < x := by linarith
    field_simp
  first := by
    have := hB.first n
    have e := planet_lat (A n) ((A n).jb + 1)
    rw [show (A n).nd + ((A n).jb + 1) - 1 = (A n).nd + (A n).jb by ring] at e
    rw [← e] at this
    exact this
  last := (planet_height (A n) (A n).kmax).trans (hB.last n)
  stat := fun k k1 k2 => by rw [planet_height]; exact hst k k1 k2 }

/-- The call of the direct solver receives samples of QGPV and absolute vorticity of the flow. -/
theorem flow_sampled (hF : F.IsCurl B.a B.top) (hN : N.Of θ B.h B.top) (hS : S.Of θ B.h B.top) (hA : Refines B.a B.om B.h B.top A)
    (hB : Follows B A) (hO : ∀ n, (A n).Observes F θ N S (ε n)) (hεN : ∀ n, 2 * ε n ≤ N.s) (hεS : ∀ n, 2 * ε n ≤ S.s)
    (hε : Tendsto (fun n => ε n / (A n).dz) atTop (nhds 0)) :
    ∃ e, NhnIn.Sampled B (F.qgpv B.om B.h N S) (fun x l z => 2 * B.om * sin x + F.vort x l z) (fun n => (A n).nhnN) e := by
  have hpi := pi_pos
  obtain ⟨e1, e10, he1⟩ := C168_vorticity hF hA hO
  obtain ⟨e2, e20, he2⟩ := C168_qgpv hF hN hS hA hO hεN hεS hε
  have hcols : Tendsto (fun n => (A n).nlon) atTop atTop := by
    refine tendsto_atTop_mono (fun n => ?_) hA.rows
    have h1 := hA.square n
    have h2 := (hA.regular n).nd3
    have h3 := (hA.regular n).odd
    omega
  refine ⟨fun n => |e1 n| + |e2 n|, ?_⟩
  exact {
    geometry := fun n => ⟨(hA.regular n).nlon1, (hA.regular n).jb0, (hA.regular n).jd3, (hA.regular n).kmax3, (hA.regular n).odd, by
      show π / (((A n).nlat - 1 : ℤ) : ℝ) = π / (((A n).nlat : ℝ) - 1)
      push_cast
      rfl⟩
    width := fun n => rfl
    parts := fun n => by
      have h2 := (hA.regular n).nd3
      have h3 := (hA.regular n).odd
      show 2 ≤ (A n).nlat
      omega
    rows := hB.rows
    inverse := hB.inverse
    grid := fun n => hB.toFrames.grid hA n fun k k1 k2 => hB.stat n k k1 k2
    moreCols := hcols
    moreRows := hA.rows
    moreParts := hA.rows
    moreLevels := hA.levels
    boundary := by
      refine hB.boundary.congr fun n => ?_
      have e := planet_lat (A n) ((A n).jb + 1)
      rw [show (A n).nd + ((A n).jb + 1) - 1 = (A n).nd + (A n).jb by ring] at e
      exact e.symm
    pv := fun n k k1 k2 x y hm => by
      have := he2 n k k1 k2 x y hm
      rw [← planet_height] at this
      exact this.trans ((le_abs_self _).trans (le_add_of_nonneg_left (abs_nonneg _)))
    vort := fun n k k1 k2 x y hm => by
      have k2' : k ≤ (A n).kmax - 1 := k2
      have := he1 n k (by omega) (by omega) x y hm
      rw [← planet_height] at this
      exact this.trans ((le_abs_self _).trans (le_add_of_nonneg_right (abs_nonneg _)))
    error := by
      have := e10.abs.add e20.abs
      rwa [abs_zero, add_zero] at this }

/-- Stored rows and rows of the solver. -/
theorem stored_row {A : Atmos} (hA : A.Regular) {g : ℤ} (hg : A.RefRow g) (k : ℤ) :
    A.uref .nhn22 g k = A.nhnN.uref (g - (A.rows - A.jd)) k ∧
      A.lat (A.outRow g) = A.nhnN.planet.lat ((g - (A.rows - A.jd) + A.nhnN.jb : ℤ) : ℝ) := by
  have h3 := hA.odd
  have h0 := hA.jb0
  have hj : A.jd = A.nd - A.jb := rfl
  obtain ⟨g1, g2⟩ := hg
  constructor
  · show A.storeRef A.jd A.nhnN.uref A.nhn.south.uref g k = _
    unfold storeRef
    have c1 : ¬ (A.nhOnly = false ∧ g ≤ A.jd) := by
      rintro ⟨c, d⟩
      have : A.rows = A.nlat := by unfold rows; rw [c]; rfl
      omega
    have c2 : A.rows - A.jd + 1 ≤ g := by omega
    rw [if_neg c1, if_pos c2]
  · rw [planet_lat]
    congr 1
    unfold outRow
    show A.nlat - A.rows + g = A.nd + (g - (A.rows - A.jd) + A.jb) - 1
    omega

/-- Two neighbouring rows of the mean temperature, for a smooth field. -/
theorem tbar_gradient {A : Atmos} {D top : ℝ} {dθ ddθ : ℝ → ℝ → ℝ} {e : ℝ} (hA : A.Regular) (hO : A.Observes F θ N S e)
    (htop : A.height A.kmax = top) (hθ : ∀ l, Smooth (fun x => θ x l top) (fun x => dθ x l) (fun x => ddθ x l) D) {J : ℤ} (J1 : 2 ≤ J)
    (J2 : J ≤ A.nd - 1) :
    |(A.nhnN.tbar (J + 1) A.kmax - A.nhnN.tbar (J - 1) A.kmax) / (2 * A.dphi) -
      circleMean A.nlon (fun i => dθ (A.lat (A.nd + J - 1)) (2 * π / (A.nlon : ℝ) * ((i : ℝ) - 1)))| ≤ D * A.dphi ^ 2 := by
  have hpi := pi_pos
  have h3 := hA.odd
  have hk := hA.kmax3
  have hL : (0 : ℝ) < ((A.nlat - 1 : ℤ) : ℝ) := by exact_mod_cast (by omega : (0 : ℤ) < A.nlat - 1)
  have hd : 0 < A.dphi := by
    unfold dphi
    positivity
  have hnl : (0 : ℝ) < (A.nlon : ℝ) := by exact_mod_cast (by have := hA.nlon1; omega : 0 < A.nlon)
  have hcard : ((Icc 1 A.nlon).card : ℝ) = A.nlon := by
    rw [Int.card_Icc, ← Int.cast_natCast, Int.toNat_of_nonneg (by have := hA.nlon1; omega)]
    push_cast
    ring
  have hrow : ∀ m : ℤ, 1 ≤ m → m ≤ A.nd → A.nhnN.tbar m A.kmax =
      ∑ i ∈ Icc 1 A.nlon, θ (A.lat (A.nd + m - 1)) (A.sphere.longitude i) top / (A.nlon : ℝ) := by
    intro m m1 m2
    show dosum 1 A.nlon (fun i => A.theta i (m + (A.nd - 1)) A.kmax / (A.nlon : ℝ)) = _
    rw [dosum_eq]
    refine sum_congr rfl fun i hi => ?_
    rw [hO.theta i (m + (A.nd - 1)) A.kmax ⟨mem_Icc.1 hi, by omega, by show m + (A.nd - 1) ≤ A.nlat; omega⟩ (by omega) le_rfl, htop,
      lat_sphere hA, show m + (A.nd - 1) = A.nd + m - 1 by ring]
  have hp : A.lat (A.nd + (J + 1) - 1) = A.lat (A.nd + J - 1) + A.dphi := by unfold lat; push_cast; ring
  have hm : A.lat (A.nd + (J - 1) - 1) = A.lat (A.nd + J - 1) - A.dphi := by unfold lat; push_cast; ring
  rw [hrow (J + 1) (by omega) (by omega), hrow (J - 1) (by omega) (by omega), hp, hm]
  set φ := A.lat (A.nd + J - 1) with hφ
  unfold circleMean
  rw [← sum_sub_distrib, sum_div, sum_div, ← sum_sub_distrib]
  refine (abs_sum_le_sum_abs _ _).trans ((sum_le_sum (g := fun _ => D * A.dphi ^ 2 / (A.nlon : ℝ)) fun i _ => ?_).trans (le_of_eq ?_))
  · have q := (hθ (A.sphere.longitude i)).quotient φ hd (w := 1) one_ne_zero
    rw [abs_one, div_one, div_one, mul_one] at q
    have hlon : 2 * π / (A.nlon : ℝ) * ((i : ℝ) - 1) = A.sphere.longitude i := rfl
    rw [hlon]
    have e1 : (θ (φ + A.dphi) (A.sphere.longitude i) top / (A.nlon : ℝ) - θ (φ - A.dphi) (A.sphere.longitude i) top / (A.nlon : ℝ)) / (2 * A.dphi) -
        dθ φ (A.sphere.longitude i) / (A.nlon : ℝ) =
        ((θ (φ + A.dphi) (A.sphere.longitude i) top - θ (φ - A.dphi) (A.sphere.longitude i) top) / (2 * A.dphi) -
          dθ φ (A.sphere.longitude i)) / (A.nlon : ℝ) := by
      ring
    rw [e1, abs_div, abs_of_pos hnl]
    exact div_le_div_of_nonneg_right q hnl.le
  · rw [sum_const, nsmul_eq_mul, hcard, mul_div_cancel₀ _ hnl.ne']

/-- The shear at the top for temperatures `T n` whose differences between rows are close to a mean gradient. -/
theorem top_limit {D t : ℝ} {dθ : ℝ → ℝ → ℝ} {T : ℕ → ℤ → ℝ} (hsol : B.Solves) (hs : 0 < B.south) (hs' : B.south < π / 2)
    (hA : Refines B.a B.om B.h B.top A) (hB : Frames B A)
    (hT : ∀ n J, 2 ≤ J → J ≤ (A n).nd - 1 → |(T n (J + 1) - T n (J - 1)) / (2 * (A n).dphi) -
      circleMean (A n).nlon (fun i => dθ ((A n).lat ((A n).nd + J - 1)) (2 * π / ((A n).nlon : ℝ) * ((i : ℝ) - 1)))| ≤ D * (A n).dphi ^ 2)
    (hdθ : Continuous fun p : ℝ × ℝ => dθ p.1 p.2)
    (ht : ∀ φ, B.south ≤ φ → φ ≤ π / 2 →
      |cos φ * (thermalShear B.a B.om B.h B.r B.cp B.top φ (meanGradient dθ (φ - B.south)) - B.shear φ B.top)| ≤ t) :
    ∃ τ : ℕ → ℝ, Tendsto τ atTop (nhds t) ∧ ∀ n j, (A n).jb + 2 ≤ j → j ≤ (A n).nd - 1 →
      |-((A n).nhnN.topFactor j * (T n (j - (A n).jb + 1) - T n (j - (A n).jb - 1))) -
        cos ((A n).lat ((A n).nd + j - 1)) * B.shear ((A n).lat ((A n).nd + j - 1)) B.top| ≤ τ n := by
  have hpi := pi_pos
  have ha := hsol.a0
  have hom := hsol.om0
  have hh := hsol.h0
  have hr := hsol.r0
  have hsin : 0 < sin B.south := sin_pos_of_pos_of_lt_pi hs (by linarith)
  have hcols : Tendsto (fun n => (A n).nlon) atTop atTop := by
    refine tendsto_atTop_mono (fun n => ?_) hA.rows
    have h1 := hA.square n
    have h2 := (hA.regular n).nd3
    have h3 := (hA.regular n).odd
    omega
  obtain ⟨d, d0, dp, hd⟩ := circle_error (w := fun x l _ => dθ x l) (hdθ.comp (f := fun p : ℝ × ℝ × ℝ => (p.1, p.2.1)) (by fun_prop)) 0
    (fun n => (hA.regular n).nlon1) hcols
  have hMc : Continuous (meanGradient dθ) := by
    unfold meanGradient
    exact (intervalIntegral.continuous_parametric_intervalIntegral_of_continuous' hdθ 0 (2 * π)).div_const _
  obtain ⟨c, c0, cp, hc⟩ := parameter_error (K := Set.Icc 0 (π / 2)) isCompact_Icc (f := fun s x => meanGradient dθ (x - s))
    (by fun_prop) hB.boundary
  obtain ⟨M0, hM0⟩ := (isCompact_Icc (a := -(π / 2)) (b := π / 2)).exists_bound_of_continuousOn hMc.continuousOn
  set E : ℕ → ℝ := fun n => exp (-(B.r / B.cp) * (B.top - (A n).dz) / B.h) with hE
  set E0 : ℝ := exp (-(B.r / B.cp) * B.top / B.h) with hE0
  have hEt : Tendsto E atTop (nhds E0) := by
    have h1 : Tendsto (fun n => B.top - (A n).dz) atTop (nhds B.top) := by
      have := hA.levels.const_sub B.top
      rwa [sub_zero] at this
    have h2 : Continuous fun x : ℝ => exp (-(B.r / B.cp) * x / B.h) := by fun_prop
    exact (h2.tendsto B.top).comp h1
  have hdphi : Tendsto (fun n => (A n).dphi ^ 2) atTop (nhds 0) := by
    have := hA.spacing.pow 2
    rw [zero_pow two_ne_zero] at this
    exact this
  set k0 : ℝ := B.r / (2 * B.om * sin B.south * B.h * B.a) with hk0
  have hk0p : 0 < k0 := by positivity
  refine ⟨fun n => k0 * (E n * (D * (A n).dphi ^ 2 + d n + c n) + |E n - E0| * M0) + t, ?_, ?_⟩
  · have t1 := hEt.mul (((hdphi.const_mul D).add d0).add c0)
    have t2 := ((hEt.sub_const E0).abs).mul_const M0
    have := ((t1.add t2).const_mul k0).add_const t
    simpa using this
  intro n j j1 j2
  have h3 := (hA.regular n).odd
  have hjb := (hA.regular n).jb0
  set φ := (A n).lat ((A n).nd + j - 1) with hφ
  set s := (A n).lat ((A n).nd + (A n).jb) with hsdef
  have hL : (0 : ℝ) < (((A n).nlat - 1 : ℤ) : ℝ) := by exact_mod_cast (by omega : (0 : ℤ) < (A n).nlat - 1)
  have hdp : 0 < (A n).dphi := by
    unfold dphi
    positivity
  have hlat1 : B.south ≤ φ := by
    refine (hB.first n).trans ?_
    show (A n).dphi * _ ≤ (A n).dphi * _
    refine mul_le_mul_of_nonneg_left ?_ hdp.le
    exact_mod_cast (by omega : (A n).nd + (A n).jb - (A n).nd ≤ (A n).nd + j - 1 - (A n).nd)
  have hlat2 : φ ≤ π / 2 := by
    have e : (A n).dphi * (((A n).nd - 1 : ℤ) : ℝ) = π / 2 := by
      unfold dphi
      have e : (((A n).nlat - 1 : ℤ) : ℝ) = 2 * (((A n).nd - 1 : ℤ) : ℝ) := by rw [h3]; push_cast; ring
      rw [e] at hL ⊢
      generalize (((A n).nd - 1 : ℤ) : ℝ) = x at *
      have : 0 < x := by linarith
      field_simp
    rw [← e]
    show (A n).dphi * _ ≤ _
    refine mul_le_mul_of_nonneg_left ?_ hdp.le
    exact_mod_cast (by omega : (A n).nd + j - 1 - (A n).nd ≤ (A n).nd - 1)
  have hshift : (A n).lat ((A n).nd + (j - (A n).jb) - 1) = φ - s := by
    rw [hφ, hsdef]
    unfold lat
    push_cast
    ring
  have hs0 : 0 ≤ s := le_trans hs.le (hB.first n)
  have hss : s ≤ φ := by
    show (A n).dphi * _ ≤ (A n).dphi * _
    refine mul_le_mul_of_nonneg_left ?_ hdp.le
    exact_mod_cast (by omega : (A n).nd + (A n).jb - (A n).nd ≤ (A n).nd + j - 1 - (A n).nd)
  have g1 := hT n (j - (A n).jb) (by omega) (by omega)
  rw [hshift] at g1
  have g2 := hd n (φ - s) ⟨by linarith, by linarith⟩ 0 ⟨le_rfl, le_rfl⟩
  have g3 := hc n φ ⟨by linarith, hlat2⟩
  have g4 := hM0 (φ - B.south) ⟨by linarith, by linarith⟩
  rw [Real.norm_eq_abs] at g4
  set X := (T n (j - (A n).jb + 1) - T n (j - (A n).jb - 1)) / (2 * (A n).dphi) with hX
  have g5 : |X - meanGradient dθ (φ - B.south)| ≤ D * (A n).dphi ^ 2 + d n + c n :=
    (abs_sub_le _ (meanGradient dθ (φ - s)) _).trans (add_le_add ((abs_sub_le _ _ _).trans (add_le_add g1 g2)) g3)
  have hsφ : 0 < sin φ := sin_pos_of_pos_of_lt_pi (by linarith) (by linarith)
  have hcφ : 0 ≤ cos φ := cos_nonneg_of_mem_Icc ⟨by linarith, hlat2⟩
  set κ : ℝ := B.r * cos φ / (2 * B.om * sin φ * B.h * B.a) with hκ
  have hκ0 : 0 ≤ κ := by positivity
  have hκ1 : κ ≤ k0 := by
    have hmono : sin B.south ≤ sin φ := sin_le_sin_of_le_of_le_pi_div_two (by linarith) hlat2 hlat1
    rw [hκ, hk0]
    refine div_le_div₀ hr.le (mul_le_of_le_one_right hr.le (cos_le_one φ)) (by positivity) ?_
    have : 2 * B.om * sin B.south ≤ 2 * B.om * sin φ := mul_le_mul_of_nonneg_left hmono (by positivity)
    exact mul_le_mul_of_nonneg_right (mul_le_mul_of_nonneg_right this hh.le) ha.le
  have hfac : (A n).nhnN.topFactor j * (T n (j - (A n).jb + 1) - T n (j - (A n).jb - 1)) =
      κ * E n * X := by
    have e1 : (A n).nhnN.topFactor j = (A n).rr * cos ((A n).nhnN.planet.lat j) *
        exp (-((A n).rr / (A n).cp) * (A n).nhnN.planet.height (((A n).kmax : ℝ) - 1) / (A n).h) /
        (2 * (A n).dphi * (2 * (A n).om * sin ((A n).nhnN.planet.lat j) * (A n).h * (A n).a)) := rfl
    have e2 : (A n).nhnN.planet.height (((A n).kmax : ℝ) - 1) = B.top - (A n).dz := by
      have := (planet_height (A n) (A n).kmax).trans (hB.last n)
      rw [← this]
      show (((A n).kmax : ℝ) - 1 - 1) * (A n).dz = (((A n).kmax : ℝ) - 1) * (A n).dz - (A n).dz
      ring
    rw [e1, e2, planet_lat, hA.radius n, hA.rotation n, hA.scale n, hB.gas n, hB.heat n, hX, hκ]
    show B.r * cos φ * E n / (2 * (A n).dphi * (2 * B.om * sin φ * B.h * B.a)) * _ = _
    generalize T n (j - (A n).jb + 1) - T n (j - (A n).jb - 1) = Δ
    generalize E n = en
    field_simp
  have hlim : cos φ * thermalShear B.a B.om B.h B.r B.cp B.top φ (meanGradient dθ (φ - B.south)) =
      -(κ * E0 * meanGradient dθ (φ - B.south)) := by
    unfold thermalShear
    rw [hκ, hE0]
    ring
  have hten : |κ * E n * X - κ * E0 * meanGradient dθ (φ - B.south)| ≤
      k0 * (E n * (D * (A n).dphi ^ 2 + d n + c n) + |E n - E0| * M0) := by
    have hEn : 0 < E n := exp_pos _
    have e : κ * E n * X - κ * E0 * meanGradient dθ (φ - B.south) =
        κ * (E n * (X - meanGradient dθ (φ - B.south)) + (E n - E0) * meanGradient dθ (φ - B.south)) := by ring
    rw [e, abs_mul, abs_of_nonneg hκ0]
    refine mul_le_mul hκ1 ((abs_add_le _ _).trans ?_) (abs_nonneg _) hk0p.le
    rw [abs_mul, abs_mul, abs_of_pos hEn]
    exact add_le_add (mul_le_mul_of_nonneg_left g5 hEn.le) (mul_le_mul_of_nonneg_left g4 (abs_nonneg _))
  have h5 := ht φ hlat1 hlat2
  rw [mul_sub, hlim] at h5
  rw [hfac]
  refine (abs_sub_le _ (-(κ * E0 * meanGradient dθ (φ - B.south))) _).trans (add_le_add ?_ h5)
  rw [← abs_neg]
  refine le_trans (le_of_eq ?_) hten
  congr 1
  ring

/-- **C170 (top).** The shear that the solver prescribes at the top tends to the thermal wind shear of the temperature gradient at the
latitude `φ - south` instead of `φ`: the rows of the temperature are counted from the equator, those of the wind from the boundary. -/
theorem C170_top {D t : ℝ} {dθ ddθ : ℝ → ℝ → ℝ} (hsol : B.Solves) (hs : 0 < B.south) (hs' : B.south < π / 2)
    (hA : Refines B.a B.om B.h B.top A) (hB : Follows B A) (hO : ∀ n, (A n).Observes F θ N S (ε n))
    (hθ : ∀ l, Smooth (fun x => θ x l B.top) (fun x => dθ x l) (fun x => ddθ x l) D)
    (hdθ : Continuous fun p : ℝ × ℝ => dθ p.1 p.2)
    (ht : ∀ φ, B.south ≤ φ → φ ≤ π / 2 →
      |cos φ * (thermalShear B.a B.om B.h B.r B.cp B.top φ (meanGradient dθ (φ - B.south)) - B.shear φ B.top)| ≤ t) :
    ∃ τ : ℕ → ℝ, Tendsto τ atTop (nhds t) ∧ ∀ n j, (A n).jb + 2 ≤ j → j ≤ (A n).nd - 1 →
      |-((A n).nhnN.topFactor j * ((A n).nhnN.tbar (j - (A n).jb + 1) (A n).kmax - (A n).nhnN.tbar (j - (A n).jb - 1) (A n).kmax)) -
        cos ((A n).lat ((A n).nd + j - 1)) * B.shear ((A n).lat ((A n).nd + j - 1)) B.top| ≤ τ n :=
  top_limit (T := fun n m => (A n).nhnN.tbar m (A n).kmax) hsol hs hs' hA hB.toFrames
    (fun n _ J1 J2 => tbar_gradient (hA.regular n) (hO n) (hB.last n) hθ J1 J2) hdθ ht

/-- **C170.** Winds and temperature sampled from smooth fields on ever finer grids with equal spacings. `B` is in balance with the QGPV of
the flow, rearranged on the sphere; `b` bounds the difference of its wind at the southern boundary from the one that the code reads off
the circulation, and `t` the difference of its shear at the top from the thermal wind of the displaced temperature gradient. Eventually the
mean-square error of the stored reference wind over height, whatever row is looked at on each level, is at most a constant of `B` times
`(b + t + δ)²`. -/
theorem C170_wind {D t : ℝ} {dθ ddθ : ℝ → ℝ → ℝ} (hsol : B.Solves) (hQ : ContDiff ℝ 3 B.Q) (hs : 0 < B.south) (hs' : B.south < π / 2)
    (hF : F.IsCurl B.a B.top)
    (hN : N.Of θ B.h B.top) (hS : S.Of θ B.h B.top) (hNg : Continuous fun p : ℝ × ℝ × ℝ => N.g p.1 p.2.1 p.2.2)
    (hSg : Continuous fun p : ℝ × ℝ × ℝ => S.g p.1 p.2.1 p.2.2)
    (hθ : ∀ l, Smooth (fun x => θ x l B.top) (fun x => dθ x l) (fun x => ddθ x l) D)
    (hdθ : Continuous fun p : ℝ × ℝ => dθ p.1 p.2)
    (hqtop : ∀ z, 0 ≤ z → z ≤ B.top → volume (highest fun x l => F.qgpv B.om B.h N S x l z) = 0)
    (hζtop : ∀ z, 0 ≤ z → z ≤ B.top → volume (highest fun x l => 2 * B.om * sin x + F.vort x l z) = 0)
    (hqE : ∀ z φ, 0 ≤ z → z ≤ B.top → B.south ≤ φ → φ < π / 2 →
      Encloses B.a (fun x l => F.qgpv B.om B.h N S x l z) (-(π / 2)) (π / 2) (southCap B.a φ) (2 * B.om * sin φ * B.Q (φ, z))) {V : ℝ → ℝ}
    (hζE : ∀ z, 0 ≤ z → z ≤ B.top →
      Encloses B.a (fun x l => 2 * B.om * sin x + F.vort x l z) (-(π / 2)) (π / 2) (southCap B.a B.south) (V z)) {b : ℝ}
    (hb : ∀ z, 0 ≤ z → z ≤ B.top →
      |refCirculation B.a (fun x l => 2 * B.om * sin x + F.vort x l z) (northCap B.a B.south) (V z) / (2 * π * B.a) -
        (B.u (B.south, z) + B.om * B.a) * cos B.south| ≤ b)
    (ht : ∀ φ, B.south ≤ φ → φ ≤ π / 2 →
      |cos φ * (thermalShear B.a B.om B.h B.r B.cp B.top φ (meanGradient dθ (φ - B.south)) - B.shear φ B.top)| ≤ t) :
    ∃ C, 0 ≤ C ∧ ∀ (A : ℕ → Atmos) (ε : ℕ → ℝ), Refines B.a B.om B.h B.top A → Follows B A →
      (∀ n, (A n).Observes F θ N S (ε n)) → (∀ n, 2 * ε n ≤ N.s) → (∀ n, 2 * ε n ≤ S.s) →
      Tendsto (fun n => ε n / (A n).dz) atTop (nhds 0) →
      ∀ δ, 0 < δ → ∀ᶠ n in atTop, ∀ g : ℤ → ℤ, (∀ k, (A n).RefRow (g k)) →
        (A n).dz * ∑ k ∈ Icc 2 ((A n).kmax - 1), exp (-((A n).height k / B.h)) *
          (|(A n).uref .nhn22 (g k) k - B.u ((A n).lat ((A n).outRow (g k)), (A n).height k)| *
            cos ((A n).lat ((A n).outRow (g k)))) ^ 2 ≤ C * (b + t + δ) ^ 2 := by
  obtain ⟨C, C0, hC⟩ := NhnIn.C167_wind hsol hQ hs hs' (qgpv_continuous hF.continuous hNg hSg)
    (ζ := fun x l z => 2 * B.om * sin x + F.vort x l z) (by have := hF.continuous; fun_prop) hqtop hζtop hqE hζE hb
  refine ⟨C, C0, fun A ε hA hB hO hεN hεS hε δ hδ => ?_⟩
  obtain ⟨e, he⟩ := flow_sampled hF hN hS hA hB hO hεN hεS hε
  obtain ⟨τ, hτt, hτ⟩ := C170_top hsol hs hs' hA hB hO hθ hdθ ht
  have key := hC (fun n => (A n).nhnN) e τ t he (fun n j j1 j2 => by
    have := hτ n j j1 j2
    rw [← planet_lat] at this
    exact this) hτt δ hδ
  filter_upwards [key] with n hn g hg
  have hreg := hA.regular n
  have hj := hn (fun k => g k - ((A n).rows - (A n).jd)) fun k => by
    obtain ⟨g1, g2⟩ := hg k
    constructor
    · show (2 : ℤ) ≤ g k - ((A n).rows - (A n).jd)
      omega
    · show g k - ((A n).rows - (A n).jd) ≤ (A n).jd - 1
      omega
  refine le_trans (le_of_eq ?_) hj
  show _ = (A n).dz * ∑ k ∈ Icc 2 ((A n).kmax - 1), _
  congr 1
  refine sum_congr rfl fun k _ => ?_
  obtain ⟨e1, e2⟩ := stored_row hreg (hg k) k
  rw [e1, e2, planet_height, ← hA.scale n]
  rfl

/-- No wind. -/
def noFlow : Flow where
  U := fun _ _ _ => 0
  V := fun _ _ _ => 0
  vort := fun _ _ _ => 0
  dU := fun _ _ _ => 0
  ddU := fun _ _ _ => 0
  dV := fun _ _ _ => 0
  ddV := fun _ _ _ => 0
  D := 0

theorem noFlow_curl : noFlow.IsCurl 1 1 where
  zonal := fun _ _ _ _ => ⟨fun x => hasDerivAt_const x 0, fun x => hasDerivAt_const x 0, fun x y => by simp [noFlow]⟩
  meridional := fun l z _ _ => ⟨fun x => by
    have e : (fun φ => noFlow.U φ l z * cos φ) = fun _ => (0 : ℝ) := by funext φ; exact zero_mul _
    rw [e]
    exact hasDerivAt_const x 0, fun x => hasDerivAt_const x 0, fun x y => by simp [noFlow]⟩
  periodic := fun _ _ _ => rfl
  curl := fun φ _ _ _ _ _ _ => by show 1 * cos φ * 0 = (0 : ℝ) - 0; ring
  continuous := continuous_const (y := (0 : ℝ))
  north := fun _ _ _ => rfl
  south := fun _ _ _ => rfl

/-- Air stratified alike everywhere. -/
def flatLayers : Layers where
  mean := fun z => z
  stability := fun _ => 1
  g := fun _ _ _ => 0
  dg := fun _ _ _ => 0
  D := 0
  M := 0
  s := 1

theorem flatLayers_of : flatLayers.Of (fun _ _ z => z) 1 1 where
  smooth := fun φ l => by
    have e : (fun z : ℝ => exp (-z / 1) * ((z - flatLayers.mean z) / flatLayers.stability z)) = fun _ => 0 := by
      funext z
      show exp (-z / 1) * ((z - z) / 1) = 0
      rw [sub_self, zero_div, mul_zero]
    show Smooth (fun z : ℝ => exp (-z / 1) * ((z - flatLayers.mean z) / flatLayers.stability z)) _ _ _
    rw [e]
    exact ⟨fun x => hasDerivAt_const x 0, fun x => hasDerivAt_const x 0, fun x y => by simp [flatLayers]⟩
  s0 := one_pos
  stable := fun _ _ _ => le_rfl
  anomaly := fun _ _ z _ _ => by
    show |z - z| ≤ 0
    rw [sub_self, abs_zero]

theorem noFlow_qgpv (z : ℝ) : (fun x l => noFlow.qgpv 1 1 flatLayers flatLayers x l z) = fun x _ => 2 * 1 * sin x := by
  funext x l
  show 2 * 1 * sin x + 0 + 2 * 1 * sin x * (exp (z / 1) * (if x ≤ 0 then 0 else 0)) = _
  rw [ite_self]
  ring

theorem noFlow_vort (z : ℝ) : (fun x l => 2 * 1 * sin x + noFlow.vort x l z) = fun x _ => 2 * 1 * sin x := by
  funext x l
  exact add_zero _

/-- Its samples on `4 n + 13` latitudes, with the southern boundary at 45 degrees. -/
def noWind (n : ℕ) : Atmos :=
  { tinyWave with
    nlon := 8 * n + 24
    nlatIn := 4 * n + 13
    nlat := 4 * n + 13
    kmax := n + 3
    jb := n + 3
    npart := 4 * n + 13
    dz := 1 / (n + 2)
    zlev := fun l => ((l - 1 : ℤ) : ℝ) * (1 / (n + 2))
    uField := fun _ _ _ => 0
    vField := fun _ _ _ => 0
    tField := fun _ _ l => ((l - 1 : ℤ) : ℝ) * (1 / (n + 2)) * exp (-(((l - 1 : ℤ) : ℝ) * (1 / (n + 2))))
    inv := Classical.choose (NhnIn.exists_inv (Icc 1 ((n : ℤ) + 2))) }

theorem noWind_nd (n : ℕ) : (noWind n).nd = 2 * n + 7 := by
  show (4 * (n : ℤ) + 13) / 2 + (4 * (n : ℤ) + 13) % 2 = 2 * n + 7
  omega

theorem noWind_jd (n : ℕ) : (noWind n).jd = n + 4 := by
  unfold jd
  rw [noWind_nd]
  show (2 * n + 7 : ℤ) - (n + 3) = n + 4
  ring

theorem noWind_regular (n : ℕ) : (noWind n).Regular where
  nlon1 := by show (1 : ℤ) ≤ 8 * n + 24; omega
  odd := by rw [noWind_nd]; show (4 * n + 13 : ℤ) = _; ring
  jb0 := by show (0 : ℤ) ≤ n + 3; omega
  jd3 := by rw [noWind_jd]; omega
  kmax3 := by show (3 : ℤ) ≤ n + 3; omega
  npart2 := by show (2 : ℤ) ≤ 4 * n + 13; omega
  a0 := by show (0 : ℝ) < 1; norm_num
  om0 := by show (1 : ℝ) ≠ 0; norm_num

theorem noWind_top (n : ℕ) : (noWind n).height (noWind n).kmax = 1 := by
  show (((n : ℤ) + 3 - 1 : ℤ) : ℝ) * (1 / ((n : ℝ) + 2)) = 1
  have : (0 : ℝ) < (n : ℝ) + 2 := by positivity
  push_cast
  field_simp
  ring

theorem noWind_refines : Refines 1 1 1 1 noWind where
  regular := noWind_regular
  square := fun n => by show (8 * n + 24 : ℤ) = 2 * (4 * n + 13 - 1); ring
  radius := fun _ => rfl
  rotation := fun _ => rfl
  scale := fun _ => rfl
  scale0 := one_pos
  dz0 := fun n => by show (0 : ℝ) < 1 / (n + 2); positivity
  top := fun n => (noWind_top n).le
  rows := by
    show Tendsto (fun n : ℕ => (4 * n + 13 : ℤ)) atTop atTop
    refine tendsto_atTop_mono (fun n => ?_) tendsto_natCast_atTop_atTop
    omega
  levels := by
    show Tendsto (fun n : ℕ => 1 / ((n : ℝ) + 2)) atTop (nhds 0)
    exact tendsto_const_nhds.div_atTop (tendsto_atTop_add_const_right _ 2 tendsto_natCast_atTop_atTop)

theorem noWind_south (n : ℕ) : (noWind n).lat ((noWind n).nd + (noWind n).jb) = π / 4 := by
  show π / ((4 * n + 13 - 1 : ℤ) : ℝ) * (((noWind n).nd + (n + 3) - (noWind n).nd : ℤ) : ℝ) = π / 4
  have : (0 : ℝ) < 4 * n + 13 - 1 := by have : (0 : ℝ) ≤ n := Nat.cast_nonneg n; linarith
  push_cast
  field_simp
  ring

theorem noWind_theta (n : ℕ) (i j l : ℤ) : (noWind n).theta i j l = (noWind n).height l := by
  show ((l - 1 : ℤ) : ℝ) * (1 / (n + 2)) * exp (-(((l - 1 : ℤ) : ℝ) * (1 / (n + 2)))) *
      exp (1 / 1 * (((l - 1 : ℤ) : ℝ) * (1 / (n + 2))) / 1) = ((l - 1 : ℤ) : ℝ) * (1 / (n + 2))
  rw [mul_assoc, ← exp_add, show -(((l - 1 : ℤ) : ℝ) * (1 / ((n : ℝ) + 2))) + 1 / 1 * (((l - 1 : ℤ) : ℝ) * (1 / ((n : ℝ) + 2))) / 1 = 0 by ring,
    exp_zero, mul_one]

theorem noWind_rowMean (n : ℕ) (l g : ℤ) : (noWind n).rowMean l g = (noWind n).height l * (noWind n).clat g := by
  have h0 : (0 : ℝ) < ((noWind n).nlon : ℝ) := by
    have : (0 : ℤ) < (noWind n).nlon := by show (0 : ℤ) < 8 * n + 24; omega
    exact_mod_cast this
  have hc : ((Icc (1 : ℤ) (noWind n).nlon).card : ℝ) = (noWind n).nlon := by
    rw [Int.card_Icc]
    have : (((noWind n).nlon + 1 - 1).toNat : ℤ) = (noWind n).nlon := by
      have : (0 : ℤ) < (noWind n).nlon := by exact_mod_cast h0
      omega
    exact_mod_cast this
  have e1 : ∀ x, (noWind n).theta0 x g l = (noWind n).height l := fun x => noWind_theta n x g l
  unfold rowMean
  simp only [e1]
  rw [sum_const, nsmul_eq_mul, hc, mul_div_cancel_left₀ _ h0.ne']

theorem noWind_csm (n : ℕ) : 0 < (noWind n).csm := by
  have hpi := pi_pos
  refine sum_pos' (fun g _ => abs_nonneg _) ⟨(noWind n).jd, ?_, ?_⟩
  · rw [mem_Icc, noWind_jd]
    omega
  · have e : (noWind n).lat (noWind n).jd = -(π / 4) := by
      rw [← noWind_south n]
      unfold lat jd
      push_cast
      ring
    unfold clat
    rw [e, cos_neg]
    exact abs_pos.2 (cos_pos_of_mem_Ioo ⟨by linarith, by linarith⟩).ne'

theorem noWind_ts0 (n : ℕ) (k : ℤ) : (noWind n).ts0 k = (noWind n).height k := by
  show (∑ g ∈ Icc 1 (noWind n).jd, (noWind n).rowMean k g) / (noWind n).csm = _
  simp only [noWind_rowMean]
  rw [← mul_sum]
  show (noWind n).height k * (noWind n).csm / (noWind n).csm = _
  rw [mul_div_assoc, div_self (noWind_csm n).ne', mul_one]

theorem noWind_tn0 (n : ℕ) (k : ℤ) : (noWind n).tn0 k = (noWind n).height k := by
  show (∑ g ∈ Icc ((noWind n).nlat - (noWind n).jd + 1) (noWind n).nlat, (noWind n).rowMean k g) / (noWind n).csm = _
  simp only [noWind_rowMean]
  rw [← mul_sum]
  have hsym : ∑ g ∈ Icc ((noWind n).nlat - (noWind n).jd + 1) (noWind n).nlat, (noWind n).clat g = (noWind n).csm := by
    unfold csm
    refine sum_bij' (fun g _ => (noWind n).nlat + 1 - g) (fun g _ => (noWind n).nlat + 1 - g) ?_ ?_ ?_ ?_ ?_
    · intro g hg; rw [mem_Icc] at hg ⊢; omega
    · intro g hg; rw [mem_Icc] at hg ⊢; omega
    · intro g _; ring
    · intro g _; ring
    · intro g _
      unfold clat
      rw [lat_neg (noWind_regular n), Real.cos_neg]
  rw [hsym, mul_div_assoc, div_self (noWind_csm n).ne', mul_one]

theorem noWind_observes (n : ℕ) : (noWind n).Observes noFlow (fun _ _ z => z) flatLayers flatLayers 0 where
  u := fun _ _ _ _ _ _ => rfl
  v := fun _ _ _ _ _ _ => rfl
  theta := fun i j k _ _ _ => noWind_theta n i j k
  meanN := fun k _ _ => by rw [noWind_tn0]; simp [flatLayers]
  meanS := fun k _ _ => by rw [noWind_ts0]; simp [flatLayers]
  statN := fun k _ _ => by
    have e : (noWind n).statN k - flatLayers.stability ((noWind n).height k) = 1 - 1 := rfl
    rw [e, sub_self, abs_zero]
  statS := fun k _ _ => by
    have e : (noWind n).statS k - flatLayers.stability ((noWind n).height k) = 1 - 1 := rfl
    rw [e, sub_self, abs_zero]

theorem noWind_follows : Follows BalancedState.calm noWind where
  gas := fun _ => rfl
  heat := fun _ => rfl
  last := noWind_top
  stat := fun _ _ _ _ => rfl
  rows := fun n => by rw [noWind_jd]; omega
  inverse := fun n => by
    have := Classical.choose_spec (NhnIn.exists_inv (Icc 1 ((n : ℤ) + 2)))
    have e : (noWind n).nhnN.R = Icc 1 ((n : ℤ) + 2) := by
      show Icc 1 ((noWind n).jd - 2) = _
      rw [noWind_jd, show (n : ℤ) + 4 - 2 = n + 2 by ring]
    unfold NhnIn.InvCorrect
    rw [e]
    exact this
  first := fun n => (noWind_south n).ge
  boundary := by
    simp only [noWind_south]
    exact tendsto_const_nhds

/-- The hypotheses of `C170_wind` can be met: air at rest, with the boundary at 45 degrees. -/
theorem noWind_wind : ∃ C, 0 ≤ C ∧ ∀ δ, 0 < δ → ∀ᶠ n in atTop, ∀ g : ℤ → ℤ, (∀ k, (noWind n).RefRow (g k)) →
    (noWind n).dz * ∑ k ∈ Icc 2 ((noWind n).kmax - 1), exp (-((noWind n).height k / 1)) *
      (|(noWind n).uref .nhn22 (g k) k - 0| * cos ((noWind n).lat ((noWind n).outRow (g k)))) ^ 2 ≤
      C * (1 * 1 * cos (π / 4) * (1 - cos (π / 4)) + 0 + δ) ^ 2 := by
  have hpi := pi_pos
  have h1 : 0 ≤ π / 4 := by positivity
  have h2 : π / 4 < π / 2 := by linarith
  obtain ⟨C, C0, hC⟩ := C170_wind (B := BalancedState.calm) (F := noFlow) (N := flatLayers) (S := flatLayers) (θ := fun _ _ z => z) (D := 0)
    (t := 0) (dθ := fun _ _ => 0) (ddθ := fun _ _ => 0) BalancedState.calm_solves
    (contDiff_const (c := (1 : ℝ))) (by show 0 < π / 4; positivity) h2 noFlow_curl flatLayers_of flatLayers_of
    (continuous_const (y := (0 : ℝ))) (continuous_const (y := (0 : ℝ)))
    (fun _ => ⟨fun x => hasDerivAt_const x _, fun x => hasDerivAt_const x _, fun x y => by simp⟩) continuous_const
    (fun z _ _ => by
      show volume (highest fun x l => noFlow.qgpv 1 1 flatLayers flatLayers x l z) = 0
      rw [noFlow_qgpv]
      exact planetary_highest one_pos)
    (fun z _ _ => by
      show volume (highest fun x l => 2 * 1 * sin x + noFlow.vort x l z) = 0
      rw [noFlow_vort]
      exact planetary_highest one_pos)
    (fun z φ _ _ f1 f2 => by
      have f1 : π / 4 ≤ φ := f1
      have := planetary_encloses (a := 1) one_pos one_pos (by linarith : (0 : ℝ) ≤ φ) f2
      show Encloses 1 (fun x l => noFlow.qgpv 1 1 flatLayers flatLayers x l z) _ _ _ (2 * 1 * sin φ * 1)
      rwa [mul_one (2 * 1 * sin φ), noFlow_qgpv])
    (V := fun _ => 2 * 1 * sin (π / 4)) (fun z _ _ => by
      show Encloses 1 (fun x l => 2 * 1 * sin x + noFlow.vort x l z) _ _ _ _
      rw [noFlow_vort]
      exact planetary_encloses one_pos one_pos h1 h2)
    (b := 1 * 1 * cos (π / 4) * (1 - cos (π / 4))) (fun z _ _ => by
      show |refCirculation 1 (fun x l => 2 * 1 * sin x + noFlow.vort x l z) (northCap 1 (π / 4)) (2 * 1 * sin (π / 4)) / (2 * π * 1) -
        (0 + 1 * 1) * cos (π / 4)| ≤ _
      have hc : 0 ≤ cos (π / 4) := cos_nonneg_of_mem_Icc ⟨by linarith, h2.le⟩
      rw [noFlow_vort, planetary_circulation one_pos h1 h2]
      have e1 : kelvin 1 1 (π / 4) 0 / (2 * π * 1) - (0 + 1 * 1) * cos (π / 4) = -(1 * 1 * cos (π / 4) * (1 - cos (π / 4))) := by
        unfold kelvin
        generalize cos (π / 4) = c
        field_simp
        ring
      rw [e1, abs_neg, abs_of_nonneg (mul_nonneg (by linarith) (by linarith [cos_le_one (π / 4)]))])
    (fun φ _ _ => by
      have s : BalancedState.calm.shear φ BalancedState.calm.top = 0 := by
        show deriv (fun _ : ℝ => (0 : ℝ)) _ = 0
        simp
      rw [s]
      simp [thermalShear, meanGradient])
  exact ⟨C, C0, hC noWind (fun _ => 0) noWind_refines noWind_follows noWind_observes (fun _ => by show 2 * 0 ≤ (1 : ℝ); norm_num)
    (fun _ => by show 2 * 0 ≤ (1 : ℝ); norm_num) (by simp)⟩

end Atmos

end Falwa
