import Verif.Props.RearrangeSamples
import Verif.Props.SmoothWind

/-!
# C174: the reference wind of the Southern Hemisphere

`C170` for the southern call of the direct solver. QGPV and temperature are mirrored with the right signs; the absolute vorticity is
mirrored without a change of sign, and so the wind at the boundary comes from the circulation of the Northern Hemisphere on any grid,
however fine.
-/

noncomputable section

namespace Falwa

open Real Finset Spec MeasureTheory Filter

/-! ### North and south exchanged without a change of sign -/

theorem areaAtMost_reflect (a : ℝ) (q : ℝ → ℝ → ℝ) (w : ℝ) :
    areaAtMost a (fun x l => q (-x) l) (-(π / 2)) (π / 2) w = areaAtMost a q (-(π / 2)) (π / 2) w := by
  classical
  unfold areaAtMost
  rw [← integral_reflect (fun p => if q p.1 p.2 ≤ w then a ^ 2 * cos p.1 else 0)]
  refine setIntegral_congr_fun (measurableSet_band _ _) fun p _ => ?_
  show (if q (-p.1) p.2 ≤ w then a ^ 2 * cos p.1 else 0) = if q (-p.1) p.2 ≤ w then a ^ 2 * cos (-p.1) else 0
  rw [cos_neg]

theorem encloses_reflect {a T v : ℝ} {q : ℝ → ℝ → ℝ} (h : Encloses a q (-(π / 2)) (π / 2) T v) :
    Encloses a (fun x l => q (-x) l) (-(π / 2)) (π / 2) T v :=
  ⟨fun w hw => by rw [areaAtMost_reflect]; exact h.below w hw, fun w hw => by rw [areaAtMost_reflect]; exact h.above w hw⟩

theorem areaAbove_reflect (a : ℝ) (q : ℝ → ℝ → ℝ) (v : ℝ) : areaAbove a (fun x l => q (-x) l) v = areaAbove a q v := by
  classical
  unfold areaAbove
  rw [← integral_reflect (fun p => if v < q p.1 p.2 then a ^ 2 * cos p.1 else 0)]
  refine setIntegral_congr_fun (measurableSet_band _ _) fun p _ => ?_
  show (if v < q (-p.1) p.2 then a ^ 2 * cos p.1 else 0) = if v < q (-p.1) p.2 then a ^ 2 * cos (-p.1) else 0
  rw [cos_neg]

theorem circulationAbove_reflect (a : ℝ) (q : ℝ → ℝ → ℝ) (v : ℝ) :
    circulationAbove a (fun x l => q (-x) l) v = circulationAbove a q v := by
  classical
  unfold circulationAbove
  rw [← integral_reflect (fun p => if v < q p.1 p.2 then q p.1 p.2 * (a ^ 2 * cos p.1) else 0)]
  refine setIntegral_congr_fun (measurableSet_band _ _) fun p _ => ?_
  show (if v < q (-p.1) p.2 then q (-p.1) p.2 * (a ^ 2 * cos p.1) else 0) =
    if v < q (-p.1) p.2 then q (-p.1) p.2 * (a ^ 2 * cos (-p.1)) else 0
  rw [cos_neg]

/-- The circulation of the reference state does not see where on the sphere the values are. -/
theorem refCirculation_reflect (a : ℝ) (q : ℝ → ℝ → ℝ) (T v : ℝ) : refCirculation a (fun x l => q (-x) l) T v = refCirculation a q T v := by
  unfold refCirculation
  rw [areaAbove_reflect, circulationAbove_reflect]

theorem highest_reflect {q : ℝ → ℝ → ℝ} (h : volume (highest q) = 0) : volume (highest fun x l => q (-x) l) = 0 := by
  have e : (highest fun x l => q (-x) l) = reflect ⁻¹' highest q := by
    have hm : ∀ p : ℝ × ℝ, (-p.1, p.2) ∈ band (-(π / 2)) (π / 2) ↔ p ∈ band (-(π / 2)) (π / 2) := fun p => Set.ext_iff.1 reflect_band p
    ext p
    constructor
    · rintro ⟨h1, h2⟩
      refine ⟨(hm p).2 h1, fun p' hp' => ?_⟩
      have := h2 (-p'.1, p'.2) ((hm p').2 hp')
      simp only [neg_neg] at this
      exact this
    · rintro ⟨h1, h2⟩
      exact ⟨(hm p).1 h1, fun p' hp' => h2 (-p'.1, p'.2) ((hm p').2 hp')⟩
  rw [e, reflect_preserving.measure_preimage_equiv]
  exact h

/-- A smooth function of the latitude seen from the other side of the equator. -/
theorem Spec.Smooth.reflect {f f' f'' : ℝ → ℝ} {D : ℝ} (h : Smooth f f' f'' D) :
    Smooth (fun x => f (-x)) (fun x => -f' (-x)) (fun x => f'' (-x)) D where
  deriv1 := fun x => by
    have := (h.deriv1 (-x)).comp x (hasDerivAt_neg x)
    rwa [mul_neg_one] at this
  deriv2 := fun x => by
    have := ((h.deriv2 (-x)).comp x (hasDerivAt_neg x)).neg
    rw [mul_neg_one, neg_neg] at this
    exact this
  bound := fun x y => by
    have := h.bound (-x) (-y)
    rwa [show -x - -y = -(x - y) by ring, abs_neg] at this

theorem meanGradient_reflect (dθ : ℝ → ℝ → ℝ) (φ : ℝ) : meanGradient (fun x l => -dθ (-x) l) φ = -meanGradient dθ (-φ) := by
  unfold meanGradient
  rw [intervalIntegral.integral_neg, neg_div]

namespace Atmos

/-- The atmospheres `A n` have the constants, the height, the boundary and the southern stability of `B`, a balanced state of the Southern
Hemisphere with latitudes counted southwards; a right matrix inversion; and both hemispheres are processed. -/
structure FollowsSouth (B : BalancedState) (A : ℕ → Atmos) : Prop extends Frames B A where
  stat : ∀ n k, 1 ≤ k → k ≤ (A n).kmax → (A n).statS k = B.S ((A n).height k)
  inverse : ∀ n, (A n).nhn.south.InvCorrect
  global : ∀ n, (A n).nhOnly = false

/-- Rows of the stored reference state between the South Pole and the boundary. -/
def RefRowSouth (A : Atmos) (g : ℤ) : Prop := 2 ≤ g ∧ g ≤ A.jd - 1

variable {F : Flow} {θ : ℝ → ℝ → ℝ → ℝ} {N S : Layers} {B : BalancedState} {A : ℕ → Atmos} {ε : ℕ → ℝ}

/-- The southern call receives mirrored samples of QGPV, and samples of absolute vorticity with the signs of the Northern Hemisphere. -/
theorem flow_sampled_south (hF : F.IsCurl B.a B.top) (hN : N.Of θ B.h B.top) (hS : S.Of θ B.h B.top) (hA : Refines B.a B.om B.h B.top A)
    (hB : FollowsSouth B A) (hO : ∀ n, (A n).Observes F θ N S (ε n)) (hεN : ∀ n, 2 * ε n ≤ N.s) (hεS : ∀ n, 2 * ε n ≤ S.s)
    (hε : Tendsto (fun n => ε n / (A n).dz) atTop (nhds 0)) :
    ∃ e, NhnIn.Sampled B (fun x l z => -F.qgpv B.om B.h N S (-x) l z) (fun x l z => 2 * B.om * sin (-x) + F.vort (-x) l z)
      (fun n => (A n).nhn.south) e := by
  obtain ⟨e1, e10, he1⟩ := C168_vorticity hF hA hO
  obtain ⟨e2, e20, he2⟩ := C168_qgpv hF hN hS hA hO hεN hεS hε
  have hcols : Tendsto (fun n => (A n).nlon) atTop atTop := by
    refine tendsto_atTop_mono (fun n => ?_) hA.rows
    have h1 := hA.square n
    have h2 := (hA.regular n).nd3
    have h3 := (hA.regular n).odd
    omega
  refine ⟨fun n => |e1 n| + |e2 n|, ?_⟩
  exact {
    geometry := fun n => ⟨(hA.regular n).nlon1, (hA.regular n).jb0, (hA.regular n).jd3, (hA.regular n).kmax3, (hA.regular n).odd, by
      show π / (((A n).nlat - 1 : ℤ) : ℝ) = π / (((A n).nlat : ℝ) - 1)
      push_cast
      rfl⟩
    width := fun n => rfl
    parts := fun n => by
      have h2 := (hA.regular n).nd3
      have h3 := (hA.regular n).odd
      show 2 ≤ (A n).nlat
      omega
    rows := hB.rows
    inverse := hB.inverse
    grid := fun n => hB.toFrames.grid hA n fun k k1 k2 => hB.stat n k k1 k2
    moreCols := hcols
    moreRows := hA.rows
    moreParts := hA.rows
    moreLevels := hA.levels
    boundary := by
      refine hB.boundary.congr fun n => ?_
      have e := planet_lat (A n) ((A n).jb + 1)
      rw [show (A n).nd + ((A n).jb + 1) - 1 = (A n).nd + (A n).jb by ring] at e
      exact e.symm
    pv := fun n k k1 k2 x y hm => by
      have hm2 : 1 ≤ y ∧ y ≤ (A n).nlat := hm.2
      have := he2 n k k1 k2 x ((A n).nlat + 1 - y) ⟨hm.1, by show 1 ≤ (A n).nlat + 1 - y; omega, by show (A n).nlat + 1 - y ≤ (A n).nlat; omega⟩
      rw [lat_sphere (hA.regular n), lat_neg (hA.regular n), ← planet_height] at this
      have goal : |-(A n).qgpv .nhn22 x ((A n).nlat + 1 - y) k -
          -F.qgpv B.om B.h N S (-(A n).sphere.latitude y) ((A n).sphere.longitude x) ((A n).nhnN.planet.height k)| ≤ |e1 n| + |e2 n| := by
        rw [lat_sphere (hA.regular n), ← abs_neg]
        refine le_trans (le_of_eq ?_) (this.trans ((le_abs_self _).trans (le_add_of_nonneg_left (abs_nonneg _))))
        congr 1
        ring
      exact goal
    vort := fun n k k1 k2 x y hm => by
      have k2' : k ≤ (A n).kmax - 1 := k2
      have hm2 : 1 ≤ y ∧ y ≤ (A n).nlat := hm.2
      have := he1 n k (by omega) (by omega) x ((A n).nlat + 1 - y)
        ⟨hm.1, by show 1 ≤ (A n).nlat + 1 - y; omega, by show (A n).nlat + 1 - y ≤ (A n).nlat; omega⟩
      rw [lat_sphere (hA.regular n), lat_neg (hA.regular n), ← planet_height] at this
      have goal : |(A n).avort x ((A n).nlat + 1 - y) k - (2 * B.om * sin (-(A n).sphere.latitude y) +
          F.vort (-(A n).sphere.latitude y) ((A n).sphere.longitude x) ((A n).nhnN.planet.height k))| ≤ |e1 n| + |e2 n| := by
        rw [lat_sphere (hA.regular n)]
        exact this.trans ((le_abs_self _).trans (le_add_of_nonneg_right (abs_nonneg _)))
      exact goal
    error := by
      have := e10.abs.add e20.abs
      rwa [abs_zero, add_zero] at this }

/-- Stored rows and rows of the southern call. -/
theorem stored_row_south {A : Atmos} (hA : A.Regular) (hg : A.nhOnly = false) {g : ℤ} (h : A.RefRowSouth g) (k : ℤ) :
    A.uref .nhn22 g k = A.nhn.south.uref (A.jd + 1 - g) k ∧
      -A.lat (A.outRow g) = A.nhnN.planet.lat ((A.jd + 1 - g + A.jb : ℤ) : ℝ) := by
  have h3 := hA.odd
  have hj : A.jd = A.nd - A.jb := rfl
  obtain ⟨g1, g2⟩ := h
  constructor
  · show A.storeRef A.jd A.nhnN.uref A.nhn.south.uref g k = _
    unfold storeRef
    rw [if_pos ⟨hg, by omega⟩]
  · have hr : A.rows = A.nlat := by unfold rows; rw [hg]; rfl
    rw [planet_lat, ← lat_neg hA]
    congr 1
    unfold outRow
    omega

/-- Two neighbouring rows of the mean temperature of the southern call. -/
theorem tbar_gradient_south {A : Atmos} {D top : ℝ} {dθ ddθ : ℝ → ℝ → ℝ} {e : ℝ} (hA : A.Regular) (hO : A.Observes F θ N S e)
    (htop : A.height A.kmax = top) (hθ : ∀ l, Smooth (fun x => θ x l top) (fun x => dθ x l) (fun x => ddθ x l) D) {J : ℤ} (J1 : 2 ≤ J)
    (J2 : J ≤ A.nd - 1) :
    |(A.nhn.south.tbar (J + 1) A.kmax - A.nhn.south.tbar (J - 1) A.kmax) / (2 * A.dphi) -
      circleMean A.nlon (fun i => -dθ (-A.lat (A.nd + J - 1)) (2 * π / (A.nlon : ℝ) * ((i : ℝ) - 1)))| ≤ D * A.dphi ^ 2 := by
  have hpi := pi_pos
  have h3 := hA.odd
  have hk := hA.kmax3
  have hL : (0 : ℝ) < ((A.nlat - 1 : ℤ) : ℝ) := by exact_mod_cast (by omega : (0 : ℤ) < A.nlat - 1)
  have hd : 0 < A.dphi := by
    unfold dphi
    positivity
  have hnl : (0 : ℝ) < (A.nlon : ℝ) := by exact_mod_cast (by have := hA.nlon1; omega : 0 < A.nlon)
  have hcard : ((Icc 1 A.nlon).card : ℝ) = A.nlon := by
    rw [Int.card_Icc, ← Int.cast_natCast, Int.toNat_of_nonneg (by have := hA.nlon1; omega)]
    push_cast
    ring
  have hrow : ∀ m : ℤ, 1 ≤ m → m ≤ A.nd → A.nhn.south.tbar m A.kmax =
      ∑ i ∈ Icc 1 A.nlon, θ (-A.lat (A.nd + m - 1)) (A.sphere.longitude i) top / (A.nlon : ℝ) := by
    intro m m1 m2
    show dosum 1 A.nlon (fun i => A.theta i (A.nlat + 1 - (m + (A.nd - 1))) A.kmax / (A.nlon : ℝ)) = _
    rw [dosum_eq]
    refine sum_congr rfl fun i hi => ?_
    rw [hO.theta i (A.nlat + 1 - (m + (A.nd - 1))) A.kmax
      ⟨mem_Icc.1 hi, by omega, by show A.nlat + 1 - (m + (A.nd - 1)) ≤ A.nlat; omega⟩ (by omega) le_rfl, htop,
      lat_sphere hA, show m + (A.nd - 1) = A.nd + m - 1 by ring, lat_neg hA]
  have hp : A.lat (A.nd + (J + 1) - 1) = A.lat (A.nd + J - 1) + A.dphi := by unfold lat; push_cast; ring
  have hm : A.lat (A.nd + (J - 1) - 1) = A.lat (A.nd + J - 1) - A.dphi := by unfold lat; push_cast; ring
  rw [hrow (J + 1) (by omega) (by omega), hrow (J - 1) (by omega) (by omega), hp, hm]
  set φ := A.lat (A.nd + J - 1) with hφ
  unfold circleMean
  rw [← sum_sub_distrib, sum_div, sum_div, ← sum_sub_distrib]
  refine (abs_sum_le_sum_abs _ _).trans ((sum_le_sum (g := fun _ => D * A.dphi ^ 2 / (A.nlon : ℝ)) fun i _ => ?_).trans (le_of_eq ?_))
  · have q := (hθ (A.sphere.longitude i)).reflect.quotient φ hd (w := 1) one_ne_zero
    rw [abs_one, div_one, div_one, mul_one] at q
    have hlon : 2 * π / (A.nlon : ℝ) * ((i : ℝ) - 1) = A.sphere.longitude i := rfl
    rw [hlon]
    have e1 : (θ (-(φ + A.dphi)) (A.sphere.longitude i) top / (A.nlon : ℝ) - θ (-(φ - A.dphi)) (A.sphere.longitude i) top / (A.nlon : ℝ)) /
          (2 * A.dphi) - -dθ (-φ) (A.sphere.longitude i) / (A.nlon : ℝ) =
        ((θ (-(φ + A.dphi)) (A.sphere.longitude i) top - θ (-(φ - A.dphi)) (A.sphere.longitude i) top) / (2 * A.dphi) -
          -dθ (-φ) (A.sphere.longitude i)) / (A.nlon : ℝ) := by
      ring
    rw [e1, abs_div, abs_of_pos hnl]
    exact div_le_div_of_nonneg_right q hnl.le
  · rw [sum_const, nsmul_eq_mul, hcard, mul_div_cancel₀ _ hnl.ne']

/-- **C174 (top).** The shear that the southern call prescribes at the top tends to the thermal wind shear of the temperature gradient of
the Southern Hemisphere, at the latitude `φ - south` instead of `φ` (both counted southwards). -/
theorem C174_top {D t : ℝ} {dθ ddθ : ℝ → ℝ → ℝ} (hsol : B.Solves) (hs : 0 < B.south) (hs' : B.south < π / 2)
    (hA : Refines B.a B.om B.h B.top A) (hB : FollowsSouth B A) (hO : ∀ n, (A n).Observes F θ N S (ε n))
    (hθ : ∀ l, Smooth (fun x => θ x l B.top) (fun x => dθ x l) (fun x => ddθ x l) D)
    (hdθ : Continuous fun p : ℝ × ℝ => dθ p.1 p.2)
    (ht : ∀ φ, B.south ≤ φ → φ ≤ π / 2 →
      |cos φ * (thermalShear B.a B.om B.h B.r B.cp B.top φ (-meanGradient dθ (-(φ - B.south))) - B.shear φ B.top)| ≤ t) :
    ∃ τ : ℕ → ℝ, Tendsto τ atTop (nhds t) ∧ ∀ n j, (A n).jb + 2 ≤ j → j ≤ (A n).nd - 1 →
      |-((A n).nhn.south.topFactor j *
          ((A n).nhn.south.tbar (j - (A n).jb + 1) (A n).kmax - (A n).nhn.south.tbar (j - (A n).jb - 1) (A n).kmax)) -
        cos ((A n).lat ((A n).nd + j - 1)) * B.shear ((A n).lat ((A n).nd + j - 1)) B.top| ≤ τ n :=
  top_limit (T := fun n m => (A n).nhn.south.tbar m (A n).kmax) (dθ := fun x l => -dθ (-x) l) hsol hs hs' hA hB.toFrames
    (fun n _ J1 J2 => tbar_gradient_south (hA.regular n) (hO n) (hB.last n) hθ J1 J2) (by fun_prop)
    fun φ h1 h2 => by rw [meanGradient_reflect]; exact ht φ h1 h2

/-- **C174.** Winds and temperature sampled from smooth fields on ever finer grids with equal spacings. `B` is a state of the Southern
Hemisphere, latitudes counted southwards, in balance with the rearranged QGPV of the flow south of the equator. `t` bounds the difference
of its shear at the top from the thermal wind of the displaced temperature gradient of the Southern Hemisphere; `b` bounds the difference
of its wind at the boundary from the one that belongs to the circulation of the NORTHERN polar cap. Eventually the mean-square error of
the stored reference wind of the Southern Hemisphere over height, whatever row is looked at on each level, is at most a constant of `B`
times `(b + t + δ)²`. -/
theorem C174_wind {D t : ℝ} {dθ ddθ : ℝ → ℝ → ℝ} (hsol : B.Solves) (hQ : ContDiff ℝ 3 B.Q) (hs : 0 < B.south) (hs' : B.south < π / 2)
    (hF : F.IsCurl B.a B.top)
    (hN : N.Of θ B.h B.top) (hS : S.Of θ B.h B.top) (hNg : Continuous fun p : ℝ × ℝ × ℝ => N.g p.1 p.2.1 p.2.2)
    (hSg : Continuous fun p : ℝ × ℝ × ℝ => S.g p.1 p.2.1 p.2.2)
    (hθ : ∀ l, Smooth (fun x => θ x l B.top) (fun x => dθ x l) (fun x => ddθ x l) D)
    (hdθ : Continuous fun p : ℝ × ℝ => dθ p.1 p.2)
    (hqtop : ∀ z, 0 ≤ z → z ≤ B.top → volume (lowest fun x l => F.qgpv B.om B.h N S x l z) = 0)
    (hζtop : ∀ z, 0 ≤ z → z ≤ B.top → volume (highest fun x l => 2 * B.om * sin x + F.vort x l z) = 0)
    (hqE : ∀ z φ, 0 ≤ z → z ≤ B.top → B.south ≤ φ → φ < π / 2 →
      Encloses B.a (fun x l => F.qgpv B.om B.h N S x l z) (-(π / 2)) (π / 2) (southCap B.a (-φ)) (-(2 * B.om * sin φ * B.Q (φ, z))))
    {V : ℝ → ℝ}
    (hζE : ∀ z, 0 ≤ z → z ≤ B.top →
      Encloses B.a (fun x l => 2 * B.om * sin x + F.vort x l z) (-(π / 2)) (π / 2) (southCap B.a B.south) (V z)) {b : ℝ}
    (hb : ∀ z, 0 ≤ z → z ≤ B.top →
      |refCirculation B.a (fun x l => 2 * B.om * sin x + F.vort x l z) (northCap B.a B.south) (V z) / (2 * π * B.a) -
        (B.u (B.south, z) + B.om * B.a) * cos B.south| ≤ b)
    (ht : ∀ φ, B.south ≤ φ → φ ≤ π / 2 →
      |cos φ * (thermalShear B.a B.om B.h B.r B.cp B.top φ (-meanGradient dθ (-(φ - B.south))) - B.shear φ B.top)| ≤ t) :
    ∃ C, 0 ≤ C ∧ ∀ (A : ℕ → Atmos) (ε : ℕ → ℝ), Refines B.a B.om B.h B.top A → FollowsSouth B A →
      (∀ n, (A n).Observes F θ N S (ε n)) → (∀ n, 2 * ε n ≤ N.s) → (∀ n, 2 * ε n ≤ S.s) →
      Tendsto (fun n => ε n / (A n).dz) atTop (nhds 0) →
      ∀ δ, 0 < δ → ∀ᶠ n in atTop, ∀ g : ℤ → ℤ, (∀ k, (A n).RefRowSouth (g k)) →
        (A n).dz * ∑ k ∈ Icc 2 ((A n).kmax - 1), exp (-((A n).height k / B.h)) *
          (|(A n).uref .nhn22 (g k) k - B.u (-(A n).lat ((A n).outRow (g k)), (A n).height k)| *
            cos ((A n).lat ((A n).outRow (g k)))) ^ 2 ≤ C * (b + t + δ) ^ 2 := by
  have hqc := qgpv_continuous (om := B.om) (H := B.h) hF.continuous hNg hSg
  have hlev : ∀ z, Continuous fun p : ℝ × ℝ => F.qgpv B.om B.h N S p.1 p.2 z := fun z =>
    hqc.comp (f := fun p : ℝ × ℝ => (p.1, p.2, z)) (by fun_prop)
  obtain ⟨C, C0, hC⟩ := NhnIn.C167_wind hsol hQ hs hs' (q := fun x l z => -F.qgpv B.om B.h N S (-x) l z)
    (ζ := fun x l z => 2 * B.om * sin (-x) + F.vort (-x) l z)
    (hqc.comp (f := fun p : ℝ × ℝ × ℝ => (-p.1, p.2.1, p.2.2)) (by fun_prop)).neg
    ((by have := hF.continuous; fun_prop : Continuous fun p : ℝ × ℝ × ℝ => 2 * B.om * sin p.1 + F.vort p.1 p.2.1 p.2.2).comp
      (f := fun p : ℝ × ℝ × ℝ => (-p.1, p.2.1, p.2.2)) (by fun_prop))
    (fun z z1 z2 => highest_mirrored (hqtop z z1 z2)) (fun z z1 z2 => highest_reflect (hζtop z z1 z2))
    (fun z φ z1 z2 f1 f2 => by
      have := (hqE z φ z1 z2 f1 f2).mirror (hlev z)
      rw [neg_neg, neg_neg] at this
      exact this)
    (fun z z1 z2 => encloses_reflect (hζE z z1 z2))
    (fun z z1 z2 => by
      have e := refCirculation_reflect B.a (fun x l => 2 * B.om * sin x + F.vort x l z) (northCap B.a B.south) (V z)
      have := hb z z1 z2
      rw [← e] at this
      exact this)
  refine ⟨C, C0, fun A ε hA hB hO hεN hεS hε δ hδ => ?_⟩
  obtain ⟨e, he⟩ := flow_sampled_south hF hN hS hA hB hO hεN hεS hε
  obtain ⟨τ, hτt, hτ⟩ := C174_top hsol hs hs' hA hB hO hθ hdθ ht
  have key := hC (fun n => (A n).nhn.south) e τ t he (fun n j j1 j2 => by
    have := hτ n j j1 j2
    rw [← planet_lat] at this
    exact this) hτt δ hδ
  filter_upwards [key] with n hn g hg
  have hreg := hA.regular n
  have hj := hn (fun k => (A n).jd + 1 - g k) fun k => by
    obtain ⟨g1, g2⟩ := hg k
    constructor
    · show (2 : ℤ) ≤ (A n).jd + 1 - g k
      omega
    · show (A n).jd + 1 - g k ≤ (A n).jd - 1
      omega
  refine le_trans (le_of_eq ?_) hj
  show _ = (A n).dz * ∑ k ∈ Icc 2 ((A n).kmax - 1), _
  congr 1
  refine sum_congr rfl fun k _ => ?_
  obtain ⟨e1, e2⟩ := stored_row_south hreg (hB.global n) (hg k) k
  rw [e1, ← cos_neg, e2, ← planet_height, ← hA.scale n]
  rfl

theorem noWind_follows_south : FollowsSouth BalancedState.calm noWind where
  toFrames := noWind_follows.toFrames
  stat := fun _ _ _ _ => rfl
  inverse := noWind_follows.inverse
  global := fun _ => rfl

theorem planetary_lowest : volume (lowest fun x _ => 2 * 1 * sin x) = 0 := by
  have e : (lowest fun x _ => 2 * 1 * sin x) = lowest fun x _ => sin x := by
    unfold lowest
    ext p
    simp
  rw [e]
  exact sin_lowest

theorem planetary_encloses_south {φ : ℝ} (h0 : 0 ≤ φ) (h1 : φ < π / 2) :
    Encloses 1 (fun x _ => 2 * 1 * sin x) (-(π / 2)) (π / 2) (southCap 1 (-φ)) (-(2 * 1 * sin φ)) := by
  have := (planetary_encloses (a := 1) one_pos one_pos h0 h1).mirror (by fun_prop)
  have e : mirrored (fun x _ => 2 * 1 * sin x) = fun x _ => 2 * 1 * sin x := by
    funext x l
    show -(2 * 1 * sin (-x)) = _
    rw [sin_neg]
    ring
  rwa [e] at this

/-- The hypotheses of `C174_wind` can be met: air at rest, with the boundary at 45 degrees. -/
theorem noWind_wind_south : ∃ C, 0 ≤ C ∧ ∀ δ, 0 < δ → ∀ᶠ n in atTop, ∀ g : ℤ → ℤ, (∀ k, (noWind n).RefRowSouth (g k)) →
    (noWind n).dz * ∑ k ∈ Icc 2 ((noWind n).kmax - 1), exp (-((noWind n).height k / 1)) *
      (|(noWind n).uref .nhn22 (g k) k - 0| * cos ((noWind n).lat ((noWind n).outRow (g k)))) ^ 2 ≤
      C * (1 * 1 * cos (π / 4) * (1 - cos (π / 4)) + 0 + δ) ^ 2 := by
  have hpi := pi_pos
  have h1 : 0 ≤ π / 4 := by positivity
  have h2 : π / 4 < π / 2 := by linarith
  obtain ⟨C, C0, hC⟩ := C174_wind (B := BalancedState.calm) (F := noFlow) (N := flatLayers) (S := flatLayers) (θ := fun _ _ z => z) (D := 0)
    (t := 0) (dθ := fun _ _ => 0) (ddθ := fun _ _ => 0) BalancedState.calm_solves
    (contDiff_const (c := (1 : ℝ))) (by show 0 < π / 4; positivity) h2 noFlow_curl flatLayers_of flatLayers_of
    (continuous_const (y := (0 : ℝ))) (continuous_const (y := (0 : ℝ)))
    (fun _ => ⟨fun x => hasDerivAt_const x _, fun x => hasDerivAt_const x _, fun x y => by simp⟩) continuous_const
    (fun z _ _ => by
      show volume (lowest fun x l => noFlow.qgpv 1 1 flatLayers flatLayers x l z) = 0
      rw [noFlow_qgpv]
      exact planetary_lowest)
    (fun z _ _ => by
      show volume (highest fun x l => 2 * 1 * sin x + noFlow.vort x l z) = 0
      rw [noFlow_vort]
      exact planetary_highest one_pos)
    (fun z φ _ _ f1 f2 => by
      have f1 : π / 4 ≤ φ := f1
      have := planetary_encloses_south (by linarith : (0 : ℝ) ≤ φ) f2
      show Encloses 1 (fun x l => noFlow.qgpv 1 1 flatLayers flatLayers x l z) _ _ _ (-(2 * 1 * sin φ * 1))
      rwa [mul_one (2 * 1 * sin φ), noFlow_qgpv])
    (V := fun _ => 2 * 1 * sin (π / 4)) (fun z _ _ => by
      show Encloses 1 (fun x l => 2 * 1 * sin x + noFlow.vort x l z) _ _ _ _
      rw [noFlow_vort]
      exact planetary_encloses one_pos one_pos h1 h2)
    (b := 1 * 1 * cos (π / 4) * (1 - cos (π / 4))) (fun z _ _ => by
      show |refCirculation 1 (fun x l => 2 * 1 * sin x + noFlow.vort x l z) (northCap 1 (π / 4)) (2 * 1 * sin (π / 4)) / (2 * π * 1) -
        (0 + 1 * 1) * cos (π / 4)| ≤ _
      have hc : 0 ≤ cos (π / 4) := cos_nonneg_of_mem_Icc ⟨by linarith, h2.le⟩
      rw [noFlow_vort, planetary_circulation one_pos h1 h2]
      have e1 : kelvin 1 1 (π / 4) 0 / (2 * π * 1) - (0 + 1 * 1) * cos (π / 4) = -(1 * 1 * cos (π / 4) * (1 - cos (π / 4))) := by
        unfold kelvin
        generalize cos (π / 4) = c
        field_simp
        ring
      rw [e1, abs_neg, abs_of_nonneg (mul_nonneg (by linarith) (by linarith [cos_le_one (π / 4)]))])
    (fun φ _ _ => by
      have s : BalancedState.calm.shear φ BalancedState.calm.top = 0 := by
        show deriv (fun _ : ℝ => (0 : ℝ)) _ = 0
        simp
      rw [s]
      simp [thermalShear, meanGradient])
  exact ⟨C, C0, hC noWind (fun _ => 0) noWind_refines noWind_follows_south noWind_observes (fun _ => by show 2 * 0 ≤ (1 : ℝ); norm_num)
    (fun _ => by show 2 * 0 ≤ (1 : ℝ); norm_num) (by simp)⟩

end Atmos

end Falwa
