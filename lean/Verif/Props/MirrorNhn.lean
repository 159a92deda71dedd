import Verif.Props.MirrorFail

/-! # The southern call of the direct solver, and the mirror image with `QGFieldNHN22` (C48, C56) -/

set_option linter.unusedSectionVars false
set_option linter.unusedVariables false

noncomputable section

namespace Falwa

open Real Finset

/-! ### The area analysis of a negated field -/

namespace AreaIn

variable {I : AreaIn}

/-- The negated field has a spread of values too. -/
theorem Valid.neg (h : I.Valid) : (I.withField (fun i j => -I.q i j)).Valid := by
  have h1 := h.imax1
  have h2 := h.jmax1
  obtain ⟨_, i, j, i1, i2, j1, j2, e⟩ := maxval_spec (A := I.q) h1 h2
  obtain ⟨_, i', j', i1', i2', j1', j2', e'⟩ := minval_spec (A := I.q) h1 h2
  refine ⟨h.imax1, h.nd2, h.odd, h.npart2, h.dphiEq, h.dlam, h.a0, ?_⟩
  have hs := h.spread
  have a := (minval_spec (A := fun i j => -I.q i j) h1 h2).1 i j i1 i2 j1 j2
  have b := (maxval_spec (A := fun i j => -I.q i j) h1 h2).1 i' j' i1' i2' j1' j2'
  show minval I.imax I.jmax (fun i j => -I.q i j) < maxval I.imax I.jmax (fun i j => -I.q i j)
  have hs' : minval I.imax I.jmax I.q < maxval I.imax I.jmax I.q := hs
  linarith

end AreaIn

/-! ### Dependence of the direct solver on the vorticity and on the mean profile -/

namespace NhnIn

variable (I : NhnIn) (v : ℤ → ℤ → ℤ → ℝ) (t : ℤ → ℝ)

/-- The same call with another vorticity and another mean profile. -/
def withVortTb : NhnIn := { I with vort := v, tb := t }

variable (hb : ∀ k, 2 ≤ k → k ≤ I.kmax - 1 → (I.area v k).ckref (I.jb + 1) = (I.area I.vort k).ckref (I.jb + 1))
include hb

theorem withVortTb_ckref (k : ℤ) : (I.withVortTb v t).ckref (I.jb + 1) k = I.ckref (I.jb + 1) k := by
  unfold ckref
  show (if 2 ≤ k ∧ k ≤ I.kmax - 1 then (I.area v k).ckref (I.jb + 1) else 0) = _
  split_ifs with h
  · exact hb k h.1 h.2
  · rfl

theorem withVortTb_bound : (I.withVortTb v t).bound = I.bound := by
  funext k
  unfold bound
  rw [show (I.withVortTb v t).jb = I.jb from rfl, withVortTb_ckref I v t hb]; rfl

theorem withVortTb_rj : (I.withVortTb v t).rj = I.rj := by
  funext k i
  unfold rj
  rw [withVortTb_bound I v t hb]; rfl

theorem withVortTb_levelStep : (I.withVortTb v t).levelStep = I.levelStep := by
  funext k st
  unfold levelStep
  rw [withVortTb_rj I v t hb]; rfl

theorem withVortTb_final : (I.withVortTb v t).final = I.final := by
  unfold final downTo
  rw [withVortTb_levelStep I v t hb]; rfl

theorem withVortTb_pjk : (I.withVortTb v t).pjk = I.pjk := by
  unfold pjk
  rw [withVortTb_final I v t hb]; rfl

theorem withVortTb_uref : (I.withVortTb v t).uref = I.uref := by
  have hr : (I.withVortTb v t).uRaw = I.uRaw := by
    funext j k
    unfold uRaw
    rw [withVortTb_pjk I v t hb, show (1 : ℤ) + (I.withVortTb v t).jb = I.jb + 1 from add_comm _ _,
      withVortTb_ckref I v t hb, show (1 : ℤ) + I.jb = I.jb + 1 from add_comm _ _]
    rfl
  have hd : (I.withVortTb v t).uDiv = I.uDiv := by
    funext j k
    unfold uDiv
    rw [hr]; rfl
  funext j k
  unfold uref
  rw [hd]; rfl

theorem withVortTb_tref (j k : ℤ) : (I.withVortTb v t).tref j k = I.tref j k + (t k - I.tb k) := by
  have hu := withVortTb_uref I v t hb
  have hty : (I.withVortTb v t).ty = I.ty := by
    funext j k
    unfold ty
    rw [hu]; rfl
  have hraw : (I.withVortTb v t).trefRaw = I.trefRaw := by
    funext k
    unfold trefRaw
    rw [hty]; rfl
  have htg : (I.withVortTb v t).tg = I.tg := by
    funext k
    unfold tg
    rw [hraw]; rfl
  have hm : ∀ j k, (I.withVortTb v t).trefMid j k = I.trefMid j k + (t k - I.tb k) := by
    intro j k
    unfold trefMid
    rw [hraw, htg]
    show _ + (t k - _) = _
    ring
  unfold tref
  rw [hm, hm, hm, show (I.withVortTb v t).kmax = I.kmax from rfl, show (I.withVortTb v t).tb = t from rfl]
  by_cases h1 : k = I.kmax
  · rw [if_pos h1, if_pos h1, h1]; ring
  · rw [if_neg h1, if_neg h1]
    by_cases h2 : k = 1
    · rw [if_pos h2, if_pos h2, h2]; ring
    · rw [if_neg h2, if_neg h2]

omit hb in
/-- The reference wind determines the circulation at the boundary row: two calls that differ in vorticity and mean profile and
return the same wind have the same circulation there. -/
theorem circulation_of_uref (h : I.Geometry) (hp : I.Physical) (hc : I.InvCorrect) (h4 : 4 ≤ I.jd)
    (hu : ∀ j k, 2 ≤ j → j ≤ I.jd - 1 → (I.withVortTb v t).uref j k = I.uref j k) {k : ℤ} (k1 : 2 ≤ k) (k2 : k ≤ I.kmax - 1) :
    (I.area v k).ckref (I.jb + 1) = (I.area I.vort k).ckref (I.jb + 1) := by
  have hJ : (I.withVortTb v t).Geometry := ⟨h.imax1, h.jb0, h.jd3, h.kmax3, h.odd, h.dphiEq⟩
  have hpJ : (I.withVortTb v t).Physical := ⟨hp.a0, hp.om0, hp.h0, hp.rr0, hp.dz0, hp.stat0⟩
  have hcJ : (I.withVortTb v t).InvCorrect := hc
  obtain ⟨a, b, _, _⟩ := C54_interior_partial h h4 hp.om0.ne' (C79_exact h hp hc)
  obtain ⟨a', b', _, _⟩ := C54_interior_partial hJ h4 hpJ.om0.ne' (C79_exact hJ hpJ hcJ)
  have hjd : I.jd = I.nd - I.jb := rfl
  have hb0 := h.jb0
  have e1 := a (I.jb + 2) k (by omega) (by omega) k1 k2
  have e2 : I.planet.Elliptic I.statn I.qrefOut (I.withVortTb v t).solution (I.jb + 2) k :=
    a' (I.jb + 2) k (show I.jb + 2 ≤ I.jb + 2 by omega) (show I.jb + 2 ≤ I.nd - 1 by omega) k1 k2
  have d1 := b k k1 k2
  have d2 : (I.withVortTb v t).solution (I.jb + 1) k =
      (I.area v k).ckref (I.jb + 1) / (2 * π * I.a) - I.om * I.a * cos (I.planet.lat (I.jb + 1)) := b' k k1 k2
  have hs : ∀ jj k, I.jb + 2 ≤ jj → jj ≤ I.nd - 1 → (I.withVortTb v t).solution jj k = I.solution jj k := by
    intro jj k j1 j2
    unfold solution
    rw [if_neg (show ¬ jj = (I.withVortTb v t).jb + 1 by show ¬ jj = I.jb + 1; omega),
      if_neg (show ¬ jj = (I.withVortTb v t).nd by show ¬ jj = I.nd; omega), if_neg (by omega), if_neg (by omega)]
    show (I.withVortTb v t).uref (jj - I.jb) k * _ = _
    rw [hu _ _ (by omega) (by omega)]; rfl
  unfold Spec.Planet.Elliptic at e1 e2
  rw [hs _ _ le_rfl (by omega), hs _ _ (by omega) (by omega), hs _ _ le_rfl (by omega), hs _ _ le_rfl (by omega)] at e2
  rw [show I.jb + 2 - 1 = I.jb + 1 by ring] at e1 e2
  have hx : ((I.jb + 2 : ℤ) : ℝ) - 1 / 2 = (I.jb : ℝ) + 3 / 2 := by push_cast; ring
  rw [hx] at e1 e2
  have hbR : (0 : ℝ) ≤ I.jb := by exact_mod_cast hb0
  have hnR : (I.jb : ℝ) + 4 ≤ I.nd := by exact_mod_cast (by omega : I.jb + 4 ≤ I.nd)
  obtain ⟨s0, c0⟩ := h.trig_pos (x := (I.jb : ℝ) + 3 / 2) (by linarith) (by linarith)
  have key : (I.withVortTb v t).solution (I.jb + 1) k / (sin (I.planet.lat ((I.jb : ℝ) + 3 / 2)) *
      cos (I.planet.lat ((I.jb : ℝ) + 3 / 2))) = I.solution (I.jb + 1) k / (sin (I.planet.lat ((I.jb : ℝ) + 3 / 2)) *
      cos (I.planet.lat ((I.jb : ℝ) + 3 / 2))) := by
    rw [sub_div, sub_div] at e1 e2
    linarith
  have hne : sin (I.planet.lat ((I.jb : ℝ) + 3 / 2)) * cos (I.planet.lat ((I.jb : ℝ) + 3 / 2)) ≠ 0 := (mul_pos s0 c0).ne'
  rw [div_left_inj' hne, d1, d2] at key
  have ha : 2 * π * I.a ≠ 0 := by have := hp.a0; have := pi_pos; positivity
  have := sub_left_inj.1 key
  rwa [div_left_inj' ha] at this

end NhnIn

namespace Nhn22

/-- C56 for the calls of the class: on every row and every interior level the circulation that the southern call computes is
the circulation that the northern call computes. -/
theorem C56_calls_partial {F : Nhn22} {k : ℤ} (hv : (F.north.area F.north.vort k).Valid) (j : ℤ) :
    F.south.ckref j k = F.north.ckref j k := by
  unfold NhnIn.ckref
  show (if 2 ≤ k ∧ k ≤ F.north.kmax - 1 then (F.north.area F.north.vort k).southVort.ckref j else 0) = _
  rw [AreaIn.C56_north_circulation_partial hv]

end Nhn22

namespace Atmos

variable {A : Atmos}

/-- The circulation at the equatorward boundary row that belongs to the field `W`. -/
def circulation (A : Atmos) (W : ℤ → ℤ → ℤ → ℝ) (k : ℤ) : ℝ := (A.nhnN.area W k).ckref (A.jb + 1)

/-- The two hemispheres have the same circulation at the boundary row: on every interior level the vorticity and its mirror
image with a change of sign agree there. -/
def SameCirculation (A : Atmos) : Prop :=
  ∀ k, 2 ≤ k → k ≤ A.kmax - 1 → A.circulation (fun i j k => -A.avort i (A.nlat + 1 - j) k) k = A.circulation A.avort k

/-- The area analysis applies to the vorticity: the grid is complete and no interior level has constant vorticity. -/
def VortValid (A : Atmos) : Prop := ∀ k, 2 ≤ k → k ≤ A.kmax - 1 → (A.nhnN.area A.avort k).Valid

variable (h : A.MirrorOk)
include h

theorem mirror_avort_neg : A.mirror.avort = fun i j k => -A.avort i (A.nlat + 1 - j) k := by
  funext i j k; exact (C48_qgpv h .nhn22 i j k).1

/-- The northern call for the mirror image: the southern call with vorticity and profile of the southern hemisphere. -/
theorem mirror_nhnN : A.mirror.nhnN = A.nhn.south.withVortTb (fun i j k => -A.avort i (A.nlat + 1 - j) k) A.ts0 := by
  obtain ⟨a, b, c, d⟩ := C48_profiles h
  unfold nhnN
  rw [mirror_qgpv_neg h, flip_mirror_u h, flip_mirror_theta h, mirror_avort_neg h, b, d]
  rfl

/-- The southern call for the mirror image. -/
theorem mirror_nhnS : A.mirror.nhn.south = A.nhnN.withVortTb (fun i j k => -A.avort i j k) A.ts0 := by
  obtain ⟨a, b, c, d⟩ := C48_profiles h
  have e0 : (fun i j k => -A.mirror.nhnN.flip (A.mirror.qgpv .nhn22) i j k) = A.qgpv .nhn22 := by
    funext i j k
    show -A.mirror.qgpv .nhn22 i (A.nlat + 1 - j) k = _
    rw [(C48_qgpv h .nhn22 _ _ _).2, neg_neg, show A.nlat + 1 - (A.nlat + 1 - j) = j by ring]
  have e1 : A.mirror.nhnN.flip A.mirror.u = A.u := by
    rw [flip_mirror_u h]; exact flip_flip h A.u
  have e2 : A.mirror.nhnN.flip A.mirror.theta = A.theta := by
    rw [flip_mirror_theta h]; exact flip_flip h A.theta
  have e3 : A.mirror.nhnN.flip A.mirror.avort = fun i j k => -A.avort i j k := by
    funext i j k
    show A.mirror.avort i (A.nlat + 1 - j) k = _
    rw [(C48_qgpv h .nhn22 _ _ _).1, show A.nlat + 1 - (A.nlat + 1 - j) = j by ring]
  show ({ A.mirror.nhnN with
    pv := fun i j k => -A.mirror.nhnN.flip (A.mirror.qgpv .nhn22) i j k
    uu := A.mirror.nhnN.flip A.mirror.u
    vort := A.mirror.nhnN.flip A.mirror.avort
    pt := A.mirror.nhnN.flip A.mirror.theta
    statn := A.mirror.statS } : NhnIn) = _
  rw [e0, e1, e2, e3, c]
  unfold nhnN
  rw [b]
  rfl

/-- The circulations that enter the two calls for the mirror image. -/
theorem circulation_pair (hv : A.VortValid) {k : ℤ} (k1 : 2 ≤ k) (k2 : k ≤ A.kmax - 1) :
    A.circulation (fun i j k => A.avort i (A.nlat + 1 - j) k) k = A.circulation A.avort k ∧
    A.circulation (fun i j k => -A.avort i j k) k = A.circulation (fun i j k => -A.avort i (A.nlat + 1 - j) k) k := by
  have v1 := hv k k1 k2
  exact ⟨AreaIn.C56_north_circulation_partial v1 (A.jb + 1),
    (AreaIn.C56_north_circulation_partial v1.neg (A.jb + 1)).symm⟩

theorem mirror_uref_calls (hv : A.VortValid) (hs : A.SameCirculation) :
    A.mirror.nhnN.uref = A.nhn.south.uref ∧ A.mirror.nhn.south.uref = A.nhnN.uref ∧
    (∀ j k, A.mirror.nhnN.tref j k = A.nhn.south.tref j k + (A.ts0 k - A.tn0 k)) ∧
    (∀ j k, A.mirror.nhn.south.tref j k = A.nhnN.tref j k + (A.ts0 k - A.tn0 k)) := by
  have c1 : ∀ k, 2 ≤ k → k ≤ A.kmax - 1 →
      A.circulation (fun i j k => -A.avort i (A.nlat + 1 - j) k) k = A.circulation (fun i j k => A.avort i (A.nlat + 1 - j) k) k :=
    fun k k1 k2 => by rw [hs k k1 k2, (circulation_pair h hv k1 k2).1]
  have c2 : ∀ k, 2 ≤ k → k ≤ A.kmax - 1 → A.circulation (fun i j k => -A.avort i j k) k = A.circulation A.avort k :=
    fun k k1 k2 => by rw [(circulation_pair h hv k1 k2).2, hs k k1 k2]
  rw [mirror_nhnN h, mirror_nhnS h]
  exact ⟨NhnIn.withVortTb_uref _ _ _ c1, NhnIn.withVortTb_uref _ _ _ c2,
    NhnIn.withVortTb_tref _ _ _ c1, NhnIn.withVortTb_tref _ _ _ c2⟩

/-- A row of a stored array of the direct solver in each hemisphere. -/
theorem stored_rows (n s : ℤ → ℤ → ℝ) {g : ℤ} (g1 : 1 ≤ g) (g2 : g ≤ A.nlat) (hg : g ≠ A.nd) (k : ℤ) :
    (g ≤ A.jd → A.storeRef A.jd n s g k = s (A.jd + 1 - g) k) ∧
    (A.nlat - A.jd + 1 ≤ g → A.storeRef A.jd n s g k = n (g - (A.nlat - A.jd)) k) ∧
    (A.jd < g → g < A.nlat - A.jd + 1 → A.storeRef A.jd n s g k = 0) := by
  have hj : A.jd = A.nd - A.jb := rfl
  have ho := h.odd
  have hb := h.jb0
  unfold storeRef
  rw [rows_eq h]
  refine ⟨fun x => if_pos ⟨h.global, x⟩, fun x => ?_, fun x y => ?_⟩
  · rw [if_neg (by rintro ⟨_, z⟩; omega), if_pos x]
  · rw [if_neg (by rintro ⟨_, z⟩; omega), if_neg (by omega)]

/-- C48, `QGFieldNHN22`: if the two hemispheres have the same circulation at the boundary row, the reference wind is mirrored on
every row but the equator, and the reference temperature up to the difference of the two mean profiles. -/
theorem C48_nhn22_reference_partial (hv : A.VortValid) (hs : A.SameCirculation) (g k : ℤ) (g1 : 1 ≤ g) (g2 : g ≤ A.nlat)
    (hg : g ≠ A.nd) :
    A.mirror.uref .nhn22 g k = A.uref .nhn22 (A.nlat + 1 - g) k ∧
    (g ≤ A.jd ∨ A.nlat - A.jd + 1 ≤ g →
      A.mirror.ptref .nhn22 g k = A.ptref .nhn22 (A.nlat + 1 - g) k + (A.ts0 k - A.tn0 k)) := by
  obtain ⟨a, b, c, d⟩ := mirror_uref_calls h hv hs
  have hr := rows_eq h
  have hr' : A.mirror.rows = A.nlat := hr
  have hn' : A.mirror.nhOnly = false := h.global
  have hj : A.jd = A.nd - A.jb := rfl
  have ho := h.odd
  have hb := h.jb0
  have M : ∀ n s : ℤ → ℤ → ℝ, (g ≤ A.jd → A.mirror.storeRef A.jd n s g k = s (A.jd + 1 - g) k) ∧
      (A.nlat - A.jd + 1 ≤ g → A.mirror.storeRef A.jd n s g k = n (g - (A.nlat - A.jd)) k) ∧
      (A.jd < g → g < A.nlat - A.jd + 1 → A.mirror.storeRef A.jd n s g k = 0) := by
    intro n s
    unfold storeRef
    rw [hr']
    refine ⟨fun x => if_pos ⟨hn', x⟩, fun x => ?_, fun x y => ?_⟩
    · rw [if_neg (by rintro ⟨_, z⟩; omega), if_pos x]
    · rw [if_neg (by rintro ⟨_, z⟩; omega), if_neg (by omega)]
  have S : ∀ n s : ℤ → ℤ → ℝ, _ := fun n s => stored_rows h n s (g := A.nlat + 1 - g) (by omega) (by omega) (by omega) k
  constructor
  · show A.mirror.storeRef A.jd A.mirror.nhnN.uref A.mirror.nhn.south.uref g k =
      A.storeRef A.jd A.nhnN.uref A.nhn.south.uref (A.nlat + 1 - g) k
    rw [a, b]
    by_cases x : g ≤ A.jd
    · rw [(M _ _).1 x, (S _ _).2.1 (by omega)]
      congr 1; omega
    · by_cases y : A.nlat - A.jd + 1 ≤ g
      · rw [(M _ _).2.1 y, (S _ _).1 (by omega)]
        congr 1; omega
      · rw [(M _ _).2.2 (by omega) (by omega), (S _ _).2.2 (by omega) (by omega)]
  · intro hx
    show A.mirror.storeRef A.jd A.mirror.nhnN.tref A.mirror.nhn.south.tref g k =
      A.storeRef A.jd A.nhnN.tref A.nhn.south.tref (A.nlat + 1 - g) k + _
    by_cases x : g ≤ A.jd
    · rw [(M _ _).1 x, (S _ _).2.1 (by omega), d, show A.nlat + 1 - g - (A.nlat - A.jd) = A.jd + 1 - g by ring]
    · have y : A.nlat - A.jd + 1 ≤ g := hx.resolve_left x
      rw [(M _ _).2.1 y, (S _ _).1 (by omega), c, show A.jd + 1 - (A.nlat + 1 - g) = g - (A.nlat - A.jd) by ring]

/-- C48, `QGFieldNHN22`, the exact condition for the reference wind: with a correct matrix inversion and at least four analysed
rows it is mirrored off the equator if and only if the two hemispheres have the same circulation at the boundary row. -/
theorem C48_nhn22_wind_iff (hb1 : 1 ≤ A.jb) (hv : A.VortValid) (hG : A.nhn.south.Geometry) (hp : A.nhn.south.Physical)
    (hc : A.nhn.south.InvCorrect) (h4 : 4 ≤ A.jd) :
    (∀ g k, 1 ≤ g → g ≤ A.nlat → g ≠ A.nd → A.mirror.uref .nhn22 g k = A.uref .nhn22 (A.nlat + 1 - g) k) ↔
      A.SameCirculation := by
  constructor
  swap
  · exact fun hs g k g1 g2 hg => (C48_nhn22_reference_partial h hv hs g k g1 g2 hg).1
  intro hu k k1 k2
  have hj : A.jd = A.nd - A.jb := rfl
  have ho := h.odd
  have hr := rows_eq h
  have hr' : A.mirror.rows = A.nlat := hr
  have e : ∀ j k, 2 ≤ j → j ≤ A.nhn.south.jd - 1 →
      (A.nhn.south.withVortTb (fun i j k => -A.avort i (A.nlat + 1 - j) k) A.ts0).uref j k = A.nhn.south.uref j k := by
    intro j k j1 j2
    have j2' : j ≤ A.jd - 1 := j2
    rw [← mirror_nhnN h]
    have := hu (A.nlat - A.jd + j) k (by omega) (by omega) (by omega)
    have e1 : A.mirror.uref .nhn22 (A.nlat - A.jd + j) k = A.mirror.nhnN.uref j k := by
      show A.mirror.storeRef A.jd _ _ _ k = _
      unfold storeRef
      rw [hr', if_neg (by rintro ⟨_, z⟩; omega), if_pos (by omega)]
      congr 1; omega
    have e2 : A.uref .nhn22 (A.nlat + 1 - (A.nlat - A.jd + j)) k = A.nhn.south.uref j k := by
      show A.storeRef A.jd _ _ _ k = _
      rw [(stored_rows h _ _ (by omega) (by omega) (by omega) k).1 (by omega)]
      congr 1; omega
    rw [e1, e2] at this
    exact this
  have := NhnIn.circulation_of_uref A.nhn.south _ _ hG hp hc h4 e k1 k2
  rw [← (circulation_pair h hv k1 k2).1]
  exact this

/-- C48, `QGFieldNHN22`, fluxes: if moreover the two mean profiles agree and the boundary row is north of the equator, every flux
term is mirrored on every row except the equator. -/
theorem hemMirrored_nhn22 (hb1 : 1 ≤ A.jb) (hv : A.VortValid) (hs : A.SameCirculation) (ht : ∀ k, A.ts0 k = A.tn0 k) :
    A.HemMirrored .nhn22 := by
  intro i j k hj
  have ho := h.odd
  have hbd := h.jbnd
  have hjd : A.jd = A.nd - A.jb := rfl
  have hr : (A.analysis .nhn22).rows = A.nlat := rows_eq h
  have hr' : (A.mirror.analysis .nhn22).rows = A.nlat := rows_eq (A := A) h
  have R := C48_nhn22_reference_partial h hv hs
  have P : ∀ g k, 1 ≤ g → g ≤ A.nlat → g ≤ A.jd ∨ A.nlat - A.jd + 1 ≤ g →
      A.mirror.ptref .nhn22 g k = A.ptref .nhn22 (A.nlat + 1 - g) k := by
    intro g k g1 g2 hx
    rw [(R g k g1 g2 (by omega)).2 hx, ht, sub_self, add_zero]
  refine hemMirrored_of h .nhn22 1 le_rfl (by omega) ?_ ?_ ?_ ?_ i j k (by omega)
  · intro j k j1 j2
    show A.mirror.uref .nhn22 ((A.mirror.analysis .nhn22).rows - A.jd + j) k = A.uref .nhn22 (A.jd + 1 - j) k
    rw [hr', (R _ k (by omega) (by omega) (by omega)).1]
    congr 1; omega
  · intro j k j1 j2
    show A.mirror.uref .nhn22 (A.jd + 1 - j) k = A.uref .nhn22 ((A.analysis .nhn22).rows - A.jd + j) k
    rw [hr, (R _ k (by omega) (by omega) (by omega)).1]
    congr 1; omega
  · intro j k j1 j2
    show A.mirror.ptref .nhn22 ((A.mirror.analysis .nhn22).rows - A.jd + j) k = A.ptref .nhn22 (A.jd + 1 - j) k
    rw [hr', P _ k (by omega) (by omega) (by omega)]
    congr 1; omega
  · intro j k j1 j2
    show A.mirror.ptref .nhn22 (A.jd + 1 - j) k = A.ptref .nhn22 ((A.analysis .nhn22).rows - A.jd + j) k
    rw [hr, P _ k (by omega) (by omega) (by omega)]
    congr 1; omega

theorem C48_nhn22_fluxes_partial (hb1 : 1 ≤ A.jb) (hv : A.VortValid) (hs : A.SameCirculation) (ht : ∀ k, A.ts0 k = A.tn0 k)
    (i g : ℤ) (g1 : 1 ≤ g) (g2 : g ≤ A.nlat) (hg : g ≠ A.nd) :
    (A.mirror.analysis .nhn22).advFluxF1 i g = (A.analysis .nhn22).advFluxF1 i (A.nlat + 1 - g) ∧
    (A.mirror.analysis .nhn22).advFluxF2 i g = (A.analysis .nhn22).advFluxF2 i (A.nlat + 1 - g) ∧
    (A.mirror.analysis .nhn22).advFluxF3 i g = (A.analysis .nhn22).advFluxF3 i (A.nlat + 1 - g) ∧
    (A.mirror.analysis .nhn22).zonalFluxSum i g = (A.analysis .nhn22).zonalFluxSum i (A.nlat + 1 - g) ∧
    (A.mirror.analysis .nhn22).heatFlux i g = (A.analysis .nhn22).heatFlux i (A.nlat + 1 - g) ∧
    (A.mirror.analysis .nhn22).ep2baro i g = -(A.analysis .nhn22).ep3baro i (A.nlat + 1 - g) ∧
    (A.mirror.analysis .nhn22).ep3baro i g = -(A.analysis .nhn22).ep2baro i (A.nlat + 1 - g) ∧
    (A.mirror.analysis .nhn22).divEddyMomentumFlux i g = (A.analysis .nhn22).divEddyMomentumFlux i (A.nlat + 1 - g) :=
  fluxes_of h .nhn22 (hemMirrored_nhn22 h hb1 hv hs ht) i g g1 g2 hg

/-- C48, `QGFieldNHN22`: an atmosphere that is its own mirror image has symmetric reference states and fluxes off the equator. -/
theorem C48_nhn22_symmetric (hm : A.mirror = A) (hb1 : 1 ≤ A.jb) (hv : A.VortValid) :
    A.SameCirculation ∧ (∀ k, A.ts0 k = A.tn0 k) ∧
    ∀ i g k, 1 ≤ g → g ≤ A.nlat → g ≠ A.nd →
      A.uref .nhn22 g k = A.uref .nhn22 (A.nlat + 1 - g) k ∧ A.ptref .nhn22 g k = A.ptref .nhn22 (A.nlat + 1 - g) k ∧
      (A.analysis .nhn22).zonalFluxSum i g = (A.analysis .nhn22).zonalFluxSum i (A.nlat + 1 - g) ∧
      (A.analysis .nhn22).divEddyMomentumFlux i g = (A.analysis .nhn22).divEddyMomentumFlux i (A.nlat + 1 - g) ∧
      (A.analysis .nhn22).heatFlux i g = (A.analysis .nhn22).heatFlux i (A.nlat + 1 - g) := by
  have hs : A.SameCirculation := fun k _ _ => by rw [← mirror_avort_neg h, hm]
  have ht : ∀ k, A.ts0 k = A.tn0 k := fun k => by rw [← (C48_profiles h).1, hm]
  refine ⟨hs, ht, fun i g k g1 g2 hg => ?_⟩
  have R := C48_nhn22_reference_partial h hv hs g k g1 g2 hg
  have X := C48_nhn22_fluxes_partial h hb1 hv hs ht i g g1 g2 hg
  rw [hm] at R X
  refine ⟨R.1, ?_, X.2.2.2.1, X.2.2.2.2.2.2.2, X.2.2.2.2.1⟩
  have ho := h.odd
  have hj : A.jd = A.nd - A.jb := rfl
  by_cases x : g ≤ A.jd ∨ A.nlat - A.jd + 1 ≤ g
  · rw [R.2 x, ht, sub_self, add_zero]
  · push Not at x
    show A.storeRef A.jd A.nhnN.tref A.nhn.south.tref g k = A.storeRef A.jd A.nhnN.tref A.nhn.south.tref (A.nlat + 1 - g) k
    rw [(stored_rows h _ _ g1 g2 hg k).2.2 x.1 x.2,
      (stored_rows h _ _ (g := A.nlat + 1 - g) (by omega) (by omega) (by omega) k).2.2 (by omega) (by omega)]

omit h

/-- Two jets with a wave, symmetric about the equator, over a stably stratified atmosphere. -/
def twin : Atmos :=
  { sample with
    uField := fun i j _ => if i = 1 ∧ (j = 3 ∨ j = 7) then 1 else 0
    vField := fun _ _ _ => 0
    tField := fun i j l => if i = 4 ∧ (j = 4 ∨ j = 6) then 1 + l else l }

/-- The same with a wind on the lowest level of one hemisphere. -/
def lopsided : Atmos := { twin with vField := fun i j l => if i = 1 ∧ j = 7 ∧ l = 1 then 1 else 0 }

theorem twin_ok : twin.MirrorOk :=
  ⟨by decide, by decide, by decide, by decide, by show (0 : ℝ) ≤ 1; norm_num, rfl, fun _ _ => rfl, fun _ _ => rfl, fun _ _ => rfl⟩

theorem lopsided_ok : lopsided.MirrorOk :=
  ⟨by decide, by decide, by decide, by decide, by show (0 : ℝ) ≤ 1; norm_num, rfl, fun _ _ => rfl, fun _ _ => rfl, fun _ _ => rfl⟩

theorem twin_mirror : twin.mirror = twin := by
  have e1 : (fun (i j : ℤ) (l : ℤ) => twin.uField i (twin.nlatIn + 1 - j) l) = twin.uField := by
    funext i j l
    show (if i = 1 ∧ (9 + 1 - j = 3 ∨ 9 + 1 - j = 7) then (1 : ℝ) else 0) = if i = 1 ∧ (j = 3 ∨ j = 7) then 1 else 0
    congr 1
    exact propext ⟨fun ⟨a, b⟩ => ⟨a, by omega⟩, fun ⟨a, b⟩ => ⟨a, by omega⟩⟩
  have e2 : (fun (i j : ℤ) (l : ℤ) => -twin.vField i (twin.nlatIn + 1 - j) l) = twin.vField := by
    funext i j l
    show -(0 : ℝ) = 0
    ring
  have e3 : (fun (i j : ℤ) (l : ℤ) => twin.tField i (twin.nlatIn + 1 - j) l) = twin.tField := by
    funext i j l
    show (if i = 4 ∧ (9 + 1 - j = 4 ∨ 9 + 1 - j = 6) then (1 : ℝ) + l else l) = if i = 4 ∧ (j = 4 ∨ j = 6) then 1 + (l : ℝ) else l
    congr 1
    exact propext ⟨fun ⟨a, b⟩ => ⟨a, by omega⟩, fun ⟨a, b⟩ => ⟨a, by omega⟩⟩
  have e4 : (fun (i j k : ℤ) => -twin.ncforce i (twin.nlat + 1 - j) k) = twin.ncforce := by
    funext i j k
    show -(0 : ℝ) = 0
    ring
  unfold mirror
  rw [e1, e2, e3, e4]
  rfl

theorem twin_inner (i j k : ℤ) : twin.qgpvIn.inner i j k = 2 * sin (twin.qgpvIn.phi j) +
    -((if i = 1 ∧ (j + 1 = 3 ∨ j + 1 = 7) then 1 else 0) * cos (twin.qgpvIn.phi (j + 1)) -
      (if i = 1 ∧ (j - 1 = 3 ∨ j - 1 = 7) then 1 else 0) * cos (twin.qgpvIn.phi (j - 1))) /
      (2 * 1 * cos (twin.qgpvIn.phi j) * twin.qgpvIn.dphi) := by
  have hv : twin.qgpvIn.dv i j k = 0 := by
    unfold QgpvIn.dv
    show (if _ then (0 : ℝ) - 0 else if _ then (0 : ℝ) - 0 else (0 : ℝ) - 0) = 0
    simp
  unfold QgpvIn.inner QgpvIn.cor
  rw [hv]
  show 2 * 1 * _ + 0 / _ + -((if i = 1 ∧ (j + 1 = 3 ∨ j + 1 = 7) then (1 : ℝ) else 0) * _ -
    (if i = 1 ∧ (j - 1 = 3 ∨ j - 1 = 7) then (1 : ℝ) else 0) * _) / _ = _
  rw [zero_div, add_zero, mul_one (2 : ℝ), show twin.qgpvIn.a = 1 from rfl, mul_one (2 : ℝ)]

theorem twin_valid : twin.VortValid := by
  intro k k1 k2
  have hphi : ∀ j, twin.qgpvIn.phi j = π / 8 * ((j : ℝ) - 5) := by
    intro j
    unfold QgpvIn.phi
    show -(0.5 * π) + π * ((j - 1 : ℤ) : ℝ) / ((9 - 1 : ℤ) : ℝ) = _
    push_cast; ring
  have a5 : twin.avort 2 5 k = 0 := by
    show twin.qgpvIn.avort 2 5 k = 0
    unfold QgpvIn.avort
    rw [if_neg (by decide), if_neg (by decide), twin_inner, hphi]
    norm_num
  have a6 : 0 < twin.avort 2 6 k := by
    show 0 < twin.qgpvIn.avort 2 6 k
    unfold QgpvIn.avort
    rw [if_neg (by decide), if_neg (by decide), twin_inner, hphi]
    have := sin_pos_of_pos_of_lt_pi (x := π / 8 * (((6 : ℤ) : ℝ) - 5)) (by norm_num; exact pi_pos) (by norm_num; linarith [pi_pos])
    norm_num at this ⊢
  refine ⟨by show (1 : ℤ) ≤ 4; decide, by show 2 ≤ twin.nd; decide, by show (9 : ℤ) = 2 * twin.nd - 1; decide,
    by show (2 : ℤ) ≤ 9; decide, rfl, ?_, by show (0 : ℝ) < 1; norm_num, ?_⟩
  · show twin.dlambda = _
    rfl
  · have u := (maxval_spec (A := fun i j => twin.avort i j k) (m := 4) (n := 9) (by decide) (by decide)).1 2 6
      (by decide) (by decide) (by decide) (by decide)
    have l := (minval_spec (A := fun i j => twin.avort i j k) (m := 4) (n := 9) (by decide) (by decide)).1 2 5
      (by decide) (by decide) (by decide) (by decide)
    show minval 4 9 (fun i j => twin.avort i j k) < maxval 4 9 (fun i j => twin.avort i j k)
    beta_reduce at u l
    linarith

theorem lopsided_avort {k : ℤ} (k1 : 2 ≤ k) (i j : ℤ) : lopsided.avort i j k = twin.avort i j k := by
  have hv : ∀ i j, lopsided.qgpvIn.dv i j k = twin.qgpvIn.dv i j k := by
    intro i j
    have e : ∀ i' j', lopsided.qgpvIn.v i' j' k = twin.qgpvIn.v i' j' k := by
      intro i' j'
      show (if i' = 1 ∧ j' = 7 ∧ k = 1 then (1 : ℝ) else 0) = 0
      rw [if_neg (by rintro ⟨_, _, x⟩; omega)]
    unfold QgpvIn.dv
    simp only [e]
    rfl
  have hi : ∀ i j, lopsided.qgpvIn.inner i j k = twin.qgpvIn.inner i j k := by
    intro i j
    unfold QgpvIn.inner
    rw [hv]; rfl
  show lopsided.qgpvIn.avort i j k = twin.qgpvIn.avort i j k
  unfold QgpvIn.avort QgpvIn.zmean
  simp only [hi]
  rfl

theorem lopsided_area {k : ℤ} (k1 : 2 ≤ k) : lopsided.nhnN.area lopsided.avort k = twin.nhnN.area twin.avort k := by
  have e : (fun i j => lopsided.avort i j k) = fun i j => twin.avort i j k := by
    funext i j; exact lopsided_avort k1 i j
  unfold NhnIn.area
  rw [e]; rfl

theorem lopsided_area' {k : ℤ} (k1 : 2 ≤ k) :
    lopsided.nhnN.area (fun i j k => -lopsided.avort i (lopsided.nlat + 1 - j) k) k =
      twin.nhnN.area (fun i j k => -twin.avort i (twin.nlat + 1 - j) k) k := by
  have e : (fun i j => -lopsided.avort i (lopsided.nlat + 1 - j) k) = fun i j => -twin.avort i (twin.nlat + 1 - j) k := by
    funext i j; rw [lopsided_avort k1]; rfl
  unfold NhnIn.area
  rw [e]; rfl

/-- The hypotheses hold for a symmetric atmosphere, and for one that is not symmetric. -/
example : twin.MirrorOk ∧ twin.mirror = twin ∧ 1 ≤ twin.jb ∧ twin.VortValid :=
  ⟨twin_ok, twin_mirror, by decide, twin_valid⟩

example : lopsided.MirrorOk ∧ lopsided.mirror ≠ lopsided ∧ 1 ≤ lopsided.jb ∧ lopsided.VortValid ∧ lopsided.SameCirculation ∧
    ∀ k, lopsided.ts0 k = lopsided.tn0 k := by
  obtain ⟨s, t, _⟩ := C48_nhn22_symmetric twin_ok twin_mirror (by decide) twin_valid
  refine ⟨lopsided_ok, fun x => ?_, by decide, fun k k1 k2 => ?_, fun k k1 k2 => ?_, t⟩
  · have := congrArg (fun B : Atmos => B.vField 1 7 1) x
    have e : (-(if (1 : ℤ) = 1 ∧ (9 + 1 - 7 : ℤ) = 7 ∧ (1 : ℤ) = 1 then (1 : ℝ) else 0)) =
        if (1 : ℤ) = 1 ∧ (7 : ℤ) = 7 ∧ (1 : ℤ) = 1 then (1 : ℝ) else 0 := this
    norm_num at e
  · rw [lopsided_area k1]; exact twin_valid k k1 k2
  · show (lopsided.nhnN.area _ k).ckref (lopsided.jb + 1) = (lopsided.nhnN.area _ k).ckref (lopsided.jb + 1)
    rw [lopsided_area' k1, lopsided_area k1]
    exact s k k1 k2

/-- The symmetric atmosphere with a correct matrix inversion. -/
def solvable : Atmos := { twin with inv := Classical.choose (NhnIn.exists_inv (Icc 1 2)) }

theorem solvable_statS {k : ℤ} (k1 : 1 ≤ k) : 0 < solvable.statS k := by
  have hth : ∀ i g, solvable.theta0 i g k < solvable.theta0 i g (k + 1) := by
    intro i g
    have hk : (1 : ℝ) ≤ (k : ℝ) := by exact_mod_cast k1
    have he : exp (1 / 2 * (k : ℝ) / 1) < exp (1 / 2 * ((k : ℝ) + 1) / 1) := exp_lt_exp.2 (by linarith)
    have h0 := exp_pos (1 / 2 * (k : ℝ) / 1)
    show (if i = 4 ∧ (g = 4 ∨ g = 6) then (1 : ℝ) + (k : ℝ) else (k : ℝ)) * exp (1 / 2 * (k : ℝ) / 1) <
      (if i = 4 ∧ (g = 4 ∨ g = 6) then (1 : ℝ) + ((k + 1 : ℤ) : ℝ) else ((k + 1 : ℤ) : ℝ)) * exp (1 / 2 * ((k + 1 : ℤ) : ℝ) / 1)
    push_cast
    split_ifs <;> nlinarith
  have hrow : ∀ g, solvable.rowMean k g ≤ solvable.rowMean (k + 1) g := by
    intro g
    unfold rowMean
    refine div_le_div_of_nonneg_right (sum_le_sum fun i _ => ?_) (by show (0 : ℝ) ≤ ((4 : ℤ) : ℝ); norm_num)
    exact mul_le_mul_of_nonneg_right (hth i g).le (abs_nonneg _)
  have h3 : 0 < solvable.clat 3 := by
    unfold clat lat dphi
    rw [show solvable.nd = 5 by decide]
    show 0 < |cos (π / ((9 - 1 : ℤ) : ℝ) * ((3 - 5 : ℤ) : ℝ))|
    have : π / ((9 - 1 : ℤ) : ℝ) * ((3 - 5 : ℤ) : ℝ) = -(π / 4) := by push_cast; ring
    rw [this]
    exact abs_pos.2 (cos_pos_of_mem_Ioo ⟨by linarith [pi_pos], by linarith [pi_pos]⟩).ne'
  have hcsm : 0 < solvable.csm := by
    unfold csm
    refine lt_of_lt_of_le h3 (single_le_sum (f := solvable.clat) (fun g _ => abs_nonneg _) ?_)
    rw [show solvable.jd = 4 by decide]; decide
  show 0 < solvable.meanS (k + 1) - solvable.meanS k
  rw [sub_pos]
  unfold meanS
  refine div_lt_div_of_pos_right (sum_lt_sum (fun g _ => hrow g) ⟨3, ?_, ?_⟩) hcsm
  · rw [show solvable.jd = 4 by decide]; decide
  · unfold rowMean
    refine div_lt_div_of_pos_right (sum_lt_sum_of_nonempty ?_ fun i _ => ?_) (by show (0 : ℝ) < ((4 : ℤ) : ℝ); norm_num)
    · exact ⟨1, by show (1 : ℤ) ∈ Icc (1 : ℤ) 4; decide⟩
    · exact mul_lt_mul_of_pos_right (hth i 3) h3

theorem solvable_ok : solvable.MirrorOk :=
  ⟨by decide, by decide, by decide, by decide, by show (0 : ℝ) ≤ 1; norm_num, rfl, fun _ _ => rfl, fun _ _ => rfl, fun _ _ => rfl⟩

example : solvable.MirrorOk ∧ 1 ≤ solvable.jb ∧ solvable.VortValid ∧ solvable.nhn.south.Geometry ∧ solvable.nhn.south.Physical ∧
    solvable.nhn.south.InvCorrect ∧ 4 ≤ solvable.jd :=
  ⟨solvable_ok, by decide, twin_valid,
    Nhn22.south_geometry (F := solvable.nhn) (nhnN_geometry solvable_ok (by decide) (by decide)),
    ⟨by show (0 : ℝ) < 1; norm_num, by show (0 : ℝ) < 1; norm_num, by show (0 : ℝ) < 1; norm_num,
      by show (0 : ℝ) < 1; norm_num, by show (0 : ℝ) < 1; norm_num, fun _ k1 _ => solvable_statS k1⟩,
    Classical.choose_spec (NhnIn.exists_inv (Icc 1 2)), by decide⟩

end Atmos

end Falwa
