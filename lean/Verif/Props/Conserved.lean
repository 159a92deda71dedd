import Verif.Props.Budget
import Verif.Props.SmoothFlux

/-!
# C179: the reference QGPV of air that conserves its QGPV does not change
-/

noncomputable section

namespace Falwa

open MeasureTheory Filter Set Real Spec

section
variable {M : Motion} {a : ℝ}

/-- QGPV in excess of `c`, over the sphere. -/
def excess (a : ℝ) (q : ℝ → ℝ → ℝ) (c : ℝ) : ℝ := ∫ l in (0 : ℝ)..2 * π, ∫ φ in -(π / 2)..π / 2, max (q φ l - c) 0 * (a * cos φ)

theorem excess_conserved (h : M.Obeys a) (hS : ∀ t φ l, M.S t φ l = 0) {t1 t2 : ℝ} (ht : t1 ≤ t2) (c : ℝ) :
    excess a (M.q t2) c = excess a (M.q t1) c := by
  have hpi := pi_pos
  have hA := above_obeys (v := fun _ => c) (v' := fun _ => 0) h (fun t => hasDerivAt_const t c) continuous_const
  have b := part_budget hA ht (by positivity : (0 : ℝ) ≤ 2 * π) (by linarith : -(π / 2) ≤ π / 2) le_rfl le_rfl
  have e1 : ∀ t x, (above M (fun _ => c) fun _ => 0).q t x (2 * π) = (above M (fun _ => c) fun _ => 0).q t x 0 := fun t x => by
    have := hA.periodicq t x 0
    rwa [zero_add] at this
  have e2 : ∀ t x, (above M (fun _ => c) fun _ => 0).U t x (2 * π) = (above M (fun _ => c) fun _ => 0).U t x 0 := fun t x => by
    have := hA.periodicU t x 0
    rwa [zero_add] at this
  have e3 : ∀ t x l, (above M (fun _ => c) fun _ => 0).S t x l = 0 := fun t x l => by
    show M.S t x l - 0 = 0
    rw [hS, sub_zero]
  simp only [e1, e2, e3, cos_neg, cos_pi_div_two, mul_zero, zero_mul, ite_self, intervalIntegral.integral_zero, sub_self, add_zero] at b
  exact sub_eq_zero.1 b

theorem ramp_posPart {s t : ℝ} (h : s < t) (x : ℝ) : ramp s t x = 1 - (max (x - s) 0 - max (x - t) 0) / (t - s) := by
  have h0 : 0 < t - s := by linarith
  unfold ramp
  rcases le_total x s with hx | hx
  · rw [max_eq_right (sub_nonpos.2 hx), max_eq_right (by linarith : x - t ≤ 0), min_eq_left (by rw [le_div_iff₀ h0]; linarith)]
    norm_num
  · rw [max_eq_left (sub_nonneg.2 hx), min_eq_right (by rw [div_le_one h0]; linarith)]
    rcases le_total x t with hx' | hx'
    · rw [max_eq_right (by linarith : x - t ≤ 0), max_eq_right (div_nonneg (by linarith) h0.le)]
      field_simp
      ring
    · rw [max_eq_left (by linarith : 0 ≤ x - t), max_eq_left (div_nonpos_of_nonpos_of_nonneg (by linarith) h0.le)]
      field_simp
      ring

theorem band_swap {f : ℝ × ℝ → ℝ} (hf : Continuous f) :
    ∫ p in band (-(π / 2)) (π / 2), f p = ∫ l in (0 : ℝ)..2 * π, ∫ φ in -(π / 2)..π / 2, f (φ, l) := by
  have hpi := pi_pos
  have hI : Integrable f ((volume.restrict (Icc (-(π / 2)) (π / 2))).prod (volume.restrict (Icc 0 (2 * π)))) := by
    rw [Measure.prod_restrict]
    exact hf.continuousOn.integrableOn_compact (isCompact_Icc.prod isCompact_Icc)
  rw [band, Measure.volume_eq_prod, ← Measure.prod_restrict, integral_prod_symm _ hI,
    intervalIntegral.integral_of_le (by positivity), integral_Icc_eq_integral_Ioc]
  refine integral_congr_ae (Eventually.of_forall fun l => ?_)
  beta_reduce
  rw [intervalIntegral.integral_of_le (by linarith), integral_Icc_eq_integral_Ioc]

/-- Equal excesses enclose equal areas. -/
theorem encloses_transfer {q r : ℝ → ℝ → ℝ} (hq : Continuous fun p : ℝ × ℝ => q p.1 p.2) (hr : Continuous fun p : ℝ × ℝ => r p.1 p.2)
    (he : ∀ c, excess a q c = excess a r c) {T v : ℝ} (h : Encloses a q (-(π / 2)) (π / 2) T v) : Encloses a r (-(π / 2)) (π / 2) T v := by
  have key : ∀ {s t : ℝ}, s < t → ∀ {p : ℝ → ℝ → ℝ}, Continuous (fun x : ℝ × ℝ => p x.1 x.2) →
      ∫ x in band (-(π / 2)) (π / 2), ramp s t (p x.1 x.2) * (a ^ 2 * cos x.1) =
        (∫ x in band (-(π / 2)) (π / 2), a ^ 2 * cos x.1) - a / (t - s) * (excess a p s - excess a p t) := by
    intro s t hst p hp
    have c1 : ∀ c, Continuous fun x : ℝ × ℝ => max (p x.1 x.2 - c) 0 * (a * cos x.1) := fun c => by fun_prop
    have i1 : ∀ c, IntegrableOn (fun x : ℝ × ℝ => max (p x.1 x.2 - c) 0 * (a * cos x.1)) (band (-(π / 2)) (π / 2)) := fun c =>
      (c1 c).continuousOn.integrableOn_compact (isCompact_band _ _)
    have i0 : IntegrableOn (fun x : ℝ × ℝ => a ^ 2 * cos x.1) (band (-(π / 2)) (π / 2)) :=
      (by fun_prop : Continuous fun x : ℝ × ℝ => a ^ 2 * cos x.1).continuousOn.integrableOn_compact (isCompact_band _ _)
    have e : ∀ c, excess a p c = ∫ x in band (-(π / 2)) (π / 2), max (p x.1 x.2 - c) 0 * (a * cos x.1) := fun c => (band_swap (c1 c)).symm
    have i2 : IntegrableOn (fun x : ℝ × ℝ => a / (t - s) * (max (p x.1 x.2 - s) 0 * (a * cos x.1) - max (p x.1 x.2 - t) 0 * (a * cos x.1)))
        (band (-(π / 2)) (π / 2)) := ((i1 s).sub (i1 t)).const_mul _
    rw [e, e, ← integral_sub (i1 s) (i1 t), ← integral_const_mul, ← integral_sub i0 i2]
    refine integral_congr_ae (Eventually.of_forall fun x => ?_)
    beta_reduce
    rw [ramp_posPart hst]
    ring
  have swap : ∀ {p p' : ℝ → ℝ → ℝ}, Continuous (fun x : ℝ × ℝ => p x.1 x.2) → Continuous (fun x : ℝ × ℝ => p' x.1 x.2) →
      (∀ c, excess a p c = excess a p' c) → ∀ {s t : ℝ}, s < t →
      areaAtMost a p (-(π / 2)) (π / 2) s ≤ areaAtMost a p' (-(π / 2)) (π / 2) t := by
    intro p p' hp hp' hee s t hst
    refine (ramp_between hp le_rfl le_rfl hst).1.trans (le_trans (le_of_eq ?_) (ramp_between hp' le_rfl le_rfl hst).2)
    rw [key hst hp, key hst hp', hee, hee]
  refine ⟨fun w hw => ?_, fun w hw => ?_⟩
  · exact (swap hr hq (fun c => (he c).symm) (by linarith : w < (w + v) / 2)).trans_lt (h.below _ (by linarith))
  · exact (h.above ((v + w) / 2) (by linarith)).trans_le (swap hq hr he (by linarith))

theorem level_continuous (h : M.Obeys a) (t : ℝ) : Continuous fun p : ℝ × ℝ => M.q t p.1 p.2 :=
  Continuous.comp (g := fun p : ℝ × ℝ × ℝ => M.q p.1 p.2.1 p.2.2) h.cq (f := fun p : ℝ × ℝ => (t, p.1, p.2)) (by fun_prop)

/-- **C179 on the sphere.** If the wind has no divergence and QGPV is conserved, the value whose contour encloses a given area is the same
at all times. -/
theorem C179_sphere (h : M.Obeys a) (hS : ∀ t φ l, M.S t φ l = 0) (t1 t2 T v : ℝ)
    (he : Encloses a (M.q t1) (-(π / 2)) (π / 2) T v) : Encloses a (M.q t2) (-(π / 2)) (π / 2) T v := by
  refine encloses_transfer (level_continuous h t1) (level_continuous h t2) (fun c => ?_) he
  rcases le_total t1 t2 with ht | ht
  · exact (excess_conserved h hS ht c).symm
  · exact excess_conserved h hS ht c

end

namespace Atmos

variable {F F' : Flow} {A B : ℕ → Atmos} {a om H top : ℝ} {c : Scheme} {Q Q' : ℝ → ℝ → ℝ → ℝ}

/-- What the limits of `QGFieldNHN22` need of a flow and of the grids on which it is sampled (C168, C171). -/
structure SeenNHN22 (F : Flow) (θ : ℝ → ℝ → ℝ → ℝ) (N S : Layers) (a om H top : ℝ) (A : ℕ → Atmos) : Prop where
  curl : F.IsCurl a top
  north : N.Of θ H top
  south : S.Of θ H top
  contN : Continuous fun p : ℝ × ℝ × ℝ => N.g p.1 p.2.1 p.2.2
  contS : Continuous fun p : ℝ × ℝ × ℝ => S.g p.1 p.2.1 p.2.2
  refines : Refines a om H top A
  last : ∀ n, (A n).height (A n).kmax = top
  observes : ∃ ε : ℕ → ℝ, (∀ n, (A n).Observes F θ N S (ε n)) ∧ (∀ n, 2 * ε n ≤ N.s) ∧ (∀ n, 2 * ε n ≤ S.s) ∧
    Tendsto (fun n => ε n / (A n).dz) atTop (nhds 0)

/-- The same for `QGFieldNH18` (C169, C171), whose mean state `L` is that of both hemispheres. -/
structure SeenNH18 (F : Flow) (θ : ℝ → ℝ → ℝ → ℝ) (N S L : Layers) (a om H top : ℝ) (A : ℕ → Atmos) : Prop where
  curl : F.IsCurl a top
  layers : L.Of θ H top
  contL : Continuous fun p : ℝ × ℝ × ℝ => L.g p.1 p.2.1 p.2.2
  mean : ∀ z, L.mean z = (N.mean z + S.mean z) / 2
  stability : ∀ z, L.stability z = (N.stability z + S.stability z) / 2
  bounded : ∃ G, ∀ φ l z, 0 ≤ z → z ≤ top → |L.g φ l z| ≤ G
  refines : Refines a om H top A
  last : ∀ n, (A n).height (A n).kmax = top
  partitions : Tendsto (fun n => (A n).npart) atTop atTop
  observes : ∃ ε : ℕ → ℝ, (∀ n, (A n).Observes F θ N S (ε n)) ∧ (∀ n, 2 * ε n ≤ L.s) ∧
    Tendsto (fun n => ε n / (A n).dz) atTop (nhds 0)

/-- The grids sample the flow `F`, whose QGPV for the class is `Q`. -/
def Seen (c : Scheme) (F : Flow) (Q : ℝ → ℝ → ℝ → ℝ) (a om H top : ℝ) (A : ℕ → Atmos) : Prop :=
  match c with
  | .nhn22 => ∃ θ N S, SeenNHN22 F θ N S a om H top A ∧ Q = F.qgpv om H N S
  | .nh18 => ∃ θ N S L, SeenNH18 F θ N S L a om H top A ∧ Q = F.qgpvZonal om H L

namespace Seen

theorem tends (h : Seen c F Q a om H top A) : QgpvTends c Q A := by
  cases c with
  | nhn22 =>
    obtain ⟨θ, N, S, h, rfl⟩ := h
    obtain ⟨ε, h1, h2, h3, h4⟩ := h.observes
    exact C168_qgpv h.curl h.north h.south h.refines h1 h2 h3 h4
  | nh18 =>
    obtain ⟨θ, N, S, L, h, rfl⟩ := h
    obtain ⟨ε, h1, h2, h3⟩ := h.observes
    obtain ⟨G, hG⟩ := h.bounded
    exact C169_limit_partial h.curl h.layers h.mean h.stability hG h.refines h1 h2 h3

theorem continuous (h : Seen c F Q a om H top A) : Continuous fun p : ℝ × ℝ × ℝ => Q p.1 p.2.1 p.2.2 := by
  cases c with
  | nhn22 =>
    obtain ⟨θ, N, S, h, rfl⟩ := h
    exact qgpv_continuous (om := om) (H := H) h.curl.continuous h.contN h.contS
  | nh18 =>
    obtain ⟨θ, N, S, L, h, rfl⟩ := h
    exact qgpvZonal_continuous (om := om) (H := H) h.curl.continuous h.contL

theorem refines (h : Seen c F Q a om H top A) : Refines a om H top A := by
  cases c with
  | nhn22 => obtain ⟨θ, N, S, h, rfl⟩ := h; exact h.refines
  | nh18 => obtain ⟨θ, N, S, L, h, rfl⟩ := h; exact h.refines

theorem last (h : Seen c F Q a om H top A) : ∀ n, (A n).height (A n).kmax = top := by
  cases c with
  | nhn22 => obtain ⟨θ, N, S, h, rfl⟩ := h; exact h.last
  | nh18 => obtain ⟨θ, N, S, L, h, rfl⟩ := h; exact h.last

theorem partitions (h : Seen c F Q a om H top A) : c = .nh18 → Tendsto (fun n => (A n).npart) atTop atTop := by
  rintro rfl
  obtain ⟨θ, N, S, L, h, rfl⟩ := h
  exact h.partitions

theorem observes (h : Seen c F Q a om H top A) : ∃ (θ : ℝ → ℝ → ℝ → ℝ) (N S : Layers) (ε : ℕ → ℝ), ∀ n, (A n).Observes F θ N S (ε n) := by
  cases c with
  | nhn22 => obtain ⟨θ, N, S, h, rfl⟩ := h; obtain ⟨ε, h1, -⟩ := h.observes; exact ⟨θ, N, S, ε, h1⟩
  | nh18 => obtain ⟨θ, N, S, L, h, rfl⟩ := h; obtain ⟨ε, h1, -⟩ := h.observes; exact ⟨θ, N, S, ε, h1⟩

end Seen

variable {φ l l' t1 t2 : ℝ} {v : ℝ → ℝ} {g x r y : ℕ → ℤ} {M : ℝ → Motion}

/-- **C179.** Air that conserves its QGPV is analysed at two times, each on ever finer grids, with `QGFieldNHN22` or `QGFieldNH18`: the
reference QGPV of a latitude and a height has the same limit at both times. -/
theorem C179_reference (hM : ∀ z, 0 ≤ z → z ≤ top → (M z).Obeys a) (hS : ∀ z, 0 ≤ z → z ≤ top → ∀ t φ l, (M z).S t φ l = 0)
    (hA : Seen c F Q a om H top A) (hB : Seen c F' Q' a om H top B)
    (h1 : ∀ z, 0 ≤ z → z ≤ top → ∀ φ l, Q φ l z = (M z).q t1 φ l) (h2 : ∀ z, 0 ≤ z → z ≤ top → ∀ φ l, Q' φ l z = (M z).q t2 φ l)
    {k m : ℕ → ℤ} {z : ℝ} (hk : ∀ n, 2 ≤ k n ∧ k n ≤ (A n).kmax - 1) (hm : ∀ n, 2 ≤ m n ∧ m n ≤ (B n).kmax - 1)
    (hkz : Tendsto (fun n => (A n).height (k n)) atTop (nhds z)) (hmz : Tendsto (fun n => (B n).height (m n)) atTop (nhds z)) :
    (WaveNorth a top Q φ v → (∀ z, 0 ≤ z → z ≤ top → volume (highest fun x l => Q' x l z) = 0) →
      TowardNorth A x g l φ → TowardNorth B y r l' φ →
      Tendsto (fun n => (A n).qref c (g n) (k n)) atTop (nhds (v z)) ∧ Tendsto (fun n => (B n).qref c (r n) (m n)) atTop (nhds (v z))) ∧
    (WaveSouth a top Q φ v → (∀ z, 0 ≤ z → z ≤ top → volume (lowest fun x l => Q' x l z) = 0) →
      TowardSouth A x g l φ → TowardSouth B y r l' φ →
      Tendsto (fun n => (A n).qref c (g n) (k n)) atTop (nhds (v z)) ∧ Tendsto (fun n => (B n).qref c (r n) (m n)) atTop (nhds (v z))) := by
  have he : ∀ z, 0 ≤ z → z ≤ top → ∀ T w, Encloses a (fun x l => Q x l z) (-(π / 2)) (π / 2) T w →
      Encloses a (fun x l => Q' x l z) (-(π / 2)) (π / 2) T w := fun z z0 z1 T w h => by
    have e1 : (fun x l => Q x l z) = (M z).q t1 := by funext x l; exact h1 z z0 z1 x l
    have e2 : (fun x l => Q' x l z) = (M z).q t2 := by funext x l; exact h2 z z0 z1 x l
    rw [e1] at h
    rw [e2]
    exact C179_sphere (hM z z0 z1) (hS z z0 z1) t1 t2 T w h
  refine ⟨fun hW hh hP hP' => ?_, fun hW hh hP hP' => ?_⟩
  · have hW' : WaveNorth a top Q' φ v := ⟨hW.north, hW.pole, hh, fun z z0 z1 => he z z0 z1 _ _ (hW.encloses z z0 z1)⟩
    exact ⟨(wave_north hA.tends hA.continuous hA.refines hA.last hA.partitions hW hP).reference k z hk hkz,
      (wave_north hB.tends hB.continuous hB.refines hB.last hB.partitions hW' hP').reference m z hm hmz⟩
  · have hW' : WaveSouth a top Q' φ v := ⟨hW.south, hW.pole, hh, fun z z0 z1 => he z z0 z1 _ _ (hW.encloses z z0 z1)⟩
    exact ⟨(wave_south hA.tends hA.continuous hA.refines hA.last hA.partitions hW hP).reference k z hk hkz,
      (wave_south hB.tends hB.continuous hB.refines hB.last hB.partitions hW' hP').reference m z hm hmz⟩

/-! ### A sample: the precession of `Props/Budget.lean`, with potential temperature equal to height -/

/-- The flow across the poles, turned by `s`. -/
def turned (s : ℝ) : Flow where
  U := fun φ l _ => -(sin φ * cos (l + s))
  V := fun _ l _ => sin (l + s)
  vort := fun φ l _ => 2 * (cos (l + s) * cos φ)
  dU := fun φ l _ => -(cos (2 * φ) * cos (l + s))
  ddU := fun φ l _ => 2 * (sin (2 * φ) * cos (l + s))
  dV := fun _ l _ => cos (l + s)
  ddV := fun _ l _ => -sin (l + s)
  D := 4

theorem turned_curl (s : ℝ) : (turned s).IsCurl 1 1 where
  zonal := fun φ z h0 h1 => by
    have h := acrossPoles_curl.zonal φ z h0 h1
    refine ⟨fun x => ?_, fun x => ?_, fun x y => ?_⟩
    · exact (h.deriv1 (x + s)).comp_add_const x s
    · exact (h.deriv2 (x + s)).comp_add_const x s
    · have := h.bound (x + s) (y + s)
      rwa [add_sub_add_right_eq_sub] at this
  meridional := fun l z h0 h1 => acrossPoles_curl.meridional (l + s) z h0 h1
  periodic := fun φ l z => by
    show sin (l + 2 * π + s) = sin (l + s)
    rw [show l + 2 * π + s = l + s + 2 * π by ring, sin_add_two_pi]
  curl := fun φ l z h1 h2 h3 h4 => acrossPoles_curl.curl φ (l + s) z h1 h2 h3 h4
  continuous := by
    show Continuous fun p : ℝ × ℝ × ℝ => 2 * (cos (p.2.1 + s) * cos p.1)
    fun_prop
  north := fun l l' z => acrossPoles_curl.north (l + s) (l' + s) z
  south := fun l l' z => acrossPoles_curl.south (l + s) (l' + s) z

def calmLayers : Layers where
  mean := fun z => z
  stability := fun _ => 1
  g := fun _ _ _ => 0
  dg := fun _ _ _ => 0
  D := 0
  M := 0
  s := 1

theorem calmLayers_of : calmLayers.Of (fun _ _ z => z) 1 1 where
  smooth := fun φ l => by
    have e : (fun z : ℝ => exp (-z / 1) * ((z - z) / 1)) = fun _ => 0 := by
      funext z
      simp
    show Smooth (fun z : ℝ => exp (-z / 1) * ((z - z) / 1)) (fun _ => 0) (fun _ => 0) 0
    rw [e]
    exact ⟨fun x => hasDerivAt_const x _, fun x => hasDerivAt_const x _, fun x y => by simp⟩
  s0 := one_pos
  stable := fun _ _ _ => le_rfl
  anomaly := fun φ l z _ _ => by
    show |z - z| ≤ 0
    rw [sub_self, abs_zero]

/-- Samples of the turned flow on the grids of `polarFine`, with a forcing that C181 uses. -/
def turnedFine (s : ℝ) (n : ℕ) : Atmos :=
  { polarFine n with
    uField := fun i j k => (turned s).U ((polarFine n).sphere.latitude j) ((polarFine n).sphere.longitude i) ((polarFine n).height k)
    vField := fun i j k => (turned s).V ((polarFine n).sphere.latitude j) ((polarFine n).sphere.longitude i) ((polarFine n).height k)
    tField := fun _ _ k => (polarFine n).height k * exp (-(polarFine n).height k)
    ncforce := fun i j _ => -(cos ((polarFine n).sphere.latitude j) * sin ((polarFine n).sphere.longitude i + s)) }

theorem turnedFine_regular (s : ℝ) (n : ℕ) : (turnedFine s n).Regular :=
  have h := polarFine_refines.regular n
  ⟨h.nlon1, h.odd, h.jb0, h.jd3, h.kmax3, h.npart2, h.a0, h.om0⟩

theorem turnedFine_refines (s : ℝ) : Refines 1 (1 / 2) 1 1 (turnedFine s) where
  regular := turnedFine_regular s
  square := polarFine_refines.square
  radius := fun _ => rfl
  rotation := fun _ => rfl
  scale := fun _ => rfl
  scale0 := one_pos
  dz0 := polarFine_refines.dz0
  top := polarFine_refines.top
  rows := polarFine_refines.rows
  levels := polarFine_refines.levels

theorem turnedFine_theta (s : ℝ) (n : ℕ) (i j k : ℤ) : (turnedFine s n).theta i j k = (turnedFine s n).height k := by
  show (polarFine n).height k * exp (-(polarFine n).height k) * exp (1 / 1 * (polarFine n).height k / 1) = (polarFine n).height k
  rw [mul_assoc, ← exp_add, show -(polarFine n).height k + 1 / 1 * (polarFine n).height k / 1 = 0 by ring, exp_zero, mul_one]

theorem turnedFine_rowMean (s : ℝ) (n : ℕ) (k g : ℤ) : (turnedFine s n).rowMean k g = (turnedFine s n).height k * (turnedFine s n).clat g := by
  have h0 : (0 : ℝ) < ((turnedFine s n).nlon : ℝ) := by
    have := (turnedFine_regular s n).nlon1
    exact_mod_cast (by omega : (0 : ℤ) < (turnedFine s n).nlon)
  have hc : ((Finset.Icc (1 : ℤ) (turnedFine s n).nlon).card : ℝ) = (turnedFine s n).nlon := by
    rw [Int.card_Icc]
    have : (((turnedFine s n).nlon + 1 - 1).toNat : ℤ) = (turnedFine s n).nlon := by
      have : (0 : ℤ) < (turnedFine s n).nlon := by exact_mod_cast h0
      omega
    exact_mod_cast this
  have e1 : ∀ x, (turnedFine s n).theta0 x g k = (turnedFine s n).height k := fun x => turnedFine_theta s n x g k
  unfold rowMean
  simp only [e1]
  rw [Finset.sum_const, nsmul_eq_mul, hc, mul_div_cancel_left₀ _ h0.ne']

theorem turnedFine_csm (s : ℝ) (n : ℕ) : 0 < (turnedFine s n).csm := polarWave_csm (2 * n)

theorem turnedFine_ts0 (s : ℝ) (n : ℕ) (k : ℤ) : (turnedFine s n).ts0 k = (turnedFine s n).height k := by
  show (∑ g ∈ Finset.Icc 1 (turnedFine s n).jd, (turnedFine s n).rowMean k g) / (turnedFine s n).csm = _
  simp only [turnedFine_rowMean]
  rw [← Finset.mul_sum]
  show (turnedFine s n).height k * (turnedFine s n).csm / (turnedFine s n).csm = _
  rw [mul_div_assoc, div_self (turnedFine_csm s n).ne', mul_one]

theorem turnedFine_tn0 (s : ℝ) (n : ℕ) (k : ℤ) : (turnedFine s n).tn0 k = (turnedFine s n).height k := by
  have h := polarWave_tn0 (2 * n) k
  have e1 : (polarWave (2 * n)).tn0 k =
      (∑ g ∈ Finset.Icc ((polarWave (2 * n)).nlat - (polarWave (2 * n)).jd + 1) (polarWave (2 * n)).nlat, (polarWave (2 * n)).rowMean k g) /
        (polarWave (2 * n)).csm := rfl
  have e2 : (turnedFine s n).tn0 k =
      (∑ g ∈ Finset.Icc ((turnedFine s n).nlat - (turnedFine s n).jd + 1) (turnedFine s n).nlat, (turnedFine s n).rowMean k g) /
        (turnedFine s n).csm := rfl
  rw [e1] at h
  rw [e2]
  simp only [turnedFine_rowMean, polarWave_rowMean] at h ⊢
  exact h

theorem turnedFine_observes (s : ℝ) (n : ℕ) : (turnedFine s n).Observes (turned s) (fun _ _ z => z) calmLayers calmLayers 0 where
  u := fun _ _ _ _ _ _ => rfl
  v := fun _ _ _ _ _ _ => rfl
  theta := fun i j k _ _ _ => turnedFine_theta s n i j k
  meanN := fun k _ _ => by rw [turnedFine_tn0]; simp [calmLayers]
  meanS := fun k _ _ => by rw [turnedFine_ts0]; simp [calmLayers]
  statN := fun k _ _ => by
    have e : (turnedFine s n).statN k - calmLayers.stability ((turnedFine s n).height k) = 1 - 1 := rfl
    rw [e, sub_self, abs_zero]
  statS := fun k _ _ => by
    have e : (turnedFine s n).statS k - calmLayers.stability ((turnedFine s n).height k) = 1 - 1 := rfl
    rw [e, sub_self, abs_zero]

/-- The QGPV of the precession at time `t`. -/
def precessionQ (t x l _ : ℝ) : ℝ := precession.q t x l

theorem turned_qgpv (t : ℝ) : precessionQ t = (turned (t / 2)).qgpv (1 / 2) 1 calmLayers calmLayers := by
  funext x l z
  unfold Flow.qgpv precessionQ
  rw [ite_self]
  show sin x + 2 * (cos x * cos (l + t / 2)) = 2 * (1 / 2) * sin x + 2 * (cos (l + t / 2) * cos x) + 2 * (1 / 2) * sin x * (exp (z / 1) * 0)
  ring

theorem turned_qgpvZonal (t : ℝ) : precessionQ t = (turned (t / 2)).qgpvZonal (1 / 2) 1 calmLayers := by
  funext x l z
  unfold Flow.qgpvZonal precessionQ
  show sin x + 2 * (cos x * cos (l + t / 2)) =
    2 * (1 / 2) * sin x + 2 * (cos (l + t / 2) * cos x) + (2 * (1 / 2) * sin x + _) * (exp (z / 1) * 0)
  ring

theorem turnedFine_seen (c : Scheme) (t : ℝ) : Seen c (turned (t / 2)) (precessionQ t) 1 (1 / 2) 1 1 (turnedFine (t / 2)) := by
  have hg : Continuous fun p : ℝ × ℝ × ℝ => calmLayers.g p.1 p.2.1 p.2.2 := by
    show Continuous fun _ : ℝ × ℝ × ℝ => (0 : ℝ)
    fun_prop
  have h2 : ∀ _ : ℕ, 2 * (0 : ℝ) ≤ calmLayers.s := fun _ => by show 2 * (0 : ℝ) ≤ 1; norm_num
  cases c with
  | nhn22 =>
    exact ⟨_, calmLayers, calmLayers, ⟨turned_curl _, calmLayers_of, calmLayers_of, hg, hg, turnedFine_refines _, polarFine_last,
      fun _ => 0, turnedFine_observes _, h2, h2, by simp⟩, turned_qgpv t⟩
  | nh18 =>
    exact ⟨_, calmLayers, calmLayers, calmLayers, ⟨turned_curl _, calmLayers_of, hg, fun z => (add_self_div_two z).symm,
      fun z => (add_self_div_two (1 : ℝ)).symm, ⟨0, fun _ _ _ _ _ => by show |(0 : ℝ)| ≤ 0; rw [abs_zero]⟩, turnedFine_refines _, polarFine_last,
      polarFine_npart, fun _ => 0, turnedFine_observes _, h2, by simp⟩, turned_qgpvZonal t⟩

theorem turnedFine_north (s : ℝ) : TowardNorth (turnedFine s) (fun _ => 1) (fun n => (turnedFine s n).nd + (n + 1)) 0 (π / 4) :=
  ⟨polarFine_north.col, polarFine_north.row, polarFine_north.longitude, polarFine_north.latitude⟩

theorem turnedFine_south (s : ℝ) : TowardSouth (turnedFine s) (fun _ => 1) (fun n => (turnedFine s n).nd - (n + 1)) 0 (-(π / 4)) :=
  ⟨polarFine_south.globe, polarFine_south.col, polarFine_south.row, polarFine_south.longitude, polarFine_south.latitude⟩

/-- A longitude where the turned wave has its crest. -/
theorem crest_exists (s c : ℝ) : ∃ l, 0 ≤ l ∧ l ≤ 2 * π ∧ cos (l + s) = cos c := by
  have hp : (0 : ℝ) < 2 * π := by positivity
  obtain ⟨m, hm⟩ : ∃ m : ℤ, toIcoMod hp 0 (c - s) = c - s - m * (2 * π) := ⟨toIcoDiv hp 0 (c - s), by rw [toIcoMod, zsmul_eq_mul]⟩
  have h := toIcoMod_mem_Ico hp 0 (c - s)
  rw [zero_add] at h
  refine ⟨toIcoMod hp 0 (c - s), h.1, h.2.le, ?_⟩
  rw [hm, show c - s - m * (2 * π) + s = c - m * (2 * π) by ring, cos_sub_int_mul_two_pi]

theorem precession_null (t : ℝ) {u : Set (ℝ × ℝ)} (hu : u ⊆ band (-(π / 2)) (π / 2))
    (h : ∀ p ∈ u, cos p.1 = 0 ∨ sin (p.2 + t / 2) = 0) : volume u = 0 := by
  have hpi := pi_pos
  refine measure_mono_null (t := (({-(π / 2), π / 2} : Set ℝ) ×ˢ (Set.univ : Set ℝ)) ∪
    ((Set.univ : Set ℝ) ×ˢ (Set.range fun m : ℤ => (m : ℝ) * π - t / 2))) ?_ ?_
  · intro p hp
    obtain ⟨⟨b1, b2⟩, -, -⟩ := hu hp
    rcases h p hp with h | h
    · left
      refine ⟨?_, trivial⟩
      by_contra hne
      simp only [Set.mem_insert_iff, Set.mem_singleton_iff, not_or] at hne
      exact (cos_pos_of_mem_Ioo ⟨lt_of_le_of_ne b1 (Ne.symm hne.1), lt_of_le_of_ne b2 hne.2⟩).ne' h
    · right
      obtain ⟨m, hm⟩ := sin_eq_zero_iff.1 h
      exact ⟨trivial, m, by show (m : ℝ) * π - t / 2 = p.2; linarith⟩
  · refine measure_union_null ?_ ?_
    · rw [Measure.volume_eq_prod, Measure.prod_prod, (Set.toFinite _).measure_zero, zero_mul]
    · rw [Measure.volume_eq_prod, Measure.prod_prod, (Set.countable_range _).measure_zero, mul_zero]

theorem precession_high (t z : ℝ) : volume (highest fun x l => precessionQ t x l z) = 0 := by
  refine precession_null t (fun p hp => hp.1) fun p hp => ?_
  obtain ⟨l1, a1, a2, a3⟩ := crest_exists (t / 2) 0
  obtain ⟨l2, b1, b2, b3⟩ := crest_exists (t / 2) π
  have h1 := hp.2 (p.1, l1) ⟨hp.1.1, a1, a2⟩
  have h2 := hp.2 (p.1, l2) ⟨hp.1.1, b1, b2⟩
  simp only [precessionQ, precession, a3, b3, cos_zero, cos_pi] at h1 h2
  exact cos_extreme (by linarith) (by linarith)

theorem precession_low (t z : ℝ) : volume (lowest fun x l => precessionQ t x l z) = 0 := by
  refine precession_null t (fun p hp => hp.1) fun p hp => ?_
  obtain ⟨l1, a1, a2, a3⟩ := crest_exists (t / 2) 0
  obtain ⟨l2, b1, b2, b3⟩ := crest_exists (t / 2) π
  have h1 := hp.2 (p.1, l1) ⟨hp.1.1, a1, a2⟩
  have h2 := hp.2 (p.1, l2) ⟨hp.1.1, b1, b2⟩
  simp only [precessionQ, precession, a3, b3, cos_zero, cos_pi] at h1 h2
  exact (cos_extreme (b := -cos p.1) (l := p.2 + t / 2) (by linarith) (by linarith)).imp_left fun h => by linarith

theorem precession_encloses {φ : ℝ} (h1 : -(π / 2) < φ) (h2 : φ < π / 2) :
    ∃ v : ℝ, Encloses 1 (precession.q 0) (-(π / 2)) (π / 2) (southCap 1 φ) v := by
  have hpi := pi_pos
  have s1 : sin φ < 1 := by
    have := strictMonoOn_sin (a := φ) (b := π / 2) ⟨h1.le, h2.le⟩ ⟨by linarith, le_rfl⟩ h2
    rwa [sin_pi_div_two] at this
  have s2 : -1 < sin φ := by
    have := strictMonoOn_sin (a := -(π / 2)) (b := φ) ⟨le_rfl, by linarith⟩ ⟨h1.le, h2.le⟩ h1
    rwa [sin_neg, sin_pi_div_two] at this
  refine (C159_reference_exists one_pos (level_continuous precession_obeys 0) le_rfl (by linarith) le_rfl ?_ ?_).exists
  · unfold southCap
    have : 0 < 1 + sin φ := by linarith
    positivity
  · unfold southCap
    rw [sin_neg, sin_pi_div_two]
    have : 0 < 2 * π * 1 ^ 2 := by positivity
    nlinarith

/-- Hypotheses of `C179_reference` (and so of `C179_sphere`): the precession at the times 0 and 3, both classes, at 45°N and 45°S, on the
second level. -/
example : ∃ v w : ℝ, ∀ c : Scheme,
    (Tendsto (fun n => (turnedFine (0 / 2) n).qref c ((turnedFine (0 / 2) n).nd + (n + 1)) 2) atTop (nhds v) ∧
      Tendsto (fun n => (turnedFine (3 / 2) n).qref c ((turnedFine (3 / 2) n).nd + (n + 1)) 2) atTop (nhds v)) ∧
    (Tendsto (fun n => (turnedFine (0 / 2) n).qref c ((turnedFine (0 / 2) n).nd - (n + 1)) 2) atTop (nhds w) ∧
      Tendsto (fun n => (turnedFine (3 / 2) n).qref c ((turnedFine (3 / 2) n).nd - (n + 1)) 2) atTop (nhds w)) := by
  have hpi := pi_pos
  obtain ⟨v, hv⟩ := precession_encloses (φ := π / 4) (by linarith) (by linarith)
  obtain ⟨w, hw⟩ := precession_encloses (φ := -(π / 4)) (by linarith) (by linarith)
  have hk : ∀ s n, 2 ≤ (2 : ℤ) ∧ (2 : ℤ) ≤ (turnedFine s n).kmax - 1 := fun s n => by
    have := (turnedFine_regular s n).kmax3
    omega
  have hz : ∀ s, Tendsto (fun n => (turnedFine s n).height 2) atTop (nhds 0) := fun s => by
    refine (turnedFine_refines s).levels.congr fun n => ?_
    rw [height_eq]
    norm_num
  refine ⟨v, w, fun c => ?_⟩
  have h := fun {φ : ℝ} {v : ℝ → ℝ} {g r : ℕ → ℤ} => C179_reference (c := c) (M := fun _ => precession) (t1 := 0) (t2 := 3) (φ := φ) (v := v)
    (g := g) (r := r) (x := fun _ => 1) (y := fun _ => 1) (l := 0) (l' := 0) (k := fun _ => 2) (m := fun _ => 2) (z := 0)
    (fun _ _ _ => precession_obeys) (fun _ _ _ _ _ _ => rfl) (turnedFine_seen c 0) (turnedFine_seen c 3) (fun _ _ _ _ _ => rfl)
    (fun _ _ _ _ _ => rfl) (hk _) (hk _) (hz _) (hz _)
  exact ⟨(h (v := fun _ => v)).1 ⟨by linarith, by linarith, fun z _ _ => precession_high 0 z, fun _ _ _ => hv⟩ (fun z _ _ => precession_high 3 z)
      (turnedFine_north _) (turnedFine_north _),
    (h (v := fun _ => w)).2 ⟨by linarith, by linarith, fun z _ _ => precession_low 0 z, fun _ _ _ => hw⟩ (fun z _ _ => precession_low 3 z)
      (turnedFine_south _) (turnedFine_south _)⟩

end Atmos

end Falwa

end
