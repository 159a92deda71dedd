import Verif.Props.TiltedWave

/-!
# C209: the reference QGPV of the QG classes does not depend on the orientation of the field; an exact solution
-/

noncomputable section

namespace Falwa

open MeasureTheory Filter Set Real Spec

theorem leaning_turned_encloses {a φ : ℝ} (ha : 0 < a) (β γ : ℝ) (h1 : -(π / 2) < φ) (h2 : φ < π / 2) :
    Encloses a (fun x l => leaning β x (l + γ)) (-(π / 2)) (π / 2) (southCap a φ) (sin φ) :=
  encloses_turned (leaning_continuous β) (fun x l => onSphere_periodic _ x l) (leaning_encloses ha β h1 h2)

theorem leaning_cos (β γ x l : ℝ) : leaning β x (l + γ) = sin x * cos β - cos x * sin β * cos (l + (γ + π / 2)) := by
  rw [leaning_eq, ← add_assoc, cos_add_pi_div_two]
  ring

/-- Where the field is greatest or smallest. -/
theorem leaning_null (r β γ : ℝ) {u : Set (ℝ × ℝ)} (hu : u ⊆ band (-(π / 2)) (π / 2)) (hr : r ≠ 0)
    (h : ∀ p ∈ u, ∀ p' ∈ band (-(π / 2)) (π / 2), r * leaning β p'.1 (p'.2 + γ) ≤ r * leaning β p.1 (p.2 + γ)) : volume u = 0 := by
  have hpi := pi_pos
  refine Atmos.precession_null (2 * (γ + π / 2)) hu fun p hp => ?_
  have hb := hu hp
  rw [mul_div_cancel_left₀ _ (two_ne_zero' ℝ)]
  by_cases hβ : sin β = 0
  · left
    have k1 := h p hp (π / 2, 0) ⟨⟨by linarith, le_rfl⟩, le_rfl, by positivity⟩
    have k2 := h p hp (-(π / 2), 0) ⟨⟨le_rfl, by linarith⟩, le_rfl, by positivity⟩
    simp only [leaning_cos, hβ, sin_pi_div_two, sin_neg, mul_zero, zero_mul, sub_zero, one_mul] at k1 k2
    have hc : r * cos β ≠ 0 := mul_ne_zero hr fun h0 => by
      have := sin_sq_add_cos_sq β
      rw [hβ, h0] at this
      norm_num at this
    have s1 := neg_one_le_sin p.1
    have s2 := sin_le_one p.1
    have e : sin p.1 ^ 2 = 1 := by
      rcases lt_or_gt_of_ne hc with hc | hc
      · have : sin p.1 = -1 := by nlinarith
        rw [this]; norm_num
      · have : sin p.1 = 1 := by nlinarith
        rw [this]; norm_num
    have := sin_sq_add_cos_sq p.1
    rw [e] at this
    exact pow_eq_zero_iff two_ne_zero |>.1 (by linarith : cos p.1 ^ 2 = 0)
  · obtain ⟨l1, a1, a2, a3⟩ := Atmos.crest_exists (γ + π / 2) 0
    obtain ⟨l2, b1, b2, b3⟩ := Atmos.crest_exists (γ + π / 2) π
    have h1 := h p hp (p.1, l1) ⟨hb.1, a1, a2⟩
    have h2 := h p hp (p.1, l2) ⟨hb.1, b1, b2⟩
    simp only [leaning_cos, a3, b3, cos_zero, cos_pi] at h1 h2
    refine (Atmos.cos_extreme (b := -(r * (cos p.1 * sin β))) (l := p.2 + (γ + π / 2)) (by linarith) (by linarith)).imp_left fun h0 => ?_
    rw [neg_eq_zero] at h0
    exact (mul_eq_zero.1 ((mul_eq_zero.1 h0).resolve_left hr)).resolve_right hβ

theorem leaning_high {r : ℝ} (hr : r ≠ 0) (β γ : ℝ) : volume (highest fun x l => r * leaning β x (l + γ)) = 0 :=
  leaning_null r β γ (fun _ hp => hp.1) hr fun _ hp p' hp' => hp.2 p' hp'

theorem leaning_low {r : ℝ} (hr : r ≠ 0) (β γ : ℝ) : volume (lowest fun x l => r * leaning β x (l + γ)) = 0 :=
  leaning_null (-r) β γ (fun _ hp => hp.1) (neg_ne_zero.2 hr) fun p hp p' hp' => by
    have := hp.2 p' hp'
    simp only at this
    linarith

namespace Atmos

variable {c : Scheme} {F F' : Flow} {Q Q' : ℝ → ℝ → ℝ → ℝ} {a om H top φ l l' : ℝ} {A B : ℕ → Atmos} {v : ℝ → ℝ} {g x g' y : ℕ → ℤ}

/-- **C209, orientation.** Two flows are analysed, each on ever finer grids, with `QGFieldNHN22` or `QGFieldNH18`. On every level the QGPV of the second is
that of the first after a rotation of the sphere, by angles that may change with height. The reference QGPV of a latitude and a height has the same limit
for both. -/
theorem C209_orientation {f : ℝ → ℝ × ℝ × ℝ → ℝ} (α β γ : ℝ → ℝ) (hf : ∀ z, 0 ≤ z → z ≤ top → ContDiff ℝ 1 (f z))
    (hA : Seen c F Q a om H top A) (hB : Seen c F' Q' a om H top B)
    (h1 : ∀ z, 0 ≤ z → z ≤ top → ∀ x l, Q x l z = onSphere (f z) x l)
    (h2 : ∀ z, 0 ≤ z → z ≤ top → ∀ x l, Q' x l z = onSphere (fun p => f z (turn (α z) (β z) (γ z) p)) x l)
    {k m : ℕ → ℤ} {z : ℝ} (hk : ∀ n, 2 ≤ k n ∧ k n ≤ (A n).kmax - 1) (hm : ∀ n, 2 ≤ m n ∧ m n ≤ (B n).kmax - 1)
    (hkz : Tendsto (fun n => (A n).height (k n)) atTop (nhds z)) (hmz : Tendsto (fun n => (B n).height (m n)) atTop (nhds z)) :
    (WaveNorth a top Q φ v → (∀ z, 0 ≤ z → z ≤ top → volume (highest fun x l => Q' x l z) = 0) →
      TowardNorth A x g l φ → TowardNorth B y g' l' φ →
      Tendsto (fun n => (A n).qref c (g n) (k n)) atTop (nhds (v z)) ∧ Tendsto (fun n => (B n).qref c (g' n) (m n)) atTop (nhds (v z))) ∧
    (WaveSouth a top Q φ v → (∀ z, 0 ≤ z → z ≤ top → volume (lowest fun x l => Q' x l z) = 0) →
      TowardSouth A x g l φ → TowardSouth B y g' l' φ →
      Tendsto (fun n => (A n).qref c (g n) (k n)) atTop (nhds (v z)) ∧ Tendsto (fun n => (B n).qref c (g' n) (m n)) atTop (nhds (v z))) := by
  have he : ∀ z, 0 ≤ z → z ≤ top → ∀ T w, Encloses a (fun x l => Q x l z) (-(π / 2)) (π / 2) T w →
      Encloses a (fun x l => Q' x l z) (-(π / 2)) (π / 2) T w := fun z z0 z1 T w h => by
    have e1 : (fun x l => Q x l z) = onSphere (f z) := by funext x l; exact h1 z z0 z1 x l
    have e2 : (fun x l => Q' x l z) = onSphere fun p => f z (turn (α z) (β z) (γ z) p) := by funext x l; exact h2 z z0 z1 x l
    rw [e1] at h
    rw [e2]
    exact C206_sphere (hf z z0 z1) _ _ _ T w h
  refine ⟨fun hW hh hP hP' => ?_, fun hW hh hP hP' => ?_⟩
  · have hW' : WaveNorth a top Q' φ v := ⟨hW.north, hW.pole, hh, fun z z0 z1 => he z z0 z1 _ _ (hW.encloses z z0 z1)⟩
    exact ⟨(wave_north hA.tends hA.continuous hA.refines hA.last hA.partitions hW hP).reference k z hk hkz,
      (wave_north hB.tends hB.continuous hB.refines hB.last hB.partitions hW' hP').reference m z hm hmz⟩
  · have hW' : WaveSouth a top Q' φ v := ⟨hW.south, hW.pole, hh, fun z z0 z1 => he z z0 z1 _ _ (hW.encloses z z0 z1)⟩
    exact ⟨(wave_south hA.tends hA.continuous hA.refines hA.last hA.partitions hW hP).reference k z hk hkz,
      (wave_south hB.tends hB.continuous hB.refines hB.last hB.partitions hW' hP').reference m z hm hmz⟩

/-- **C209, exact solution.** On every level the QGPV is that of solid body rotation about a tilted axis,
`r (sin x cos β + cos x sin (l + γ) sin β)`, with a rate, a tilt and a direction that may change with height. In both hemispheres the reference QGPV of both
classes tends to `r sin φ`, and the wave activity to that about `r sin φ`. -/
theorem C209_solution {r : ℝ → ℝ} (β γ : ℝ → ℝ) (hr : ∀ z, 0 ≤ z → z ≤ top → 0 < r z) (hA : Seen c F Q a om H top A)
    (hQ : ∀ z, 0 ≤ z → z ≤ top → ∀ x l, Q x l z = r z * (sin x * cos (β z) + cos x * sin (l + γ z) * sin (β z))) :
    (0 ≤ φ → φ < π / 2 → TowardNorth A x g l φ → WaveLimits c A x g H top (fun z => r z * sin φ)
      fun z => meridionalWaveActivity a (fun y => Q y l z) (r z * sin φ) 0 (π / 2) φ) ∧
    (φ ≤ 0 → -(π / 2) < φ → TowardSouth A x g l φ → WaveLimits c A x g H top (fun z => r z * sin φ)
      fun z => meridionalWaveActivity a (fun y => Q y l z) (r z * sin φ) (-(π / 2)) 0 φ) := by
  have hpi := pi_pos
  have e : ∀ z, 0 ≤ z → z ≤ top → (fun x l => Q x l z) = fun x l => r z * leaning (β z) x (l + γ z) := fun z z0 z1 => by
    funext x l
    rw [hQ z z0 z1, leaning_eq]
  have ha := hA.refines.radius_pos
  refine ⟨fun p0 p1 hP => wave_north hA.tends hA.continuous hA.refines hA.last hA.partitions
      ⟨p0, p1, fun z z0 z1 => ?_, fun z z0 z1 => ?_⟩ hP,
    fun p0 p1 hP => wave_south hA.tends hA.continuous hA.refines hA.last hA.partitions ⟨p0, p1, fun z z0 z1 => ?_, fun z z0 z1 => ?_⟩ hP⟩
  · rw [e z z0 z1]
    exact leaning_high (hr z z0 z1).ne' _ _
  · rw [e z z0 z1]
    exact encloses_times (hr z z0 z1) (leaning_turned_encloses ha _ _ (by linarith) p1)
  · rw [e z z0 z1]
    exact leaning_low (hr z z0 z1).ne' _ _
  · rw [e z z0 z1]
    exact encloses_times (hr z z0 z1) (leaning_turned_encloses ha _ _ p1 (by linarith))

/-- The precession is a solid body rotation about an axis tilted by the arc tangent of 2. -/
theorem precession_leaning (t x l z : ℝ) :
    precessionQ t x l z = √5 * (sin x * cos (arctan 2) + cos x * sin (l + (t / 2 + π / 2)) * sin (arctan 2)) := by
  have h5 : √5 ≠ 0 := by positivity
  rw [cos_arctan, sin_arctan, ← add_assoc, sin_add_pi_div_two, show (1 : ℝ) + 2 ^ 2 = 5 by norm_num]
  show sin x + 2 * (cos x * cos (l + t / 2)) = _
  field_simp

/-- Hypotheses of `C209_solution`: the precession, both classes, at 45°N and 45°S; the reference QGPV of the second level tends to `√5 / √2` and
`-√5 / √2`. -/
example (c : Scheme) (t : ℝ) :
    Tendsto (fun n => (turnedFine (t / 2) n).qref c ((turnedFine (t / 2) n).nd + (n + 1)) 2) atTop (nhds (√5 * sin (π / 4))) ∧
      Tendsto (fun n => (turnedFine (t / 2) n).qref c ((turnedFine (t / 2) n).nd - (n + 1)) 2) atTop (nhds (√5 * sin (-(π / 4)))) := by
  have hpi := pi_pos
  have hk : ∀ n, 2 ≤ (2 : ℤ) ∧ (2 : ℤ) ≤ (turnedFine (t / 2) n).kmax - 1 := fun n => by
    have := (turnedFine_regular (t / 2) n).kmax3
    omega
  have hz : Tendsto (fun n => (turnedFine (t / 2) n).height 2) atTop (nhds 0) := by
    refine (turnedFine_refines (t / 2)).levels.congr fun n => ?_
    rw [height_eq]
    norm_num
  have h := fun {φ : ℝ} {g : ℕ → ℤ} => C209_solution (c := c) (φ := φ) (g := g) (x := fun _ => 1) (l := 0) (r := fun _ => √5) (fun _ => arctan 2)
    (fun _ => t / 2 + π / 2) (fun _ _ _ => by positivity) (turnedFine_seen c t) fun z _ _ x l => precession_leaning t x l z
  exact ⟨(h.1 (by linarith) (by linarith) (turnedFine_north _)).reference _ 0 hk hz, (h.2 (by linarith) (by linarith) (turnedFine_south _)).reference _ 0 hk hz⟩

/-- Hypotheses of `C209_orientation`: the precession at two times, as the third coordinate after two rotations. -/
example (c : Scheme) (t : ℝ) :
    Tendsto (fun n => (turnedFine (0 / 2) n).qref c ((turnedFine (0 / 2) n).nd + (n + 1)) 2) atTop (nhds (√5 * sin (π / 4))) ∧
      Tendsto (fun n => (turnedFine (t / 2) n).qref c ((turnedFine (t / 2) n).nd + (n + 1)) 2) atTop (nhds (√5 * sin (π / 4))) := by
  have hpi := pi_pos
  have hk : ∀ s n, 2 ≤ (2 : ℤ) ∧ (2 : ℤ) ≤ (turnedFine s n).kmax - 1 := fun s n => by
    have := (turnedFine_regular s n).kmax3
    omega
  have hz : ∀ s, Tendsto (fun n => (turnedFine s n).height 2) atTop (nhds 0) := fun s => by
    refine (turnedFine_refines s).levels.congr fun n => ?_
    rw [height_eq]
    norm_num
  refine (C209_orientation (c := c) (φ := π / 4) (v := fun _ => √5 * sin (π / 4)) (f := fun _ p => p.2.2 + 2 * p.1) (x := fun _ => 1) (l := 0)
    (y := fun _ => 1) (l' := 0) (fun _ => 0) (fun _ => 0) (fun _ => t / 2) (fun _ _ _ => by fun_prop) (turnedFine_seen c 0) (turnedFine_seen c t)
    (fun z _ _ x l => ?_) (fun z _ _ x l => ?_) (hk _) (hk _) (hz _) (hz _)).1 ⟨by linarith, by linarith, fun z _ _ => precession_high 0 z, fun z _ _ => ?_⟩
    (fun z _ _ => precession_high t z) (turnedFine_north _) (turnedFine_north _)
  · show sin x + 2 * (cos x * cos (l + 0 / 2)) = sin x + 2 * (cos x * cos l)
    rw [zero_div, add_zero]
  · show sin x + 2 * (cos x * cos (l + t / 2)) = _
    unfold onSphere turn turnPolar turnTilt spherePoint
    simp only [cos_zero, sin_zero, cos_add]
    ring
  · have e : (fun x l => precessionQ 0 x l z) = fun x l => √5 * leaning (arctan 2) x (l + (0 / 2 + π / 2)) := by
      funext x l
      rw [precession_leaning, leaning_eq]
    rw [e]
    exact encloses_times (by positivity) (leaning_turned_encloses one_pos _ _ (by linarith) (by linarith))

end Atmos

end Falwa

end
