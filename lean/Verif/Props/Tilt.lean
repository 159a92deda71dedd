import Verif.Spec.Turn
import Verif.Props.HemBudget
import Verif.Props.HemWhole
import Verif.Props.GridBound

/-!
# C206: the reference state does not depend on the orientation of the field
-/

noncomputable section

namespace Falwa

open MeasureTheory Filter Set Real Spec

variable {a φ : ℝ} {f : ℝ × ℝ × ℝ → ℝ}

/-! ## Tilting as a motion -/

theorem tiltPoint (t φ l : ℝ) : turnTilt t (spherePoint φ l) =
    (cos φ * cos l, cos φ * sin l * cos t - sin φ * sin t, cos φ * sin l * sin t + sin φ * cos t) := rfl

/-- Directions in which the tilted point moves with time, latitude and longitude. -/
def tiltTime (t φ l : ℝ) : ℝ × ℝ × ℝ := (0, -(cos φ * sin l * sin t) - sin φ * cos t, cos φ * sin l * cos t - sin φ * sin t)

def tiltLat (t φ l : ℝ) : ℝ × ℝ × ℝ := (-(sin φ * cos l), -(sin φ * sin l * cos t) - cos φ * sin t, -(sin φ * sin l * sin t) + cos φ * cos t)

def tiltLon (t φ l : ℝ) : ℝ × ℝ × ℝ := (-(cos φ * sin l), cos φ * cos l * cos t, cos φ * cos l * sin t)

theorem tilt_dt (t φ l : ℝ) : HasDerivAt (fun s => turnTilt s (spherePoint φ l)) (tiltTime t φ l) t := by
  simp only [tiltPoint]
  have h1 : HasDerivAt (fun _ : ℝ => cos φ * cos l) 0 t := hasDerivAt_const _ _
  have h2 : HasDerivAt (fun s => cos φ * sin l * cos s - sin φ * sin s) (-(cos φ * sin l * sin t) - sin φ * cos t) t :=
    (((hasDerivAt_cos t).const_mul (cos φ * sin l)).sub ((hasDerivAt_sin t).const_mul (sin φ))).congr_deriv (by ring)
  have h3 : HasDerivAt (fun s => cos φ * sin l * sin s + sin φ * cos s) (cos φ * sin l * cos t - sin φ * sin t) t :=
    (((hasDerivAt_sin t).const_mul (cos φ * sin l)).add ((hasDerivAt_cos t).const_mul (sin φ))).congr_deriv (by ring)
  exact h1.prodMk (h2.prodMk h3)

theorem tilt_df (t φ l : ℝ) : HasDerivAt (fun x => turnTilt t (spherePoint x l)) (tiltLat t φ l) φ := by
  simp only [tiltPoint]
  have h1 : HasDerivAt (fun x => cos x * cos l) (-(sin φ * cos l)) φ := ((hasDerivAt_cos φ).mul_const (cos l)).congr_deriv (by ring)
  have h2 : HasDerivAt (fun x => cos x * sin l * cos t - sin x * sin t) (-(sin φ * sin l * cos t) - cos φ * sin t) φ :=
    ((((hasDerivAt_cos φ).mul_const (sin l)).mul_const (cos t)).sub ((hasDerivAt_sin φ).mul_const (sin t))).congr_deriv (by ring)
  have h3 : HasDerivAt (fun x => cos x * sin l * sin t + sin x * cos t) (-(sin φ * sin l * sin t) + cos φ * cos t) φ :=
    ((((hasDerivAt_cos φ).mul_const (sin l)).mul_const (sin t)).add ((hasDerivAt_sin φ).mul_const (cos t))).congr_deriv (by ring)
  exact h1.prodMk (h2.prodMk h3)

theorem tilt_dl (t φ l : ℝ) : HasDerivAt (fun x => turnTilt t (spherePoint φ x)) (tiltLon t φ l) l := by
  simp only [tiltPoint]
  have h1 : HasDerivAt (fun x => cos φ * cos x) (-(cos φ * sin l)) l := ((hasDerivAt_cos l).const_mul (cos φ)).congr_deriv (by ring)
  have h2 : HasDerivAt (fun x => cos φ * sin x * cos t - sin φ * sin t) (cos φ * cos l * cos t) l :=
    ((((hasDerivAt_sin l).const_mul (cos φ)).mul_const (cos t)).sub_const (sin φ * sin t)).congr_deriv (by ring)
  have h3 : HasDerivAt (fun x => cos φ * sin x * sin t + sin φ * cos t) (cos φ * cos l * sin t) l :=
    ((((hasDerivAt_sin l).const_mul (cos φ)).mul_const (sin t)).add_const (sin φ * cos t)).congr_deriv (by ring)
  exact h1.prodMk (h2.prodMk h3)

theorem tilt_continuous : Continuous fun p : ℝ × ℝ × ℝ => turnTilt p.1 (spherePoint p.2.1 p.2.2) := by
  unfold turnTilt spherePoint
  fun_prop

/-- A field carried by the air of a sphere that rotates about an axis through the equator. -/
def tilting (a : ℝ) (f : ℝ × ℝ × ℝ → ℝ) : Motion where
  q := fun t φ l => f (turnTilt t (spherePoint φ l))
  qt := fun t φ l => fderiv ℝ f (turnTilt t (spherePoint φ l)) (tiltTime t φ l)
  qf := fun t φ l => fderiv ℝ f (turnTilt t (spherePoint φ l)) (tiltLat t φ l)
  ql := fun t φ l => fderiv ℝ f (turnTilt t (spherePoint φ l)) (tiltLon t φ l)
  U := fun _ φ l => a * (sin φ * cos l)
  Ul := fun _ φ l => -(a * (sin φ * sin l))
  V := fun _ _ l => -(a * sin l)
  Vf := fun _ φ l => a * (sin φ * sin l)
  S := fun _ _ _ => 0

theorem tilting_obeys (a : ℝ) (hf : ContDiff ℝ 1 f) : (tilting a f).Obeys a where
  dt := fun t φ l => (hf.differentiable one_ne_zero).differentiableAt.hasFDerivAt.comp_hasDerivAt t (tilt_dt t φ l)
  df := fun t φ l => (hf.differentiable one_ne_zero).differentiableAt.hasFDerivAt.comp_hasDerivAt φ (tilt_df t φ l)
  dl := fun t φ l => (hf.differentiable one_ne_zero).differentiableAt.hasFDerivAt.comp_hasDerivAt l (tilt_dl t φ l)
  dU := fun t φ l => (((hasDerivAt_cos l).const_mul (sin φ)).const_mul a).congr_deriv (by
    show a * (sin φ * -sin l) = -(a * (sin φ * sin l))
    ring)
  dV := fun t φ l => ((hasDerivAt_cos φ).const_mul (-(a * sin l))).congr_deriv (by
    show -(a * sin l) * -sin φ = a * (sin φ * sin l)
    ring)
  cq := hf.continuous.comp tilt_continuous
  cqt := ((hf.continuous_fderiv one_ne_zero).comp tilt_continuous).clm_apply (by unfold tiltTime; fun_prop)
  cqf := ((hf.continuous_fderiv one_ne_zero).comp tilt_continuous).clm_apply (by unfold tiltLat; fun_prop)
  cql := ((hf.continuous_fderiv one_ne_zero).comp tilt_continuous).clm_apply (by unfold tiltLon; fun_prop)
  cU := by show Continuous fun p : ℝ × ℝ × ℝ => a * (sin p.2.1 * cos p.2.2); fun_prop
  cUl := by show Continuous fun p : ℝ × ℝ × ℝ => -(a * (sin p.2.1 * sin p.2.2)); fun_prop
  cV := by show Continuous fun p : ℝ × ℝ × ℝ => -(a * sin p.2.2); fun_prop
  cVf := by show Continuous fun p : ℝ × ℝ × ℝ => a * (sin p.2.1 * sin p.2.2); fun_prop
  cS := by show Continuous fun _ : ℝ × ℝ × ℝ => (0 : ℝ); fun_prop
  mass := fun t φ l _ _ => by
    show -(a * (sin φ * sin l)) + a * (sin φ * sin l) = 0
    ring
  law := fun t φ l _ _ => by
    show a * cos φ * fderiv ℝ f (turnTilt t (spherePoint φ l)) (tiltTime t φ l) +
        a * (sin φ * cos l) * fderiv ℝ f (turnTilt t (spherePoint φ l)) (tiltLon t φ l) +
      -(a * sin l) * cos φ * fderiv ℝ f (turnTilt t (spherePoint φ l)) (tiltLat t φ l) = a * cos φ * 0
    have e : (a * cos φ) • tiltTime t φ l + (a * (sin φ * cos l)) • tiltLon t φ l + (-(a * sin l) * cos φ) • tiltLat t φ l = 0 := by
      have hl := sin_sq_add_cos_sq l
      unfold tiltTime tiltLon tiltLat
      simp only [Prod.smul_mk, Prod.mk_add_mk, smul_eq_mul, Prod.mk_eq_zero]
      refine ⟨by ring, ?_, ?_⟩
      · linear_combination (a * cos φ * sin φ * cos t) * hl
      · linear_combination (a * cos φ * sin φ * sin t) * hl
    have := congrArg (fderiv ℝ f (turnTilt t (spherePoint φ l))) e
    rw [map_add, map_add, map_smul, map_smul, map_smul, map_zero] at this
    rw [mul_zero]
    exact this
  periodicq := fun t φ l => by
    show f (turnTilt t (spherePoint φ (l + 2 * π))) = f (turnTilt t (spherePoint φ l))
    unfold spherePoint
    rw [cos_add_two_pi, sin_add_two_pi]
  periodicU := fun t φ l => by
    show a * (sin φ * cos (l + 2 * π)) = a * (sin φ * cos l)
    rw [cos_add_two_pi]

/-! ## Rotations leave enclosed areas alone -/

theorem onSphere_continuous (hf : Continuous f) : Continuous fun p : ℝ × ℝ => onSphere f p.1 p.2 := by
  unfold onSphere spherePoint
  exact hf.comp (by fun_prop)

theorem onSphere_periodic (f : ℝ × ℝ × ℝ → ℝ) (x l : ℝ) : onSphere f x (l + 2 * π) = onSphere f x l := by
  unfold onSphere spherePoint
  rw [cos_add_two_pi, sin_add_two_pi]

theorem onSphere_polar (f : ℝ × ℝ × ℝ → ℝ) (α : ℝ) : (onSphere fun p => f (turnPolar α p)) = fun x l => onSphere f x (l + α) := by
  funext x l
  unfold onSphere turnPolar spherePoint
  simp only
  rw [cos_add, sin_add]
  congr 1
  ext <;> simp only <;> ring

theorem turnPolar_smooth (α : ℝ) : ContDiff ℝ 1 (turnPolar α) := by
  unfold turnPolar
  fun_prop

theorem turnTilt_smooth (β : ℝ) : ContDiff ℝ 1 (turnTilt β) := by
  unfold turnTilt
  fun_prop

theorem turnTilt_zero (p : ℝ × ℝ × ℝ) : turnTilt 0 p = p := by
  unfold turnTilt
  simp

/-- **C206 on the sphere.** The value whose contour encloses a given area is the same for a smooth field and for the rotated field. -/
theorem C206_sphere (hf : ContDiff ℝ 1 f) (α β γ T v : ℝ) (h : Encloses a (onSphere f) (-(π / 2)) (π / 2) T v) :
    Encloses a (onSphere fun p => f (turn α β γ p)) (-(π / 2)) (π / 2) T v := by
  have s1 : ContDiff ℝ 1 fun p => f (turnPolar α p) := hf.comp (turnPolar_smooth α)
  have h1 : Encloses a (onSphere fun p => f (turnPolar α p)) (-(π / 2)) (π / 2) T v := by
    rw [onSphere_polar]
    exact encloses_turned (onSphere_continuous hf.continuous) (onSphere_periodic f) h
  have h2 : Encloses a (onSphere fun p => f (turnPolar α (turnTilt β p))) (-(π / 2)) (π / 2) T v := by
    have := C179_sphere (tilting_obeys a s1) (fun _ _ _ => rfl) 0 β T v (by
      have e : (tilting a fun p => f (turnPolar α p)).q 0 = onSphere fun p => f (turnPolar α p) := by
        funext x l
        show f (turnPolar α (turnTilt 0 (spherePoint x l))) = f (turnPolar α (spherePoint x l))
        rw [turnTilt_zero]
      rw [e]
      exact h1)
    exact this
  have s2 : ContDiff ℝ 1 fun p => f (turnPolar α (turnTilt β p)) := s1.comp (turnTilt_smooth β)
  have e : (onSphere fun p => f (turn α β γ p)) = fun x l => onSphere (fun p => f (turnPolar α (turnTilt β p))) x (l + γ) :=
    onSphere_polar (fun p => f (turnPolar α (turnTilt β p))) γ
  rw [e]
  exact encloses_turned (onSphere_continuous s2.continuous) (onSphere_periodic _) h2

theorem cap_inside (ha : 0 < a) (h1 : φ < π / 2) (h2 : -(π / 2) < φ) {q : ℝ → ℝ → ℝ} (hq : Continuous fun p : ℝ × ℝ => q p.1 p.2) :
    ∃ v, Encloses a q (-(π / 2)) (π / 2) (southCap a φ) v := by
  have hpi := pi_pos
  have hA : 0 < 2 * π * a ^ 2 := by positivity
  have b1 : -1 < sin φ := by
    rw [← sin_pi_div_two, ← sin_neg]; exact sin_lt_sin_of_lt_of_le_pi_div_two le_rfl h1.le h2
  have b2 : sin φ < 1 := by
    rw [← sin_pi_div_two]; exact sin_lt_sin_of_lt_of_le_pi_div_two h2.le le_rfl h1
  obtain ⟨v, hv, -⟩ := C159_reference_exists (T := southCap a φ) ha hq le_rfl (by linarith) le_rfl
    (by unfold southCap; exact mul_pos hA (by linarith))
    (by unfold southCap; rw [sin_neg, sin_pi_div_two]; exact mul_lt_mul_of_pos_left (by linarith) hA)
  exact ⟨v, hv⟩

/-- What `BarotropicField(...).equivalent_latitudes` gives for the field sampled on a regular grid. -/
def GivesProfile (a : ℝ) (q : ℝ → ℝ → ℝ) (nlat nlon : ℕ) (np : Option ℕ) (Q : ℕ → ℝ) : Prop :=
  (baroStep (baroInit nlat nlon (regularLat nlat) a false none none np) (baroFresh (sampled q nlat nlon)) .readEqv).2 = .eqv (.ok Q)

/-- **C206.** A smooth field and the field rotated by any angles are analysed, each on ever finer grids of its own. At rows that tend to the same latitude
`equivalent_latitudes` has the same limit for both. -/
theorem C206_profile (ha : 0 < a) (hf : ContDiff ℝ 1 f) (α β γ : ℝ) {nlat nlon nlat' nlon' : ℕ → ℕ} {np np' : ℕ → Option ℕ} {j j' : ℕ → ℕ}
    (hG : Finer nlat nlon np j φ) (hG' : Finer nlat' nlon' np' j' φ) {Q Q' : ℕ → ℕ → ℝ}
    (hQ : ∀ i, GivesProfile a (onSphere f) (nlat i) (nlon i) (np i) (Q i))
    (hQ' : ∀ i, GivesProfile a (onSphere fun p => f (turn α β γ p)) (nlat' i) (nlon' i) (np' i) (Q' i)) :
    ∃ v, Tendsto (fun i => Q i (j i)) atTop (nhds v) ∧ Tendsto (fun i => Q' i (j' i)) atTop (nhds v) := by
  have c1 := onSphere_continuous hf.continuous
  have c2 : Continuous fun p => f (turn α β γ p) :=
    hf.continuous.comp ((turnPolar_smooth α).continuous.comp ((turnTilt_smooth β).continuous.comp (turnPolar_smooth γ).continuous))
  obtain ⟨v, hv⟩ := cap_inside ha hG.north hG.south c1
  exact ⟨v, C159_profile ha c1 hG.rows hG.columns hG.parts hG.moreRows hG.moreColumns hG.moreParts (fun i => (Nat.lt_succ_self _).trans (hG.row i))
      hG.toward hG.north hG.south hv hQ,
    C159_profile ha (onSphere_continuous c2) hG'.rows hG'.columns hG'.parts hG'.moreRows hG'.moreColumns hG'.moreParts
      (fun i => (Nat.lt_succ_self _).trans (hG'.row i)) hG'.toward hG'.north hG'.south (C206_sphere hf α β γ _ _ hv) hQ'⟩

/-! ## Solid body rotation about a tilted axis -/

theorem solid_encloses (ha : 0 < a) (h1 : -(π / 2) < φ) (h2 : φ < π / 2) :
    Encloses a (onSphere fun p => p.2.2) (-(π / 2)) (π / 2) (southCap a φ) (sin φ) := by
  have := encloses_reflect (falling_encloses a ha h1 h2)
  simp only [sin_neg, neg_neg] at this
  exact this

/-- Vorticity of air that rotates as a solid body about an axis tilted by `β`. -/
def leaning (β : ℝ) : ℝ → ℝ → ℝ := onSphere fun p => (turn 0 β 0 p).2.2

theorem leaning_eq (β x l : ℝ) : leaning β x l = sin x * cos β + cos x * sin l * sin β := by
  unfold leaning onSphere turn turnPolar turnTilt spherePoint
  simp only [cos_zero, sin_zero]
  ring

theorem leaning_encloses (ha : 0 < a) (β : ℝ) (h1 : -(π / 2) < φ) (h2 : φ < π / 2) :
    Encloses a (leaning β) (-(π / 2)) (π / 2) (southCap a φ) (sin φ) :=
  C206_sphere (f := fun p : ℝ × ℝ × ℝ => p.2.2) (by fun_prop) 0 β 0 _ _ (solid_encloses ha h1 h2)

theorem leaning_continuous (β : ℝ) : Continuous fun p : ℝ × ℝ => leaning β p.1 p.2 := by
  simp only [leaning_eq]
  fun_prop

theorem leaning_slope (β : ℝ) : SlopeBound (leaning β) 2 1 := by
  intro p _ p' _
  rw [leaning_eq, leaning_eq]
  have a1 := abs_sin_sub_sin_le p.1 p'.1
  have a2 := abs_cos_sub_cos_le p.1 p'.1
  have a3 := abs_sin_sub_sin_le p.2 p'.2
  have b1 := abs_cos_le_one β
  have b2 := abs_sin_le_one β
  have b3 := abs_sin_le_one p.2
  have b4 := abs_cos_le_one p'.1
  have e : sin p.1 * cos β + cos p.1 * sin p.2 * sin β - (sin p'.1 * cos β + cos p'.1 * sin p'.2 * sin β) =
      (sin p.1 - sin p'.1) * cos β + (cos p.1 - cos p'.1) * sin p.2 * sin β + cos p'.1 * (sin p.2 - sin p'.2) * sin β := by ring
  rw [e]
  refine (abs_add_three _ _ _).trans ?_
  simp only [abs_mul]
  have c1 : |sin p.1 - sin p'.1| * |cos β| ≤ |p.1 - p'.1| := by
    simpa using mul_le_mul a1 b1 (abs_nonneg _) (abs_nonneg _)
  have c2 : |cos p.1 - cos p'.1| * |sin p.2| * |sin β| ≤ |p.1 - p'.1| := by
    have := mul_le_mul (mul_le_mul a2 b3 (abs_nonneg _) (abs_nonneg _)) b2 (abs_nonneg _) (by positivity)
    simpa using this
  have c3 : |cos p'.1| * |sin p.2 - sin p'.2| * |sin β| ≤ |p.2 - p'.2| := by
    have := mul_le_mul (mul_le_mul b4 a3 (abs_nonneg _) zero_le_one) b2 (abs_nonneg _) (by positivity)
    simpa using this
  linarith

/-- **C206 (tilted solid body rotation).** On every regular grid `equivalent_latitudes` of air that rotates as a solid body about a tilted axis is, between the
poles, that of rotation about the axis of the planet, up to an explicit amount that is the same for all angles. -/
theorem C206_leaning (ha : 0 < a) (β : ℝ) {N M j : ℕ} {np : Option ℕ} {Q : ℕ → ℝ} (hN : 2 ≤ N) (hM : 1 ≤ M) (hnp : 2 ≤ np.getD (N + 1))
    (hQ : GivesProfile a (leaning β) (N + 1) M np Q) (h0 : 0 < j) (hj : j < N) :
    |Q j - sin (-(π / 2) + j * (π / N))| ≤ π / N + gridError 2 1 N M (np.getD (N + 1)) := by
  have := C205_profile (leaning_continuous β) (leaning_slope β) (by norm_num) (by norm_num) hN hM ha hnp hQ h0 hj (P := sin) (B := 1) zero_le_one
    (fun x hx => leaning_encloses ha β hx.1 hx.2) (fun x _ y _ => by rw [one_mul]; exact abs_sin_sub_sin_le x y)
  rwa [one_mul] at this

/-- Hypotheses of `C206_sphere` and `C206_profile`: a product of all three coordinates plus the third, rows at 45°N. -/
example (α β γ : ℝ) : ContDiff ℝ 1 (fun p : ℝ × ℝ × ℝ => p.1 * p.2.1 * p.2.2 + p.2.2) ∧
    (∃ v, Encloses 1 (onSphere fun p => p.1 * p.2.1 * p.2.2 + p.2.2) (-(π / 2)) (π / 2) (southCap 1 (π / 4)) v) ∧
    Finer (fun i => 4 * (i + 2) + 1) (fun i => i + 1) (fun _ => none) (fun i => 3 * (i + 2)) (π / 4) ∧
    (∀ i : ℕ, ∃ Q, GivesProfile 1 (onSphere fun p => p.1 * p.2.1 * p.2.2 + p.2.2) (4 * (i + 2) + 1) (i + 1) none Q) ∧
    ∀ i : ℕ, ∃ Q, GivesProfile 1 (onSphere fun p => (turn α β γ p).1 * (turn α β γ p).2.1 * (turn α β γ p).2.2 + (turn α β γ p).2.2) (4 * (i + 2) + 1)
      (i + 1) none Q := by
  have hpi := pi_pos
  have g : ∀ (q : ℝ → ℝ → ℝ) (i : ℕ), ∃ Q, GivesProfile 1 q (4 * (i + 2) + 1) (i + 1) none Q := fun q i => by
    obtain ⟨Q, h, -⟩ := barotropic_grid one_pos (by omega : 3 ≤ 4 * (i + 2) + 1) (by omega : 1 ≤ i + 1) none (by show 2 ≤ 4 * (i + 2) + 1; omega) q
    exact ⟨Q, h⟩
  exact ⟨by fun_prop, cap_inside one_pos (by linarith) (by linarith) (onSphere_continuous (by fun_prop)), quarter_finer, g _, g _⟩

/-- Hypotheses of `C206_leaning`: four intervals of latitude, eight columns. -/
example (β : ℝ) : ∃ Q, GivesProfile 1 (leaning β) (4 + 1) 8 none Q := by
  obtain ⟨Q, h, -⟩ := barotropic_grid one_pos (by norm_num : 3 ≤ 4 + 1) (by norm_num : 1 ≤ 8) none (by simp) (leaning β)
  exact ⟨Q, h⟩

end Falwa

end
