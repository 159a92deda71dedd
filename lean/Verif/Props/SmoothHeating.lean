import Verif.Props.SmoothSource
import Verif.Props.Heating

/-!
# C178: forcing and non-conservative contribution of a smooth heating rate
-/

noncomputable section

namespace Falwa

open Real Finset Spec MeasureTheory Filter

theorem heatingTendency_continuous {N S : Layers} {om H : ℝ}
    (hN : Continuous fun p : ℝ × ℝ × ℝ => N.g p.1 p.2.1 p.2.2) (hS : Continuous fun p : ℝ × ℝ × ℝ => S.g p.1 p.2.1 p.2.2) :
    Continuous fun p : ℝ × ℝ × ℝ => heatingTendency om H N S p.1 p.2.1 p.2.2 := by
  have e : (fun p : ℝ × ℝ × ℝ => heatingTendency om H N S p.1 p.2.1 p.2.2) = fun p =>
      (if p.1 ≤ 0 then 2 * om * sin p.1 * (exp (p.2.2 / H) * S.g p.1 p.2.1 p.2.2) else
        2 * om * sin p.1 * (exp (p.2.2 / H) * N.g p.1 p.2.1 p.2.2)) := by
    funext p
    unfold heatingTendency
    split_ifs <;> rfl
  rw [e]
  refine Continuous.if_le (by fun_prop) (by fun_prop) (by fun_prop) (by fun_prop) fun p hp => ?_
  rw [hp, sin_zero]
  ring

namespace Atmos

variable {F : Flow} {θ : ℝ → ℝ → ℝ → ℝ} {N S KN KS : Layers} {A : ℕ → Atmos} {ε e : ℕ → ℝ} {a om H top : ℝ} {c : Scheme}
variable {φ l : ℝ} {v : ℝ → ℝ} {g x : ℕ → ℤ} {η : ℝ → ℝ → ℝ → ℝ} {q : ℕ → ℤ → ℤ → ℤ → ℝ}

/-- The heating rate on the levels of the analysis is `η` up to `ε`. -/
def HeatedBy (A : Atmos) (q : ℤ → ℤ → ℤ → ℝ) (η : ℝ → ℝ → ℝ → ℝ) (ε : ℝ) : Prop :=
  ∀ i j k, A.sphere.Mem i j → 1 ≤ k → k ≤ A.kmax →
    |A.heating q i j k - η (A.sphere.latitude j) (A.sphere.longitude i) (A.height k)| ≤ ε

/-- The forcing of the code, for stabilities within `ε` of those of `KN` and `KS`. -/
theorem force_limit (hKN : KN.Of η H top) (hKS : KS.Of η H top) (hN0 : ∀ z, KN.mean z = 0) (hS0 : ∀ z, KS.mean z = 0)
    (hA : Refines a om H top A) (hq : ∀ n, (A n).HeatedBy (q n) η (ε n))
    (hsN : ∀ n k, 1 ≤ k → k ≤ (A n).kmax → |(A n).storedStatN c k - KN.stability ((A n).height k)| ≤ ε n)
    (hsS : ∀ n k, 1 ≤ k → k ≤ (A n).kmax → |(A n).storedStatS c k - KS.stability ((A n).height k)| ≤ ε n)
    (hεN : ∀ n, 2 * ε n ≤ KN.s) (hεS : ∀ n, 2 * ε n ≤ KS.s) (hε : Tendsto (fun n => ε n / (A n).dz) atTop (nhds 0)) :
    ∃ e : ℕ → ℝ, Tendsto e atTop (nhds 0) ∧ ∀ n i j k, (A n).sphere.Mem i j → 2 ≤ k → k ≤ (A n).kmax - 1 →
      |(A n).heatingForce c (q n) i j k - heatingTendency om H KN KS ((A n).sphere.latitude j) ((A n).sphere.longitude i)
        ((A n).height k)| ≤ e n := by
  set CN : ℝ := 2 / KN.s + 2 * KN.M / KN.s ^ 2 with hCN
  set CS : ℝ := 2 / KS.s + 2 * KS.M / KS.s ^ 2 with hCS
  have hdzs : Tendsto (fun n => (A n).dz ^ 2) atTop (nhds 0) := by
    have := hA.levels.pow 2
    rwa [zero_pow two_ne_zero] at this
  refine ⟨fun n => |2 * om| * exp (top / H) * ((KN.D * (A n).dz ^ 2 + CN * (ε n / (A n).dz)) +
    (KS.D * (A n).dz ^ 2 + CS * (ε n / (A n).dz))), ?_, ?_⟩
  · have := (((hdzs.const_mul KN.D).add (hε.const_mul CN)).add ((hdzs.const_mul KS.D).add (hε.const_mul CS))).const_mul
      (|2 * om| * exp (top / H))
    simpa using this
  intro n i j k hm k1 k2
  have hm1 : 1 ≤ i ∧ i ≤ (A n).nlon := hm.1
  have hm2 : 1 ≤ j ∧ j ≤ (A n).nlat := hm.2
  have hz := hA.height_mem n (k := k) (by omega) (by omega)
  have hodd := (hA.regular n).odd
  have hl3 : 3 ≤ (A n).nlat := by have := (hA.regular n).nd3; omega
  rw [heatingForce_eq c (q n) hl3 hodd hm1.1 hm2.1 hm2.2 k1 k2, hA.rotation n, lat_sphere (hA.regular n)]
  unfold heatingTendency
  set φ := (A n).lat j with hφ
  set l := (A n).sphere.longitude i with hl
  have hf : |2 * om * sin φ| ≤ |2 * om| := by
    rw [abs_mul]
    exact mul_le_of_le_one_right (abs_nonneg _) (abs_sin_le_one _)
  have hε0 : 0 ≤ ε n := (abs_nonneg _).trans (hsN n k (by omega) (by omega))
  have hdz := hA.dz0 n
  have pos : ∀ L : Layers, L.Of η H top → 0 ≤ L.D * (A n).dz ^ 2 + (2 / L.s + 2 * L.M / L.s ^ 2) * (ε n / (A n).dz) := by
    intro L hL
    have hD := (hL.smooth φ l).nonneg
    have hM : 0 ≤ L.M := (abs_nonneg _).trans (hL.anomaly φ l _ hz.1 hz.2)
    have := hL.s0
    positivity
  have key : ∀ L : Layers, L.Of η H top → (∀ z, L.mean z = 0) → 2 * ε n ≤ L.s → ∀ stat : ℤ → ℝ,
      (∀ k, 1 ≤ k → k ≤ (A n).kmax → |stat k - L.stability ((A n).height k)| ≤ ε n) →
      |(A n).centredStretch (2 * om * sin φ) (fun k => (A n).heating (q n) i j k) stat k -
        2 * om * sin φ * (exp ((A n).height k / H) * L.g φ l ((A n).height k))| ≤
      |2 * om| * exp (top / H) * (L.D * (A n).dz ^ 2 + (2 / L.s + 2 * L.M / L.s ^ 2) * (ε n / (A n).dz)) := by
    intro L hL hL0 hLε stat hs
    have es : (A n).centredStretch (2 * om * sin φ) (fun k => (A n).heating (q n) i j k) stat k =
        stretching (2 * om * sin φ) H (A n).dz (fun k => η φ l ((A n).height k))
          (fun k => η φ l ((A n).height k) - (A n).heating (q n) i j k) stat k := by
      unfold centredStretch stretching height
      rw [hA.scale n, show k + 1 - 1 = k by ring, show k - 1 - 1 = k - 2 by ring]
      simp only [sub_sub_cancel]
      ring
    rw [es]
    refine (stretching_error (K := (A n).kmax) hL hA.scale0 hdz hLε k1 k2 (hA.top n) (fun k _ _ => rfl)
      (fun k a1 a2 => ?_) hs).trans ?_
    · have := hq n i j k hm a1 a2
      rw [hL0, sub_zero, abs_sub_comm]
      rwa [lat_sphere (hA.regular n)] at this
    · exact mul_le_mul_of_nonneg_right (mul_le_mul_of_nonneg_right hf (exp_pos _).le) (pos L hL)
  have hw : 0 ≤ |2 * om| * exp (top / H) := by positivity
  have pN := mul_nonneg hw (pos KN hKN)
  have pS := mul_nonneg hw (pos KS hKS)
  rcases lt_trichotomy j (A n).nd with hj | hj | hj
  · have hφ0 : φ ≤ 0 := by
      rw [hφ, ← lat_sphere (hA.regular n)]
      exact (row_south (hA.regular n) j).2 hj.le
    have hst : (A n).forceStability c j = (A n).storedStatS c := funext fun k => by unfold forceStability; rw [if_pos hj]
    rw [if_pos hφ0, hst]
    have := key KS hKS hS0 (hεS n) _ (hsS n)
    linarith
  · have hφ0 : φ = 0 := by
      rw [hφ]
      unfold lat
      rw [hj, sub_self, Int.cast_zero, mul_zero]
    have : (A n).centredStretch (2 * om * sin φ) (fun k => (A n).heating (q n) i j k) ((A n).forceStability c j) k = 0 := by
      unfold centredStretch
      rw [hφ0, sin_zero]
      ring
    rw [this, hφ0, sin_zero, mul_zero, zero_mul, sub_self, abs_zero]
    linarith
  · have hφ0 : ¬ φ ≤ 0 := fun h => by
      rw [hφ, ← lat_sphere (hA.regular n)] at h
      exact absurd ((row_south (hA.regular n) j).1 h) (by omega)
    have hst : (A n).forceStability c j = (A n).storedStatN c := funext fun k => by
      unfold forceStability
      rw [if_neg (by omega), if_neg (by omega)]
    rw [if_neg hφ0, hst]
    have := key KN hKN hN0 (hεN n) _ (hsN n)
    linarith

/-- **C178 (forcing).** The forcing that `compute_ncforce_from_heating_rate` returns for samples of a smooth heating rate tends to
`f exp(z/H) ∂/∂z (exp(-z/H) q / stability)`, uniformly in rows, columns and all levels but the lowest and the highest. -/
theorem C178_force (hA : Refines a om H top A) (hO : ∀ n, (A n).Observes F θ N S (ε n)) (hq : ∀ n, (A n).HeatedBy (q n) η (ε n))
    (hε : Tendsto (fun n => ε n / (A n).dz) atTop (nhds 0)) :
    (KN.Heated N η H top → KS.Heated S η H top → (∀ n, 2 * ε n ≤ KN.s) → (∀ n, 2 * ε n ≤ KS.s) →
      ∃ e : ℕ → ℝ, Tendsto e atTop (nhds 0) ∧ ∀ n i j k, (A n).sphere.Mem i j → 2 ≤ k → k ≤ (A n).kmax - 1 →
        |(A n).heatingForce .nhn22 (q n) i j k - heatingTendency om H KN KS ((A n).sphere.latitude j) ((A n).sphere.longitude i)
          ((A n).height k)| ≤ e n) ∧
    ∀ L K : Layers, (∀ z, L.stability z = (N.stability z + S.stability z) / 2) → K.Heated L η H top → (∀ n, 2 * ε n ≤ K.s) →
      ∃ e : ℕ → ℝ, Tendsto e atTop (nhds 0) ∧ ∀ n i j k, (A n).sphere.Mem i j → 2 ≤ k → k ≤ (A n).kmax - 1 →
        |(A n).heatingForce .nh18 (q n) i j k - heatingTendency om H K K ((A n).sphere.latitude j) ((A n).sphere.longitude i)
          ((A n).height k)| ≤ e n := by
  constructor
  · intro hN hS h1 h2
    refine force_limit (c := .nhn22) hN.of hS.of hN.mean hS.mean hA hq (fun n k a1 a2 => ?_) (fun n k a1 a2 => ?_) h1 h2 hε
    · rw [hN.stability]; exact (hO n).statN k a1 a2
    · rw [hS.stability]; exact (hO n).statS k a1 a2
  · intro L K hL hK h1
    have hs : ∀ n k, 1 ≤ k → k ≤ (A n).kmax → |(A n).stat k - K.stability ((A n).height k)| ≤ ε n := fun n k a1 a2 => by
      have hn := (hO n).statN k a1 a2
      have hs := (hO n).statS k a1 a2
      rw [hK.stability, hL]
      rw [abs_le] at hn hs ⊢
      have e : (A n).stat k = 0.5 * ((A n).statS k + (A n).statN k) := rfl
      rw [e]
      constructor <;> linarith
    exact force_limit (c := .nh18) hK.of hK.of hK.mean hK.mean hA hq hs hs h1 h1 hε

/-- **C178, `QGFieldNHN22`.** `ncforce_baro` with the forcing of a smooth heating rate, in both hemispheres. -/
theorem C178_nhn22 (hF : F.IsCurl a top) (hN : N.Of θ H top) (hS : S.Of θ H top)
    (hNg : Continuous fun p : ℝ × ℝ × ℝ => N.g p.1 p.2.1 p.2.2) (hSg : Continuous fun p : ℝ × ℝ × ℝ => S.g p.1 p.2.1 p.2.2)
    (hA : Refines a om H top A) (hlast : ∀ n, (A n).height (A n).kmax = top) (hO : ∀ n, (A n).Observes F θ N S (ε n))
    (hεN : ∀ n, 2 * ε n ≤ N.s) (hεS : ∀ n, 2 * ε n ≤ S.s) (hε : Tendsto (fun n => ε n / (A n).dz) atTop (nhds 0))
    (hq : ∀ n, (A n).HeatedBy (q n) η (ε n)) (hKN : KN.Heated N η H top) (hKS : KS.Heated S η H top)
    (hKNg : Continuous fun p : ℝ × ℝ × ℝ => KN.g p.1 p.2.1 p.2.2) (hKSg : Continuous fun p : ℝ × ℝ × ℝ => KS.g p.1 p.2.1 p.2.2)
    (hεKN : ∀ n, 2 * ε n ≤ KN.s) (hεKS : ∀ n, 2 * ε n ≤ KS.s)
    (hforce : ∀ n i j k, (A n).sphere.Mem i j → 2 ≤ k → k ≤ (A n).kmax - 1 → (A n).ncforce i j k = (A n).heatingForce .nhn22 (q n) i j k)
    (hcr : CrossesContours top (F.qgpv om H N S) l v) :
    (WaveNorth a top (F.qgpv om H N S) φ v → TowardNorth A x g l φ →
      Tendsto (fun n => ((A n).analysis .nhn22).ncforceBaro (x n) (g n)) atTop (nhds (columnMean H top fun z => meridionalSource a
        (fun y => F.qgpv om H N S y l z) (fun y => heatingTendency om H KN KS y l z) (v z) 0 (π / 2) φ))) ∧
    (WaveSouth a top (F.qgpv om H N S) φ v → TowardSouth A x g l φ →
      Tendsto (fun n => ((A n).analysis .nhn22).ncforceBaro (x n) (g n)) atTop (nhds (columnMean H top fun z => meridionalSource a
        (fun y => F.qgpv om H N S y l z) (fun y => heatingTendency om H KN KS y l z) (v z) (-(π / 2)) 0 φ))) := by
  obtain ⟨e, he, hb⟩ := (C178_force hA hO hq hε).1 hKN hKS hεKN hεKS
  exact C177_nhn22 hF hN hS hNg hSg hA hlast hO hεN hεS hε (heatingTendency_continuous hKNg hKSg)
    (fun n i j k hm k1 k2 => by rw [hforce n i j k hm k1 k2]; exact hb n i j k hm k1 k2) he hcr

/-- **C178, `QGFieldNH18`.** The same with the mean stability of both hemispheres. -/
theorem C178_nh18 {L K : Layers} {B : ℝ} (hF : F.IsCurl a top)
    (hL : L.Of θ H top) (hLg : Continuous fun p : ℝ × ℝ × ℝ => L.g p.1 p.2.1 p.2.2)
    (hmean : ∀ z, L.mean z = (N.mean z + S.mean z) / 2) (hstat : ∀ z, L.stability z = (N.stability z + S.stability z) / 2)
    (hB : ∀ φ l z, 0 ≤ z → z ≤ top → |L.g φ l z| ≤ B)
    (hA : Refines a om H top A) (hlast : ∀ n, (A n).height (A n).kmax = top) (hO : ∀ n, (A n).Observes F θ N S (ε n))
    (hεL : ∀ n, 2 * ε n ≤ L.s) (hε : Tendsto (fun n => ε n / (A n).dz) atTop (nhds 0))
    (hp : Tendsto (fun n => (A n).npart) atTop atTop)
    (hq : ∀ n, (A n).HeatedBy (q n) η (ε n)) (hK : K.Heated L η H top) (hKg : Continuous fun p : ℝ × ℝ × ℝ => K.g p.1 p.2.1 p.2.2)
    (hεK : ∀ n, 2 * ε n ≤ K.s)
    (hforce : ∀ n i j k, (A n).sphere.Mem i j → 2 ≤ k → k ≤ (A n).kmax - 1 → (A n).ncforce i j k = (A n).heatingForce .nh18 (q n) i j k)
    (hcr : CrossesContours top (F.qgpvZonal om H L) l v) :
    (WaveNorth a top (F.qgpvZonal om H L) φ v → TowardNorth A x g l φ →
      Tendsto (fun n => ((A n).analysis .nh18).ncforceBaro (x n) (g n)) atTop (nhds (columnMean H top fun z => meridionalSource a
        (fun y => F.qgpvZonal om H L y l z) (fun y => heatingTendency om H K K y l z) (v z) 0 (π / 2) φ))) ∧
    (WaveSouth a top (F.qgpvZonal om H L) φ v → TowardSouth A x g l φ →
      Tendsto (fun n => ((A n).analysis .nh18).ncforceBaro (x n) (g n)) atTop (nhds (columnMean H top fun z => meridionalSource a
        (fun y => F.qgpvZonal om H L y l z) (fun y => heatingTendency om H K K y l z) (v z) (-(π / 2)) 0 φ))) := by
  obtain ⟨e, he, hb⟩ := (C178_force (KN := K) (KS := K) hA hO hq hε).2 L K hstat hK hεK
  exact C177_nh18 hF hL hLg hmean hstat hB hA hlast hO hεL hε hp (heatingTendency_continuous hKg hKg)
    (fun n i j k hm k1 k2 => by rw [hforce n i j k hm k1 k2]; exact hb n i j k hm k1 k2) he hcr

/-! ### A sample: the flow across the poles, heated aloft at low latitudes -/

/-- The heating rate. -/
def warming (φ _l z : ℝ) : ℝ := exp z * z * cos φ

/-- Its layers for a stability of 1. -/
def warmLayers : Layers where
  mean := fun _ => 0
  stability := fun _ => 1
  g := fun φ _ _ => cos φ
  dg := fun _ _ _ => 0
  D := 0
  M := exp 1
  s := 1

theorem warmLayers_heated : warmLayers.Heated evenLayers warming 1 1 where
  mean := fun _ => rfl
  stability := fun _ => rfl
  of := {
    smooth := fun φ l => by
      have e : (fun z : ℝ => exp (-z / 1) * ((warming φ l z - 0) / 1)) = fun z => z * cos φ := by
        funext z
        unfold warming
        rw [div_one, div_one, sub_zero, mul_assoc (exp z), ← mul_assoc, ← exp_add, neg_add_cancel, exp_zero, one_mul]
      show Smooth (fun z : ℝ => exp (-z / 1) * ((warming φ l z - 0) / 1)) (fun _ => cos φ) (fun _ => 0) 0
      rw [e]
      refine ⟨fun x => ?_, fun x => hasDerivAt_const x _, fun x y => by simp⟩
      have := (hasDerivAt_id x).mul_const (cos φ)
      rwa [one_mul] at this
    s0 := one_pos
    stable := fun _ _ _ => le_rfl
    anomaly := fun φ l z h0 h1 => by
      show |warming φ l z - 0| ≤ exp 1
      unfold warming
      rw [sub_zero, abs_mul, abs_mul, abs_of_pos (exp_pos z), abs_of_nonneg h0]
      have h3 : exp z * z ≤ exp 1 * 1 := mul_le_mul (exp_le_exp.2 h1) h1 h0 (exp_pos 1).le
      calc exp z * z * |cos φ| ≤ exp z * z := mul_le_of_le_one_right (by positivity) (abs_cos_le_one φ)
        _ ≤ exp 1 := by linarith }

/-- The rate on the levels of the data, which are those of the analysis. -/
def polarHeat (n : ℕ) (i j k : ℤ) : ℝ := warming ((polarFine n).sphere.latitude j) ((polarFine n).sphere.longitude i) ((polarFine n).height k)

theorem polarHeat_sampled (n : ℕ) : (polarFine n).HeatedBy (polarHeat n) warming 0 := fun i j k _ _ _ => by
  have e : (polarFine n).heating (polarHeat n) i j k = polarHeat n i j k := rfl
  rw [e]
  unfold polarHeat
  rw [sub_self, abs_zero]

theorem polarFine_forcing (c : Scheme) (n : ℕ) (i j k : ℤ) (hm : (polarFine n).sphere.Mem i j) (k1 : 2 ≤ k) (k2 : k ≤ (polarFine n).kmax - 1) :
    (polarFine n).ncforce i j k = (polarFine n).heatingForce c (polarHeat n) i j k := by
  have hm1 : 1 ≤ i ∧ i ≤ (polarFine n).nlon := hm.1
  have hm2 : 1 ≤ j ∧ j ≤ (polarFine n).nlat := hm.2
  have hr := polarFine_refines.regular n
  rw [heatingForce_eq c _ (by have := hr.odd; have := hr.nd3; omega) hr.odd hm1.1 hm2.1 hm2.2 k1 k2]
  have e : (polarFine n).ncforce i j k = sin ((polarFine n).sphere.latitude j) *
      (exp ((polarFine n).height k) * cos ((polarFine n).sphere.latitude j)) := rfl
  have hs : ∀ k, (polarFine n).forceStability c j k = 1 := fun k => by
    have e1 : (polarFine n).statN k = 1 := rfl
    have e2 : (polarFine n).statS k = 1 := rfl
    have e3 : (polarFine n).stat k = 0.5 * ((polarFine n).statS k + (polarFine n).statN k) := rfl
    unfold forceStability
    cases c <;> simp only [storedStatN, storedStatS, e1, e2, e3] <;> split_ifs <;> norm_num
  have hh : (polarFine n).h = 1 := rfl
  have ho : (polarFine n).om = 1 / 2 := rfl
  have hd := polarFine_refines.dz0 n
  have hx : ∀ z y : ℝ, exp (-z / 1) * (exp z * z * y) / 1 = z * y := fun z y => by
    rw [div_one, div_one, ← mul_assoc, ← mul_assoc, ← exp_add, neg_add_cancel, exp_zero, one_mul]
  have hq : ∀ k, (polarFine n).heating (polarHeat n) i j k = exp ((polarFine n).height k) * (polarFine n).height k *
    cos ((polarFine n).sphere.latitude j) := fun k => rfl
  unfold centredStretch
  beta_reduce
  rw [e, hs, hs, hh, ho, hq, hq, hx, hx, ← lat_sphere hr, ← sub_mul, height_gap]
  field_simp

/-- Hypotheses of `C178_nhn22`, `C178_nh18` and `C178_force`, at 45°N and 45°S. -/
example : ∃ v w : ℝ → ℝ, ∀ c : Scheme,
    Tendsto (fun n => ((polarFine n).analysis c).ncforceBaro 1 ((polarFine n).nd + (n + 1))) atTop (nhds (columnMean 1 1 fun z =>
      meridionalSource 1 (fun y => polarQ y 0 z) (fun y => heatingTendency (1 / 2) 1 warmLayers warmLayers y 0 z) (v z) 0 (π / 2) (π / 4))) ∧
    Tendsto (fun n => ((polarFine n).analysis c).ncforceBaro 1 ((polarFine n).nd - (n + 1))) atTop (nhds (columnMean 1 1 fun z =>
      meridionalSource 1 (fun y => polarQ y 0 z) (fun y => heatingTendency (1 / 2) 1 warmLayers warmLayers y 0 z) (w z) (-(π / 2)) 0
        (-(π / 4)))) := by
  have hpi := pi_pos
  obtain ⟨v, hv⟩ := polarQ_encloses (φ := π / 4) (by linarith) (by linarith)
  obtain ⟨w, hw⟩ := polarQ_encloses (φ := -(π / 4)) (by linarith) (by linarith)
  have hN : WaveNorth 1 1 polarQ (π / 4) v := ⟨by linarith, by linarith, fun z _ _ => polarQ_high z, fun z _ _ => hv z⟩
  have hS : WaveSouth 1 1 polarQ (-(π / 4)) w := ⟨by linarith, by linarith, fun z _ _ => polarQ_low z, fun z _ _ => hw z⟩
  have hg : Continuous fun p : ℝ × ℝ × ℝ => evenLayers.g p.1 p.2.1 p.2.2 := by
    show Continuous fun p : ℝ × ℝ × ℝ => cos p.1 * cos p.2.1
    fun_prop
  have hk : Continuous fun p : ℝ × ℝ × ℝ => warmLayers.g p.1 p.2.1 p.2.2 := by
    show Continuous fun p : ℝ × ℝ × ℝ => cos p.1
    fun_prop
  have h2 : ∀ _ : ℕ, 2 * (0 : ℝ) ≤ evenLayers.s := fun _ => by show 2 * (0 : ℝ) ≤ 1; norm_num
  have h3 : ∀ _ : ℕ, 2 * (0 : ℝ) ≤ warmLayers.s := fun _ => by show 2 * (0 : ℝ) ≤ 1; norm_num
  refine ⟨v, w, fun c => ?_⟩
  cases c
  · have h := fun {φ v g} => C178_nh18 (N := evenLayers) (S := evenLayers) (L := evenLayers) (K := warmLayers) (ε := fun _ => 0) (l := 0)
      (φ := φ) (v := v) (g := g) (x := fun _ => 1) (q := polarHeat) acrossPoles_curl evenLayers_of hg
      (fun z => (add_self_div_two z).symm) (fun z => (add_self_div_two (1 : ℝ)).symm) evenLayers_bound polarFine_refines polarFine_last
      (fun n => polarWave_observes (2 * n)) h2 (by simp) polarFine_npart polarHeat_sampled warmLayers_heated hk h3 (polarFine_forcing .nh18)
    simp only [acrossPoles_qgpvZonal] at h
    exact ⟨(h (polarQ_crosses v)).1 hN polarFine_north, (h (polarQ_crosses w)).2 hS polarFine_south⟩
  · have h := fun {φ v g} => C178_nhn22 (N := evenLayers) (S := evenLayers) (KN := warmLayers) (KS := warmLayers) (ε := fun _ => 0) (l := 0)
      (φ := φ) (v := v) (g := g) (x := fun _ => 1) (q := polarHeat) acrossPoles_curl evenLayers_of evenLayers_of hg hg
      polarFine_refines polarFine_last (fun n => polarWave_observes (2 * n)) h2 h2 (by simp) polarHeat_sampled warmLayers_heated
      warmLayers_heated hk hk h3 h3 (polarFine_forcing .nhn22)
    simp only [acrossPoles_qgpv] at h
    exact ⟨(h (polarQ_crosses v)).1 hN polarFine_north, (h (polarQ_crosses w)).2 hS polarFine_south⟩

end Atmos

end Falwa

end
