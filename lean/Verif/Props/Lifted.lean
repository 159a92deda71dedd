import Verif.Model.Lifted
import Verif.Spec.Lifted
import Verif.Props.Response
import Verif.Props.RefState
import Verif.Props.Construct

/-! # Data on an evenly spaced pseudoheight grid that does not start at 1000 hPa: C164 -/

noncomputable section

namespace Falwa

open Real Finset Spec

/-! ### The specification -/

namespace Spec.Planet

variable {p : Planet} {base : ℝ}

theorem otherGas_kappa : (p.otherGas base).r / (p.otherGas base).cp = p.r / p.cp :=
  mul_div_mul_right _ _ (exp_pos _).ne'

theorem factor_eq (z : ℝ) : p.h / (p.otherGas base).r * exp (p.r / p.cp * (base + z) / p.h) = p.h / p.r * exp (p.r / p.cp * z / p.h) := by
  show p.h / (p.r * exp (p.r / p.cp * base / p.h)) * exp (p.r / p.cp * (base + z) / p.h) = _
  rw [show p.r / p.cp * (base + z) / p.h = p.r / p.cp * base / p.h + p.r / p.cp * z / p.h by ring, exp_add, ← div_div]
  have := (exp_pos (p.r / p.cp * base / p.h)).ne'
  generalize exp (p.r / p.cp * base / p.h) = E at *
  field_simp

theorem thermalWind_iff {U T : ℤ → ℤ → ℝ} {j k : ℤ} : (p.otherGas base).ThermalWindFrom base U T j k ↔ p.ThermalWind U T j k := by
  have e : (p.otherGas base).ThermalWindFrom base U T j k ↔ (T (j + 1) k - T (j - 1) k) / (2 * p.dphi) =
      -(p.f j * p.a * (p.h / (p.otherGas base).r) * exp ((p.otherGas base).r / (p.otherGas base).cp * (base + p.height k) / p.h) *
        ((U j (k + 1) - U j (k - 1)) / (2 * p.dz))) := Iff.rfl
  rw [e, otherGas_kappa, mul_assoc (p.f j * p.a), factor_eq, ← mul_assoc (p.f j * p.a)]
  exact Iff.rfl

theorem stiffness_eq (S : ℝ) (k : ℤ) (x : ℝ) :
    (p.otherGas base).stiffnessFrom base S k x = exp (p.r / p.cp * base / p.h) * p.stiffness S k x := by
  have e : (p.otherGas base).stiffnessFrom base S k x = exp ((base + p.height k) / p.h) *
    (exp (-(1 - (p.otherGas base).r / (p.otherGas base).cp) * (base + p.height x) / p.h) / S) := rfl
  rw [e, otherGas_kappa]
  unfold stiffness
  rw [← mul_div_assoc, ← exp_add, ← mul_div_assoc, ← exp_add, ← mul_div_assoc, ← exp_add]
  congr 2
  ring

theorem ellipticFrom_iff {S : ℤ → ℝ} {Q u : ℤ → ℤ → ℝ} {j k : ℤ} :
    (p.otherGas base).EllipticFrom base S Q u j k ↔ p.Elliptic S Q u j k := by
  have e : (p.otherGas base).EllipticFrom base S Q u j k ↔
    (u (j + 1) k - u j k) / (sin (p.lat (j + 1 / 2)) * cos (p.lat (j + 1 / 2))) -
    (u j k - u (j - 1) k) / (sin (p.lat (j - 1 / 2)) * cos (p.lat (j - 1 / 2))) +
    (2 * p.om * p.a * p.dphi / p.dz) ^ 2 * (p.h / (p.r * exp (p.r / p.cp * base / p.h))) * (sin (p.lat j) / cos (p.lat j)) *
      ((p.otherGas base).stiffnessFrom base ((S (k + 1) + S k) / 2) k (k + 1 / 2) * (u j (k + 1) - u j k) -
        (p.otherGas base).stiffnessFrom base ((S (k - 1) + S k) / 2) k (k - 1 / 2) * (u j k - u j (k - 1))) =
    -(p.om * p.a * p.dphi * (Q (j + 1) k - Q (j - 1) k)) := Iff.rfl
  rw [e, stiffness_eq, stiffness_eq]
  have f : ∀ c s x y d d' : ℝ, c * (p.h / (p.r * exp (p.r / p.cp * base / p.h))) * s *
      (exp (p.r / p.cp * base / p.h) * x * d - exp (p.r / p.cp * base / p.h) * y * d') = c * (p.h / p.r) * s * (x * d - y * d') := by
    intro c s x y d d'
    rw [← div_div]
    have := (exp_pos (p.r / p.cp * base / p.h)).ne'
    generalize exp (p.r / p.cp * base / p.h) = E at *
    field_simp
  rw [f]
  exact Iff.rfl

/-- At the heights of the data, with the gas of the data: balance there and balance at heights that start at 0 exclude each other, unless
the heights start at 0 or the wind does not change with height. -/
theorem both_iff {U T : ℤ → ℤ → ℝ} {j k : ℤ} (hf : p.f j ≠ 0) (ha : p.a ≠ 0) (hh : p.h ≠ 0) (hr : p.r ≠ 0) (hc : p.cp ≠ 0)
    (hz : p.dz ≠ 0) (hw : p.ThermalWind U T j k) (hs : U j (k + 1) ≠ U j (k - 1)) : p.ThermalWindFrom base U T j k ↔ base = 0 := by
  unfold ThermalWindFrom
  unfold ThermalWind at hw
  rw [hw, neg_inj]
  have c1 : p.f j * p.a * (p.h / p.r) ≠ 0 := mul_ne_zero (mul_ne_zero hf ha) (div_ne_zero hh hr)
  have c2 : (U j (k + 1) - U j (k - 1)) / (2 * p.dz) ≠ 0 :=
    div_ne_zero (sub_ne_zero.2 hs) (mul_ne_zero two_ne_zero hz)
  constructor
  · intro h
    have e := exp_injective (mul_left_cancel₀ c1 (mul_right_cancel₀ c2 h))
    have e2 : p.r / p.cp * p.height k = p.r / p.cp * (base + p.height k) := by
      rwa [div_left_inj' hh] at e
    have := mul_left_cancel₀ (div_ne_zero hr hc) e2
    linarith
  · intro h
    rw [h, zero_add]

end Spec.Planet

/-! ### QGPV and what follows from it -/

namespace Atmos

variable (A : Atmos) (base : ℝ)

theorem stretch_from (t0 stat : ℤ → ℝ) (c : ℝ) (i j k : ℤ) :
    (A.qgpvInFrom base).stretch t0 stat c i j k = A.qgpvIn.stretch t0 stat c i j k := by
  have h : ∀ m, (A.qgpvInFrom base).alt t0 stat i j m = exp (-(base / A.h)) * A.qgpvIn.alt t0 stat i j m := by
    intro m
    show exp (-(base + A.height m) / A.h) * (A.theta i j m - t0 m) / stat m =
      exp (-(base / A.h)) * (exp (-A.height m / A.h) * (A.theta i j m - t0 m) / stat m)
    rw [show -(base + A.height m) / A.h = -(base / A.h) + -A.height m / A.h by ring, exp_add]
    ring
  unfold QgpvIn.stretch
  rw [h, h]
  show exp ((base + A.height k) / A.h) * ((exp (-(base / A.h)) * _ - exp (-(base / A.h)) * _) * c /
    (base + A.height (k + 1) - (base + A.height (k - 1)))) = exp (A.height k / A.h) * ((_ - _) * c / (A.height (k + 1) - A.height (k - 1)))
  rw [show (base + A.height k) / A.h = base / A.h + A.height k / A.h by ring, exp_add, exp_neg, add_sub_add_left_eq_sub]
  have := (exp_pos (base / A.h)).ne'
  generalize exp (base / A.h) = E at *
  rw [← mul_sub, mul_assoc (E⁻¹), mul_div_assoc (E⁻¹), mul_mul_mul_comm, mul_inv_cancel₀ this, one_mul]

/-- C164: QGPV does not depend on where the levels start. -/
theorem C164_qgpv (s : Scheme) : A.qgpvFrom base s = A.qgpv s := by
  have av : (A.qgpvInFrom base).avort = A.qgpvIn.avort := rfl
  have zm : (A.qgpvInFrom base).zmean = A.qgpvIn.zmean := rfl
  cases s
  · show (A.qgpvInFrom base).pv18 A.t0 A.stat = A.qgpvIn.pv18 A.t0 A.stat
    funext i j k
    unfold QgpvIn.pv18
    rw [stretch_from, av, zm]
    rfl
  · show (A.qgpvInFrom base).pv22 A.nd A.ts0 A.tn0 A.statS A.statN = A.qgpvIn.pv22 A.nd A.ts0 A.tn0 A.statS A.statN
    funext i j k
    unfold QgpvIn.pv22
    rw [stretch_from, stretch_from, av]
    rfl

/-- C164: neither do the calls of the solvers, and so the stored reference states. -/
theorem C164_reference (s : Scheme) :
    A.refNFrom base = A.refN ∧ A.refSFrom base = A.refS ∧ A.nhnFrom base = A.nhn ∧ A.qrefFrom base s = A.qref s ∧
      A.urefFrom base s = A.uref s ∧ A.ptrefFrom base s = A.ptref s := by
  have a : A.refNFrom base = A.refN := by unfold refNFrom; rw [C164_qgpv]; rfl
  have b : A.refSFrom base = A.refS := by unfold refSFrom; rw [C164_qgpv]; rfl
  have c : A.nhnFrom base = A.nhn := by unfold nhnFrom; rw [C164_qgpv]; rfl
  refine ⟨a, b, c, ?_, ?_, ?_⟩ <;> cases s
  · unfold qrefFrom; rw [a, b]; rfl
  · unfold qrefFrom; rw [c]; rfl
  · unfold urefFrom; rw [a, b]; rfl
  · unfold urefFrom; rw [c]; rfl
  · unfold ptrefFrom; rw [a, b]; rfl
  · unfold ptrefFrom; rw [c]; rfl

theorem analysisFrom_eq (s : Scheme) : A.analysisFrom base s = { A.analysis s with height := A.heightFrom base } := by
  obtain ⟨_, _, _, q, u, t⟩ := A.C164_reference base s
  unfold analysisFrom
  rw [C164_qgpv, q, u, t]
  rfl

theorem verticalAverage_from (s : Scheme) (f : ℤ → ℝ) :
    (A.analysisFrom base s).verticalAverage f = exp (-(base / A.h)) * (A.analysis s).verticalAverage f := by
  rw [analysisFrom_eq]
  unfold QGAnalysis.verticalAverage
  rw [mul_sum]
  refine sum_congr rfl fun k _ => ?_
  show f k * exp (-(base + A.height k) / A.h) * _ = exp (-(base / A.h)) * (f k * exp (-A.height k / A.h) * _)
  rw [show -(base + A.height k) / A.h = -(base / A.h) + -A.height k / A.h by ring, exp_add]
  show f k * (_ * _) * ((A.analysis s).dz / (A.analysis s).prefactor) = _ * (f k * _ * ((A.analysis s).dz / (A.analysis s).prefactor))
  ring

theorem store_mul (S : QGAnalysis) (c : ℝ) (n s : ℤ → ℝ) (g : ℤ) : S.store (fun j => c * n j) (fun j => c * s j) g = c * S.store n s g := by
  unfold QGAnalysis.store
  split_ifs
  · rfl
  · rfl
  · exact (mul_zero c).symm

/-- C164: column averages carry the factor `exp(-base/H)`, and the wave activity on levels and the low-level heat flux do not. -/
theorem C164_average (s : Scheme) (i g : ℤ) :
    (A.analysisFrom base s).uBaro i g = exp (-(base / A.h)) * (A.analysis s).uBaro i g ∧
    (∀ x, (A.analysisFrom base s).baro x i g = exp (-(base / A.h)) * (A.analysis s).baro x i g) ∧
    (A.analysisFrom base s).lwaBaro i g = exp (-(base / A.h)) * (A.analysis s).lwaBaro i g ∧
    (∀ k, (A.analysisFrom base s).lwa i g k = (A.analysis s).lwa i g k) ∧
    (A.analysisFrom base s).heatFlux i g = (A.analysis s).heatFlux i g := by
  have n : (A.analysisFrom base s).northIn = (A.analysis s).northIn := by rw [analysisFrom_eq]; rfl
  have m : (A.analysisFrom base s).southIn = (A.analysis s).southIn := by rw [analysisFrom_eq]; rfl
  have t : (A.analysisFrom base s).store = (A.analysis s).store := by rw [analysisFrom_eq]; rfl
  have b : ∀ x, (A.analysisFrom base s).baro x i g = exp (-(base / A.h)) * (A.analysis s).baro x i g := by
    intro x
    unfold QGAnalysis.baro
    rw [t, n, m, ← store_mul]
    simp only [verticalAverage_from]
  refine ⟨?_, b, ?_, fun k => ?_, ?_⟩
  · unfold QGAnalysis.uBaro
    rw [t, ← store_mul]
    simp only [verticalAverage_from]
    rfl
  · unfold QGAnalysis.lwaBaro
    rw [b, b, mul_add]
  · unfold QGAnalysis.lwa
    rw [t, n, m]
  · unfold QGAnalysis.heatFlux
    rw [t, n, m]

end Atmos

/-! ### From the arguments of the constructor -/

namespace QGArgs

/-- Evenly spaced heights, which `data_on_evenly_spaced_pseudoheight_grid=True` asks for. -/
def Even (x : QGArgs) : Prop := ∀ k, k < x.kmaxUsed → x.height k = x.base + k * x.dzUsed

/-- C164: the heights of the object, and the factor of the column averages in terms of the pressure of the lowest level. -/
theorem C164_base (x : QGArgs) (h : x.Even) (he : x.evenly = true) (hn : 0 < x.nlev) (hs : x.scaleHeight ≠ 0) (hp : 0 < x.plev 0)
    (g : LatGrid ℝ) :
    (∀ k : ℕ, k < x.kmaxUsed → (x.atmos g).heightFrom x.base (k + 1) = x.height k) ∧
      exp (-(x.base / (x.atmos g).h)) = x.plev 0 / 1000 ∧ (x.base = 0 ↔ x.plev 0 = 1000) := by
  have b : x.base = -x.scaleHeight * log (x.plev 0 / 1000) := by
    show (if 0 < x.kmaxUsed then (if x.evenly then x.zlev 0 else ((0 : ℕ) : ℝ) * x.dz) else 0) = _
    have hk : 0 < x.kmaxUsed := by
      show 0 < (if x.evenly then x.nlev else x.kmax)
      rw [if_pos he]
      exact hn
    rw [if_pos hk, if_pos he]
    rfl
  refine ⟨fun k hk => ?_, ?_, ?_⟩
  · rw [h k hk]
    show x.base + (((k : ℤ) + 1 - 1 : ℤ) : ℝ) * x.dzUsed = _
    rw [add_sub_cancel_right, Int.cast_natCast]
  · show exp (-(x.base / x.scaleHeight)) = _
    rw [b, neg_mul, neg_div, neg_neg, mul_div_cancel_left₀ _ hs, exp_log (by positivity)]
  · rw [b]
    constructor
    · intro q
      have := (mul_eq_zero.1 q).resolve_left (neg_ne_zero.2 hs)
      have := eq_one_of_pos_of_log_eq_zero (by positivity) this
      rwa [div_eq_one_iff_eq (by norm_num)] at this
    · intro q
      rw [q, div_self (by norm_num), log_one, mul_zero]

/-- Seven levels, one scale height apart, the lowest one scale height above 1000 hPa. -/
def aloft : QGArgs := { shaped [7, 5, 4] [7, 5, 4] [7, 5, 4] with plev := fun l => 1000 * exp (-((l : ℝ) + 1)), evenly := true }

theorem aloft_zlev (l : ℕ) : aloft.zlev l = 7000 * (l + 1) := by
  show -7000 * log (1000 * exp (-((l : ℝ) + 1)) / 1000) = _
  rw [mul_div_cancel_left₀ _ (by norm_num : (1000 : ℝ) ≠ 0), log_exp]
  ring

example : aloft.Even ∧ aloft.evenly = true ∧ 0 < aloft.nlev ∧ aloft.scaleHeight ≠ 0 ∧ 0 < aloft.plev 0 ∧ aloft.base = 7000 := by
  have h : ∀ k, k < aloft.kmaxUsed → aloft.height k = 7000 * (k + 1) := by
    intro k hk
    show (if k < aloft.kmaxUsed then (if aloft.evenly then aloft.zlev k else (k : ℝ) * aloft.dz) else 0) = _
    rw [if_pos hk, if_pos (show aloft.evenly = true from rfl), aloft_zlev]
  have b : aloft.base = 7000 := by
    have := h 0 (show 0 < 7 by norm_num)
    rw [show aloft.base = aloft.height 0 from rfl, this]
    norm_num
  have d : aloft.dzUsed = 7000 := by
    show aloft.zlev 1 - aloft.zlev 0 = 7000
    rw [aloft_zlev, aloft_zlev]
    norm_num
  refine ⟨fun k hk => ?_, rfl, show 0 < 7 by norm_num, show (7000 : ℝ) ≠ 0 by norm_num, ?_, b⟩
  · rw [h k hk, b, d]
    ring
  · show 0 < 1000 * exp (-(((0 : ℕ) : ℝ) + 1))
    positivity

end QGArgs

/-! ### The reference states -/

namespace NhnIn

variable {I : NhnIn}

/-- C164: the reference wind and temperature are in thermal-wind balance at the heights of the data, wherever these start. -/
def C164_Statement : Prop :=
  ∀ (I : NhnIn) (base : ℝ), I.Geometry → I.Physical → I.InvCorrect → 0 < I.cp →
    ∀ jj k, I.jb + 2 ≤ jj → jj ≤ I.nd - 1 → 2 ≤ k → k ≤ I.kmax - 1 →
      I.planet.ThermalWindFrom base (fun jj k => I.uref (jj - I.jb) k) (fun jj k => I.tref (jj - I.jb) k) jj k

/-- C164, what holds, for the direct solver: the balance and the equation for the wind hold at the heights of the data for a gas with
another gas constant and heat capacity, `(1000 hPa / p)^κ` times those given. -/
theorem C164_direct_partial (h : I.Geometry) (base : ℝ) :
    (∀ jj k, I.jb + 2 ≤ jj → jj ≤ I.nd - 1 → 2 ≤ k → k ≤ I.kmax - 1 →
      (I.planet.otherGas base).ThermalWindFrom base (fun jj k => I.uref (jj - I.jb) k) (fun jj k => I.tref (jj - I.jb) k) jj k) ∧
    (4 ≤ I.jd → I.om ≠ 0 → I.ExactInv → ∀ jj k, I.jb + 2 ≤ jj → jj ≤ I.nd - 1 → 2 ≤ k → k ≤ I.kmax - 1 →
      (I.planet.otherGas base).EllipticFrom base I.statn I.qrefOut I.solution jj k) :=
  ⟨fun _ _ j1 j2 k1 k2 => Planet.thermalWind_iff.2 (C53_balance_nhn22 h j1 j2 k1 k2),
    fun h4 ho hi jj k j1 j2 k1 k2 => Planet.ellipticFrom_iff.2 ((C54_interior_partial h h4 ho hi).1 jj k j1 j2 k1 k2)⟩

/-- C164: with the gas that was given, the balance holds at the heights of the data only if these start at 0, or if the wind is the same
above and below. -/
theorem C164_direct_iff (h : I.Geometry) (hp : I.Physical) (hc : 0 < I.cp) (base : ℝ) {jj k : ℤ} (j1 : I.jb + 2 ≤ jj) (j2 : jj ≤ I.nd - 1)
    (k1 : 2 ≤ k) (k2 : k ≤ I.kmax - 1) :
    I.planet.ThermalWindFrom base (fun jj k => I.uref (jj - I.jb) k) (fun jj k => I.tref (jj - I.jb) k) jj k ↔
      base = 0 ∨ I.uref (jj - I.jb) (k + 1) = I.uref (jj - I.jb) (k - 1) := by
  have hw := C53_balance_nhn22 h j1 j2 k1 k2
  have hjb := h.jb0
  have hf : I.planet.f jj ≠ 0 := by
    refine mul_ne_zero (mul_ne_zero two_ne_zero hp.om0.ne') (h.trig_pos ?_ ?_).1.ne'
    · exact_mod_cast (by omega : 1 < jj)
    · exact_mod_cast (by omega : jj < I.nd)
  by_cases hs : I.uref (jj - I.jb) (k + 1) = I.uref (jj - I.jb) (k - 1)
  · refine ⟨fun _ => Or.inr hs, fun _ => ?_⟩
    unfold Planet.ThermalWind at hw
    unfold Planet.ThermalWindFrom
    rw [hw]
    simp only [hs, sub_self, zero_div, mul_zero]
  · rw [Planet.both_iff hf hp.a0.ne' hp.h0.ne' hp.rr0.ne' hc.ne' hp.dz0.ne' hw hs]
    exact ⟨Or.inl, fun q => q.resolve_right hs⟩

/-- The reference wind of the sample changes with height. -/
theorem westerly_shear : westerly.uref 2 1 < westerly.uref 2 3 := by
  obtain ⟨h, hp, h4, hc, hq, hb, ht⟩ := westerly_hypotheses
  have w := C146_westerly_partial h hp h4 hc hq hb ht (j := 2) (k := 2) le_rfl (by show (2 : ℤ) ≤ 4 - 0 - 1; decide) (by decide)
    (by show (2 : ℤ) ≤ 3; decide)
  have u := fun k => (uref_solution h (j := 2) le_rfl (by show (2 : ℤ) ≤ 4 - 0 - 1; decide) k)
  have t := top_eq h hp (jj := 2) (by decide) (by show (2 : ℤ) ≤ 4 - 1; decide)
  obtain ⟨_, _, _, a4⟩ := C54_interior_partial h h4 hp.om0.ne' (C79_exact h hp hc)
  have f := topFactor_pos h hp (jj := 2) (by decide) (by show (2 : ℤ) ≤ 4 - 1; decide)
  have e : ∀ l, westerly.tbar l westerly.kmax = warmTop.tbar l westerly.kmax := fun _ => rfl
  rw [e, e, warmTop_tbar, warmTop_tbar, if_neg (by decide), if_pos (by decide)] at t
  have hcos := (u 1).2
  have b1 := a4 (2 + westerly.jb) (by decide) (by show (2 : ℤ) + 0 ≤ 4 - 1; decide)
  rw [(u 2).1] at w
  rw [(u 1).1, (u 3).1, b1, zero_div]
  have hz := hp.dz0
  have t' : westerly.solution (2 + westerly.jb) 3 - westerly.solution (2 + westerly.jb) 2 =
    -(westerly.dz * westerly.topFactor 2 * (0 - 1)) := t
  refine div_pos ?_ hcos
  have w' := (div_nonneg_iff.1 w).resolve_right (fun q => absurd q.2 (not_le.2 hcos))
  nlinarith [mul_pos hz f, w'.1]

/-- C164 fails for levels that start one scale height above 1000 hPa. -/
theorem C164_refuted : ¬ C164_Statement := by
  intro hS
  obtain ⟨h, hp, _, hc, _⟩ := westerly_hypotheses
  have cp : 0 < westerly.cp := by show (0 : ℝ) < 1; norm_num
  have q := hS westerly 1 h hp hc cp 2 2 (by decide) (by show (2 : ℤ) ≤ 4 - 1; decide) le_rfl (by show (2 : ℤ) ≤ 3 - 1; decide)
  rw [C164_direct_iff h hp cp 1 (by decide) (by show (2 : ℤ) ≤ 4 - 1; decide) le_rfl (by show (2 : ℤ) ≤ 3 - 1; decide)] at q
  rcases q with q | q
  · norm_num at q
  · exact westerly_shear.ne' q

example : westerly.Geometry ∧ 4 ≤ westerly.jd ∧ westerly.om ≠ 0 ∧ westerly.ExactInv ∧ 0 < westerly.cp := by
  obtain ⟨h, hp, h4, hc, _⟩ := westerly_hypotheses
  exact ⟨h, h4, hp.om0.ne', C79_exact h hp hc, by show (0 : ℝ) < 1; norm_num⟩

end NhnIn

namespace RefIn

variable {I : RefIn}

/-- C164, what holds, for the iterative solver. -/
theorem C164_iterative_partial (h : I.Geometry) (base : ℝ) :
    (∀ j k, 2 ≤ j → j ≤ I.jd - 1 → 2 ≤ k → k ≤ I.kmax - 1 → (I.planet.otherGas base).ThermalWindFrom base I.uref I.tref j k) ∧
    (∀ u, I.Solves u → ∀ j k, 2 ≤ j → j ≤ I.jd - 1 → 2 ≤ k → k ≤ I.kmax - 1 →
      (I.planet.otherGas base).EllipticFrom base I.stat I.qref u j k) :=
  ⟨fun _ _ j1 j2 k1 k2 => Planet.thermalWind_iff.2 (C53_balance_nh18 h j1 j2 k1 k2),
    fun _ hu j k j1 j2 k1 k2 => Planet.ellipticFrom_iff.2 (hu.eqn j k j1 j2 k1 k2)⟩

example : smooth.Geometry := smooth_geometry

end RefIn

end Falwa
