import Verif.Props.Lwa
import Verif.Props.Wrapper
import Verif.Props.Defaults
import Mathlib.Algebra.BigOperators.Intervals

/-!
# What the hemispheric wrappers compute (C110)
-/

namespace Falwa

open Finset

/-- Wave activity of row `j` from the rows `a ≤ r < b` only. -/
noncomputable def Spec.domainWaveActivity (a b : ℕ) (vort : ℕ → ℕ → ℝ) (Q dmu : ℕ → ℝ) (j c : ℕ) : ℝ :=
  ∑ r ∈ (Ico a b).filter (fun r => Spec.Displaced vort Q j r c), |vort r c - Q j| * dmu r

/-- Forcing of row `j` from the rows `a ≤ r < b` only: the forcing of the displaced rows, negative on the poleward side. -/
noncomputable def Spec.domainForcing (a b : ℕ) (vort force : ℕ → ℕ → ℝ) (Q dmu : ℕ → ℝ) (j c : ℕ) : ℝ :=
  ∑ r ∈ (Ico a b).filter (fun r => Spec.Displaced vort Q j r c), (if j < r then - force r c else force r c) * dmu r

/-- `l` holds wave activity, `s` forcing, of profile `q` computed in two separate domains, the first and the last `n` rows:
every row of a domain but its last one has the displaced integral over the rows of the domain, every other row is zero. -/
def Spec.TwoDomains (n nlat : ℕ) (vort : ℕ → ℕ → ℝ) (q dmu : ℕ → ℝ) (l : ℕ → ℕ → ℝ) : Prop :=
  (∀ j c, j + 1 < n → l j c = Spec.domainWaveActivity 0 n vort q dmu j c) ∧
  (∀ j c, nlat - n ≤ j → j + 1 < nlat → l j c = Spec.domainWaveActivity (nlat - n) nlat vort q dmu j c) ∧
  (∀ j c, j < nlat → (j + 1 = n ∨ n ≤ j ∧ j < nlat - n ∨ j + 1 = nlat) → l j c = 0)

/-- The same for the forcing. -/
def Spec.TwoDomainsForcing (n nlat : ℕ) (vort force : ℕ → ℕ → ℝ) (q dmu : ℕ → ℝ) (s : ℕ → ℕ → ℝ) : Prop :=
  (∀ j c, j + 1 < n → s j c = Spec.domainForcing 0 n vort force q dmu j c) ∧
  (∀ j c, nlat - n ≤ j → j + 1 < nlat → s j c = Spec.domainForcing (nlat - n) nlat vort force q dmu j c) ∧
  (∀ j c, j < nlat → (j + 1 = n ∨ n ≤ j ∧ j < nlat - n ∨ j + 1 = nlat) → s j c = 0)

/-- Moving the rows of a sum over displaced rows. -/
theorem sum_displaced_shift (a n : ℕ) (vort : ℕ → ℕ → ℝ) (Q : ℕ → ℝ) (j c : ℕ) (w : ℕ → ℝ) :
    ∑ r ∈ (range n).filter (fun r => Spec.Displaced (fun r c => vort (a + r) c) (fun r => Q (a + r)) j r c), w (a + r) =
      ∑ r ∈ (Ico a (a + n)).filter (fun r => Spec.Displaced vort Q (a + j) r c), w r := by
  rw [sum_filter, sum_filter, sum_Ico_eq_sum_range, Nat.add_sub_cancel_left]
  refine sum_congr rfl fun r _ => ?_
  have e : Spec.Displaced (fun r c => vort (a + r) c) (fun r => Q (a + r)) j r c ↔
      Spec.Displaced vort Q (a + j) (a + r) c := by
    unfold Spec.Displaced
    constructor
    · rintro (⟨h1, h2⟩ | ⟨h1, h2⟩)
      · exact Or.inl ⟨by omega, h2⟩
      · exact Or.inr ⟨by omega, h2⟩
    · rintro (⟨h1, h2⟩ | ⟨h1, h2⟩)
      · exact Or.inl ⟨by omega, h2⟩
      · exact Or.inr ⟨by omega, h2⟩
  by_cases h : Spec.Displaced vort Q (a + j) (a + r) c
  · rw [if_pos h, if_pos (e.2 h)]
  · rw [if_neg h, if_neg (fun h' => h (e.1 h'))]

theorem lwaBigsigma_eq_spec {nlat : ℕ} {vort : ℕ → ℕ → ℝ} {q dmu : ℕ → ℝ} {f : ℕ → ℕ → ℝ} {j c : ℕ} (hj : j + 1 < nlat) :
    lwaBigsigma nlat vort q dmu f j c = ∑ r ∈ (range nlat).filter (fun r => Spec.Displaced vort q j r c),
        (if j < r then - f r c else f r c) * dmu r := by
  obtain ⟨F, h1, h2⟩ := C07_forcing_supported_on_displaced nlat vort q dmu false f j c hj
  have e : some (lwaBigsigma nlat vort q dmu f) = some F := h1
  injection e with e
  rw [e, h2]

theorem lwaBoth_two_domains (H : HemInput) (h2 : 2 * H.nlatS ≤ H.nlat) (q1 q : ℕ → ℝ)
    (hq : ∀ r < H.nlatS, q1 r = q r) : Spec.TwoDomains H.nlatS H.nlat H.vort q H.dmu (H.lwaBoth q1 q) := by
  refine ⟨fun j c hj => ?_, fun j c h1 hj => ?_, fun j c hj h => ?_⟩
  · have e : H.lwaBoth q1 q j c = lwaTotal H.nlatS H.vort q H.dmu j c := by
      show (H.assemble (α := ℕ → ℝ) _ _ j) c = _
      unfold HemInput.assemble
      rw [if_neg (by omega), if_pos (by omega)]
      exact lwaTotal_congr (by omega) (fun _ _ => rfl) hq (fun _ _ => rfl)
    rw [e, lwaTotal_eq_spec hj]
    unfold Spec.waveActivity Spec.domainWaveActivity
    rw [range_eq_Ico]
  · have e : H.lwaBoth q1 q j c = lwaTotal H.nlatS (H.north H.vort) (H.north q) (H.north H.dmu) (j - (H.nlat - H.nlatS)) c := by
      show (H.assemble (α := ℕ → ℝ) _ _ j) c = _
      unfold HemInput.assemble
      rw [if_pos (by omega)]
    rw [e, lwaTotal_eq_spec (by omega)]
    unfold Spec.waveActivity Spec.domainWaveActivity
    have := sum_displaced_shift (H.nlat - H.nlatS) H.nlatS H.vort q (j - (H.nlat - H.nlatS)) c
      (fun r => |H.vort r c - q j| * H.dmu r)
    rw [show H.nlat - H.nlatS + (j - (H.nlat - H.nlatS)) = j by omega, show H.nlat - H.nlatS + H.nlatS = H.nlat by omega]
      at this
    rw [← this]
    refine sum_congr rfl fun r _ => ?_
    show |H.vort _ c - q (H.nlat - H.nlatS + (j - (H.nlat - H.nlatS)))| * _ = _
    rw [show H.nlat - H.nlatS + (j - (H.nlat - H.nlatS)) = j by omega]
    rfl
  · show (H.assemble (α := ℕ → ℝ) _ _ j) c = 0
    unfold HemInput.assemble
    split_ifs with a b
    · exact lwaTotal_eq_of_ge (by omega)
    · exact lwaTotal_eq_of_ge (by omega)
    · rfl

theorem capsigmaBoth_two_domains (H : HemInput) (h2 : 2 * H.nlatS ≤ H.nlat) (f : ℕ → ℕ → ℝ) (q1 q : ℕ → ℝ)
    (hq : ∀ r < H.nlatS, q1 r = q r) : Spec.TwoDomainsForcing H.nlatS H.nlat H.vort f q H.dmu (H.capsigmaBoth f q1 q) := by
  refine ⟨fun j c hj => ?_, fun j c h1 hj => ?_, fun j c hj h => ?_⟩
  · have e : H.capsigmaBoth f q1 q j c = lwaBigsigma H.nlatS H.vort q H.dmu f j c := by
      show (H.assemble (α := ℕ → ℝ) _ _ j) c = _
      unfold HemInput.assemble
      rw [if_neg (by omega), if_pos (by omega)]
      unfold lwaBigsigma anticyclonicMask cyclonicMask vortE
      rw [hq j (by omega)]
    rw [e, lwaBigsigma_eq_spec hj]
    unfold Spec.domainForcing
    rw [range_eq_Ico]
  · have e : H.capsigmaBoth f q1 q j c =
        lwaBigsigma H.nlatS (H.north H.vort) (H.north q) (H.north H.dmu) (H.north f) (j - (H.nlat - H.nlatS)) c := by
      show (H.assemble (α := ℕ → ℝ) _ _ j) c = _
      unfold HemInput.assemble
      rw [if_pos (by omega)]
    rw [e, lwaBigsigma_eq_spec (by omega)]
    unfold Spec.domainForcing
    have := sum_displaced_shift (H.nlat - H.nlatS) H.nlatS H.vort q (j - (H.nlat - H.nlatS)) c
      (fun r => (if j < r then - f r c else f r c) * H.dmu r)
    rw [show H.nlat - H.nlatS + (j - (H.nlat - H.nlatS)) = j by omega, show H.nlat - H.nlatS + H.nlatS = H.nlat by omega]
      at this
    rw [← this]
    refine sum_congr rfl fun r _ => ?_
    by_cases hlt : j < H.nlat - H.nlatS + r
    · rw [if_pos hlt, if_pos (show j - (H.nlat - H.nlatS) < r by omega)]; rfl
    · rw [if_neg hlt, if_neg (show ¬ j - (H.nlat - H.nlatS) < r by omega)]; rfl
  · show (H.assemble (α := ℕ → ℝ) _ _ j) c = 0
    unfold HemInput.assemble lwaBigsigma
    split_ifs
    all_goals first | omega | rfl

/-- The southern rows of the profile are those of the southern analysis. -/
theorem HemInput.assemble_south (H : HemInput) (h2 : 2 * H.nlatS ≤ H.nlat) {α : Type*} [Zero α] (s n : ℕ → α) (r : ℕ)
    (hr : r < H.nlatS) : H.assemble s n r = s r := by
  unfold HemInput.assemble
  rw [if_neg (by omega), if_pos hr]

/-- C110 for `qgpv_eqlat_lwa_ncforce`: wave activity and forcing term are the displaced integrals of the two hemispheric domains
with the returned profile. -/
theorem C110_ncforce (H : HemInput) (h2 : 2 * H.nlatS ≤ H.nlat) (f : ℕ → ℕ → ℝ) (q : ℕ → ℝ) (l s : ℕ → ℕ → ℝ)
    (h : H.qgpvEqlatLwaNcforce f = .ok (q, l, s)) :
    Spec.TwoDomains H.nlatS H.nlat H.vort q H.dmu l ∧ Spec.TwoDomainsForcing H.nlatS H.nlat H.vort f q H.dmu s := by
  obtain ⟨q1, qq, h1, h2', h3⟩ := Outcome.map2_ok h
  obtain ⟨q1', q2, h1', h4, h5⟩ := Outcome.map2_ok h2'
  rw [h1] at h1'
  injection h1' with h1'
  subst h1'
  simp only [Prod.mk.injEq] at h3
  obtain ⟨e1, e2, e3⟩ := h3
  subst e1
  have hq : ∀ r < H.nlatS, q1 r = qq r := by
    intro r hr
    rw [← h5]
    exact (H.assemble_south h2 _ _ r hr).symm
  rw [← e2, ← e3]
  exact ⟨lwaBoth_two_domains H h2 q1 qq hq, capsigmaBoth_two_domains H h2 f q1 qq hq⟩

/-- C110 for `qgpv_eqlat_lwa`. -/
theorem C110_plain (H : HemInput) (h2 : 2 * H.nlatS ≤ H.nlat) (q : ℕ → ℝ) (l : ℕ → ℕ → ℝ)
    (h : H.qgpvEqlatLwa = .ok (q, l)) : Spec.TwoDomains H.nlatS H.nlat H.vort q H.dmu l := by
  obtain ⟨q1, qq, h1, h2', h3⟩ := Outcome.map2_ok h
  obtain ⟨q1', q2, h1', h4, h5⟩ := Outcome.map2_ok h2'
  rw [h1] at h1'
  injection h1' with h1'
  subst h1'
  simp only [Prod.mk.injEq] at h3
  obtain ⟨e1, e2⟩ := h3
  subst e1
  rw [← e2]
  refine lwaBoth_two_domains H h2 q1 qq fun r hr => ?_
  rw [← h5]
  exact (H.assemble_south h2 _ _ r hr).symm

/-- C110 for `theta_lwa`. -/
theorem C110_theta (H : HemInput) (h2 : 2 * H.nlatS ≤ H.nlat) (q : ℕ → ℝ) (l : ℕ → ℕ → ℝ)
    (h : H.thetaLwa = .ok (q, l)) : Spec.TwoDomains H.nlatS H.nlat H.vort q H.dmu l := by
  obtain ⟨q1, qq, h1, h2', h3⟩ := Outcome.map2_ok h
  obtain ⟨q1', q2, h1', h4, h5⟩ := Outcome.map2_ok h2'
  rw [h1] at h1'
  injection h1' with h1'
  subst h1'
  simp only [Prod.mk.injEq] at h3
  obtain ⟨e1, e2⟩ := h3
  subst e1
  rw [← e2]
  refine lwaBoth_two_domains H h2 q1 qq fun r hr => ?_
  rw [← h5]
  exact (H.assemble_south h2 _ _ r hr).symm

/-- C110 for `qgpv_input_qref_to_compute_lwa`: the same with the given profile. -/
theorem C110_given_profile (H : HemInput) (h2 : 2 * H.nlatS ≤ H.nlat) (q : ℕ → ℝ) :
    Spec.TwoDomains H.nlatS H.nlat H.vort q H.dmu (H.qgpvInputQref q) :=
  lwaBoth_two_domains H h2 q q fun _ _ => rfl

/-- C110 for `qgpv_eqlat_lwa_options` without `vgrad`: the dictionary has the wave activity and, if a forcing was given, the
forcing term of the two domains. -/
theorem C110_options (H : HemInput) (h2 : 2 * H.nlatS ≤ H.nlat) (f : Option (ℕ → ℕ → ℝ)) (d : OptionsResult)
    (h : qgpvEqlatLwaOptions H none f = .ok (.ok d)) :
    Spec.TwoDomains H.nlatS H.nlat H.vort d.qref H.dmu d.lwa ∧
    (f = none → d.capsigma = none) ∧
    (∀ g, f = some g → ∃ s, d.capsigma = some s ∧ Spec.TwoDomainsForcing H.nlatS H.nlat H.vort g d.qref H.dmu s) := by
  have e : qgpvEqlatLwaOptions H none f = .ok (Outcome.map2 (optionsResult H f) (H.southInput H.vort).qref
      (Outcome.map2 (fun a b => H.assemble a (fun r => - b (H.nlatS - 1 - r))) (H.southInput H.vort).qref
        (H.southInput H.flippedNeg).qref)) := rfl
  rw [e] at h
  injection h with h
  obtain ⟨q1, qq, h1, h2', h3⟩ := Outcome.map2_ok h
  obtain ⟨q1', q2, h1', h4, h5⟩ := Outcome.map2_ok h2'
  rw [h1] at h1'
  injection h1' with h1'
  subst h1'
  have hq : ∀ r < H.nlatS, q1 r = qq r := by
    intro r hr
    rw [← h5]
    exact (H.assemble_south h2 _ _ r hr).symm
  rw [← h3]
  refine ⟨lwaBoth_two_domains H h2 q1 qq hq, fun hf => by rw [hf]; rfl, fun g hg => ?_⟩
  rw [hg]
  exact ⟨_, rfl, capsigmaBoth_two_domains H h2 g q1 qq hq⟩

/-- Hypotheses are met by the sample with values 1, 0, 0, 0, and the integrals are not trivially zero: the southernmost row has
wave activity in a domain. -/
example : ∃ (H : HemInput) (q : ℕ → ℝ) (l s : ℕ → ℕ → ℝ), 2 * H.nlatS ≤ H.nlat ∧
    H.qgpvEqlatLwaNcforce (fun _ _ => 1) = .ok (q, l, s) := by
  obtain ⟨f, hf⟩ := (hemSample_sensible (fun r => if r = 0 then 1 else 0) (hemSample (fun r => if r = 0 then 1 else 0)).vort).ok
  obtain ⟨g, hg⟩ := (hemSample_sensible (fun r => if r = 0 then 1 else 0) (hemSample (fun r => if r = 0 then 1 else 0)).flippedNeg).ok
  have key : ∃ d, (hemSample (fun r => if r = 0 then 1 else 0)).qgpvEqlatLwaNcforce (fun _ _ => 1) = .ok d := by
    unfold HemInput.qgpvEqlatLwaNcforce HemInput.qref
    rw [hf, hg]; exact ⟨_, rfl⟩
  obtain ⟨⟨q, l, s⟩, h⟩ := key
  exact ⟨_, q, l, s, by norm_num [hemSample], h⟩

example : Spec.domainForcing 2 4 (fun r _ => if r = 3 then 0 else 1) (fun _ _ => 5) (fun _ => 1) (fun _ => 2) 2 0 = -10 := by
  unfold Spec.domainForcing
  rw [show Ico 2 4 = ({2, 3} : Finset ℕ) from rfl, sum_filter, sum_pair (by norm_num)]
  norm_num [Spec.Displaced]

end Falwa
