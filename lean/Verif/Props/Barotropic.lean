import Verif.Model.Barotropic
import Verif.Props.Wrapper
import Mathlib.Analysis.SpecialFunctions.Trigonometric.Bounds

/-!
# Properties of `BarotropicField` (C12, C25, C26)
-/

namespace Falwa

open Finset

/-! ## C12 -/

/-- Latitudes of a regular pole-to-pole grid with `nlat` points, in degrees. -/
noncomputable def regularLat (nlat : ℕ) (j : ℕ) : ℝ := -90 + 180 * j / ((nlat - 1 : ℕ) : ℝ)

theorem sum_sin_telescope (h : ℝ) (n : ℕ) :
    2 * Real.sin (h / 2) * ∑ j ∈ range n, Real.sin (j * h) = Real.cos (h / 2) - Real.cos ((n - 1 / 2) * h) := by
  induction n with
  | zero =>
    simp only [range_zero, sum_empty, mul_zero, Nat.cast_zero]
    rw [show (0 - 1 / 2 : ℝ) * h = -(h / 2) by ring, Real.cos_neg, sub_self]
  | succ n ih =>
    rw [sum_range_succ, mul_add, ih]
    have e1 : ((n : ℝ) - 1 / 2) * h = n * h - h / 2 := by ring
    have e2 : (((n + 1 : ℕ) : ℝ) - 1 / 2) * h = n * h + h / 2 := by push_cast; ring
    rw [e1, e2, Real.cos_sub, Real.cos_add]
    ring

/-- The rectangle rule with a regular grid does not overestimate the integral of cosine. -/
theorem cos_sum_le_two (n : ℕ) (hn : 2 ≤ n) :
    (∑ j ∈ range (n + 1), Real.sin (j * (Real.pi / n))) * (Real.pi / n) ≤ 2 := by
  set h : ℝ := Real.pi / n with hh
  have hn0 : (0 : ℝ) < n := by exact_mod_cast (by omega : 0 < n)
  have hn2 : (2 : ℝ) ≤ n := by exact_mod_cast hn
  have hpi := Real.pi_pos
  have hpos : 0 < h := by positivity
  have hnh : (n : ℝ) * h = Real.pi := by rw [hh]; field_simp
  have hle : h / 2 < Real.pi / 2 := by nlinarith
  have hS := sum_sin_telescope h (n + 1)
  have e : (((n + 1 : ℕ) : ℝ) - 1 / 2) * h = h / 2 + Real.pi := by push_cast; linarith
  rw [e, Real.cos_add_pi] at hS
  have hsin : 0 < Real.sin (h / 2) := Real.sin_pos_of_pos_of_lt_pi (by linarith) (by linarith)
  have hcos : 0 < Real.cos (h / 2) := Real.cos_pos_of_mem_Ioo ⟨by linarith, hle⟩
  have htan := Real.le_tan (by linarith : 0 ≤ h / 2) hle
  rw [Real.tan_eq_sin_div_cos, le_div_iff₀ hcos] at htan
  set S := ∑ j ∈ range (n + 1), Real.sin (j * h)
  have h1 : Real.sin (h / 2) * S = Real.cos (h / 2) := by linarith
  have h2 : Real.sin (h / 2) * (S * h) ≤ Real.sin (h / 2) * 2 := by
    have : Real.sin (h / 2) * (S * h) = Real.cos (h / 2) * h := by rw [← h1]; ring
    rw [this]; linarith
  exact le_of_mul_le_mul_left h2 hsin

/-- On a regular grid the cosine of latitude row `j` is `sin (j pi / (nlat-1))`. -/
theorem cos_regularLat (nlat j : ℕ) (h : 3 ≤ nlat) :
    Real.cos (regularLat nlat j * Real.pi / 180) = Real.sin (j * (Real.pi / ((nlat - 1 : ℕ) : ℝ))) := by
  have hn0 : (((nlat - 1 : ℕ) : ℝ)) ≠ 0 := by exact_mod_cast (by omega : nlat - 1 ≠ 0)
  rw [← Real.cos_sub_pi_div_two]
  congr 1
  unfold regularLat
  field_simp
  ring

/-- C12. With the default areas on a regular grid the total area is at most that of the sphere, the areas are
non-negative, and the analysis of every field succeeds (no NaN) for every number of partitions `≥ 1`. -/
theorem C12_default_areas_fit (nlat nlon : ℕ) (radius : ℝ) (h1 : 3 ≤ nlat) (h2 : 1 ≤ nlon) (hr : 0 < radius)
    (part : Bool) (np : Option ℕ) (hnp : np ≠ some 0) (pv : ℕ → ℕ → ℝ) :
    let C := baroInit nlat nlon (regularLat nlat) radius part none none np
    (∀ p ∈ cells nlat nlon, 0 ≤ C.area p.1 p.2) ∧
    ∑ p ∈ cells nlat nlon, C.area p.1 p.2 ≤ 4 * Real.pi * radius ^ 2 ∧
    ∃ f, (C.eqvInput pv).qref = .ok f := by
  intro C
  have hn0 : (0 : ℝ) < ((nlat - 1 : ℕ) : ℝ) := by exact_mod_cast (by omega : 0 < nlat - 1)
  have hl0 : (0 : ℝ) < nlon := by exact_mod_cast (by omega : 0 < nlon)
  have hpi := Real.pi_pos
  have harea : ∀ j c, C.area j c = 2 * Real.pi * radius ^ 2 *
      (Real.sin (j * (Real.pi / ((nlat - 1 : ℕ) : ℝ))) * (Real.pi / ((nlat - 1 : ℕ) : ℝ))) / nlon := by
    intro j c
    show 2 * Real.pi * radius ^ 2 * (Real.cos (regularLat nlat j * Real.pi / 180) *
      (Real.pi / ((nlat - 1 : ℕ) : ℝ))) / nlon = _
    rw [cos_regularLat nlat j h1]
  have hnonneg : ∀ p ∈ cells nlat nlon, 0 ≤ C.area p.1 p.2 := by
    intro p hp
    rw [mem_cells] at hp
    rw [harea]
    have hs : 0 ≤ Real.sin (p.1 * (Real.pi / ((nlat - 1 : ℕ) : ℝ))) := by
      apply Real.sin_nonneg_of_nonneg_of_le_pi
      · positivity
      · have : (p.1 : ℝ) ≤ ((nlat - 1 : ℕ) : ℝ) := by exact_mod_cast (by omega : p.1 ≤ nlat - 1)
        rw [← mul_div_assoc, div_le_iff₀ hn0]
        nlinarith
    positivity
  have hsum : ∑ p ∈ cells nlat nlon, C.area p.1 p.2 ≤ 4 * Real.pi * radius ^ 2 := by
    unfold cells
    rw [sum_product]
    simp only [harea, sum_const, card_range, nsmul_eq_mul]
    have hb := cos_sum_le_two (nlat - 1) (by omega)
    rw [show nlat - 1 + 1 = nlat by omega] at hb
    have : ∑ j ∈ range nlat, (nlon : ℝ) * (2 * Real.pi * radius ^ 2 *
        (Real.sin (j * (Real.pi / ((nlat - 1 : ℕ) : ℝ))) * (Real.pi / ((nlat - 1 : ℕ) : ℝ))) / nlon) =
        2 * Real.pi * radius ^ 2 * ((∑ j ∈ range nlat, Real.sin (j * (Real.pi / ((nlat - 1 : ℕ) : ℝ)))) *
          (Real.pi / ((nlat - 1 : ℕ) : ℝ))) := by
      rw [sum_mul, mul_sum]
      refine sum_congr rfl fun j _ => ?_
      field_simp
    rw [this]
    have h3 : 0 ≤ 2 * Real.pi * radius ^ 2 := by positivity
    have := mul_le_mul_of_nonneg_left hb h3
    linarith
  refine ⟨hnonneg, hsum, ?_⟩
  have hs : (C.eqvInput pv).Sensible :=
    { nlat_pos := show 0 < nlat by omega
      nlon_pos := show 0 < nlon by omega
      nPoints_pos := by
        show 0 < np.getD nlat
        cases np with
        | none => show 0 < nlat; omega
        | some k =>
          show 0 < k
          rcases Nat.eq_zero_or_pos k with rfl | h
          · exact absurd rfl hnp
          · exact h
      radius_ne := hr.ne'
      area_nonneg := hnonneg
      area_fits := hsum }
  exact hs.ok

example : 3 ≤ 121 ∧ 1 ≤ 240 ∧ (0 : ℝ) < 6378000 ∧ (none : Option ℕ) ≠ some 0 :=
  ⟨by norm_num, by norm_num, by norm_num, by simp⟩

/-! ## C25 -/

/-- The values a user expects: functions of the field alone. -/
noncomputable def expectedObs (C : BaroConfig) (pv : ℕ → ℕ → ℝ) : BaroOp → BaroObs
  | .readEqv => .eqv (C.eqvInput pv).qref
  | .readLwa => .lwa ((C.eqvInput pv).qref.map (C.lwaOf pv))
  | .setPv _ => .unit

/-- Invariant of histories without assignment to `pv_field`: the cache is empty or holds the expected value. -/
def BaroInv (C : BaroConfig) (pv : ℕ → ℕ → ℝ) (s : BaroState) : Prop :=
  s.pv = pv ∧ s.eqvlat = none ∧ ∀ v, s.lwa = some v → v = (C.eqvInput pv).qref.map (C.lwaOf pv)

theorem baroStep_read (C : BaroConfig) (pv : ℕ → ℕ → ℝ) (s : BaroState) (hs : BaroInv C pv s)
    (op : BaroOp) (hop : ∀ p, op ≠ .setPv p) :
    BaroInv C pv (baroStep C s op).1 ∧ (baroStep C s op).2 = expectedObs C pv op := by
  obtain ⟨h1, h2, h3⟩ := hs
  have hread : readEqv C s = (s, (C.eqvInput pv).qref) := by
    unfold readEqv; rw [h2, ← h1]
  cases op with
  | readEqv =>
    refine ⟨?_, ?_⟩
    · show BaroInv C pv (readEqv C s).1
      rw [hread]; exact ⟨h1, h2, h3⟩
    · show BaroObs.eqv (readEqv C s).2 = _
      rw [hread]; rfl
  | readLwa =>
    show BaroInv C pv (readLwa C s).1 ∧ BaroObs.lwa (readLwa C s).2 = _
    cases hl : s.lwa with
    | some v =>
      have : readLwa C s = (s, v) := by unfold readLwa; rw [hl]
      rw [this]
      exact ⟨⟨h1, h2, h3⟩, by rw [h3 v hl]; rfl⟩
    | none =>
      cases hq : (C.eqvInput pv).qref with
      | valueError =>
        have : readLwa C s = (s, .valueError) := by
          unfold readLwa; rw [hl]; simp only [hread, hq]
        rw [this]
        exact ⟨⟨h1, h2, h3⟩, by simp only [expectedObs, hq, Outcome.map]⟩
      | nan =>
        have : readLwa C s = ({ s with lwa := some .nan }, .nan) := by
          unfold readLwa; rw [hl]; simp only [hread, hq, Outcome.map]
        rw [this]
        refine ⟨⟨h1, h2, ?_⟩, by simp only [expectedObs, hq, Outcome.map]⟩
        intro v hv
        injection hv with hv
        rw [hq, ← hv]; rfl
      | ok f =>
        have : readLwa C s = ({ s with lwa := some (.ok (C.lwaOf pv f)) }, .ok (C.lwaOf pv f)) := by
          unfold readLwa; rw [hl]; simp only [hread, hq, Outcome.map, h1]
        rw [this]
        refine ⟨⟨h1, h2, ?_⟩, by simp only [expectedObs, hq, Outcome.map]⟩
        intro v hv
        injection hv with hv
        rw [hq, ← hv]; rfl
  | setPv p => exact absurd rfl (hop p)

/-- C25. In every history of reads on an object whose field is never assigned, each read returns the value that a
single read on a fresh object returns, whatever was read before. -/
theorem C25_reads_are_history_independent (C : BaroConfig) (pv : ℕ → ℕ → ℝ) (ops : List BaroOp)
    (hops : ∀ op ∈ ops, ∀ p, op ≠ .setPv p) :
    (baroRun C (baroFresh pv) ops).2 = ops.map (fun op => (baroStep C (baroFresh pv) op).2) := by
  have hfresh : BaroInv C pv (baroFresh pv) := ⟨rfl, rfl, fun v hv => by cases hv⟩
  have key : ∀ (ops : List BaroOp) (s : BaroState), BaroInv C pv s → (∀ op ∈ ops, ∀ p, op ≠ .setPv p) →
      (baroRun C s ops).2 = ops.map (fun op => (baroStep C (baroFresh pv) op).2) := by
    intro ops
    induction ops with
    | nil => intro s _ _; rfl
    | cons op ops ih =>
      intro s hs hop
      have h0 := baroStep_read C pv s hs op (hop op List.mem_cons_self)
      have h1 := baroStep_read C pv _ hfresh op (hop op List.mem_cons_self)
      show (baroStep C s op).2 :: (baroRun C (baroStep C s op).1 ops).2 = _
      rw [ih _ h0.1 (fun o ho => hop o (List.mem_cons_of_mem _ ho)), h0.2, ← h1.2]
      rfl
  exact key ops _ hfresh hops

/-- C25, the value: it is the profile of the field, and the wave activity of the field with its profile. -/
theorem C25_read_values (C : BaroConfig) (pv : ℕ → ℕ → ℝ) :
    (baroStep C (baroFresh pv) .readEqv).2 = .eqv (C.eqvInput pv).qref ∧
    (baroStep C (baroFresh pv) .readLwa).2 = .lwa ((C.eqvInput pv).qref.map (C.lwaOf pv)) :=
  ⟨(baroStep_read C pv _ ⟨rfl, rfl, fun v hv => by cases hv⟩ .readEqv (by intro p; simp)).2,
   (baroStep_read C pv _ ⟨rfl, rfl, fun v hv => by cases hv⟩ .readLwa (by intro p; simp)).2⟩

example : ∀ op ∈ [BaroOp.readLwa, .readEqv, .readLwa], ∀ p, op ≠ .setPv p := by
  intro op h p; fin_cases h <;> simp

/-! ## C26 -/

/-- C26, full statement: after any history, reading `equivalent_latitudes` and then `lwa` gives a pair that belongs to
one of the fields the object has held. -/
def C26_Statement : Prop :=
  ∀ (C : BaroConfig) (pv : ℕ → ℕ → ℝ) (ops : List BaroOp),
    ∃ pv', (pv' = pv ∨ BaroOp.setPv pv' ∈ ops) ∧ ∃ q l, (baroStep C (baroRun C (baroFresh pv) ops).1 .readEqv).2 = .eqv q ∧
      (baroStep C (baroRun C (baroFresh pv) ops).1 .readLwa).2 = .lwa l ∧
      q = (C.eqvInput pv').qref ∧ l = (C.eqvInput pv').qref.map (C.lwaOf pv')

/-- The field that is in effect after a history. -/
def currentPv (pv : ℕ → ℕ → ℝ) : List BaroOp → (ℕ → ℕ → ℝ)
  | [] => pv
  | .setPv p :: ops => currentPv p ops
  | _ :: ops => currentPv pv ops

theorem baroStep_state (C : BaroConfig) (s : BaroState) (op : BaroOp) (h : s.eqvlat = none) :
    (baroStep C s op).1.eqvlat = none ∧
    (baroStep C s op).1.pv = (match op with | .setPv p => p | _ => s.pv) ∧
    (∀ v, s.lwa = some v → (baroStep C s op).1.lwa = some v) := by
  cases op with
  | readEqv =>
    have : readEqv C s = (s, (C.eqvInput s.pv).qref) := by unfold readEqv; rw [h]
    show (readEqv C s).1.eqvlat = none ∧ (readEqv C s).1.pv = s.pv ∧ _
    rw [this]; exact ⟨h, rfl, fun v hv => by show (readEqv C s).1.lwa = _; rw [this]; exact hv⟩
  | readLwa =>
    show (readLwa C s).1.eqvlat = none ∧ (readLwa C s).1.pv = s.pv ∧
      (∀ v, s.lwa = some v → (readLwa C s).1.lwa = some v)
    have hr : readEqv C s = (s, (C.eqvInput s.pv).qref) := by unfold readEqv; rw [h]
    unfold readLwa
    cases hl : s.lwa with
    | some v => exact ⟨h, rfl, fun w hw => by rw [← hw]; exact hl⟩
    | none =>
      simp only [hr]
      cases (C.eqvInput s.pv).qref <;> exact ⟨h, rfl, fun v hv => by cases hv⟩
  | setPv p => exact ⟨h, rfl, fun v hv => hv⟩

/-- C26, partial. After any history the latitudes always belong to the current field; the wave activity belongs to the
field that was current when `lwa` was first computed: as long as `lwa` has not been read, assigning `pv_field` is
safe, and both then belong to the current field. Missing: assignments after a read of `lwa`. -/
theorem C26_consistent_before_first_lwa_partial (C : BaroConfig) (pv : ℕ → ℕ → ℝ) (ops : List BaroOp) :
    (baroStep C (baroRun C (baroFresh pv) ops).1 .readEqv).2 =
      .eqv (C.eqvInput (currentPv pv ops)).qref ∧
    ((∀ op ∈ ops, op ≠ .readLwa) →
      (baroStep C (baroRun C (baroFresh pv) ops).1 .readLwa).2 =
        .lwa ((C.eqvInput (currentPv pv ops)).qref.map (C.lwaOf (currentPv pv ops)))) := by
  have key : ∀ (ops : List BaroOp) (s : BaroState), s.eqvlat = none →
      (baroRun C s ops).1.eqvlat = none ∧ (baroRun C s ops).1.pv = currentPv s.pv ops ∧
      (s.lwa = none → (∀ op ∈ ops, op ≠ .readLwa) → (baroRun C s ops).1.lwa = none) := by
    intro ops
    induction ops with
    | nil => intro s h; exact ⟨h, rfl, fun h _ => h⟩
    | cons op ops ih =>
      intro s h
      obtain ⟨a, b, _⟩ := baroStep_state C s op h
      obtain ⟨i1, i2, i3⟩ := ih _ a
      refine ⟨i1, ?_, fun hl hop => ?_⟩
      · show (baroRun C (baroStep C s op).1 ops).1.pv = _
        rw [i2, b]; cases op <;> rfl
      · show (baroRun C (baroStep C s op).1 ops).1.lwa = none
        refine i3 ?_ (fun o ho => hop o (List.mem_cons_of_mem _ ho))
        have hne := hop op List.mem_cons_self
        cases op with
        | readEqv =>
          show (readEqv C s).1.lwa = none
          unfold readEqv; rw [h]; exact hl
        | readLwa => exact absurd rfl hne
        | setPv p => exact hl
  obtain ⟨k1, k2, k3⟩ := key ops (baroFresh pv) rfl
  have k2' : (baroRun C (baroFresh pv) ops).1.pv = currentPv pv ops := k2
  constructor
  · show BaroObs.eqv (readEqv C _).2 = _
    unfold readEqv; rw [k1, ← k2']
  · intro hops
    exact (baroStep_read C (currentPv pv ops) _
      ⟨k2', k1, fun v hv => by rw [k3 rfl hops] at hv; cases hv⟩ .readLwa (by intro p; simp)).2

example : ∀ op ∈ [BaroOp.readEqv, .setPv (fun _ _ => 1), .readEqv], op ≠ .readLwa := by
  intro op h; fin_cases h <;> simp

/-- C26, what happens instead: once `lwa` has been read, it never changes again, whatever is assigned. -/
theorem C26_lwa_is_frozen (C : BaroConfig) (s : BaroState) (h : s.eqvlat = none) (v : Outcome (LwaOut ℝ))
    (hv : s.lwa = some v) (ops : List BaroOp) :
    (baroStep C (baroRun C s ops).1 .readLwa).2 = .lwa v := by
  have key : ∀ (ops : List BaroOp) (s : BaroState), s.eqvlat = none → s.lwa = some v →
      (baroRun C s ops).1.lwa = some v := by
    intro ops
    induction ops with
    | nil => intro s _ h; exact h
    | cons op ops ih =>
      intro s h hl
      obtain ⟨a, _, c⟩ := baroStep_state C s op h
      exact ih _ a (c v hl)
  show BaroObs.lwa (readLwa C _).2 = _
  unfold readLwa
  rw [key ops s h hv]

/-- A small configuration used as witness: latitudes 0 and 1 degrees, unit areas and dphi, radius 1. -/
noncomputable def baroSample : BaroConfig :=
  baroInit 2 1 (fun j => j) 1 false (some fun _ _ => 1) (some fun _ => 1) (some 2)

theorem baroSample_sensible (pv : ℕ → ℕ → ℝ) : (baroSample.eqvInput pv).Sensible where
  nlat_pos := by norm_num [baroSample, baroInit, BaroConfig.eqvInput]
  nlon_pos := by norm_num [baroSample, baroInit, BaroConfig.eqvInput]
  nPoints_pos := by norm_num [baroSample, baroInit, BaroConfig.eqvInput]
  radius_ne := by norm_num [baroSample, baroInit, BaroConfig.eqvInput]
  area_nonneg := fun _ _ => by norm_num [baroSample, baroInit, BaroConfig.eqvInput]
  area_fits := by
    have := Real.pi_gt_three
    simp only [baroSample, baroInit, BaroConfig.eqvInput, cells]
    norm_num
    linarith

theorem baroSample_qref (pv : ℕ → ℕ → ℝ) {f : ℕ → ℝ} (hf : (baroSample.eqvInput pv).qref = .ok f) (j : ℕ) :
    f j = amax 2 1 pv := by
  refine EqvInput.qref_eq_max_of_small _ (baroSample_sensible pv)
    (by norm_num [baroSample, baroInit, BaroConfig.eqvInput]) hf ?_ ?_
  · simp only [baroSample, baroInit, BaroConfig.eqvInput]
    have : (0 : ℝ) ≤ j := Nat.cast_nonneg _
    linarith
  · have := Real.pi_gt_three
    simp only [baroSample, baroInit, BaroConfig.eqvInput, cells]
    norm_num
    linarith

/-- C26 fails: read `lwa` of the field (1, 0), assign the zero field; the latitudes then read are those of the zero
field (all 0), the wave activity is still that of the old field (positive). -/
theorem C26_refuted : ¬ C26_Statement := by
  intro hst
  set A : ℕ → ℕ → ℝ := fun r _ => if r = 0 then 1 else 0 with hA
  set Z : ℕ → ℕ → ℝ := fun _ _ => 0 with hZ
  obtain ⟨fA, hfA⟩ := (baroSample_sensible A).ok
  obtain ⟨fZ, hfZ⟩ := (baroSample_sensible Z).ok
  have hmaxA : amax 2 1 A = 1 := by
    refine amax_eq_of (r := 0) (c := 0) (by norm_num) (by norm_num) (by simp [hA]) ?_
    intro r _ c _; simp only [hA]; split_ifs <;> norm_num
  have hmaxZ : amax 2 1 Z = 0 :=
    amax_eq_of (r := 0) (c := 0) (by norm_num) (by norm_num) rfl (fun _ _ _ _ => le_rfl)
  obtain ⟨pv', hpv, q, l, h1, h2, h3, h4⟩ := hst baroSample A [.readLwa, .setPv Z]
  -- the latitudes are those of the zero field
  have hq := (C26_consistent_before_first_lwa_partial baroSample A [.readLwa, .setPv Z]).1
  rw [h1] at hq
  injection hq with hq
  have hq' : q = .ok fZ := by rw [hq, ← hfZ]; rfl
  -- the wave activity is that of the old field
  have hrun : readLwa baroSample (baroFresh A) =
      ({ baroFresh A with lwa := some (.ok (baroSample.lwaOf A fA)) }, .ok (baroSample.lwaOf A fA)) := by
    have hr : readEqv baroSample (baroFresh A) = (baroFresh A, .ok fA) := by
      rw [← hfA]; rfl
    unfold readLwa
    simp only [hr]
    rfl
  have hl := C26_lwa_is_frozen baroSample (baroStep baroSample (baroFresh A) .readLwa).1
    (baroStep_state baroSample (baroFresh A) .readLwa rfl).1 (.ok (baroSample.lwaOf A fA))
    (by show (readLwa baroSample (baroFresh A)).1.lwa = _; rw [hrun]) [.setPv Z]
  have hl' : l = .ok (baroSample.lwaOf A fA) := by
    have e : (baroRun baroSample (baroFresh A) [.readLwa, .setPv Z]).1 =
      (baroRun baroSample (baroStep baroSample (baroFresh A) .readLwa).1 [.setPv Z]).1 := rfl
    rw [e, hl] at h2
    injection h2 with h2
    exact h2.symm
  -- neither field fits: the old one has latitudes 1, the new one has no wave activity
  rw [hq'] at h3
  rw [← h3, hl'] at h4
  simp only [Outcome.map, Outcome.ok.injEq] at h4
  have hfZ0 : ∀ j, fZ j = 0 := fun j => by rw [baroSample_qref Z hfZ j, hmaxZ]
  have hfA1 : ∀ j, fA j = 1 := fun j => by rw [baroSample_qref A hfA j, hmaxA]
  have hpv' : pv' = A ∨ pv' = Z := by
    rcases hpv with h | h
    · exact Or.inl h
    · simp only [List.mem_cons, reduceCtorEq, BaroOp.setPv.injEq, List.not_mem_nil, or_false, false_or] at h
      exact Or.inr h
  rcases hpv' with rfl | rfl
  · rw [hfA] at h3
    injection h3 with h3
    have := congrFun h3 0
    rw [hfZ0, hfA1] at this
    norm_num at this
  · have e0 : lwaTotal 2 A fA baroSample.dmu 0 0 = lwaTotal 2 Z fZ baroSample.dmu 0 0 := by
      have : LwaOut.total _ = LwaOut.total _ := h4
      injection this with this
      exact congrFun (congrFun this 0) 0
    have hA0 : lwaTotal 2 A fA baroSample.dmu 0 0 = baroSample.dmu 1 := by
      unfold lwaTotal lwaAnticyclonic lwaCyclonic anticyclonicMask cyclonicMask vortE
      simp [sum_range_succ, hA, hfA1]
    have hZ0 : lwaTotal 2 Z fZ baroSample.dmu 0 0 = 0 := by
      unfold lwaTotal lwaAnticyclonic lwaCyclonic anticyclonicMask cyclonicMask vortE
      simp [hZ, hfZ0]
    have hd : 0 < baroSample.dmu 1 := by
      have hpi := Real.pi_gt_three
      have hpi4 := Real.pi_lt_four
      have hc : 0 < Real.cos (Real.pi / 180) :=
        Real.cos_pos_of_mem_Ioo ⟨by linarith, by linarith⟩
      have : baroSample.dmu 1 = |Real.cos (Real.pi / 180)| := by
        simp [BaroConfig.dmu, baroSample, baroInit, deg2rad]
      rw [this]
      exact abs_pos.mpr hc.ne'
    rw [hA0, hZ0] at e0
    exact hd.ne' e0

end Falwa
