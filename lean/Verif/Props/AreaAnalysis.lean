import Verif.Lemmas.AreaAnalysis
import Verif.Spec.Area
import Mathlib.Analysis.Real.Pi.Bounds

/-! # Area analysis: reference QGPV (C49 – C51, C56, C76) -/

set_option linter.unusedSectionVars false
set_option linter.unusedSimpArgs false

noncomputable section

namespace Falwa.AreaIn

open Real Finset Spec Classical

variable {I : AreaIn}

/-- The grid of the routine, as a spherical grid. -/
def grid (I : AreaIn) : SphereGrid := ⟨I.imax, I.jmax, I.a⟩

theorem Valid.da_eq (h : I.Valid) (j : ℤ) : I.da j = I.grid.cell j := by
  unfold da SphereGrid.cell SphereGrid.latitude grid
  rw [h.dphiEq, h.dlam]
  push_cast
  have e : -(0.5 * π) + π / ((I.jmax : ℝ) - 1) * ((j : ℝ) - 1) = -(π / 2) + π / ((I.jmax : ℝ) - 1) * ((j : ℝ) - 1) := by ring
  rw [e]
  ring

theorem Valid.alat_eq (h : I.Valid) (j : ℤ) : I.alat j = I.grid.polarCap (I.grid.latitude (j + I.nd - 1)) := by
  have hodd := h.odd
  have hnd := h.nd2
  have hn : ((I.nd : ℝ) - 1) ≠ 0 := by
    have : (1 : ℝ) < (I.nd : ℝ) := by exact_mod_cast (by omega : 1 < I.nd)
    linarith
  unfold alat SphereGrid.polarCap SphereGrid.latitude grid
  have e1 : (I.jmax : ℝ) = 2 * I.nd - 1 := by rw [hodd]; push_cast; ring
  have e : -(π / 2) + π / ((I.jmax : ℝ) - 1) * (((j + I.nd - 1 : ℤ) : ℝ) - 1) = I.dphi * ((j - 1 : ℤ) : ℝ) := by
    rw [h.dphiEq]
    push_cast
    rw [e1, show (2 * (I.nd : ℝ) - 1 - 1) = 2 * ((I.nd : ℝ) - 1) by ring]
    field_simp
    ring
  show _ = 2 * π * I.a ^ 2 * (1 - sin (-(π / 2) + π / ((I.jmax : ℝ) - 1) * (((j + I.nd - 1 : ℤ) : ℝ) - 1)))
  rw [e]
  ring

theorem Valid.area_eq (h : I.Valid) (P : ℤ → ℤ → Prop) :
    I.grid.area P = ∑ c ∈ I.cells, if P c.1 c.2 then I.da c.2 else 0 := by
  unfold SphereGrid.area
  rw [← I.sum_cells (fun i j => if P i j then I.da j else 0)]
  refine sum_congr rfl fun j _ => sum_congr rfl fun i _ => ?_
  rw [h.da_eq]

theorem Valid.integral_eq (h : I.Valid) (f : ℤ → ℤ → ℝ) (P : ℤ → ℤ → Prop) :
    I.grid.integral f P = ∑ c ∈ I.cells, if P c.1 c.2 then I.da c.2 * f c.1 c.2 else 0 := by
  unfold SphereGrid.integral
  rw [← I.sum_cells (fun i j => if P i j then I.da j * f i j else 0)]
  refine sum_congr rfl fun j _ => sum_congr rfl fun i _ => ?_
  rw [h.da_eq]

/-- Which cells have index at most `n`. -/
theorem Valid.ind_le_iff (h : I.Valid) {c : ℤ × ℤ} (hc : c ∈ I.cells) (n : ℤ) :
    I.ind c.1 c.2 ≤ n ↔ I.qn (n + 1) < I.q c.1 c.2 := by
  rw [I.mem_cells] at hc
  obtain ⟨_, _, h1, h2⟩ := h.ind_spec hc.1 hc.2
  constructor
  · intro hl
    exact lt_of_le_of_lt (h.qn_anti (by omega : I.ind c.1 c.2 + 1 ≤ n + 1)) h1
  · intro hl
    by_contra hx
    have := h.qn_anti (by omega : n + 1 ≤ I.ind c.1 c.2)
    linarith

theorem Valid.ind_eq_iff (h : I.Valid) {c : ℤ × ℤ} (hc : c ∈ I.cells) (n : ℤ) :
    I.ind c.1 c.2 = n ↔ I.qn (n + 1) < I.q c.1 c.2 ∧ I.q c.1 c.2 ≤ I.qn n := by
  have a := h.ind_le_iff hc n
  have b := h.ind_le_iff hc (n - 1)
  rw [show n - 1 + 1 = n by ring] at b
  constructor
  · intro hx
    exact ⟨a.1 (by omega), not_lt.1 fun y => by have := b.2 y; omega⟩
  · rintro ⟨x, y⟩
    have h1 := a.2 x
    have h2 : ¬ I.ind c.1 c.2 ≤ n - 1 := fun z => absurd (b.1 z) (not_lt.2 y)
    omega

/-! ### C50 -/

/-- C50: every cell is in exactly one partition, and the cumulative area ends with the area of the sphere grid. -/
def C50_Statement : Prop :=
  ∀ I : AreaIn, I.Valid →
    (∀ i j, I.grid.Mem i j → 1 ≤ I.ind i j ∧ I.ind i j ≤ I.npart) ∧
    I.aan I.npart = I.grid.area (fun _ _ => True)

/-- C50, the part that holds for partitions: the index of each cell is in range (so no array access is out of bounds), the
partition of a cell is the one whose bounds enclose its value, the area recorded for a partition is the area of these cells,
and the areas of all partitions add up to the area of the grid. -/
theorem C50_partitions_partial (h : I.Valid) :
    (∀ i j, I.grid.Mem i j → 1 ≤ I.ind i j ∧ I.ind i j ≤ I.npart ∧ I.qn (I.ind i j + 1) < I.q i j ∧
      I.q i j ≤ I.qn (I.ind i j)) ∧
    (∀ n, I.bins.an n = I.grid.area (fun i j => I.qn (n + 1) < I.q i j ∧ I.q i j ≤ I.qn n)) ∧
    ∑ n ∈ Icc 1 I.npart, I.bins.an n = I.grid.area (fun _ _ => True) := by
  refine ⟨fun i j hm => h.ind_spec hm.1 hm.2, fun n => ?_, ?_⟩
  · rw [I.an_eq, h.area_eq]
    refine sum_congr rfl fun c hc => ?_
    by_cases hx : I.ind c.1 c.2 = n
    · rw [if_pos hx, if_pos ((h.ind_eq_iff hc n).1 hx)]
    · rw [if_neg hx, if_neg (fun y => hx ((h.ind_eq_iff hc n).2 y))]
  · rw [h.area_eq, sum_congr rfl fun n _ => I.an_eq n, sum_comm]
    refine sum_congr rfl fun c hc => ?_
    have hc' := hc
    rw [I.mem_cells] at hc'
    obtain ⟨a, b, _⟩ := h.ind_spec hc'.1 hc'.2
    rw [sum_ite_eq, if_pos (mem_Icc.2 ⟨a, b⟩), if_pos trivial]

/-- Cumulative area of the routine: the cells of the first partition are missing from every entry. -/
theorem aan_area (h : I.Valid) {n : ℤ} (h1 : 1 ≤ n) (h2 : n ≤ I.npart) :
    I.aan n = I.grid.area (fun i j => I.qn (n + 1) < I.q i j) - I.grid.area (fun i j => I.qn 2 < I.q i j) := by
  have e : ∀ c ∈ I.cells, (∑ m ∈ Icc 2 n, if I.ind c.1 c.2 = m then I.da c.2 else 0) =
      (if I.qn (n + 1) < I.q c.1 c.2 then I.da c.2 else 0) - (if I.qn 2 < I.q c.1 c.2 then I.da c.2 else 0) := by
    intro c hc
    have a := h.ind_le_iff hc n
    have b := h.ind_le_iff hc 1
    have hc' := hc
    rw [I.mem_cells] at hc'
    have i1 := (h.ind_spec hc'.1 hc'.2).1
    rw [show (1 : ℤ) + 1 = 2 by norm_num] at b
    rw [sum_ite_eq]
    by_cases hb : I.ind c.1 c.2 ≤ 1
    · rw [if_neg (by rw [mem_Icc]; omega), if_pos (b.1 hb), if_pos (a.1 (by omega)), sub_self]
    · rw [if_neg (fun x => hb (b.2 x)), sub_zero]
      by_cases ha : I.ind c.1 c.2 ≤ n
      · rw [if_pos (by rw [mem_Icc]; omega), if_pos (a.1 ha)]
      · rw [if_neg (by rw [mem_Icc]; omega), if_neg (fun x => ha (a.2 x))]
  rw [I.aan_eq n h1 h2, sum_congr rfl fun m _ => I.an_eq m, sum_comm, sum_congr rfl e, sum_sub_distrib, h.area_eq, h.area_eq]

/-- C50, what the cumulative area is: the area of the sphere less the area of the first partition, that is of all cells with a
value above `qmax - dq`. -/
theorem C50_total_partial (h : I.Valid) :
    I.aan I.npart = I.grid.area (fun _ _ => True) - I.grid.area (fun i j => I.qmax - I.dq < I.q i j) := by
  have hn := h.npart2
  rw [aan_area h (by omega) le_rfl]
  congr 1
  · rw [h.area_eq, h.area_eq]
    refine sum_congr rfl fun c hc => ?_
    have hc' := hc
    rw [I.mem_cells] at hc'
    have hmin := (minval_spec (A := I.q) h.imax1 h.jmax1).1 _ _ hc'.1.1 hc'.1.2 hc'.2.1 hc'.2.2
    have : I.qmin ≤ I.q c.1 c.2 := hmin
    have hs := Valid.qn_succ (I := I) I.npart
    rw [h.qn_last] at hs
    have := h.dq_pos
    rw [if_pos trivial, if_pos (by linarith)]
  · have : I.qn 2 = I.qmax - I.dq := by unfold qn; norm_num
    rw [this]

/-- A sample: four longitudes, five latitudes, QGPV `2 j`. -/
def ramp : AreaIn where
  imax := 4
  jmax := 5
  nd := 3
  npart := 5
  q := fun _ j => 2 * (j : ℝ)
  a := 1
  dphi := π / 4
  dlambda := π / 2

theorem ramp_qmax : ramp.qmax = 10 :=
  maxval_eq (by decide) (by decide) (fun i j _ _ _ h => by
    have : (j : ℝ) ≤ 5 := by exact_mod_cast h
    show 2 * (j : ℝ) ≤ 10
    linarith) 1 5 (by decide) (by decide) (by norm_num [ramp])

theorem ramp_qmin : ramp.qmin = 2 :=
  minval_eq (by decide) (by decide) (fun i j _ _ h _ => by
    have : (1 : ℝ) ≤ (j : ℝ) := by exact_mod_cast h
    show 2 ≤ 2 * (j : ℝ)
    linarith) 1 1 (by decide) (by decide) (by norm_num [ramp])

theorem ramp_valid : ramp.Valid where
  imax1 := by decide
  nd2 := by decide
  odd := by rfl
  npart2 := by decide
  dphiEq := by norm_num [ramp]
  dlam := by norm_num [ramp]; ring
  a0 := by norm_num [ramp]
  spread := by rw [ramp_qmax, ramp_qmin]; norm_num

/-- A sample where nearly all of the sphere has the largest value. -/
def plateau : AreaIn := { ramp with q := fun _ j => if j = 1 then 1 else 2 }

theorem plateau_qmax : plateau.qmax = 2 :=
  maxval_eq (by decide) (by decide) (fun i j _ _ _ _ => by
    show (if j = 1 then (1 : ℝ) else 2) ≤ 2
    split_ifs <;> norm_num) 1 5 (by decide) (by decide) (by norm_num [plateau])

theorem plateau_qmin : plateau.qmin = 1 :=
  minval_eq (by decide) (by decide) (fun i j _ _ _ _ => by
    show 1 ≤ (if j = 1 then (1 : ℝ) else 2)
    split_ifs <;> norm_num) 1 1 (by decide) (by decide) (by norm_num [plateau])

theorem plateau_valid : plateau.Valid where
  imax1 := by decide
  nd2 := by decide
  odd := by rfl
  npart2 := by decide
  dphiEq := by norm_num [plateau, ramp]
  dlam := by norm_num [plateau, ramp]; ring
  a0 := by norm_num [plateau, ramp]
  spread := by rw [plateau_qmax, plateau_qmin]; norm_num

/-- In the second sample no area is accounted for. -/
theorem plateau_aan : plateau.aan plateau.npart = 0 := by
  rw [C50_total_partial plateau_valid, plateau_valid.area_eq, plateau_valid.area_eq, ← sum_sub_distrib]
  refine sum_eq_zero fun c hc => ?_
  rw [plateau.mem_cells] at hc
  rw [if_pos trivial]
  by_cases h1 : c.2 = 1
  · have : plateau.da c.2 = 0 := by
      rw [h1]
      unfold da
      rw [show -(0.5 * π) + plateau.dphi * ((1 - 1 : ℤ) : ℝ) = -(π / 2) by norm_num; ring, cos_neg, cos_pi_div_two, mul_zero]
    rw [this]; simp
  · have hq : plateau.q c.1 c.2 = 2 := by
      show (if c.2 = 1 then (1 : ℝ) else 2) = 2
      rw [if_neg h1]
    rw [if_pos (by rw [hq, plateau_qmax]; have := plateau_valid.dq_pos; linarith), sub_self]

/-- C50 fails: in the second sample the accounted area is zero, on a grid of positive area. -/
theorem C50_refuted : ¬ C50_Statement := by
  intro h
  have h1 := (h plateau plateau_valid).2
  rw [plateau_aan, plateau_valid.area_eq] at h1
  simp only [if_true] at h1
  have : 0 < ∑ c ∈ plateau.cells, plateau.da c.2 := by
    refine sum_pos' (fun c hc => ?_) ⟨(1, 3), by rw [plateau.mem_cells]; decide, ?_⟩
    · rw [plateau.mem_cells] at hc
      exact plateau_valid.da_nonneg hc.2.1 hc.2.2
    · exact plateau_valid.da_pos (by decide) (by decide)
  exact this.ne h1

/-! ### C49 -/

/-- C49: the reference value is assigned on every row, lies in the range of the field, and does not decrease towards the pole. -/
def C49_Statement : Prop :=
  ∀ I : AreaIn, I.Valid →
    (∀ j, 1 ≤ j → j < I.nd → (I.placed j).isSome = true) ∧
    (∀ j, 1 ≤ j → j ≤ I.nd → I.qmin ≤ I.qref j ∧ I.qref j ≤ I.qmax) ∧
    (∀ j j', 1 ≤ j → j ≤ j' → j' ≤ I.nd → I.qref j ≤ I.qref j')

/-- C49, which rows are assigned: exactly those whose polar cap is smaller than the area of the grid less the area of the first
partition; with a row, all rows further poleward. -/
theorem C49_assigned_partial (h : I.Valid) (j : ℤ) :
    ((I.placed j).isSome = true ↔ I.grid.polarCap (I.grid.latitude (j + I.nd - 1)) <
      I.grid.area (fun _ _ => True) - I.grid.area (fun i j => I.qmax - I.dq < I.q i j)) ∧
    ((I.placed j).isSome = true → ∀ j', 1 ≤ j → j ≤ j' → j' ≤ I.nd → (I.placed j').isSome = true) := by
  rw [h.placed_iff, C50_total_partial h, h.alat_eq]
  refine ⟨Iff.rfl, fun hj j' h1 h2 h3 => ?_⟩
  rw [h.placed_iff, C50_total_partial h]
  rw [← h.alat_eq] at hj
  exact lt_of_le_of_lt (h.alat_anti h1 h2 h3) hj

theorem qref_of_placed (h : I.Valid) {j : ℤ} (hj : j ≠ I.nd) (hs : (I.placed j).isSome = true) :
    ∃ nn, 1 ≤ nn ∧ nn ≤ I.npart - 1 ∧ I.Falls j nn ∧ I.qref j = (I.value j nn).1 := by
  have hn := h.npart2
  rcases I.placed_spec (by omega) j with ⟨h1, _⟩ | ⟨nn, h1, h2, h3, h4⟩
  · rw [h1] at hs; simp at hs
  · refine ⟨nn, h1, h2, h3, ?_⟩
    unfold qref
    rw [if_neg hj, h4]
    rfl

/-- C49, range and order: hold on all rows that are assigned. -/
theorem C49_monotone_partial (h : I.Valid) :
    (∀ j, j = I.nd ∨ (I.placed j).isSome = true → I.qmin ≤ I.qref j ∧ I.qref j ≤ I.qmax) ∧
    (∀ j j', 1 ≤ j → j ≤ j' → j' ≤ I.nd → j = I.nd ∨ (I.placed j).isSome = true → I.qref j ≤ I.qref j') := by
  have hn := h.npart2
  have range : ∀ j, j = I.nd ∨ (I.placed j).isSome = true → I.qmin ≤ I.qref j ∧ I.qref j ≤ I.qmax := by
    intro j hj
    by_cases hjn : j = I.nd
    · unfold qref; rw [if_pos hjn]; exact ⟨h.spread.le, le_rfl⟩
    · obtain ⟨nn, h1, h2, h3, h4⟩ := qref_of_placed h hjn (hj.resolve_left hjn)
      rw [h4]
      have hb := h.value_between h3
      have a := h.qn_anti h1
      have b := h.qn_anti (by omega : nn + 1 ≤ I.npart)
      rw [Valid.qn_one] at a
      rw [h.qn_last] at b
      exact ⟨b.trans hb.1, hb.2.trans a⟩
  refine ⟨range, fun j j' h1 h2 h3 hj => ?_⟩
  by_cases hjn' : j' = I.nd
  · have := (range j hj).2
    unfold qref at this ⊢
    rw [if_pos hjn']
    exact this
  · have hjn : j ≠ I.nd := by omega
    have hs := hj.resolve_left hjn
    have hs' := (C49_assigned_partial h j).2 hs j' h1 h2 h3
    obtain ⟨n, n1, n2, n3, n4⟩ := qref_of_placed h hjn hs
    obtain ⟨n', n1', n2', n3', n4'⟩ := qref_of_placed h hjn' hs'
    have ha := h.alat_anti h1 h2 h3
    rw [n4, n4']
    have hle : n' ≤ n := by
      by_contra hx
      have := h.aan_mono (by omega : 1 ≤ n + 1) (by omega : n + 1 ≤ n') (by omega)
      have a := n3.2
      have b := n3'.1
      linarith
    rcases eq_or_lt_of_le hle with rfl | hlt
    · have hd : 0 < I.aan (n' + 1) - I.aan n' := by have := n3.1; have := n3.2; linarith
      have hdd : (I.alat j' - I.aan n') / (I.aan (n' + 1) - I.aan n') ≤ (I.alat j - I.aan n') / (I.aan (n' + 1) - I.aan n') :=
        (div_le_div_iff_of_pos_right hd).2 (by linarith)
      unfold value
      show I.qn n' * (1 - _) + I.qn (n' + 1) * _ ≤ I.qn n' * (1 - _) + I.qn (n' + 1) * _
      rw [Valid.qn_succ]
      have := h.dq_pos
      nlinarith
    · have a := (h.value_between n3).2
      have b := (h.value_between n3').1
      have c := h.qn_anti (by omega : n' + 1 ≤ n)
      linarith

/-- C49 fails: when the largest value covers most of the sphere, rows are not assigned, and the zero that is left there can lie
outside the range of the field. -/
theorem C49_refuted : ¬ C49_Statement := by
  intro h
  have h1 := (h plateau plateau_valid).1 2 (by decide) (by decide)
  rw [plateau_valid.placed_iff, plateau_aan] at h1
  exact absurd h1 (not_lt.2 (plateau_valid.alat_nonneg 2))

theorem C49_out_of_range : plateau.qref 2 = 0 ∧ plateau.qmin = 1 := by
  refine ⟨?_, plateau_qmin⟩
  have : plateau.placed 2 = none := by
    rw [← Option.not_isSome_iff_eq_none, plateau_valid.placed_iff, plateau_aan]
    exact not_lt.2 (plateau_valid.alat_nonneg 2)
  unfold qref
  rw [if_neg (by decide), this]
  rfl

/-- The area accounted for in the first sample. -/
theorem ramp_aan : ramp.aan ramp.npart = π ^ 2 / 2 * (1 + √2) := by
  rw [C50_total_partial ramp_valid, ramp_valid.area_eq, ramp_valid.area_eq, ← sum_sub_distrib]
  simp only [if_true]
  have hdq : ramp.dq = 2 := by unfold dq; rw [ramp_qmax, ramp_qmin]; norm_num [ramp]
  have hcell : ∀ c ∈ ramp.cells, (ramp.da c.2 -
      (if ramp.qmax - ramp.dq < ramp.q c.1 c.2 then ramp.da c.2 else 0) : ℝ) = if c.2 = 5 then 0 else ramp.da c.2 := by
    intro c hc
    rw [ramp.mem_cells] at hc
    rw [ramp_qmax, hdq]
    have hq : ramp.q c.1 c.2 = 2 * (c.2 : ℝ) := rfl
    by_cases h5 : c.2 = 5
    · rw [if_pos h5, if_pos (by rw [hq, h5]; norm_num), sub_self]
    · have h4 : c.2 ≤ 4 := by
        have : c.2 ≤ 5 := hc.2.2
        omega
      have : (c.2 : ℝ) ≤ 4 := by exact_mod_cast h4
      rw [if_neg h5, if_neg (by rw [hq, not_lt]; linarith), sub_zero]
  rw [sum_congr rfl hcell]
  unfold cells
  rw [sum_product_right]
  have hI : Icc 1 ramp.jmax = {1, 2, 3, 4, 5} := by decide
  have hJ : Icc 1 ramp.imax = {1, 2, 3, 4} := by decide
  rw [hI, hJ]
  simp only [sum_insert, mem_insert, mem_singleton, sum_singleton]
  norm_num
  have hda : ∀ j : ℤ, ramp.da j = π / 4 * (π / 2) * sin (π / 4 * ((j - 1 : ℤ) : ℝ)) := by
    intro j
    unfold da
    rw [show -(0.5 * π) + ramp.dphi * ((j - 1 : ℤ) : ℝ) = π / 4 * ((j - 1 : ℤ) : ℝ) - π / 2 by
      show -(0.5 * π) + π / 4 * ((j - 1 : ℤ) : ℝ) = _
      ring, cos_sub_pi_div_two]
    show 1 * 1 * (π / 4) * (π / 2) * _ = _
    ring
  have h3 : sin (π / 4 * ((3 - 1 : ℤ) : ℝ)) = 1 := by
    rw [show π / 4 * ((3 - 1 : ℤ) : ℝ) = π / 2 by norm_num; ring, sin_pi_div_two]
  have h1 : sin (π / 4 * ((1 - 1 : ℤ) : ℝ)) = 0 := by norm_num
  have h2 : sin (π / 4 * ((2 - 1 : ℤ) : ℝ)) = √2 / 2 := by
    rw [show π / 4 * ((2 - 1 : ℤ) : ℝ) = π / 4 by norm_num, sin_pi_div_four]
  have h4 : sin (π / 4 * ((4 - 1 : ℤ) : ℝ)) = √2 / 2 := by
    rw [show π / 4 * ((4 - 1 : ℤ) : ℝ) = π - π / 4 by norm_num; ring, sin_pi_sub, sin_pi_div_four]
  rw [hda, hda, hda, hda, h1, h2, h3, h4]
  ring

/-- In the first sample all rows are assigned. -/
theorem ramp_placed_all (j : ℤ) (h1 : 1 ≤ j) (h2 : j ≤ 3) : (ramp.placed j).isSome = true := by
  rw [ramp_valid.placed_iff, ramp_aan]
  have ha : ramp.alat j ≤ 2 * π := by
    refine (ramp_valid.alat_anti le_rfl h1 h2).trans (le_of_eq ?_)
    unfold alat
    show 2 * π * 1 * 1 * (1 - sin (π / 4 * ((1 - 1 : ℤ) : ℝ))) = _
    norm_num
  have hp := pi_gt_three
  have hs : 1 < √2 := by
    rw [show (1 : ℝ) = √1 by simp]
    exact sqrt_lt_sqrt (by norm_num) (by norm_num)
  nlinarith [mul_pos pi_pos pi_pos]

theorem ramp_placed : (ramp.placed 2).isSome = true := ramp_placed_all 2 (by decide) (by decide)

example : ramp.Valid ∧ (ramp.placed 2).isSome = true ∧ ramp.grid.Mem 3 2 := ⟨ramp_valid, ramp_placed, by decide, by decide⟩

/-! ### C76: area inside the reference contour -/

/-- C76: the area of the cells whose value exceeds the reference value of a row is the area of the polar cap of that row, up to
the areas of three partitions: too large by at most the first partition, too small by less than two neighbouring partitions. -/
theorem C76_enclosed_area (h : I.Valid) {j : ℤ} (hj : j ≠ I.nd) (hs : (I.placed j).isSome = true) :
    ∃ n, 1 ≤ n ∧ n + 1 ≤ I.npart ∧ I.qn (n + 1) ≤ I.qref j ∧ I.qref j ≤ I.qn n ∧
      I.grid.area (fun i' j' => I.qref j < I.q i' j') ≤
        I.grid.polarCap (I.grid.latitude (j + I.nd - 1)) + I.bins.an 1 ∧
      I.grid.polarCap (I.grid.latitude (j + I.nd - 1)) + I.bins.an 1 <
        I.grid.area (fun i' j' => I.qref j < I.q i' j') + I.bins.an n + I.bins.an (n + 1) := by
  obtain ⟨n, n1, n2, n3, n4⟩ := qref_of_placed h hj hs
  have hb := h.value_between n3
  rw [← n4] at hb
  have mono : ∀ x y : ℝ, x ≤ y → I.grid.area (fun i j => y < I.q i j) ≤ I.grid.area (fun i j => x < I.q i j) := by
    intro x y hxy
    rw [h.area_eq, h.area_eq]
    refine sum_le_sum fun c hc => ?_
    rw [I.mem_cells] at hc
    have hd := h.da_nonneg hc.2.1 hc.2.2
    by_cases hy : y < I.q c.1 c.2
    · rw [if_pos hy, if_pos (lt_of_le_of_lt hxy hy)]
    · rw [if_neg hy]; split_ifs
      · exact hd
      · exact le_rfl
  have han : ∀ m, I.bins.an m =
      I.grid.area (fun i j => I.qn (m + 1) < I.q i j) - I.grid.area (fun i j => I.qn m < I.q i j) := by
    intro m
    rw [(C50_partitions_partial h).2.1, h.area_eq, h.area_eq, h.area_eq, ← sum_sub_distrib]
    refine sum_congr rfl fun c hc => ?_
    have hm := h.qn_anti (by omega : m ≤ m + 1)
    by_cases hx : I.qn m < I.q c.1 c.2
    · rw [if_neg (fun y => absurd y.2 (not_le.2 hx)), if_pos (lt_of_le_of_lt hm hx), if_pos hx, sub_self]
    · rw [if_neg hx, sub_zero]
      by_cases hy : I.qn (m + 1) < I.q c.1 c.2
      · rw [if_pos hy, if_pos ⟨hy, not_lt.1 hx⟩]
      · rw [if_neg hy, if_neg (fun z => hy z.1)]
  have h0 : I.grid.area (fun i j => I.qn 1 < I.q i j) = 0 := by
    rw [h.area_eq]
    refine sum_eq_zero fun c hc => ?_
    rw [I.mem_cells] at hc
    have := (maxval_spec (A := I.q) h.imax1 h.jmax1).1 _ _ hc.1.1 hc.1.2 hc.2.1 hc.2.2
    rw [Valid.qn_one]
    exact if_neg (not_lt.2 this)
  have ha1 := han 1
  rw [h0, sub_zero, show (1 : ℤ) + 1 = 2 by norm_num] at ha1
  have f1 := n3.1
  have f2 := n3.2
  rw [aan_area h n1 (by omega), ← ha1] at f1
  rw [aan_area h (by omega) (by omega), ← ha1] at f2
  rw [h.alat_eq] at f1 f2
  have a1 := han n
  have a2 := han (n + 1)
  have m1 := mono _ _ hb.1
  have m2 := mono _ _ hb.2
  refine ⟨n, n1, by omega, hb.1, hb.2, by linarith, by linarith⟩

example : ramp.Valid ∧ (2 : ℤ) ≠ ramp.nd ∧ (ramp.placed 2).isSome = true := ⟨ramp_valid, by decide, ramp_placed⟩

/-! ### C51 -/

/-- C51: two fields on the same grid in which every value covers the same area have the same reference values. -/
def C51_Statement : Prop :=
  ∀ (I : AreaIn) (q' : ℤ → ℤ → ℝ), I.Valid → (I.withField q').Valid →
    (∀ v, I.grid.area (fun i j => I.q i j = v) = I.grid.area (fun i j => q' i j = v)) →
    ∀ j, 1 ≤ j → j ≤ I.nd → I.qref j = (I.withField q').qref j

/-- A sum over cells of a function of the value depends only on the area of each value. -/
theorem sum_by_value (s : Finset (ℤ × ℤ)) (w : ℤ × ℤ → ℝ) (q q' : ℤ × ℤ → ℝ)
    (h : ∀ v, (∑ c ∈ s, if q c = v then w c else 0) = ∑ c ∈ s, if q' c = v then w c else 0) (f : ℝ → ℝ) :
    ∑ c ∈ s, w c * f (q c) = ∑ c ∈ s, w c * f (q' c) := by
  have key : ∀ p : ℤ × ℤ → ℝ, (∀ c ∈ s, p c ∈ s.image q ∪ s.image q') →
      ∑ c ∈ s, w c * f (p c) = ∑ v ∈ s.image q ∪ s.image q', f v * ∑ c ∈ s, if p c = v then w c else 0 := by
    intro p hp
    have : ∀ v, f v * (∑ c ∈ s, if p c = v then w c else 0) = ∑ c ∈ s, if p c = v then w c * f v else 0 := by
      intro v
      rw [mul_sum]
      refine sum_congr rfl fun c _ => ?_
      split_ifs
      · ring
      · ring
    rw [sum_congr rfl fun v _ => this v, sum_comm]
    refine sum_congr rfl fun c hc => ?_
    rw [sum_ite_eq, if_pos (hp c hc)]
  rw [key q (fun c hc => mem_union_left _ (mem_image_of_mem q hc)),
    key q' (fun c hc => mem_union_right _ (mem_image_of_mem q' hc))]
  exact sum_congr rfl fun v _ => by rw [h v]

/-- C51 holds if in addition the same values occur in both fields (the rows at the poles have no area, but they take part in
the search for the largest and smallest value). Also for the circulation `cref`. -/
theorem C51_distribution_partial (q' : ℤ → ℤ → ℝ) (h : I.Valid)
    (harea : ∀ v, I.grid.area (fun i j => I.q i j = v) = I.grid.area (fun i j => q' i j = v))
    (hval : ∀ v, (∃ i j, I.grid.Mem i j ∧ I.q i j = v) ↔ ∃ i j, I.grid.Mem i j ∧ q' i j = v) (j : ℤ) :
    (I.withField q').placed j = I.placed j ∧ (I.withField q').qref j = I.qref j := by
  set I' : AreaIn := I.withField q' with hI'
  have hmax : I'.qmax = I.qmax := by
    obtain ⟨a, i, j, i1, i2, j1, j2, e⟩ := maxval_spec (A := I.q) h.imax1 h.jmax1
    obtain ⟨i', j', m, e'⟩ := (hval I.qmax).1 ⟨i, j, ⟨⟨i1, i2⟩, j1, j2⟩, e⟩
    refine maxval_eq h.imax1 h.jmax1 (fun x y x1 x2 y1 y2 => ?_) i' j' m.1 m.2 e'
    obtain ⟨i'', j'', m', e''⟩ := (hval (q' x y)).2 ⟨x, y, ⟨⟨x1, x2⟩, y1, y2⟩, rfl⟩
    rw [show I'.q x y = q' x y from rfl, ← e'']
    exact a _ _ m'.1.1 m'.1.2 m'.2.1 m'.2.2
  have hmin : I'.qmin = I.qmin := by
    obtain ⟨a, i, j, i1, i2, j1, j2, e⟩ := minval_spec (A := I.q) h.imax1 h.jmax1
    obtain ⟨i', j', m, e'⟩ := (hval I.qmin).1 ⟨i, j, ⟨⟨i1, i2⟩, j1, j2⟩, e⟩
    refine minval_eq h.imax1 h.jmax1 (fun x y x1 x2 y1 y2 => ?_) i' j' m.1 m.2 e'
    obtain ⟨i'', j'', m', e''⟩ := (hval (q' x y)).2 ⟨x, y, ⟨⟨x1, x2⟩, y1, y2⟩, rfl⟩
    rw [show I'.q x y = q' x y from rfl, ← e'']
    exact a _ _ m'.1.1 m'.1.2 m'.2.1 m'.2.2
  have hdq : I'.dq = I.dq := by unfold dq; rw [hmax, hmin]; rfl
  have hqn : ∀ n, I'.qn n = I.qn n := fun n => by unfold qn; rw [hmax, hdq]
  have hA : ∀ v, (∑ c ∈ I.cells, if I.q c.1 c.2 = v then I.da c.2 else 0) =
      ∑ c ∈ I.cells, if q' c.1 c.2 = v then I.da c.2 else 0 := fun v => by
    rw [← h.area_eq (fun i j => I.q i j = v), ← h.area_eq (fun i j => q' i j = v)]
    exact harea v
  have hsum := sum_by_value I.cells (fun c => I.da c.2) (fun c => I.q c.1 c.2) (fun c => q' c.1 c.2) hA
  have hind : ∀ (i j : ℤ), I'.ind i j = 1 + fint ((I.qmax - q' i j) / I.dq) := fun i j => by
    unfold ind; rw [hmax, hdq]; rfl
  have han : ∀ n, I'.bins.an n = I.bins.an n := fun n => by
    rw [I'.an_eq, I.an_eq]
    have := hsum (fun v => if 1 + fint ((I.qmax - v) / I.dq) = n then 1 else 0)
    simp only [mul_ite, mul_one, mul_zero] at this
    have e : I'.cells = I.cells := rfl
    rw [e]
    simp only [hind]
    exact this.symm
  have hcn : ∀ n, I'.bins.cn n = I.bins.cn n := fun n => by
    rw [I'.cn_eq, I.cn_eq]
    have := hsum (fun v => if 1 + fint ((I.qmax - v) / I.dq) = n then v else 0)
    simp only [mul_ite, mul_zero] at this
    have e : I'.cells = I.cells := rfl
    rw [e]
    simp only [hind]
    exact this.symm
  have haan : I'.aan = I.aan := by unfold aan cumul; rw [funext han]; rfl
  have hccn : I'.ccn = I.ccn := by unfold ccn cumul; rw [funext hcn]; rfl
  have halat : I'.alat = I.alat := rfl
  have hp : I'.placed j = I.placed j := by
    unfold placed
    rw [haan, hccn, halat, funext hqn]
    rfl
  refine ⟨hp, ?_⟩
  unfold qref
  rw [hp, hmax]
  rfl

/-- C51 for permutations of the cells: any bijection between cells of equal area leaves the reference values unchanged. -/
theorem C51_permutation (h : I.Valid) (σ : ℤ × ℤ ≃ ℤ × ℤ) (hσ : ∀ c, c ∈ I.cells ↔ σ c ∈ I.cells)
    (hw : ∀ c ∈ I.cells, I.grid.cell (σ c).2 = I.grid.cell c.2) (j : ℤ) :
    (I.withField (fun i j => I.q (σ (i, j)).1 (σ (i, j)).2)).placed j = I.placed j ∧
    (I.withField (fun i j => I.q (σ (i, j)).1 (σ (i, j)).2)).qref j = I.qref j := by
  have hm : ∀ i j, I.grid.Mem i j ↔ (i, j) ∈ I.cells := fun i j => by rw [I.mem_cells]; rfl
  have hval : ∀ v, (∃ i j, I.grid.Mem i j ∧ I.q i j = v) ↔
      ∃ i j, I.grid.Mem i j ∧ I.q (σ (i, j)).1 (σ (i, j)).2 = v := by
    intro v
    constructor
    · rintro ⟨i, j, a, b⟩
      refine ⟨(σ.symm (i, j)).1, (σ.symm (i, j)).2, ?_, ?_⟩
      · rw [hm, hσ]; simpa [hm] using a
      · simpa using b
    · rintro ⟨i, j, a, b⟩
      refine ⟨_, _, ?_, b⟩
      rw [hm] at a ⊢
      exact (hσ _).1 a
  have harea : ∀ v, I.grid.area (fun i j => I.q i j = v) =
      I.grid.area (fun i j => I.q (σ (i, j)).1 (σ (i, j)).2 = v) := by
    intro v
    rw [h.area_eq, h.area_eq]
    symm
    refine sum_bij (fun c _ => σ c) (fun c hc => (hσ c).1 hc) (fun a _ b _ e => σ.injective e)
      (fun c hc => ⟨σ.symm c, (hσ _).2 (by simpa using hc), by simp⟩) (fun c hc => ?_)
    rw [h.da_eq, h.da_eq, hw c hc]
  exact C51_distribution_partial _ h harea hval j

/-- Mirror image about the equator, as a permutation of cells. -/
def mirrorCells (I : AreaIn) : ℤ × ℤ ≃ ℤ × ℤ where
  toFun c := (c.1, I.jmax + 1 - c.2)
  invFun c := (c.1, I.jmax + 1 - c.2)
  left_inv c := by ext <;> simp
  right_inv c := by ext <;> simp

theorem mirror_cell (h : I.Valid) (j : ℤ) : I.grid.cell (I.jmax + 1 - j) = I.grid.cell j := by
  have hodd := h.odd
  have hnd := h.nd2
  have hn : ((I.jmax : ℝ) - 1) ≠ 0 := by
    have : (1 : ℝ) < (I.jmax : ℝ) := by exact_mod_cast (by omega : 1 < I.jmax)
    linarith
  unfold SphereGrid.cell SphereGrid.latitude grid
  push_cast
  have e : -(π / 2) + π / ((I.jmax : ℝ) - 1) * ((I.jmax : ℝ) + 1 - j - 1) =
      -(-(π / 2) + π / ((I.jmax : ℝ) - 1) * ((j : ℝ) - 1)) := by
    field_simp
    ring
  rw [e, cos_neg]

/-- C51 for the mirror image. -/
theorem C51_mirror (h : I.Valid) (j : ℤ) :
    (I.withField (fun i j => I.q i (I.jmax + 1 - j))).placed j = I.placed j ∧
    (I.withField (fun i j => I.q i (I.jmax + 1 - j))).qref j = I.qref j := by
  refine C51_permutation h I.mirrorCells (fun c => ?_) (fun c _ => mirror_cell h c.2) j
  rw [I.mem_cells, I.mem_cells]
  show _ ↔ (1 ≤ c.1 ∧ c.1 ≤ I.imax) ∧ 1 ≤ I.jmax + 1 - c.2 ∧ I.jmax + 1 - c.2 ≤ I.jmax
  omega

/-- The first sample with another value at the north pole. -/
def rampPole : ℤ → ℤ → ℝ := fun _ j => if j = 5 then 100 else 2 * (j : ℝ)

theorem rampPole_qmax : (ramp.withField rampPole).qmax = 100 :=
  maxval_eq (by decide) (by decide) (fun i j _ _ _ h => by
    have : (j : ℝ) ≤ 5 := by exact_mod_cast h
    show (if j = 5 then (100 : ℝ) else 2 * (j : ℝ)) ≤ 100
    split_ifs <;> linarith) 1 5 (by decide) (by decide) (by norm_num [rampPole, withField])

theorem rampPole_qmin : (ramp.withField rampPole).qmin = 2 :=
  minval_eq (by decide) (by decide) (fun i j _ _ h _ => by
    have : (1 : ℝ) ≤ (j : ℝ) := by exact_mod_cast h
    show 2 ≤ (if j = 5 then (100 : ℝ) else 2 * (j : ℝ))
    split_ifs <;> linarith) 1 1 (by decide) (by decide) (by norm_num [rampPole, withField])

/-- C51 fails without the extra condition: changing a value on the pole row, which has no area, changes the reference. -/
theorem C51_refuted : ¬ C51_Statement := by
  intro h
  have hv : (ramp.withField rampPole).Valid :=
    ⟨ramp_valid.imax1, ramp_valid.nd2, ramp_valid.odd, ramp_valid.npart2, ramp_valid.dphiEq, ramp_valid.dlam, ramp_valid.a0,
      by rw [rampPole_qmin, rampPole_qmax]; norm_num⟩
  have h1 := h ramp rampPole ramp_valid hv (fun v => by
    rw [ramp_valid.area_eq, ramp_valid.area_eq]
    refine sum_congr rfl fun c hc => ?_
    by_cases h5 : c.2 = 5
    · have hz : ramp.da c.2 = 0 := by
        rw [h5]
        unfold da
        rw [show -(0.5 * π) + ramp.dphi * ((5 - 1 : ℤ) : ℝ) = π / 2 by
          show -(0.5 * π) + π / 4 * ((5 - 1 : ℤ) : ℝ) = _
          norm_num; ring, cos_pi_div_two, mul_zero]
      rw [hz]; simp
    · have : rampPole c.1 c.2 = ramp.q c.1 c.2 := by
        show (if c.2 = 5 then (100 : ℝ) else 2 * (c.2 : ℝ)) = 2 * (c.2 : ℝ)
        rw [if_neg h5]
      rw [this]) 3 (by decide) (by decide)
  have e1 : ramp.qref 3 = 10 := by unfold qref; rw [if_pos (by rfl), ramp_qmax]
  have e2 : (ramp.withField rampPole).qref 3 = 100 := by
    unfold qref; rw [if_pos (by rfl), rampPole_qmax]
  rw [e1, e2] at h1
  norm_num at h1

example : ramp.Valid ∧ ∃ σ : ℤ × ℤ ≃ ℤ × ℤ, σ ≠ Equiv.refl _ ∧ ∀ c, c ∈ ramp.cells ↔ σ c ∈ ramp.cells := by
  refine ⟨ramp_valid, ramp.mirrorCells, fun h => ?_, fun c => ?_⟩
  · have := congrArg (fun e => (e (1, 1)).2) h
    simp [mirrorCells, ramp] at this
  · rw [ramp.mem_cells, ramp.mem_cells]
    show _ ↔ (1 ≤ c.1 ∧ c.1 ≤ ramp.imax) ∧ 1 ≤ ramp.jmax + 1 - c.2 ∧ ramp.jmax + 1 - c.2 ≤ ramp.jmax
    omega

/-! ### C56 -/

/-- C56: the circulation handed to the southern solver is that of the mirrored, sign-changed absolute vorticity. -/
def C56_Statement : Prop :=
  ∀ I : AreaIn, I.Valid → ∀ j, 1 ≤ j → j < I.nd →
    I.southVort.ckref j = (I.withField (fun i j => -I.q i (I.jmax + 1 - j))).ckref j

/-- C56, what the southern solver gets instead, for every absolute vorticity: the circulation of the northern hemisphere. It is
what the property asks for only if the vorticity distribution is symmetric under change of sign. -/
theorem C56_north_circulation_partial (h : I.Valid) (j : ℤ) : I.southVort.ckref j = I.ckref j := by
  unfold ckref cref southVort
  rw [(C51_mirror h j).1]

/-- A vorticity field on a grid of three latitudes, with value 1 at the equator. -/
def small : AreaIn where
  imax := 2
  jmax := 3
  nd := 2
  npart := 3
  q := fun _ j => (j : ℝ) - 1
  a := 1
  dphi := π / 2
  dlambda := π

theorem small_qmax : small.qmax = 2 :=
  maxval_eq (by decide) (by decide) (fun i j _ _ _ h => by
    have : (j : ℝ) ≤ 3 := by exact_mod_cast h
    show (j : ℝ) - 1 ≤ 2
    linarith) 1 3 (by decide) (by decide) (by norm_num [small])

theorem small_qmin : small.qmin = 0 :=
  minval_eq (by decide) (by decide) (fun i j _ _ h _ => by
    have : (1 : ℝ) ≤ (j : ℝ) := by exact_mod_cast h
    show 0 ≤ (j : ℝ) - 1
    linarith) 1 1 (by decide) (by decide) (by norm_num [small])

theorem small_valid : small.Valid where
  imax1 := by decide
  nd2 := by decide
  odd := by rfl
  npart2 := by decide
  dphiEq := by norm_num [small]
  dlam := by norm_num [small]
  a0 := by norm_num [small]
  spread := by rw [small_qmax, small_qmin]; norm_num

/-- The mirrored, sign-changed field. -/
def smallNeg : AreaIn := small.withField (fun i j => -small.q i (small.jmax + 1 - j))

theorem smallNeg_q (i j : ℤ) : smallNeg.q i j = (j : ℝ) - 3 := by
  show -(((3 + 1 - j : ℤ) : ℝ) - 1) = _
  push_cast; ring

theorem smallNeg_qmax : smallNeg.qmax = 0 :=
  maxval_eq (by decide) (by decide) (fun i j _ _ _ h => by
    have : (j : ℝ) ≤ 3 := by exact_mod_cast h
    rw [smallNeg_q]; linarith) 1 3 (by decide) (by decide) (by rw [smallNeg_q]; norm_num)

theorem smallNeg_qmin : smallNeg.qmin = -2 :=
  minval_eq (by decide) (by decide) (fun i j _ _ h _ => by
    have : (1 : ℝ) ≤ (j : ℝ) := by exact_mod_cast h
    rw [smallNeg_q]; linarith) 1 1 (by decide) (by decide) (by rw [smallNeg_q]; norm_num)

theorem smallNeg_valid : smallNeg.Valid where
  imax1 := by decide
  nd2 := by decide
  odd := by rfl
  npart2 := by decide
  dphiEq := by norm_num [smallNeg, small, withField]
  dlam := by norm_num [smallNeg, small, withField]
  a0 := by norm_num [smallNeg, small, withField]
  spread := by rw [smallNeg_qmax, smallNeg_qmin]; norm_num

/-- On the grid of three latitudes only the equator has area; if its cells are all in partition 2 the circulation is known. -/
theorem three_row_ckref (I : AreaIn) (h : I.Valid) (e1 : I.imax = 2) (e2 : I.jmax = 3) (e3 : I.npart = 3) (ea : I.a = 1)
    (v : ℝ) (hq : ∀ i, 1 ≤ i → i ≤ 2 → I.q i 2 = v) (hi : ∀ i, 1 ≤ i → i ≤ 2 → I.ind i 2 = 2) : I.ckref 1 = 2 * π * v := by
  have hdphi : I.dphi = π / 2 := by rw [h.dphiEq, e2]; norm_num
  have hdl : I.dlambda = π := by rw [h.dlam, e1]; norm_num
  have da1 : I.da 1 = 0 := by
    unfold da
    rw [show -(0.5 * π) + I.dphi * ((1 - 1 : ℤ) : ℝ) = -(π / 2) by norm_num; ring, cos_neg, cos_pi_div_two, mul_zero]
  have da3 : I.da 3 = 0 := by
    unfold da
    rw [hdphi, show -(0.5 * π) + π / 2 * ((3 - 1 : ℤ) : ℝ) = π / 2 by norm_num; ring, cos_pi_div_two, mul_zero]
  have da2 : I.da 2 = π / 2 * π := by
    unfold da
    rw [ea, hdphi, hdl, show -(0.5 * π) + π / 2 * ((2 - 1 : ℤ) : ℝ) = 0 by norm_num; ring, cos_zero]
    ring
  have sum_eq : ∀ f : ℤ → ℤ → ℝ, (∀ i, f i 1 = 0) → (∀ i, f i 3 = 0) → ∑ c ∈ I.cells, f c.1 c.2 = f 1 2 + f 2 2 := by
    intro f f1 f3
    rw [← I.sum_cells, e1, e2, show Icc (1 : ℤ) 3 = {1, 2, 3} by decide, show Icc (1 : ℤ) 2 = {1, 2} by decide]
    simp [f1, f3]
  have an2 : I.bins.an 2 = π * π := by
    rw [I.an_eq, sum_eq (fun i j => if I.ind i j = 2 then I.da j else 0) (fun i => by simp [da1]) (fun i => by simp [da3]),
      hi 1 (by norm_num) (by norm_num), hi 2 (by norm_num) (by norm_num), da2]
    simp; ring
  have an3 : I.bins.an 3 = 0 := by
    rw [I.an_eq, sum_eq (fun i j => if I.ind i j = 3 then I.da j else 0) (fun i => by simp [da1]) (fun i => by simp [da3]),
      hi 1 (by norm_num) (by norm_num), hi 2 (by norm_num) (by norm_num)]
    norm_num
  have cn2 : I.bins.cn 2 = π * π * v := by
    rw [I.cn_eq, sum_eq (fun i j => if I.ind i j = 2 then I.da j * I.q i j else 0) (fun i => by simp [da1])
      (fun i => by simp [da3]), hi 1 (by norm_num) (by norm_num), hi 2 (by norm_num) (by norm_num), da2,
      hq 1 (by norm_num) (by norm_num), hq 2 (by norm_num) (by norm_num)]
    simp; ring
  have a1 := h.aan_one
  have a2 : I.aan 2 = π * π := by
    rw [I.aan_eq 2 (by norm_num) (by omega), show Icc (2 : ℤ) 2 = {2} by decide, sum_singleton, an2]
  have c1 : I.ccn 1 = 0 := by
    rw [I.ccn_eq 1 (by norm_num) (by omega), Icc_eq_empty (by norm_num), sum_empty]
  have c2 : I.ccn 2 = π * π * v := by
    rw [I.ccn_eq 2 (by norm_num) (by omega), show Icc (2 : ℤ) 2 = {2} by decide, sum_singleton, cn2]
  have hal : I.alat 1 = 2 * π := by unfold alat; rw [ea]; norm_num
  have hf : I.Falls 1 1 := by
    refine ⟨?_, ?_⟩
    · rw [a1, hal]; positivity
    · rw [show (1 : ℤ) + 1 = 2 by norm_num, a2, hal]
      have := pi_gt_three
      nlinarith [pi_pos]
  have hn := h.npart2
  rcases I.placed_spec (by omega) 1 with ⟨_, x⟩ | ⟨nn, x1, x2, x3, x4⟩
  · exact absurd hf (x 1 le_rfl (by omega))
  · have : nn = 1 := h.falls_unique x1 x2 le_rfl (by omega) x3 hf
    subst this
    unfold ckref cref
    rw [x4]
    show I.ccn 1 * (1 - _) + I.ccn (1 + 1) * ((I.alat 1 - I.aan 1) / (I.aan (1 + 1) - I.aan 1)) = _
    rw [show (1 : ℤ) + 1 = 2 by norm_num, c1, c2, a1, a2, hal]
    have := pi_ne_zero
    field_simp
    ring

theorem small_ind (i : ℤ) : small.ind i 2 = 2 := by
  have hdq : small.dq = 1 := by unfold dq; rw [small_qmax, small_qmin]; norm_num [small]
  unfold ind
  rw [small_qmax, hdq, show small.q i 2 = 1 by norm_num [small], fint_nonneg (by norm_num)]
  norm_num

theorem smallNeg_ind (i : ℤ) : smallNeg.ind i 2 = 2 := by
  have hdq : smallNeg.dq = 1 := by unfold dq; rw [smallNeg_qmax, smallNeg_qmin]; norm_num [smallNeg, small, withField]
  unfold ind
  rw [smallNeg_qmax, hdq, smallNeg_q, fint_nonneg (by norm_num)]
  norm_num

/-- C56 fails: the circulation has the wrong sign. -/
theorem C56_refuted : ¬ C56_Statement := by
  intro h
  have h1 := h small small_valid 1 le_rfl (by decide)
  rw [C56_north_circulation_partial small_valid] at h1
  have e1 := three_row_ckref small small_valid rfl rfl rfl rfl 1 (fun i _ _ => by norm_num [small]) (fun i _ _ => small_ind i)
  have e2 := three_row_ckref smallNeg smallNeg_valid rfl rfl rfl rfl (-1)
    (fun i _ _ => by rw [smallNeg_q]; norm_num) (fun i _ _ => smallNeg_ind i)
  have h2 : small.ckref 1 = smallNeg.ckref 1 := h1
  rw [e1, e2] at h2
  have := pi_pos
  linarith

example : small.Valid := small_valid

end Falwa.AreaIn
