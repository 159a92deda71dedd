import Verif.Lemmas.QGFawa
import Verif.Props.Minimal
import Verif.Props.Mirror
import Verif.Props.Qgpv
import Verif.Spec.QgLwa

/-!
# FAWA of the QG routines (C131, C132)

`compute_qref_and_fawa_first` returns the finite-amplitude wave activity `(cref - cbar)/(2 pi a)`: the circulation inside the
contour that encloses the area of the polar cap, less the circulation of the cap. In theory it is the zonal mean of local wave
activity. The theorems say how far this holds for the arrays that the routines compute.
-/

noncomputable section

namespace Falwa

open Real Finset Spec Classical

namespace AreaIn

variable {I : AreaIn}

/-- The total displaced QGPV of row `j`, all longitudes and both hemispheres: cells south of the row with values above `Q`, cells
at or north of the row with values below `Q`. -/
def displaced (I : AreaIn) (j : ℤ) (Q : ℝ) : ℝ :=
  I.grid.integral (fun i r => |I.q i r - Q|) (fun i r => DisplacedNorth (I.q i) Q (I.nd + j - 1) r)

/-- The circulation of the first partition, which the code leaves out: cells with values above `qmax - dq`. -/
def omitted (I : AreaIn) (Q : ℝ) : ℝ :=
  I.grid.integral (fun i r => I.q i r - Q) (fun i r => I.qmax - I.dq < I.q i r)

/-- Bound of the grid error at row `j`: one partition width times the area of the sphere, one row, and the midpoint rule. -/
def fawaTol (I : AreaIn) (j : ℤ) : ℝ :=
  I.dq * I.grid.area (fun _ _ => True) +
    (2 * π * I.a ^ 2 * I.dphi * ((I.qmax - I.qmin) * cos (I.dphi * ((j : ℝ) - 1))) +
      I.dphi ^ 2 / 20 * (|I.qref j| * I.grid.polarCap (I.grid.latitude (j + I.nd - 1))))

theorem Valid.displaced_eq (h : I.Valid) {j : ℤ} (h1 : 1 ≤ j) (Q : ℝ) :
    I.displaced j Q = ∑ c ∈ I.cells, I.da c.2 * max (I.q c.1 c.2 - Q) 0 -
      ∑ r ∈ Icc j I.nd, ∑ i ∈ Icc 1 I.imax, I.da (r + (I.nd - 1)) * (I.q i (r + (I.nd - 1)) - Q) := by
  have hodd := h.odd
  have e : ∑ r ∈ Icc j I.nd, ∑ i ∈ Icc 1 I.imax, I.da (r + (I.nd - 1)) * (I.q i (r + (I.nd - 1)) - Q) =
      ∑ c ∈ I.cells, if I.nd + j - 1 ≤ c.2 then I.da c.2 * (I.q c.1 c.2 - Q) else 0 := by
    rw [← I.sum_cells (fun i r => if I.nd + j - 1 ≤ r then I.da r * (I.q i r - Q) else 0)]
    have s1 : ∀ r ∈ Icc 1 I.jmax, ∑ i ∈ Icc 1 I.imax, (if I.nd + j - 1 ≤ r then I.da r * (I.q i r - Q) else 0) =
        if I.nd + j - 1 ≤ r then ∑ i ∈ Icc 1 I.imax, I.da r * (I.q i r - Q) else 0 := fun r _ => by
      split_ifs
      · rfl
      · exact sum_const_zero
    rw [sum_congr rfl s1, ← sum_filter]
    refine sum_nbij' (fun r => r + (I.nd - 1)) (fun r => r - (I.nd - 1)) ?_ ?_ ?_ ?_ ?_
    · intro r hr; rw [mem_Icc] at hr; rw [mem_filter, mem_Icc]; omega
    · intro r hr; rw [mem_filter, mem_Icc] at hr; rw [mem_Icc]; omega
    · intro r _; ring
    · intro r _; ring
    · intro r _; rfl
  unfold displaced
  rw [h.integral_eq, e, ← sum_sub_distrib]
  refine sum_congr rfl fun c _ => ?_
  by_cases hr : I.nd + j - 1 ≤ c.2
  · rw [if_pos hr]
    by_cases hq : I.q c.1 c.2 < Q
    · rw [if_pos (show DisplacedNorth (I.q c.1) Q (I.nd + j - 1) c.2 from Or.inl ⟨hr, hq⟩), abs_of_neg (by linarith),
        max_eq_right (by linarith)]
      ring
    · rw [if_neg, max_eq_left (by linarith)]
      · ring
      · rintro (⟨_, x⟩ | ⟨x, _⟩)
        · exact hq x
        · omega
  · rw [if_neg hr]
    by_cases hq : Q < I.q c.1 c.2
    · rw [if_pos (show DisplacedNorth (I.q c.1) Q (I.nd + j - 1) c.2 from Or.inr ⟨by omega, hq⟩), abs_of_pos (by linarith),
        max_eq_left (by linarith)]
      ring
    · rw [if_neg, max_eq_right (by linarith)]
      · ring
      · rintro (⟨x, _⟩ | ⟨_, x⟩)
        · exact hr x
        · exact hq x

/-- C131, circulation: on a row that the area analysis places, the circulation inside the contour of the reference value exceeds
the circulation of the polar cap by the displaced QGPV of the whole sphere, less the first partition, up to the grid error. -/
theorem C131_circulation (h : I.Valid) {j : ℤ} (hj : I.Assigned j) (v : ℝ) :
    |I.cref v j - I.cbar j - (I.displaced j (I.qref j) - I.omitted (I.qref j))| ≤ I.fawaTol j := by
  obtain ⟨⟨h1, h2⟩, hs⟩ := hj
  have hn := h.npart2
  rcases I.placed_spec (by omega) j with ⟨hnone, _⟩ | ⟨nn, n1, n2, hf, hp⟩
  · rw [hnone] at hs; simp at hs
  have hQ : I.qref j = (I.value j nn).1 := by
    unfold qref; rw [if_neg (by omega), hp]; rfl
  have hC : I.cref v j = (I.value j nn).2 := by unfold cref; rw [hp]; rfl
  have hc := h.circ n1 n2 hf
  have hb := h.cbar_err (h.value_mem n1 n2 hf) h1 (by omega : j ≤ I.nd)
  have hD := h.displaced_eq h1 (I.value j nn).1
  have hO : I.omitted (I.value j nn).1 = ∑ c ∈ I.cells,
      if I.ind c.1 c.2 = 1 then I.da c.2 * (I.q c.1 c.2 - (I.value j nn).1) else 0 := by
    unfold omitted
    rw [h.integral_eq]
    refine sum_congr rfl fun c hc => ?_
    have hi := h.ind_le_iff hc 1
    have hc' := hc
    rw [I.mem_cells] at hc'
    have i1 := (h.ind_spec hc'.1 hc'.2).1
    have q2 : I.qn (1 + 1) = I.qmax - I.dq := by unfold qn; norm_num
    rw [q2] at hi
    by_cases hx : I.ind c.1 c.2 = 1
    · rw [if_pos hx, if_pos (hi.1 (by omega))]
    · rw [if_neg hx, if_neg (fun y => hx (by have := hi.2 y; omega))]
  have hw1 : 0 ≤ ∑ c ∈ I.cells, I.da c.2 * max (I.q c.1 c.2 - (I.value j nn).1) 0 -
      ∑ c ∈ I.cells, I.da c.2 * (wt nn ((I.alat j - I.aan nn) / (I.aan (nn + 1) - I.aan nn)) (I.ind c.1 c.2) *
        (I.q c.1 c.2 - (I.value j nn).1)) := by
    rw [← sum_sub_distrib]
    refine sum_nonneg fun c hc => ?_
    rw [I.mem_cells] at hc
    rw [← mul_sub]
    exact mul_nonneg (h.da_nonneg hc.2.1 hc.2.2) (h.wt_err hf hc.1 hc.2).1
  have hw2 : ∑ c ∈ I.cells, I.da c.2 * max (I.q c.1 c.2 - (I.value j nn).1) 0 -
      ∑ c ∈ I.cells, I.da c.2 * (wt nn ((I.alat j - I.aan nn) / (I.aan (nn + 1) - I.aan nn)) (I.ind c.1 c.2) *
        (I.q c.1 c.2 - (I.value j nn).1)) ≤ I.dq * I.grid.area (fun _ _ => True) := by
    rw [← sum_sub_distrib, h.area_eq, mul_sum]
    refine sum_le_sum fun c hc => ?_
    rw [I.mem_cells] at hc
    rw [← mul_sub, if_pos trivial, mul_comm I.dq]
    exact mul_le_mul_of_nonneg_left (h.wt_err hf hc.1 hc.2).2 (h.da_nonneg hc.2.1 hc.2.2)
  have hdq : 0 ≤ I.dq * I.grid.area (fun _ _ => True) := hw1.trans hw2
  unfold fawaTol
  rw [hQ, hC, hD, hO, ← h.alat_eq]
  rw [abs_le] at hb ⊢
  constructor <;> linarith [hb.1, hb.2]

/-- The displaced QGPV is local wave activity of the hemisphere plus what intrudes from the other hemisphere. -/
theorem C131_split (h : I.Valid) {j : ℤ} (h1 : 1 ≤ j) (Q : ℝ) :
    I.displaced j Q = I.a * I.dlambda * ∑ i ∈ Icc 1 I.imax, waveActivityNorth (Icc I.nd I.jmax) (I.q i) Q
        (fun r => I.a * cos (I.grid.latitude r) * I.dphi) (I.nd + j - 1) +
      I.grid.integral (fun i r => I.q i r - Q) (fun i r => r < I.nd ∧ Q < I.q i r) := by
  have hodd := h.odd
  have hnd := h.nd2
  have hda : ∀ r, I.grid.cell r = I.a * I.dlambda * (I.a * cos (I.grid.latitude r) * I.dphi) := fun r => by
    unfold SphereGrid.cell
    rw [h.dlam, h.dphiEq]
    unfold grid
    push_cast
    ring
  unfold displaced SphereGrid.integral
  change ∑ r ∈ Icc 1 I.jmax, ∑ i ∈ Icc 1 I.imax, _ = _ + ∑ r ∈ Icc 1 I.jmax, ∑ i ∈ Icc 1 I.imax, _
  have e : ∑ i ∈ Icc 1 I.imax, waveActivityNorth (Icc I.nd I.jmax) (I.q i) Q
        (fun r => I.a * cos (I.grid.latitude r) * I.dphi) (I.nd + j - 1) =
      ∑ r ∈ Icc 1 I.jmax, ∑ i ∈ Icc 1 I.imax, if I.nd ≤ r ∧ DisplacedNorth (I.q i) Q (I.nd + j - 1) r then
        |I.q i r - Q| * (I.a * cos (I.grid.latitude r) * I.dphi) else 0 := by
    rw [sum_comm]
    refine sum_congr rfl fun i _ => ?_
    unfold waveActivityNorth
    rw [← sum_filter]
    refine sum_congr ?_ fun _ _ => rfl
    ext r
    simp only [mem_filter, mem_Icc]
    constructor
    · rintro ⟨⟨a, b⟩, c⟩; exact ⟨⟨by omega, b⟩, a, c⟩
    · rintro ⟨⟨_, b⟩, a, c⟩; exact ⟨⟨a, b⟩, c⟩
  rw [e, mul_sum, ← sum_add_distrib]
  refine sum_congr rfl fun r _ => ?_
  rw [mul_sum, ← sum_add_distrib]
  refine sum_congr rfl fun i _ => ?_
  rw [hda]
  by_cases hr : I.nd ≤ r
  · rw [if_neg (fun x => absurd x.1 (by omega) : ¬ (r < I.nd ∧ Q < I.q i r)), add_zero]
    by_cases hd : DisplacedNorth (I.q i) Q (I.nd + j - 1) r
    · rw [if_pos hd, if_pos ⟨hr, hd⟩]; ring
    · rw [if_neg hd, if_neg (fun x => hd x.2), mul_zero]
  · rw [if_neg (show ¬ (I.nd ≤ r ∧ DisplacedNorth (I.q i) Q (I.nd + j - 1) r) from fun x => hr x.1), mul_zero, zero_add]
    by_cases hq : Q < I.q i r
    · rw [if_pos (show DisplacedNorth (I.q i) Q (I.nd + j - 1) r from Or.inr ⟨by omega, hq⟩), if_pos ⟨by omega, hq⟩]
      beta_reduce
      rw [abs_of_pos (by linarith)]
    · rw [if_neg, if_neg (fun x => hq x.2)]
      rintro (⟨x, _⟩ | ⟨_, x⟩)
      · omega
      · exact hq x

theorem ramp_assigned : ramp.Assigned 2 := ⟨by decide, ramp_placed_all 2 (by norm_num) (by norm_num)⟩

/-- The ramp meets the hypotheses; its middle row is placed. -/
example : ramp.Valid ∧ ramp.Assigned 2 ∧ (1 : ℤ) ≤ 2 := ⟨ramp_valid, ramp_assigned, by norm_num⟩

/-- What is left out is at most the largest departure times the area of the first partition. -/
theorem C131_omitted (h : I.Valid) {Q : ℝ} (hQ : I.qmin ≤ Q ∧ Q ≤ I.qmax) :
    |I.omitted Q| ≤ (I.qmax - I.qmin) * I.grid.area (fun i r => I.qmax - I.dq < I.q i r) := by
  unfold omitted
  rw [h.integral_eq, h.area_eq, mul_sum]
  refine (abs_sum_le_sum_abs _ _).trans (sum_le_sum fun c hc => ?_)
  rw [I.mem_cells] at hc
  obtain ⟨a, b⟩ := h.q_mem hc.1 hc.2
  split_ifs
  · rw [abs_mul, abs_of_nonneg (h.da_nonneg hc.2.1 hc.2.2), mul_comm]
    refine mul_le_mul_of_nonneg_right ?_ (h.da_nonneg hc.2.1 hc.2.2)
    rw [abs_le]
    constructor <;> linarith [hQ.1, hQ.2]
  · simp

example : ramp.Valid ∧ ramp.qmin ≤ 5 ∧ (5 : ℝ) ≤ ramp.qmax := ⟨ramp_valid, by rw [ramp_qmin]; norm_num, by rw [ramp_qmax]; norm_num⟩

end AreaIn

namespace NhnIn

variable {I : NhnIn}

/-- C131, `compute_qref_and_fawa_first`: on interior levels and placed rows, FAWA is the zonal mean of the local wave activity of
the hemisphere, plus the mean of what intrudes from the other hemisphere, less the first partition, up to the grid error. -/
theorem C131_fawa (unset : ℤ → ℤ → ℝ) {j k : ℤ} (hk : 2 ≤ k ∧ k ≤ I.kmax - 1) (hv : (I.area I.pv k).Valid)
    (hj : (I.area I.pv k).Assigned j) :
    |I.fawa unset j k - ((∑ i ∈ Icc 1 I.imax, waveActivityNorth (Icc I.nd I.jmax) (fun r => I.pv i r k) (I.qrefRaw j k)
        (fun r => I.a * cos ((I.area I.pv k).grid.latitude r) * I.dphi) (I.nd + j - 1)) / (I.imax : ℝ) +
      ((I.area I.pv k).grid.integral (fun i r => I.pv i r k - I.qrefRaw j k) (fun i r => r < I.nd ∧ I.qrefRaw j k < I.pv i r k) -
        (I.area I.pv k).omitted (I.qrefRaw j k)) / (2 * π * I.a))| ≤ (I.area I.pv k).fawaTol j / (2 * π * I.a) := by
  have key := AreaIn.C131_circulation hv hj 0
  have hsplit := AreaIn.C131_split hv hj.1.1 ((I.area I.pv k).qref j)
  have hq : I.qrefRaw j k = (I.area I.pv k).qref j := if_pos hk
  have ha : 0 < I.a := hv.a0
  have hm : (0 : ℝ) < (I.imax : ℝ) := hv.imax_pos
  have hl : (I.imax : ℝ) * I.dlambda = 2 * π := hv.mul_dlam
  have hP : 0 < 2 * π * I.a := by positivity
  unfold fawa
  rw [if_pos ⟨hk, hj⟩, hq]
  change (I.area I.pv k).displaced j ((I.area I.pv k).qref j) = I.a * I.dlambda *
    (∑ i ∈ Icc 1 I.imax, waveActivityNorth (Icc I.nd I.jmax) (fun r => I.pv i r k) ((I.area I.pv k).qref j)
        (fun r => I.a * cos ((I.area I.pv k).grid.latitude r) * I.dphi) (I.nd + j - 1)) +
    (I.area I.pv k).grid.integral (fun i r => I.pv i r k - (I.area I.pv k).qref j) (fun i r => r < I.nd ∧ (I.area I.pv k).qref j < I.pv i r k) at hsplit
  rw [hsplit] at key
  generalize ∑ i ∈ Icc 1 I.imax, waveActivityNorth (Icc I.nd I.jmax) (fun r => I.pv i r k) ((I.area I.pv k).qref j)
        (fun r => I.a * cos ((I.area I.pv k).grid.latitude r) * I.dphi) (I.nd + j - 1) = L at key ⊢
  rw [le_div_iff₀ hP]
  refine le_trans (le_of_eq ?_) key
  rw [← abs_of_pos hP, ← abs_mul, abs_of_pos hP]
  congr 1
  have e : I.a * I.dlambda * L = 2 * π * I.a * (L / (I.imax : ℝ)) := by
    rw [← hl]; field_simp
  rw [e]
  field_simp
  ring

/-- A call with the ramp as QGPV of the middle level. -/
def rampCall : NhnIn where
  imax := 4
  jmax := 5
  kmax := 3
  nd := 3
  nnd := 5
  jb := 1
  pv := fun _ j _ => 2 * (j : ℝ)
  uu := fun _ _ _ => 0
  vort := fun _ j _ => 2 * (j : ℝ)
  pt := fun _ _ k => (k : ℝ)
  tb := fun k => (k : ℝ)
  statn := fun _ => 1
  a := 1
  om := 1
  dz := 1
  h := 1
  dphi := π / 4
  dlambda := π / 2
  rr := 1
  cp := 2
  inv := fun M => M

example : (2 ≤ (2 : ℤ) ∧ (2 : ℤ) ≤ rampCall.kmax - 1) ∧ (rampCall.area rampCall.pv 2).Valid ∧
    (rampCall.area rampCall.pv 2).Assigned 2 := ⟨by decide, AreaIn.ramp_valid, AreaIn.ramp_assigned⟩

/-- C132: every element of the returned `fawa` is determined by the arguments. -/
def C132_Statement : Prop :=
  ∀ I : NhnIn, (∀ k, 2 ≤ k → k ≤ I.kmax - 1 → (I.area I.pv k).Valid) → ∀ unset unset' : ℤ → ℤ → ℝ, ∀ j k,
    1 ≤ j → j ≤ I.nd → 1 ≤ k → k ≤ I.kmax → I.fawa unset j k = I.fawa unset' j k

/-- C132, which elements are: those of interior levels and of rows between the equator and the pole whose polar cap is smaller than
the area of the sphere less the area of the first partition. All others have the value of unset memory. -/
theorem C132_determined_partial (ha : I.a ≠ 0) (j k : ℤ) :
    (∀ unset unset' : ℤ → ℤ → ℝ, I.fawa unset j k = I.fawa unset' j k) ↔
      (2 ≤ k ∧ k ≤ I.kmax - 1) ∧ (I.area I.pv k).Assigned j := by
  constructor
  · intro h
    by_contra hx
    have h0 := h (fun _ _ => 0) (fun _ _ => 2 * π * I.a)
    unfold fawa at h0
    rw [if_neg hx, if_neg hx, div_self (by have := pi_pos.ne'; positivity), zero_div] at h0
    exact zero_ne_one h0
  · intro h u u'
    unfold fawa
    rw [if_pos h, if_pos h]

example : rampCall.a ≠ 0 := by norm_num [rampCall]

/-- C132 in terms of the field. -/
theorem C132_rows_partial (ha : I.a ≠ 0) (j k : ℤ) (hv : (I.area I.pv k).Valid) :
    (∀ unset unset' : ℤ → ℤ → ℝ, I.fawa unset j k = I.fawa unset' j k) ↔
      (2 ≤ k ∧ k ≤ I.kmax - 1) ∧ (1 ≤ j ∧ j ≤ I.nd - 1) ∧
        (I.area I.pv k).grid.polarCap ((I.area I.pv k).grid.latitude (j + I.nd - 1)) <
          (I.area I.pv k).grid.area (fun _ _ => True) -
            (I.area I.pv k).grid.area (fun i r => (I.area I.pv k).qmax - (I.area I.pv k).dq < I.pv i r k) := by
  rw [C132_determined_partial ha]
  have := (AreaIn.C49_assigned_partial hv j).1
  unfold AreaIn.Assigned
  rw [this]
  rfl

/-- C132 fails: the row of the pole is never determined, nor are the lowest and the highest level. -/
theorem C132_pole (ha : I.a ≠ 0) (j k : ℤ) (h : j = I.nd ∨ k = 1 ∨ k = I.kmax) :
    ¬ ∀ unset unset' : ℤ → ℤ → ℝ, I.fawa unset j k = I.fawa unset' j k := by
  rw [C132_determined_partial ha]
  rintro ⟨h1, ⟨h2, _⟩⟩
  have h3 : j ≤ I.nd - 1 := h2.2
  omega

theorem rampCall_valid (k : ℤ) : (rampCall.area rampCall.pv k).Valid := AreaIn.ramp_valid

theorem C132_refuted : ¬ C132_Statement := by
  intro h
  exact C132_pole (I := rampCall) (by norm_num [rampCall]) 3 2 (Or.inl rfl) fun u u' =>
    h rampCall (fun k _ _ => rampCall_valid k) u u' 3 2 (by decide) (by decide) (by decide) (by decide)

end NhnIn

namespace RefIn

variable {I : RefIn}

theorem cbar_area (k : ℤ) : I.cbar k = (I.area k).cbar := rfl

/-- C131, boundary condition of `compute_reference_states`: on interior levels the reference wind at the equator that every
sweep imposes is the zonal-mean wind plus the FAWA of the equator row: mean local wave activity of the hemisphere plus
intrusions, less the first partition, up to the grid error. -/
theorem C131_boundary {k : ℤ} (hk : 2 ≤ k ∧ k ≤ I.kmax - 1) (hv : (I.area k).Valid) (hj : (I.area k).Assigned 1) :
    |I.bound k - (I.ubar 1 k + ((I.area k).displaced 1 ((I.area k).qref 1) - (I.area k).omitted ((I.area k).qref 1)) /
      (2 * π * I.a))| ≤ (I.area k).fawaTol 1 / (2 * π * I.a) := by
  have key := AreaIn.C131_circulation hv hj (I.unset 1 k)
  have ha : 0 < I.a := hv.a0
  have hP : 0 < 2 * π * I.a := by positivity
  unfold bound
  rw [if_pos hk, le_div_iff₀ hP]
  refine le_trans (le_of_eq ?_) key
  rw [← abs_of_pos hP, ← abs_mul, abs_of_pos hP]
  congr 1
  rw [cbar_area]
  field_simp
  ring

end RefIn

namespace Atmos

variable {A : Atmos}

/-- Away from the equator the reference QGPV of the flux computation is the one of the area analysis. -/
theorem qref_nhn22 (hodd : A.nlat = 2 * A.nd - 1) (hom : A.om ≠ 0) {j k : ℤ} (h1 : 2 ≤ j) (h2 : j ≤ A.nd) :
    A.qref .nhn22 (A.rows - A.nd + j) k = A.nhnN.qrefRaw j k := by
  have hr : A.rows = A.nd ∨ A.rows = A.nlat := by
    unfold rows; split_ifs <;> simp
  have hc : ¬ (A.nhOnly = false ∧ A.rows - A.nd + j ≤ A.nd) := by
    rintro ⟨h3, h4⟩
    have : A.rows = A.nlat := by unfold rows; rw [h3]; rfl
    omega
  have hs : sin (A.dphi * ((j - 1 : ℤ) : ℝ)) ≠ 0 := by
    have hn : (0 : ℝ) < ((A.nlat - 1 : ℤ) : ℝ) := by exact_mod_cast (by omega : 0 < A.nlat - 1)
    have hj : (0 : ℝ) < ((j - 1 : ℤ) : ℝ) := by exact_mod_cast (by omega : 0 < j - 1)
    have hj2 : ((j - 1 : ℤ) : ℝ) < ((A.nlat - 1 : ℤ) : ℝ) := by exact_mod_cast (by omega : j - 1 < A.nlat - 1)
    refine (sin_pos_of_pos_of_lt_pi ?_ ?_).ne'
    · unfold dphi; positivity
    · unfold dphi
      rw [div_mul_eq_mul_div, div_lt_iff₀ hn]
      exact mul_lt_mul_of_pos_left hj2 pi_pos
  unfold qref
  have e1 : A.qrefStored .nhn22 (A.rows - A.nd + j) k = A.nhnN.qrefOut j k := by
    show A.storeRef A.nd A.nhnN.qrefOut A.nhn.south.qrefOut (A.rows - A.nd + j) k = _
    unfold storeRef
    rw [if_neg hc, if_pos (by omega)]
    congr 1
    ring
  have e2 : A.lat (A.outRow (A.rows - A.nd + j)) = A.dphi * ((j - 1 : ℤ) : ℝ) := by
    unfold lat outRow
    congr 2
    omega
  rw [e1, e2]
  unfold NhnIn.qrefOut NhnIn.qref
  rw [if_neg (by omega)]
  unfold NhnIn.qrefNorm
  show A.nhnN.qrefRaw j k / sin (A.dphi * ((j - 1 : ℤ) : ℝ)) / (2 * A.om) * 2 * A.om * sin (A.dphi * ((j - 1 : ℤ) : ℝ)) = _
  field_simp

/-- C131 for `QGFieldNHN22`, Northern Hemisphere: on interior levels, in every analysed row that the area analysis places, the
FAWA that the solver returns is the zonal mean of the array `lwa`, plus the mean of what intrudes from the Southern Hemisphere,
less the first partition, up to the grid error. -/
theorem C131_mean (unset : ℤ → ℤ → ℝ) (hodd : A.nlat = 2 * A.nd - 1) (hom : A.om ≠ 0) (hb : 0 ≤ A.jb) (hb' : A.jb + 2 ≤ A.nd)
    {j k : ℤ} (hj2 : 2 ≤ j) (hjb : A.jb + 1 ≤ j) (hk : 2 ≤ k ∧ k ≤ A.kmax - 1) (hv : (A.nhnN.area (A.qgpv .nhn22) k).Valid)
    (hj : (A.nhnN.area (A.qgpv .nhn22) k).Assigned j) :
    |A.nhnN.fawa unset j k - ((∑ i ∈ Icc 1 A.nlon, (A.analysis .nhn22).lwa i (A.rows - A.nd + j) k) / (A.nlon : ℝ) +
      ((A.nhnN.area (A.qgpv .nhn22) k).grid.integral (fun i r => A.qgpv .nhn22 i r k - A.qref .nhn22 (A.rows - A.nd + j) k)
          (fun i r => r < A.nd ∧ A.qref .nhn22 (A.rows - A.nd + j) k < A.qgpv .nhn22 i r k) -
        (A.nhnN.area (A.qgpv .nhn22) k).omitted (A.qref .nhn22 (A.rows - A.nd + j) k)) / (2 * π * A.a))| ≤
      (A.nhnN.area (A.qgpv .nhn22) k).fawaTol j / (2 * π * A.a) := by
  have hjn : j ≤ A.nd - 1 := hj.1.2
  have key := NhnIn.C131_fawa (I := A.nhnN) unset hk hv hj
  have hq := qref_nhn22 (k := k) hodd hom hj2 (by omega)
  have ha : 0 < A.a := hv.a0
  have hS : (A.analysis .nhn22).Valid := ⟨hodd, hb, hb', rfl, ha.le⟩
  have hr : A.rows = A.nd ∧ A.nhOnly = true ∨ A.rows = A.nlat := by
    unfold rows; split_ifs with hh
    · exact Or.inl ⟨rfl, hh⟩
    · exact Or.inr rfl
  have ho : (A.analysis .nhn22).outRow (A.rows - A.nd + j) = A.nd + j - 1 := by
    show A.nlat - A.rows + (A.rows - A.nd + j) = _
    omega
  have hn0 : (A.nd : ℝ) - 1 ≠ 0 := by
    have : (2 : ℝ) ≤ (A.nd : ℝ) := by exact_mod_cast (by omega : 2 ≤ A.nd)
    linarith
  have hlw : ∀ i ∈ Icc 1 A.nlon, (A.analysis .nhn22).lwa i (A.rows - A.nd + j) k =
      waveActivityNorth (Icc A.nhnN.nd A.nhnN.jmax) (fun r => A.nhnN.pv i r k) (A.nhnN.qrefRaw j k)
        (fun r => A.nhnN.a * cos ((A.nhnN.area A.nhnN.pv k).grid.latitude r) * A.nhnN.dphi) (A.nhnN.nd + j - 1) := by
    intro i hi
    rw [QGAnalysis.C42_north hS i _ k (mem_Icc.1 hi) hk (by
      rw [ho]
      show A.nd + A.jb ≤ A.nd + j - 1 ∧ A.nd + j - 1 < A.nlat
      omega) (by
      rcases hr with ⟨_, hr⟩ | hr
      · exact Or.inl hr
      · right
        show A.nd < _
        omega), ho]
    show waveActivityNorth (Icc A.nd A.nlat) (fun r => A.qgpv .nhn22 i r k) (A.qref .nhn22 (A.rows - A.nd + j) k)
      (fun r => A.a * cos ((A.analysis .nhn22).lat r) * (A.analysis .nhn22).dphi) (A.nd + j - 1) =
      waveActivityNorth (Icc A.nd A.nlat) (fun r => A.qgpv .nhn22 i r k) (A.nhnN.qrefRaw j k)
        (fun r => A.a * cos ((A.nhnN.area A.nhnN.pv k).grid.latitude r) * A.dphi) (A.nd + j - 1)
    rw [hq]
    congr 1
    funext r
    have e : (A.analysis .nhn22).lat r = (A.nhnN.area A.nhnN.pv k).grid.latitude r := by
      show π / ((A.nlat - 1 : ℤ) : ℝ) * ((r - A.nd : ℤ) : ℝ) = -(π / 2) + π / ((A.nlat : ℝ) - 1) * ((r : ℝ) - 1)
      have e1 : (A.nlat : ℝ) = 2 * A.nd - 1 := by exact_mod_cast hodd
      push_cast
      rw [e1, show (2 * (A.nd : ℝ) - 1 - 1) = 2 * ((A.nd : ℝ) - 1) by ring]
      field_simp
      ring
    rw [e]
    rfl
  rw [sum_congr rfl hlw, hq]
  exact key

/-- Air at rest on a rotating planet, without stratification anomalies. -/
def calm : Atmos := { tiny with vField := fun _ _ _ => 0, om := 1, jb := 1 }

theorem calm_theta (i g k : ℤ) : calm.theta i g k = 0 := by
  show (0 : ℝ) * _ = 0
  exact zero_mul _

theorem calm_pv (i j : ℤ) : calm.qgpv .nhn22 i j 2 = calm.avort i j 2 := by
  show calm.qgpvIn.pv22 calm.nd calm.ts0 calm.tn0 calm.statS calm.statN i j 2 = _
  unfold QgpvIn.pv22
  rw [if_pos (by decide)]
  have ha : ∀ t s : ℤ → ℝ, (∀ k, t k = 0) → ∀ k, calm.qgpvIn.alt t s i j k = 0 := fun t s ht k => by
    unfold QgpvIn.alt
    rw [show calm.qgpvIn.theta i j k = 0 from calm_theta i j k, ht]
    simp
  have h1 : calm.qgpvIn.stretch calm.ts0 calm.statS (calm.qgpvIn.cor j) i j 2 = 0 := by
    unfold QgpvIn.stretch
    rw [ha calm.ts0 _ (fun _ => rfl), ha calm.ts0 _ (fun _ => rfl)]
    simp
  have h2 : calm.qgpvIn.stretch calm.tn0 calm.statN (calm.qgpvIn.cor j) i j 2 = 0 := by
    unfold QgpvIn.stretch
    rw [ha calm.tn0 _ (fun _ => rfl), ha calm.tn0 _ (fun _ => rfl)]
    simp
  rw [h1, h2, ite_self, add_zero]
  rfl

theorem calm_inner (i j : ℤ) : calm.qgpvIn.inner i j 2 = 2 * sin (π / 4 * ((j : ℝ) - 3)) := by
  unfold QgpvIn.inner QgpvIn.cor QgpvIn.phi QgpvIn.dv
  show 2 * 1 * sin (-(0.5 * π) + π * ((j - 1 : ℤ) : ℝ) / ((5 - 1 : ℤ) : ℝ)) +
    (if i = 4 then (0 : ℝ) - 0 else if i = 1 then 0 - 0 else 0 - 0) / _ + -((0 : ℝ) * _ - 0 * _) / _ = _
  have e : -(0.5 * π) + π * ((j - 1 : ℤ) : ℝ) / ((5 - 1 : ℤ) : ℝ) = π / 4 * ((j : ℝ) - 3) := by push_cast; ring
  rw [e]
  split_ifs <;> simp

/-- QGPV of the calm atmosphere. -/
theorem calm_value (i j : ℤ) (h1 : 1 ≤ j) (h2 : j ≤ 5) :
    calm.qgpv .nhn22 i j 2 = if j ≤ 2 then -√2 else if j = 3 then 0 else √2 := by
  rw [calm_pv]
  show calm.qgpvIn.avort i j 2 = _
  have s4 : 2 * sin (π / 4 * (((4 : ℤ) : ℝ) - 3)) = √2 := by
    rw [show π / 4 * (((4 : ℤ) : ℝ) - 3) = π / 4 by norm_num, sin_pi_div_four]; ring
  have s2 : 2 * sin (π / 4 * (((2 : ℤ) : ℝ) - 3)) = -√2 := by
    rw [show π / 4 * (((2 : ℤ) : ℝ) - 3) = -(π / 4) by norm_num, sin_neg, sin_pi_div_four]; ring
  have s3 : 2 * sin (π / 4 * (((3 : ℤ) : ℝ) - 3)) = 0 := by norm_num
  have z : ∀ r, calm.qgpvIn.zmean calm.qgpvIn.inner r 2 = 2 * sin (π / 4 * ((r : ℝ) - 3)) := fun r => by
    unfold QgpvIn.zmean
    rw [dosum_eq]
    show ∑ i ∈ Icc (1 : ℤ) 4, calm.qgpvIn.inner i r 2 / ((4 : ℤ) : ℝ) = _
    simp only [calm_inner]
    rw [sum_const, show (Icc (1 : ℤ) 4).card = 4 by decide]
    norm_num
    ring
  unfold QgpvIn.avort
  rw [z, z, calm_inner]
  show (if j = 5 then 2 * sin (π / 4 * (((5 - 1 : ℤ) : ℝ) - 3)) else if j = 1 then 2 * sin (π / 4 * (((2 : ℤ) : ℝ) - 3)) else _) = _
  rw [show (5 - 1 : ℤ) = 4 by norm_num, s4, s2]
  have hj : j = 1 ∨ j = 2 ∨ j = 3 ∨ j = 4 ∨ j = 5 := by omega
  rcases hj with rfl | rfl | rfl | rfl | rfl
  · norm_num
  · rw [s2]; norm_num
  · rw [s3]; norm_num
  · rw [s4]; norm_num
  · norm_num

theorem calm_qmax : (calm.nhnN.area (calm.qgpv .nhn22) 2).qmax = √2 :=
  maxval_eq (by decide) (by decide) (fun i j _ _ h1 h2 => by
    show calm.qgpv .nhn22 i j 2 ≤ √2
    rw [calm_value i j h1 h2]
    have := sqrt_nonneg 2
    split_ifs <;> linarith) 1 5 (by decide) (by decide) (by
    show calm.qgpv .nhn22 1 5 2 = √2
    rw [calm_value 1 5 (by norm_num) (by norm_num)]; norm_num)

theorem calm_qmin : (calm.nhnN.area (calm.qgpv .nhn22) 2).qmin = -√2 :=
  minval_eq (by decide) (by decide) (fun i j _ _ h1 h2 => by
    show -√2 ≤ calm.qgpv .nhn22 i j 2
    rw [calm_value i j h1 h2]
    have := sqrt_nonneg 2
    split_ifs <;> linarith) 1 1 (by decide) (by decide) (by
    show calm.qgpv .nhn22 1 1 2 = -√2
    rw [calm_value 1 1 (by norm_num) (by norm_num)]; norm_num)

theorem calm_valid : (calm.nhnN.area (calm.qgpv .nhn22) 2).Valid where
  imax1 := by decide
  nd2 := by decide
  odd := by decide
  npart2 := by decide
  dphiEq := rfl
  dlam := rfl
  a0 := by show (0 : ℝ) < 1; norm_num
  spread := by
    rw [calm_qmax, calm_qmin]
    have : 0 < √2 := by positivity
    linarith

theorem calm_dphi : (calm.nhnN.area (calm.qgpv .nhn22) 2).dphi = π / 4 := by
  show π / ((5 - 1 : ℤ) : ℝ) = _
  norm_num

theorem calm_dlambda : (calm.nhnN.area (calm.qgpv .nhn22) 2).dlambda = π / 2 := by
  show 2 * π / ((4 : ℤ) : ℝ) = _
  norm_num
  ring

theorem calm_assigned : (calm.nhnN.area (calm.qgpv .nhn22) 2).Assigned 2 := by
  refine ⟨by decide, ?_⟩
  have hv := calm_valid
  rw [hv.placed_iff, AreaIn.C50_total_partial hv, hv.area_eq, hv.area_eq, ← sum_sub_distrib]
  have hs : 0 < √2 := by positivity
  have hdq : (calm.nhnN.area (calm.qgpv .nhn22) 2).dq = √2 / 2 := by
    unfold AreaIn.dq
    rw [calm_qmax, calm_qmin]
    show (√2 - -√2) / ((5 - 1 : ℤ) : ℝ) = _
    norm_num
    ring
  have hda : (calm.nhnN.area (calm.qgpv .nhn22) 2).da 3 = π ^ 2 / 8 := by
    unfold AreaIn.da
    rw [calm_dphi, calm_dlambda, show -(0.5 * π) + π / 4 * ((3 - 1 : ℤ) : ℝ) = 0 by push_cast; ring, cos_zero]
    show (1 : ℝ) * 1 * (π / 4) * (π / 2) * 1 = _
    ring
  have hal : (calm.nhnN.area (calm.qgpv .nhn22) 2).alat 2 ≤ 2 * π * (1 - √2 / 2) := by
    unfold AreaIn.alat
    rw [calm_dphi, show π / 4 * ((2 - 1 : ℤ) : ℝ) = π / 4 by norm_num, sin_pi_div_four]
    show 2 * π * 1 * 1 * _ ≤ _
    linarith
  have hsub : ∑ c ∈ (Icc (1 : ℤ) 4 ×ˢ {(3 : ℤ)}), π ^ 2 / 8 ≤ ∑ c ∈ (calm.nhnN.area (calm.qgpv .nhn22) 2).cells,
      ((if True then (calm.nhnN.area (calm.qgpv .nhn22) 2).da c.2 else 0) -
        if (calm.nhnN.area (calm.qgpv .nhn22) 2).qmax - (calm.nhnN.area (calm.qgpv .nhn22) 2).dq <
          (calm.nhnN.area (calm.qgpv .nhn22) 2).q c.1 c.2 then (calm.nhnN.area (calm.qgpv .nhn22) 2).da c.2 else 0) := by
    refine (sum_le_sum fun c hc => ?_).trans (sum_le_sum_of_subset_of_nonneg (s := Icc (1 : ℤ) 4 ×ˢ {(3 : ℤ)}) ?_ ?_)
    · rw [mem_product, mem_singleton] at hc
      rw [if_pos trivial, hc.2, if_neg, hda, sub_zero]
      rw [calm_qmax, hdq]
      show ¬ √2 - √2 / 2 < calm.qgpv .nhn22 c.1 3 2
      rw [calm_value c.1 3 (by norm_num) (by norm_num)]
      norm_num
    · intro c hc
      rw [mem_product, mem_Icc, mem_singleton] at hc
      rw [AreaIn.mem_cells]
      refine ⟨hc.1, ?_⟩
      rw [hc.2]
      decide
    · intro c hc _
      rw [AreaIn.mem_cells] at hc
      have := hv.da_nonneg hc.2.1 hc.2.2
      rw [if_pos trivial]
      split_ifs
      · rw [sub_self]
      · rw [sub_zero]; exact this
  rw [sum_const, card_product, card_singleton, show (Icc (1 : ℤ) 4).card = 4 by decide, nsmul_eq_mul] at hsub
  refine lt_of_lt_of_le ?_ (hsub.trans (le_of_eq (sum_congr rfl fun c _ => by simp only [if_true])))
  have hp := pi_gt_three
  have h2 : 1 < √2 := by
    rw [show (1 : ℝ) = √1 by simp]
    exact sqrt_lt_sqrt (by norm_num) (by norm_num)
  push_cast
  nlinarith [mul_pos pi_pos pi_pos]

example : calm.nlat = 2 * calm.nd - 1 ∧ calm.om ≠ 0 ∧ 0 ≤ calm.jb ∧ calm.jb + 2 ≤ calm.nd ∧ calm.jb + 1 ≤ 2 ∧
    (2 ≤ (2 : ℤ) ∧ 2 ≤ calm.kmax - 1) ∧ (calm.nhnN.area (calm.qgpv .nhn22) 2).Valid ∧
    (calm.nhnN.area (calm.qgpv .nhn22) 2).Assigned 2 :=
  ⟨by decide, by norm_num [calm], by decide, by decide, by decide, by decide, calm_valid, calm_assigned⟩

end Atmos

end Falwa
