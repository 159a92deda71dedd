import Verif.Lemmas.SouthBranch

/-!
# C130: the southern branch of the flux routines against the mirrored northern call

A user of the exported routines `compute_flux_dirinv_nshem` and `compute_lwa_only_nhn22` can analyse the Southern Hemisphere in two ways:
pass the fields as they are with `is_nhem=False`, or mirror them (as `QGField` does) with `is_nhem=True`. One expects the same answer.

The two differ. Row `j` from the south pole corresponds to row `nd + 1 - j` from the equator.
* The wave activity differs by the anomaly of the row itself: the southern branch counts it on the other side of the contour.
* Row `jb` of `ep2` and `ep3` holds winds of the Northern Hemisphere, and row `nd - jb` of `ep2` reads a reference wind of another level.
* `ep1`, `ep4` and the remaining rows of `ep2` and `ep3` agree (`ep2` and `ep3` change roles and sign).
-/

noncomputable section

namespace Falwa

open Real Finset

namespace FluxIn

variable (I : FluxIn)

/-- Extents as `QGField` passes them: `2 nd - 1` latitudes from pole to pole, `jb` rows next to the equator left out of `uref` and `tref`. -/
structure Hemispheric : Prop where
  rows : I.jmax = 2 * I.nd - 1
  refRows : I.jd = I.nd - I.jb
  boundary : 0 ≤ I.jb
  some_row : I.jb + 2 ≤ I.nd

/-- Element `(i, j, k)` belongs to the analysed part of the Southern Hemisphere, rows counted from the pole. -/
def SouthCell (i j k : ℤ) : Prop :=
  (2 ≤ k ∧ k ≤ I.kmax - 1) ∧ (1 ≤ i ∧ i ≤ I.imax) ∧ (2 ≤ j ∧ j ≤ I.nd - I.jb)

/-- Latitude of row `j`, counted from the south pole. -/
def southLat (j : ℤ) : ℝ := π / ((I.jmax - 1 : ℤ) : ℝ) * ((j - I.nd : ℤ) : ℝ)

/-- Anomaly of the row itself times its length element: what the two ways of calling attribute to opposite sides. -/
def ownRow (i j k : ℤ) : ℝ := (I.pv i j k - I.qref j k) * (I.a * (π / ((I.jmax - 1 : ℤ) : ℝ)) * cos (I.southLat j))

/-! ### Correspondence of the terms -/

section terms

variable {I}
variable (h : I.Hemispheric)
include h

theorem Hemispheric.phiS (j : ℤ) : I.phiS j = -I.phi (I.nd + 1 - j) := by
  have h1 := h.rows
  have h2 := h.boundary
  have h3 := h.some_row
  have hn : ((I.nd : ℝ) - 1) ≠ 0 := by
    have : (2 : ℝ) ≤ (I.nd : ℝ) := by exact_mod_cast (by omega : (2 : ℤ) ≤ I.nd)
    linarith
  unfold FluxIn.phiS FluxIn.phi FluxIn.dp
  rw [h1]
  push_cast
  have e : (2 * (I.nd : ℝ) - 1 - 1) = 2 * ((I.nd : ℝ) - 1) := by ring
  rw [e]
  field_simp
  ring

theorem Hemispheric.southLat (j : ℤ) : I.southLat j = I.phiS j := by
  rw [h.phiS]
  unfold FluxIn.southLat FluxIn.phi FluxIn.dp
  push_cast
  ring

theorem Hemispheric.cos_phiS (j : ℤ) : cos (I.phiS j) = cos (I.mirrored.phi (I.nd + 1 - j)) := by
  rw [h.phiS, cos_neg]; rfl

theorem Hemispheric.qe {i j k jj : ℤ} (h1 : 1 ≤ jj) (h2 : jj ≤ I.nd) (h3 : 1 ≤ j) (h4 : j ≤ I.nd) :
    I.mirrored.qe i (I.nd + 1 - j) k (I.nd + 1 - jj) = -I.qeS i j k jj := by
  have e1 := h.rows
  unfold FluxIn.qe qeS
  show rd3 I.jmax (fun i j k => -I.pv i (I.jmax + 1 - j) k) i (I.nd + 1 - jj + I.nd - 1) k -
    rd2 I.nd (fun j k => -I.qref (I.nd + 1 - j) k) (I.nd + 1 - j) k = _
  rw [rd3_of_mem (by omega) (by omega), rd2_of_mem (by omega) (by omega), rd3_of_mem (by omega) (by omega),
    rd2_of_mem (by omega) (by omega), show I.jmax + 1 - (I.nd + 1 - jj + I.nd - 1) = jj by omega,
    show I.nd + 1 - (I.nd + 1 - j) = j by omega]
  ring

theorem Hemispheric.ue {i j k jj : ℤ} (h1 : 1 ≤ jj) (h2 : jj ≤ I.nd) (h3 : 1 ≤ j) (h4 : j ≤ I.nd - I.jb) :
    I.mirrored.ue i (I.nd + 1 - j) k (I.nd + 1 - jj) = I.ueS i j k jj := by
  have e1 := h.rows
  have e2 := h.refRows
  have e3 := h.boundary
  unfold FluxIn.ue ueS
  rw [h.cos_phiS, h.cos_phiS]
  show rd3 I.jmax (fun i j k => I.uu i (I.jmax + 1 - j) k) i (I.nd + 1 - jj + I.nd - 1) k * _ -
    rd2 I.jd (fun j k => I.uref (I.jd + 1 - j) k) (I.nd + 1 - j - I.jb) k * _ = _
  rw [rd3_of_mem (by omega) (by omega), rd2_of_mem (by omega) (by omega), rd3_of_mem (by omega) (by omega),
    rd2_of_mem (by omega) (by omega), show I.jmax + 1 - (I.nd + 1 - jj + I.nd - 1) = jj by omega,
    show I.jd + 1 - (I.nd + 1 - j - I.jb) = j by omega]

/-- Reading a mirrored field at the row that corresponds to row `j`. -/
theorem Hemispheric.field (A : ℤ → ℤ → ℤ → ℝ) {i j k : ℤ} (h1 : 1 ≤ j) (h2 : j ≤ I.jmax) :
    rd3 I.jmax (fun i j k => A i (I.jmax + 1 - j) k) i (I.nd + 1 - j + I.nd - 1) k = rd3 I.jmax A i j k := by
  have e1 := h.rows
  rw [rd3_of_mem (by omega) (by omega), rd3_of_mem (by omega) (by omega),
    show I.jmax + 1 - (I.nd + 1 - j + I.nd - 1) = j by omega]

/-- Reading a mirrored reference state at the row that corresponds to row `j`. -/
theorem Hemispheric.ref (A : ℤ → ℤ → ℝ) {j k : ℤ} (h1 : 1 ≤ j) (h2 : j ≤ I.jd) :
    rd2 I.jd (fun j k => A (I.jd + 1 - j) k) (I.nd + 1 - j - I.jb) k = rd2 I.jd A j k := by
  have e2 := h.refRows
  rw [rd2_of_mem (by omega) (by omega), rd2_of_mem (by omega) (by omega),
    show I.jd + 1 - (I.nd + 1 - j - I.jb) = j by omega]

omit h in
theorem mirror_iter {i j k : ℤ} (hc : I.SouthCell i j k) : Iter I.mirrored i (I.nd + 1 - j) k := by
  obtain ⟨h1, h2, h3, h4⟩ := hc
  exact ⟨h1, h2, by show I.jb + 1 ≤ _; omega, by show _ ≤ I.nd - 1; omega⟩

omit h in
/-- Sums over hemispheric rows may be taken in reverse. -/
theorem sum_reverse (n : ℤ) (f : ℤ → ℝ) : ∑ jj ∈ Icc 1 n, f jj = ∑ jj ∈ Icc 1 n, f (n + 1 - jj) :=
  sum_nbij' (fun jj => n + 1 - jj) (fun jj => n + 1 - jj) (by intro a ha; simp only [mem_Icc] at *; omega)
    (by intro a ha; simp only [mem_Icc] at *; omega) (by intro a _; ring) (by intro a _; ring)
    (by intro a _; rw [show n + 1 - (n + 1 - a) = a by ring])

omit h in
/-- Two sums that differ in one row only. -/
theorem sum_differ {n j : ℤ} (f g : ℤ → ℝ) (d : ℝ) (h1 : 1 ≤ j) (h2 : j ≤ n)
    (hd : ∀ jj, 1 ≤ jj → jj ≤ n → f jj = g jj + if jj = j then d else 0) :
    ∑ jj ∈ Icc 1 n, f jj = ∑ jj ∈ Icc 1 n, g jj + d := by
  rw [sum_congr rfl (fun jj hjj => hd jj (mem_Icc.1 hjj).1 (mem_Icc.1 hjj).2), sum_add_distrib, sum_ite_eq' (Icc 1 n) j,
    if_pos (mem_Icc.2 ⟨h1, h2⟩)]

end terms

/-! ### The claim -/

/-- Passing the southern fields with `is_nhem=False` gives the same as mirroring them, for every array of the result. -/
def C130_Statement : Prop :=
  ∀ I : FluxIn, I.Hemispheric → ∀ i j k, I.SouthCell i j k →
    I.fluxDirinvSouth.astar1 i j k + I.fluxDirinvSouth.astar2 i j k =
      I.mirrored.fluxDirinv.astar1 i (I.nd + 1 - j) k + I.mirrored.fluxDirinv.astar2 i (I.nd + 1 - j) k ∧
    I.fluxDirinvSouth.ua1 i j k = I.mirrored.fluxDirinv.ua1 i (I.nd + 1 - j) k ∧
    I.fluxDirinvSouth.ua2 i j k = I.mirrored.fluxDirinv.ua2 i (I.nd + 1 - j) k ∧
    I.fluxDirinvSouth.ncforce3d i j k = I.mirrored.fluxDirinv.ncforce3d i (I.nd + 1 - j) k ∧
    I.fluxDirinvSouth.ep1 i j k = I.mirrored.fluxDirinv.ep1 i (I.nd + 1 - j) k ∧
    I.fluxDirinvSouth.ep2 i j k = -I.mirrored.fluxDirinv.ep3 i (I.nd + 1 - j) k ∧
    I.fluxDirinvSouth.ep3 i j k = -I.mirrored.fluxDirinv.ep2 i (I.nd + 1 - j) k ∧
    I.fluxDirinvSouth.ep4 i j = I.mirrored.fluxDirinv.ep4 i (I.nd + 1 - j)

/-- The two parts of the wave activity: the southern branch adds a negative anomaly of the row itself to the first part, and leaves a positive
one out of the second. -/
theorem C130_parts_partial (h : I.Hemispheric) {i j k : ℤ} (hc : I.SouthCell i j k) :
    I.fluxDirinvSouth.astar1 i j k = I.mirrored.fluxDirinv.astar1 i (I.nd + 1 - j) k +
      (if I.pv i j k ≤ I.qref j k then -I.ownRow i j k else 0) ∧
    I.fluxDirinvSouth.astar2 i j k = I.mirrored.fluxDirinv.astar2 i (I.nd + 1 - j) k -
      (if I.pv i j k ≤ I.qref j k then 0 else I.ownRow i j k) := by
  have hj := hc.2.2
  have hb := h.boundary
  have hr := h.rows
  have hq : I.qeS i j k j = I.pv i j k - I.qref j k := by
    unfold qeS; rw [rd3_of_mem (by omega) (by omega), rd2_of_mem (by omega) (by omega)]
  have hown : I.ownRow i j k = I.qeS i j k j * (I.a * I.dp * cos (I.phiS j)) := by
    unfold ownRow; rw [hq, h.southLat]; rfl
  have hle : I.pv i j k ≤ I.qref j k ↔ I.qeS i j k j ≤ 0 := by rw [hq, sub_nonpos]
  rw [astar1S_eq I hb, astar2S_eq I hb, astar1_eq I.mirrored hb, astar2_eq I.mirrored hb,
    if_pos (show IterS I i j k from hc), if_pos (show IterS I i j k from hc), if_pos (mirror_iter hc), if_pos (mirror_iter hc),
    accS_astar1, accS_astar2, acc_astar1, acc_astar2]
  constructor
  · refine (sum_differ _ _ (if I.pv i j k ≤ I.qref j k then -I.ownRow i j k else 0) (by omega : 1 ≤ j) (by omega : j ≤ I.nd) ?_).trans
      (congrArg (· + _) (sum_reverse I.nd _).symm)
    intro jj h1 h2
    rw [h.qe h1 h2 (by omega) (by omega), ← h.cos_phiS, hown]
    show _ = (if _ then -_ * (I.a * I.dp * cos (I.phiS jj)) else 0) + _
    rcases lt_trichotomy jj j with hlt | heq | hgt
    · rw [if_neg (show ¬ (I.qeS i j k jj ≤ 0 ∧ jj ≥ j) from by omega), if_neg (show ¬ jj = j by omega), if_neg, add_zero]
      rintro ⟨_, hx⟩; omega
    · subst heq
      rw [if_neg (show ¬ (-I.qeS i jj k jj > 0 ∧ I.nd + 1 - jj < I.nd + 1 - jj) from by omega), if_pos rfl, zero_add]
      by_cases hs : I.qeS i jj k jj ≤ 0
      · rw [if_pos ⟨hs, le_refl _⟩, if_pos (hle.2 hs)]
      · rw [if_neg (fun x => hs x.1), if_neg (fun x => hs (hle.1 x))]
    · rw [if_neg (show ¬ jj = j by omega), add_zero]
      by_cases hs : I.qeS i j k jj < 0
      · rw [if_pos ⟨hs.le, hgt.le⟩, if_pos ⟨by linarith, by omega⟩]; ring
      · rw [if_neg (show ¬ (-I.qeS i j k jj > 0 ∧ _) from fun x => hs (by linarith [x.1]))]
        by_cases hz : I.qeS i j k jj = 0
        · rw [hz]; simp
        · rw [if_neg (fun x => hs (lt_of_le_of_ne x.1 hz))]
  · rw [sub_eq_add_neg]
    refine (sum_differ _ _ (-(if I.pv i j k ≤ I.qref j k then 0 else I.ownRow i j k)) (by omega : 1 ≤ j) (by omega : j ≤ I.nd) ?_).trans
      (congrArg (· + _) (sum_reverse I.nd _).symm)
    intro jj h1 h2
    rw [h.qe h1 h2 (by omega) (by omega), ← h.cos_phiS, hown]
    show _ = (if _ then -(-_ * (I.a * I.dp * cos (I.phiS jj))) else 0) + _
    rcases lt_trichotomy jj j with hlt | heq | hgt
    · rw [if_neg (show ¬ jj = j by omega), add_zero]
      by_cases hs : I.qeS i j k jj > 0
      · rw [if_pos ⟨hs, hlt⟩, if_pos ⟨by linarith, by omega⟩]; ring
      · rw [if_neg (fun x => hs x.1)]
        by_cases hz : I.qeS i j k jj = 0
        · rw [hz]; simp
        · rw [if_neg]
          rintro ⟨x, _⟩
          exact hs (lt_of_le_of_ne (by linarith) (Ne.symm hz))
    · subst heq
      rw [if_neg (show ¬ (I.qeS i jj k jj > 0 ∧ jj < jj) from by omega), if_pos rfl]
      by_cases hs : I.qeS i jj k jj ≤ 0
      · rw [if_pos (hle.2 hs)]
        by_cases hz : I.qeS i jj k jj = 0
        · rw [hz]; simp
        · rw [if_neg]
          · simp
          · rintro ⟨x, _⟩
            exact hz (le_antisymm hs (by linarith))
      · rw [if_neg (fun x => hs (hle.1 x)), if_pos ⟨by push Not at hs; linarith, le_refl _⟩]; ring
    · rw [if_neg (show ¬ (I.qeS i j k jj > 0 ∧ jj < j) from by omega), if_neg (show ¬ jj = j by omega), add_zero, if_neg]
      rintro ⟨_, hx⟩; omega

/-- The wave activity differs exactly by the anomaly of the row itself. -/
theorem C130_lwa_partial (h : I.Hemispheric) {i j k : ℤ} (hc : I.SouthCell i j k) :
    I.fluxDirinvSouth.astar1 i j k + I.fluxDirinvSouth.astar2 i j k =
      I.mirrored.fluxDirinv.astar1 i (I.nd + 1 - j) k + I.mirrored.fluxDirinv.astar2 i (I.nd + 1 - j) k - I.ownRow i j k := by
  obtain ⟨h1, h2⟩ := C130_parts_partial I h hc
  rw [h1, h2]
  split_ifs <;> ring

/-- The advective flux `F1` differs by the same amount times the reference wind. -/
theorem C130_ua1_partial (h : I.Hemispheric) {i j k : ℤ} (hc : I.SouthCell i j k) :
    I.fluxDirinvSouth.ua1 i j k = I.mirrored.fluxDirinv.ua1 i (I.nd + 1 - j) k - I.uref j k * I.ownRow i j k := by
  have hj := hc.2.2
  have hb := h.boundary
  have hd := h.refRows
  have hl := C130_lwa_partial I h hc
  rw [astar1S_eq I hb, astar2S_eq I hb, astar1_eq I.mirrored hb, astar2_eq I.mirrored hb,
    if_pos (show IterS I i j k from hc), if_pos (show IterS I i j k from hc), if_pos (mirror_iter hc), if_pos (mirror_iter hc)] at hl
  rw [ua1S_eq I hb, ua1_eq I.mirrored hb, if_pos (show IterS I i j k from hc), if_pos (mirror_iter hc), hl]
  have hu : rd2 I.mirrored.jd I.mirrored.uref (I.nd + 1 - j - I.mirrored.jb) k = rd2 I.jd I.uref j k :=
    h.ref I.uref (by omega) (by omega)
  rw [hu, rd2_of_mem (by omega) (by omega)]
  ring

/-- Signs of corresponding rows, when the anomaly of the row is not zero. -/
theorem Hemispheric.sgn (h : I.Hemispheric) {i j k jj : ℤ} (h1 : 1 ≤ jj) (h2 : jj ≤ I.nd) (h3 : 1 ≤ j) (h4 : j ≤ I.nd)
    (hz : I.qeS i j k jj ≠ 0) :
    I.sgnS i j k jj = -I.mirrored.sgn i (I.nd + 1 - j) k (I.nd + 1 - jj) + if jj = j then -1 else 0 := by
  unfold sgnS FluxIn.sgn
  rw [h.qe h1 h2 h3 h4]
  rcases lt_or_gt_of_ne hz with hs | hs
  · have a1 : ¬ (-I.qeS i j k jj ≤ 0) := by linarith
    have a2 : ¬ (I.qeS i j k jj > 0) := by linarith
    have a3 : -I.qeS i j k jj > 0 := by linarith
    simp only [hs.le, a1, a2, a3, true_and, false_and, if_false]
    rcases lt_trichotomy jj j with hlt | heq | hgt
    · rw [if_neg (by omega), if_neg (by omega), if_neg (by omega)]; ring
    · subst heq; simp
    · rw [if_pos hgt.le, if_pos (by omega), if_neg (by omega)]; ring
  · have a1 : ¬ (I.qeS i j k jj ≤ 0) := by linarith
    have a2 : ¬ (-I.qeS i j k jj > 0) := by linarith
    have a3 : -I.qeS i j k jj ≤ 0 := by linarith
    simp only [hs, a1, a2, a3, true_and, false_and, if_false]
    rcases lt_trichotomy jj j with hlt | heq | hgt
    · rw [if_pos hlt, if_pos (by omega), if_neg (by omega)]; ring
    · subst heq; simp
    · rw [if_neg (by omega), if_neg (by omega), if_neg (by omega)]; ring

/-- The advective flux `F2` differs by the product of the anomalies of PV and wind in the row itself. -/
theorem C130_ua2_partial (h : I.Hemispheric) {i j k : ℤ} (hc : I.SouthCell i j k) :
    I.fluxDirinvSouth.ua2 i j k = I.mirrored.fluxDirinv.ua2 i (I.nd + 1 - j) k -
      I.ownRow i j k * (I.uu i j k - I.uref j k) := by
  have hj := hc.2.2
  have hb := h.boundary
  have hr := h.rows
  have hd := h.refRows
  rw [ua2S_eq I hb, ua2_eq I.mirrored hb, if_pos (show IterS I i j k from hc), if_pos (mirror_iter hc), accS_ua2, acc_ua2, sub_eq_add_neg]
  refine (sum_differ _ _ _ (by omega : 1 ≤ j) (by omega : j ≤ I.nd) ?_).trans (congrArg (· + _) (sum_reverse I.nd _).symm)
  intro jj h1 h2
  rw [h.qe h1 h2 (by omega) (by omega), h.ue h1 h2 (by omega) (by omega)]
  have hown : I.ownRow i j k = I.qeS i j k j * (I.a * I.dp * cos (I.phiS j)) := by
    unfold ownRow qeS; rw [rd3_of_mem (by omega) (by omega), rd2_of_mem (by omega) (by omega), h.southLat]; rfl
  have hue : I.ueS i j k j = (I.uu i j k - I.uref j k) * cos (I.phiS j) := by
    unfold ueS; rw [rd3_of_mem (by omega) (by omega), rd2_of_mem (by omega) (by omega)]; ring
  show _ = I.mirrored.sgn i (I.nd + 1 - j) k (I.nd + 1 - jj) * (-I.qeS i j k jj * I.ueS i j k jj * (I.a * I.dp)) + _
  by_cases hz : I.qeS i j k jj = 0
  · by_cases he : jj = j
    · subst he; rw [hown, hz]; simp
    · rw [hz, if_neg he]; simp
  · rw [h.sgn I h1 h2 (by omega) (by omega) hz]
    by_cases he : jj = j
    · subst he
      rw [if_pos rfl, if_pos rfl, hown, hue]; ring
    · rw [if_neg he, if_neg he]; ring

/-- The forcing term differs by the forcing of the row itself, if no point of the column lies exactly on the contour. -/
theorem C130_ncforce_partial (h : I.Hemispheric) {i j k : ℤ} (hc : I.SouthCell i j k)
    (hne : ∀ jj, 1 ≤ jj → jj ≤ I.nd → I.pv i jj k ≠ I.qref j k) :
    I.fluxDirinvSouth.ncforce3d i j k = I.mirrored.fluxDirinv.ncforce3d i (I.nd + 1 - j) k -
      I.ncforce i j k * (I.a * (π / ((I.jmax - 1 : ℤ) : ℝ)) * cos (I.southLat j)) := by
  have hj := hc.2.2
  have hb := h.boundary
  have hr := h.rows
  rw [ncforce3dS_eq I hb, ncforce3d_eq I.mirrored hb, if_pos (show IterS I i j k from hc), if_pos (mirror_iter hc), accS_nc, acc_nc,
    sub_eq_add_neg]
  refine (sum_differ _ _ _ (by omega : 1 ≤ j) (by omega : j ≤ I.nd) ?_).trans (congrArg (· + _) (sum_reverse I.nd _).symm)
  intro jj h1 h2
  have hz : I.qeS i j k jj ≠ 0 := by
    unfold qeS; rw [rd3_of_mem (by omega) (by omega), rd2_of_mem (by omega) (by omega)]
    exact sub_ne_zero.2 (hne jj h1 h2)
  have hn : rd3 I.mirrored.jmax I.mirrored.ncforce i (I.nd + 1 - jj + I.mirrored.nd - 1) k = -rd3 I.jmax I.ncforce i jj k :=
    h.field (fun i j k => -I.ncforce i j k) h1 (by omega)
  rw [h.sgn I h1 h2 (by omega) (by omega) hz, hn, ← h.cos_phiS, h.southLat]
  show _ = I.mirrored.sgn i (I.nd + 1 - j) k (I.nd + 1 - jj) * (-_ * (I.a * I.dp * _)) + _
  by_cases he : jj = j
  · subst he
    rw [if_pos rfl, if_pos rfl, rd3_of_mem (by omega) (by omega)]
    unfold dp; ring
  · rw [if_neg he, if_neg he]; ring

/-- The wave flux `F3` and the heat flux agree. -/
theorem C130_ep14_partial (h : I.Hemispheric) {i j k : ℤ} (hc : I.SouthCell i j k) :
    I.fluxDirinvSouth.ep1 i j k = I.mirrored.fluxDirinv.ep1 i (I.nd + 1 - j) k ∧
    I.fluxDirinvSouth.ep4 i j = I.mirrored.fluxDirinv.ep4 i (I.nd + 1 - j) := by
  have hj := hc.2.2
  have hb := h.boundary
  have hr := h.rows
  have hd := h.refRows
  have hc2 : I.SouthCell i j 2 := ⟨⟨le_refl _, by have := hc.1; omega⟩, hc.2⟩
  have f1 : ∀ A : ℤ → ℤ → ℤ → ℝ, ∀ k, rd3 I.jmax (fun i j k => A i (I.jmax + 1 - j) k) i (I.nd + 1 - j + I.nd - 1) k =
    rd3 I.jmax A i j k := fun A k => h.field A (by omega) (by omega)
  have f2 : ∀ A : ℤ → ℤ → ℝ, ∀ k, rd2 I.jd (fun j k => A (I.jd + 1 - j) k) (I.nd + 1 - j - I.jb) k = rd2 I.jd A j k :=
    fun A k => h.ref A (by omega) (by omega)
  have f3 : ∀ k, rd3 I.jmax (fun i j k => -I.vv i (I.jmax + 1 - j) k) i (I.nd + 1 - j + I.nd - 1) k = -rd3 I.jmax I.vv i j k :=
    fun k => f1 (fun i j k => -I.vv i j k) k
  constructor
  · rw [ep1S_eq I hb, ep1_eq I.mirrored hb, if_pos (show IterS I i j k from hc), if_pos (mirror_iter hc)]
    unfold ep1ValS ep1Val
    rw [h.cos_phiS]
    dsimp only [mirrored]
    rw [f1 I.uu, f1 I.pt, f3, f2 I.uref, f2 I.tref, neg_sq]
  · rw [ep4S_eq I, ep4_eq I.mirrored hb, if_pos (show IterS I i j 2 from hc2), if_pos (mirror_iter hc2)]
    unfold ep4ValS ep4Val
    have hs : sin (I.phiS j) = -sin (I.mirrored.phi (I.nd + 1 - j)) := by rw [h.phiS, sin_neg]; rfl
    rw [h.cos_phiS, hs]
    dsimp only [mirrored]
    rw [f1 I.pt, f1 I.pt, f3, f3, f2 I.tref, f2 I.tref]
    ring

/-- The momentum fluxes of the neighbouring rows agree where both rows have a reference wind and the row is not `jb` (for `jb = 0`: not
`nd`). -/
theorem C130_ep23_partial (h : I.Hemispheric) {i j k : ℤ} (hc : I.SouthCell i j k) (h1 : j ≠ I.jb) (h2 : j + 1 ≤ I.nd - I.jb) :
    I.fluxDirinvSouth.ep2 i j k = -I.mirrored.fluxDirinv.ep3 i (I.nd + 1 - j) k ∧
    I.fluxDirinvSouth.ep3 i j k = -I.mirrored.fluxDirinv.ep2 i (I.nd + 1 - j) k := by
  have hj := hc.2.2
  have hb := h.boundary
  have hr := h.rows
  have hd := h.refRows
  have hs := h.some_row
  have hne : j ≠ wrapJ I.nd I.jb := by
    rcases eq_or_lt_of_le hb with h0 | h0
    · rw [← h0, wrapJ_zero (by omega)]; omega
    · rw [wrapJ_of_mem (by omega) (by omega)]; exact h1
  have hit := mirror_iter hc
  have a1 : I.mirrored.jb + 1 ≤ I.nd + 1 - j := by show I.jb + 1 ≤ _; omega
  have a2 : I.nd + 1 - j ≤ I.mirrored.nd - 1 := by show _ ≤ I.nd - 1; omega
  have c1 : cos (I.dp * (j : ℝ) - 0.5 * π) = cos (I.mirrored.dp * ((I.nd + 1 - j - 2 : ℤ) : ℝ)) := by
    have := h.cos_phiS (j + 1)
    unfold FluxIn.phiS FluxIn.phi at this
    rw [show (j + 1 - 1 : ℤ) = j by ring, show (I.nd + 1 - (j + 1) - 1 : ℤ) = I.nd + 1 - j - 2 by ring] at this
    exact this
  have c2 : cos (I.dp * ((j - 2 : ℤ) : ℝ) - 0.5 * π) = cos (I.mirrored.dp * ((I.nd + 1 - j : ℤ) : ℝ)) := by
    have := h.cos_phiS (j - 1)
    unfold FluxIn.phiS FluxIn.phi at this
    rw [show (j - 1 - 1 : ℤ) = j - 2 by ring, show (I.nd + 1 - (j - 1) - 1 : ℤ) = I.nd + 1 - j by ring] at this
    exact this
  obtain ⟨e2, e3⟩ := ep23S_eq I hb (i := i) (k := k) hne
  rw [e2, e3, ep2_eq I.mirrored hb (by show 1 ≤ I.nd; omega) a1 a2, ep3_eq I.mirrored hb (by show 1 ≤ I.nd; omega) a1 a2,
    if_pos (show IterS I i j k from hc), if_pos (show IterS I i j k from hc), if_pos hit, if_pos hit]
  unfold ep2ValS ep3ValS ep2Val ep3Val
  rw [c1, c2]
  dsimp only [mirrored]
  constructor
  · rw [rd3_of_mem (by omega) (by omega), rd3_of_mem (by omega) (by omega), rd2_of_mem (by omega) (by omega),
      rd3_of_mem (by omega) (by omega), rd3_of_mem (by omega) (by omega), rd2_of_mem (by omega) (by omega),
      show I.jmax + 1 - (I.nd + 1 - j + I.nd - 2) = j + 1 by omega, show I.jd + 1 - (I.nd + 1 - j - I.jb - 1) = j + 1 by omega]
    ring
  · rw [rd3_of_mem (by omega) (by omega), rd3_of_mem (by omega) (by omega), rd2_of_mem (by omega) (by omega),
      rd3_of_mem (by omega) (by omega), rd3_of_mem (by omega) (by omega), rd2_of_mem (by omega) (by omega),
      show I.jmax + 1 - (I.nd + 1 - j + I.nd) = j - 1 by omega, show I.jd + 1 - (I.nd + 1 - j - I.jb + 1) = j - 1 by omega]
    ring

/-- Row `jb` of the southern result holds momentum fluxes of northern winds. -/
theorem C130_northern_row (h : I.Hemispheric) {i k : ℤ} (hc : I.SouthCell i I.jb k) :
    I.fluxDirinvSouth.ep2 i I.jb k = (I.uu i (I.nd + I.jb + 1) k - I.uref 2 k) * cos (π / ((I.jmax - 1 : ℤ) : ℝ) * I.jb) ^ 2 *
      I.vv i (I.nd + I.jb + 1) k ∧
    I.fluxDirinvSouth.ep3 i I.jb k = (I.uu i (I.nd + I.jb) k - I.uref 1 k) * cos (π / ((I.jmax - 1 : ℤ) : ℝ) * (I.jb - 1)) ^ 2 *
      I.vv i (I.nd + I.jb) k := by
  have hj := hc.2.2
  have hb := h.boundary
  have hr := h.rows
  have hd := h.refRows
  have hs := h.some_row
  obtain ⟨e2, e3⟩ := ep23S_jb I hb (i := i) (k := k) (by omega) (by omega)
  rw [e2, e3, if_pos ⟨hc.1, hc.2.1⟩, if_pos ⟨hc.1, hc.2.1⟩]
  unfold ep2Tail ep3Tail dp
  rw [rd3_of_mem (by omega) (by omega), rd3_of_mem (by omega) (by omega), rd2_of_mem (by omega) (by omega),
    rd3_of_mem (by omega) (by omega), rd3_of_mem (by omega) (by omega), rd2_of_mem (by omega) (by omega)]
  push_cast
  constructor <;> ring

/-- The last row of `ep2` uses the first reference wind of the level above. -/
theorem C130_wrong_level (h : I.Hemispheric) {i k : ℤ} (hc : I.SouthCell i (I.nd - I.jb) k) (hjb : 1 ≤ I.jb)
    (hne : I.nd - I.jb ≠ I.jb) :
    I.fluxDirinvSouth.ep2 i (I.nd - I.jb) k =
      (I.uu i (I.nd - I.jb + 1) k - I.uref 1 (k + 1)) * cos (I.southLat (I.nd - I.jb + 1)) ^ 2 * I.vv i (I.nd - I.jb + 1) k := by
  have hj := hc.2.2
  have hb := h.boundary
  have hr := h.rows
  have hd := h.refRows
  have hs := h.some_row
  obtain ⟨e2, -⟩ := ep23S_eq I hb (i := i) (k := k) (j := I.nd - I.jb) (by rw [wrapJ_of_mem (by omega) (by omega)]; exact hne)
  have hw : rd2 I.jd I.uref (I.nd - I.jb + 1) k = I.uref 1 (k + 1) := by
    unfold rd2 wrapJ wrapK
    rw [show I.nd - I.jb + 1 - 1 = I.jd by omega, Int.emod_self, Int.ediv_self (by omega)]
    rfl
  rw [e2, if_pos (show IterS I i (I.nd - I.jb) k from hc), h.southLat]
  unfold ep2ValS FluxIn.phiS
  rw [hw, rd3_of_mem (by omega) (by omega), rd3_of_mem (by omega) (by omega), show (I.nd - I.jb + 1 - 1 : ℤ) = I.nd - I.jb by ring]
  ring

/-! ### Refutation -/

/-- Five latitudes, three levels, one longitude; a PV anomaly in one row of the Southern Hemisphere, no wind. -/
def southSample : FluxIn where
  imax := 1
  jmax := 5
  kmax := 3
  nd := 3
  jb := 0
  jd := 3
  pv := fun _ j _ => if j = 2 then 1 else 0
  uu := fun _ _ _ => 0
  vv := fun _ _ _ => 0
  pt := fun _ _ _ => 0
  ncforce := fun _ _ _ => 0
  tn0 := fun k => k
  qref := fun _ _ => 0
  uref := fun _ _ => 0
  tref := fun _ _ => 0
  a := 1
  om := 1
  dz := 1
  h := 1
  rr := 1
  cp := 1
  prefac := 1

theorem southSample_ok : southSample.Hemispheric ∧ southSample.SouthCell 1 2 2 := by
  refine ⟨⟨?_, ?_, ?_, ?_⟩, ?_⟩ <;> simp [southSample, SouthCell]

theorem southSample_own : 0 < southSample.ownRow 1 2 2 := by
  have hc : 0 < cos (southSample.southLat 2) := by
    refine cos_pos_of_mem_Ioo ⟨?_, ?_⟩ <;> (unfold southLat southSample; norm_num; linarith [pi_pos])
  have e : southSample.ownRow 1 2 2 = π / 4 * cos (southSample.southLat 2) := by
    unfold ownRow; simp only [southSample]; norm_num
  rw [e]
  have := pi_pos
  positivity

/-- The two ways of calling the routine differ. -/
theorem C130_refuted : ¬ C130_Statement := by
  intro hC
  obtain ⟨h1, h2⟩ := southSample_ok
  have e1 := (hC southSample h1 1 2 2 h2).1
  have e2 := C130_lwa_partial southSample h1 h2
  have := southSample_own
  linarith

/-- With a boundary: thirteen latitudes, `jb = 2`. -/
def southSampleB : FluxIn := { southSample with jmax := 13, nd := 7, jb := 2, jd := 5 }

example : southSampleB.Hemispheric ∧ southSampleB.SouthCell 1 southSampleB.jb 2 ∧
    southSampleB.SouthCell 1 (southSampleB.nd - southSampleB.jb) 2 ∧ southSampleB.nd - southSampleB.jb ≠ southSampleB.jb ∧
    southSampleB.SouthCell 1 3 2 ∧ (3 : ℤ) ≠ southSampleB.jb ∧ (3 : ℤ) + 1 ≤ southSampleB.nd - southSampleB.jb := by
  refine ⟨⟨?_, ?_, ?_, ?_⟩, ?_, ?_, ?_, ?_, ?_, ?_⟩ <;> simp [southSampleB, southSample, SouthCell]

/-- The hypothesis on the forcing is satisfiable. -/
example : let I := { southSample with qref := fun _ _ => 1 / 2 }
    I.Hemispheric ∧ I.SouthCell 1 2 2 ∧ ∀ jj, 1 ≤ jj → jj ≤ I.nd → I.pv 1 jj 2 ≠ I.qref 2 2 := by
  refine ⟨⟨?_, ?_, ?_, ?_⟩, ?_, ?_⟩
  any_goals simp [southSample, SouthCell]
  intro jj _ _
  split_ifs <;> norm_num

end FluxIn

/-! ### `compute_lwa_only_nhn22` -/

/-- The arguments of `compute_lwa_only_nhn22` that correspond to those of the flux routine. -/
def FluxIn.lwaArgs (J : FluxIn) : LwaIn where
  imax := J.imax
  jmax := J.jmax
  kmax := J.kmax
  nd := J.nd
  jb := J.jb
  pv := J.pv
  uu := J.uu
  qref := J.qref
  a := J.a
  dz := J.dz
  h := J.h
  prefac := J.prefac

/-- The southern branch of `compute_lwa_only_nhn22` returns the wave activity of the southern branch of the flux routine, its column
average, and the column average of the wind of the same row. So it differs from the mirrored call in the same way. -/
theorem FluxIn.C130_lwa_only (J : FluxIn) (h : J.Hemispheric) (i j : ℤ) :
    (∀ k, J.lwaArgs.lwaOnlySouth.astar1 i j k = J.fluxDirinvSouth.astar1 i j k ∧
      J.lwaArgs.lwaOnlySouth.astar2 i j k = J.fluxDirinvSouth.astar2 i j k) ∧
    J.lwaArgs.lwaOnlySouth.astarbaro i j = ∑ k ∈ Icc 2 (J.kmax - 1),
      (J.fluxDirinvSouth.astar1 i j k + J.fluxDirinvSouth.astar2 i j k) * (exp (-(J.dz * (k - 1)) / J.h) * (J.dz / J.prefac)) ∧
    (2 ≤ j → j ≤ J.nd - J.jb → J.lwaArgs.lwaOnlySouth.ubaro i j =
      ∑ k ∈ Icc 2 (J.kmax - 1), J.uu i j k * (exp (-(J.dz * (k - 1)) / J.h) * (J.dz / J.prefac))) := by
  have hb := h.boundary
  have hr := h.rows
  have hs := h.some_row
  obtain ⟨e1, e2, e3, e4⟩ := LwaIn.lwaOnly_eqS J.lwaArgs hb i j
  have hw : ∀ k : ℤ, J.lwaArgs.weight k = exp (-(J.dz * (k - 1)) / J.h) * (J.dz / J.prefac) := by
    intro k; unfold LwaIn.weight; push_cast; rfl
  have hit : ∀ k, IterS J i j k ↔ (J.lwaArgs.InRangeS i j ∧ 2 ≤ k ∧ k ≤ J.kmax - 1) := fun k =>
    ⟨fun x => ⟨⟨x.2.1, x.2.2⟩, x.1⟩, fun x => ⟨x.2, x.1.1, x.1.2⟩⟩
  refine ⟨fun k => ⟨?_, ?_⟩, ?_, fun h1 h2 => ?_⟩
  · rw [e1, astar1S_eq J hb, LwaIn.accS_eq J.lwaArgs J rfl rfl rfl rfl rfl]
    simp only [hit]; rfl
  · rw [e2, astar2S_eq J hb, LwaIn.accS_eq J.lwaArgs J rfl rfl rfl rfl rfl]
    simp only [hit]; rfl
  · rw [e3]
    by_cases hc : J.lwaArgs.InRangeS i j
    · rw [if_pos hc]
      refine sum_congr rfl (fun k hk => ?_)
      rw [astar1S_eq J hb, astar2S_eq J hb, if_pos ((hit k).2 ⟨hc, mem_Icc.1 hk⟩), if_pos ((hit k).2 ⟨hc, mem_Icc.1 hk⟩),
        LwaIn.accS_eq J.lwaArgs J rfl rfl rfl rfl rfl, hw]
    · rw [if_neg hc]
      refine (sum_eq_zero (fun k _ => ?_)).symm
      rw [astar1S_eq J hb, astar2S_eq J hb, if_neg (fun x => hc ((hit k).1 x).1), if_neg (fun x => hc ((hit k).1 x).1)]
      ring
  · rw [e4, if_pos ⟨h1, h2⟩]
    refine sum_congr rfl (fun k _ => ?_)
    rw [hw, rd3_of_mem (by omega) (by show j ≤ J.jmax; omega)]
    rfl

example : FluxIn.southSample.Hemispheric := FluxIn.southSample_ok.1

/-! ### Connection with `QGField` -/

/-- The arguments that a user would pass for the Southern Hemisphere of a `QGField` without mirroring. -/
def QGAnalysis.plainSouth (S : QGAnalysis) : FluxIn where
  imax := S.nlon
  jmax := S.nlat
  kmax := S.kmax
  nd := S.nd
  jb := S.jb
  jd := S.jd
  pv := S.qgpv
  uu := S.u
  vv := S.v
  pt := S.theta
  ncforce := S.ncforce
  tn0 := S.ts0
  qref := S.qref
  uref := S.uref
  tref := S.ptref
  a := S.a
  om := S.om
  dz := S.dz
  h := S.h
  rr := S.rr
  cp := S.cp
  prefac := S.prefactor

/-- `QGField.lwa` on southern rows is the southern branch's wave activity plus the anomaly of the row. -/
theorem QGAnalysis.C130_qgfield (S : QGAnalysis) (hS : S.nhOnly = false) (h : S.plainSouth.Hemispheric) {i g k : ℤ}
    (hc : S.plainSouth.SouthCell i g k) :
    S.lwa i g k = |S.plainSouth.fluxDirinvSouth.astar1 i g k + S.plainSouth.fluxDirinvSouth.astar2 i g k + S.plainSouth.ownRow i g k| := by
  have hb : 0 ≤ S.jb := h.boundary
  have hg : 2 ≤ g ∧ g ≤ S.nd - S.jb := hc.2.2
  have hl := FluxIn.C130_lwa_partial S.plainSouth h hc
  have hb' : 0 ≤ S.plainSouth.mirrored.jb := hb
  have hs' : 0 ≤ S.southIn.jb := hb
  rw [FluxIn.astar1_eq S.plainSouth.mirrored hb', FluxIn.astar2_eq S.plainSouth.mirrored hb', if_pos (FluxIn.mirror_iter hc), if_pos (FluxIn.mirror_iter hc),
    FluxIn.acc_astar1, FluxIn.acc_astar2] at hl
  unfold lwa store
  rw [if_pos ⟨hS, by omega⟩]
  beta_reduce
  rw [FluxIn.astar1_eq S.southIn hs', FluxIn.astar2_eq S.southIn hs',
    if_pos (show FluxIn.Iter S.southIn i (S.nd + 1 - g) k from FluxIn.mirror_iter hc),
    if_pos (show FluxIn.Iter S.southIn i (S.nd + 1 - g) k from FluxIn.mirror_iter hc), FluxIn.acc_astar1, FluxIn.acc_astar2, hl]
  congr 1
  rw [sub_add_cancel]
  rfl

end Falwa
