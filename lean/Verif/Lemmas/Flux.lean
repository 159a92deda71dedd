import Verif.Model.Flux
import Verif.Lemmas.Fortran

/-! What the flux routines compute, element by element. -/

set_option linter.unusedSectionVars false

noncomputable section

namespace Falwa

open Real Finset

namespace FluxIn

variable (I : FluxIn)

instance (i j k : ℤ) : Decidable (Iter I i j k) := by unfold Iter; infer_instance

/-- The zero-filled outputs. -/
def zeroOut : FluxOut :=
  ⟨fun _ _ _ => 0, fun _ _ _ => 0, fun _ _ _ => 0, fun _ _ _ => 0, fun _ _ _ => 0, fun _ _ _ => 0, fun _ _ _ => 0,
    fun _ _ _ => 0, fun _ _ => 0⟩

theorem fluxDirinv_def : I.fluxDirinv = doLoop 2 (I.kmax - 1)
    (fun k => doLoop 1 I.imax (fun i s => I.tailStep k i (doLoop (I.jb + 1) (I.nd - 1) (I.cellStep k i) s))) zeroOut := rfl

/-- An observation that exactly one iteration of the loop nest sets. -/
theorem flux_field (g : FluxOut → ℝ) (i₀ j₀ k₀ : ℤ) (v : ℝ)
    (hcell : ∀ k i j s, Iter I i j k → g (I.cellStep k i j s) = if k = k₀ ∧ i = i₀ ∧ j = j₀ then v else g s)
    (htail : ∀ k i s, 2 ≤ k → k ≤ I.kmax - 1 → 1 ≤ i → i ≤ I.imax → g (I.tailStep k i s) = g s) :
    g I.fluxDirinv = if Iter I i₀ j₀ k₀ then v else g zeroOut := by
  rw [fluxDirinv_def]
  have hj : ∀ k i s, 2 ≤ k → k ≤ I.kmax - 1 → 1 ≤ i → i ≤ I.imax →
      g (doLoop (I.jb + 1) (I.nd - 1) (I.cellStep k i) s) =
        if k = k₀ ∧ i = i₀ ∧ I.jb + 1 ≤ j₀ ∧ j₀ ≤ I.nd - 1 then v else g s := by
    intro k i s h1 h2 h3 h4
    by_cases hki : k = k₀ ∧ i = i₀
    · rw [doLoop_write g j₀ v]
      · by_cases hr : I.jb + 1 ≤ j₀ ∧ j₀ ≤ I.nd - 1
        · rw [if_pos hr, if_pos ⟨hki.1, hki.2, hr⟩]
        · rw [if_neg hr, if_neg (fun h => hr h.2.2)]
      · intro j t h5 h6
        rw [hcell k i j t ⟨⟨h1, h2⟩, ⟨h3, h4⟩, ⟨h5, h6⟩⟩]
        by_cases hj : j = j₀
        · rw [if_pos ⟨hki.1, hki.2, hj⟩, if_pos hj]
        · rw [if_neg (fun h => hj h.2.2), if_neg hj]
    · rw [doLoop_keep g, if_neg (fun h => hki ⟨h.1, h.2.1⟩)]
      intro j t h5 h6
      rw [hcell k i j t ⟨⟨h1, h2⟩, ⟨h3, h4⟩, ⟨h5, h6⟩⟩, if_neg (fun h => hki ⟨h.1, h.2.1⟩)]
  have hi : ∀ k s, 2 ≤ k → k ≤ I.kmax - 1 →
      g (doLoop 1 I.imax (fun i s => I.tailStep k i (doLoop (I.jb + 1) (I.nd - 1) (I.cellStep k i) s)) s) =
        if k = k₀ ∧ (1 ≤ i₀ ∧ i₀ ≤ I.imax) ∧ I.jb + 1 ≤ j₀ ∧ j₀ ≤ I.nd - 1 then v else g s := by
    intro k s h1 h2
    by_cases hk : k = k₀ ∧ I.jb + 1 ≤ j₀ ∧ j₀ ≤ I.nd - 1
    · rw [doLoop_write g i₀ v]
      · by_cases hr : 1 ≤ i₀ ∧ i₀ ≤ I.imax
        · rw [if_pos hr, if_pos ⟨hk.1, hr, hk.2⟩]
        · rw [if_neg hr, if_neg (fun h => hr h.2.1)]
      · intro i t h3 h4
        rw [htail k i _ h1 h2 h3 h4, hj k i t h1 h2 h3 h4]
        by_cases hi : i = i₀
        · rw [if_pos ⟨hk.1, hi, hk.2⟩, if_pos hi]
        · rw [if_neg (fun h => hi h.2.1), if_neg hi]
    · rw [doLoop_keep g, if_neg (fun h => hk ⟨h.1, h.2.2⟩)]
      intro i t h3 h4
      rw [htail k i _ h1 h2 h3 h4, hj k i t h1 h2 h3 h4, if_neg (fun h => hk ⟨h.1, h.2.2⟩)]
  by_cases hk : (1 ≤ i₀ ∧ i₀ ≤ I.imax) ∧ I.jb + 1 ≤ j₀ ∧ j₀ ≤ I.nd - 1
  · rw [doLoop_write g k₀ v]
    · by_cases hr : 2 ≤ k₀ ∧ k₀ ≤ I.kmax - 1
      · rw [if_pos hr, if_pos ⟨hr, hk.1, hk.2⟩]
      · rw [if_neg hr, if_neg (fun h => hr h.1)]
    · intro k t h1 h2
      rw [hi k t h1 h2]
      by_cases hk' : k = k₀
      · rw [if_pos ⟨hk', hk⟩, if_pos hk']
      · rw [if_neg (fun h => hk' h.1), if_neg hk']
  · rw [doLoop_keep g, if_neg (fun h => hk ⟨h.2.1, h.2.2⟩)]
    intro k t h1 h2
    rw [hi k t h1 h2, if_neg (fun h => hk h.2)]

/-- An observation that only the statements after the loop over `j` set. -/
theorem flux_tail (g : FluxOut → ℝ) (i₀ k₁ : ℤ) (w : ℝ)
    (hcell : ∀ k i j s, Iter I i j k → g (I.cellStep k i j s) = g s)
    (htail : ∀ k i s, 2 ≤ k → k ≤ I.kmax - 1 → 1 ≤ i → i ≤ I.imax →
      g (I.tailStep k i s) = if k = k₁ ∧ i = i₀ then w else g s) :
    g I.fluxDirinv = if (2 ≤ k₁ ∧ k₁ ≤ I.kmax - 1) ∧ 1 ≤ i₀ ∧ i₀ ≤ I.imax then w else g zeroOut := by
  rw [fluxDirinv_def]
  have hi : ∀ k s, 2 ≤ k → k ≤ I.kmax - 1 →
      g (doLoop 1 I.imax (fun i s => I.tailStep k i (doLoop (I.jb + 1) (I.nd - 1) (I.cellStep k i) s)) s) =
        if k = k₁ ∧ (1 ≤ i₀ ∧ i₀ ≤ I.imax) then w else g s := by
    intro k s h1 h2
    have hj : ∀ i t, 1 ≤ i → i ≤ I.imax → g (doLoop (I.jb + 1) (I.nd - 1) (I.cellStep k i) t) = g t := by
      intro i t h3 h4
      exact doLoop_keep g (fun j t h5 h6 => hcell k i j t ⟨⟨h1, h2⟩, ⟨h3, h4⟩, ⟨h5, h6⟩⟩) t
    by_cases hk : k = k₁
    · rw [doLoop_write g i₀ w]
      · by_cases hr : 1 ≤ i₀ ∧ i₀ ≤ I.imax
        · rw [if_pos hr, if_pos ⟨hk, hr⟩]
        · rw [if_neg hr, if_neg (fun h => hr h.2)]
      · intro i t h3 h4
        rw [htail k i _ h1 h2 h3 h4, hj i t h3 h4]
        by_cases hi : i = i₀
        · rw [if_pos ⟨hk, hi⟩, if_pos hi]
        · rw [if_neg (fun h => hi h.2), if_neg hi]
    · rw [doLoop_keep g, if_neg (fun h => hk h.1)]
      intro i t h3 h4
      rw [htail k i _ h1 h2 h3 h4, hj i t h3 h4, if_neg (fun h => hk h.1)]
  by_cases hr0 : 1 ≤ i₀ ∧ i₀ ≤ I.imax
  · rw [doLoop_write g k₁ w]
    · by_cases hr : 2 ≤ k₁ ∧ k₁ ≤ I.kmax - 1
      · rw [if_pos hr, if_pos ⟨hr, hr0⟩]
      · rw [if_neg hr, if_neg (fun h => hr h.1)]
    · intro k t h1 h2
      rw [hi k t h1 h2]
      by_cases hk' : k = k₁
      · rw [if_pos ⟨hk', hr0⟩, if_pos hk']
      · rw [if_neg (fun h => hk' h.1), if_neg hk']
  · rw [doLoop_keep g, if_neg (fun h => hr0 h.2)]
    intro k t h1 h2
    rw [hi k t h1 h2, if_neg (fun h => hr0 h.2)]

section values

variable (hjb : 0 ≤ I.jb)
include hjb

theorem wr_cell {A : ℤ → ℤ → ℤ → ℝ} {i j k i₀ j₀ k₀ : ℤ} {f : ℤ → ℤ → ℤ → ℝ} (h : Iter I i j k) :
    wr3 I.nd A i j k (f i j k) i₀ j₀ k₀ = if k = k₀ ∧ i = i₀ ∧ j = j₀ then f i₀ j₀ k₀ else A i₀ j₀ k₀ := by
  obtain ⟨_, _, h3, h4⟩ := h
  rw [wr3_of_mem (by omega) (by omega)]
  by_cases hc : k = k₀ ∧ i = i₀ ∧ j = j₀
  · obtain ⟨rfl, rfl, rfl⟩ := hc
    rw [if_pos ⟨rfl, rfl, rfl⟩, if_pos ⟨rfl, rfl, rfl⟩]
  · rw [if_neg hc, if_neg (fun h => hc ⟨h.2.2.symm, h.1.symm, h.2.1.symm⟩)]

theorem astar1_eq (i j k : ℤ) : I.fluxDirinv.astar1 i j k = if Iter I i j k then (I.acc i j k).astar1 else 0 :=
  flux_field I (fun s => s.astar1 i j k) i j k (I.acc i j k).astar1
    (fun _ _ _ _ h => wr_cell I hjb (f := fun i j k => (I.acc i j k).astar1) h) (fun _ _ _ _ _ _ _ => rfl)

theorem astar2_eq (i j k : ℤ) : I.fluxDirinv.astar2 i j k = if Iter I i j k then (I.acc i j k).astar2 else 0 :=
  flux_field I (fun s => s.astar2 i j k) i j k (I.acc i j k).astar2
    (fun _ _ _ _ h => wr_cell I hjb (f := fun i j k => (I.acc i j k).astar2) h) (fun _ _ _ _ _ _ _ => rfl)

theorem ncforce3d_eq (i j k : ℤ) : I.fluxDirinv.ncforce3d i j k = if Iter I i j k then (I.acc i j k).nc else 0 :=
  flux_field I (fun s => s.ncforce3d i j k) i j k (I.acc i j k).nc
    (fun _ _ _ _ h => wr_cell I hjb (f := fun i j k => (I.acc i j k).nc) h) (fun _ _ _ _ _ _ _ => rfl)

theorem ua2_eq (i j k : ℤ) : I.fluxDirinv.ua2 i j k = if Iter I i j k then (I.acc i j k).ua2 else 0 :=
  flux_field I (fun s => s.ua2 i j k) i j k (I.acc i j k).ua2
    (fun _ _ _ _ h => wr_cell I hjb (f := fun i j k => (I.acc i j k).ua2) h) (fun _ _ _ _ _ _ _ => rfl)

theorem ua1_eq (i j k : ℤ) : I.fluxDirinv.ua1 i j k =
    if Iter I i j k then rd2 I.jd I.uref (j - I.jb) k * ((I.acc i j k).astar1 + (I.acc i j k).astar2) else 0 :=
  flux_field I (fun s => s.ua1 i j k) i j k (rd2 I.jd I.uref (j - I.jb) k * ((I.acc i j k).astar1 + (I.acc i j k).astar2))
    (fun _ _ _ _ h => wr_cell I hjb
      (f := fun i j k => rd2 I.jd I.uref (j - I.jb) k * ((I.acc i j k).astar1 + (I.acc i j k).astar2)) h)
    (fun _ _ _ _ _ _ _ => rfl)

theorem ep1_eq (i j k : ℤ) : I.fluxDirinv.ep1 i j k = if Iter I i j k then I.ep1Val i j k else 0 :=
  flux_field I (fun s => s.ep1 i j k) i j k (I.ep1Val i j k)
    (fun _ _ _ _ h => wr_cell I hjb (f := I.ep1Val) h) (fun _ _ _ _ _ _ _ => rfl)

theorem ep4_eq (i j : ℤ) : I.fluxDirinv.ep4 i j = if Iter I i j 2 then I.ep4Val i j else 0 := by
  refine flux_field I (fun s => s.ep4 i j) i j 2 (I.ep4Val i j) ?_ (fun _ _ _ _ _ _ _ => rfl)
  intro k' i' j' s _
  show (if k' = 2 then (fun a b => if a = i' ∧ b = j' then I.ep4Val i' j' else s.ep4 a b) else s.ep4) i j = _
  by_cases hk : k' = 2
  · rw [if_pos hk]
    by_cases hc : i = i' ∧ j = j'
    · obtain ⟨rfl, rfl⟩ := hc
      simp [hk]
    · rw [if_neg hc, if_neg (fun h => hc ⟨h.2.1.symm, h.2.2.symm⟩)]
  · rw [if_neg hk, if_neg (fun h => hk h.1)]

variable (hnd : 1 ≤ I.nd)
include hnd

theorem tail_row_ne {j k k₀ : ℤ} (h1 : I.jb + 1 ≤ j) (h2 : j ≤ I.nd - 1) :
    ¬ (j = wrapJ I.nd I.jb ∧ k₀ = wrapK I.nd I.jb k) := by
  rintro ⟨h, _⟩
  rcases eq_or_lt_of_le hjb with h0 | h0
  · rw [← h0, wrapJ_zero hnd] at h; omega
  · rw [wrapJ_of_mem (by omega) (by omega)] at h; omega

/-- `ep2` on the rows of the loop. -/
theorem ep2_eq {i j k : ℤ} (h1 : I.jb + 1 ≤ j) (h2 : j ≤ I.nd - 1) :
    I.fluxDirinv.ep2 i j k = if Iter I i j k then I.ep2Val i j k else 0 := by
  refine flux_field I (fun s => s.ep2 i j k) i j k (I.ep2Val i j k)
    (fun _ _ _ _ h => wr_cell I hjb (f := I.ep2Val) h) (fun k' i' s _ _ _ _ => ?_)
  show wr3 I.nd s.ep2 i' I.jb k' _ i j k = s.ep2 i j k
  unfold wr3
  rw [if_neg (fun h => tail_row_ne I hjb hnd h1 h2 h.2)]

/-- `ep3` on the rows of the loop. -/
theorem ep3_eq {i j k : ℤ} (h1 : I.jb + 1 ≤ j) (h2 : j ≤ I.nd - 1) :
    I.fluxDirinv.ep3 i j k = if Iter I i j k then I.ep3Val i j k else 0 := by
  refine flux_field I (fun s => s.ep3 i j k) i j k (I.ep3Val i j k)
    (fun _ _ _ _ h => wr_cell I hjb (f := I.ep3Val) h) (fun k' i' s _ _ _ _ => ?_)
  show wr3 I.nd s.ep3 i' I.jb k' _ i j k = s.ep3 i j k
  unfold wr3
  rw [if_neg (fun h => tail_row_ne I hjb hnd h1 h2 h.2)]

theorem wr_cell_ne {A : ℤ → ℤ → ℤ → ℝ} {i j k i₀ j₀ k₀ : ℤ} {v : ℝ} (h : Iter I i j k)
    (hj : ¬ (I.jb + 1 ≤ j₀ ∧ j₀ ≤ I.nd - 1)) : wr3 I.nd A i j k v i₀ j₀ k₀ = A i₀ j₀ k₀ := by
  obtain ⟨_, _, h3, h4⟩ := h
  rw [wr3_of_mem (by omega) (by omega), if_neg]
  rintro ⟨_, h, _⟩
  omega

/-- `ep2` and `ep3` on the other rows: only the element that `(i, jb, k₁)` denotes is set. -/
theorem ep23_other {i j k k₁ : ℤ} (hj : ¬ (I.jb + 1 ≤ j ∧ j ≤ I.nd - 1))
    (hk : ∀ k', (j = wrapJ I.nd I.jb ∧ k = wrapK I.nd I.jb k') ↔ k' = k₁) :
    I.fluxDirinv.ep2 i j k =
      (if (2 ≤ k₁ ∧ k₁ ≤ I.kmax - 1) ∧ 1 ≤ i ∧ i ≤ I.imax then I.ep2Tail i k₁ else 0) ∧
    I.fluxDirinv.ep3 i j k =
      (if (2 ≤ k₁ ∧ k₁ ≤ I.kmax - 1) ∧ 1 ≤ i ∧ i ≤ I.imax then I.ep3Tail i k₁ else 0) := by
  constructor
  · refine flux_tail I (fun s => s.ep2 i j k) i k₁ (I.ep2Tail i k₁)
      (fun _ _ _ _ h => wr_cell_ne I hjb hnd h hj) (fun k' i' s _ _ _ _ => ?_)
    show wr3 I.nd s.ep2 i' I.jb k' (I.ep2Tail i' k') i j k = _
    unfold wr3
    by_cases hc : k' = k₁ ∧ i' = i
    · obtain ⟨rfl, rfl⟩ := hc
      rw [if_pos ⟨rfl, (hk k').2 rfl⟩, if_pos ⟨rfl, rfl⟩]
    · rw [if_neg (fun h => hc ⟨(hk k').1 h.2, h.1.symm⟩), if_neg hc]
  · refine flux_tail I (fun s => s.ep3 i j k) i k₁ (I.ep3Tail i k₁)
      (fun _ _ _ _ h => wr_cell_ne I hjb hnd h hj) (fun k' i' s _ _ _ _ => ?_)
    show wr3 I.nd s.ep3 i' I.jb k' (I.ep3Tail i' k') i j k = _
    unfold wr3
    by_cases hc : k' = k₁ ∧ i' = i
    · obtain ⟨rfl, rfl⟩ := hc
      rw [if_pos ⟨rfl, (hk k').2 rfl⟩, if_pos ⟨rfl, rfl⟩]
    · rw [if_neg (fun h => hc ⟨(hk k').1 h.2, h.1.symm⟩), if_neg hc]

/-- `ep2` and `ep3` on rows that are neither in the loop nor named after it. -/
theorem ep23_zero {i j k : ℤ} (hj : ¬ (I.jb + 1 ≤ j ∧ j ≤ I.nd - 1)) (hj' : j ≠ wrapJ I.nd I.jb) :
    I.fluxDirinv.ep2 i j k = 0 ∧ I.fluxDirinv.ep3 i j k = 0 := by
  constructor
  · have := flux_tail I (fun s => s.ep2 i j k) i 0 0
      (fun _ _ _ _ h => wr_cell_ne I hjb hnd h hj) (fun k' i' s h _ _ _ => by
        show wr3 I.nd s.ep2 i' I.jb k' (I.ep2Tail i' k') i j k = _
        unfold wr3
        rw [if_neg (fun h => hj' h.2.1), if_neg (by omega)])
    rw [if_neg (by omega)] at this
    exact this
  · have := flux_tail I (fun s => s.ep3 i j k) i 0 0
      (fun _ _ _ _ h => wr_cell_ne I hjb hnd h hj) (fun k' i' s h _ _ _ => by
        show wr3 I.nd s.ep3 i' I.jb k' (I.ep3Tail i' k') i j k = _
        unfold wr3
        rw [if_neg (fun h => hj' h.2.1), if_neg (by omega)])
    rw [if_neg (by omega)] at this
    exact this

end values

/-! ### The inner loop as sums -/

theorem acc_astar1 (i j k : ℤ) : (I.acc i j k).astar1 =
    ∑ jj ∈ Icc 1 I.nd, if I.qe i j k jj > 0 ∧ jj < j then I.qe i j k jj * (I.a * I.dp * cos (I.phi jj)) else 0 := by
  unfold acc
  rw [doLoop_sum (fun s : Acc => s.astar1)
    (fun jj => if I.qe i j k jj > 0 ∧ jj < j then I.qe i j k jj * (I.a * I.dp * cos (I.phi jj)) else 0), zero_add]
  intro jj s _ _
  unfold accStep
  by_cases h1 : I.qe i j k jj ≤ 0 ∧ jj ≥ j
  · have h2 : ¬ (I.qe i j k jj > 0 ∧ jj < j) := fun h => by omega
    simp [h1, h2]
  · by_cases h2 : I.qe i j k jj > 0 ∧ jj < j
    · simp [h1, h2]
    · simp [h1, h2]

theorem acc_astar2 (i j k : ℤ) : (I.acc i j k).astar2 =
    ∑ jj ∈ Icc 1 I.nd, if I.qe i j k jj ≤ 0 ∧ jj ≥ j then -(I.qe i j k jj * (I.a * I.dp * cos (I.phi jj))) else 0 := by
  unfold acc
  rw [doLoop_sum (fun s : Acc => s.astar2)
    (fun jj => if I.qe i j k jj ≤ 0 ∧ jj ≥ j then -(I.qe i j k jj * (I.a * I.dp * cos (I.phi jj))) else 0), zero_add]
  intro jj s _ _
  unfold accStep
  by_cases h1 : I.qe i j k jj ≤ 0 ∧ jj ≥ j
  · have h2 : ¬ (I.qe i j k jj > 0 ∧ jj < j) := fun h => by omega
    simp [h1, h2, sub_eq_add_neg]
  · by_cases h2 : I.qe i j k jj > 0 ∧ jj < j
    · simp only [h1, h2, if_true, if_false, and_self]; simp
    · simp [h1, h2]

/-- Sign with which row `jj` enters `ncforce3d` and `ua2` at row `j`. -/
def sgn (i j k jj : ℤ) : ℝ :=
  if I.qe i j k jj ≤ 0 ∧ jj ≥ j then -1 else if I.qe i j k jj > 0 ∧ jj < j then 1 else 0

theorem acc_nc (i j k : ℤ) : (I.acc i j k).nc =
    ∑ jj ∈ Icc 1 I.nd, I.sgn i j k jj * (rd3 I.jmax I.ncforce i (jj + I.nd - 1) k * (I.a * I.dp * cos (I.phi jj))) := by
  unfold acc
  rw [doLoop_sum (fun s : Acc => s.nc)
    (fun jj => I.sgn i j k jj * (rd3 I.jmax I.ncforce i (jj + I.nd - 1) k * (I.a * I.dp * cos (I.phi jj)))), zero_add]
  intro jj s _ _
  unfold accStep sgn
  by_cases h1 : I.qe i j k jj ≤ 0 ∧ jj ≥ j
  · have h2 : ¬ (I.qe i j k jj > 0 ∧ jj < j) := fun h => by omega
    simp [h1, h2, sub_eq_add_neg]
  · by_cases h2 : I.qe i j k jj > 0 ∧ jj < j
    · simp only [h1, h2, if_true, if_false, and_self]; simp
    · simp [h1, h2]

theorem acc_ua2 (i j k : ℤ) : (I.acc i j k).ua2 =
    ∑ jj ∈ Icc 1 I.nd, I.sgn i j k jj * (I.qe i j k jj * I.ue i j k jj * (I.a * I.dp)) := by
  unfold acc
  rw [doLoop_sum (fun s : Acc => s.ua2)
    (fun jj => I.sgn i j k jj * (I.qe i j k jj * I.ue i j k jj * (I.a * I.dp))), zero_add]
  intro jj s _ _
  unfold accStep sgn
  by_cases h1 : I.qe i j k jj ≤ 0 ∧ jj ≥ j
  · have h2 : ¬ (I.qe i j k jj > 0 ∧ jj < j) := fun h => by omega
    simp [h1, h2, sub_eq_add_neg]
  · by_cases h2 : I.qe i j k jj > 0 ∧ jj < j
    · simp only [h1, h2, if_true, if_false, and_self]; simp
    · simp [h1, h2]

end FluxIn

/-! ### `compute_lwa_only_nhn22` -/

namespace LwaIn

variable (I : LwaIn)

/-- Rows and longitudes of the loops. -/
def InRange (i j : ℤ) : Prop := (1 ≤ i ∧ i ≤ I.imax) ∧ I.jb + 1 ≤ j ∧ j ≤ I.nd - 1

instance (i j : ℤ) : Decidable (InRange I i j) := by unfold InRange; infer_instance

/-- The loops over `i` and `j`. -/
def inner (k : ℤ) (s : LwaOnlyOut) : LwaOnlyOut :=
  doLoop 1 I.imax (fun i => doLoop (I.jb + 1) (I.nd - 1) (I.cellStep k i)) s

theorem lwaOnly_def : I.lwaOnly = doLoop 2 (I.kmax - 1) (fun k s => I.baroStep k (I.inner k s))
    ⟨fun _ _ => 0, fun _ _ => 0, fun _ _ _ => 0, fun _ _ _ => 0⟩ := rfl

theorem inner_baro (k : ℤ) (s : LwaOnlyOut) :
    (I.inner k s).astarbaro = s.astarbaro ∧ (I.inner k s).ubaro = s.ubaro := by
  unfold inner
  constructor
  · refine doLoop_keep (fun s : LwaOnlyOut => s.astarbaro) (fun i t _ _ => ?_) s
    refine doLoop_keep (fun s : LwaOnlyOut => s.astarbaro) (fun _ _ _ _ => ?_) t
    rfl
  · refine doLoop_keep (fun s : LwaOnlyOut => s.ubaro) (fun i t _ _ => ?_) s
    refine doLoop_keep (fun s : LwaOnlyOut => s.ubaro) (fun _ _ _ _ => ?_) t
    rfl

theorem inner_field (hjb : 0 ≤ I.jb) (x : LwaOnlyOut → ℤ → ℤ → ℤ → ℝ) (f : ℤ → ℤ → ℤ → ℝ)
    (hx : ∀ k i j s, x (I.cellStep k i j s) = wr3 I.nd (x s) i j k (f i j k)) (k i₀ j₀ k₀ : ℤ) (s : LwaOnlyOut) :
    x (I.inner k s) i₀ j₀ k₀ = if k = k₀ ∧ InRange I i₀ j₀ then f i₀ j₀ k₀ else x s i₀ j₀ k₀ := by
  unfold inner
  have hcell : ∀ i j t, I.jb + 1 ≤ j → j ≤ I.nd - 1 → x (I.cellStep k i j t) i₀ j₀ k₀ =
      if i₀ = i ∧ j₀ = j ∧ k₀ = k then f i j k else x t i₀ j₀ k₀ := by
    intro i j t h1 h2
    rw [hx, wr3_of_mem (by omega) (by omega)]
  by_cases hc : k = k₀ ∧ InRange I i₀ j₀
  · obtain ⟨rfl, h⟩ := hc
    rw [if_pos ⟨rfl, h⟩, doLoop_write (fun s => x s i₀ j₀ k) i₀ (f i₀ j₀ k), if_pos h.1]
    intro i t _ _
    by_cases hi : i = i₀
    · subst hi
      rw [if_pos rfl, doLoop_write (fun s => x s i j₀ k) j₀ (f i j₀ k), if_pos h.2]
      intro j t h3 h4
      rw [hcell i j t h3 h4]
      by_cases hj : j = j₀
      · subst hj; rw [if_pos ⟨rfl, rfl, rfl⟩, if_pos rfl]
      · rw [if_neg (fun h => hj h.2.1.symm), if_neg hj]
    · rw [if_neg hi]
      refine doLoop_keep (fun s => x s i₀ j₀ k) (fun j t h3 h4 => ?_) t
      rw [hcell i j t h3 h4, if_neg (fun h => hi h.1.symm)]
  · rw [if_neg hc]
    refine doLoop_keep (fun s => x s i₀ j₀ k₀) (fun i t h1 h2 => ?_) s
    refine doLoop_keep (fun s => x s i₀ j₀ k₀) (fun j t h3 h4 => ?_) t
    rw [hcell i j t h3 h4, if_neg]
    rintro ⟨rfl, rfl, rfl⟩
    exact hc ⟨rfl, ⟨h1, h2⟩, h3, h4⟩

theorem baroStep_astar (k : ℤ) (s : LwaOnlyOut) :
    (I.baroStep k s).astar1 = s.astar1 ∧ (I.baroStep k s).astar2 = s.astar2 := by
  unfold baroStep
  constructor
  · refine (doLoop_keep (fun s : LwaOnlyOut => s.astar1) (fun _ _ _ _ => ?_) _).trans ?_ <;> rfl
  · refine (doLoop_keep (fun s : LwaOnlyOut => s.astar2) (fun _ _ _ _ => ?_) _).trans ?_ <;> rfl

/-- Weight of level `k` in lines 93-98. -/
def weight (k : ℤ) : ℝ := exp (-(I.dz * ((k - 1 : ℤ) : ℝ)) / I.h) * (I.dz / I.prefac)

theorem baroStep_astarbaro (k i j : ℤ) (s : LwaOnlyOut) :
    (I.baroStep k s).astarbaro i j = s.astarbaro i j + (s.astar1 i j k + s.astar2 i j k) * I.weight k := by
  unfold baroStep weight
  rw [← mul_assoc]
  refine (doLoop_keep (fun s : LwaOnlyOut => s.astarbaro i j) (fun _ _ _ _ => ?_) _).trans ?_ <;> rfl

theorem baroStep_ubaro (k i j : ℤ) (s : LwaOnlyOut) :
    (I.baroStep k s).ubaro i j = s.ubaro i j +
      if I.jb + 1 ≤ j ∧ j ≤ I.nd - 1 then rd3 I.jmax I.uu i (I.nd - 1 + j) k * I.weight k else 0 := by
  unfold baroStep
  refine (doLoop_sum (fun s : LwaOnlyOut => s.ubaro i j)
    (fun j' => if j = j' then rd3 I.jmax I.uu i (I.nd - 1 + j) k * I.weight k else 0) ?_ _).trans ?_
  · intro j' t _ _
    by_cases h : j = j'
    · subst h
      simp only [if_true, weight]
      ring
    · simp [h]
  · rw [sum_ite_eq]
    simp only [mem_Icc]

/-- What `compute_lwa_only_nhn22` returns. -/
theorem lwaOnly_eq (hjb : 0 ≤ I.jb) (i j : ℤ) :
    (∀ k, I.lwaOnly.astar1 i j k = if InRange I i j ∧ 2 ≤ k ∧ k ≤ I.kmax - 1 then (I.acc i j k).1 else 0) ∧
    (∀ k, I.lwaOnly.astar2 i j k = if InRange I i j ∧ 2 ≤ k ∧ k ≤ I.kmax - 1 then (I.acc i j k).2 else 0) ∧
    I.lwaOnly.astarbaro i j =
      (if InRange I i j then ∑ k ∈ Icc 2 (I.kmax - 1), ((I.acc i j k).1 + (I.acc i j k).2) * I.weight k else 0) ∧
    I.lwaOnly.ubaro i j =
      (if I.jb + 1 ≤ j ∧ j ≤ I.nd - 1 then
        ∑ k ∈ Icc 2 (I.kmax - 1), rd3 I.jmax I.uu i (I.nd - 1 + j) k * I.weight k else 0) := by
  rw [lwaOnly_def]
  by_cases hk : I.kmax - 1 < 1
  · rw [doLoop_empty (by omega), Icc_eq_empty (by omega)]
    refine ⟨fun k => ?_, fun k => ?_, by simp, by simp⟩ <;> rw [if_neg (by omega)]
  refine doLoop_induct (fun hi (s : LwaOnlyOut) =>
    (∀ k, s.astar1 i j k = if InRange I i j ∧ 2 ≤ k ∧ k ≤ hi then (I.acc i j k).1 else 0) ∧
    (∀ k, s.astar2 i j k = if InRange I i j ∧ 2 ≤ k ∧ k ≤ hi then (I.acc i j k).2 else 0) ∧
    s.astarbaro i j =
      (if InRange I i j then ∑ k ∈ Icc 2 hi, ((I.acc i j k).1 + (I.acc i j k).2) * I.weight k else 0) ∧
    s.ubaro i j =
      (if I.jb + 1 ≤ j ∧ j ≤ I.nd - 1 then
        ∑ k ∈ Icc 2 hi, rd3 I.jmax I.uu i (I.nd - 1 + j) k * I.weight k else 0)) ?_ ?_ _ (by omega)
  · refine ⟨fun k => ?_, fun k => ?_, by simp, by simp⟩ <;> rw [if_neg (by omega)]
  · rintro hi s hlo ⟨h1, h2, h3, h4⟩
    have e1 := fun k₀ => inner_field I hjb (fun s : LwaOnlyOut => s.astar1) (fun i j k => (I.acc i j k).1) (fun _ _ _ _ => rfl) hi i j k₀ s
    have e2 := fun k₀ => inner_field I hjb (fun s : LwaOnlyOut => s.astar2) (fun i j k => (I.acc i j k).2) (fun _ _ _ _ => rfl) hi i j k₀ s
    have hI : Icc 2 hi = insert hi (Icc 2 (hi - 1)) := by
      ext x; simp only [mem_Icc, mem_insert]; omega
    have hnot : hi ∉ Icc 2 (hi - 1) := by simp
    refine ⟨fun k => ?_, fun k => ?_, ?_, ?_⟩
    · rw [(baroStep_astar I hi _).1, e1 k, h1 k]
      by_cases hr : InRange I i j
      · by_cases hk' : hi = k
        · subst hk'
          rw [if_pos ⟨rfl, hr⟩, if_pos ⟨hr, hlo, le_rfl⟩]
        · rw [if_neg (fun h => hk' h.1)]
          by_cases hk2 : 2 ≤ k ∧ k ≤ hi
          · rw [if_pos ⟨hr, by omega⟩, if_pos ⟨hr, hk2⟩]
          · rw [if_neg (fun h => hk2 (by omega)), if_neg (fun h => hk2 h.2)]
      · rw [if_neg (fun h => hr h.2), if_neg (fun h => hr h.1), if_neg (fun h => hr h.1)]
    · rw [(baroStep_astar I hi _).2, e2 k, h2 k]
      by_cases hr : InRange I i j
      · by_cases hk' : hi = k
        · subst hk'
          rw [if_pos ⟨rfl, hr⟩, if_pos ⟨hr, hlo, le_rfl⟩]
        · rw [if_neg (fun h => hk' h.1)]
          by_cases hk2 : 2 ≤ k ∧ k ≤ hi
          · rw [if_pos ⟨hr, by omega⟩, if_pos ⟨hr, hk2⟩]
          · rw [if_neg (fun h => hk2 (by omega)), if_neg (fun h => hk2 h.2)]
      · rw [if_neg (fun h => hr h.2), if_neg (fun h => hr h.1), if_neg (fun h => hr h.1)]
    · rw [baroStep_astarbaro, (inner_baro I hi s).1, h3, e1 hi, e2 hi, h1 hi, h2 hi]
      by_cases hr : InRange I i j
      · rw [if_pos hr, if_pos ⟨rfl, hr⟩, if_pos ⟨rfl, hr⟩, if_pos hr, hI, sum_insert hnot]
        ring
      · simp [hr]
    · rw [baroStep_ubaro, (inner_baro I hi s).2, h4]
      by_cases hr : I.jb + 1 ≤ j ∧ j ≤ I.nd - 1
      · rw [if_pos hr, if_pos hr, if_pos hr, hI, sum_insert hnot]
        ring
      · simp [hr]

/-- The inner loops of both routines agree. -/
theorem acc_eq (J : FluxIn) (h1 : J.jmax = I.jmax) (h2 : J.nd = I.nd) (h3 : J.pv = I.pv) (h4 : J.qref = I.qref)
    (h5 : J.a = I.a) (i j k : ℤ) : I.acc i j k = ((J.acc i j k).astar1, (J.acc i j k).astar2) := by
  rw [FluxIn.acc_astar1, FluxIn.acc_astar2]
  unfold acc
  have hq : ∀ jj, rd3 I.jmax I.pv i (jj + I.nd - 1) k - rd2 I.nd I.qref j k = J.qe i j k jj := by
    intro jj; unfold FluxIn.qe; rw [h1, h2, h3, h4]
  have ha : ∀ jj : ℤ, I.a * I.dp * cos (I.dp * ((jj - 1 : ℤ) : ℝ)) = J.a * J.dp * cos (J.phi jj) := by
    intro jj; unfold FluxIn.phi FluxIn.dp dp; rw [h1, h5]
  refine Prod.ext ?_ ?_
  · rw [doLoop_sum (fun s : ℝ × ℝ => s.1)
      (fun jj => if J.qe i j k jj > 0 ∧ jj < j then J.qe i j k jj * (J.a * J.dp * cos (J.phi jj)) else 0), zero_add, h2]
    intro jj s _ _
    simp only [accStep, hq, ha]
    by_cases c1 : J.qe i j k jj ≤ 0 ∧ jj ≥ j
    · have c2 : ¬ (J.qe i j k jj > 0 ∧ jj < j) := fun h => by omega
      simp [c1, c2]
    · by_cases c2 : J.qe i j k jj > 0 ∧ jj < j
      · simp [c1, c2]
      · simp [c1, c2]
  · rw [doLoop_sum (fun s : ℝ × ℝ => s.2)
      (fun jj => if J.qe i j k jj ≤ 0 ∧ jj ≥ j then -(J.qe i j k jj * (J.a * J.dp * cos (J.phi jj))) else 0), zero_add, h2]
    intro jj s _ _
    simp only [accStep, hq, ha]
    by_cases c1 : J.qe i j k jj ≤ 0 ∧ jj ≥ j
    · have c2 : ¬ (J.qe i j k jj > 0 ∧ jj < j) := fun h => by omega
      simp [c1, c2, sub_eq_add_neg]
    · by_cases c2 : J.qe i j k jj > 0 ∧ jj < j
      · simp only [c1, c2, if_true, if_false, and_self]; simp
      · simp [c1, c2]

end LwaIn

end Falwa
