import Verif.Model.SouthBranch
import Verif.Lemmas.Flux

/-! What the southern branch of the flux routines computes, element by element. -/

noncomputable section

namespace Falwa

open Real Finset

/-- The loop nest of the flux routine. -/
def nest {σ : Type*} (khi imax jlo jhi : ℤ) (cell : ℤ → ℤ → ℤ → σ → σ) (tail : ℤ → ℤ → σ → σ) (s : σ) : σ :=
  doLoop 2 khi (fun k => doLoop 1 imax (fun i s => tail k i (doLoop jlo jhi (cell k i) s))) s

/-- An observation that exactly one iteration of the loop nest sets. -/
theorem nest_field {σ : Type*} {khi imax jlo jhi : ℤ} {cell : ℤ → ℤ → ℤ → σ → σ} {tail : ℤ → ℤ → σ → σ} (g : σ → ℝ)
    (i₀ j₀ k₀ : ℤ) (v : ℝ)
    (hcell : ∀ k i j s, jlo ≤ j → j ≤ jhi → g (cell k i j s) = if k = k₀ ∧ i = i₀ ∧ j = j₀ then v else g s)
    (htail : ∀ k i s, g (tail k i s) = g s) (s : σ) :
    g (nest khi imax jlo jhi cell tail s) =
      if (2 ≤ k₀ ∧ k₀ ≤ khi) ∧ (1 ≤ i₀ ∧ i₀ ≤ imax) ∧ (jlo ≤ j₀ ∧ j₀ ≤ jhi) then v else g s := by
  unfold nest
  have hj : ∀ k i s, g (doLoop jlo jhi (cell k i) s) = if (k = k₀ ∧ i = i₀) ∧ jlo ≤ j₀ ∧ j₀ ≤ jhi then v else g s := by
    intro k i s
    by_cases hki : k = k₀ ∧ i = i₀
    · rw [doLoop_write g j₀ v]
      · by_cases hr : jlo ≤ j₀ ∧ j₀ ≤ jhi
        · rw [if_pos hr, if_pos ⟨hki, hr⟩]
        · rw [if_neg hr, if_neg (fun h => hr h.2)]
      · intro j t h5 h6
        rw [hcell k i j t h5 h6]
        by_cases hj : j = j₀
        · rw [if_pos ⟨hki.1, hki.2, hj⟩, if_pos hj]
        · rw [if_neg (fun h => hj h.2.2), if_neg hj]
    · rw [doLoop_keep g, if_neg (fun h => hki h.1)]
      intro j t h5 h6
      rw [hcell k i j t h5 h6, if_neg (fun h => hki ⟨h.1, h.2.1⟩)]
  have hi : ∀ k s, g (doLoop 1 imax (fun i s => tail k i (doLoop jlo jhi (cell k i) s)) s) =
      if k = k₀ ∧ (1 ≤ i₀ ∧ i₀ ≤ imax) ∧ jlo ≤ j₀ ∧ j₀ ≤ jhi then v else g s := by
    intro k s
    by_cases hk : k = k₀ ∧ jlo ≤ j₀ ∧ j₀ ≤ jhi
    · rw [doLoop_write g i₀ v]
      · by_cases hr : 1 ≤ i₀ ∧ i₀ ≤ imax
        · rw [if_pos hr, if_pos ⟨hk.1, hr, hk.2⟩]
        · rw [if_neg hr, if_neg (fun h => hr h.2.1)]
      · intro i t _ _
        rw [htail, hj]
        by_cases hi : i = i₀
        · rw [if_pos ⟨⟨hk.1, hi⟩, hk.2⟩, if_pos hi]
        · rw [if_neg (fun h => hi h.1.2), if_neg hi]
    · rw [doLoop_keep g, if_neg (fun h => hk ⟨h.1, h.2.2⟩)]
      intro i t _ _
      rw [htail, hj, if_neg (fun h => hk ⟨h.1.1, h.2⟩)]
  by_cases hk : (1 ≤ i₀ ∧ i₀ ≤ imax) ∧ jlo ≤ j₀ ∧ j₀ ≤ jhi
  · rw [doLoop_write g k₀ v]
    · by_cases hr : 2 ≤ k₀ ∧ k₀ ≤ khi
      · rw [if_pos hr, if_pos ⟨hr, hk⟩]
      · rw [if_neg hr, if_neg (fun h => hr h.1)]
    · intro k t _ _
      rw [hi]
      by_cases hk' : k = k₀
      · rw [if_pos ⟨hk', hk⟩, if_pos hk']
      · rw [if_neg (fun h => hk' h.1), if_neg hk']
  · rw [doLoop_keep g, if_neg (fun h => hk h.2)]
    intro k t _ _
    rw [hi, if_neg (fun h => hk h.2)]

/-- An observation that the statements after the loop over `j` set last. -/
theorem nest_tail {σ : Type*} {khi imax jlo jhi : ℤ} {cell : ℤ → ℤ → ℤ → σ → σ} {tail : ℤ → ℤ → σ → σ} (g : σ → ℝ)
    (i₀ k₀ : ℤ) (w : ℝ) (hcell : ∀ k i j s, jlo ≤ j → j ≤ jhi → ¬ (k = k₀ ∧ i = i₀) → g (cell k i j s) = g s)
    (htail : ∀ k i s, g (tail k i s) = if k = k₀ ∧ i = i₀ then w else g s) (s : σ) :
    g (nest khi imax jlo jhi cell tail s) = if (2 ≤ k₀ ∧ k₀ ≤ khi) ∧ (1 ≤ i₀ ∧ i₀ ≤ imax) then w else g s := by
  unfold nest
  have hj : ∀ k i s, g (tail k i (doLoop jlo jhi (cell k i) s)) = if k = k₀ ∧ i = i₀ then w else g s := by
    intro k i s
    rw [htail]
    by_cases hki : k = k₀ ∧ i = i₀
    · rw [if_pos hki, if_pos hki]
    · rw [if_neg hki, if_neg hki]
      exact doLoop_keep g (fun j t h5 h6 => hcell k i j t h5 h6 hki) s
  have hi : ∀ k s, g (doLoop 1 imax (fun i s => tail k i (doLoop jlo jhi (cell k i) s)) s) =
      if k = k₀ ∧ (1 ≤ i₀ ∧ i₀ ≤ imax) then w else g s := by
    intro k s
    by_cases hk : k = k₀
    · rw [doLoop_write g i₀ w]
      · by_cases hr : 1 ≤ i₀ ∧ i₀ ≤ imax
        · rw [if_pos hr, if_pos ⟨hk, hr⟩]
        · rw [if_neg hr, if_neg (fun h => hr h.2)]
      · intro i t _ _
        rw [hj]
        by_cases hi : i = i₀
        · rw [if_pos ⟨hk, hi⟩, if_pos hi]
        · rw [if_neg (fun h => hi h.2), if_neg hi]
    · rw [doLoop_keep g, if_neg (fun h => hk h.1)]
      intro i t _ _
      rw [hj, if_neg (fun h => hk h.1)]
  by_cases hr0 : 1 ≤ i₀ ∧ i₀ ≤ imax
  · rw [doLoop_write g k₀ w]
    · by_cases hr : 2 ≤ k₀ ∧ k₀ ≤ khi
      · rw [if_pos hr, if_pos ⟨hr, hr0⟩]
      · rw [if_neg hr, if_neg (fun h => hr h.1)]
    · intro k t _ _
      rw [hi]
      by_cases hk' : k = k₀
      · rw [if_pos ⟨hk', hr0⟩, if_pos hk']
      · rw [if_neg (fun h => hk' h.1), if_neg hk']
  · rw [doLoop_keep g, if_neg (fun h => hr0 h.2)]
    intro k t _ _
    rw [hi, if_neg (fun h => hr0 h.2)]

namespace FluxIn

variable (I : FluxIn)

/-- Iterations of the southern branch. -/
def IterS (i j k : ℤ) : Prop :=
  (2 ≤ k ∧ k ≤ I.kmax - 1) ∧ (1 ≤ i ∧ i ≤ I.imax) ∧ (2 ≤ j ∧ j ≤ I.nd - I.jb)

instance (i j k : ℤ) : Decidable (IterS I i j k) := by unfold IterS; infer_instance

theorem fluxDirinvSouth_def : I.fluxDirinvSouth =
    nest (I.kmax - 1) I.imax 2 (I.nd - I.jb) I.cellStepS I.tailStep zeroOut := rfl

section values

variable (hjb : 0 ≤ I.jb)
include hjb

theorem wr_cellS {A : ℤ → ℤ → ℤ → ℝ} {i j k i₀ j₀ k₀ : ℤ} {f : ℤ → ℤ → ℤ → ℝ} (h1 : 2 ≤ j) (h2 : j ≤ I.nd - I.jb) :
    wr3 I.nd A i j k (f i j k) i₀ j₀ k₀ = if k = k₀ ∧ i = i₀ ∧ j = j₀ then f i₀ j₀ k₀ else A i₀ j₀ k₀ := by
  rw [wr3_of_mem (by omega) (by omega)]
  by_cases hc : k = k₀ ∧ i = i₀ ∧ j = j₀
  · obtain ⟨rfl, rfl, rfl⟩ := hc
    rw [if_pos ⟨rfl, rfl, rfl⟩, if_pos ⟨rfl, rfl, rfl⟩]
  · rw [if_neg hc, if_neg (fun h => hc ⟨h.2.2.symm, h.1.symm, h.2.1.symm⟩)]

/-- An array that the loop body sets once and lines 173-178 do not. -/
theorem south_array (x : FluxOut → ℤ → ℤ → ℤ → ℝ) (f : ℤ → ℤ → ℤ → ℝ)
    (hx : ∀ k i j s, x (I.cellStepS k i j s) = wr3 I.nd (x s) i j k (f i j k)) (ht : ∀ k i s, x (I.tailStep k i s) = x s)
    (h0 : x zeroOut = fun _ _ _ => 0) (i j k : ℤ) : x I.fluxDirinvSouth i j k = if IterS I i j k then f i j k else 0 := by
  rw [fluxDirinvSouth_def, nest_field (fun s => x s i j k) i j k (f i j k) (fun k' i' j' s h1 h2 => ?_) (fun k' i' s => ?_)]
  · rw [h0]; rfl
  · rw [hx]
    exact wr_cellS I hjb h1 h2
  · rw [ht]

theorem astar1S_eq (i j k : ℤ) : I.fluxDirinvSouth.astar1 i j k = if IterS I i j k then (I.accS i j k).astar1 else 0 :=
  south_array I hjb FluxOut.astar1 (fun i j k => (I.accS i j k).astar1) (fun _ _ _ _ => rfl) (fun _ _ _ => rfl) rfl i j k

theorem astar2S_eq (i j k : ℤ) : I.fluxDirinvSouth.astar2 i j k = if IterS I i j k then (I.accS i j k).astar2 else 0 :=
  south_array I hjb FluxOut.astar2 (fun i j k => (I.accS i j k).astar2) (fun _ _ _ _ => rfl) (fun _ _ _ => rfl) rfl i j k

theorem ncforce3dS_eq (i j k : ℤ) : I.fluxDirinvSouth.ncforce3d i j k = if IterS I i j k then (I.accS i j k).nc else 0 :=
  south_array I hjb FluxOut.ncforce3d (fun i j k => (I.accS i j k).nc) (fun _ _ _ _ => rfl) (fun _ _ _ => rfl) rfl i j k

theorem ua2S_eq (i j k : ℤ) : I.fluxDirinvSouth.ua2 i j k = if IterS I i j k then (I.accS i j k).ua2 else 0 :=
  south_array I hjb FluxOut.ua2 (fun i j k => (I.accS i j k).ua2) (fun _ _ _ _ => rfl) (fun _ _ _ => rfl) rfl i j k

theorem ua1S_eq (i j k : ℤ) : I.fluxDirinvSouth.ua1 i j k =
    if IterS I i j k then rd2 I.jd I.uref j k * ((I.accS i j k).astar1 + (I.accS i j k).astar2) else 0 :=
  south_array I hjb FluxOut.ua1 (fun i j k => rd2 I.jd I.uref j k * ((I.accS i j k).astar1 + (I.accS i j k).astar2))
    (fun _ _ _ _ => rfl) (fun _ _ _ => rfl) rfl i j k

theorem ep1S_eq (i j k : ℤ) : I.fluxDirinvSouth.ep1 i j k = if IterS I i j k then I.ep1ValS i j k else 0 :=
  south_array I hjb FluxOut.ep1 I.ep1ValS (fun _ _ _ _ => rfl) (fun _ _ _ => rfl) rfl i j k

omit hjb in
theorem ep4S_eq (i j : ℤ) : I.fluxDirinvSouth.ep4 i j = if IterS I i j 2 then I.ep4ValS i j else 0 := by
  rw [fluxDirinvSouth_def, nest_field (cell := I.cellStepS) (tail := I.tailStep) (fun s : FluxOut => s.ep4 i j) i j 2 (I.ep4ValS i j) (fun k' i' j' s h1 h2 => ?_) (fun k' i' s => rfl)]
  · rfl
  · show (if k' = 2 then (fun a b => if a = i' ∧ b = j' then I.ep4ValS i' j' else s.ep4 a b) else s.ep4) i j = _
    by_cases hk : k' = 2
    · rw [if_pos hk]
      by_cases hc : i = i' ∧ j = j'
      · obtain ⟨rfl, rfl⟩ := hc
        simp [hk]
      · rw [if_neg hc, if_neg (fun h => hc ⟨h.2.1.symm, h.2.2.symm⟩)]
    · rw [if_neg hk, if_neg (fun h => hk h.1)]

/-- `ep2` and `ep3` on a row that lines 177-178 do not name. -/
theorem ep23S_eq {i j k : ℤ} (hj : j ≠ wrapJ I.nd I.jb) :
    I.fluxDirinvSouth.ep2 i j k = (if IterS I i j k then I.ep2ValS i j k else 0) ∧
    I.fluxDirinvSouth.ep3 i j k = (if IterS I i j k then I.ep3ValS i j k else 0) := by
  rw [fluxDirinvSouth_def]
  constructor
  · rw [nest_field (cell := I.cellStepS) (tail := I.tailStep) (fun s : FluxOut => s.ep2 i j k) i j k (I.ep2ValS i j k) (fun k' i' j' s h1 h2 => wr_cellS I hjb h1 h2) (fun k' i' s => ?_)]
    · rfl
    · show wr3 I.nd s.ep2 i' I.jb k' _ i j k = s.ep2 i j k
      unfold wr3
      rw [if_neg (fun h => hj h.2.1)]
  · rw [nest_field (cell := I.cellStepS) (tail := I.tailStep) (fun s : FluxOut => s.ep3 i j k) i j k (I.ep3ValS i j k) (fun k' i' j' s h1 h2 => wr_cellS I hjb h1 h2) (fun k' i' s => ?_)]
    · rfl
    · show wr3 I.nd s.ep3 i' I.jb k' _ i j k = s.ep3 i j k
      unfold wr3
      rw [if_neg (fun h => hj h.2.1)]

/-- `ep2` and `ep3` on row `jb`. -/
theorem ep23S_jb {i k : ℤ} (h1 : 1 ≤ I.jb) (h2 : I.jb ≤ I.nd) :
    I.fluxDirinvSouth.ep2 i I.jb k = (if (2 ≤ k ∧ k ≤ I.kmax - 1) ∧ (1 ≤ i ∧ i ≤ I.imax) then I.ep2Tail i k else 0) ∧
    I.fluxDirinvSouth.ep3 i I.jb k = (if (2 ≤ k ∧ k ≤ I.kmax - 1) ∧ (1 ≤ i ∧ i ≤ I.imax) then I.ep3Tail i k else 0) := by
  rw [fluxDirinvSouth_def]
  constructor
  · rw [nest_tail (cell := I.cellStepS) (tail := I.tailStep) (fun s : FluxOut => s.ep2 i I.jb k) i k (I.ep2Tail i k) (fun k' i' j' s h3 h4 h5 => ?_) (fun k' i' s => ?_)]
    · rfl
    · refine (wr_cellS I hjb (f := I.ep2ValS) h3 h4).trans ?_
      rw [if_neg (fun h => h5 ⟨h.1, h.2.1⟩)]
    · show wr3 I.nd s.ep2 i' I.jb k' (I.ep2Tail i' k') i I.jb k = _
      rw [wr3_of_mem h1 h2]
      by_cases hc : k' = k ∧ i' = i
      · obtain ⟨rfl, rfl⟩ := hc
        rw [if_pos ⟨rfl, rfl, rfl⟩, if_pos ⟨rfl, rfl⟩]
      · rw [if_neg (fun h => hc ⟨h.2.2.symm, h.1.symm⟩), if_neg hc]
  · rw [nest_tail (cell := I.cellStepS) (tail := I.tailStep) (fun s : FluxOut => s.ep3 i I.jb k) i k (I.ep3Tail i k) (fun k' i' j' s h3 h4 h5 => ?_) (fun k' i' s => ?_)]
    · rfl
    · refine (wr_cellS I hjb (f := I.ep3ValS) h3 h4).trans ?_
      rw [if_neg (fun h => h5 ⟨h.1, h.2.1⟩)]
    · show wr3 I.nd s.ep3 i' I.jb k' (I.ep3Tail i' k') i I.jb k = _
      rw [wr3_of_mem h1 h2]
      by_cases hc : k' = k ∧ i' = i
      · obtain ⟨rfl, rfl⟩ := hc
        rw [if_pos ⟨rfl, rfl, rfl⟩, if_pos ⟨rfl, rfl⟩]
      · rw [if_neg (fun h => hc ⟨h.2.2.symm, h.1.symm⟩), if_neg hc]

end values

/-! ### The inner loop as sums -/

theorem accS_astar1 (i j k : ℤ) : (I.accS i j k).astar1 =
    ∑ jj ∈ Icc 1 I.nd, if I.qeS i j k jj ≤ 0 ∧ jj ≥ j then -(I.qeS i j k jj * (I.a * I.dp * cos (I.phiS jj))) else 0 := by
  unfold accS
  rw [doLoop_sum (fun s : Acc => s.astar1)
    (fun jj => if I.qeS i j k jj ≤ 0 ∧ jj ≥ j then -(I.qeS i j k jj * (I.a * I.dp * cos (I.phiS jj))) else 0), zero_add]
  intro jj s _ _
  unfold accStepS
  by_cases h1 : I.qeS i j k jj ≤ 0 ∧ jj ≥ j
  · have h2 : ¬ (I.qeS i j k jj > 0 ∧ jj < j) := fun h => by omega
    simp [h1, h2, sub_eq_add_neg]
  · by_cases h2 : I.qeS i j k jj > 0 ∧ jj < j
    · simp only [h1, h2, if_true, if_false, and_self]; simp
    · simp [h1, h2]

theorem accS_astar2 (i j k : ℤ) : (I.accS i j k).astar2 =
    ∑ jj ∈ Icc 1 I.nd, if I.qeS i j k jj > 0 ∧ jj < j then I.qeS i j k jj * (I.a * I.dp * cos (I.phiS jj)) else 0 := by
  unfold accS
  rw [doLoop_sum (fun s : Acc => s.astar2)
    (fun jj => if I.qeS i j k jj > 0 ∧ jj < j then I.qeS i j k jj * (I.a * I.dp * cos (I.phiS jj)) else 0), zero_add]
  intro jj s _ _
  unfold accStepS
  by_cases h1 : I.qeS i j k jj ≤ 0 ∧ jj ≥ j
  · have h2 : ¬ (I.qeS i j k jj > 0 ∧ jj < j) := fun h => by omega
    simp [h1, h2]
  · by_cases h2 : I.qeS i j k jj > 0 ∧ jj < j
    · simp [h1, h2]
    · simp [h1, h2]

/-- Sign with which row `jj` enters `ncforce3d` and `ua2` at row `j`. -/
def sgnS (i j k jj : ℤ) : ℝ :=
  if I.qeS i j k jj ≤ 0 ∧ jj ≥ j then -1 else if I.qeS i j k jj > 0 ∧ jj < j then 1 else 0

theorem accS_nc (i j k : ℤ) : (I.accS i j k).nc =
    ∑ jj ∈ Icc 1 I.nd, I.sgnS i j k jj * (rd3 I.jmax I.ncforce i jj k * (I.a * I.dp * cos (I.phiS jj))) := by
  unfold accS
  rw [doLoop_sum (fun s : Acc => s.nc)
    (fun jj => I.sgnS i j k jj * (rd3 I.jmax I.ncforce i jj k * (I.a * I.dp * cos (I.phiS jj)))), zero_add]
  intro jj s _ _
  unfold accStepS sgnS
  by_cases h1 : I.qeS i j k jj ≤ 0 ∧ jj ≥ j
  · have h2 : ¬ (I.qeS i j k jj > 0 ∧ jj < j) := fun h => by omega
    simp [h1, h2, sub_eq_add_neg]
  · by_cases h2 : I.qeS i j k jj > 0 ∧ jj < j
    · simp only [h1, h2, if_true, if_false, and_self]; simp
    · simp [h1, h2]

theorem accS_ua2 (i j k : ℤ) : (I.accS i j k).ua2 =
    ∑ jj ∈ Icc 1 I.nd, I.sgnS i j k jj * (I.qeS i j k jj * I.ueS i j k jj * (I.a * I.dp)) := by
  unfold accS
  rw [doLoop_sum (fun s : Acc => s.ua2)
    (fun jj => I.sgnS i j k jj * (I.qeS i j k jj * I.ueS i j k jj * (I.a * I.dp))), zero_add]
  intro jj s _ _
  unfold accStepS sgnS
  by_cases h1 : I.qeS i j k jj ≤ 0 ∧ jj ≥ j
  · have h2 : ¬ (I.qeS i j k jj > 0 ∧ jj < j) := fun h => by omega
    simp [h1, h2, sub_eq_add_neg]
  · by_cases h2 : I.qeS i j k jj > 0 ∧ jj < j
    · simp only [h1, h2, if_true, if_false, and_self]; simp
    · simp [h1, h2]

end FluxIn

/-! ### `compute_lwa_only_nhn22` -/

namespace LwaIn

variable (I : LwaIn)

/-- Rows and longitudes of the loops. -/
def InRangeS (i j : ℤ) : Prop := (1 ≤ i ∧ i ≤ I.imax) ∧ 2 ≤ j ∧ j ≤ I.nd - I.jb

instance (i j : ℤ) : Decidable (InRangeS I i j) := by unfold InRangeS; infer_instance

/-- The loops over `i` and `j`. -/
def innerS (k : ℤ) (s : LwaOnlyOut) : LwaOnlyOut :=
  doLoop 1 I.imax (fun i => doLoop 2 (I.nd - I.jb) (I.cellStepS k i)) s

theorem lwaOnly_defS : I.lwaOnlySouth = doLoop 2 (I.kmax - 1) (fun k s => I.baroStepS k (I.innerS k s))
    ⟨fun _ _ => 0, fun _ _ => 0, fun _ _ _ => 0, fun _ _ _ => 0⟩ := rfl

theorem inner_baroS (k : ℤ) (s : LwaOnlyOut) :
    (I.innerS k s).astarbaro = s.astarbaro ∧ (I.innerS k s).ubaro = s.ubaro := by
  unfold innerS
  constructor
  · refine doLoop_keep (fun s : LwaOnlyOut => s.astarbaro) (fun i t _ _ => ?_) s
    refine doLoop_keep (fun s : LwaOnlyOut => s.astarbaro) (fun _ _ _ _ => ?_) t
    rfl
  · refine doLoop_keep (fun s : LwaOnlyOut => s.ubaro) (fun i t _ _ => ?_) s
    refine doLoop_keep (fun s : LwaOnlyOut => s.ubaro) (fun _ _ _ _ => ?_) t
    rfl

theorem inner_fieldS (hjb : 0 ≤ I.jb) (x : LwaOnlyOut → ℤ → ℤ → ℤ → ℝ) (f : ℤ → ℤ → ℤ → ℝ)
    (hx : ∀ k i j s, x (I.cellStepS k i j s) = wr3 I.nd (x s) i j k (f i j k)) (k i₀ j₀ k₀ : ℤ) (s : LwaOnlyOut) :
    x (I.innerS k s) i₀ j₀ k₀ = if k = k₀ ∧ InRangeS I i₀ j₀ then f i₀ j₀ k₀ else x s i₀ j₀ k₀ := by
  unfold innerS
  have hcell : ∀ i j t, 2 ≤ j → j ≤ I.nd - I.jb → x (I.cellStepS k i j t) i₀ j₀ k₀ =
      if i₀ = i ∧ j₀ = j ∧ k₀ = k then f i j k else x t i₀ j₀ k₀ := by
    intro i j t h1 h2
    rw [hx, wr3_of_mem (by omega) (by omega)]
  by_cases hc : k = k₀ ∧ InRangeS I i₀ j₀
  · obtain ⟨rfl, h⟩ := hc
    rw [if_pos ⟨rfl, h⟩, doLoop_write (fun s => x s i₀ j₀ k) i₀ (f i₀ j₀ k), if_pos h.1]
    intro i t _ _
    by_cases hi : i = i₀
    · subst hi
      rw [if_pos rfl, doLoop_write (fun s => x s i j₀ k) j₀ (f i j₀ k), if_pos h.2]
      intro j t h3 h4
      rw [hcell i j t h3 h4]
      by_cases hj : j = j₀
      · subst hj; rw [if_pos ⟨rfl, rfl, rfl⟩, if_pos rfl]
      · rw [if_neg (fun h => hj h.2.1.symm), if_neg hj]
    · rw [if_neg hi]
      refine doLoop_keep (fun s => x s i₀ j₀ k) (fun j t h3 h4 => ?_) t
      rw [hcell i j t h3 h4, if_neg (fun h => hi h.1.symm)]
  · rw [if_neg hc]
    refine doLoop_keep (fun s => x s i₀ j₀ k₀) (fun i t h1 h2 => ?_) s
    refine doLoop_keep (fun s => x s i₀ j₀ k₀) (fun j t h3 h4 => ?_) t
    rw [hcell i j t h3 h4, if_neg]
    rintro ⟨rfl, rfl, rfl⟩
    exact hc ⟨rfl, ⟨h1, h2⟩, h3, h4⟩

theorem baroStep_astarS (k : ℤ) (s : LwaOnlyOut) :
    (I.baroStepS k s).astar1 = s.astar1 ∧ (I.baroStepS k s).astar2 = s.astar2 := by
  unfold baroStepS
  constructor
  · refine (doLoop_keep (fun s : LwaOnlyOut => s.astar1) (fun _ _ _ _ => ?_) _).trans ?_ <;> rfl
  · refine (doLoop_keep (fun s : LwaOnlyOut => s.astar2) (fun _ _ _ _ => ?_) _).trans ?_ <;> rfl

theorem baroStep_astarbaroS (k i j : ℤ) (s : LwaOnlyOut) :
    (I.baroStepS k s).astarbaro i j = s.astarbaro i j + (s.astar1 i j k + s.astar2 i j k) * I.weight k := by
  unfold baroStepS weight
  rw [← mul_assoc]
  refine (doLoop_keep (fun s : LwaOnlyOut => s.astarbaro i j) (fun _ _ _ _ => ?_) _).trans ?_ <;> rfl

theorem baroStep_ubaroS (k i j : ℤ) (s : LwaOnlyOut) :
    (I.baroStepS k s).ubaro i j = s.ubaro i j +
      if 2 ≤ j ∧ j ≤ I.nd - I.jb then rd3 I.jmax I.uu i j k * I.weight k else 0 := by
  unfold baroStepS
  refine (doLoop_sum (fun s : LwaOnlyOut => s.ubaro i j)
    (fun j' => if j = j' then rd3 I.jmax I.uu i j k * I.weight k else 0) ?_ _).trans ?_
  · intro j' t _ _
    by_cases h : j = j'
    · subst h
      simp only [if_true, weight]
      ring
    · simp [h]
  · rw [sum_ite_eq]
    simp only [mem_Icc]

/-- What `compute_lwa_only_nhn22` returns. -/
theorem lwaOnly_eqS (hjb : 0 ≤ I.jb) (i j : ℤ) :
    (∀ k, I.lwaOnlySouth.astar1 i j k = if InRangeS I i j ∧ 2 ≤ k ∧ k ≤ I.kmax - 1 then (I.accS i j k).1 else 0) ∧
    (∀ k, I.lwaOnlySouth.astar2 i j k = if InRangeS I i j ∧ 2 ≤ k ∧ k ≤ I.kmax - 1 then (I.accS i j k).2 else 0) ∧
    I.lwaOnlySouth.astarbaro i j =
      (if InRangeS I i j then ∑ k ∈ Icc 2 (I.kmax - 1), ((I.accS i j k).1 + (I.accS i j k).2) * I.weight k else 0) ∧
    I.lwaOnlySouth.ubaro i j =
      (if 2 ≤ j ∧ j ≤ I.nd - I.jb then
        ∑ k ∈ Icc 2 (I.kmax - 1), rd3 I.jmax I.uu i j k * I.weight k else 0) := by
  rw [lwaOnly_defS]
  by_cases hk : I.kmax - 1 < 1
  · rw [doLoop_empty (by omega), Icc_eq_empty (by omega)]
    refine ⟨fun k => ?_, fun k => ?_, by simp, by simp⟩ <;> rw [if_neg (by omega)]
  refine doLoop_induct (fun hi (s : LwaOnlyOut) =>
    (∀ k, s.astar1 i j k = if InRangeS I i j ∧ 2 ≤ k ∧ k ≤ hi then (I.accS i j k).1 else 0) ∧
    (∀ k, s.astar2 i j k = if InRangeS I i j ∧ 2 ≤ k ∧ k ≤ hi then (I.accS i j k).2 else 0) ∧
    s.astarbaro i j =
      (if InRangeS I i j then ∑ k ∈ Icc 2 hi, ((I.accS i j k).1 + (I.accS i j k).2) * I.weight k else 0) ∧
    s.ubaro i j =
      (if 2 ≤ j ∧ j ≤ I.nd - I.jb then
        ∑ k ∈ Icc 2 hi, rd3 I.jmax I.uu i j k * I.weight k else 0)) ?_ ?_ _ (by omega)
  · refine ⟨fun k => ?_, fun k => ?_, by simp, by simp⟩ <;> rw [if_neg (by omega)]
  · rintro hi s hlo ⟨h1, h2, h3, h4⟩
    have e1 := fun k₀ => inner_fieldS I hjb (fun s : LwaOnlyOut => s.astar1) (fun i j k => (I.accS i j k).1) (fun _ _ _ _ => rfl) hi i j k₀ s
    have e2 := fun k₀ => inner_fieldS I hjb (fun s : LwaOnlyOut => s.astar2) (fun i j k => (I.accS i j k).2) (fun _ _ _ _ => rfl) hi i j k₀ s
    have hI : Icc 2 hi = insert hi (Icc 2 (hi - 1)) := by
      ext x; simp only [mem_Icc, mem_insert]; omega
    have hnot : hi ∉ Icc 2 (hi - 1) := by simp
    refine ⟨fun k => ?_, fun k => ?_, ?_, ?_⟩
    · rw [(baroStep_astarS I hi _).1, e1 k, h1 k]
      by_cases hr : InRangeS I i j
      · by_cases hk' : hi = k
        · subst hk'
          rw [if_pos ⟨rfl, hr⟩, if_pos ⟨hr, hlo, le_rfl⟩]
        · rw [if_neg (fun h => hk' h.1)]
          by_cases hk2 : 2 ≤ k ∧ k ≤ hi
          · rw [if_pos ⟨hr, by omega⟩, if_pos ⟨hr, hk2⟩]
          · rw [if_neg (fun h => hk2 (by omega)), if_neg (fun h => hk2 h.2)]
      · rw [if_neg (fun h => hr h.2), if_neg (fun h => hr h.1), if_neg (fun h => hr h.1)]
    · rw [(baroStep_astarS I hi _).2, e2 k, h2 k]
      by_cases hr : InRangeS I i j
      · by_cases hk' : hi = k
        · subst hk'
          rw [if_pos ⟨rfl, hr⟩, if_pos ⟨hr, hlo, le_rfl⟩]
        · rw [if_neg (fun h => hk' h.1)]
          by_cases hk2 : 2 ≤ k ∧ k ≤ hi
          · rw [if_pos ⟨hr, by omega⟩, if_pos ⟨hr, hk2⟩]
          · rw [if_neg (fun h => hk2 (by omega)), if_neg (fun h => hk2 h.2)]
      · rw [if_neg (fun h => hr h.2), if_neg (fun h => hr h.1), if_neg (fun h => hr h.1)]
    · rw [baroStep_astarbaroS, (inner_baroS I hi s).1, h3, e1 hi, e2 hi, h1 hi, h2 hi]
      by_cases hr : InRangeS I i j
      · rw [if_pos hr, if_pos ⟨rfl, hr⟩, if_pos ⟨rfl, hr⟩, if_pos hr, hI, sum_insert hnot]
        ring
      · simp [hr]
    · rw [baroStep_ubaroS, (inner_baroS I hi s).2, h4]
      by_cases hr : 2 ≤ j ∧ j ≤ I.nd - I.jb
      · rw [if_pos hr, if_pos hr, if_pos hr, hI, sum_insert hnot]
        ring
      · simp [hr]

/-- The inner loops of both routines agree. -/
theorem accS_eq (J : FluxIn) (h1 : J.jmax = I.jmax) (h2 : J.nd = I.nd) (h3 : J.pv = I.pv) (h4 : J.qref = I.qref)
    (h5 : J.a = I.a) (i j k : ℤ) : I.accS i j k = ((J.accS i j k).astar1, (J.accS i j k).astar2) := by
  rw [FluxIn.accS_astar1, FluxIn.accS_astar2]
  unfold accS
  have hq : ∀ jj, rd3 I.jmax I.pv i jj k - rd2 I.nd I.qref j k = J.qeS i j k jj := by
    intro jj; unfold FluxIn.qeS; rw [h1, h2, h3, h4]
  have ha : ∀ jj : ℤ, I.a * I.dp * cos (I.dp * ((jj - 1 : ℤ) : ℝ) - 0.5 * π) = J.a * J.dp * cos (J.phiS jj) := by
    intro jj; unfold FluxIn.phiS FluxIn.dp dp; rw [h1, h5]
  refine Prod.ext ?_ ?_
  · rw [doLoop_sum (fun s : ℝ × ℝ => s.1)
      (fun jj => if J.qeS i j k jj ≤ 0 ∧ jj ≥ j then -(J.qeS i j k jj * (J.a * J.dp * cos (J.phiS jj))) else 0), zero_add, h2]
    intro jj s _ _
    simp only [accStepS, hq, ha]
    by_cases c1 : J.qeS i j k jj ≤ 0 ∧ jj ≥ j
    · have c2 : ¬ (J.qeS i j k jj > 0 ∧ jj < j) := fun h => by omega
      simp [c1, c2, sub_eq_add_neg]
    · by_cases c2 : J.qeS i j k jj > 0 ∧ jj < j
      · simp only [c1, c2, if_true, if_false, and_self]; simp
      · simp [c1, c2]
  · rw [doLoop_sum (fun s : ℝ × ℝ => s.2)
      (fun jj => if J.qeS i j k jj > 0 ∧ jj < j then J.qeS i j k jj * (J.a * J.dp * cos (J.phiS jj)) else 0), zero_add, h2]
    intro jj s _ _
    simp only [accStepS, hq, ha]
    by_cases c1 : J.qeS i j k jj ≤ 0 ∧ jj ≥ j
    · have c2 : ¬ (J.qeS i j k jj > 0 ∧ jj < j) := fun h => by omega
      simp [c1, c2]
    · by_cases c2 : J.qeS i j k jj > 0 ∧ jj < j
      · simp [c1, c2]
      · simp [c1, c2]

end LwaIn

end Falwa
