import Verif.Lemmas.Units

/-! Change of units in the wave activity and flux routines. -/

set_option linter.unusedSectionVars false

noncomputable section

namespace Falwa

open Real Finset

theorem wr3_mul (n : ℤ) (c : ℝ) (A : ℤ → ℤ → ℤ → ℝ) (i j k : ℤ) (v : ℝ) :
    wr3 n (fun i j k => c * A i j k) i j k (c * v) = fun i' j' k' => c * wr3 n A i j k v i' j' k' := by
  funext i' j' k'
  unfold wr3
  split_ifs <;> rfl

namespace FluxIn

variable (I : FluxIn) (L F : ℝ)

/-- The same input in other units. -/
def units : FluxIn :=
  { I with
    pv := fun i j k => F * I.pv i j k
    uu := fun i j k => L * F * I.uu i j k
    vv := fun i j k => L * F * I.vv i j k
    ncforce := fun i j k => F ^ 2 * I.ncforce i j k
    qref := fun j k => F * I.qref j k
    uref := fun j k => L * F * I.uref j k
    a := L * I.a
    om := F * I.om
    dz := L * I.dz
    h := L * I.h
    rr := L ^ 2 * F ^ 2 * I.rr
    cp := L ^ 2 * F ^ 2 * I.cp
    prefac := L * I.prefac }

/-- The results in other units. -/
def outScale (o : FluxOut) : FluxOut where
  astar1 := fun i j k => L * F * o.astar1 i j k
  astar2 := fun i j k => L * F * o.astar2 i j k
  ncforce3d := fun i j k => L * F ^ 2 * o.ncforce3d i j k
  ua1 := fun i j k => L ^ 2 * F ^ 2 * o.ua1 i j k
  ua2 := fun i j k => L ^ 2 * F ^ 2 * o.ua2 i j k
  ep1 := fun i j k => L ^ 2 * F ^ 2 * o.ep1 i j k
  ep2 := fun i j k => L ^ 2 * F ^ 2 * o.ep2 i j k
  ep3 := fun i j k => L ^ 2 * F ^ 2 * o.ep3 i j k
  ep4 := fun i j => L * F ^ 2 * o.ep4 i j

/-- The accumulators in other units. -/
def accScale (s : Acc) : Acc :=
  ⟨L * F * s.astar1, L * F * s.astar2, L * F ^ 2 * s.nc, L ^ 2 * F ^ 2 * s.ua2⟩

variable {L F} (hL : 0 < L) (hF : 0 < F)
include hL hF

theorem units_qe (i j k jj : ℤ) : (I.units L F).qe i j k jj = F * I.qe i j k jj :=
  (mul_sub _ _ _).symm

theorem units_ue (i j k jj : ℤ) : (I.units L F).ue i j k jj = L * F * I.ue i j k jj := by
  show L * F * rd3 I.jmax I.uu i (jj + I.nd - 1) k * cos (I.phi j) -
    L * F * rd2 I.jd I.uref (j - I.jb) k * cos (I.phi jj) = _
  unfold ue
  ring

theorem units_accStep (i j k jj : ℤ) (s : Acc) :
    (I.units L F).accStep i j k jj (accScale L F s) = accScale L F (I.accStep i j k jj s) := by
  unfold accStep
  simp only [I.units_qe hL hF, I.units_ue hL hF]
  have h1 : F * I.qe i j k jj ≤ 0 ↔ I.qe i j k jj ≤ 0 := by
    rw [mul_nonpos_iff]
    constructor
    · rintro (h | h)
      · exact h.2
      · exact absurd hF (not_lt.mpr h.1)
    · intro h
      exact Or.inl ⟨hF.le, h⟩
  have h2 : F * I.qe i j k jj > 0 ↔ I.qe i j k jj > 0 := mul_pos_iff_of_pos_left hF
  simp only [h1, h2]
  have hn : rd3 (I.units L F).jmax (I.units L F).ncforce i (jj + (I.units L F).nd - 1) k =
      F ^ 2 * rd3 I.jmax I.ncforce i (jj + I.nd - 1) k := rfl
  have ha : (I.units L F).a * (I.units L F).dp = L * (I.a * I.dp) := mul_assoc _ _ _
  have hp : (I.units L F).phi jj = I.phi jj := rfl
  rw [hn, ha, hp]
  unfold accScale
  split_ifs <;> simp only [Acc.mk.injEq] <;> refine ⟨?_, ?_, ?_, ?_⟩ <;> first | trivial | ring1

theorem units_acc (i j k : ℤ) : (I.units L F).acc i j k = accScale L F (I.acc i j k) := by
  unfold acc
  have e : (⟨0, 0, 0, 0⟩ : Acc) = accScale L F ⟨0, 0, 0, 0⟩ := by unfold accScale; simp
  conv_lhs => rw [e]
  exact doLoop_map (accScale L F) (fun jj t => I.units_accStep hL hF i j k jj t) _

theorem units_ep1Val (i j k : ℤ) : (I.units L F).ep1Val i j k = L ^ 2 * F ^ 2 * I.ep1Val i j k := by
  have hL0 := hL.ne'
  have hF0 := hF.ne'
  unfold ep1Val
  have hz : -(L ^ 2 * F ^ 2 * I.rr / (L ^ 2 * F ^ 2 * I.cp)) * (L * I.dz * ((k - 1 : ℤ) : ℝ)) / (L * I.h) =
      -(I.rr / I.cp) * (I.dz * ((k - 1 : ℤ) : ℝ)) / I.h := by
    rw [mul_div_mul_left _ _ (by positivity : L ^ 2 * F ^ 2 ≠ 0),
      show -(I.rr / I.cp) * (L * I.dz * ((k - 1 : ℤ) : ℝ)) = L * (-(I.rr / I.cp) * (I.dz * ((k - 1 : ℤ) : ℝ))) by ring,
      mul_div_mul_left _ _ hL0]
  show (-0.5 * (L * F * rd3 I.jmax I.uu i (j + I.nd - 1) k - L * F * rd2 I.jd I.uref (j - I.jb) k) ^ 2 +
      0.5 * (L * F * rd3 I.jmax I.vv i (j + I.nd - 1) k) ^ 2 -
      0.5 * (rd3 I.jmax I.pt i (j + I.nd - 1) k - rd2 I.jd I.tref (j - I.jb) k) ^ 2 * (L ^ 2 * F ^ 2 * I.rr / (L * I.h)) *
        exp (-(L ^ 2 * F ^ 2 * I.rr / (L ^ 2 * F ^ 2 * I.cp)) * (L * I.dz * ((k - 1 : ℤ) : ℝ)) / (L * I.h)) * 2 * (L * I.dz) /
        (I.tn0 (k + 1) - I.tn0 (k - 1))) * cos (I.phi j) = _
  rw [hz, show L ^ 2 * F ^ 2 * I.rr = L * (L * F ^ 2 * I.rr) by ring, mul_div_mul_left _ _ hL0]
  simp only
  ring

theorem units_ep2Val (i j k : ℤ) : (I.units L F).ep2Val i j k = L ^ 2 * F ^ 2 * I.ep2Val i j k := by
  show (L * F * rd3 I.jmax I.uu i (j + I.nd) k - L * F * rd2 I.jd I.uref (j - I.jb + 1) k) * cos (I.dp * (j : ℝ)) *
    cos (I.dp * (j : ℝ)) * (L * F * rd3 I.jmax I.vv i (j + I.nd) k) = _
  unfold ep2Val
  ring

theorem units_ep3Val (i j k : ℤ) : (I.units L F).ep3Val i j k = L ^ 2 * F ^ 2 * I.ep3Val i j k := by
  show (L * F * rd3 I.jmax I.uu i (j + I.nd - 2) k - L * F * rd2 I.jd I.uref (j - I.jb - 1) k) *
    cos (I.dp * ((j - 2 : ℤ) : ℝ)) * cos (I.dp * ((j - 2 : ℤ) : ℝ)) * (L * F * rd3 I.jmax I.vv i (j + I.nd - 2) k) = _
  unfold ep3Val
  ring

theorem units_ep4Val (i j : ℤ) : (I.units L F).ep4Val i j = L * F ^ 2 * I.ep4Val i j := by
  have hL0 := hL.ne'
  show 2 * (F * I.om) * sin (I.phi j) * cos (I.phi j) * (L * I.dz) / (L * I.prefac) *
    (exp (-(L * I.dz) / (L * I.h)) * (L * F * rd3 I.jmax I.vv i (j + I.nd - 1) 2) *
      (rd3 I.jmax I.pt i (j + I.nd - 1) 2 - rd2 I.jd I.tref (j - I.jb) 2) / (I.tn0 3 - I.tn0 1) +
      0.5 * (L * F * rd3 I.jmax I.vv i (j + I.nd - 1) 1 *
        (rd3 I.jmax I.pt i (j + I.nd - 1) 1 - rd2 I.jd I.tref (j - I.jb) 1)) / (I.tn0 2 - I.tn0 1)) = _
  rw [← mul_neg, mul_div_mul_left _ _ hL0,
    show 2 * (F * I.om) * sin (I.phi j) * cos (I.phi j) * (L * I.dz) =
      L * (F * (2 * I.om * sin (I.phi j) * cos (I.phi j) * I.dz)) by ring, mul_div_mul_left _ _ hL0]
  unfold ep4Val
  ring

theorem units_cellStep (k i j : ℤ) (s : FluxOut) :
    (I.units L F).cellStep k i j (outScale L F s) = outScale L F (I.cellStep k i j s) := by
  unfold cellStep
  simp only [I.units_acc hL hF, I.units_ep1Val hL hF, I.units_ep2Val hL hF, I.units_ep3Val hL hF, I.units_ep4Val hL hF]
  unfold outScale accScale
  simp only [FluxOut.mk.injEq, wr3_mul]
  refine ⟨rfl, rfl, rfl, ?_, rfl, rfl, rfl, rfl, ?_⟩
  · rw [← wr3_mul]
    show wr3 I.nd _ i j k (L * F * rd2 I.jd I.uref (j - I.jb) k * _) = _
    congr 1
    ring
  · by_cases h : k = 2
    · rw [if_pos h, if_pos h]
      funext i' j'
      split_ifs <;> rfl
    · rw [if_neg h, if_neg h]

theorem units_tailStep (k i : ℤ) (s : FluxOut) :
    (I.units L F).tailStep k i (outScale L F s) = outScale L F (I.tailStep k i s) := by
  have h2 : (I.units L F).ep2Tail i k = L ^ 2 * F ^ 2 * I.ep2Tail i k := by
    show (L * F * rd3 I.jmax I.uu i (I.nd + I.jb + 1) k - L * F * rd2 I.jd I.uref 2 k) * cos (I.dp * (I.jb : ℝ)) *
      cos (I.dp * (I.jb : ℝ)) * (L * F * rd3 I.jmax I.vv i (I.nd + I.jb + 1) k) = _
    unfold ep2Tail
    ring
  have h3 : (I.units L F).ep3Tail i k = L ^ 2 * F ^ 2 * I.ep3Tail i k := by
    show (L * F * rd3 I.jmax I.uu i (I.nd + I.jb) k - L * F * rd2 I.jd I.uref 1 k) * cos (I.dp * ((I.jb - 1 : ℤ) : ℝ)) *
      cos (I.dp * ((I.jb - 1 : ℤ) : ℝ)) * (L * F * rd3 I.jmax I.vv i (I.nd + I.jb) k) = _
    unfold ep3Tail
    ring
  unfold tailStep
  rw [h2, h3]
  unfold outScale
  simp only [wr3_mul]
  rfl

theorem units_fluxDirinv : (I.units L F).fluxDirinv = outScale L F I.fluxDirinv := by
  unfold fluxDirinv
  have e : (⟨fun _ _ _ => 0, fun _ _ _ => 0, fun _ _ _ => 0, fun _ _ _ => 0, fun _ _ _ => 0, fun _ _ _ => 0,
      fun _ _ _ => 0, fun _ _ _ => 0, fun _ _ => 0⟩ : FluxOut) =
      outScale L F ⟨fun _ _ _ => 0, fun _ _ _ => 0, fun _ _ _ => 0, fun _ _ _ => 0, fun _ _ _ => 0, fun _ _ _ => 0,
      fun _ _ _ => 0, fun _ _ _ => 0, fun _ _ => 0⟩ := by
    unfold outScale; simp
  conv_lhs => rw [e]
  refine doLoop_map (outScale L F) (fun k t => ?_) _
  refine doLoop_map (outScale L F) (fun i t => ?_) _
  rw [← I.units_tailStep hL hF]
  congr 1
  exact doLoop_map (outScale L F) (fun j t => I.units_cellStep hL hF k i j t) _

end FluxIn

namespace LwaIn

variable (I : LwaIn) (L F : ℝ)

/-- The same input in other units. -/
def units : LwaIn :=
  { I with
    pv := fun i j k => F * I.pv i j k
    uu := fun i j k => L * F * I.uu i j k
    qref := fun j k => F * I.qref j k
    a := L * I.a
    dz := L * I.dz
    h := L * I.h
    prefac := L * I.prefac }

/-- The results in other units. -/
def outScale (o : LwaOnlyOut) : LwaOnlyOut where
  astarbaro := fun i j => L * F * o.astarbaro i j
  ubaro := fun i j => L * F * o.ubaro i j
  astar1 := fun i j k => L * F * o.astar1 i j k
  astar2 := fun i j k => L * F * o.astar2 i j k

variable {L F} (hL : 0 < L) (hF : 0 < F)
include hL hF

theorem units_accStep (i j k jj : ℤ) (s : ℝ × ℝ) :
    (I.units L F).accStep i j k jj (L * F * s.1, L * F * s.2) =
      (L * F * (I.accStep i j k jj s).1, L * F * (I.accStep i j k jj s).2) := by
  unfold accStep
  have hq : rd3 (I.units L F).jmax (I.units L F).pv i (jj + (I.units L F).nd - 1) k -
      rd2 (I.units L F).nd (I.units L F).qref j k =
      F * (rd3 I.jmax I.pv i (jj + I.nd - 1) k - rd2 I.nd I.qref j k) := (mul_sub _ _ _).symm
  have ha' : (I.units L F).a = L * I.a := rfl
  have hp : (I.units L F).dp = I.dp := rfl
  simp only [hq, hp]
  rw [ha']
  generalize rd3 I.jmax I.pv i (jj + I.nd - 1) k - rd2 I.nd I.qref j k = q
  have h1 : F * q ≤ 0 ↔ q ≤ 0 := by
    rw [mul_nonpos_iff]
    constructor
    · rintro (h | h)
      · exact h.2
      · exact absurd hF (not_lt.mpr h.1)
    · intro h
      exact Or.inl ⟨hF.le, h⟩
  have h2 : F * q > 0 ↔ q > 0 := mul_pos_iff_of_pos_left hF
  simp only [h1, h2]
  split_ifs <;> simp only [Prod.mk.injEq] <;> refine ⟨?_, ?_⟩ <;> first | trivial | ring1

theorem units_acc (i j k : ℤ) : (I.units L F).acc i j k = (L * F * (I.acc i j k).1, L * F * (I.acc i j k).2) := by
  unfold acc
  have e : ((0, 0) : ℝ × ℝ) = (fun s : ℝ × ℝ => (L * F * s.1, L * F * s.2)) (0, 0) := by simp
  conv_lhs => rw [e]
  exact doLoop_map (fun s : ℝ × ℝ => (L * F * s.1, L * F * s.2)) (fun jj t => I.units_accStep hL hF i j k jj t) _

theorem units_cellStep (k i j : ℤ) (s : LwaOnlyOut) :
    (I.units L F).cellStep k i j (outScale L F s) = outScale L F (I.cellStep k i j s) := by
  unfold cellStep
  rw [I.units_acc hL hF]
  unfold outScale
  simp only [wr3_mul]
  rfl

theorem units_baroStep (k : ℤ) (s : LwaOnlyOut) :
    (I.units L F).baroStep k (outScale L F s) = outScale L F (I.baroStep k s) := by
  have hL0 := hL.ne'
  unfold baroStep
  have hc : (I.units L F).dz / (I.units L F).prefac = I.dz / I.prefac := mul_div_mul_left _ _ hL0
  have hz : exp (-((I.units L F).dz * ((k - 1 : ℤ) : ℝ)) / (I.units L F).h) =
      exp (-(I.dz * ((k - 1 : ℤ) : ℝ)) / I.h) := by
    show exp (-(L * I.dz * ((k - 1 : ℤ) : ℝ)) / (L * I.h)) = _
    rw [mul_assoc, ← mul_neg, mul_div_mul_left _ _ hL0]
  simp only [hc, hz]
  generalize exp (-(I.dz * ((k - 1 : ℤ) : ℝ)) / I.h) = E
  generalize I.dz / I.prefac = D
  have e : ({ outScale L F s with
      astarbaro := fun i j => (outScale L F s).astarbaro i j +
        ((outScale L F s).astar1 i j k + (outScale L F s).astar2 i j k) * E * D } : LwaOnlyOut) =
      outScale L F { s with astarbaro := fun i j => s.astarbaro i j + (s.astar1 i j k + s.astar2 i j k) * E * D } := by
    unfold outScale
    simp only [LwaOnlyOut.mk.injEq, and_true]
    funext i j
    ring
  rw [e]
  refine doLoop_map (outScale L F) (fun j t => ?_) _
  unfold outScale
  simp only [LwaOnlyOut.mk.injEq, and_true, true_and]
  funext i j'
  show (if j' = j then L * F * t.ubaro i j + L * F * rd3 I.jmax I.uu i (I.nd - 1 + j) k * E * D else _) = _
  split_ifs <;> ring

theorem units_lwaOnly : (I.units L F).lwaOnly = outScale L F I.lwaOnly := by
  unfold lwaOnly
  have e : (⟨fun _ _ => 0, fun _ _ => 0, fun _ _ _ => 0, fun _ _ _ => 0⟩ : LwaOnlyOut) =
      outScale L F ⟨fun _ _ => 0, fun _ _ => 0, fun _ _ _ => 0, fun _ _ _ => 0⟩ := by
    unfold outScale; simp
  conv_lhs => rw [e]
  refine doLoop_map (outScale L F) (fun k t => ?_) _
  rw [← I.units_baroStep hL hF]
  congr 1
  refine doLoop_map (outScale L F) (fun i t => ?_) _
  exact doLoop_map (outScale L F) (fun j t => I.units_cellStep hL hF k i j t) _

end LwaIn

namespace QGAnalysis

variable (S : QGAnalysis) (L F : ℝ)

/-- The same analysis in other units. -/
def units : QGAnalysis :=
  { S with
    qgpv := fun i j k => F * S.qgpv i j k
    u := fun i j k => L * F * S.u i j k
    v := fun i j k => L * F * S.v i j k
    ncforce := fun i j k => F ^ 2 * S.ncforce i j k
    qref := fun j k => F * S.qref j k
    uref := fun j k => L * F * S.uref j k
    height := fun k => L * S.height k
    a := L * S.a
    om := F * S.om
    dz := L * S.dz
    h := L * S.h
    rr := L ^ 2 * F ^ 2 * S.rr
    cp := L ^ 2 * F ^ 2 * S.cp }

variable {L F} (hL : 0 < L) (hF : 0 < F)
include hL hF

theorem units_prefactor : (S.units L F).prefactor = L * S.prefactor := by
  unfold prefactor
  rw [Finset.mul_sum]
  refine Finset.sum_congr rfl (fun k _ => ?_)
  show exp (-(k : ℝ) * (L * S.dz) / (L * S.h)) * (L * S.dz) = _
  rw [show -(k : ℝ) * (L * S.dz) = L * (-(k : ℝ) * S.dz) by ring, mul_div_mul_left _ _ hL.ne']
  ring

theorem units_verticalAverage {f g : ℤ → ℝ} {c : ℝ} (h : ∀ k, g k = c * f k) :
    (S.units L F).verticalAverage g = c * S.verticalAverage f := by
  unfold verticalAverage
  rw [S.units_prefactor hL hF, Finset.mul_sum]
  refine Finset.sum_congr rfl (fun k _ => ?_)
  show g k * exp (-(L * S.height k) / (L * S.h)) * (L * S.dz / (L * S.prefactor)) = _
  rw [h, ← mul_neg, mul_div_mul_left _ _ hL.ne', mul_div_mul_left _ _ hL.ne']
  ring

theorem units_northIn : (S.units L F).northIn = S.northIn.units L F := by
  unfold northIn
  rw [S.units_prefactor hL hF]
  rfl

theorem units_southIn : (S.units L F).southIn = S.southIn.units L F := by
  unfold southIn FluxIn.units
  rw [S.units_prefactor hL hF]
  simp only [FluxIn.mk.injEq, and_true]
  refine ⟨rfl, rfl, rfl, rfl, rfl, rfl, ?_, rfl, ?_, rfl, rfl, rfl, ?_, rfl, rfl, rfl, rfl, rfl, rfl, rfl, rfl⟩ <;>
    funext <;> exact (mul_neg _ _).symm

theorem units_northLwaIn : (S.units L F).northLwaIn = S.northLwaIn.units L F := by
  unfold northLwaIn
  rw [S.units_prefactor hL hF]
  rfl

theorem units_southLwaIn : (S.units L F).southLwaIn = S.southLwaIn.units L F := by
  unfold southLwaIn LwaIn.units
  rw [S.units_prefactor hL hF]
  simp only [LwaIn.mk.injEq, and_true]
  refine ⟨rfl, rfl, rfl, rfl, rfl, ?_, rfl, ?_, rfl, rfl, rfl⟩ <;>
    funext <;> exact (mul_neg _ _).symm

theorem units_north : (S.units L F).northIn.fluxDirinv = FluxIn.outScale L F S.northIn.fluxDirinv := by
  rw [S.units_northIn hL hF, FluxIn.units_fluxDirinv _ hL hF]

theorem units_south : (S.units L F).southIn.fluxDirinv = FluxIn.outScale L F S.southIn.fluxDirinv := by
  rw [S.units_southIn hL hF, FluxIn.units_fluxDirinv _ hL hF]

theorem units_store {n n' s s' : ℤ → ℝ} {c : ℝ} (hn : ∀ j, n' j = c * n j) (hs : ∀ j, s' j = c * s j) (g : ℤ) :
    (S.units L F).store n' s' g = c * S.store n s g := by
  unfold store
  simp only [hn, hs]
  show (if S.nhOnly = false ∧ g ≤ S.nd then c * s (S.nd + 1 - g) else
    if S.rows - S.nd + 1 ≤ g then c * n (g - (S.rows - S.nd)) else 0) = _
  split_ifs <;> simp

theorem units_lwa (i g k : ℤ) : (S.units L F).lwa i g k = L * F * S.lwa i g k := by
  refine S.units_store hL hF (fun j => ?_) (fun j => ?_) g
  · rw [S.units_north hL hF]
    show |L * F * _ + L * F * _| = _
    rw [← mul_add, abs_mul, abs_of_pos (by positivity : 0 < L * F)]
  · rw [S.units_south hL hF]
    show |L * F * _ + L * F * _| = _
    rw [← mul_add, abs_mul, abs_of_pos (by positivity : 0 < L * F)]

theorem units_baro {x : FluxOut → ℤ → ℤ → ℤ → ℝ} {c : ℝ} (h : ∀ o i j k, x (FluxIn.outScale L F o) i j k = c * x o i j k)
    (i g : ℤ) : (S.units L F).baro x i g = c * S.baro x i g := by
  refine S.units_store hL hF (fun j => ?_) (fun j => ?_) g
  · exact S.units_verticalAverage hL hF (fun k => by rw [S.units_north hL hF, h])
  · exact S.units_verticalAverage hL hF (fun k => by rw [S.units_south hL hF, h])

theorem units_lwaBaro (i g : ℤ) : (S.units L F).lwaBaro i g = L * F * S.lwaBaro i g := by
  unfold lwaBaro
  rw [S.units_baro hL hF (c := L * F) (fun _ _ _ _ => rfl), S.units_baro hL hF (c := L * F) (fun _ _ _ _ => rfl), mul_add]

theorem units_uBaro (i g : ℤ) : (S.units L F).uBaro i g = L * F * S.uBaro i g := by
  refine S.units_store hL hF (fun j => ?_) (fun j => ?_) g <;>
    exact S.units_verticalAverage hL hF (fun k => rfl)

theorem units_ua1 (i g : ℤ) : (S.units L F).baro FluxOut.ua1 i g = L ^ 2 * F ^ 2 * S.baro FluxOut.ua1 i g :=
  S.units_baro hL hF (fun _ _ _ _ => rfl) i g

theorem units_ua2 (i g : ℤ) : (S.units L F).baro FluxOut.ua2 i g = L ^ 2 * F ^ 2 * S.baro FluxOut.ua2 i g :=
  S.units_baro hL hF (fun _ _ _ _ => rfl) i g

theorem units_ep1 (i g : ℤ) : (S.units L F).baro FluxOut.ep1 i g = L ^ 2 * F ^ 2 * S.baro FluxOut.ep1 i g :=
  S.units_baro hL hF (fun _ _ _ _ => rfl) i g

theorem units_heatFlux (i g : ℤ) : (S.units L F).heatFlux i g = L * F ^ 2 * S.heatFlux i g := by
  refine S.units_store hL hF (fun j => ?_) (fun j => ?_) g
  · rw [S.units_north hL hF]; rfl
  · rw [S.units_south hL hF]; rfl

theorem units_ep2baro (i g : ℤ) : (S.units L F).ep2baro i g = L ^ 2 * F ^ 2 * S.ep2baro i g := by
  refine S.units_store hL hF (fun j => ?_) (fun j => ?_) g
  · exact S.units_verticalAverage hL hF (fun k => by rw [S.units_north hL hF]; rfl)
  · rw [S.units_verticalAverage hL hF (c := L ^ 2 * F ^ 2) (fun k => by rw [S.units_south hL hF]; rfl), mul_neg]

theorem units_ep3baro (i g : ℤ) : (S.units L F).ep3baro i g = L ^ 2 * F ^ 2 * S.ep3baro i g := by
  refine S.units_store hL hF (fun j => ?_) (fun j => ?_) g
  · exact S.units_verticalAverage hL hF (fun k => by rw [S.units_north hL hF]; rfl)
  · rw [S.units_verticalAverage hL hF (c := L ^ 2 * F ^ 2) (fun k => by rw [S.units_south hL hF]; rfl), mul_neg]

theorem units_ncforceBaro (i g : ℤ) : (S.units L F).ncforceBaro i g = L * F ^ 2 * S.ncforceBaro i g := by
  refine S.units_store hL hF (fun j => ?_) (fun j => ?_) g
  · exact S.units_verticalAverage hL hF (fun k => by rw [S.units_north hL hF]; rfl)
  · rw [S.units_verticalAverage hL hF (c := L * F ^ 2) (fun k => by rw [S.units_south hL hF]; rfl), mul_neg]

theorem units_divEddyMomentumFlux (i g : ℤ) :
    (S.units L F).divEddyMomentumFlux i g = L * F ^ 2 * S.divEddyMomentumFlux i g := by
  unfold divEddyMomentumFlux
  rw [S.units_ep2baro hL hF, S.units_ep3baro hL hF]
  show _ / (2 * (L * S.a) * S.dphi * cos (S.lat (S.outRow g))) = _
  rw [show 2 * (L * S.a) * S.dphi * cos (S.lat (S.outRow g)) = L * (2 * S.a * S.dphi * cos (S.lat (S.outRow g))) by ring,
    show L ^ 2 * F ^ 2 * S.ep2baro i g - L ^ 2 * F ^ 2 * S.ep3baro i g =
      L * (L * F ^ 2 * (S.ep2baro i g - S.ep3baro i g)) by ring, mul_div_mul_left _ _ hL.ne', mul_div_assoc]

theorem units_zonalFluxSum (i g : ℤ) : (S.units L F).zonalFluxSum i g = L ^ 2 * F ^ 2 * S.zonalFluxSum i g := by
  unfold zonalFluxSum
  rw [S.units_ua1 hL hF, S.units_ua2 hL hF, S.units_ep1 hL hF]
  ring

theorem units_zonalDiff (r c : ℕ) :
    zonalDiff S.nlon.toNat (fun r c => (S.units L F).zonalFluxSum (c + 1) (r + 1)) r c =
      L ^ 2 * F ^ 2 * zonalDiff S.nlon.toNat (fun r c => S.zonalFluxSum (c + 1) (r + 1)) r c := by
  unfold zonalDiff
  simp only [S.units_zonalFluxSum hL hF]
  split_ifs <;> ring

theorem units_convergenceZonal (r c : ℕ) (h : 1 / 100000 < |cos (S.lat (S.outRow (r + 1)))|) :
    (S.units L F).convergenceZonal r c = L * F ^ 2 * S.convergenceZonal r c := by
  have hL0 := hL.ne'
  unfold convergenceZonal zonalConvergence
  have h' : 1 / 100000 < |cos ((S.units L F).lat ((S.units L F).outRow (r + 1)))| := h
  rw [if_pos h, if_pos h']
  show zonalDiff S.nlon.toNat (fun r c => (S.units L F).zonalFluxSum (c + 1) (r + 1)) r c *
    (-1 / (L * S.a * cos (S.lat (S.outRow (r + 1))) * 2 * (2 * π / (S.nlon : ℝ)))) = _
  rw [S.units_zonalDiff hL hF,
    show L * S.a * cos (S.lat (S.outRow (r + 1))) * 2 * (2 * π / (S.nlon : ℝ)) =
      L * (S.a * cos (S.lat (S.outRow (r + 1))) * 2 * (2 * π / (S.nlon : ℝ))) by ring, ← div_div,
    show (-1 : ℝ) / L = L⁻¹ * -1 by field_simp, mul_div_assoc]
  generalize -1 / (S.a * cos (S.lat (S.outRow (r + 1))) * 2 * (2 * π / (S.nlon : ℝ))) = D
  field_simp

theorem units_lwaOfLwaOnly (i g k : ℤ) : (S.units L F).lwaOfLwaOnly i g k = L * F * S.lwaOfLwaOnly i g k := by
  refine S.units_store hL hF (fun j => ?_) (fun j => ?_) g
  · rw [S.units_northLwaIn hL hF, LwaIn.units_lwaOnly _ hL hF]
    show |L * F * _ + L * F * _| = _
    rw [← mul_add, abs_mul, abs_of_pos (by positivity : 0 < L * F)]
  · rw [S.units_southLwaIn hL hF, LwaIn.units_lwaOnly _ hL hF]
    show |L * F * _ + L * F * _| = _
    rw [← mul_add, abs_mul, abs_of_pos (by positivity : 0 < L * F)]

theorem units_lwaBaroOfLwaOnly (i g : ℤ) : (S.units L F).lwaBaroOfLwaOnly i g = L * F * S.lwaBaroOfLwaOnly i g := by
  refine S.units_store hL hF (fun j => ?_) (fun j => ?_) g
  · rw [S.units_northLwaIn hL hF, LwaIn.units_lwaOnly _ hL hF]; rfl
  · rw [S.units_southLwaIn hL hF, LwaIn.units_lwaOnly _ hL hF]; rfl

theorem units_uBaroOfLwaOnly (i g : ℤ) : (S.units L F).uBaroOfLwaOnly i g = L * F * S.uBaroOfLwaOnly i g := by
  refine S.units_store hL hF (fun j => ?_) (fun j => ?_) g
  · rw [S.units_northLwaIn hL hF, LwaIn.units_lwaOnly _ hL hF]; rfl
  · rw [S.units_southLwaIn hL hF, LwaIn.units_lwaOnly _ hL hF]; rfl

end QGAnalysis

end Falwa
