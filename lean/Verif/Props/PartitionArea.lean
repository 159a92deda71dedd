import Verif.Props.AreaRounding
import Verif.Lemmas.Near

/-!
# C142: the areas of cells and partitions in single precision
-/

noncomputable section

namespace Falwa

open Real Finset

/-- Multiples of the spacing of the numbers are not rounded. -/
theorem roundBits_fix {p : ℕ} {x : ℝ} (z : ℤ) (h : x = z * (2 : ℝ) ^ (Int.log 2 |x| - p)) : roundBits p x = x := by
  have hs : (2 : ℝ) ^ (Int.log 2 |x| - p) ≠ 0 := zpow_ne_zero _ (by norm_num)
  unfold roundBits
  have e : x / (2 : ℝ) ^ (Int.log 2 |x| - p) = z := by
    rw [div_eq_iff hs]
    exact h
  rw [e, round_intCast]
  exact h.symm

namespace AreaIn

variable {I : AreaIn} {m : Machine} {u : ℝ}

/-- The south pole in single precision. -/
theorem phi0Fl_pole (b : Bool) : I.phi0Fl (Machine.single b) 1 = -(13176795 / 8388608) := by
  have hl : Int.log 2 |(-(13176795 / 8388608) : ℝ)| = 0 := by
    rw [abs_neg, abs_of_pos (by norm_num)]
    apply le_antisymm
    · have : Int.log 2 (13176795 / 8388608 : ℝ) < 1 :=
        (Int.lt_zpow_iff_log_lt (R := ℝ) (b := 2) (by norm_num) (by norm_num)).1 (by norm_num)
      omega
    · exact (Int.zpow_le_iff_le_log (R := ℝ) (b := 2) (by norm_num) (by norm_num)).1 (by norm_num)
  have fix : roundBits 23 (-(13176795 / 8388608) : ℝ) = -(13176795 / 8388608) := by
    apply roundBits_fix (-13176795)
    rw [hl]
    norm_num
  have e1 : (Machine.single b).fl (-(0.5 * (Machine.single b).piFl)) = -(13176795 / 8388608) := by
    rw [LwaIn.single_pi]
    show roundBits 23 _ = _
    rw [show (-(0.5 * (13176795 / 4194304)) : ℝ) = -(13176795 / 8388608) by norm_num]
    exact fix
  have z : (Machine.single b).fl 0 = 0 := Machine.fl_zero (Machine.single_standard b)
  have e2 : (Machine.single b).fl (-(13176795 / 8388608)) = -(13176795 / 8388608) := fix
  unfold phi0Fl Machine.mulAdd
  rw [e1]
  simp only [sub_self, Int.cast_zero, mul_zero, z, add_zero, e2, ite_self]

/-- Property C142: areas of grid cells are not negative in single precision. -/
def C142_Statement (b : Bool) : Prop :=
  ∀ (I : AreaIn) (j : ℤ), I.Valid → 1 ≤ j → j ≤ I.jmax → 0 ≤ I.daFl (Machine.single b) j

/-- C142 fails on every grid: the cell at the south pole has a negative area. -/
theorem C142_pole (b : Bool) (ha : 0 < I.a) (hp : 0 < I.dphi) (hl : 0 < I.dlambda) : I.daFl (Machine.single b) 1 < 0 := by
  have hs := Machine.single_standard b
  unfold daFl
  refine Machine.fl_neg hs (mul_neg_of_pos_of_neg ?_ ?_)
  · exact Machine.fl_pos hs (mul_pos (Machine.fl_pos hs (mul_pos (Machine.fl_pos hs (mul_pos ha ha)) hp)) hl)
  · rw [phi0Fl_pole]
    show roundBits 23 (cos (-(13176795 / 8388608))) < 0
    apply Machine.fl_neg hs
    rw [cos_neg]
    have h1 := pi_gt_d20
    have h2 := pi_lt_d20
    exact cos_neg_of_pi_div_two_lt_of_lt (by linarith) (by linarith)

/-- A partition that consists of cells at the south pole only has a negative area. -/
theorem C142_negative_partition (b : Bool) (ha : 0 < I.a) (hp : 0 < I.dphi) (hl : 0 < I.dlambda) (n : ℤ) (hj : 1 ≤ I.jmax)
    (h : ∀ i j, 1 ≤ i → i ≤ I.imax → 1 ≤ j → j ≤ I.jmax → I.indFl (Machine.single b) i j = some n → j = 1)
    {i₀ : ℤ} (hi : 1 ≤ i₀ ∧ i₀ ≤ I.imax) (h0 : I.indFl (Machine.single b) i₀ 1 = some n) : I.anFl (Machine.single b) n < 0 := by
  have hs := Machine.single_standard b
  have hd := C142_pole b ha hp hl
  have keep : ∀ j i (s : ℤ → ℝ), I.indFl (Machine.single b) i j ≠ some n → I.anStepFl (Machine.single b) j i s n = s n := by
    intro j i s hne
    unfold anStepFl
    cases e : I.indFl (Machine.single b) i j with
    | none => rfl
    | some k =>
      rw [e] at hne
      exact Function.update_of_ne (fun hk => hne (by rw [hk])) _ _
  have add : ∀ i (s : ℤ → ℝ), I.indFl (Machine.single b) i 1 = some n → s n ≤ 0 → I.anStepFl (Machine.single b) 1 i s n < 0 := by
    intro i s e hsn
    unfold anStepFl
    rw [e]
    show Function.update s n _ n < 0
    rw [Function.update_self]
    exact Machine.fl_neg hs (by linarith)
  have first : ∀ s : ℤ → ℝ, s n ≤ 0 → doLoop 1 I.imax (I.anStepFl (Machine.single b) 1) s n < 0 := by
    intro s hsn
    have := doLoop_induct (lo := 1) (f := I.anStepFl (Machine.single b) 1) (s := s)
      (fun e t => t n ≤ 0 ∧ (i₀ ≤ e → t n < 0)) ⟨hsn, fun hc => by omega⟩
      (fun i t _ ih => by
        by_cases e : I.indFl (Machine.single b) i 1 = some n
        · exact ⟨(add i t e ih.1).le, fun _ => add i t e ih.1⟩
        · rw [keep 1 i t e]
          refine ⟨ih.1, fun hc => ih.2 ?_⟩
          rcases eq_or_lt_of_le hc with rfl | hc
          · exact absurd h0 e
          · omega) I.imax (by omega)
    exact this.2 hi.2
  have later : ∀ j (s : ℤ → ℝ), 2 ≤ j → j ≤ I.jmax → doLoop 1 I.imax (I.anStepFl (Machine.single b) j) s n = s n := by
    intro j s j2 jm
    refine doLoop_keep (fun s : ℤ → ℝ => s n) (fun i t i1 i2 => keep j i t fun e => ?_) s
    have := h i j i1 i2 (by omega) jm e
    omega
  unfold anFl
  have key : ∀ k : ℕ, ((k : ℤ) + 1 ≤ I.jmax) →
      doLoop 1 ((k : ℤ) + 1) (fun j s => doLoop 1 I.imax (I.anStepFl (Machine.single b) j) s) (fun _ => (0 : ℝ)) n < 0 := by
    intro k
    induction k with
    | zero =>
      intro _
      have e := doLoop_succ (lo := 1) (hi := 0) (by norm_num) (fun j s => doLoop 1 I.imax (I.anStepFl (Machine.single b) j) s) (fun _ => (0 : ℝ))
      rw [doLoop_empty (lo := 1) (hi := 0) (by norm_num)] at e
      rw [Nat.cast_zero, e]
      exact first (fun _ => 0) le_rfl
    | succ k ih =>
      intro hk
      push_cast at hk ⊢
      rw [doLoop_succ (lo := 1) (hi := (k : ℤ) + 1) (by omega), later _ _ (by omega) hk]
      exact ih (by omega)
  have := key (I.jmax - 1).toNat (by omega)
  rwa [show (((I.jmax - 1).toNat : ℕ) : ℤ) + 1 = I.jmax by omega] at this

/-! ## Errors -/

/-- Sizes and spacings of the grid. -/
structure Globe (I : AreaIn) : Prop where
  imax1 : 1 ≤ I.imax
  jmax1 : 1 ≤ I.jmax
  dphi0 : 0 < I.dphi
  dlam0 : 0 < I.dlambda
  a0 : 0 < I.a
  extent : I.dphi * ((I.jmax - 1 : ℤ) : ℝ) ≤ 4

/-- The area of the largest cells. -/
def cellArea (I : AreaIn) : ℝ := I.a * I.a * I.dphi * I.dlambda

/-- The factor of the error of one cell. -/
def cellFactor (u : ℝ) : ℝ := (1 + u) ^ 5 * (1 + 6 * ((1 + u) ^ 3 - 1))

theorem cellFactor_ge (hu : 0 ≤ u) : 1 ≤ cellFactor u := by
  have h3 : (1 : ℝ) ≤ (1 + u) ^ 3 := one_le_pow₀ (by linarith)
  have h5 : (1 : ℝ) ≤ (1 + u) ^ 5 := one_le_pow₀ (by linarith)
  unfold cellFactor
  nlinarith

theorem Globe.area_pos (h : I.Globe) : 0 < I.cellArea := by
  have := h.a0; have := h.dphi0; have := h.dlam0
  unfold cellArea
  positivity

/-- The latitude of row `j` has an absolute error of a few rounding errors. -/
theorem phi0Fl_error (h : I.Globe) (hs : m.Standard u) {j : ℤ} (h1 : 1 ≤ j) :
    |I.phi0Fl m j - (-(0.5 * π) + I.dphi * ((j - 1 : ℤ) : ℝ))| ≤ ((1 + u) ^ 3 - 1) * (π / 2 + I.dphi * ((j - 1 : ℤ) : ℝ)) := by
  have u0 := hs.nonneg
  have j0 : (0 : ℝ) ≤ ((j - 1 : ℤ) : ℝ) := by exact_mod_cast (by omega : 0 ≤ j - 1)
  have x0 : 0 ≤ I.dphi * ((j - 1 : ℤ) : ℝ) := mul_nonneg h.dphi0.le j0
  have hpi : Near (1 * (1 + u)) π m.piFl π := by
    have := (Near.refl π).step u0 (z := m.piFl) (by rw [abs_of_pos pi_pos]; exact hs.piRel)
    rwa [abs_of_pos pi_pos] at this
  have hhalf : Near 1 (0.5 : ℝ) 0.5 0.5 := by
    have := Near.refl (0.5 : ℝ)
    rwa [abs_of_pos (by norm_num)] at this
  have hp := (hhalf.mul le_rfl hpi).neg.fl hs.rel u0
  obtain ⟨p, p1, p2⟩ := m.mulAdd_eq hs (m.fl (-(0.5 * m.piFl))) I.dphi ((j - 1 : ℤ) : ℝ)
  have hx := (Near.refl (I.dphi * ((j - 1 : ℤ) : ℝ))).step u0 p1
  rw [abs_of_nonneg x0] at hx
  have hx' := hx.mono (r' := 1 * (1 * (1 + u)) * (1 + u)) (by nlinarith)
  have hsum := (hp.add hx').fl hs.rel u0
  unfold phi0Fl
  rw [p2]
  have := hsum.1
  rw [show (1 * (1 * (1 + u)) * (1 + u) * (1 + u) : ℝ) = (1 + u) ^ 3 by ring] at this
  rw [show π / 2 = 0.5 * π by ring]
  exact this

theorem daFl_near (h : I.Globe) (hs : m.Standard u) {j : ℤ} (h1 : 1 ≤ j) (h2 : j ≤ I.jmax) :
    Near (cellFactor u) I.cellArea (I.daFl m j) (I.da j) := by
  have u0 := hs.nonneg
  have hb : I.dphi * ((j - 1 : ℤ) : ℝ) ≤ 4 := by
    have : ((j - 1 : ℤ) : ℝ) ≤ ((I.jmax - 1 : ℤ) : ℝ) := by exact_mod_cast (by omega : j - 1 ≤ I.jmax - 1)
    exact (mul_le_mul_of_nonneg_left this h.dphi0.le).trans h.extent
  have p3 : (0 : ℝ) ≤ (1 + u) ^ 3 - 1 := by linarith [one_le_pow₀ (by linarith : (1 : ℝ) ≤ 1 + u) (n := 3)]
  have hphi : |I.phi0Fl m j - (-(0.5 * π) + I.dphi * ((j - 1 : ℤ) : ℝ))| ≤ 6 * ((1 + u) ^ 3 - 1) := by
    refine (phi0Fl_error h hs h1).trans ?_
    have := pi_lt_d2
    nlinarith
  have hcos : Near (1 + 6 * ((1 + u) ^ 3 - 1)) 1 (cos (I.phi0Fl m j)) (cos (-(0.5 * π) + I.dphi * ((j - 1 : ℤ) : ℝ))) := by
    refine ⟨?_, abs_cos_le_one _⟩
    have := abs_cos_sub_cos_le (I.phi0Fl m j) (-(0.5 * π) + I.dphi * ((j - 1 : ℤ) : ℝ))
    linarith
  have hc := hcos.step u0 (hs.cosRel _)
  have ha := (Near.refl (I.a * I.a)).fl hs.rel u0
  have hp := (ha.mul (by nlinarith) (Near.refl I.dphi)).fl hs.rel u0
  have hl := (hp.mul (by nlinarith) (Near.refl I.dlambda)).fl hs.rel u0
  have hd := (hl.mul (by nlinarith [one_le_pow₀ (by linarith : (1 : ℝ) ≤ 1 + u) (n := 3)]) hc).fl hs.rel u0
  rw [abs_of_pos (mul_pos h.a0 h.a0), abs_of_pos h.dphi0, abs_of_pos h.dlam0, mul_one (I.a * I.a * I.dphi * I.dlambda)] at hd
  refine hd.mono (le_of_eq ?_)
  unfold cellFactor
  ring

/-- C142: every cell area has an error of a few rounding errors of the largest cell area. -/
theorem C142_cell_partial (h : I.Globe) (hs : m.Standard u) {j : ℤ} (h1 : 1 ≤ j) (h2 : j ≤ I.jmax) :
    |I.daFl m j - I.a * I.a * I.dphi * I.dlambda * cos (-(0.5 * π) + I.dphi * ((j - 1 : ℤ) : ℝ))| ≤
      ((1 + u) ^ 5 * (1 + 6 * ((1 + u) ^ 3 - 1)) - 1) * (I.a * I.a * I.dphi * I.dlambda) := (daFl_near h hs h1 h2).1

/-- C142: rows other than the poles have positive cell areas, if the grid has fewer than about `1/(14u)` rows. -/
theorem C142_interior_partial (h : I.Globe) (hs : m.Standard u) (hd : I.dphi * ((I.jmax - 1 : ℤ) : ℝ) ≤ π * (1 + u))
    (hu : 14 * u * ((I.jmax - 1 : ℤ) : ℝ) ≤ 1) (hd' : π * (1 - u) ≤ I.dphi * ((I.jmax - 1 : ℤ) : ℝ)) {j : ℤ} (h1 : 1 < j)
    (h2 : j < I.jmax) : 0 < I.daFl m j := by
  have u0 := hs.nonneg
  have N2 : (2 : ℝ) ≤ ((I.jmax - 1 : ℤ) : ℝ) := by exact_mod_cast (by omega : 2 ≤ I.jmax - 1)
  have j0 : (1 : ℝ) ≤ ((j - 1 : ℤ) : ℝ) := by exact_mod_cast (by omega : 1 ≤ j - 1)
  have j1 : ((j - 1 : ℤ) : ℝ) ≤ ((I.jmax - 1 : ℤ) : ℝ) - 1 := by
    have : j - 1 ≤ I.jmax - 1 - 1 := by omega
    exact_mod_cast this
  have he := phi0Fl_error h hs h1.le
  set N : ℝ := ((I.jmax - 1 : ℤ) : ℝ)
  set d := I.dphi
  have d0 : 0 < d := h.dphi0
  have uN : u * N ≤ 1 / 14 := by linarith
  have us : u ≤ 1 / 28 := by nlinarith
  have hpi := pi_pos
  have x1 : d * ((j - 1 : ℤ) : ℝ) ≤ d * N - d := by nlinarith
  have x2 : d ≤ d * ((j - 1 : ℤ) : ℝ) := by nlinarith
  have p3 : (1 + u) ^ 3 - 1 ≤ 3.2 * u := by nlinarith [mul_nonneg u0 u0]
  have p30 : (0 : ℝ) ≤ (1 + u) ^ 3 - 1 := by linarith [one_le_pow₀ (by linarith : (1 : ℝ) ≤ 1 + u) (n := 3)]
  have hE : ((1 + u) ^ 3 - 1) * (π / 2 + d * ((j - 1 : ℤ) : ℝ)) ≤ 3.2 * u * (π / 2 + π * (1 + u)) := by
    refine mul_le_mul p3 (by linarith) (by nlinarith) (by linarith)
  have hE2 : 3.2 * u * (π / 2 + π * (1 + u)) ≤ 5 * u * π := by nlinarith [mul_nonneg u0 hpi.le, mul_nonneg (mul_nonneg u0 u0) hpi.le]
  have hdN : 6 * u * π < d := by
    have a1 : 6 * u * π * N ≤ 6 / 14 * π := by nlinarith
    have a2 : π * (27 / 28) ≤ d * N := by nlinarith
    have : 6 * u * π * N < d * N := by nlinarith
    exact lt_of_mul_lt_mul_right this (by linarith)
  have ha := abs_le.1 (he.trans (hE.trans hE2))
  have hc : 0 < cos (I.phi0Fl m j) := by
    apply cos_pos_of_mem_Ioo
    constructor
    · nlinarith [mul_nonneg u0 hpi.le]
    · nlinarith [mul_nonneg u0 hpi.le]
  have hc' : 0 < m.cosFl (I.phi0Fl m j) := by
    have := (abs_le.1 (hs.cosRel (I.phi0Fl m j))).1
    rw [abs_of_pos hc] at this
    nlinarith [hs.small]
  unfold daFl
  refine m.fl_pos hs (mul_pos ?_ hc')
  exact m.fl_pos hs (mul_pos (m.fl_pos hs (mul_pos (m.fl_pos hs (mul_pos h.a0 h.a0)) h.dphi0)) h.dlam0)

theorem anFl_near (h : I.Globe) (hs : m.Standard u) (n : ℤ) :
    Near (cellFactor u * (1 + u) ^ (I.imax.toNat * I.jmax.toNat))
      (((I.cells.filter (fun c => I.indFl m c.1 c.2 = some n)).card : ℝ) * I.cellArea) (I.anFl m n)
      (∑ c ∈ I.cells.filter (fun c => I.indFl m c.1 c.2 = some n), I.da c.2) := by
  have u0 := hs.nonneg
  have hA := h.area_pos
  have hF := cellFactor_ge u0
  have c1 : (1 : ℝ) ≤ (1 + u) ^ I.imax.toNat := one_le_pow₀ (by linarith)
  have cell : ∀ j i (t : ℤ → ℝ) r A S, 1 ≤ j → j ≤ I.jmax → cellFactor u ≤ r → Near r A (t n) S →
      Near (r * (1 + u)) (A + if I.indFl m i j = some n then I.cellArea else 0) (I.anStepFl m j i t n)
        (S + if I.indFl m i j = some n then I.da j else 0) := by
    intro j i t r A S j1 j2 hr hn
    by_cases e : I.indFl m i j = some n
    · have hv : I.anStepFl m j i t n = m.fl (t n + I.daFl m j) := by
        unfold anStepFl
        rw [e]
        exact Function.update_self _ _ _
      rw [if_pos e, if_pos e, hv]
      exact (hn.add ((daFl_near h hs j1 j2).mono hr)).fl hs.rel u0
    · have hv : I.anStepFl m j i t n = t n := by
        unfold anStepFl
        cases e' : I.indFl m i j with
        | none => rfl
        | some k =>
          rw [e'] at e
          exact Function.update_of_ne (fun hk => e (by rw [hk])) _ _
      rw [if_neg e, if_neg e, add_zero, add_zero, hv]
      exact hn.mono (by nlinarith)
  have main := Near.loop (lo := 1) (hi := I.jmax) (by have := h.jmax1; omega)
    (f := fun j s => doLoop 1 I.imax (I.anStepFl m j) s) (fun s : ℤ → ℝ => s n)
    (fun j => ∑ i ∈ Icc 1 I.imax, if I.indFl m i j = some n then I.da j else 0)
    (fun j => ∑ i ∈ Icc 1 I.imax, if I.indFl m i j = some n then I.cellArea else 0)
    (cellFactor u) (c := (1 + u) ^ I.imax.toNat) c1 (by linarith)
    (fun j t r A S j1 j2 hr hn => by
      have := Near.loop (lo := 1) (hi := I.imax) (by have := h.imax1; omega) (f := I.anStepFl m j) (fun s : ℤ → ℝ => s n)
        (fun i => if I.indFl m i j = some n then I.da j else 0) (fun i => if I.indFl m i j = some n then I.cellArea else 0)
        (cellFactor u) (c := 1 + u) (by linarith) (by linarith)
        (fun i t r A S _ _ hr hn => cell j i t r A S j1 j2 hr hn) hr hn
      rwa [show I.imax + 1 - 1 = I.imax by ring] at this)
    (s := fun _ => 0) (S := 0) (A := 0) le_rfl (Near.zero _)
  have e1 : ∑ c ∈ I.cells.filter (fun c => I.indFl m c.1 c.2 = some n), I.da c.2 =
      ∑ j ∈ Icc 1 I.jmax, ∑ i ∈ Icc 1 I.imax, if I.indFl m i j = some n then I.da j else 0 := by
    rw [sum_filter]
    exact (I.sum_cells (fun i j => if I.indFl m i j = some n then I.da j else 0)).symm
  have e2 : ((I.cells.filter (fun c => I.indFl m c.1 c.2 = some n)).card : ℝ) * I.cellArea =
      ∑ j ∈ Icc 1 I.jmax, ∑ i ∈ Icc 1 I.imax, if I.indFl m i j = some n then I.cellArea else 0 := by
    rw [I.sum_cells (fun i j => if I.indFl m i j = some n then I.cellArea else 0), ← sum_filter, sum_const, nsmul_eq_mul]
  rw [zero_add, zero_add, ← e1, ← e2, show I.jmax + 1 - 1 = I.jmax by ring, ← pow_mul] at main
  exact main

/-- C142: the area of partition `n` has an error of at most a relative error of the number of cells times the largest cell area. -/
theorem C142_partition_partial (h : I.Globe) (hs : m.Standard u) (n : ℤ) :
    |I.anFl m n - ∑ c ∈ I.cells.filter (fun c => I.indFl m c.1 c.2 = some n),
        I.a * I.a * I.dphi * I.dlambda * cos (-(0.5 * π) + I.dphi * ((c.2 - 1 : ℤ) : ℝ))| ≤
      ((1 + u) ^ 5 * (1 + 6 * ((1 + u) ^ 3 - 1)) * (1 + u) ^ (I.imax.toNat * I.jmax.toNat) - 1) *
        (((I.cells.filter (fun c => I.indFl m c.1 c.2 = some n)).card : ℝ) * (I.a * I.a * I.dphi * I.dlambda)) :=
  (anFl_near h hs n).1

/-- The cells of the partitions `2 … n`. -/
def cellsUpTo (I : AreaIn) (m : Machine) (n : ℤ) : Finset (ℤ × ℤ) :=
  I.cells.filter (fun c => ∃ k, I.indFl m c.1 c.2 = some k ∧ 2 ≤ k ∧ k ≤ n)

theorem sum_cellsUpTo (f : ℤ × ℤ → ℝ) (n : ℤ) :
    ∑ k ∈ Icc 2 n, ∑ c ∈ I.cells.filter (fun c => I.indFl m c.1 c.2 = some k), f c = ∑ c ∈ I.cellsUpTo m n, f c := by
  unfold cellsUpTo
  simp only [sum_filter]
  rw [sum_comm]
  refine sum_congr rfl fun c _ => ?_
  cases e : I.indFl m c.1 c.2 with
  | none => simp
  | some k => simp [sum_ite_eq]

theorem aanFl_near (h : I.Globe) (hs : m.Standard u) (n : ℤ) (h1 : 1 ≤ n) (h2 : n ≤ I.npart) :
    Near (cellFactor u * (1 + u) ^ (I.imax.toNat * I.jmax.toNat) * (1 + u) ^ (n - 1).toNat)
      (((I.cellsUpTo m n).card : ℝ) * I.cellArea) (I.aanFl m n) (∑ c ∈ I.cellsUpTo m n, I.da c.2) := by
  have u0 := hs.nonneg
  have hF : 1 ≤ cellFactor u * (1 + u) ^ (I.imax.toNat * I.jmax.toNat) := by
    have := cellFactor_ge u0
    have : (1 : ℝ) ≤ (1 + u) ^ (I.imax.toNat * I.jmax.toNat) := one_le_pow₀ (by linarith)
    nlinarith
  have key := doLoop_induct (lo := 2) (f := fun nn s => Function.update s nn (m.fl (s (nn - 1) + I.anFl m nn))) (s := fun _ => (0 : ℝ))
    (fun e t => ∀ n, 1 ≤ n → n ≤ e → Near (cellFactor u * (1 + u) ^ (I.imax.toNat * I.jmax.toNat) * (1 + u) ^ (n - 1).toNat)
      (∑ k ∈ Icc 2 n, ((I.cells.filter (fun c => I.indFl m c.1 c.2 = some k)).card : ℝ) * I.cellArea) (t n)
      (∑ k ∈ Icc 2 n, ∑ c ∈ I.cells.filter (fun c => I.indFl m c.1 c.2 = some k), I.da c.2))
    (fun n a c => by
      rw [show n = 1 by omega, Icc_eq_empty (by norm_num), sum_empty, sum_empty]
      exact Near.zero _)
    (fun e t he ih n a c => by
      by_cases hn : n = e
      · subst hn
        rw [Function.update_self]
        have hI : Icc 2 n = insert n (Icc 2 (n - 1)) := by
          ext x; simp only [mem_Icc, mem_insert]; omega
        rw [hI, sum_insert (by simp), sum_insert (by simp), add_comm (t (n - 1))]
        have hp : (1 : ℝ) ≤ (1 + u) ^ (n - 1 - 1).toNat := one_le_pow₀ (by linarith)
        have := (((anFl_near h hs n).mono (by nlinarith)).add (ih (n - 1) (by omega) (by omega))).fl hs.rel u0
        rw [mul_assoc, ← pow_succ, show (n - 1 - 1).toNat + 1 = (n - 1).toNat by omega] at this
        exact this
      · rw [Function.update_of_ne hn]
        exact ih n a (by omega))
    I.npart (by omega) n h1 h2
  have e : ((I.cellsUpTo m n).card : ℝ) * I.cellArea =
      ∑ k ∈ Icc 2 n, ((I.cells.filter (fun c => I.indFl m c.1 c.2 = some k)).card : ℝ) * I.cellArea := by
    have := sum_cellsUpTo (I := I) (m := m) (fun _ => I.cellArea) n
    simp only [sum_const, nsmul_eq_mul] at this
    exact this.symm
  rw [e, ← sum_cellsUpTo]
  exact key

/-- C142: the same for the cumulative areas `aan`, with one more rounding per partition. -/
theorem C142_cumulative_partial (h : I.Globe) (hs : m.Standard u) (n : ℤ) (h1 : 1 ≤ n) (h2 : n ≤ I.npart) :
    |I.aanFl m n - ∑ c ∈ I.cells.filter (fun c => ∃ k, I.indFl m c.1 c.2 = some k ∧ 2 ≤ k ∧ k ≤ n),
        I.a * I.a * I.dphi * I.dlambda * cos (-(0.5 * π) + I.dphi * ((c.2 - 1 : ℤ) : ℝ))| ≤
      ((1 + u) ^ 5 * (1 + 6 * ((1 + u) ^ 3 - 1)) * (1 + u) ^ (I.imax.toNat * I.jmax.toNat) * (1 + u) ^ (n - 1).toNat - 1) *
        (((I.cells.filter (fun c => ∃ k, I.indFl m c.1 c.2 = some k ∧ 2 ≤ k ∧ k ≤ n)).card : ℝ) *
          (I.a * I.a * I.dphi * I.dlambda)) :=
  (aanFl_near h hs n h1 h2).1

/-- The one degree grid with a field that increases to the north. -/
theorem slope_valid : slope.Valid where
  imax1 := by decide
  nd2 := by decide
  odd := by decide
  npart2 := by decide
  dphiEq := by norm_num [slope]
  dlam := by norm_num [slope]; ring
  a0 := by norm_num [slope]
  spread := slope_spread.spread

theorem C142_refuted (b : Bool) : ¬ C142_Statement b := fun h =>
  absurd (h slope 1 slope_valid le_rfl (by decide)) (not_le.2 (C142_pole b slope_valid.a0 slope_valid.dphi_pos slope_valid.dlam_pos))

theorem slope_globe : slope.Globe where
  imax1 := by decide
  jmax1 := by decide
  dphi0 := slope_valid.dphi_pos
  dlam0 := slope_valid.dlam_pos
  a0 := slope_valid.a0
  extent := by rw [slope_valid.dphi_mul]; linarith [pi_lt_d2]

/-- A field that is lower at the south pole than elsewhere. -/
def capField : AreaIn := slope.withField fun _ j => if j = 1 then 0 else 1

theorem capField_max : capField.qmax = 1 :=
  maxval_eq (by decide) (by decide) (fun _ j _ _ _ _ => by show (if j = 1 then (0 : ℝ) else 1) ≤ 1; split_ifs <;> norm_num) 1 2 (by decide) (by decide) rfl

theorem capField_min : capField.qmin = 0 :=
  minval_eq (by decide) (by decide) (fun _ j _ _ _ _ => by show (0 : ℝ) ≤ if j = 1 then 0 else 1; split_ifs <;> norm_num) 1 1 (by decide) (by decide) rfl

/-- C142: on the one degree grid there is a field with a partition of negative area. -/
theorem C142_negative_area (b : Bool) : ∃ n, 1 ≤ n ∧ n ≤ capField.npart ∧ capField.anFl (Machine.single b) n < 0 := by
  have hsp : capField.Spread := ⟨by decide, by decide, by decide, by rw [capField_max, capField_min]; norm_num⟩
  have hs := Machine.single_standard b
  obtain ⟨n, h1, h2, h3, h4⟩ := C140_single_partial (I := capField) b hsp (by decide) (i := 1) (j := 1) (by decide) (by decide)
  have hind : capField.ind 1 1 = 181 := by
    unfold ind dq
    rw [capField_max, capField_min, show capField.q 1 1 = 0 from rfl, show ((capField.npart - 1 : ℤ) : ℝ) = 180 by norm_num [capField, slope, withField]]
    rw [show ((1 : ℝ) - 0) / ((1 - 0) / 180) = ((180 : ℤ) : ℝ) by norm_num, fint_nonneg (by norm_num), Int.floor_intCast]
    norm_num
  rw [hind] at h4
  have hn : n ≠ 1 := by
    intro e
    rw [e] at h4
    norm_num at h4
  refine ⟨n, h2, h3, C142_negative_partition (I := capField) b slope_valid.a0 slope_valid.dphi_pos slope_valid.dlam_pos n (by decide) ?_ (i₀ := 1)
    (by decide) h1⟩
  intro i j _ _ _ _ e
  by_contra hj
  have hq : capField.q i j = capField.qmax := by
    rw [capField_max]
    exact if_neg hj
  rw [C140_first hsp hs hq] at e
  exact hn (Option.some.inj e).symm

/-- Hypotheses of the error bounds and of `C142_interior_partial` on the one degree grid. -/
example (b : Bool) : slope.Globe ∧ (Machine.single b).Standard ((1 / 2) ^ 24) ∧
    slope.dphi * ((slope.jmax - 1 : ℤ) : ℝ) ≤ π * (1 + (1 / 2) ^ 24) ∧ 14 * (1 / 2 : ℝ) ^ 24 * ((slope.jmax - 1 : ℤ) : ℝ) ≤ 1 ∧
    π * (1 - (1 / 2) ^ 24) ≤ slope.dphi * ((slope.jmax - 1 : ℤ) : ℝ) := by
  refine ⟨slope_globe, Machine.single_standard b, ?_, by norm_num [slope], ?_⟩ <;> rw [slope_valid.dphi_mul] <;>
    nlinarith [pi_pos]

/-- The factors for the one degree grid: a cell, and a partition. -/
example : (1 + (1 / 2 : ℝ) ^ 24) ^ 5 * (1 + 6 * ((1 + (1 / 2 : ℝ) ^ 24) ^ 3 - 1)) - 1 < 14 / 10 ^ 7 := by norm_num

end AreaIn

end Falwa

end
