import Verif.Model.AreaAnalysis
import Verif.Lemmas.Fortran
import Mathlib.Algebra.Order.Floor.Semiring
import Mathlib.Algebra.BigOperators.Ring.Finset
import Mathlib.Algebra.Order.BigOperators.Group.Finset
import Mathlib.Tactic.FieldSimp
import Mathlib.Tactic.Positivity
import Mathlib.Tactic.NormNum

/-! Lemmas about the area analysis. -/

noncomputable section

namespace Falwa

open Real Finset

section
variable {m n : ℤ} {A : ℤ → ℤ → ℝ}

theorem maxval_spec (hm : 1 ≤ m) (hn : 1 ≤ n) :
    (∀ i j, 1 ≤ i → i ≤ m → 1 ≤ j → j ≤ n → A i j ≤ maxval m n A) ∧
    ∃ i j, 1 ≤ i ∧ i ≤ m ∧ 1 ≤ j ∧ j ≤ n ∧ A i j = maxval m n A := by
  have inner : ∀ (j : ℤ) (s : ℝ), (∀ i, 1 ≤ i → i ≤ m → A i j ≤ doLoop 1 m (fun i s => max s (A i j)) s) ∧
      s ≤ doLoop 1 m (fun i s => max s (A i j)) s ∧
      (doLoop 1 m (fun i s => max s (A i j)) s = s ∨ ∃ i, 1 ≤ i ∧ i ≤ m ∧ A i j = doLoop 1 m (fun i s => max s (A i j)) s) := by
    intro j s
    have := doLoop_induct (lo := 1) (f := fun i s => max s (A i j)) (s := s)
      (fun b t => (∀ i, 1 ≤ i → i ≤ b → A i j ≤ t) ∧ s ≤ t ∧ (t = s ∨ ∃ i, 1 ≤ i ∧ i ≤ b ∧ A i j = t))
      ⟨fun i h1 h2 => by omega, le_rfl, Or.inl rfl⟩ (by
        rintro i t hi ⟨h1, h2, h3⟩
        refine ⟨fun i' a b => ?_, h2.trans (le_max_left _ _), ?_⟩
        · rcases eq_or_lt_of_le b with rfl | b
          · exact le_max_right _ _
          · exact (h1 i' a (by omega)).trans (le_max_left _ _)
        · rcases le_total (A i j) t with h | h
          · rcases h3 with h3 | ⟨i', a, b, c⟩
            · left; rw [← h3]; exact max_eq_left h
            · right; exact ⟨i', a, by omega, by rw [c]; exact (max_eq_left h).symm⟩
          · right; exact ⟨i, hi, le_rfl, (max_eq_right h).symm⟩) m (by omega)
    exact this
  have outer := doLoop_induct (lo := 1) (f := fun j s => doLoop 1 m (fun i s => max s (A i j)) s) (s := A 1 1)
    (fun b t => (∀ i j, 1 ≤ i → i ≤ m → 1 ≤ j → j ≤ b → A i j ≤ t) ∧
      (t = A 1 1 ∨ ∃ i j, 1 ≤ i ∧ i ≤ m ∧ 1 ≤ j ∧ j ≤ b ∧ A i j = t))
    ⟨fun i j _ _ h1 h2 => by omega, Or.inl rfl⟩ (by
      rintro j t hj ⟨h1, h2⟩
      obtain ⟨a, b, c⟩ := inner j t
      refine ⟨fun i j' i1 i2 j1 j2 => ?_, ?_⟩
      · rcases eq_or_lt_of_le j2 with rfl | j2
        · exact a i i1 i2
        · exact (h1 i j' i1 i2 j1 (by omega)).trans b
      · rcases c with c | ⟨i, i1, i2, c⟩
        · rw [c]
          rcases h2 with h2 | ⟨i, j', x1, x2, x3, x4, x5⟩
          · exact Or.inl h2
          · exact Or.inr ⟨i, j', x1, x2, x3, by omega, x5⟩
        · exact Or.inr ⟨i, j, i1, i2, hj, le_rfl, c⟩) n (by omega)
  refine ⟨outer.1, ?_⟩
  rcases outer.2 with h | h
  · exact ⟨1, 1, le_rfl, hm, le_rfl, hn, h.symm⟩
  · exact h

theorem minval_eq_neg : minval m n A = -maxval m n (fun i j => -A i j) := by
  have inner : ∀ (j : ℤ) (s : ℝ), doLoop 1 m (fun i s => min s (A i j)) s =
      -doLoop 1 m (fun i s => max s (-A i j)) (-s) := by
    intro j s
    by_cases hm : m < 1
    · rw [doLoop_empty hm, doLoop_empty hm, neg_neg]
    have key : ∀ b : ℕ, doLoop 1 (b : ℤ) (fun i s => min s (A i j)) s =
        -doLoop 1 (b : ℤ) (fun i s => max s (-A i j)) (-s) := by
      intro b
      induction b with
      | zero => rw [doLoop_empty (by norm_num), doLoop_empty (by norm_num), neg_neg]
      | succ b ih =>
        push_cast
        rw [doLoop_succ (by omega), doLoop_succ (by omega), ih, ← min_neg_neg, neg_neg]
    have := key m.toNat
    rwa [show ((m.toNat : ℕ) : ℤ) = m by omega] at this
  unfold minval maxval
  by_cases hn : n < 1
  · rw [doLoop_empty hn, doLoop_empty hn, neg_neg]
  have key : ∀ b : ℕ, doLoop 1 (b : ℤ) (fun j s => doLoop 1 m (fun i s => min s (A i j)) s) (A 1 1) =
      -doLoop 1 (b : ℤ) (fun j s => doLoop 1 m (fun i s => max s (-A i j)) s) (-A 1 1) := by
    intro b
    induction b with
    | zero => rw [doLoop_empty (by norm_num), doLoop_empty (by norm_num), neg_neg]
    | succ b ih =>
      push_cast
      rw [doLoop_succ (by omega), doLoop_succ (by omega), ih, inner, neg_neg]
  have := key n.toNat
  rwa [show ((n.toNat : ℕ) : ℤ) = n by omega] at this

theorem minval_spec (hm : 1 ≤ m) (hn : 1 ≤ n) :
    (∀ i j, 1 ≤ i → i ≤ m → 1 ≤ j → j ≤ n → minval m n A ≤ A i j) ∧
    ∃ i j, 1 ≤ i ∧ i ≤ m ∧ 1 ≤ j ∧ j ≤ n ∧ A i j = minval m n A := by
  rw [minval_eq_neg]
  obtain ⟨h1, i, j, a, b, c, d, e⟩ := maxval_spec (A := fun i j => -A i j) hm hn
  refine ⟨fun i j i1 i2 j1 j2 => by have := h1 i j i1 i2 j1 j2; linarith, i, j, a, b, c, d, by rw [← e, neg_neg]⟩

/-- Characterisation of `maxval`. -/
theorem maxval_eq {v : ℝ} (hm : 1 ≤ m) (hn : 1 ≤ n) (h : ∀ i j, 1 ≤ i → i ≤ m → 1 ≤ j → j ≤ n → A i j ≤ v)
    (i₀ j₀ : ℤ) (hi : 1 ≤ i₀ ∧ i₀ ≤ m) (hj : 1 ≤ j₀ ∧ j₀ ≤ n) (h0 : A i₀ j₀ = v) : maxval m n A = v := by
  obtain ⟨h1, i, j, a, b, c, d, e⟩ := maxval_spec (A := A) hm hn
  apply le_antisymm
  · rw [← e]; exact h i j a b c d
  · rw [← h0]; exact h1 _ _ hi.1 hi.2 hj.1 hj.2

/-- Characterisation of `minval`. -/
theorem minval_eq {v : ℝ} (hm : 1 ≤ m) (hn : 1 ≤ n) (h : ∀ i j, 1 ≤ i → i ≤ m → 1 ≤ j → j ≤ n → v ≤ A i j)
    (i₀ j₀ : ℤ) (hi : 1 ≤ i₀ ∧ i₀ ≤ m) (hj : 1 ≤ j₀ ∧ j₀ ≤ n) (h0 : A i₀ j₀ = v) : minval m n A = v := by
  obtain ⟨h1, i, j, a, b, c, d, e⟩ := minval_spec (A := A) hm hn
  apply le_antisymm
  · rw [← h0]; exact h1 _ _ hi.1 hi.2 hj.1 hj.2
  · rw [← e]; exact h i j a b c d

end

theorem fint_nonneg {x : ℝ} (h : 0 ≤ x) : fint x = ⌊x⌋ := if_pos h

namespace AreaIn

variable (I : AreaIn)

/-- The grid cells `(i, j)`. -/
def cells : Finset (ℤ × ℤ) := Icc 1 I.imax ×ˢ Icc 1 I.jmax

theorem mem_cells {c : ℤ × ℤ} : c ∈ I.cells ↔ (1 ≤ c.1 ∧ c.1 ≤ I.imax) ∧ 1 ≤ c.2 ∧ c.2 ≤ I.jmax := by
  unfold cells
  rw [mem_product, mem_Icc, mem_Icc]

theorem sum_cells (f : ℤ → ℤ → ℝ) : ∑ j ∈ Icc 1 I.jmax, ∑ i ∈ Icc 1 I.imax, f i j = ∑ c ∈ I.cells, f c.1 c.2 := by
  unfold cells
  rw [sum_product_right]

theorem an_eq (n : ℤ) : I.bins.an n = ∑ c ∈ I.cells, if I.ind c.1 c.2 = n then I.da c.2 else 0 := by
  unfold bins
  rw [doLoop_sum (fun s : Bins => s.an n) (fun j => ∑ i ∈ Icc 1 I.imax, if I.ind i j = n then I.da j else 0)
    (fun j t _ _ => ?_)]
  · rw [zero_add]; exact I.sum_cells (fun i j => if I.ind i j = n then I.da j else 0)
  · rw [doLoop_sum (fun s : Bins => s.an n) (fun i => if I.ind i j = n then I.da j else 0) (fun i t _ _ => ?_)]
    unfold binStep
    by_cases h : I.ind i j = n
    · rw [if_pos h]; subst h; simp
    · rw [if_neg h, add_zero]; simp [Function.update_of_ne (Ne.symm h)]

theorem cn_eq (n : ℤ) : I.bins.cn n = ∑ c ∈ I.cells, if I.ind c.1 c.2 = n then I.da c.2 * I.q c.1 c.2 else 0 := by
  unfold bins
  rw [doLoop_sum (fun s : Bins => s.cn n) (fun j => ∑ i ∈ Icc 1 I.imax, if I.ind i j = n then I.da j * I.q i j else 0)
    (fun j t _ _ => ?_)]
  · rw [zero_add]; exact I.sum_cells (fun i j => if I.ind i j = n then I.da j * I.q i j else 0)
  · rw [doLoop_sum (fun s : Bins => s.cn n) (fun i => if I.ind i j = n then I.da j * I.q i j else 0)
      (fun i t _ _ => ?_)]
    unfold binStep
    by_cases h : I.ind i j = n
    · rw [if_pos h]; subst h; simp
    · rw [if_neg h, add_zero]; simp [Function.update_of_ne (Ne.symm h)]

theorem cumul_eq (b : ℤ → ℝ) (n : ℤ) (h1 : 1 ≤ n) (h2 : n ≤ I.npart) : I.cumul b n = ∑ m ∈ Icc 2 n, b m := by
  unfold cumul
  have := doLoop_induct (lo := 2) (f := fun nn s => Function.update s nn (s (nn - 1) + b nn)) (s := fun _ => (0 : ℝ))
    (fun e t => ∀ n, 1 ≤ n → n ≤ e → t n = ∑ m ∈ Icc 2 n, b m)
    (fun n a c => by
      rw [show n = 1 by omega, Icc_eq_empty (by norm_num), sum_empty])
    (fun e t he ih n a c => by
      by_cases hn : n = e
      · subst hn
        rw [Function.update_self, ih (n - 1) (by omega) (by omega)]
        have hI : Icc 2 n = insert n (Icc 2 (n - 1)) := by
          ext x; simp only [mem_Icc, mem_insert]; omega
        rw [hI, sum_insert (by simp), add_comm]
      · rw [Function.update_of_ne hn, ih n a (by omega)])
    I.npart (by omega)
  exact this n h1 h2

theorem aan_eq (n : ℤ) (h1 : 1 ≤ n) (h2 : n ≤ I.npart) : I.aan n = ∑ m ∈ Icc 2 n, I.bins.an m := I.cumul_eq _ n h1 h2

theorem ccn_eq (n : ℤ) (h1 : 1 ≤ n) (h2 : n ≤ I.npart) : I.ccn n = ∑ m ∈ Icc 2 n, I.bins.cn m := I.cumul_eq _ n h1 h2

/-- The value `(qref, cref)` for an area between `aan nn` and `aan (nn+1)`. -/
def value (j nn : ℤ) : ℝ × ℝ :=
  let dd := (I.alat j - I.aan nn) / (I.aan (nn + 1) - I.aan nn)
  (I.qn nn * (1 - dd) + I.qn (nn + 1) * dd, I.ccn nn * (1 - dd) + I.ccn (nn + 1) * dd)

/-- Row `j` falls into the partition `nn`. -/
def Falls (j nn : ℤ) : Prop := I.aan nn ≤ I.alat j ∧ I.alat j < I.aan (nn + 1)

/-- What the search loop does: it keeps the value of the last partition that the row falls into. -/
theorem placed_spec (hn : 1 ≤ I.npart) (j : ℤ) :
    (I.placed j = none ∧ ∀ nn, 1 ≤ nn → nn ≤ I.npart - 1 → ¬ I.Falls j nn) ∨
    ∃ nn, 1 ≤ nn ∧ nn ≤ I.npart - 1 ∧ I.Falls j nn ∧ I.placed j = some (I.value j nn) := by
  classical
  unfold placed
  refine doLoop_induct (lo := 1) (s := (none : Option (ℝ × ℝ)))
    (f := fun nn s => if I.aan nn ≤ I.alat j ∧ I.alat j < I.aan (nn + 1) then
      let dd := (I.alat j - I.aan nn) / (I.aan (nn + 1) - I.aan nn)
      some (I.qn nn * (1 - dd) + I.qn (nn + 1) * dd, I.ccn nn * (1 - dd) + I.ccn (nn + 1) * dd)
    else s)
    (fun e t => (t = none ∧ ∀ nn, 1 ≤ nn → nn ≤ e → ¬ I.Falls j nn) ∨
      ∃ nn, 1 ≤ nn ∧ nn ≤ e ∧ I.Falls j nn ∧ t = some (I.value j nn)) ?_ ?_ (I.npart - 1) (by omega)
  · left; exact ⟨rfl, fun nn h1 h2 => by omega⟩
  · intro e t he ih
    by_cases h : I.aan e ≤ I.alat j ∧ I.alat j < I.aan (e + 1)
    · rw [if_pos h]
      right; exact ⟨e, he, le_rfl, h, rfl⟩
    · rw [if_neg h]
      rcases ih with ⟨h1, h2⟩ | ⟨nn, h1, h2, h3, h4⟩
      · left
        refine ⟨h1, fun nn a b => ?_⟩
        rcases eq_or_lt_of_le b with rfl | b
        · exact h
        · exact h2 nn a (by omega)
      · right; exact ⟨nn, h1, by omega, h3, h4⟩

/-- The hypotheses under which the routine is called: sizes, a planet, and a field that is not constant. -/
structure Valid : Prop where
  imax1 : 1 ≤ I.imax
  nd2 : 2 ≤ I.nd
  odd : I.jmax = 2 * I.nd - 1
  npart2 : 2 ≤ I.npart
  dphiEq : I.dphi = π / ((I.jmax - 1 : ℤ) : ℝ)
  dlam : I.dlambda = 2 * π / (I.imax : ℝ)
  a0 : 0 < I.a
  spread : I.qmin < I.qmax

variable {I}

namespace Valid

theorem jmax1 (h : I.Valid) : 1 ≤ I.jmax := by have := h.odd; have := h.nd2; omega

theorem npart_pos (h : I.Valid) : (0 : ℝ) < ((I.npart - 1 : ℤ) : ℝ) := by
  have := h.npart2
  exact_mod_cast (by omega : 0 < I.npart - 1)

theorem dq_pos (h : I.Valid) : 0 < I.dq := div_pos (sub_pos.2 h.spread) h.npart_pos

theorem dq_mul (h : I.Valid) : I.dq * ((I.npart - 1 : ℤ) : ℝ) = I.qmax - I.qmin :=
  div_mul_cancel₀ _ h.npart_pos.ne'

theorem dphi_pos (h : I.Valid) : 0 < I.dphi := by
  rw [h.dphiEq]
  have := h.odd
  have := h.nd2
  have : (0 : ℝ) < ((I.jmax - 1 : ℤ) : ℝ) := by exact_mod_cast (by omega : 0 < I.jmax - 1)
  exact div_pos pi_pos this

theorem dphi_mul (h : I.Valid) : I.dphi * ((I.jmax - 1 : ℤ) : ℝ) = π := by
  rw [h.dphiEq]
  have := h.odd
  have := h.nd2
  have : (0 : ℝ) < ((I.jmax - 1 : ℤ) : ℝ) := by exact_mod_cast (by omega : 0 < I.jmax - 1)
  exact div_mul_cancel₀ _ this.ne'

theorem dlam_pos (h : I.Valid) : 0 < I.dlambda := by
  rw [h.dlam]
  have := h.imax1
  have : (0 : ℝ) < (I.imax : ℝ) := by exact_mod_cast (by omega : 0 < I.imax)
  positivity

/-- Latitude of row `j`. -/
theorem phi_mem (h : I.Valid) {j : ℤ} (j1 : 1 ≤ j) (j2 : j ≤ I.jmax) :
    -(π / 2) ≤ -(0.5 * π) + I.dphi * ((j - 1 : ℤ) : ℝ) ∧ -(0.5 * π) + I.dphi * ((j - 1 : ℤ) : ℝ) ≤ π / 2 := by
  have a : (0 : ℝ) ≤ ((j - 1 : ℤ) : ℝ) := by exact_mod_cast (by omega : 0 ≤ j - 1)
  have b : ((j - 1 : ℤ) : ℝ) ≤ ((I.jmax - 1 : ℤ) : ℝ) := by exact_mod_cast (by omega : j - 1 ≤ I.jmax - 1)
  have c := h.dphi_pos
  have d := h.dphi_mul
  have e := mul_le_mul_of_nonneg_left b c.le
  have f := mul_nonneg c.le a
  constructor <;> linarith

theorem da_nonneg (h : I.Valid) {j : ℤ} (j1 : 1 ≤ j) (j2 : j ≤ I.jmax) : 0 ≤ I.da j := by
  have := h.phi_mem j1 j2
  have hc := cos_nonneg_of_neg_pi_div_two_le_of_le this.1 this.2
  have := h.dphi_pos
  have := h.dlam_pos
  unfold da
  have := mul_self_nonneg I.a
  positivity

theorem da_pos (h : I.Valid) {j : ℤ} (j1 : 1 < j) (j2 : j < I.jmax) : 0 < I.da j := by
  have a : (1 : ℝ) ≤ ((j - 1 : ℤ) : ℝ) := by exact_mod_cast (by omega : 1 ≤ j - 1)
  have b : ((j - 1 : ℤ) : ℝ) + 1 ≤ ((I.jmax - 1 : ℤ) : ℝ) := by exact_mod_cast (by omega : j - 1 + 1 ≤ I.jmax - 1)
  have c := h.dphi_pos
  have d := h.dphi_mul
  have e := mul_le_mul_of_nonneg_left b c.le
  have f := mul_le_mul_of_nonneg_left a c.le
  have hc : 0 < cos (-(0.5 * π) + I.dphi * ((j - 1 : ℤ) : ℝ)) := by
    apply cos_pos_of_mem_Ioo
    constructor <;> linarith
  have := h.dlam_pos
  have := h.a0
  unfold da
  positivity

theorem an_nonneg (h : I.Valid) (n : ℤ) : 0 ≤ I.bins.an n := by
  rw [I.an_eq]
  refine sum_nonneg fun c hc => ?_
  rw [I.mem_cells] at hc
  split_ifs
  · exact h.da_nonneg hc.2.1 hc.2.2
  · exact le_rfl

theorem aan_mono (h : I.Valid) {m n : ℤ} (h1 : 1 ≤ m) (h2 : m ≤ n) (h3 : n ≤ I.npart) : I.aan m ≤ I.aan n := by
  rw [I.aan_eq m h1 (by omega), I.aan_eq n (by omega) h3]
  refine sum_le_sum_of_subset_of_nonneg (fun x hx => ?_) (fun x _ _ => h.an_nonneg x)
  rw [mem_Icc] at hx ⊢; omega

theorem aan_one (h : I.Valid) : I.aan 1 = 0 := by
  rw [I.aan_eq 1 le_rfl (by have := h.npart2; omega), Icc_eq_empty (by norm_num), sum_empty]

theorem alat_nonneg (h : I.Valid) (j : ℤ) : 0 ≤ I.alat j := by
  have := sin_le_one (I.dphi * ((j - 1 : ℤ) : ℝ))
  have := h.a0
  unfold alat
  have : 0 ≤ 1 - sin (I.dphi * ((j - 1 : ℤ) : ℝ)) := by linarith
  positivity

theorem alat_anti (h : I.Valid) {j j' : ℤ} (h1 : 1 ≤ j) (h2 : j ≤ j') (h3 : j' ≤ I.nd) : I.alat j' ≤ I.alat j := by
  have hodd := h.odd
  have a : (0 : ℝ) ≤ ((j - 1 : ℤ) : ℝ) := by exact_mod_cast (by omega : 0 ≤ j - 1)
  have b : ((j - 1 : ℤ) : ℝ) ≤ ((j' - 1 : ℤ) : ℝ) := by exact_mod_cast (by omega : j - 1 ≤ j' - 1)
  have b' : 2 * ((j' - 1 : ℤ) : ℝ) ≤ ((I.jmax - 1 : ℤ) : ℝ) := by exact_mod_cast (by omega : 2 * (j' - 1) ≤ I.jmax - 1)
  have c := h.dphi_pos
  have d := h.dphi_mul
  have e := mul_le_mul_of_nonneg_left b c.le
  have e' := mul_le_mul_of_nonneg_left b' c.le
  have f := mul_nonneg c.le a
  have hs : sin (I.dphi * ((j - 1 : ℤ) : ℝ)) ≤ sin (I.dphi * ((j' - 1 : ℤ) : ℝ)) :=
    sin_le_sin_of_le_of_le_pi_div_two (by linarith [pi_pos]) (by linarith) e
  have := h.a0
  unfold alat
  have : 0 ≤ 2 * π * I.a * I.a := by positivity
  nlinarith

/-- A row falls into at most one partition. -/
theorem falls_unique (h : I.Valid) {j m n : ℤ} (hm1 : 1 ≤ m) (hm2 : m ≤ I.npart - 1) (hn1 : 1 ≤ n) (hn2 : n ≤ I.npart - 1)
    (fm : I.Falls j m) (fn : I.Falls j n) : m = n := by
  rcases lt_trichotomy m n with hlt | heq | hgt
  · have := h.aan_mono (m := m + 1) (n := n) (by omega) (by omega) (by omega)
    exact absurd (lt_of_le_of_lt (this.trans fn.1) fm.2) (lt_irrefl _)
  · exact heq
  · have := h.aan_mono (m := n + 1) (n := m) (by omega) (by omega) (by omega)
    exact absurd (lt_of_le_of_lt (this.trans fm.1) fn.2) (lt_irrefl _)

/-- A row is placed exactly if its polar cap is smaller than the accounted area. -/
theorem placed_iff (h : I.Valid) (j : ℤ) : (I.placed j).isSome = true ↔ I.alat j < I.aan I.npart := by
  have hn := h.npart2
  constructor
  · intro hs
    rcases I.placed_spec (by omega) j with ⟨h1, _⟩ | ⟨nn, h1, h2, h3, _⟩
    · rw [h1] at hs; simp at hs
    · exact lt_of_lt_of_le h3.2 (h.aan_mono (by omega) (by omega) le_rfl)
  · intro hl
    rcases I.placed_spec (by omega) j with ⟨_, h2⟩ | ⟨nn, _, _, _, h4⟩
    · exfalso
      -- walk up from partition 1
      have : ∀ k : ℕ, 1 + (k : ℤ) ≤ I.npart → I.aan (1 + k) ≤ I.alat j := by
        intro k
        induction k with
        | zero => intro _; simpa [h.aan_one] using h.alat_nonneg j
        | succ k ih =>
          intro hk
          push_cast at hk ⊢
          have ih' := ih (by omega)
          have := h2 (1 + k) (by omega) (by omega)
          unfold Falls at this
          rw [not_and, not_lt] at this
          rw [show 1 + ((k : ℤ) + 1) = 1 + k + 1 by ring]
          exact this ih'
      have := this (I.npart - 1).toNat (by omega)
      rw [show 1 + (((I.npart - 1).toNat : ℕ) : ℤ) = I.npart by omega] at this
      linarith
    · rw [h4]; rfl

theorem dd_mem {j nn : ℤ} (hf : I.Falls j nn) :
    0 ≤ (I.alat j - I.aan nn) / (I.aan (nn + 1) - I.aan nn) ∧ (I.alat j - I.aan nn) / (I.aan (nn + 1) - I.aan nn) ≤ 1 := by
  have h1 := hf.1
  have h2 := hf.2
  have hd : 0 < I.aan (nn + 1) - I.aan nn := by linarith
  exact ⟨div_nonneg (by linarith) hd.le, (div_le_one hd).2 (by linarith)⟩

theorem qn_succ (nn : ℤ) : I.qn (nn + 1) = I.qn nn - I.dq := by
  unfold qn; push_cast; ring

theorem qn_anti (h : I.Valid) {m n : ℤ} (hmn : m ≤ n) : I.qn n ≤ I.qn m := by
  have : ((m - 1 : ℤ) : ℝ) ≤ ((n - 1 : ℤ) : ℝ) := by exact_mod_cast (by omega : m - 1 ≤ n - 1)
  have := mul_le_mul_of_nonneg_left this h.dq_pos.le
  unfold qn
  linarith

theorem qn_one : I.qn 1 = I.qmax := by unfold qn; simp

theorem qn_last (h : I.Valid) : I.qn I.npart = I.qmin := by
  have := h.dq_mul
  unfold qn
  linarith

theorem value_between (h : I.Valid) {j nn : ℤ} (hf : I.Falls j nn) :
    I.qn (nn + 1) ≤ (I.value j nn).1 ∧ (I.value j nn).1 ≤ I.qn nn := by
  obtain ⟨h1, h2⟩ := dd_mem hf
  have hq := h.dq_pos
  have hs := qn_succ (I := I) nn
  unfold value
  constructor
  · show _ ≤ I.qn nn * (1 - _) + I.qn (nn + 1) * _
    rw [hs]; nlinarith
  · show I.qn nn * (1 - _) + I.qn (nn + 1) * _ ≤ _
    rw [hs]; nlinarith

/-- The partition index of a cell, and the range of values it stands for. -/
theorem ind_spec (h : I.Valid) {i j : ℤ} (hi : 1 ≤ i ∧ i ≤ I.imax) (hj : 1 ≤ j ∧ j ≤ I.jmax) :
    1 ≤ I.ind i j ∧ I.ind i j ≤ I.npart ∧ I.qn (I.ind i j + 1) < I.q i j ∧ I.q i j ≤ I.qn (I.ind i j) := by
  have hmax := (maxval_spec (A := I.q) h.imax1 h.jmax1).1 i j hi.1 hi.2 hj.1 hj.2
  have hmin := (minval_spec (A := I.q) h.imax1 h.jmax1).1 i j hi.1 hi.2 hj.1 hj.2
  have hq := h.dq_pos
  have hx : 0 ≤ (I.qmax - I.q i j) / I.dq := div_nonneg (sub_nonneg.2 hmax) hq.le
  have hy : (I.qmax - I.q i j) / I.dq ≤ ((I.npart - 1 : ℤ) : ℝ) := by
    rw [div_le_iff₀ hq, mul_comm, h.dq_mul]
    have : I.qmin ≤ I.q i j := hmin
    linarith
  unfold ind
  rw [fint_nonneg hx]
  have f0 : 0 ≤ ⌊(I.qmax - I.q i j) / I.dq⌋ := Int.floor_nonneg.2 hx
  have f1 : ⌊(I.qmax - I.q i j) / I.dq⌋ ≤ I.npart - 1 := by
    have := Int.floor_le ((I.qmax - I.q i j) / I.dq)
    exact_mod_cast this.trans hy
  have f2 := Int.floor_le ((I.qmax - I.q i j) / I.dq)
  have f3 := Int.lt_floor_add_one ((I.qmax - I.q i j) / I.dq)
  refine ⟨by omega, by omega, ?_, ?_⟩
  · rw [div_lt_iff₀ hq] at f3
    unfold qn
    push_cast at f3 ⊢
    linarith
  · rw [le_div_iff₀ hq] at f2
    unfold qn
    push_cast at f2 ⊢
    linarith

end Valid

end AreaIn

end Falwa
