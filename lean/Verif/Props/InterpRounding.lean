import Verif.Model.InterpRounding
import Verif.Props.PartitionArea
import Verif.Lemmas.Units

/-!
# C176: the reference QGPV in single precision
-/

noncomputable section

namespace Falwa

open Real Finset

/-- Rounding to nearest keeps 1. -/
theorem roundBits_one (p : ℕ) : roundBits p (1 : ℝ) = 1 := by
  have hl : Int.log 2 |(1 : ℝ)| = 0 := by rw [abs_one]; exact Int.log_one_right 2
  refine roundBits_fix (2 ^ p) ?_
  rw [hl, zero_sub, zpow_neg, zpow_natCast]
  push_cast
  rw [mul_inv_cancel₀ (by positivity)]

/-- The computed mixture of two values against the exact one. -/
theorem Machine.blend_near {m : Machine} {u : ℝ} (hs : m.Standard u) (first : Bool) {r A x x' y y' d : ℝ} (hr : 1 ≤ r)
    (hx : Near r A x x') (hy : Near r A y y') (d0 : 0 ≤ d) (d1 : d ≤ 1) :
    Near (r * (1 + u) ^ 3) A (m.blend first x y d) (x' * (1 - d) + y' * d) := by
  have u0 := hs.nonneg
  have hA := hx.bound_nonneg
  have hw : Near (1 * (1 + u)) (1 - d) (m.fl (1 - d)) (1 - d) := by
    have := (Near.refl (1 - d)).fl hs.rel u0
    rwa [abs_of_nonneg (sub_nonneg.2 d1)] at this
  have hd : Near 1 d d d := by
    have := Near.refl d
    rwa [abs_of_nonneg d0] at this
  have h1 := hx.mul hr hw
  have h2 := hy.mul hr hd
  have e : A * (1 - d) + A * d = A := by ring
  have rr : r * 1 * (1 + u) ≤ r * (1 + u) ^ 2 := by
    have := mul_nonneg (by linarith : 0 ≤ r) (mul_nonneg u0 (by linarith : 0 ≤ 1 + u))
    linarith
  cases first with
  | true =>
    obtain ⟨p, p1, p2⟩ := m.mulAdd_eq hs (m.fl (y * d)) x (m.fl (1 - d))
    have h3 := (h2.fl hs.rel u0).mono (r' := r * (1 + u) ^ 2) rr
    have h4 := (h1.step u0 p1).mono (r' := r * (1 + u) ^ 2) (le_of_eq (by ring))
    have h5 := (h3.add h4).fl hs.rel u0
    rw [← p2, add_comm (A * d), e, add_comm (y' * d)] at h5
    exact h5.mono (le_of_eq (by ring))
  | false =>
    obtain ⟨p, p1, p2⟩ := m.mulAdd_eq hs (m.fl (x * m.fl (1 - d))) y d
    have h3 := (h1.fl hs.rel u0).mono (r' := r * (1 + u) ^ 2) (le_of_eq (by ring))
    have h4 := (h2.step u0 p1).mono (r' := r * (1 + u) ^ 2) rr
    have h5 := (h3.add h4).fl hs.rel u0
    rw [← p2, e] at h5
    exact h5.mono (le_of_eq (by ring))

namespace AreaIn

variable {I : AreaIn} {m : Machine} {u : ℝ}

/-- The computed contour values. -/
theorem qnFl_near (h : I.Spread) (hs : m.Standard u) {M : ℝ} (hM : |I.qmax| ≤ M) (hm : |I.qmin| ≤ M) {n : ℤ} (h1 : 1 ≤ n)
    (h2 : n ≤ I.npart) : Near ((1 + u) ^ 4) (3 * M) (I.qnFl m n) (I.qn n) := by
  have u0 := hs.nonneg
  have hN : (0 : ℝ) < ((I.npart - 1 : ℤ) : ℝ) := by linarith [h.parts]
  have hn0 : (0 : ℝ) ≤ ((n - 1 : ℤ) : ℝ) := by exact_mod_cast (by omega : 0 ≤ n - 1)
  have hn1 : ((n - 1 : ℤ) : ℝ) ≤ ((I.npart - 1 : ℤ) : ℝ) := by exact_mod_cast (by omega : n - 1 ≤ I.npart - 1)
  have hR : 0 ≤ I.qmax - I.qmin := (sub_pos.2 h.spread).le
  have hR2 : I.qmax - I.qmin ≤ 2 * M := by linarith [(abs_le.1 hM).2, (abs_le.1 hm).1]
  have a : Near (1 * (1 + u)) (I.qmax - I.qmin) (m.fl (I.qmax - I.qmin)) (I.qmax - I.qmin) := by
    have := (Near.refl (I.qmax - I.qmin)).fl hs.rel u0
    rwa [abs_of_nonneg hR] at this
  have i0 : (0 : ℝ) ≤ (((I.npart - 1 : ℤ) : ℝ))⁻¹ := (inv_pos.2 hN).le
  have iN : Near 1 ((((I.npart - 1 : ℤ) : ℝ))⁻¹) ((((I.npart - 1 : ℤ) : ℝ))⁻¹) ((((I.npart - 1 : ℤ) : ℝ))⁻¹) := by
    have := Near.refl ((((I.npart - 1 : ℤ) : ℝ))⁻¹)
    rwa [abs_of_nonneg i0] at this
  have nN : Near 1 (((n - 1 : ℤ) : ℝ)) (((n - 1 : ℤ) : ℝ)) (((n - 1 : ℤ) : ℝ)) := by
    have := Near.refl (((n - 1 : ℤ) : ℝ))
    rwa [abs_of_nonneg hn0] at this
  have b := (a.mul (by linarith) iN).fl hs.rel u0
  rw [← div_eq_mul_inv, ← div_eq_mul_inv] at b
  have c := (b.mul (by nlinarith) nN).neg
  obtain ⟨p, p1, p2⟩ := m.mulSub_eq hs I.qmax (I.dqFl m) ((n - 1 : ℤ) : ℝ)
  have d := (c.step u0 p1).mono (r' := (1 + u) ^ 3) (le_of_eq (by ring))
  have one3 : 1 ≤ (1 + u) ^ 3 := one_le_pow₀ (by linarith)
  have hle : (I.qmax - I.qmin) / ((I.npart - 1 : ℤ) : ℝ) * ((n - 1 : ℤ) : ℝ) ≤ 2 * M := by
    rw [div_mul_eq_mul_div, div_le_iff₀ hN]
    exact mul_le_mul hR2 hn1 hn0 (hR.trans hR2)
  have d' := d.enlarge one3 hle
  have q : Near ((1 + u) ^ 3) M I.qmax I.qmax := ((Near.refl I.qmax).mono one3).enlarge one3 hM
  have f := (q.add d').fl hs.rel u0
  rw [← p2, ← sub_eq_add_neg, show M + 2 * M = 3 * M by ring, ← pow_succ] at f
  exact f

/-- Exact contour values lie in the range of the level. -/
theorem qn_between (h : I.Spread) {n : ℤ} (h1 : 1 ≤ n) (h2 : n ≤ I.npart) : I.qmin ≤ I.qn n ∧ I.qn n ≤ I.qmax := by
  have hN : (0 : ℝ) < ((I.npart - 1 : ℤ) : ℝ) := by linarith [h.parts]
  have hn0 : (0 : ℝ) ≤ ((n - 1 : ℤ) : ℝ) := by exact_mod_cast (by omega : 0 ≤ n - 1)
  have hn1 : ((n - 1 : ℤ) : ℝ) ≤ ((I.npart - 1 : ℤ) : ℝ) := by exact_mod_cast (by omega : n - 1 ≤ I.npart - 1)
  have hR : 0 ≤ I.qmax - I.qmin := (sub_pos.2 h.spread).le
  have p0 : 0 ≤ I.dq * ((n - 1 : ℤ) : ℝ) := mul_nonneg (div_nonneg hR hN.le) hn0
  have p1 : I.dq * ((n - 1 : ℤ) : ℝ) ≤ I.qmax - I.qmin := by
    unfold dq
    rw [div_mul_eq_mul_div, div_le_iff₀ hN]
    exact mul_le_mul_of_nonneg_left hn1 hR
  unfold qn
  constructor <;> linarith

/-- The computed weight lies between 0 and 1. -/
theorem ddFl_between (hs : m.Standard u) (hm : Monotone m.fl) (h1 : m.fl 1 = 1) {alat : ℤ → ℝ} {j n : ℤ} (ha : I.aanFl m n ≤ alat j)
    (hb : alat j < I.aanFl m (n + 1)) : 0 ≤ I.ddFl m alat j n ∧ I.ddFl m alat j n ≤ 1 := by
  have hk := hs.rel.keepsSign hs.small
  have n0 : 0 ≤ m.fl (alat j - I.aanFl m n) := hk.nonneg _ (sub_nonneg.2 ha)
  have d0 : 0 < m.fl (I.aanFl m (n + 1) - I.aanFl m n) := m.fl_pos hs (by linarith)
  have le : m.fl (alat j - I.aanFl m n) ≤ m.fl (I.aanFl m (n + 1) - I.aanFl m n) := hm (by linarith)
  refine ⟨hk.nonneg _ (div_nonneg n0 d0.le), ?_⟩
  have := hm ((div_le_one d0).2 le)
  rwa [h1] at this

/-- What the loop over the partitions leaves behind. -/
theorem placedFl_some {first : Bool} {alat : ℤ → ℝ} {j : ℤ} {v : ℝ} (hv : I.placedFl m first alat j = some v) :
    ∃ n, 1 ≤ n ∧ n ≤ I.npart - 1 ∧ I.aanFl m n ≤ alat j ∧ alat j < I.aanFl m (n + 1) ∧
      v = m.blend first (I.qnFl m n) (I.qnFl m (n + 1)) (I.ddFl m alat j n) := by
  have key := doLoop_inv (lo := 1) (hi := I.npart - 1) (f := fun nn s =>
    if I.aanFl m nn ≤ alat j ∧ alat j < I.aanFl m (nn + 1) then
      some (m.blend first (I.qnFl m nn) (I.qnFl m (nn + 1)) (I.ddFl m alat j nn))
    else s) (s := none)
    (fun s => ∀ v, s = some v → ∃ n, 1 ≤ n ∧ n ≤ I.npart - 1 ∧ I.aanFl m n ≤ alat j ∧ alat j < I.aanFl m (n + 1) ∧
      v = m.blend first (I.qnFl m n) (I.qnFl m (n + 1)) (I.ddFl m alat j n))
    (fun v e => absurd e (by simp))
    (fun n s n1 n2 ih v e => by
      by_cases hc : I.aanFl m n ≤ alat j ∧ alat j < I.aanFl m (n + 1)
      · rw [if_pos hc] at e
        exact ⟨n, n1, n2, hc.1, hc.2, (Option.some.inj e).symm⟩
      · rw [if_neg hc] at e
        exact ih v e)
  exact key v hv

/-- C176: a value that the area analysis assigns lies between the smallest and the largest value of the level, up to about twenty-one
rounding errors of the largest absolute value; for every array `alat`, and whichever product is fused. -/
theorem C176_range (h : I.Spread) (hs : m.Standard u) (hm : Monotone m.fl) (h1 : m.fl 1 = 1) {lo hi M : ℝ}
    (hq : ∀ i j, 1 ≤ i → i ≤ I.imax → 1 ≤ j → j ≤ I.jmax → lo ≤ I.q i j ∧ I.q i j ≤ hi ∧ |I.q i j| ≤ M) (first : Bool) (alat : ℤ → ℝ)
    {j : ℤ} {v : ℝ} (hv : I.placedFl m first alat j = some v) :
    lo - 3 * ((1 + u) ^ 7 - 1) * M ≤ v ∧ v ≤ hi + 3 * ((1 + u) ^ 7 - 1) * M := by
  have u0 := hs.nonneg
  obtain ⟨_, i, k, i1, i2, k1, k2, e⟩ := maxval_spec (A := I.q) h.imax1 h.jmax1
  obtain ⟨_, i', k', i1', i2', k1', k2', e'⟩ := minval_spec (A := I.q) h.imax1 h.jmax1
  obtain ⟨_, x2, x3⟩ := hq i k i1 i2 k1 k2
  obtain ⟨y1, _, y3⟩ := hq i' k' i1' i2' k1' k2'
  rw [e] at x2 x3
  rw [e'] at y1 y3
  obtain ⟨n, n1, n2, ha, hb, rfl⟩ := placedFl_some hv
  obtain ⟨d0, d1⟩ := ddFl_between hs hm h1 ha hb
  have near := Machine.blend_near hs first (one_le_pow₀ (by linarith)) (qnFl_near h hs x3 y3 n1 (by omega))
    (qnFl_near h hs x3 y3 (n := n + 1) (by omega) (by omega)) d0 d1
  have r1 := qn_between h n1 (by omega : n ≤ I.npart)
  have r2 := qn_between h (n := n + 1) (by omega) (by omega)
  set d := I.ddFl m alat j n
  have c1 : I.qmin ≤ I.qn n * (1 - d) + I.qn (n + 1) * d := by
    have := mul_le_mul_of_nonneg_right r1.1 (sub_nonneg.2 d1)
    have := mul_le_mul_of_nonneg_right r2.1 d0
    linarith
  have c2 : I.qn n * (1 - d) + I.qn (n + 1) * d ≤ I.qmax := by
    have := mul_le_mul_of_nonneg_right r1.2 (sub_nonneg.2 d1)
    have := mul_le_mul_of_nonneg_right r2.2 d0
    linarith
  have err := abs_le.1 near.1
  rw [show (1 + u) ^ 4 * (1 + u) ^ 3 = (1 + u) ^ 7 by ring] at err
  have e3 : ((1 + u) ^ 7 - 1) * (3 * M) = 3 * ((1 + u) ^ 7 - 1) * M := by ring
  rw [e3] at err
  unfold qmin at c1
  unfold qmax at c2
  constructor <;> linarith [err.1, err.2]

/-- C176: a row is assigned if and only if one of the computed cumulative areas exceeds its own. -/
theorem C176_assigned (h : I.Spread) (first : Bool) {alat : ℤ → ℝ} {j : ℤ} (hj : 0 ≤ alat j) :
    (I.placedFl m first alat j).isSome = true ↔ ∃ n, 1 ≤ n ∧ n ≤ I.npart ∧ alat j < I.aanFl m n := by
  have h2 := h.npart2
  have a1 : I.aanFl m 1 = 0 := by
    unfold aanFl
    exact doLoop_keep (fun s : ℤ → ℝ => s 1) (fun i t i1 _ => Function.update_of_ne (by omega) _ _) _
  constructor
  · intro hs
    obtain ⟨v, hv⟩ := Option.isSome_iff_exists.1 hs
    obtain ⟨n, n1, n2, _, hb, _⟩ := placedFl_some hv
    exact ⟨n + 1, by omega, by omega, hb⟩
  · rintro ⟨n, n1, n2, hn⟩
    have cross : ∃ k, 1 ≤ k ∧ k ≤ I.npart - 1 ∧ I.aanFl m k ≤ alat j ∧ alat j < I.aanFl m (k + 1) := by
      by_contra hno
      push Not at hno
      have all : ∀ t : ℕ, (t : ℤ) + 1 ≤ I.npart → I.aanFl m ((t : ℤ) + 1) ≤ alat j := by
        intro t
        induction t with
        | zero => intro _; rw [Nat.cast_zero, zero_add, a1]; exact hj
        | succ t ih =>
          intro ht
          push_cast at ht ⊢
          exact hno _ (by omega) (by omega) (ih (by omega))
      have := all (n - 1).toNat (by omega)
      rw [show (((n - 1).toNat : ℕ) : ℤ) + 1 = n by omega] at this
      linarith
    obtain ⟨k, k1, k2, ka, kb⟩ := cross
    have key := doLoop_induct (lo := 1) (f := fun nn s =>
      if I.aanFl m nn ≤ alat j ∧ alat j < I.aanFl m (nn + 1) then
        some (m.blend first (I.qnFl m nn) (I.qnFl m (nn + 1)) (I.ddFl m alat j nn))
      else s) (s := none)
      (fun e s => k ≤ e → s.isSome = true)
      (fun e => absurd e (by omega))
      (fun e s he ih hk => by
        by_cases hc : I.aanFl m e ≤ alat j ∧ alat j < I.aanFl m (e + 1)
        · rw [if_pos hc]; rfl
        · rw [if_neg hc]
          refine ih ?_
          by_contra hlt
          have : e = k := by omega
          subst this
          exact hc ⟨ka, kb⟩)
      (I.npart - 1) (by omega) k2
    exact key

/-- C176 for the arithmetic of the compiled routines: the range is left by less than a relative error of `2^-19`. -/
theorem C176_single (b first : Bool) (h : I.Spread) {lo hi M : ℝ}
    (hq : ∀ i j, 1 ≤ i → i ≤ I.imax → 1 ≤ j → j ≤ I.jmax → lo ≤ I.q i j ∧ I.q i j ≤ hi ∧ |I.q i j| ≤ M) (alat : ℤ → ℝ)
    {j : ℤ} {v : ℝ} (hv : I.placedFl (Machine.single b) first alat j = some v) : lo - M / 2 ^ 19 ≤ v ∧ v ≤ hi + M / 2 ^ 19 := by
  have main := C176_range h (Machine.single_standard b) (roundBits_mono 23) (roundBits_one 23) hq first alat hv
  have M0 : 0 ≤ M := (abs_nonneg _).trans (hq 1 1 le_rfl h.imax1 le_rfl h.jmax1).2.2
  have c : 3 * ((1 + ((1 : ℝ) / 2) ^ 24) ^ 7 - 1) * M ≤ M / 2 ^ 19 := by
    rw [show M / 2 ^ 19 = 1 / 2 ^ 19 * M by ring]
    exact mul_le_mul_of_nonneg_right (by norm_num) M0
  constructor <;> linarith [main.1, main.2]

/-- In exact arithmetic the value is that of `Model/AreaAnalysis.lean`. -/
theorem placedFl_exact (b first : Bool) (h : I.Spread) (j : ℤ) :
    I.placedFl (Machine.exact b) first I.alat j = (I.placed j).map Prod.fst := by
  have hdq : I.dqFl (Machine.exact b) = I.dq := rfl
  have d0 : I.dq ≠ 0 := (div_pos (sub_pos.2 h.spread) (by linarith [h.parts])).ne'
  have hind : ∀ i j, I.indFl (Machine.exact b) i j = some (I.ind i j) := fun i j => by
    unfold indFl
    rw [hdq, if_neg d0]
    rfl
  have hda : ∀ j, I.daFl (Machine.exact b) j = I.da j := fun j => by
    unfold daFl phi0Fl Machine.mulAdd
    cases b <;> rfl
  have han : I.anFl (Machine.exact b) = I.bins.an := by
    unfold anFl bins
    refine doLoop_map (fun s : Bins => s.an) (fun j s => ?_) ({ an := fun _ => 0, cn := fun _ => 0 } : Bins)
    refine (doLoop_map (fun s : Bins => s.an) (fun i s => ?_) s)
    unfold anStepFl binStep
    rw [hind, hda]
    rfl
  have haan : I.aanFl (Machine.exact b) = I.aan := by
    unfold aanFl aan cumul
    rw [han]
    rfl
  have hqn : ∀ n, I.qnFl (Machine.exact b) n = I.qn n := fun n => by
    unfold qnFl Machine.mulSub
    cases b <;> rfl
  have hbl : ∀ x y d, (Machine.exact b).blend first x y d = x * (1 - d) + y * d := fun x y d => by
    unfold Machine.blend Machine.mulAdd
    cases b <;> cases first
    · rfl
    · exact add_comm (y * d) (x * (1 - d))
    · rfl
    · exact add_comm (y * d) (x * (1 - d))
  unfold placedFl placed
  rw [haan]
  refine doLoop_map (fun s : Option (ℝ × ℝ) => s.map Prod.fst) (fun n s => ?_) none
  by_cases hc : I.aan n ≤ I.alat j ∧ I.alat j < I.aan (n + 1)
  · rw [if_pos hc, if_pos hc, hbl, hqn, hqn]
    unfold ddFl
    rw [haan]
    rfl
  · rw [if_neg hc, if_neg hc]

/-- Three rows with a minimum at the equator. -/
def trough : AreaIn where
  imax := 1
  jmax := 3
  nd := 2
  npart := 2
  q := fun _ j => if j = 2 then 0 else 1
  a := 1
  dphi := π / 2
  dlambda := 2 * π

theorem trough_range : trough.qmax = 1 ∧ trough.qmin = 0 := by
  obtain ⟨h1, i, j, _, _, _, _, e⟩ := maxval_spec (A := trough.q) (m := 1) (n := 3) (by decide) (by decide)
  obtain ⟨h2, i', j', _, _, _, _, e'⟩ := minval_spec (A := trough.q) (m := 1) (n := 3) (by decide) (by decide)
  have hq : ∀ i j, trough.q i j ≤ 1 ∧ 0 ≤ trough.q i j := fun i j => by
    show (if j = 2 then (0 : ℝ) else 1) ≤ 1 ∧ 0 ≤ (if j = 2 then (0 : ℝ) else 1)
    by_cases hj : j = 2
    · rw [if_pos hj]; norm_num
    · rw [if_neg hj]; norm_num
  have a := h1 1 1 (by decide) (by decide) (by decide) (by decide)
  have b := h2 1 2 (by decide) (by decide) (by decide) (by decide)
  have ea : trough.q 1 1 = 1 := by norm_num [trough]
  have eb : trough.q 1 2 = 0 := by norm_num [trough]
  rw [ea] at a
  rw [eb] at b
  constructor
  · exact le_antisymm (e.symm.le.trans (hq i j).1) a
  · exact le_antisymm b ((hq i' j').2.trans e'.le)

theorem trough_spread : trough.Spread := by
  refine ⟨by decide, by decide, by decide, ?_⟩
  rw [trough_range.1, trough_range.2]
  norm_num

/-- The second cumulative area of `trough` in single precision is positive. -/
theorem trough_area (b : Bool) : 0 < trough.aanFl (Machine.single b) 2 := by
  have hs := Machine.single_standard b
  have one : (Machine.single b).fl 1 = 1 := roundBits_one 23
  have zero : (Machine.single b).fl 0 = 0 := Machine.fl_zero hs
  have hdq : trough.dqFl (Machine.single b) = 1 := by
    unfold dqFl
    rw [trough_range.1, trough_range.2, show trough.npart = 2 from rfl]
    norm_num [one]
  have i2 : trough.indFl (Machine.single b) 1 2 = some 2 := by
    unfold indFl quotFl
    rw [hdq, if_neg one_ne_zero, trough_range.1, show trough.q 1 2 = 0 by norm_num [trough]]
    norm_num [one, fint]
  have hd : 0 < trough.daFl (Machine.single b) 2 := by
    refine C142_interior_partial (I := trough) ⟨by decide, by decide, by show 0 < π / 2; positivity, by show 0 < 2 * π; positivity,
      by norm_num [trough], ?_⟩ hs ?_ ?_ ?_ (by norm_num) (by decide)
    · show π / 2 * ((3 - 1 : ℤ) : ℝ) ≤ 4
      push_cast
      linarith [pi_le_four]
    · show π / 2 * ((3 - 1 : ℤ) : ℝ) ≤ _
      push_cast
      nlinarith [pi_pos]
    · show 14 * _ * ((3 - 1 : ℤ) : ℝ) ≤ 1
      norm_num
    · show _ ≤ π / 2 * ((3 - 1 : ℤ) : ℝ)
      push_cast
      nlinarith [pi_pos]
  have other : ∀ j, j ≠ 2 → trough.indFl (Machine.single b) 1 j = some 1 := fun j hj => by
    unfold indFl quotFl
    rw [hdq, if_neg one_ne_zero, trough_range.1, show trough.q 1 j = 1 from if_neg hj]
    norm_num [zero, fint]
  have han : 0 < trough.anFl (Machine.single b) 2 := by
    have inner : ∀ j (s : ℤ → ℝ), doLoop 1 trough.imax (trough.anStepFl (Machine.single b) j) s =
        trough.anStepFl (Machine.single b) j 1 s := fun j s => by
      rw [show trough.imax = 0 + 1 from rfl, doLoop_succ (by norm_num), doLoop_empty (by norm_num)]
      rfl
    have keep : ∀ j (s : ℤ → ℝ), j ≠ 2 → trough.anStepFl (Machine.single b) j 1 s 2 = s 2 := fun j s hj => by
      unfold anStepFl
      rw [other j hj]
      exact Function.update_of_ne (by norm_num) _ _
    have step : ∀ s : ℤ → ℝ, trough.anStepFl (Machine.single b) 2 1 s 2 =
        (Machine.single b).fl (s 2 + trough.daFl (Machine.single b) 2) := fun s => by
      unfold anStepFl
      rw [i2]
      exact Function.update_self _ _ _
    unfold anFl
    simp only [inner]
    rw [show trough.jmax = 0 + 1 + 1 + 1 from rfl, doLoop_succ (by norm_num), doLoop_succ (by norm_num), doLoop_succ (by norm_num),
      doLoop_empty (by norm_num), keep _ _ (by norm_num), show (0 : ℤ) + 1 + 1 = 2 from rfl, step,
      keep _ _ (by norm_num)]
    exact Machine.fl_pos hs (by rw [zero_add]; exact hd)
  unfold aanFl
  rw [show trough.npart = 1 + 1 from rfl, doLoop_succ (by norm_num), doLoop_empty (by norm_num)]
  show 0 < Function.update (fun _ => (0 : ℝ)) 2 _ 2
  rw [Function.update_self]
  exact Machine.fl_pos hs (by rw [zero_add]; exact han)

/-- The hypotheses of C176 hold for `trough` and a row without area to the north, which gets a value. -/
example (b first : Bool) : ∃ v, trough.placedFl (Machine.single b) first (fun _ => 0) 1 = some v ∧ 0 - 1 / 2 ^ 19 ≤ v ∧
    v ≤ 1 + 1 / 2 ^ 19 := by
  have h := (C176_assigned (m := Machine.single b) trough_spread first (alat := fun _ => 0) (j := 1) le_rfl).2
    ⟨2, by norm_num, by decide, trough_area b⟩
  obtain ⟨v, hv⟩ := Option.isSome_iff_exists.1 h
  refine ⟨v, hv, C176_single b first trough_spread (fun i j _ _ _ _ => ?_) _ hv⟩
  show 0 ≤ (if j = 2 then (0 : ℝ) else 1) ∧ (if j = 2 then (0 : ℝ) else 1) ≤ 1 ∧ |if j = 2 then (0 : ℝ) else 1| ≤ 1
  by_cases hj : j = 2
  · rw [if_pos hj]; norm_num
  · rw [if_neg hj]; norm_num

end AreaIn

end Falwa

end
