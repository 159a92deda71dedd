import Verif.Model.FluxRounding
import Verif.Props.Rounding
import Verif.Lemmas.Flux
import Mathlib.Analysis.Real.Pi.Bounds
import Mathlib.Analysis.SpecialFunctions.Trigonometric.Bounds
import Mathlib.Algebra.Order.Archimedean.Real.Basic
import Mathlib.Algebra.Order.BigOperators.Ring.Finset
import Mathlib.Algebra.Order.BigOperators.Group.Finset

/-!
# The wave activity of the QG classes under rounding (C133)

In single precision the last weight of the meridional integral, that of the pole, is a small negative number.
-/

set_option linter.unusedSectionVars false

noncomputable section

namespace Falwa

open Real Finset

/-! ### Rounding errors -/

/-- `x` equals `y` up to `k` relative errors of size `u`. -/
def Rel (u : ℝ) (k : ℕ) (x y : ℝ) : Prop := |x - y| ≤ ((1 + u) ^ k - 1) * |y|

namespace Rel

variable {u : ℝ} {k l : ℕ} {x y z : ℝ}

theorem refl (u : ℝ) (k : ℕ) (h0 : 0 ≤ u) (x : ℝ) : Rel u k x x := by
  unfold Rel
  rw [sub_self, abs_zero]
  exact mul_nonneg (by linarith [one_le_pow₀ (by linarith : (1 : ℝ) ≤ 1 + u) (n := k)]) (abs_nonneg _)

theorem of_one (h : |x - y| ≤ u * |y|) : Rel u 1 x y := by
  unfold Rel; rw [pow_one]; simpa using h

theorem abs_le (h : Rel u k x y) : |x| ≤ (1 + u) ^ k * |y| := by
  unfold Rel at h
  have h1 : |x| ≤ |x - y| + |y| := by simpa using abs_add_le (x - y) y
  linarith

theorem trans (h0 : 0 ≤ u) (h1 : Rel u k x y) (h2 : Rel u l y z) : Rel u (k + l) x z := by
  have hy := h2.abs_le
  unfold Rel at *
  have h3 : |x - z| ≤ |x - y| + |y - z| := by simpa using abs_add_le (x - y) (y - z)
  have hk : 0 ≤ (1 + u) ^ k - 1 := by linarith [one_le_pow₀ (by linarith : (1 : ℝ) ≤ 1 + u) (n := k)]
  calc |x - z| ≤ ((1 + u) ^ k - 1) * |y| + ((1 + u) ^ l - 1) * |z| := by linarith
    _ ≤ ((1 + u) ^ k - 1) * ((1 + u) ^ l * |z|) + ((1 + u) ^ l - 1) * |z| := by
        linarith [mul_le_mul_of_nonneg_left hy hk]
    _ = ((1 + u) ^ (k + l) - 1) * |z| := by rw [pow_add]; ring

theorem fl {f : ℝ → ℝ} (hf : RelativeError u f) (h0 : 0 ≤ u) (h : Rel u k x y) : Rel u (k + 1) (f x) y := by
  rw [add_comm]
  exact Rel.trans h0 (Rel.of_one (hf x)) h

theorem mul {x' y' : ℝ} (h0 : 0 ≤ u) (h1 : Rel u k x y) (h2 : Rel u l x' y') : Rel u (k + l) (x * x') (y * y') := by
  have ha := h1.abs_le
  unfold Rel at *
  have hl : 0 ≤ (1 + u) ^ l - 1 := by linarith [one_le_pow₀ (by linarith : (1 : ℝ) ≤ 1 + u) (n := l)]
  have e : x * x' - y * y' = x * (x' - y') + (x - y) * y' := by ring
  calc |x * x' - y * y'| ≤ |x| * |x' - y'| + |x - y| * |y'| := by
        rw [e, ← abs_mul, ← abs_mul]; exact abs_add_le _ _
    _ ≤ (1 + u) ^ k * |y| * (((1 + u) ^ l - 1) * |y'|) + ((1 + u) ^ k - 1) * |y| * |y'| := by
        refine add_le_add (mul_le_mul ha h2 (abs_nonneg _) ?_) (mul_le_mul_of_nonneg_right h1 (abs_nonneg _))
        exact mul_nonneg (pow_nonneg (by linarith) _) (abs_nonneg _)
    _ = ((1 + u) ^ (k + l) - 1) * |y * y'| := by rw [abs_mul, pow_add]; ring

end Rel

namespace Machine

variable {m : Machine} {u : ℝ}

theorem mulAdd_eq (hs : m.Standard u) (s x y : ℝ) : ∃ p, |p - x * y| ≤ u * |x * y| ∧ m.mulAdd s x y = m.fl (s + p) := by
  unfold mulAdd
  by_cases h : m.fma = true
  · rw [if_pos h]
    exact ⟨x * y, by rw [sub_self, abs_zero]; exact mul_nonneg hs.nonneg (abs_nonneg _), rfl⟩
  · rw [if_neg h]
    exact ⟨m.fl (x * y), hs.rel _, rfl⟩

theorem mulSub_eq (hs : m.Standard u) (s x y : ℝ) : ∃ p, |p - -(x * y)| ≤ u * |-(x * y)| ∧ m.mulSub s x y = m.fl (s + p) := by
  unfold mulSub
  by_cases h : m.fma = true
  · rw [if_pos h]
    exact ⟨-(x * y), by rw [sub_self, abs_zero]; exact mul_nonneg hs.nonneg (abs_nonneg _), by rw [sub_eq_add_neg]⟩
  · rw [if_neg h]
    refine ⟨-m.fl (x * y), ?_, by rw [sub_eq_add_neg]⟩
    have := hs.rel (x * y)
    rw [neg_sub_neg, abs_sub_comm, abs_neg]
    exact this

/-- Non-negative increments. -/
theorem mulAdd_nonneg (hs : m.Standard u) {s x y : ℝ} (h1 : 0 ≤ s) (h2 : 0 ≤ x * y) : 0 ≤ m.mulAdd s x y := by
  have k := hs.rel.keepsSign hs.small
  unfold mulAdd
  split_ifs
  · exact k.nonneg _ (add_nonneg h1 h2)
  · exact k.nonneg _ (add_nonneg h1 (k.nonneg _ h2))

theorem mulSub_nonneg (hs : m.Standard u) {s x y : ℝ} (h1 : 0 ≤ s) (h2 : x * y ≤ 0) : 0 ≤ m.mulSub s x y := by
  have k := hs.rel.keepsSign hs.small
  unfold mulSub
  split_ifs
  · exact k.nonneg _ (by linarith)
  · exact k.nonneg _ (by linarith [k.nonpos _ h2])

theorem fl_neg (hs : m.Standard u) {x : ℝ} (h : x < 0) : m.fl x < 0 := hs.rel.neg hs.small h

theorem fl_pos (hs : m.Standard u) {x : ℝ} (h : 0 < x) : 0 < m.fl x := hs.rel.pos hs.small h

theorem fl_zero (hs : m.Standard u) : m.fl 0 = 0 := (hs.rel.keepsSign hs.small).zero

/-- The error of one step of a sum: `a` bounds the sum of the absolute values so far, `S` is its exact value. -/
theorem sum_step (hs : m.Standard u) {n : ℕ} {s S a t p : ℝ} (h1 : |s - S| ≤ ((1 + u) ^ (n + 1) - 1) * a) (hS : |S| ≤ a)
    (hp : |p - t| ≤ u * |t|) : |m.fl (s + p) - (S + t)| ≤ ((1 + u) ^ (n + 2) - 1) * (a + |t|) := by
  have h0 := hs.nonneg
  have hpow : (1 : ℝ) ≤ (1 + u) ^ n := one_le_pow₀ (by linarith)
  have e1 := hs.rel (s + p)
  have e2 : |m.fl (s + p) - (S + t)| ≤ |m.fl (s + p) - (s + p)| + |(s + p) - (S + t)| := by
    simpa using abs_add_le (m.fl (s + p) - (s + p)) ((s + p) - (S + t))
  have e3 : |(s + p) - (S + t)| ≤ |s - S| + |p - t| := by
    rw [show (s + p) - (S + t) = (s - S) + (p - t) by ring]; exact abs_add_le _ _
  have e4 : |s + p| ≤ |(s + p) - (S + t)| + |S + t| := by simpa using abs_add_le ((s + p) - (S + t)) (S + t)
  have e5 : |S + t| ≤ a + |t| := (abs_add_le _ _).trans (by linarith)
  have e6 : u * |s + p| ≤ u * (|s - S| + |p - t| + (a + |t|)) := mul_le_mul_of_nonneg_left (by linarith) h0
  have e7 : |m.fl (s + p) - (S + t)| ≤ (1 + u) * (|s - S| + |p - t|) + u * (a + |t|) := by linarith
  have e8 : (1 + u) * (|s - S| + |p - t|) ≤ (1 + u) * (((1 + u) ^ (n + 1) - 1) * a + u * |t|) :=
    mul_le_mul_of_nonneg_left (by linarith) (by linarith)
  have ht := abs_nonneg t
  have e9 : ((1 + u) * u + u) * |t| ≤ ((1 + u) ^ (n + 2) - 1) * |t| := by
    refine mul_le_mul_of_nonneg_right ?_ ht
    have : (1 + u) ^ (n + 2) = (1 + u) ^ n * (1 + u) ^ 2 := pow_add _ _ _
    rw [this]
    nlinarith [mul_le_mul_of_nonneg_right hpow (sq_nonneg (1 + u))]
  have e10 : (1 + u) ^ (n + 2) = (1 + u) ^ (n + 1) * (1 + u) := pow_succ _ _
  rw [e10] at e9 ⊢
  nlinarith

theorem single_standard (b : Bool) : (single b).Standard ((1 / 2) ^ 24) where
  nonneg := by positivity
  small := by norm_num
  rel := relativeError_roundBits 23
  cosRel := fun x => relativeError_roundBits 23 _
  expRel := fun x => by
    have := relativeError_roundBits (K := ℝ) 23 (exp x)
    rwa [abs_of_pos (exp_pos x)] at this
  piRel := by
    have := relativeError_roundBits (K := ℝ) 23 π
    rwa [abs_of_pos pi_pos] at this

end Machine

namespace LwaIn

variable (I : LwaIn)

/-- The model with exact arithmetic is that of `Model/Flux.lean`. -/
theorem accFl_exact (b : Bool) (i j k : ℤ) : I.accFl (Machine.exact b) i j k = I.acc i j k := by
  unfold accFl acc
  refine doLoop_congr _ fun jj t _ _ => ?_
  have hm : ∀ s x y, (Machine.exact b).mulSub s x y = s - x * y := fun s x y => by cases b <;> rfl
  have ha : ∀ s x y, (Machine.exact b).mulAdd s x y = s + x * y := fun s x y => by cases b <;> rfl
  unfold accStepFl accStep
  simp only [hm, ha]
  rfl

/-- What the routine assumes about its arguments: an odd grid with `nd` rows per hemisphere. -/
structure Sized : Prop where
  jmax_eq : I.jmax = 2 * I.nd - 1
  nd2 : 2 ≤ I.nd
  jb0 : 0 ≤ I.jb
  a_pos : 0 < I.a

variable {I} {m : Machine} {u : ℝ}

namespace Sized

theorem rows (h : I.Sized) : (0 : ℝ) < ((I.jmax - 1 : ℤ) : ℝ) := by
  have := h.jmax_eq; have := h.nd2
  exact_mod_cast (by omega : (0 : ℤ) < I.jmax - 1)

theorem dp_pos (h : I.Sized) : 0 < I.dp := div_pos pi_pos h.rows

theorem dpFl_rel (_ : I.Sized) (hs : m.Standard u) : Rel u 2 (I.dpFl m) I.dp := by
  have h1 : Rel u 1 m.piFl π := Rel.of_one (by rw [abs_of_pos pi_pos]; exact hs.piRel)
  have h2 : Rel u (1 + 0) (m.piFl * ((I.jmax - 1 : ℤ) : ℝ)⁻¹) (π * ((I.jmax - 1 : ℤ) : ℝ)⁻¹) :=
    h1.mul hs.nonneg (Rel.refl u 0 hs.nonneg _)
  unfold dpFl dp
  rw [div_eq_mul_inv, div_eq_mul_inv]
  exact h2.fl hs.rel hs.nonneg

theorem dpFl_pos (h : I.Sized) (hs : m.Standard u) : 0 < I.dpFl m := by
  have hp : 0 < m.piFl := by
    have := (abs_le.1 hs.piRel).1
    nlinarith [pi_pos, hs.small]
  exact m.fl_pos hs (div_pos hp h.rows)

theorem phiFl_rel (h : I.Sized) (hs : m.Standard u) (jj : ℤ) :
    Rel u 3 (I.phiFl m jj) (I.dp * ((jj - 1 : ℤ) : ℝ)) :=
  (((h.dpFl_rel hs).mul hs.nonneg (Rel.refl u 0 hs.nonneg ((jj - 1 : ℤ) : ℝ))).fl hs.rel hs.nonneg :)

theorem phiFl_nonneg (h : I.Sized) (hs : m.Standard u) {jj : ℤ} (hj : 1 ≤ jj) : 0 ≤ I.phiFl m jj := by
  refine (hs.rel.keepsSign hs.small).nonneg _ (mul_nonneg (h.dpFl_pos hs).le ?_)
  exact_mod_cast (by omega : (0 : ℤ) ≤ jj - 1)

/-- The computed weights, relative to the cosine of the computed latitude. -/
theorem aaFl_rel (h : I.Sized) (hs : m.Standard u) (jj : ℤ) :
    Rel u 5 (I.aaFl m jj) (I.a * I.dp * cos (I.phiFl m jj)) := by
  have h1 : Rel u 3 (m.fl (I.a * I.dpFl m)) (I.a * I.dp) :=
    (((Rel.refl u 0 hs.nonneg I.a).mul hs.nonneg (h.dpFl_rel hs)).fl hs.rel hs.nonneg :)
  have h2 : Rel u 1 (m.cosFl (I.phiFl m jj)) (cos (I.phiFl m jj)) := Rel.of_one (hs.cosRel _)
  exact ((h1.mul hs.nonneg h2).fl hs.rel hs.nonneg :)

/-- A weight has the sign of the cosine of the computed latitude. -/
theorem aaFl_pos (h : I.Sized) (hs : m.Standard u) {jj : ℤ} (hc : 0 < cos (I.phiFl m jj)) : 0 < I.aaFl m jj := by
  have hcf : 0 < m.cosFl (I.phiFl m jj) := by
    have := (abs_le.1 (hs.cosRel (I.phiFl m jj))).1
    rw [abs_of_pos hc] at this
    nlinarith [hs.small]
  exact m.fl_pos hs (mul_pos (m.fl_pos hs (mul_pos h.a_pos (h.dpFl_pos hs))) hcf)

theorem aaFl_neg (h : I.Sized) (hs : m.Standard u) {jj : ℤ} (hc : cos (I.phiFl m jj) < 0) : I.aaFl m jj < 0 := by
  have hcf : m.cosFl (I.phiFl m jj) < 0 := by
    have := (abs_le.1 (hs.cosRel (I.phiFl m jj))).2
    rw [abs_of_neg hc] at this
    nlinarith [hs.small]
  exact m.fl_neg hs (mul_neg_of_pos_of_neg (m.fl_pos hs (mul_pos h.a_pos (h.dpFl_pos hs))) hcf)

theorem dp_pole (h : I.Sized) : I.dp * ((I.nd - 1 : ℤ) : ℝ) = π / 2 := by
  have h2 : ((I.jmax - 1 : ℤ) : ℝ) = 2 * ((I.nd - 1 : ℤ) : ℝ) := by rw [h.jmax_eq]; push_cast; ring
  have h3 : (0 : ℝ) < ((I.nd - 1 : ℤ) : ℝ) := by exact_mod_cast (by have := h.nd2; omega : (0 : ℤ) < I.nd - 1)
  unfold dp
  rw [h2]
  field_simp

theorem phi_le (h : I.Sized) {jj : ℤ} (h2 : jj ≤ I.nd) : I.dp * ((jj - 1 : ℤ) : ℝ) ≤ π / 2 := by
  rw [← h.dp_pole]
  exact mul_le_mul_of_nonneg_left (by exact_mod_cast (by omega : jj - 1 ≤ I.nd - 1)) h.dp_pos.le

/-- Every row but that of the pole has a positive weight, unless the grid has about `1/(3u)` rows. -/
theorem aaFl_pos_row (h : I.Sized) (hs : m.Standard u) (hn : (1 + u) ^ 3 * ((I.nd - 2 : ℤ) : ℝ) < ((I.nd - 1 : ℤ) : ℝ)) {jj : ℤ}
    (h1 : 1 ≤ jj) (h2 : jj < I.nd) : 0 < I.aaFl m jj := by
  refine h.aaFl_pos hs (cos_pos_of_mem_Ioo ⟨?_, ?_⟩)
  · linarith [h.phiFl_nonneg hs h1, pi_pos]
  · have e := (h.phiFl_rel hs jj).abs_le
    have hx : (0 : ℝ) ≤ ((jj - 1 : ℤ) : ℝ) := by exact_mod_cast (by omega : (0 : ℤ) ≤ jj - 1)
    have hy : ((jj - 1 : ℤ) : ℝ) ≤ ((I.nd - 2 : ℤ) : ℝ) := by exact_mod_cast (by omega : jj - 1 ≤ I.nd - 2)
    rw [abs_of_nonneg (h.phiFl_nonneg hs h1), abs_of_nonneg (mul_nonneg h.dp_pos.le hx)] at e
    have hu3 : (0 : ℝ) ≤ (1 + u) ^ 3 := pow_nonneg (by linarith [hs.nonneg]) _
    calc I.phiFl m jj ≤ (1 + u) ^ 3 * (I.dp * ((jj - 1 : ℤ) : ℝ)) := e
      _ ≤ (1 + u) ^ 3 * (I.dp * ((I.nd - 2 : ℤ) : ℝ)) :=
          mul_le_mul_of_nonneg_left (mul_le_mul_of_nonneg_left hy h.dp_pos.le) hu3
      _ = I.dp * ((1 + u) ^ 3 * ((I.nd - 2 : ℤ) : ℝ)) := by ring
      _ < I.dp * ((I.nd - 1 : ℤ) : ℝ) := mul_lt_mul_of_pos_left hn h.dp_pos
      _ = π / 2 := h.dp_pole

/-- The absolute error of a weight. -/
theorem aaFl_err (h : I.Sized) (hs : m.Standard u) {jj : ℤ} (h1 : 1 ≤ jj) (h2 : jj ≤ I.nd) :
    |I.aaFl m jj - I.a * I.dp * cos (I.dp * ((jj - 1 : ℤ) : ℝ))| ≤
      I.a * I.dp * ((1 + u) ^ 5 - 1 + ((1 + u) ^ 3 - 1) * (π / 2)) := by
  have hD : 0 < I.a * I.dp := mul_pos h.a_pos h.dp_pos
  have e1 := h.aaFl_rel hs jj
  have e2 := h.phiFl_rel hs jj
  unfold Rel at e1 e2
  have hx : (0 : ℝ) ≤ ((jj - 1 : ℤ) : ℝ) := by exact_mod_cast (by omega : (0 : ℤ) ≤ jj - 1)
  have p5 : 0 ≤ (1 + u) ^ 5 - 1 := by linarith [one_le_pow₀ (by linarith [hs.nonneg] : (1 : ℝ) ≤ 1 + u) (n := 5)]
  have p3 : 0 ≤ (1 + u) ^ 3 - 1 := by linarith [one_le_pow₀ (by linarith [hs.nonneg] : (1 : ℝ) ≤ 1 + u) (n := 3)]
  rw [abs_mul, abs_of_pos hD] at e1
  have e3 : |I.aaFl m jj - I.a * I.dp * cos (I.phiFl m jj)| ≤ ((1 + u) ^ 5 - 1) * (I.a * I.dp) := by
    refine e1.trans (mul_le_mul_of_nonneg_left ?_ p5)
    exact (mul_le_mul_of_nonneg_left (abs_cos_le_one _) hD.le).trans (by rw [mul_one])
  rw [abs_of_nonneg (mul_nonneg h.dp_pos.le hx)] at e2
  have e4 : |cos (I.phiFl m jj) - cos (I.dp * ((jj - 1 : ℤ) : ℝ))| ≤ ((1 + u) ^ 3 - 1) * (π / 2) :=
    (abs_cos_sub_cos_le _ _).trans (e2.trans (mul_le_mul_of_nonneg_left (h.phi_le h2) p3))
  have e5 : |I.a * I.dp * cos (I.phiFl m jj) - I.a * I.dp * cos (I.dp * ((jj - 1 : ℤ) : ℝ))| ≤
      I.a * I.dp * (((1 + u) ^ 3 - 1) * (π / 2)) := by
    rw [← mul_sub, abs_mul, abs_of_pos hD]
    exact mul_le_mul_of_nonneg_left e4 hD.le
  have e6 := abs_add_le (I.aaFl m jj - I.a * I.dp * cos (I.phiFl m jj))
    (I.a * I.dp * cos (I.phiFl m jj) - I.a * I.dp * cos (I.dp * ((jj - 1 : ℤ) : ℝ)))
  rw [sub_add_sub_cancel] at e6
  linarith

/-- The absolute value of a weight. -/
theorem aaFl_le (h : I.Sized) (hs : m.Standard u) (jj : ℤ) : |I.aaFl m jj| ≤ (1 + u) ^ 5 * (I.a * I.dp) := by
  have hD : 0 < I.a * I.dp := mul_pos h.a_pos h.dp_pos
  refine (h.aaFl_rel hs jj).abs_le.trans (mul_le_mul_of_nonneg_left ?_ (pow_nonneg (by linarith [hs.nonneg]) _))
  rw [abs_mul, abs_of_pos hD]
  exact (mul_le_mul_of_nonneg_left (abs_cos_le_one _) hD.le).trans (by rw [mul_one])

/-- The weight of the pole is not larger than a few rounding errors. -/
theorem aaFl_pole (h : I.Sized) (hs : m.Standard u) :
    |I.aaFl m I.nd| ≤ (1 + u) ^ 5 * (I.a * I.dp) * (((1 + u) ^ 3 - 1) * (π / 2)) := by
  have hD : 0 < I.a * I.dp := mul_pos h.a_pos h.dp_pos
  have e2 := h.phiFl_rel hs I.nd
  unfold Rel at e2
  have p3 : 0 ≤ (1 + u) ^ 3 - 1 := by linarith [one_le_pow₀ (by linarith [hs.nonneg] : (1 : ℝ) ≤ 1 + u) (n := 3)]
  rw [h.dp_pole, abs_of_pos (by positivity : (0 : ℝ) < π / 2)] at e2
  have e4 := (abs_cos_sub_cos_le (I.phiFl m I.nd) (π / 2)).trans e2
  rw [cos_pi_div_two, sub_zero] at e4
  refine (h.aaFl_rel hs I.nd).abs_le.trans ?_
  have hu : 0 ≤ 1 + u := by linarith [hs.nonneg]
  rw [abs_mul, abs_of_pos hD, mul_assoc ((1 + u) ^ 5)]
  exact mul_le_mul_of_nonneg_left (mul_le_mul_of_nonneg_left e4 hD.le) (pow_nonneg hu _)

end Sized

/-! ### The loop -/

theorem qeFl_pos (hs : m.Standard u) {i j k jj : ℤ} : 0 < I.qeFl m i j k jj ↔ 0 < I.qeEx i j k jj := by
  constructor
  · intro h
    by_contra hn
    exact absurd ((hs.rel.keepsSign hs.small).nonpos _ (not_lt.1 hn)) (not_le.2 h)
  · exact m.fl_pos hs

theorem accFl_fst_step (hs : m.Standard u) (i j k jj : ℤ) (s : ℝ × ℝ) : (I.accStepFl m i j k jj s).1 =
    if 0 < I.qeEx i j k jj ∧ jj < j then m.mulAdd s.1 (I.qeFl m i j k jj) (I.aaFl m jj) else s.1 := by
  have hq : (I.qeFl m i j k jj > 0 ∧ jj < j) ↔ (0 < I.qeEx i j k jj ∧ jj < j) := and_congr_left fun _ => qeFl_pos hs
  show (if I.qeFl m i j k jj > 0 ∧ jj < j then _ else _ : ℝ × ℝ).1 = _
  by_cases c2 : 0 < I.qeEx i j k jj ∧ jj < j
  · have c1 : ¬ (I.qeFl m i j k jj ≤ 0 ∧ jj ≥ j) := fun h => by omega
    rw [if_pos (hq.2 c2), if_pos c2, if_neg c1]
  · rw [if_neg (fun h => c2 (hq.1 h)), if_neg c2]
    split_ifs <;> rfl

theorem accFl_snd_step (hs : m.Standard u) (i j k jj : ℤ) (s : ℝ × ℝ) : (I.accStepFl m i j k jj s).2 =
    if I.qeEx i j k jj ≤ 0 ∧ j ≤ jj then m.mulSub s.2 (I.qeFl m i j k jj) (I.aaFl m jj) else s.2 := by
  have hq : (I.qeFl m i j k jj ≤ 0 ∧ jj ≥ j) ↔ (I.qeEx i j k jj ≤ 0 ∧ j ≤ jj) :=
    and_congr_left fun _ => by rw [← not_lt, ← not_lt]; exact not_congr (qeFl_pos hs)
  show (if I.qeFl m i j k jj > 0 ∧ jj < j then _ else _ : ℝ × ℝ).2 = _
  by_cases c1 : I.qeEx i j k jj ≤ 0 ∧ j ≤ jj
  · have c2 : ¬ (I.qeFl m i j k jj > 0 ∧ jj < j) := fun h => by omega
    rw [if_neg c2, if_pos c1, if_pos (hq.2 c1)]
  · rw [if_neg c1, if_neg (fun h => c1 (hq.1 h))]
    split_ifs <;> rfl

/-- An accumulating loop with rounding: the increments are `±x̃ w̃`. -/
theorem loop_error (hs : m.Standard u) {f : ℤ → ℝ × ℝ → ℝ × ℝ} (g : ℝ × ℝ → ℝ) (t : ℤ → ℝ)
    (hf : ∀ jj s, g (f jj s) = g s ∧ t jj = 0 ∨ ∃ p, |p - t jj| ≤ u * |t jj| ∧ g (f jj s) = m.fl (g s + p))
    (h0 : g (0, 0) = 0) (n : ℕ) :
    |g (doLoop 1 n f (0, 0)) - ∑ jj ∈ Icc (1 : ℤ) n, t jj| ≤ ((1 + u) ^ (n + 1) - 1) * ∑ jj ∈ Icc (1 : ℤ) n, |t jj| := by
  induction n with
  | zero => rw [doLoop_empty (by norm_num)]; simp [h0]
  | succ n ih =>
    have hI : Icc (1 : ℤ) ((n + 1 : ℕ) : ℤ) = insert ((n : ℤ) + 1) (Icc 1 (n : ℤ)) := by
      ext x; simp only [mem_Icc, mem_insert]; push_cast; omega
    have hnot : (n : ℤ) + 1 ∉ Icc (1 : ℤ) n := by simp
    rw [hI, sum_insert hnot, sum_insert hnot, add_comm (t _), add_comm |t _|]
    have hd : doLoop 1 ((n + 1 : ℕ) : ℤ) f (0, 0) = f ((n : ℤ) + 1) (doLoop 1 n f (0, 0)) := by
      push_cast; exact doLoop_succ (by omega) _ _
    rw [hd]
    have ha : 0 ≤ ∑ jj ∈ Icc (1 : ℤ) n, |t jj| := sum_nonneg fun _ _ => abs_nonneg _
    rcases hf ((n : ℤ) + 1) (doLoop 1 n f (0, 0)) with ⟨h1, h2⟩ | ⟨p, hp, h1⟩
    · rw [h1, h2, add_zero, abs_zero, add_zero]
      refine ih.trans (mul_le_mul_of_nonneg_right ?_ ha)
      linarith [pow_le_pow_right₀ (by linarith [hs.nonneg] : (1 : ℝ) ≤ 1 + u) (by omega : n + 1 ≤ n + 1 + 1)]
    · rw [h1]
      exact m.sum_step hs ih (abs_sum_le_sum_abs _ _) hp

/-- Error of a sum `∑ x w` whose factors are rounded and whose weights are off, with `n` rows. -/
theorem total_error (h : I.Sized) (hs : m.Standard u) {S : ℝ} (x x' w : ℤ → ℝ) (hx : ∀ jj ∈ Icc 1 I.nd, |x' jj - x jj| ≤ u * |x jj|)
    (hw : ∀ jj ∈ Icc 1 I.nd, w jj = I.a * I.dp * cos (I.dp * ((jj - 1 : ℤ) : ℝ)))
    (hS : |S - ∑ jj ∈ Icc 1 I.nd, x' jj * I.aaFl m jj| ≤
      ((1 + u) ^ (I.nd.toNat + 1) - 1) * ∑ jj ∈ Icc 1 I.nd, |x' jj * I.aaFl m jj|) :
    |S - ∑ jj ∈ Icc 1 I.nd, x jj * w jj| ≤
      I.a * I.dp * ((1 + u) ^ (I.nd.toNat + 7) - 1 + ((1 + u) ^ 3 - 1) * (π / 2)) * ∑ jj ∈ Icc 1 I.nd, |x jj| := by
  have h0 := hs.nonneg
  have hD : 0 < I.a * I.dp := mul_pos h.a_pos h.dp_pos
  have pw : ∀ k : ℕ, (1 : ℝ) ≤ (1 + u) ^ k := fun k => one_le_pow₀ (by linarith)
  have e1 : ∑ jj ∈ Icc 1 I.nd, |x' jj * I.aaFl m jj| ≤ (1 + u) ^ 6 * (I.a * I.dp) * ∑ jj ∈ Icc 1 I.nd, |x jj| := by
    rw [mul_sum]
    refine sum_le_sum fun jj hj => ?_
    have hx' : |x' jj| ≤ (1 + u) * |x jj| := by
      have := abs_add_le (x' jj - x jj) (x jj)
      rw [sub_add_cancel] at this
      linarith [hx jj hj]
    rw [abs_mul]
    calc |x' jj| * |I.aaFl m jj| ≤ (1 + u) * |x jj| * ((1 + u) ^ 5 * (I.a * I.dp)) :=
          mul_le_mul hx' (h.aaFl_le hs jj) (abs_nonneg _) (mul_nonneg (by linarith) (abs_nonneg _))
      _ = (1 + u) ^ 6 * (I.a * I.dp) * |x jj| := by ring
  have e2 : |∑ jj ∈ Icc 1 I.nd, x' jj * I.aaFl m jj - ∑ jj ∈ Icc 1 I.nd, x jj * w jj| ≤
      I.a * I.dp * (u * (1 + u) ^ 5 + ((1 + u) ^ 5 - 1 + ((1 + u) ^ 3 - 1) * (π / 2))) * ∑ jj ∈ Icc 1 I.nd, |x jj| := by
    rw [← sum_sub_distrib, mul_sum]
    refine (abs_sum_le_sum_abs _ _).trans (sum_le_sum fun jj hj => ?_)
    have e3 := h.aaFl_err hs (mem_Icc.1 hj).1 (mem_Icc.1 hj).2
    rw [← hw jj hj] at e3
    have e : x' jj * I.aaFl m jj - x jj * w jj = (x' jj - x jj) * I.aaFl m jj + x jj * (I.aaFl m jj - w jj) := by ring
    rw [e]
    refine (abs_add_le _ _).trans ?_
    rw [abs_mul, abs_mul]
    have e4 : |x' jj - x jj| * |I.aaFl m jj| ≤ u * |x jj| * ((1 + u) ^ 5 * (I.a * I.dp)) :=
      mul_le_mul (hx jj hj) (h.aaFl_le hs jj) (abs_nonneg _) (mul_nonneg h0 (abs_nonneg _))
    have e5 := mul_le_mul_of_nonneg_left e3 (abs_nonneg (x jj))
    calc _ ≤ u * |x jj| * ((1 + u) ^ 5 * (I.a * I.dp)) +
          |x jj| * (I.a * I.dp * ((1 + u) ^ 5 - 1 + ((1 + u) ^ 3 - 1) * (π / 2))) := add_le_add e4 e5
      _ = _ := by ring
  have e6 := abs_add_le (S - ∑ jj ∈ Icc 1 I.nd, x' jj * I.aaFl m jj)
    (∑ jj ∈ Icc 1 I.nd, x' jj * I.aaFl m jj - ∑ jj ∈ Icc 1 I.nd, x jj * w jj)
  rw [sub_add_sub_cancel] at e6
  have e7 : ((1 + u) ^ (I.nd.toNat + 1) - 1) * ∑ jj ∈ Icc 1 I.nd, |x' jj * I.aaFl m jj| ≤
      ((1 + u) ^ (I.nd.toNat + 1) - 1) * ((1 + u) ^ 6 * (I.a * I.dp) * ∑ jj ∈ Icc 1 I.nd, |x jj|) :=
    mul_le_mul_of_nonneg_left e1 (by linarith [pw (I.nd.toNat + 1)])
  have e8 : ((1 + u) ^ (I.nd.toNat + 1) - 1) * ((1 + u) ^ 6 * (I.a * I.dp) * ∑ jj ∈ Icc 1 I.nd, |x jj|) +
      I.a * I.dp * (u * (1 + u) ^ 5 + ((1 + u) ^ 5 - 1 + ((1 + u) ^ 3 - 1) * (π / 2))) * ∑ jj ∈ Icc 1 I.nd, |x jj| =
      I.a * I.dp * ((1 + u) ^ (I.nd.toNat + 7) - 1 + ((1 + u) ^ 3 - 1) * (π / 2)) * ∑ jj ∈ Icc 1 I.nd, |x jj| := by
    rw [show I.nd.toNat + 7 = (I.nd.toNat + 1) + 6 by omega, pow_add]
    ring
  linarith

/-- Cyclonic part in exact arithmetic. -/
theorem acc_fst (i j k : ℤ) : (I.acc i j k).1 =
    ∑ jj ∈ Icc 1 I.nd, (if 0 < I.qeEx i j k jj ∧ jj < j then I.qeEx i j k jj else 0) *
      (I.a * I.dp * cos (I.dp * ((jj - 1 : ℤ) : ℝ))) := by
  unfold acc
  rw [doLoop_sum (fun s : ℝ × ℝ => s.1) (fun jj => (if 0 < I.qeEx i j k jj ∧ jj < j then I.qeEx i j k jj else 0) *
      (I.a * I.dp * cos (I.dp * ((jj - 1 : ℤ) : ℝ)))), zero_add]
  intro jj s _ _
  show (I.accStep i j k jj s).1 = _
  unfold accStep
  change (if I.qeEx i j k jj > 0 ∧ jj < j then _ else _ : ℝ × ℝ).1 = _
  by_cases c2 : 0 < I.qeEx i j k jj ∧ jj < j
  · have c1 : ¬ (I.qeEx i j k jj ≤ 0 ∧ jj ≥ j) := fun h => by omega
    rw [if_pos c2, if_pos c2]
    change (if I.qeEx i j k jj ≤ 0 ∧ jj ≥ j then _ else s : ℝ × ℝ).1 + _ = _
    rw [if_neg c1]; rfl
  · rw [if_neg c2, if_neg c2, zero_mul, add_zero]
    change (if I.qeEx i j k jj ≤ 0 ∧ jj ≥ j then _ else s : ℝ × ℝ).1 = _
    split_ifs <;> rfl

/-- Anticyclonic part in exact arithmetic. -/
theorem acc_snd (i j k : ℤ) : (I.acc i j k).2 =
    ∑ jj ∈ Icc 1 I.nd, (if I.qeEx i j k jj ≤ 0 ∧ j ≤ jj then -I.qeEx i j k jj else 0) *
      (I.a * I.dp * cos (I.dp * ((jj - 1 : ℤ) : ℝ))) := by
  unfold acc
  rw [doLoop_sum (fun s : ℝ × ℝ => s.2) (fun jj => (if I.qeEx i j k jj ≤ 0 ∧ j ≤ jj then -I.qeEx i j k jj else 0) *
      (I.a * I.dp * cos (I.dp * ((jj - 1 : ℤ) : ℝ)))), zero_add]
  intro jj s _ _
  show (I.accStep i j k jj s).2 = _
  unfold accStep
  change (if I.qeEx i j k jj > 0 ∧ jj < j then _ else _ : ℝ × ℝ).2 = _
  by_cases c1 : I.qeEx i j k jj ≤ 0 ∧ j ≤ jj
  · have c2 : ¬ (I.qeEx i j k jj > 0 ∧ jj < j) := fun h => by omega
    rw [if_neg c2, if_pos c1]
    change (if I.qeEx i j k jj ≤ 0 ∧ jj ≥ j then _ else s : ℝ × ℝ).2 = _
    rw [if_pos c1]
    show s.2 - I.qeEx i j k jj * _ = _
    ring
  · rw [if_neg c1, zero_mul, add_zero]
    have c3 : ¬ (rd3 I.jmax I.pv i (jj + I.nd - 1) k - rd2 I.nd I.qref j k ≤ 0 ∧ jj ≥ j) := c1
    rw [if_neg c3]
    split_ifs <;> rfl

/-! ## C133 -/

/-- C133, the claim: in single precision neither part of the wave activity is ever negative. -/
def C133_Statement : Prop := ∀ (b : Bool) (I : LwaIn), I.Sized → ∀ i j k, I.InRange i j →
  0 ≤ (I.accFl (Machine.single b) i j k).1 ∧ 0 ≤ (I.accFl (Machine.single b) i j k).2

/-- C133. The cyclonic part is never negative in any standard arithmetic: it does not use the row of the pole. -/
theorem C133_cyclonic_partial (h : I.Sized) (hs : m.Standard u)
    (hn : (1 + u) ^ 3 * ((I.nd - 2 : ℤ) : ℝ) < ((I.nd - 1 : ℤ) : ℝ)) {i j k : ℤ} (hj : j ≤ I.nd) :
    0 ≤ (I.accFl m i j k).1 := by
  unfold accFl
  refine doLoop_inv (fun s : ℝ × ℝ => 0 ≤ s.1) le_rfl fun jj s h1 h2 hi => ?_
  rw [accFl_fst_step hs]
  split_ifs with hc
  · exact m.mulAdd_nonneg hs hi (mul_nonneg (m.fl_pos hs hc.1).le (h.aaFl_pos_row hs hn h1 (by omega)).le)
  · exact hi

/-- The anticyclonic part before the row of the pole is added. -/
theorem accFl_before_pole (h : I.Sized) (hs : m.Standard u)
    (hn : (1 + u) ^ 3 * ((I.nd - 2 : ℤ) : ℝ) < ((I.nd - 1 : ℤ) : ℝ)) (i j k : ℤ) :
    0 ≤ (doLoop 1 (I.nd - 1) (I.accStepFl m i j k) (0, 0)).2 := by
  refine doLoop_inv (fun s : ℝ × ℝ => 0 ≤ s.2) le_rfl fun jj s h1 h2 hi => ?_
  rw [accFl_snd_step hs]
  split_ifs with hc
  · refine m.mulSub_nonneg hs hi (mul_nonpos_of_nonpos_of_nonneg ?_ (h.aaFl_pos_row hs hn h1 (by omega)).le)
    exact (hs.rel.keepsSign hs.small).nonpos _ hc.1
  · exact hi

theorem accFl_last (h : I.Sized) (i j k : ℤ) :
    I.accFl m i j k = I.accStepFl m i j k I.nd (doLoop 1 (I.nd - 1) (I.accStepFl m i j k) (0, 0)) := by
  have := doLoop_succ (lo := 1) (hi := I.nd - 1) (by have := h.nd2; omega) (I.accStepFl m i j k) (0, 0)
  rw [sub_add_cancel] at this
  exact this

/-- C133. The anticyclonic part is not negative unless QGPV at the pole is below the reference value of the row. -/
theorem C133_anticyclonic_partial (h : I.Sized) (hs : m.Standard u)
    (hn : (1 + u) ^ 3 * ((I.nd - 2 : ℤ) : ℝ) < ((I.nd - 1 : ℤ) : ℝ)) {i j k : ℤ}
    (hp : rd2 I.nd I.qref j k ≤ rd3 I.jmax I.pv i (2 * I.nd - 1) k) :
    0 ≤ (I.accFl m i j k).2 := by
  rw [accFl_last h, accFl_snd_step hs]
  have hb := accFl_before_pole h hs hn i j k
  have hq : 0 ≤ I.qeEx i j k I.nd := by
    unfold qeEx
    rw [show I.nd + I.nd - 1 = 2 * I.nd - 1 by ring]
    linarith
  split_ifs with hc
  · have hz : I.qeFl m i j k I.nd = 0 := by
      unfold qeFl; rw [le_antisymm hc.1 hq]; exact m.fl_zero hs
    refine m.mulSub_nonneg hs hb ?_
    rw [hz, zero_mul]
  · exact hb

/-- C133. How far below zero it can get: by the deficit at the pole times a few rounding errors of `a dφ`. -/
theorem C133_lower_partial (h : I.Sized) (hs : m.Standard u)
    (hn : (1 + u) ^ 3 * ((I.nd - 2 : ℤ) : ℝ) < ((I.nd - 1 : ℤ) : ℝ)) (i j k : ℤ) :
    -((1 + u) ^ 8 * ((1 + u) ^ 3 - 1) * (π / 2) * (I.a * I.dp) *
      |rd3 I.jmax I.pv i (2 * I.nd - 1) k - rd2 I.nd I.qref j k|) ≤ (I.accFl m i j k).2 := by
  have h0 := hs.nonneg
  have hD : 0 < I.a * I.dp := mul_pos h.a_pos h.dp_pos
  have p3 : 0 ≤ (1 + u) ^ 3 - 1 := by linarith [one_le_pow₀ (by linarith : (1 : ℝ) ≤ 1 + u) (n := 3)]
  have hb := accFl_before_pole h hs hn i j k
  have hneg : -((1 + u) ^ 8 * ((1 + u) ^ 3 - 1) * (π / 2) * (I.a * I.dp) *
      |rd3 I.jmax I.pv i (2 * I.nd - 1) k - rd2 I.nd I.qref j k|) ≤ 0 := by
    have : 0 ≤ (1 + u) ^ 8 := pow_nonneg (by linarith) _
    have := pi_pos
    rw [neg_nonpos]; positivity
  have hq : I.qeEx i j k I.nd = rd3 I.jmax I.pv i (2 * I.nd - 1) k - rd2 I.nd I.qref j k := by
    unfold qeEx
    rw [show I.nd + I.nd - 1 = 2 * I.nd - 1 by ring]
  rw [accFl_last h, accFl_snd_step hs]
  split_ifs with hc
  · set s := (doLoop 1 (I.nd - 1) (I.accStepFl m i j k) (0, 0)).2
    obtain ⟨p, hp, he⟩ := m.mulSub_eq hs s (I.qeFl m i j k I.nd) (I.aaFl m I.nd)
    rw [he]
    by_cases hsp : 0 ≤ s + p
    · exact hneg.trans ((hs.rel.keepsSign hs.small).nonneg _ hsp)
    · have h1 : Rel u 1 (m.fl (s + p)) (s + p) := Rel.of_one (hs.rel _)
      have h2 := h1.abs_le
      have h3 : |s + p| ≤ |p| := by
        rw [abs_of_neg (not_le.1 hsp), abs_of_neg (by linarith)]
        linarith
      have h4 : Rel u 1 p (-(I.qeFl m i j k I.nd * I.aaFl m I.nd)) := Rel.of_one hp
      have h5 := h4.abs_le
      rw [abs_neg, abs_mul] at h5
      have h6 : |I.qeFl m i j k I.nd| ≤ (1 + u) ^ 1 * |I.qeEx i j k I.nd| := (Rel.of_one (hs.rel _)).abs_le
      have h7 := h.aaFl_pole hs
      rw [pow_one] at h2 h5 h6
      have h8 : |I.qeFl m i j k I.nd| * |I.aaFl m I.nd| ≤
          (1 + u) * |I.qeEx i j k I.nd| * ((1 + u) ^ 5 * (I.a * I.dp) * (((1 + u) ^ 3 - 1) * (π / 2))) :=
        mul_le_mul h6 h7 (abs_nonneg _) (mul_nonneg (by linarith) (abs_nonneg _))
      have h9 : |m.fl (s + p)| ≤ (1 + u) * ((1 + u) *
          ((1 + u) * |I.qeEx i j k I.nd| * ((1 + u) ^ 5 * (I.a * I.dp) * (((1 + u) ^ 3 - 1) * (π / 2))))) := by
        refine h2.trans (mul_le_mul_of_nonneg_left (h3.trans (h5.trans ?_)) (by linarith))
        exact mul_le_mul_of_nonneg_left h8 (by linarith)
      rw [← hq]
      refine le_trans ?_ (neg_abs_le _)
      rw [neg_le_neg_iff]
      refine h9.trans (le_of_eq ?_)
      ring
  · exact hneg.trans hb

/-- C133. Both parts differ from their exact values by at most a relative error of the displaced QGPV. With `u = 2^-24` and 91 rows the
factor is below `7e-6`. -/
theorem C133_error_partial (h : I.Sized) (hs : m.Standard u) (i j k : ℤ) :
    |(I.accFl m i j k).1 - (I.acc i j k).1| ≤
      I.a * I.dp * ((1 + u) ^ (I.nd.toNat + 7) - 1 + ((1 + u) ^ 3 - 1) * (π / 2)) *
        ∑ jj ∈ (Icc 1 I.nd).filter (fun jj => 0 < I.qeEx i j k jj ∧ jj < j), I.qeEx i j k jj ∧
    |(I.accFl m i j k).2 - (I.acc i j k).2| ≤
      I.a * I.dp * ((1 + u) ^ (I.nd.toNat + 7) - 1 + ((1 + u) ^ 3 - 1) * (π / 2)) *
        ∑ jj ∈ (Icc 1 I.nd).filter (fun jj => I.qeEx i j k jj ≤ 0 ∧ j ≤ jj), -I.qeEx i j k jj := by
  have hnd : ((I.nd.toNat : ℕ) : ℤ) = I.nd := by have := h.nd2; omega
  constructor
  · have e := total_error h hs (S := (I.accFl m i j k).1)
      (fun jj => if 0 < I.qeEx i j k jj ∧ jj < j then I.qeEx i j k jj else 0)
      (fun jj => if 0 < I.qeEx i j k jj ∧ jj < j then I.qeFl m i j k jj else 0)
      (fun jj => I.a * I.dp * cos (I.dp * ((jj - 1 : ℤ) : ℝ))) ?_ (fun _ _ => rfl) ?_
    · rw [acc_fst]
      refine e.trans (le_of_eq ?_)
      rw [sum_filter]
      congr 1
      refine sum_congr rfl fun jj _ => ?_
      by_cases hc : 0 < I.qeEx i j k jj ∧ jj < j
      · simp only [if_pos hc]; exact abs_of_pos hc.1
      · simp only [if_neg hc, abs_zero]
    · intro jj _
      by_cases hc : 0 < I.qeEx i j k jj ∧ jj < j
      · simp only [if_pos hc]; exact hs.rel _
      · simp only [if_neg hc, sub_self, abs_zero, mul_zero, le_refl]
    · have e := loop_error hs (f := I.accStepFl m i j k) (fun s => s.1)
        (fun jj => (if 0 < I.qeEx i j k jj ∧ jj < j then I.qeFl m i j k jj else 0) * I.aaFl m jj) ?_ rfl I.nd.toNat
      · rw [hnd] at e; exact e
      · intro jj s
        rw [accFl_fst_step hs]
        by_cases hc : 0 < I.qeEx i j k jj ∧ jj < j
        · right
          rw [if_pos hc, if_pos hc]
          exact m.mulAdd_eq hs _ _ _
        · left
          rw [if_neg hc, if_neg hc, zero_mul]
          exact ⟨rfl, rfl⟩
  · have e := total_error h hs (S := (I.accFl m i j k).2)
      (fun jj => if I.qeEx i j k jj ≤ 0 ∧ j ≤ jj then -I.qeEx i j k jj else 0)
      (fun jj => if I.qeEx i j k jj ≤ 0 ∧ j ≤ jj then -I.qeFl m i j k jj else 0)
      (fun jj => I.a * I.dp * cos (I.dp * ((jj - 1 : ℤ) : ℝ))) ?_ (fun _ _ => rfl) ?_
    · rw [acc_snd]
      refine e.trans (le_of_eq ?_)
      rw [sum_filter]
      congr 1
      refine sum_congr rfl fun jj _ => ?_
      by_cases hc : I.qeEx i j k jj ≤ 0 ∧ j ≤ jj
      · simp only [if_pos hc]; exact abs_of_nonneg (by linarith [hc.1])
      · simp only [if_neg hc, abs_zero]
    · intro jj _
      by_cases hc : I.qeEx i j k jj ≤ 0 ∧ j ≤ jj
      · simp only [if_pos hc]
        have := hs.rel (I.qeEx i j k jj)
        rw [abs_neg, neg_sub_neg, abs_sub_comm]
        exact this
      · simp only [if_neg hc, sub_self, abs_zero, mul_zero, le_refl]
    · have e := loop_error hs (f := I.accStepFl m i j k) (fun s => s.2)
        (fun jj => (if I.qeEx i j k jj ≤ 0 ∧ j ≤ jj then -I.qeFl m i j k jj else 0) * I.aaFl m jj) ?_ rfl I.nd.toNat
      · rw [hnd] at e; exact e
      · intro jj s
        rw [accFl_snd_step hs]
        by_cases hc : I.qeEx i j k jj ≤ 0 ∧ j ≤ jj
        · right
          rw [if_pos hc, if_pos hc, neg_mul]
          exact m.mulSub_eq hs _ _ _
        · left
          rw [if_neg hc, if_neg hc, zero_mul]
          exact ⟨rfl, rfl⟩

/-! ### The pole -/

theorem roundBits_eq {p : ℕ} {x : ℝ} (L n : ℤ) (h1 : (2 : ℝ) ^ L ≤ x) (h2 : x < (2 : ℝ) ^ (L + 1))
    (h3 : (n : ℝ) - 1 / 2 ≤ x / (2 : ℝ) ^ (L - p)) (h4 : x / (2 : ℝ) ^ (L - p) < (n : ℝ) + 1 / 2) :
    roundBits p x = (n : ℝ) * (2 : ℝ) ^ (L - p) := by
  have hx : 0 < x := lt_of_lt_of_le (zpow_pos (by norm_num) _) h1
  have hl : Int.log 2 |x| = L := by
    rw [abs_of_pos hx]
    apply le_antisymm
    · have := (Int.lt_zpow_iff_log_lt (R := ℝ) (b := 2) (by norm_num) (x := L + 1) hx).1 (by exact_mod_cast h2)
      omega
    · exact (Int.zpow_le_iff_le_log (R := ℝ) (b := 2) (by norm_num) (x := L) hx).1 (by exact_mod_cast h1)
  have hf : ⌊x / (2 : ℝ) ^ (L - (p : ℤ)) + 1 / 2⌋ = n := Int.floor_eq_iff.2 ⟨by linarith, by linarith⟩
  unfold roundBits
  rw [hl, round_eq, hf]

theorem single_pi (b : Bool) : (Machine.single b).piFl = 13176795 / 4194304 := by
  have h1 := pi_gt_d20
  have h2 := pi_lt_d20
  show roundBits 23 π = _
  have e : (2 : ℝ) ^ ((1 : ℤ) - (23 : ℕ)) = 1 / 4194304 := by norm_num
  rw [roundBits_eq 1 13176795 (by norm_num; linarith) (by norm_num; linarith) (by rw [e]; linarith) (by rw [e]; linarith), e]
  norm_num

/-- Grids of one degree and of one and a half degrees: the computed latitude of the pole is larger than `π/2`. -/
theorem single_pole (b : Bool) (hg : I.nd = 91 ∧ I.jmax = 181 ∨ I.nd = 61 ∧ I.jmax = 121) :
    I.phiFl (Machine.single b) I.nd = 13176795 / 8388608 := by
  have e6 : (2 : ℝ) ^ ((-6 : ℤ) - (23 : ℕ)) = 1 / 536870912 := by norm_num
  have e0 : (2 : ℝ) ^ ((0 : ℤ) - (23 : ℕ)) = 1 / 8388608 := by norm_num
  rcases hg with ⟨h1, h2⟩ | ⟨h1, h2⟩
  · have hd : I.dpFl (Machine.single b) = 9370165 / 536870912 := by
      unfold dpFl
      rw [single_pi, h2]
      show roundBits 23 _ = _
      rw [roundBits_eq (-6) 9370165 (by norm_num) (by norm_num) (by rw [e6]; norm_num) (by rw [e6]; norm_num), e6]
      norm_num
    unfold phiFl
    rw [hd, h1]
    show roundBits 23 _ = _
    rw [roundBits_eq 0 13176795 (by norm_num) (by norm_num) (by rw [e0]; norm_num) (by rw [e0]; norm_num), e0]
    norm_num
  · have hd : I.dpFl (Machine.single b) = 14055248 / 536870912 := by
      unfold dpFl
      rw [single_pi, h2]
      show roundBits 23 _ = _
      rw [roundBits_eq (-6) 14055248 (by norm_num) (by norm_num) (by rw [e6]; norm_num) (by rw [e6]; norm_num), e6]
      norm_num
    unfold phiFl
    rw [hd, h1]
    show roundBits 23 _ = _
    rw [roundBits_eq 0 13176795 (by norm_num) (by norm_num) (by rw [e0]; norm_num) (by rw [e0]; norm_num), e0]
    norm_num

/-- C133. On these grids the weight of the pole is negative in single precision. -/
theorem C133_pole_weight (b : Bool) (h : I.Sized) (hg : I.nd = 91 ∧ I.jmax = 181 ∨ I.nd = 61 ∧ I.jmax = 121) :
    I.aaFl (Machine.single b) I.nd < 0 := by
  refine h.aaFl_neg (Machine.single_standard b) ?_
  rw [single_pole b hg]
  have h1 := pi_gt_d20
  have h2 := pi_lt_d20
  exact cos_neg_of_pi_div_two_lt_of_lt (by linarith) (by linarith)

/-- C133. Where the weight of the pole is negative and only the pole is displaced, the wave activity is negative on that level. -/
theorem C133_negative (h : I.Sized) (hs : m.Standard u) (hw : I.aaFl m I.nd < 0) {i j k : ℤ} (hj : j ≤ I.nd)
    (hrow : ∀ jj, 1 ≤ jj → jj < I.nd → rd3 I.jmax I.pv i (jj + I.nd - 1) k = rd2 I.nd I.qref j k)
    (hpole : rd3 I.jmax I.pv i (2 * I.nd - 1) k < rd2 I.nd I.qref j k) :
    (I.accFl m i j k).1 = 0 ∧ (I.accFl m i j k).2 < 0 ∧ I.lwaFl m i j k < 0 := by
  have hz : ∀ jj, 1 ≤ jj → jj < I.nd → I.qeEx i j k jj = 0 := fun jj h1 h2 => by
    unfold qeEx; rw [hrow jj h1 h2, sub_self]
  have hp : I.qeEx i j k I.nd < 0 := by
    unfold qeEx
    rw [show I.nd + I.nd - 1 = 2 * I.nd - 1 by ring]
    linarith
  have hbefore : doLoop 1 (I.nd - 1) (I.accStepFl m i j k) (0, 0) = (0, 0) := by
    refine doLoop_inv (fun s : ℝ × ℝ => s = (0, 0)) rfl fun jj s h1 h2 hi => ?_
    subst hi
    have hq := hz jj h1 (by omega)
    have hq' : I.qeFl m i j k jj = 0 := by unfold qeFl; rw [hq]; exact m.fl_zero hs
    refine Prod.ext ?_ ?_
    · rw [accFl_fst_step hs, if_neg (by rw [hq]; simp)]
    · rw [accFl_snd_step hs, hq', hq]
      have : m.mulSub 0 0 (I.aaFl m jj) = 0 := by
        unfold Machine.mulSub
        rw [zero_mul, m.fl_zero hs, sub_zero, m.fl_zero hs, ite_self]
      split_ifs
      · exact this
      · rfl
  have e1 : (I.accFl m i j k).1 = 0 := by
    rw [accFl_last h, accFl_fst_step hs, hbefore, if_neg (by linarith [·.1])]
  have e2 : (I.accFl m i j k).2 < 0 := by
    rw [accFl_last h, accFl_snd_step hs, hbefore, if_pos ⟨hp.le, hj⟩]
    have hpos : 0 < I.qeFl m i j k I.nd * I.aaFl m I.nd := mul_pos_of_neg_of_neg (m.fl_neg hs hp) hw
    unfold Machine.mulSub
    split_ifs
    · exact m.fl_neg hs (by linarith)
    · exact m.fl_neg hs (by linarith [m.fl_pos hs hpos])
  refine ⟨e1, e2, m.fl_neg hs ?_⟩
  rw [e1]; linarith

/-- C133. So is the column average. -/
theorem C133_negative_column (h : I.Sized) (hs : m.Standard u) (hw : I.aaFl m I.nd < 0) {i j : ℤ} (hj : j ≤ I.nd)
    (hk : 3 ≤ I.kmax) (hdz : 0 < I.dz) (hpf : 0 < I.prefac)
    (hrow : ∀ k jj, 1 ≤ jj → jj < I.nd → rd3 I.jmax I.pv i (jj + I.nd - 1) k = rd2 I.nd I.qref j k)
    (hpole : ∀ k, rd3 I.jmax I.pv i (2 * I.nd - 1) k < rd2 I.nd I.qref j k) : I.columnFl m i j < 0 := by
  have step : ∀ k s, s ≤ 0 → I.columnStepFl m i j k s < 0 := by
    intro k s hs0
    have hl := (C133_negative h hs hw hj (hrow k) (hpole k)).2.2
    have he : ∀ x, 0 < m.expFl x := fun x => by
      have := (abs_le.1 (hs.expRel x)).1
      nlinarith [exp_pos x, hs.small]
    have h1 : m.fl (I.lwaFl m i j k * m.expFl (m.fl (m.fl (-(m.fl (I.dz * ((k - 1 : ℤ) : ℝ)))) / I.h))) < 0 :=
      m.fl_neg hs (mul_neg_of_neg_of_pos hl (he _))
    have h2 : 0 < m.fl (I.dz / I.prefac) := m.fl_pos hs (div_pos hdz hpf)
    have h3 := mul_neg_of_neg_of_pos h1 h2
    unfold columnStepFl Machine.mulAdd
    split_ifs
    · exact m.fl_neg hs (by linarith)
    · exact m.fl_neg hs (by linarith [m.fl_neg hs h3])
  unfold columnFl
  have := doLoop_induct (lo := 2) (f := I.columnStepFl m i j) (s := 0) (fun hi s => s ≤ 0 ∧ (2 ≤ hi → s < 0))
    ⟨le_rfl, fun h => absurd h (by norm_num)⟩ (fun k s _ hi => ⟨(step k s hi.1).le, fun _ => step k s hi.1⟩) (I.kmax - 1) (by omega)
  exact this.2 (by omega)

/-- One-degree grid, eddy only at the pole. -/
def poleSample : LwaIn where
  imax := 360
  jmax := 181
  kmax := 49
  nd := 91
  jb := 5
  pv := fun _ j _ => if j = 181 then -1 else 0
  uu := fun _ _ _ => 0
  qref := fun _ _ => 0
  a := 6378000
  dz := 1000
  h := 7000
  prefac := 6500

theorem poleSample_sized : poleSample.Sized := ⟨rfl, by decide, by decide, by norm_num [poleSample]⟩

theorem poleSample_rows (k jj : ℤ) (h1 : 1 ≤ jj) (h2 : jj < poleSample.nd) :
    rd3 poleSample.jmax poleSample.pv 1 (jj + poleSample.nd - 1) k = rd2 poleSample.nd poleSample.qref 90 k := by
  have h3 : jj < 91 := h2
  show rd3 181 (fun _ j _ => if j = 181 then (-1 : ℝ) else 0) 1 (jj + 91 - 1) k = 0
  rw [rd3_of_mem (by omega) (by omega), if_neg (by omega)]

theorem poleSample_pole (k : ℤ) : rd3 poleSample.jmax poleSample.pv 1 (2 * poleSample.nd - 1) k < rd2 poleSample.nd poleSample.qref 90 k := by
  show rd3 181 (fun _ j _ => if j = 181 then (-1 : ℝ) else 0) 1 (2 * 91 - 1) k < 0
  rw [rd3_of_mem (by norm_num) (by norm_num), if_pos (by norm_num)]
  norm_num

/-- C133 does not hold. -/
theorem C133_refuted : ¬ C133_Statement := by
  intro hst
  have hs := Machine.single_standard false
  have hw := C133_pole_weight false poleSample_sized (Or.inl ⟨rfl, rfl⟩)
  have h1 := (hst false poleSample poleSample_sized 1 90 2 (by unfold InRange; decide)).2
  have h2 := (C133_negative poleSample_sized hs hw (j := 90) (i := 1) (k := 2) (by decide) (poleSample_rows 2)
    (poleSample_pole 2)).2.1
  linarith

/-- Hypotheses of C133: single precision on this grid; the column average is negative, too. -/
example : poleSample.Sized ∧ (Machine.single true).Standard ((1 / 2) ^ 24) ∧
    (1 + (1 / 2 : ℝ) ^ 24) ^ 3 * ((poleSample.nd - 2 : ℤ) : ℝ) < ((poleSample.nd - 1 : ℤ) : ℝ) ∧
    poleSample.columnFl (Machine.single true) 1 90 < 0 := by
  refine ⟨poleSample_sized, Machine.single_standard true, by norm_num [poleSample], ?_⟩
  exact C133_negative_column poleSample_sized (Machine.single_standard true)
    (C133_pole_weight true poleSample_sized (Or.inl ⟨rfl, rfl⟩)) (by decide) (by decide) (by norm_num [poleSample])
    (by norm_num [poleSample]) poleSample_rows poleSample_pole

/-- The factor of `C133_error_partial` for 91 rows. -/
example : (1 + (1 / 2 : ℝ) ^ 24) ^ (91 + 7) - 1 + ((1 + (1 / 2 : ℝ) ^ 24) ^ 3 - 1) * (π / 2) < 7 / 10 ^ 6 := by
  have h2 := pi_lt_d2
  have h3 : (1 + (1 / 2 : ℝ) ^ 24) ^ (91 + 7) - 1 + ((1 + (1 / 2 : ℝ) ^ 24) ^ 3 - 1) * (3.15 / 2) < 7 / 10 ^ 6 := by norm_num
  have h4 : (0 : ℝ) ≤ (1 + (1 / 2 : ℝ) ^ 24) ^ 3 - 1 := by norm_num
  nlinarith

end LwaIn

end Falwa
