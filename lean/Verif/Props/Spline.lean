import Verif.Model.Spline
import Verif.Props.Construct
import Verif.Props.Heating
import Mathlib.LinearAlgebra.Lagrange
import Mathlib.Analysis.InnerProductSpace.Projection.Minimal
import Mathlib.Analysis.InnerProductSpace.PiL2
import Mathlib.RingTheory.Polynomial.Basic

/-!
# The mean profile is a smoothing spline (C125)
-/

noncomputable section

namespace Falwa

open Finset Polynomial

/-! ### Least squares cubics -/

theorem sqResidual_nonneg (n : ℕ) (x y : ℕ → ℝ) (f : ℝ → ℝ) : 0 ≤ sqResidual n x y f := sum_nonneg fun _ _ => sq_nonneg _

/-- A cubic is known by its values at four nodes. -/
theorem cubic_ext {n : ℕ} {x : ℕ → ℝ} (hn : 4 ≤ n) (hx : Ascending n x) {p q : ℝ[X]} (hp : p.natDegree ≤ 3) (hq : q.natDegree ≤ 3)
    (h : ∀ i, i < n → p.eval (x i) = q.eval (x i)) : p = q := by
  have inj : Set.InjOn x (range 4) := by
    intro i hi j hj e
    have hi' : i < n := lt_of_lt_of_le (mem_range.1 hi) hn
    have hj' : j < n := lt_of_lt_of_le (mem_range.1 hj) hn
    rcases lt_trichotomy i j with c | c | c
    · exact absurd e (hx i j c hj').ne
    · exact c
    · exact absurd e (hx j i c hi').ne'
  have dp : ∀ r : ℝ[X], r.natDegree ≤ 3 → r.degree < (range 4).card := by
    intro r hr
    rw [card_range]
    exact lt_of_le_of_lt degree_le_natDegree (by exact_mod_cast (by omega : r.natDegree < 4))
  exact eq_of_degrees_lt_of_eval_index_eq (range 4) inj (dp p hp) (dp q hq)
    fun i hi => h i (lt_of_lt_of_le (mem_range.1 hi) hn)

/-- There is one least squares cubic only. -/
theorem BestCubic.unique {n : ℕ} {x y : ℕ → ℝ} (hn : 4 ≤ n) (hx : Ascending n x) {p q : ℝ[X]} (hp : BestCubic n x y p)
    (hq : BestCubic n x y q) : p = q := by
  have e : sqResidual n x y p.eval = sqResidual n x y q.eval := le_antisymm (hp.best q hq.degree) (hq.best p hp.degree)
  have hm : (C (1 / 2 : ℝ) * (p + q)).natDegree ≤ 3 :=
    (natDegree_C_mul_le _ _).trans ((natDegree_add_le _ _).trans (max_le hp.degree hq.degree))
  have hb := hp.best _ hm
  have key : sqResidual n x y (C (1 / 2 : ℝ) * (p + q)).eval = (sqResidual n x y p.eval + sqResidual n x y q.eval) / 2 -
      (∑ i ∈ range n, (p.eval (x i) - q.eval (x i)) ^ 2) / 4 := by
    unfold sqResidual
    rw [← sum_add_distrib, sum_div, sum_div, ← sum_sub_distrib]
    refine sum_congr rfl fun i _ => ?_
    beta_reduce
    rw [eval_mul, eval_C, eval_add]
    ring
  have hs : ∑ i ∈ range n, (p.eval (x i) - q.eval (x i)) ^ 2 = 0 := by
    refine le_antisymm ?_ (sum_nonneg fun _ _ => sq_nonneg _)
    linarith
  refine cubic_ext hn hx hp.degree hq.degree fun i hi => ?_
  have := (sum_eq_zero_iff_of_nonneg fun _ _ => sq_nonneg _).1 hs i (mem_range.2 hi)
  exact sub_eq_zero.1 (pow_eq_zero_iff (two_ne_zero)|>.1 this)

/-- There is a least squares cubic. -/
theorem BestCubic.exists (n : ℕ) (x y : ℕ → ℝ) : ∃ p, BestCubic n x y p := by
  let ev : degreeLT ℝ 4 →ₗ[ℝ] EuclideanSpace ℝ (Fin n) :=
    { toFun := fun p => WithLp.toLp 2 fun i : Fin n => (p : ℝ[X]).eval (x i)
      map_add' := fun p q => by ext i; simp
      map_smul' := fun c p => by ext i; simp }
  let u : EuclideanSpace ℝ (Fin n) := WithLp.toLp 2 fun i : Fin n => y i
  have hnorm : ∀ p : degreeLT ℝ 4, ‖u - ev p‖ ^ 2 = sqResidual n x y (p : ℝ[X]).eval := by
    intro p
    rw [EuclideanSpace.norm_sq_eq]
    unfold sqResidual
    rw [← Fin.sum_univ_eq_sum_range (fun i => (y i - (p : ℝ[X]).eval (x i)) ^ 2) n]
    refine sum_congr rfl fun i _ => ?_
    rw [Real.norm_eq_abs, sq_abs]
    rfl
  obtain ⟨v, ⟨p, rfl⟩, hv⟩ := (LinearMap.range ev).exists_norm_eq_iInf_of_complete_subspace
    (Submodule.complete_of_finiteDimensional _) u
  have hdeg : ∀ q : ℝ[X], q ∈ degreeLT ℝ 4 ↔ q.natDegree ≤ 3 := by
    intro q
    rw [mem_degreeLT]
    constructor
    · intro h
      by_cases c : q = 0
      · rw [c]; simp
      · have := (natDegree_lt_iff_degree_lt c).2 h
        omega
    · intro h
      exact lt_of_le_of_lt degree_le_natDegree (by exact_mod_cast (by omega : q.natDegree < 4))
  refine ⟨p, (hdeg _).1 p.2, fun q hq => ?_⟩
  rw [← hnorm p, ← hnorm ⟨q, (hdeg q).2 hq⟩]
  have hle : ‖u - ev p‖ ≤ ‖u - ev ⟨q, (hdeg q).2 hq⟩‖ := by
    rw [hv]
    exact ciInf_le (⟨0, by rintro _ ⟨w, rfl⟩; exact norm_nonneg _⟩ : BddBelow (Set.range fun w : LinearMap.range ev => ‖u - w‖))
      (⟨ev ⟨q, (hdeg q).2 hq⟩, ⟨_, rfl⟩⟩ : LinearMap.range ev)
  exact pow_le_pow_left₀ (norm_nonneg _) hle 2

/-- Values on a cubic: that cubic is the best one. -/
theorem BestCubic.exact {n : ℕ} {x y : ℕ → ℝ} {p : ℝ[X]} (hp : p.natDegree ≤ 3) (h : ∀ i, i < n → y i = p.eval (x i)) :
    BestCubic n x y p ∧ sqResidual n x y p.eval = 0 := by
  have h0 : sqResidual n x y p.eval = 0 := sum_eq_zero fun i hi => by rw [h i (mem_range.1 hi)]; ring
  exact ⟨⟨hp, fun q _ => by rw [h0]; exact sqResidual_nonneg _ _ _ _⟩, h0⟩

/-! ### The contract can be met -/

open Classical in
/-- The least squares cubic if it is close enough, the interpolating polynomial otherwise. -/
def someSpline (n : ℕ) (x y : ℕ → ℝ) : ℝ[X] :=
  if h : ∃ p, BestCubic n x y p ∧ sqResidual n x y p.eval ≤ n then h.choose else Lagrange.interpolate (range n) x y

theorem someSpline_contract : SmoothingSpline (fun n x y t => (someSpline n x y).eval t)
    (fun n x y t => (someSpline n x y).derivative.eval t) where
  cubic := by
    intro n x y p hn hx hp hr t
    have h : ∃ p, BestCubic n x y p ∧ sqResidual n x y p.eval ≤ n := ⟨p, hp, hr⟩
    have e : someSpline n x y = p := by
      unfold someSpline
      rw [dif_pos h]
      exact BestCubic.unique hn hx h.choose_spec.1 hp
    rw [e]
    exact ⟨rfl, rfl⟩
  close := by
    intro n x y hn hx
    have hn0 : (0 : ℝ) ≤ n := Nat.cast_nonneg n
    by_cases h : ∃ p, BestCubic n x y p ∧ sqResidual n x y p.eval ≤ n
    · have e : someSpline n x y = h.choose := by
        unfold someSpline
        rw [dif_pos h]
      have := h.choose_spec.2
      rw [← e] at this
      change sqResidual n x y (someSpline n x y).eval ≤ _
      linarith
    · have e : someSpline n x y = Lagrange.interpolate (range n) x y := by
        unfold someSpline
        rw [dif_neg h]
      have inj : Set.InjOn x (range n) := by
        intro i hi j hj e
        have hi' : i < n := mem_range.1 hi
        have hj' : j < n := mem_range.1 hj
        rcases lt_trichotomy i j with c | c | c
        · exact absurd e (hx i j c hj').ne
        · exact c
        · exact absurd e (hx j i c hi').ne'
      have h0 : sqResidual n x y (someSpline n x y).eval = 0 := by
        rw [e]
        exact sum_eq_zero fun i hi => by beta_reduce; rw [Lagrange.eval_interpolate_at_node y inj hi]; ring
      change sqResidual n x y (someSpline n x y).eval ≤ _
      rw [h0]
      positivity

/-! ### C125 -/

namespace QGArgs

/-- The mean profile of a hemisphere on the levels of the data: `capMean` of the analysis. Indices from 0. -/
def levelMean (A : Atmos) (north : Bool) (l : ℕ) : ℝ := A.capMean north ((l : ℤ) + 1)

/-- The profile used by the analysis. -/
def profileOf (A : Atmos) (north : Bool) (k : ℤ) : ℝ := if north then A.tn0 k else A.ts0 k

/-- Its slope, the static stability. -/
def stabilityOf (A : Atmos) (north : Bool) (k : ℤ) : ℝ := if north then A.statN k else A.statS k

/-- An accepted call with at least four levels, in ascending order, and a spline that keeps its contract. -/
structure Splined (x : QGArgs) (A : Atmos) : Prop where
  accepted : x.construct = .ok A
  levels : 4 ≤ x.nlev
  ascending : Ascending x.nlev x.zlev
  spline : SmoothingSpline x.spline x.splineDeriv

variable {x : QGArgs} {A : Atmos}

theorem Splined.grid (h : x.Splined A) : ∃ g, A = x.atmos g := by
  have := h.accepted
  unfold construct at this
  cases hc : x.check with
  | error e => rw [hc] at this; cases this
  | ok g =>
    rw [hc] at this
    exact ⟨g, (Except.ok.inj this).symm⟩

theorem Splined.profile (h : x.Splined A) (north : Bool) (k : ℤ) :
    profileOf A north k = x.spline x.nlev x.zlev (levelMean A north) (x.height (k - 1).toNat) ∧
    stabilityOf A north k = x.splineDeriv x.nlev x.zlev (levelMean A north) (x.height (k - 1).toNat) := by
  obtain ⟨g, rfl⟩ := h.grid
  cases north <;> exact ⟨rfl, rfl⟩

/-- C125, as documented ("global potential temperature mean per pressure level", "interpolation function"): where a level of the analysis
is a level of the data, the profile used has the mean of that level. -/
def C125_Statement : Prop :=
  ∀ (x : QGArgs) (A : Atmos), x.Splined A → ∀ (north : Bool) (k l : ℕ), l < x.nlev → k < x.kmaxUsed → x.height k = x.zlev l →
    profileOf A north ((k : ℤ) + 1) = levelMean A north l

/-- C125: true if the level means lie on a cubic in height; the static stability is then its exact derivative. -/
theorem C125_cubic_partial (h : x.Splined A) (north : Bool) (p : ℝ[X]) (hp : p.natDegree ≤ 3)
    (hm : ∀ l, l < x.nlev → levelMean A north l = p.eval (x.zlev l)) (k : ℕ) :
    profileOf A north ((k : ℤ) + 1) = p.eval (x.height k) ∧ stabilityOf A north ((k : ℤ) + 1) = p.derivative.eval (x.height k) := by
  obtain ⟨e1, e2⟩ := h.profile north ((k : ℤ) + 1)
  obtain ⟨hb, h0⟩ := BestCubic.exact hp hm
  rw [e1, e2, show ((k : ℤ) + 1 - 1).toNat = k by omega]
  exact h.spline.cubic _ _ _ p h.levels h.ascending hb (by rw [h0]; exact Nat.cast_nonneg _) _

/-- C125: level means that stay within one kelvin of some cubic are replaced by one cubic; nothing else of them is used. -/
theorem C125_smoothed (h : x.Splined A) (north : Bool) (q : ℝ[X]) (hq : q.natDegree ≤ 3)
    (hm : ∀ l, l < x.nlev → |levelMean A north l - q.eval (x.zlev l)| ≤ 1) :
    ∃ p : ℝ[X], BestCubic x.nlev x.zlev (levelMean A north) p ∧ ∀ k : ℕ,
      profileOf A north ((k : ℤ) + 1) = p.eval (x.height k) ∧ stabilityOf A north ((k : ℤ) + 1) = p.derivative.eval (x.height k) := by
  obtain ⟨p, hp⟩ := BestCubic.exists x.nlev x.zlev (levelMean A north)
  refine ⟨p, hp, fun k => ?_⟩
  obtain ⟨e1, e2⟩ := h.profile north ((k : ℤ) + 1)
  rw [e1, e2, show ((k : ℤ) + 1 - 1).toNat = k by omega]
  refine h.spline.cubic _ _ _ p h.levels h.ascending hp ((hp.best q hq).trans ?_) _
  have : sqResidual x.nlev x.zlev (levelMean A north) q.eval ≤ ∑ _i ∈ range x.nlev, (1 : ℝ) := by
    refine sum_le_sum fun i hi => ?_
    rw [← sq_abs]
    exact pow_le_one₀ (abs_nonneg _) (hm i (mem_range.1 hi))
  rwa [sum_const, card_range, nsmul_eq_mul, mul_one] at this

/-- C125: the profile may miss the mean of a level, but by less than the root of the number of levels (and half a per mille). -/
theorem C125_close_partial (h : x.Splined A) (north : Bool) (k l : ℕ) (hl : l < x.nlev) (e : x.height k = x.zlev l) :
    (profileOf A north ((k : ℤ) + 1) - levelMean A north l) ^ 2 ≤ 1001 / 1000 * x.nlev := by
  obtain ⟨e1, _⟩ := h.profile north ((k : ℤ) + 1)
  rw [e1, show ((k : ℤ) + 1 - 1).toNat = k by omega, e]
  refine le_trans ?_ (h.spline.close x.nlev x.zlev (levelMean A north) h.levels h.ascending)
  unfold sqResidual
  refine le_trans (le_of_eq (by ring)) (single_le_sum
    (f := fun i => (levelMean A north i - x.spline x.nlev x.zlev (levelMean A north) (x.zlev i)) ^ 2)
    (fun i _ => sq_nonneg _) (mem_range.2 hl))

/-! ### The witness -/

/-- Fourth differences. -/
def bump (l : ℕ) : ℝ := if l = 0 then 1 else if l = 1 then -4 else if l = 2 then 6 else if l = 3 then -4 else if l = 4 then 1 else 0

/-- Five levels 7 km apart, the same for the analysis; potential temperature `300 + 10 l + c bump` on level `l`, everywhere. -/
def bumpy (c : ℝ) (S S' : ℕ → (ℕ → ℝ) → (ℕ → ℝ) → ℝ → ℝ) : QGArgs :=
  { shaped [5, 5, 4] [5, 5, 4] [5, 5, 4] with
    nlev := 5
    dz := 7000
    t := fun l _ _ => (300 + 10 * l + c * bump l) * Real.exp (-(287 / 1004 * (7000 * l) / 7000))
    spline := S
    splineDeriv := S' }

variable (c : ℝ) (S S' : ℕ → (ℕ → ℝ) → (ℕ → ℝ) → ℝ → ℝ)

theorem bumpy_zlev (l : ℕ) : (bumpy c S S').zlev l = 7000 * l := shaped_zlev [] [] [] l

theorem bumpy_height (k : ℕ) (hk : k < 5) : (bumpy c S S').height k = 7000 * k := by
  have : (bumpy c S S').height k = k * 7000 := if_pos hk
  rw [this, mul_comm]

theorem bumpy_construct : ∃ A, (bumpy c S S').construct = .ok A := by
  refine (C122_accepted_partial (bumpy c S S') { vertical := ?_, latitude := shaped_latitude }).2 ⟨rfl, rfl, Or.inl rfl⟩
  have hc : checkPlev 5 (fun l : ℕ => 1000 * Real.exp (-(l : ℝ))) 7000 5 7000 = .ok := by
    have hz := bumpy_zlev c S S' 4
    unfold zlev bumpy shaped at hz
    unfold checkPlev
    rw [if_neg, if_neg]
    · unfold plevTop
      beta_reduce
      rw [show (5 - 1 : ℕ) = 4 from rfl, hz]
      norm_num
    · have : Real.exp (-((1 : ℕ) : ℝ)) ≤ Real.exp (-((0 : ℕ) : ℝ)) := Real.exp_le_exp.2 (by norm_num)
      beta_reduce
      linarith
  unfold checkVertical
  rw [if_neg (by show ¬ 5 < 2; norm_num), if_neg (by show ¬ false = true; simp)]
  change (match checkPlev 5 (fun l : ℕ => 1000 * Real.exp (-(l : ℝ))) 7000 5 7000 with
    | .ok => Except.ok ()
    | .typeError => Except.error PyError.typeError
    | .valueError _ => Except.error PyError.valueError) = _
  rw [hc]

theorem bumpy_splined (h : SmoothingSpline S S') (A : Atmos) (hA : (bumpy c S S').construct = .ok A) : (bumpy c S S').Splined A where
  accepted := hA
  levels := by show 4 ≤ 5; norm_num
  ascending := fun i j hij _ => by
    rw [bumpy_zlev, bumpy_zlev]
    have : (i : ℝ) < j := by exact_mod_cast hij
    linarith
  spline := h

theorem bumpy_mean (A : Atmos) (hA : (bumpy c S S').construct = .ok A) (north : Bool) (l : ℕ) :
    levelMean A north l = 300 + 10 * l + c * bump l := by
  have hg : A = (bumpy c S S').atmos
      { needInterp := false, nlat := 5, ylat := fun j : ℕ => (45 * j - 90 : ℝ), equatorIdx := 3 } := by
    unfold construct at hA
    cases hc : (bumpy c S S').check with
    | error e => rw [hc] at hA; cases hA
    | ok g =>
      rw [hc] at hA
      have e1 : A = (bumpy c S S').atmos g := (Except.ok.inj hA).symm
      rw [e1]
      congr 1
      unfold check at hc
      rw [show checkYlat (bumpy c S S').nlat (bumpy c S S').ylat = _ from shaped_grid] at hc
      cases hv : (bumpy c S S').checkVertical with
      | error e => rw [hv] at hc; cases hc
      | ok u =>
        rw [hv] at hc
        exact (Except.ok.inj hc).symm
  subst hg
  have e := Atmos.C96_uniform (A := (bumpy c S S').atmos
      { needInterp := false, nlat := 5, ylat := fun j : ℕ => (45 * j - 90 : ℝ), equatorIdx := 3 })
    (by show (5 : ℤ) = 2 * (5 / 2 + 5 % 2) - 1; norm_num) (show (0 : ℤ) ≤ ((0 : ℕ) : ℤ) by norm_num)
    (by show (2 : ℤ) ≤ 5 / 2 + 5 % 2 - ((0 : ℕ) : ℤ); norm_num) (show (0 : ℤ) < ((4 : ℕ) : ℤ) by norm_num) north ((l : ℤ) + 1)
    (300 + 10 * l + c * bump l) (by
      intro i g _ _ _
      show (300 + 10 * ((((l : ℤ) + 1 - 1).toNat : ℕ) : ℝ) + c * bump ((l : ℤ) + 1 - 1).toNat) *
        Real.exp (-(287 / 1004 * (7000 * ((((l : ℤ) + 1 - 1).toNat : ℕ) : ℝ)) / 7000)) *
        Real.exp (287 / 1004 * (bumpy c S S').zlev ((l : ℤ) + 1 - 1).toNat / 7000) = _
      rw [bumpy_zlev, mul_assoc, ← Real.exp_add, neg_add_cancel, Real.exp_zero, mul_one, show ((l : ℤ) + 1 - 1).toNat = l by omega])
  exact e

/-- The fourth difference of a cubic vanishes. -/
theorem fourth_difference (p : ℝ[X]) (hp : p.natDegree ≤ 3) (d : ℝ) :
    p.eval 0 - 4 * p.eval d + 6 * p.eval (2 * d) - 4 * p.eval (3 * d) + p.eval (4 * d) = 0 := by
  have e : ∀ t, p.eval t = ∑ i ∈ range 4, p.coeff i * t ^ i := fun t => eval_eq_sum_range' (by omega) t
  simp only [e, sum_range_succ, sum_range_zero]
  ring

/-- The line below the bumps is the least squares cubic. -/
theorem bumpy_best (A : Atmos) (hA : (bumpy c S S').construct = .ok A) (north : Bool) :
    BestCubic 5 (bumpy c S S').zlev (levelMean A north) (C 300 + C (1 / 700) * X) ∧
    sqResidual 5 (bumpy c S S').zlev (levelMean A north) (C 300 + C (1 / 700) * X : ℝ[X]).eval = 70 * c ^ 2 := by
  have hd : (C 300 + C (1 / 700) * X : ℝ[X]).natDegree ≤ 3 := by
    refine (natDegree_add_le _ _).trans (max_le ?_ ?_)
    · rw [natDegree_C]; norm_num
    · exact (natDegree_C_mul_le _ _).trans (by rw [natDegree_X]; norm_num)
  have hr : sqResidual 5 (bumpy c S S').zlev (levelMean A north) (C 300 + C (1 / 700) * X : ℝ[X]).eval = 70 * c ^ 2 := by
    unfold sqResidual
    simp only [sum_range_succ, sum_range_zero, bumpy_mean c S S' A hA, bumpy_zlev, bump, eval_add, eval_mul, eval_C, eval_X]
    norm_num
    ring
  refine ⟨⟨hd, fun q hq => ?_⟩, hr⟩
  rw [hr]
  have h4 := fourth_difference q hq 7000
  unfold sqResidual
  simp only [sum_range_succ, sum_range_zero, bumpy_mean c S S' A hA, bumpy_zlev, bump]
  norm_num at h4 ⊢
  generalize q.eval 0 = r0 at h4 ⊢
  generalize q.eval 7000 = r1 at h4 ⊢
  generalize q.eval 14000 = r2 at h4 ⊢
  generalize q.eval 21000 = r3 at h4 ⊢
  generalize q.eval 28000 = r4 at h4 ⊢
  have h5 : c * (r0 - 4 * r1 + 6 * r2 - 4 * r3 + r4) = 0 := by rw [h4, mul_zero]
  nlinarith [sq_nonneg (300 - r0), sq_nonneg (310 - r1), sq_nonneg (320 - r2), sq_nonneg (330 - r3), sq_nonneg (340 - r4)]

/-- C125: whatever spline keeps the contract, here the profile misses the mean of the middle level, for instance by a kelvin and a half
(`c = 1/4`). -/
theorem C125_missed (hc : 70 * c ^ 2 ≤ 5) (h : SmoothingSpline S S') (A : Atmos) (hA : (bumpy c S S').construct = .ok A)
    (north : Bool) : levelMean A north 2 - profileOf A north 3 = 6 * c := by
  obtain ⟨hb, hr⟩ := bumpy_best c S S' A hA north
  have hs := bumpy_splined c S S' h A hA
  obtain ⟨e1, _⟩ := hs.profile north 3
  have hc := (h.cubic 5 (bumpy c S S').zlev (levelMean A north) _ (by norm_num) hs.ascending hb
    (by rw [hr]; exact_mod_cast hc) ((bumpy c S S').height ((3 : ℤ) - 1).toNat)).1
  have e2 : profileOf A north 3 = (C 300 + C (1 / 700) * X : ℝ[X]).eval ((bumpy c S S').height ((3 : ℤ) - 1).toNat) := e1.trans hc
  rw [e2, bumpy_mean c S S' A hA, show ((3 : ℤ) - 1).toNat = 2 from rfl, bumpy_height c S S' 2 (by norm_num)]
  simp only [bump, eval_add, eval_mul, eval_C, eval_X]
  norm_num
  ring

/-- C125 is violated: the profile is smoothed. -/
theorem C125_refuted : ¬ C125_Statement := by
  intro hall
  obtain ⟨A, hA⟩ := bumpy_construct (1 / 4) (fun n x y t => (someSpline n x y).eval t)
    (fun n x y t => (someSpline n x y).derivative.eval t)
  have h1 := hall _ A (bumpy_splined _ _ _ someSpline_contract A hA) true 2 2 (by show 2 < 5; norm_num) (by show 2 < 5; norm_num)
    (by rw [bumpy_height _ _ _ 2 (by norm_num), bumpy_zlev])
  have h2 := C125_missed _ _ _ (by norm_num) someSpline_contract A hA true
  have h3 : profileOf A true 3 = levelMean A true 2 := h1
  rw [h3] at h2
  norm_num at h2

/-- The hypotheses of the smoothing result can be met by a profile that is no cubic. -/
example : ∃ (x : QGArgs) (A : Atmos) (q : ℝ[X]), x.Splined A ∧ q.natDegree ≤ 3 ∧
    ∀ l, l < x.nlev → |levelMean A true l - q.eval (x.zlev l)| ≤ 1 := by
  obtain ⟨A, hA⟩ := bumpy_construct (1 / 8) (fun n x y t => (someSpline n x y).eval t)
    (fun n x y t => (someSpline n x y).derivative.eval t)
  refine ⟨_, A, C 300 + C (1 / 700) * X, bumpy_splined _ _ _ someSpline_contract A hA, (bumpy_best _ _ _ A hA true).1.degree, ?_⟩
  intro l hl
  have hl' : l < 5 := hl
  rw [bumpy_mean _ _ _ A hA, bumpy_zlev]
  simp only [eval_add, eval_mul, eval_C, eval_X]
  interval_cases l <;> norm_num [bump, abs_le]

/-- Those of the exact result, by an atmosphere whose potential temperature increases by 10 K per level. -/
example : ∃ (x : QGArgs) (A : Atmos) (p : ℝ[X]), x.Splined A ∧ p.natDegree ≤ 3 ∧ ∀ l, l < x.nlev → levelMean A true l = p.eval (x.zlev l) := by
  obtain ⟨A, hA⟩ := bumpy_construct 0 (fun n x y t => (someSpline n x y).eval t) (fun n x y t => (someSpline n x y).derivative.eval t)
  refine ⟨_, A, C 300 + C (1 / 700) * X, bumpy_splined _ _ _ someSpline_contract A hA, (bumpy_best _ _ _ A hA true).1.degree, ?_⟩
  intro l _
  rw [bumpy_mean _ _ _ A hA, bumpy_zlev]
  simp only [eval_add, eval_mul, eval_C, eval_X]
  ring

end QGArgs

end Falwa
