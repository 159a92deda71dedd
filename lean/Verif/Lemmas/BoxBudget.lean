import Verif.Lemmas.PositivePart
import Verif.Spec.Dynamics

/-!
# Budget of the positive part of a transported quantity in a box of time, longitude and latitude
-/

noncomputable section

namespace Falwa

open MeasureTheory Filter Set Real Spec

theorem cutSum_integrableOn {X : Type*} [TopologicalSpace X] [MeasurableSpace X] [OpensMeasurableSpace X] [T2Space X] {μ : Measure X}
    [IsFiniteMeasureOnCompacts μ] {f c d : X → ℝ} (hf : Continuous f) (hc : Continuous c) (hd : Continuous d) {K : Set X} (hK : IsCompact K) :
    IntegrableOn (fun p => (if 0 < f p then c p else 0) + d p) K μ :=
  (cut_integrableOn hf hc hK).add (hd.continuousOn.integrableOn_compact hK)

theorem cutSum_plane (l1 l2 α β : ℝ) {f c d : ℝ × ℝ → ℝ} (hf : Continuous f) (hc : Continuous c) (hd : Continuous d) :
    Integrable (fun p => (if 0 < f p then c p else 0) + d p) ((volume.restrict (Ioc l1 l2)).prod (volume.restrict (Ioc α β))) := by
  rw [Measure.prod_restrict]
  exact (cutSum_integrableOn hf hc hd (isCompact_Icc.prod isCompact_Icc)).mono_set
    (prod_mono Ioc_subset_Icc_self Ioc_subset_Icc_self)

section
variable {f c d : ℝ × ℝ × ℝ → ℝ} (hf : Continuous f) (hc : Continuous c) (hd : Continuous d) (t1 t2 l1 l2 α β : ℝ)

/-- The box of time, longitude and latitude. -/
def boxMeasure : Measure (ℝ × ℝ × ℝ) :=
  (volume.restrict (Ioc t1 t2)).prod ((volume.restrict (Ioc l1 l2)).prod (volume.restrict (Ioc α β)))

theorem boxMeasure_eq : boxMeasure t1 t2 l1 l2 α β = volume.restrict (Ioc t1 t2 ×ˢ Ioc l1 l2 ×ˢ Ioc α β) := by
  unfold boxMeasure
  rw [Measure.prod_restrict, Measure.prod_restrict]
  rfl

include hf hc hd

theorem cutSum_box : Integrable (fun p => (if 0 < f p then c p else 0) + d p) (boxMeasure t1 t2 l1 l2 α β) := by
  rw [boxMeasure_eq]
  exact (cutSum_integrableOn hf hc hd (isCompact_Icc.prod (isCompact_Icc.prod isCompact_Icc))).mono_set
    (prod_mono Ioc_subset_Icc_self (prod_mono Ioc_subset_Icc_self Ioc_subset_Icc_self))

variable (ht : t1 ≤ t2) (hl : l1 ≤ l2) (hα : α ≤ β)
include ht hl hα

theorem box_tlf : ∫ t in t1..t2, ∫ l in l1..l2, ∫ φ in α..β, ((if 0 < f (t, l, φ) then c (t, l, φ) else 0) + d (t, l, φ)) =
    ∫ p, ((if 0 < f p then c p else 0) + d p) ∂boxMeasure t1 t2 l1 l2 α β := by
  have hI := cutSum_box hf hc hd t1 t2 l1 l2 α β
  rw [boxMeasure, integral_prod _ hI, intervalIntegral.integral_of_le ht]
  refine integral_congr_ae (Eventually.of_forall fun t => ?_)
  beta_reduce
  have h2 := cutSum_plane (f := fun p => f (t, p)) (c := fun p => c (t, p)) (d := fun p => d (t, p)) l1 l2 α β
    (hf.comp (by fun_prop)) (hc.comp (by fun_prop)) (hd.comp (by fun_prop))
  rw [integral_prod _ h2, intervalIntegral.integral_of_le hl]
  simp only [intervalIntegral.integral_of_le hα]

theorem box_tfl : ∫ t in t1..t2, ∫ φ in α..β, ∫ l in l1..l2, ((if 0 < f (t, l, φ) then c (t, l, φ) else 0) + d (t, l, φ)) =
    ∫ p, ((if 0 < f p then c p else 0) + d p) ∂boxMeasure t1 t2 l1 l2 α β := by
  have hI := cutSum_box hf hc hd t1 t2 l1 l2 α β
  rw [boxMeasure, integral_prod _ hI, intervalIntegral.integral_of_le ht]
  refine integral_congr_ae (Eventually.of_forall fun t => ?_)
  beta_reduce
  have h2 := cutSum_plane (f := fun p => f (t, p)) (c := fun p => c (t, p)) (d := fun p => d (t, p)) l1 l2 α β
    (hf.comp (by fun_prop)) (hc.comp (by fun_prop)) (hd.comp (by fun_prop))
  rw [integral_prod_symm _ h2, intervalIntegral.integral_of_le hα]
  simp only [intervalIntegral.integral_of_le hl]

theorem box_lft : ∫ l in l1..l2, ∫ φ in α..β, ∫ t in t1..t2, ((if 0 < f (t, l, φ) then c (t, l, φ) else 0) + d (t, l, φ)) =
    ∫ p, ((if 0 < f p then c p else 0) + d p) ∂boxMeasure t1 t2 l1 l2 α β := by
  have hI := cutSum_box hf hc hd t1 t2 l1 l2 α β
  rw [boxMeasure] at hI ⊢
  rw [integral_prod_symm _ hI, integral_prod _ hI.integral_prod_right, intervalIntegral.integral_of_le hl]
  simp only [intervalIntegral.integral_of_le hα, intervalIntegral.integral_of_le ht]

end

section
variable {M : Motion} {a : ℝ}

theorem jointly_swap {f : ℝ → ℝ → ℝ → ℝ} (h : Jointly f) : Continuous fun p : ℝ × ℝ × ℝ => f p.1 p.2.2 p.2.1 :=
  Continuous.comp (g := fun p : ℝ × ℝ × ℝ => f p.1 p.2.1 p.2.2) h (f := fun p : ℝ × ℝ × ℝ => (p.1, p.2.2, p.2.1)) (by fun_prop)

theorem jointly_t {f : ℝ → ℝ → ℝ → ℝ} (h : Jointly f) (φ l : ℝ) : Continuous fun t => f t φ l :=
  Continuous.comp (g := fun p : ℝ × ℝ × ℝ => f p.1 p.2.1 p.2.2) h (f := fun t : ℝ => (t, φ, l)) (by fun_prop)

theorem jointly_f {f : ℝ → ℝ → ℝ → ℝ} (h : Jointly f) (t l : ℝ) : Continuous fun φ => f t φ l :=
  Continuous.comp (g := fun p : ℝ × ℝ × ℝ => f p.1 p.2.1 p.2.2) h (f := fun φ : ℝ => (t, φ, l)) (by fun_prop)

theorem jointly_l {f : ℝ → ℝ → ℝ → ℝ} (h : Jointly f) (t φ : ℝ) : Continuous fun l => f t φ l :=
  Continuous.comp (g := fun p : ℝ × ℝ × ℝ => f p.1 p.2.1 p.2.2) h (f := fun l : ℝ => (t, φ, l)) (by fun_prop)

/-- Change of the positive part of a transported quantity in a box, and what flows through its walls. -/
theorem box_budget (h : M.Obeys a) {t1 t2 l1 l2 α β : ℝ} (ht : t1 ≤ t2) (hl : l1 ≤ l2) (hα : α ≤ β) (hα0 : -(π / 2) ≤ α) (hβ0 : β ≤ π / 2) :
    (∫ l in l1..l2, ∫ φ in α..β, (max (M.q t2 φ l) 0 * (a * cos φ) - max (M.q t1 φ l) 0 * (a * cos φ))) +
      (∫ t in t1..t2, ∫ φ in α..β, (max (M.q t φ l2) 0 * M.U t φ l2 - max (M.q t φ l1) 0 * M.U t φ l1)) +
      (∫ t in t1..t2, ∫ l in l1..l2, (max (M.q t β l) 0 * (M.V t β l * cos β) - max (M.q t α l) 0 * (M.V t α l * cos α))) =
      ∫ t in t1..t2, ∫ l in l1..l2, ∫ φ in α..β, if 0 < M.q t φ l then M.S t φ l * (a * cos φ) else 0 := by
  have cq := jointly_swap h.cq
  have ccos : Continuous fun p : ℝ × ℝ × ℝ => cos p.2.2 := by fun_prop
  have c1 : Continuous fun p : ℝ × ℝ × ℝ => M.qt p.1 p.2.2 p.2.1 * (a * cos p.2.2) := (jointly_swap h.cqt).mul (continuous_const.mul ccos)
  have c2 : Continuous fun p : ℝ × ℝ × ℝ => M.ql p.1 p.2.2 p.2.1 * M.U p.1 p.2.2 p.2.1 := (jointly_swap h.cql).mul (jointly_swap h.cU)
  have c3 : Continuous fun p : ℝ × ℝ × ℝ => M.qf p.1 p.2.2 p.2.1 * (M.V p.1 p.2.2 p.2.1 * cos p.2.2) :=
    (jointly_swap h.cqf).mul ((jointly_swap h.cV).mul ccos)
  have c4 : Continuous fun p : ℝ × ℝ × ℝ => M.S p.1 p.2.2 p.2.1 * (a * cos p.2.2) := (jointly_swap h.cS).mul (continuous_const.mul ccos)
  have d1 : Continuous fun p : ℝ × ℝ × ℝ => max (M.q p.1 p.2.2 p.2.1) 0 * (0 : ℝ) := (cq.max continuous_const).mul continuous_const
  have d2 : Continuous fun p : ℝ × ℝ × ℝ => max (M.q p.1 p.2.2 p.2.1) 0 * M.Ul p.1 p.2.2 p.2.1 :=
    (cq.max continuous_const).mul (jointly_swap h.cUl)
  have d3 : Continuous fun p : ℝ × ℝ × ℝ => max (M.q p.1 p.2.2 p.2.1) 0 * M.Vf p.1 p.2.2 p.2.1 :=
    (cq.max continuous_const).mul (jointly_swap h.cVf)
  have e1 := box_lft cq c1 d1 t1 t2 l1 l2 α β ht hl hα
  have e2 := box_tfl cq c2 d2 t1 t2 l1 l2 α β ht hl hα
  have e3 := box_tlf cq c3 d3 t1 t2 l1 l2 α β ht hl hα
  have e4 := box_tlf cq c4 d1 t1 t2 l1 l2 α β ht hl hα
  have i1 := cutSum_box cq c1 d1 t1 t2 l1 l2 α β
  have i2 := cutSum_box cq c2 d2 t1 t2 l1 l2 α β
  have i3 := cutSum_box cq c3 d3 t1 t2 l1 l2 α β
  beta_reduce at e1 e2 e3 e4
  have p1 : ∀ l φ, ∫ t in t1..t2, ((if 0 < M.q t φ l then M.qt t φ l * (a * cos φ) else 0) + max (M.q t φ l) 0 * 0) =
      max (M.q t2 φ l) 0 * (a * cos φ) - max (M.q t1 φ l) 0 * (a * cos φ) := fun l φ =>
    posPart_integral (f := fun t => M.q t φ l) (g := fun _ => a * cos φ) (g' := fun _ => 0) (fun t => h.dt t φ l)
      (fun t => hasDerivAt_const t _) (jointly_t h.cqt φ l) continuous_const t1 t2
  have p2 : ∀ t φ, ∫ l in l1..l2, ((if 0 < M.q t φ l then M.ql t φ l * M.U t φ l else 0) + max (M.q t φ l) 0 * M.Ul t φ l) =
      max (M.q t φ l2) 0 * M.U t φ l2 - max (M.q t φ l1) 0 * M.U t φ l1 := fun t φ =>
    posPart_integral (f := fun l => M.q t φ l) (fun l => h.dl t φ l) (fun l => h.dU t φ l) (jointly_l h.cql t φ) (jointly_l h.cUl t φ) l1 l2
  have p3 : ∀ t l, ∫ φ in α..β, ((if 0 < M.q t φ l then M.qf t φ l * (M.V t φ l * cos φ) else 0) + max (M.q t φ l) 0 * M.Vf t φ l) =
      max (M.q t β l) 0 * (M.V t β l * cos β) - max (M.q t α l) 0 * (M.V t α l * cos α) := fun t l =>
    posPart_integral (f := fun φ => M.q t φ l) (g := fun φ => M.V t φ l * cos φ) (fun φ => h.df t φ l) (fun φ => h.dV t φ l)
      (jointly_f h.cqf t l) (jointly_f h.cVf t l) α β
  simp only [p1] at e1
  simp only [p2] at e2
  simp only [p3] at e3
  simp only [mul_zero, add_zero] at e4
  have hs := integral_add (i1.add i2) i3
  simp only [Pi.add_apply] at hs
  rw [e1, e2, e3, e4, ← integral_add i1 i2, ← hs, boxMeasure_eq]
  refine setIntegral_congr_fun (measurableSet_Ioc.prod (measurableSet_Ioc.prod measurableSet_Ioc)) fun p hp => ?_
  obtain ⟨-, -, hφ1, hφ2⟩ := hp
  have hm := h.mass p.1 p.2.2 p.2.1 (by linarith) (by linarith)
  have hw := h.law p.1 p.2.2 p.2.1 (by linarith) (by linarith)
  by_cases hq : 0 < M.q p.1 p.2.2 p.2.1
  · simp only [if_pos hq]
    linear_combination hw + max (M.q p.1 p.2.2 p.2.1) 0 * hm
  · simp only [if_neg hq]
    linear_combination max (M.q p.1 p.2.2 p.2.1) 0 * hm

end

end Falwa

end
