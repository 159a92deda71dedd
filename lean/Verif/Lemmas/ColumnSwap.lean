import Verif.Lemmas.BoxBudget
import Verif.Spec.Flow

/-!
# Column means of integrals over time and longitude
-/

noncomputable section

namespace Falwa

open MeasureTheory Filter Set Real Spec

variable {H top : ℝ}

theorem columnMean_congr_on (h0 : 0 ≤ top) {f g : ℝ → ℝ} (h : ∀ z, 0 ≤ z → z ≤ top → f z = g z) : columnMean H top f = columnMean H top g := by
  unfold columnMean
  congr 1
  refine intervalIntegral.integral_congr fun z hz => ?_
  rw [uIcc_of_le h0] at hz
  rw [h z hz.1 hz.2]

theorem weight_integrable {f : ℝ → ℝ} (hf : IntervalIntegrable f volume 0 top) :
    IntervalIntegrable (fun z => f z * exp (-z / H)) volume 0 top :=
  hf.mul_continuousOn (by fun_prop)

theorem columnMean_add {f g : ℝ → ℝ} (hf : IntervalIntegrable f volume 0 top) (hg : IntervalIntegrable g volume 0 top) :
    columnMean H top (fun z => f z + g z) = columnMean H top f + columnMean H top g := by
  unfold columnMean
  rw [← add_div, ← intervalIntegral.integral_add (weight_integrable hf) (weight_integrable hg)]
  simp only [add_mul]

theorem columnMean_sub {f g : ℝ → ℝ} (hf : IntervalIntegrable f volume 0 top) (hg : IntervalIntegrable g volume 0 top) :
    columnMean H top (fun z => f z - g z) = columnMean H top f - columnMean H top g := by
  unfold columnMean
  rw [← sub_div, ← intervalIntegral.integral_sub (weight_integrable hf) (weight_integrable hg)]
  simp only [sub_mul]

theorem columnMean_const_mul (c : ℝ) (f : ℝ → ℝ) : columnMean H top (fun z => c * f z) = c * columnMean H top f := by
  unfold columnMean
  simp only [mul_assoc, intervalIntegral.integral_const_mul]
  rw [mul_div_assoc]

theorem columnMean_div_const (c : ℝ) (f : ℝ → ℝ) : columnMean H top (fun z => f z / c) = columnMean H top f / c := by
  have h := columnMean_const_mul (H := H) (top := top) c⁻¹ f
  rw [div_eq_mul_inv, mul_comm, ← h]
  congr 1
  funext z
  rw [div_eq_mul_inv, mul_comm]

/-- Exchange with the integral over one variable. -/
theorem columnMean_integral (h0 : 0 ≤ top) {G : ℝ → ℝ → ℝ} (hG : Continuous fun p : ℝ × ℝ => G p.1 p.2) {x1 x2 : ℝ} (hx : x1 ≤ x2) :
    columnMean H top (fun z => ∫ x in x1..x2, G z x) = ∫ x in x1..x2, columnMean H top fun z => G z x := by
  unfold columnMean
  rw [intervalIntegral.integral_div]
  congr 1
  have e : ∀ z, (∫ x in x1..x2, G z x) * exp (-z / H) = ∫ x in x1..x2, G z x * exp (-z / H) := fun z =>
    (intervalIntegral.integral_mul_const _ _).symm
  simp only [e]
  refine intervalIntegral_intervalIntegral_swap ?_
  have hc : Continuous fun p : ℝ × ℝ => G p.1 p.2 * exp (-p.1 / H) := by fun_prop
  rw [uIoc_of_le h0, uIoc_of_le hx]
  exact (hc.continuousOn.integrableOn_compact (isCompact_Icc.prod isCompact_Icc)).mono_set (prod_mono Ioc_subset_Icc_self Ioc_subset_Icc_self)

/-- Exchange with the integral over two variables. -/
theorem columnMean_integral2 (h0 : 0 ≤ top) {G : ℝ → ℝ → ℝ → ℝ} {t1 t2 l1 l2 : ℝ} (ht : t1 ≤ t2) (hl : l1 ≤ l2)
    (h3 : IntegrableOn (fun p : ℝ × ℝ × ℝ => G p.1 p.2.1 p.2.2) (Icc 0 top ×ˢ Icc t1 t2 ×ˢ Icc l1 l2))
    (h2 : ∀ z, IntegrableOn (fun p : ℝ × ℝ => G z p.1 p.2) (Icc t1 t2 ×ˢ Icc l1 l2)) :
    IntervalIntegrable (fun z => ∫ t in t1..t2, ∫ l in l1..l2, G z t l) volume 0 top ∧
    columnMean H top (fun z => ∫ t in t1..t2, ∫ l in l1..l2, G z t l) = ∫ t in t1..t2, ∫ l in l1..l2, columnMean H top fun z => G z t l := by
  have m3 : Integrable (fun p : ℝ × ℝ × ℝ => G p.1 p.2.1 p.2.2) (boxMeasure 0 top t1 t2 l1 l2) := by
    rw [boxMeasure_eq]
    exact h3.mono_set (prod_mono Ioc_subset_Icc_self (prod_mono Ioc_subset_Icc_self Ioc_subset_Icc_self))
  have m2 : ∀ z, Integrable (fun p : ℝ × ℝ => G z p.1 p.2) ((volume.restrict (Ioc t1 t2)).prod (volume.restrict (Ioc l1 l2))) := fun z => by
    rw [Measure.prod_restrict]
    exact (h2 z).mono_set (prod_mono Ioc_subset_Icc_self Ioc_subset_Icc_self)
  have inner : ∀ z, ∫ t in t1..t2, ∫ l in l1..l2, G z t l =
      ∫ p, G z p.1 p.2 ∂((volume.restrict (Ioc t1 t2)).prod (volume.restrict (Ioc l1 l2))) := fun z => by
    rw [integral_prod _ (m2 z), intervalIntegral.integral_of_le ht]
    simp only [intervalIntegral.integral_of_le hl]
  have w3 : Integrable (fun p : ℝ × ℝ × ℝ => G p.1 p.2.1 p.2.2 * exp (-p.1 / H)) (boxMeasure 0 top t1 t2 l1 l2) := by
    rw [boxMeasure_eq]
    refine IntegrableOn.mono_set (t := Icc 0 top ×ˢ Icc t1 t2 ×ˢ Icc l1 l2) ?_
      (prod_mono Ioc_subset_Icc_self (prod_mono Ioc_subset_Icc_self Ioc_subset_Icc_self))
    exact h3.mul_continuousOn (by fun_prop) (isCompact_Icc.prod (isCompact_Icc.prod isCompact_Icc))
  constructor
  · rw [intervalIntegrable_iff_integrableOn_Ioc_of_le h0]
    simp only [inner]
    exact Integrable.integral_prod_left (f := fun p : ℝ × ℝ × ℝ => G p.1 p.2.1 p.2.2) m3
  · unfold columnMean
    simp only [intervalIntegral.integral_div]
    congr 1
    simp only [inner]
    have e : ∀ z, (∫ p, G z p.1 p.2 ∂((volume.restrict (Ioc t1 t2)).prod (volume.restrict (Ioc l1 l2)))) * exp (-z / H) =
        ∫ p, G z p.1 p.2 * exp (-z / H) ∂((volume.restrict (Ioc t1 t2)).prod (volume.restrict (Ioc l1 l2))) := fun z =>
      (integral_mul_const _ _).symm
    simp only [e]
    rw [intervalIntegral.integral_of_le h0]
    have hs := integral_integral_swap (f := fun z (p : ℝ × ℝ) => G z p.1 p.2 * exp (-z / H)) (μ := volume.restrict (Ioc 0 top))
      (ν := (volume.restrict (Ioc t1 t2)).prod (volume.restrict (Ioc l1 l2))) w3
    rw [hs, integral_prod _ (Integrable.integral_prod_right (f := fun p : ℝ × ℝ × ℝ => G p.1 p.2.1 p.2.2 * exp (-p.1 / H)) w3),
      intervalIntegral.integral_of_le ht]
    simp only [intervalIntegral.integral_of_le hl, intervalIntegral.integral_of_le h0]

/-- Integrals over latitude of cut continuous functions are integrable in the other variables. -/
theorem cut_parameter {Y : Type*} [TopologicalSpace Y] [MeasureSpace Y] [BorelSpace Y] [T2Space Y] [SecondCountableTopology Y]
    [SFinite (volume : Measure Y)] [IsFiniteMeasureOnCompacts (volume : Measure Y)] {f c : Y × ℝ → ℝ} (hf : Continuous f) (hc : Continuous c)
    {K : Set Y} (hK : IsCompact K) {α β : ℝ} (hα : α ≤ β) :
    IntegrableOn (fun y => ∫ x in α..β, if 0 < f (y, x) then c (y, x) else 0) K := by
  have h : IntegrableOn (fun p : Y × ℝ => if 0 < f p then c p else 0) (K ×ˢ Icc α β) (volume.prod volume) :=
    cut_integrableOn hf hc (hK.prod isCompact_Icc)
  rw [IntegrableOn, ← Measure.prod_restrict] at h
  have h' := h.integral_prod_left
  simp only [intervalIntegral.integral_of_le hα, ← integral_Icc_eq_integral_Ioc]
  exact h'

end Falwa

end
