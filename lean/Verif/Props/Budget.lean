import Verif.Lemmas.BoxBudget
import Verif.Spec.Waves
import Mathlib.Analysis.SpecialFunctions.Trigonometric.Deriv

/-!
# C180: budget of the wave activity of air that conserves its QGPV but for a source
-/

noncomputable section

namespace Falwa

open MeasureTheory Filter Set Real Spec

/-- Excess of QGPV over a reference value that may change in time. -/
def above (M : Motion) (v v' : ℝ → ℝ) : Motion :=
  { M with q := fun t φ l => M.q t φ l - v t, qt := fun t φ l => M.qt t φ l - v' t, S := fun t φ l => M.S t φ l - v' t }

/-- Deficit of QGPV. -/
def below (M : Motion) (v v' : ℝ → ℝ) : Motion :=
  { M with q := fun t φ l => v t - M.q t φ l, qt := fun t φ l => v' t - M.qt t φ l, qf := fun t φ l => -M.qf t φ l,
           ql := fun t φ l => -M.ql t φ l, S := fun t φ l => v' t - M.S t φ l }

section
variable {M : Motion} {a : ℝ} {v v' : ℝ → ℝ}

theorem above_obeys (h : M.Obeys a) (hv : ∀ t, HasDerivAt v (v' t) t) (cv : Continuous v') : (above M v v').Obeys a where
  dt := fun t φ l => (h.dt t φ l).sub (hv t)
  df := fun t φ l => (h.df t φ l).sub_const _
  dl := fun t φ l => (h.dl t φ l).sub_const _
  dU := h.dU
  dV := h.dV
  cq := Continuous.sub h.cq ((continuous_iff_continuousAt.2 fun t => (hv t).continuousAt).comp continuous_fst)
  cqt := Continuous.sub h.cqt (cv.comp continuous_fst)
  cqf := h.cqf
  cql := h.cql
  cU := h.cU
  cUl := h.cUl
  cV := h.cV
  cVf := h.cVf
  cS := Continuous.sub h.cS (cv.comp continuous_fst)
  mass := h.mass
  law := fun t φ l h1 h2 => by
    show a * cos φ * (M.qt t φ l - v' t) + M.U t φ l * M.ql t φ l + M.V t φ l * cos φ * M.qf t φ l = a * cos φ * (M.S t φ l - v' t)
    linear_combination h.law t φ l h1 h2
  periodicq := fun t φ l => by
    show M.q t φ (l + 2 * π) - v t = M.q t φ l - v t
    rw [h.periodicq]
  periodicU := h.periodicU

theorem below_obeys (h : M.Obeys a) (hv : ∀ t, HasDerivAt v (v' t) t) (cv : Continuous v') : (below M v v').Obeys a where
  dt := fun t φ l => (hv t).sub (h.dt t φ l)
  df := fun t φ l => (h.df t φ l).const_sub _
  dl := fun t φ l => (h.dl t φ l).const_sub _
  dU := h.dU
  dV := h.dV
  cq := Continuous.sub ((continuous_iff_continuousAt.2 fun t => (hv t).continuousAt).comp continuous_fst) h.cq
  cqt := Continuous.sub (cv.comp continuous_fst) h.cqt
  cqf := Continuous.neg h.cqf
  cql := Continuous.neg h.cql
  cU := h.cU
  cUl := h.cUl
  cV := h.cV
  cVf := h.cVf
  cS := Continuous.sub (cv.comp continuous_fst) h.cS
  mass := h.mass
  law := fun t φ l h1 h2 => by
    show a * cos φ * (v' t - M.qt t φ l) + M.U t φ l * (-M.ql t φ l) + M.V t φ l * cos φ * (-M.qf t φ l) = a * cos φ * (v' t - M.S t φ l)
    linear_combination -h.law t φ l h1 h2
  periodicq := fun t φ l => by
    show v t - M.q t φ (l + 2 * π) = v t - M.q t φ l
    rw [h.periodicq]
  periodicU := h.periodicU

/-! Parts of the budget as functions of time and longitude -/

theorem meridian_continuous {g : ℝ → ℝ → ℝ → ℝ} (hg : Jointly g) (α β t : ℝ) : Continuous fun l => ∫ x in α..β, g t x l :=
  intervalIntegral.continuous_parametric_intervalIntegral_of_continuous' (f := fun l x => g t x l)
    (Continuous.comp (g := fun p : ℝ × ℝ × ℝ => g p.1 p.2.1 p.2.2) hg (f := fun p : ℝ × ℝ => (t, p.2, p.1)) (by fun_prop)) α β

theorem meridian_continuous_t {g : ℝ → ℝ → ℝ → ℝ} (hg : Jointly g) (α β l : ℝ) : Continuous fun t => ∫ x in α..β, g t x l :=
  intervalIntegral.continuous_parametric_intervalIntegral_of_continuous' (f := fun t x => g t x l)
    (Continuous.comp (g := fun p : ℝ × ℝ × ℝ => g p.1 p.2.1 p.2.2) hg (f := fun p : ℝ × ℝ => (p.1, p.2, l)) (by fun_prop)) α β

theorem circle_continuous_t {g : ℝ → ℝ → ℝ → ℝ} (hg : Jointly g) (φ l1 l2 : ℝ) : Continuous fun t => ∫ l in l1..l2, g t φ l :=
  intervalIntegral.continuous_parametric_intervalIntegral_of_continuous' (f := fun t l => g t φ l)
    (Continuous.comp (g := fun p : ℝ × ℝ × ℝ => g p.1 p.2.1 p.2.2) hg (f := fun p : ℝ × ℝ => (p.1, φ, p.2)) (by fun_prop)) l1 l2

theorem cut_meridian {f c : ℝ → ℝ → ℝ → ℝ} (hf : Jointly f) (hc : Jointly c) (t l1 l2 : ℝ) {α β : ℝ} (hα : α ≤ β) (hl : l1 ≤ l2) :
    IntervalIntegrable (fun l => ∫ x in α..β, if 0 < f t x l then c t x l else 0) volume l1 l2 := by
  have cf : Continuous fun p : ℝ × ℝ => f t p.2 p.1 :=
    Continuous.comp (g := fun p : ℝ × ℝ × ℝ => f p.1 p.2.1 p.2.2) hf (f := fun p : ℝ × ℝ => (t, p.2, p.1)) (by fun_prop)
  have cc : Continuous fun p : ℝ × ℝ => c t p.2 p.1 :=
    Continuous.comp (g := fun p : ℝ × ℝ × ℝ => c p.1 p.2.1 p.2.2) hc (f := fun p : ℝ × ℝ => (t, p.2, p.1)) (by fun_prop)
  have h := (cutSum_plane l1 l2 α β cf cc (d := fun _ => 0) continuous_const).integral_prod_left
  rw [intervalIntegrable_iff_integrableOn_Ioc_of_le hl]
  simp only [intervalIntegral.integral_of_le hα]
  simp only [add_zero] at h
  exact h

theorem cut_region {f c : ℝ → ℝ → ℝ → ℝ} (hf : Jointly f) (hc : Jointly c) {t1 t2 l1 l2 α β : ℝ} (ht : t1 ≤ t2) (hl : l1 ≤ l2) (hα : α ≤ β) :
    IntervalIntegrable (fun t => ∫ l in l1..l2, ∫ x in α..β, if 0 < f t x l then c t x l else 0) volume t1 t2 := by
  have h := (cutSum_box (jointly_swap hf) (jointly_swap hc) (d := fun _ => 0) continuous_const t1 t2 l1 l2 α β)
  have h' := Integrable.integral_prod_left (f := fun p : ℝ × ℝ × ℝ => (if 0 < f p.1 p.2.2 p.2.1 then c p.1 p.2.2 p.2.1 else 0) + 0) h
  rw [intervalIntegrable_iff_integrableOn_Ioc_of_le ht]
  refine Integrable.congr h' (Eventually.of_forall fun t => ?_)
  have cf : Continuous fun p : ℝ × ℝ => f t p.2 p.1 :=
    Continuous.comp (g := fun p : ℝ × ℝ × ℝ => f p.1 p.2.1 p.2.2) hf (f := fun p : ℝ × ℝ => (t, p.2, p.1)) (by fun_prop)
  have cc : Continuous fun p : ℝ × ℝ => c t p.2 p.1 :=
    Continuous.comp (g := fun p : ℝ × ℝ × ℝ => c p.1 p.2.1 p.2.2) hc (f := fun p : ℝ × ℝ => (t, p.2, p.1)) (by fun_prop)
  have h2 := cutSum_plane l1 l2 α β cf cc (d := fun _ => 0) continuous_const
  beta_reduce
  rw [integral_prod _ h2, intervalIntegral.integral_of_le hl]
  simp only [intervalIntegral.integral_of_le hα, add_zero]

theorem mul_jointly {f g : ℝ → ℝ → ℝ → ℝ} (hf : Jointly f) (hg : Jointly g) : Jointly fun t x l => f t x l * g t x l := Continuous.mul hf hg

theorem posPart_jointly {f : ℝ → ℝ → ℝ → ℝ} (hf : Jointly f) : Jointly fun t x l => max (f t x l) 0 := Continuous.max hf continuous_const

theorem cos_jointly (a : ℝ) : Jointly fun _ x _ => a * cos x := by
  unfold Jointly
  fun_prop

/-- The budget of one part, with the integrals of differences split. -/
theorem part_budget (h : M.Obeys a) {t1 t2 l1 l2 α β : ℝ} (ht : t1 ≤ t2) (hl : l1 ≤ l2) (hα : α ≤ β) (hα0 : -(π / 2) ≤ α) (hβ0 : β ≤ π / 2) :
    (∫ l in l1..l2, ∫ φ in α..β, max (M.q t2 φ l) 0 * (a * cos φ)) - (∫ l in l1..l2, ∫ φ in α..β, max (M.q t1 φ l) 0 * (a * cos φ)) +
      ((∫ t in t1..t2, ∫ φ in α..β, max (M.q t φ l2) 0 * M.U t φ l2) - ∫ t in t1..t2, ∫ φ in α..β, max (M.q t φ l1) 0 * M.U t φ l1) +
      ((∫ t in t1..t2, ∫ l in l1..l2, max (M.q t β l) 0 * (M.V t β l * cos β)) -
        ∫ t in t1..t2, ∫ l in l1..l2, max (M.q t α l) 0 * (M.V t α l * cos α)) =
      ∫ t in t1..t2, ∫ l in l1..l2, ∫ φ in α..β, if 0 < M.q t φ l then M.S t φ l * (a * cos φ) else 0 := by
  have j1 := mul_jointly (posPart_jointly h.cq) (cos_jointly a)
  have j2 := mul_jointly (posPart_jointly h.cq) h.cU
  have j3 : Jointly fun t x l => max (M.q t x l) 0 * (M.V t x l * cos x) :=
    mul_jointly (posPart_jointly h.cq) (mul_jointly h.cV (by simpa only [one_mul] using cos_jointly 1))
  rw [← box_budget h ht hl hα hα0 hβ0]
  congr 1
  · congr 1
    · rw [← intervalIntegral.integral_sub ((meridian_continuous j1 α β t2).intervalIntegrable _ _)
        ((meridian_continuous j1 α β t1).intervalIntegrable _ _)]
      refine intervalIntegral.integral_congr fun l _ => ?_
      exact (intervalIntegral.integral_sub ((jointly_f j1 t2 l).intervalIntegrable _ _) ((jointly_f j1 t1 l).intervalIntegrable _ _)).symm
    · rw [← intervalIntegral.integral_sub ((meridian_continuous_t j2 α β l2).intervalIntegrable _ _)
        ((meridian_continuous_t j2 α β l1).intervalIntegrable _ _)]
      refine intervalIntegral.integral_congr fun t _ => ?_
      exact (intervalIntegral.integral_sub ((jointly_f j2 t l2).intervalIntegrable _ _) ((jointly_f j2 t l1).intervalIntegrable _ _)).symm
  · rw [← intervalIntegral.integral_sub ((circle_continuous_t j3 β l1 l2).intervalIntegrable _ _)
      ((circle_continuous_t j3 α l1 l2).intervalIntegrable _ _)]
    refine intervalIntegral.integral_congr fun t _ => ?_
    exact (intervalIntegral.integral_sub ((jointly_l j3 t β).intervalIntegrable _ _) ((jointly_l j3 t α).intervalIntegrable _ _)).symm

theorem integral_four {f g o s : ℝ → ℝ} (hf : Continuous f) (hg : Continuous g) (ho : Continuous o) (hs : Continuous s) (x y : ℝ) :
    ∫ t in x..y, (f t - g t + (o t - s t)) = (∫ t in x..y, f t) - (∫ t in x..y, g t) + ((∫ t in x..y, o t) - ∫ t in x..y, s t) := by
  have i1 : IntervalIntegrable (fun t => f t - g t) volume x y := (hf.sub hg).intervalIntegrable _ _
  have i2 : IntervalIntegrable (fun t => o t - s t) volume x y := (ho.sub hs).intervalIntegrable _ _
  rw [intervalIntegral.integral_add i1 i2, intervalIntegral.integral_sub (hf.intervalIntegrable _ _) (hg.intervalIntegrable _ _),
    intervalIntegral.integral_sub (ho.intervalIntegrable _ _) (hs.intervalIntegrable _ _)]

theorem source_parts (M : Motion) (a : ℝ) (v v' : ℝ → ℝ) (φs φn φ t l : ℝ) :
    meridionalSource a (fun x => M.q t x l) (fun x => M.S t x l - v' t) (v t) φs φn φ =
      (∫ x in φs..φ, if 0 < (above M v v').q t x l then (above M v v').S t x l * (a * cos x) else 0) +
        ∫ x in φ..φn, if 0 < (below M v v').q t x l then (below M v v').S t x l * (a * cos x) else 0 := by
  unfold meridionalSource
  rw [sub_eq_add_neg, ← intervalIntegral.integral_neg]
  congr 1
  · refine intervalIntegral.integral_congr fun x _ => ?_
    show (if v t < M.q t x l then a * cos x * (M.S t x l - v' t) else 0) = if 0 < M.q t x l - v t then (M.S t x l - v' t) * (a * cos x) else 0
    simp only [sub_pos]
    split_ifs <;> ring
  · refine intervalIntegral.integral_congr fun x _ => ?_
    show -(if M.q t x l < v t then a * cos x * (M.S t x l - v' t) else 0) = if 0 < v t - M.q t x l then (v' t - M.S t x l) * (a * cos x) else 0
    simp only [sub_pos]
    split_ifs <;> ring

theorem transport_parts (ha : a ≠ 0) (M : Motion) (v v' : ℝ → ℝ) (φs φn φ t l : ℝ) :
    meridionalTransport a (fun x => M.q t x l) (fun x => M.U t x l) (v t) φs φn φ / a =
      (∫ x in φs..φ, max ((above M v v').q t x l) 0 * (above M v v').U t x l) +
        ∫ x in φ..φn, max ((below M v v').q t x l) 0 * (below M v v').U t x l := by
  unfold meridionalTransport
  have e : ∀ (f : ℝ → ℝ) α β, ∫ x in α..β, f x * (a * M.U t x l) = a * ∫ x in α..β, f x * M.U t x l := fun f α β => by
    rw [← intervalIntegral.integral_const_mul]
    congr 1
    funext x
    ring
  rw [e, e, ← mul_add, mul_div_cancel_left₀ _ ha, add_comm]
  rfl

theorem outflow_parts (M : Motion) (v v' : ℝ → ℝ) (φs φn φ t l : ℝ) :
    meridionalOutflow (fun x => M.q t x l) (fun x => M.V t x l) (v t) φs φn φ =
      max ((above M v v').q t φ l) 0 * ((above M v v').V t φ l * cos φ) - max ((above M v v').q t φs l) 0 * ((above M v v').V t φs l * cos φs) +
        (max ((below M v v').q t φn l) 0 * ((below M v v').V t φn l * cos φn) - max ((below M v v').q t φ l) 0 * ((below M v v').V t φ l * cos φ)) := by
  show M.V t φ l * cos φ * (M.q t φ l - v t) + M.V t φn l * cos φn * max (v t - M.q t φn l) 0 - M.V t φs l * cos φs * max (M.q t φs l - v t) 0 =
    max (M.q t φ l - v t) 0 * (M.V t φ l * cos φ) - max (M.q t φs l - v t) 0 * (M.V t φs l * cos φs) +
      (max (v t - M.q t φn l) 0 * (M.V t φn l * cos φn) - max (v t - M.q t φ l) 0 * (M.V t φ l * cos φ))
  have hm : max (M.q t φ l - v t) 0 - max (v t - M.q t φ l) 0 = M.q t φ l - v t := by
    rcases le_total (v t) (M.q t φ l) with h | h
    · rw [max_eq_left (sub_nonneg.2 h), max_eq_right (sub_nonpos.2 h), sub_zero]
    · rw [max_eq_right (sub_nonpos.2 h), max_eq_left (sub_nonneg.2 h)]
      ring
  linear_combination -(M.V t φ l * cos φ) * hm

/-- **C180.** The wave activity between two longitudes changes by the zonal transport of displaced QGPV through its ends, by the flux
`V (q - Q)` through the circle of latitude, and by the source of QGPV less the change of the reference value, over the displaced air. -/
theorem C180_budget (h : M.Obeys a) (ha : a ≠ 0) (hv : ∀ t, HasDerivAt v (v' t) t) (cv : Continuous v') {t1 t2 l1 l2 φs φn φ : ℝ}
    (ht : t1 ≤ t2) (hl : l1 ≤ l2) (hs0 : -(π / 2) ≤ φs) (hs : φs ≤ φ) (hn : φ ≤ φn) (hn0 : φn ≤ π / 2) :
    (∫ l in l1..l2, (meridionalWaveActivity a (fun x => M.q t2 x l) (v t2) φs φn φ - meridionalWaveActivity a (fun x => M.q t1 x l) (v t1) φs φn φ)) =
      (∫ t in t1..t2, (meridionalTransport a (fun x => M.q t x l1) (fun x => M.U t x l1) (v t) φs φn φ -
          meridionalTransport a (fun x => M.q t x l2) (fun x => M.U t x l2) (v t) φs φn φ) / a) -
        (∫ t in t1..t2, ∫ l in l1..l2, meridionalOutflow (fun x => M.q t x l) (fun x => M.V t x l) (v t) φs φn φ) +
        ∫ t in t1..t2, ∫ l in l1..l2, meridionalSource a (fun x => M.q t x l) (fun x => M.S t x l - v' t) (v t) φs φn φ := by
  have hA := above_obeys h hv cv
  have hB := below_obeys h hv cv
  have pb := part_budget hA ht hl hs hs0 (hn.trans hn0)
  have nb := part_budget hB ht hl hn (hs0.trans hs) hn0
  have jc : Jointly fun _ x _ => cos x := by simpa only [one_mul] using cos_jointly 1
  have a1 := mul_jointly (posPart_jointly hA.cq) (cos_jointly a)
  have b1 := mul_jointly (posPart_jointly hB.cq) (cos_jointly a)
  have a2 := mul_jointly (posPart_jointly hA.cq) hA.cU
  have b2 := mul_jointly (posPart_jointly hB.cq) hB.cU
  have a3 : Jointly fun t x l => max ((above M v v').q t x l) 0 * ((above M v v').V t x l * cos x) :=
    mul_jointly (posPart_jointly hA.cq) (mul_jointly hA.cV jc)
  have b3 : Jointly fun t x l => max ((below M v v').q t x l) 0 * ((below M v v').V t x l * cos x) :=
    mul_jointly (posPart_jointly hB.cq) (mul_jointly hB.cV jc)
  have a4 := mul_jointly hA.cS (cos_jointly a)
  have b4 := mul_jointly hB.cS (cos_jointly a)
  have wave : ∀ t, ∫ l in l1..l2, meridionalWaveActivity a (fun x => M.q t x l) (v t) φs φn φ =
      (∫ l in l1..l2, ∫ x in φ..φn, max ((below M v v').q t x l) 0 * (a * cos x)) +
        ∫ l in l1..l2, ∫ x in φs..φ, max ((above M v v').q t x l) 0 * (a * cos x) := fun t =>
    intervalIntegral.integral_add ((meridian_continuous b1 φ φn t).intervalIntegrable _ _) ((meridian_continuous a1 φs φ t).intervalIntegrable _ _)
  have waveI : ∀ t, IntervalIntegrable (fun l => meridionalWaveActivity a (fun x => M.q t x l) (v t) φs φn φ) volume l1 l2 := fun t =>
    ((meridian_continuous b1 φ φn t).add (meridian_continuous a1 φs φ t)).intervalIntegrable _ _
  have out : ∀ t, ∫ l in l1..l2, meridionalOutflow (fun x => M.q t x l) (fun x => M.V t x l) (v t) φs φn φ =
      (∫ l in l1..l2, max ((above M v v').q t φ l) 0 * ((above M v v').V t φ l * cos φ)) -
        (∫ l in l1..l2, max ((above M v v').q t φs l) 0 * ((above M v v').V t φs l * cos φs)) +
        ((∫ l in l1..l2, max ((below M v v').q t φn l) 0 * ((below M v v').V t φn l * cos φn)) -
          ∫ l in l1..l2, max ((below M v v').q t φ l) 0 * ((below M v v').V t φ l * cos φ)) := fun t => by
    simp only [outflow_parts M v v']
    exact integral_four (jointly_l a3 t φ) (jointly_l a3 t φs) (jointly_l b3 t φn) (jointly_l b3 t φ) l1 l2
  have src : ∀ t, ∫ l in l1..l2, meridionalSource a (fun x => M.q t x l) (fun x => M.S t x l - v' t) (v t) φs φn φ =
      (∫ l in l1..l2, ∫ x in φs..φ, if 0 < (above M v v').q t x l then (above M v v').S t x l * (a * cos x) else 0) +
        ∫ l in l1..l2, ∫ x in φ..φn, if 0 < (below M v v').q t x l then (below M v v').S t x l * (a * cos x) else 0 := fun t => by
    simp only [source_parts M a v v']
    exact intervalIntegral.integral_add (cut_meridian hA.cq a4 t l1 l2 hs hl) (cut_meridian hB.cq b4 t l1 l2 hn hl)
  rw [intervalIntegral.integral_sub (waveI t2) (waveI t1), wave, wave]
  simp only [out, src, sub_div, transport_parts ha M v v']
  have cX : ∀ l, Continuous fun t => (∫ x in φs..φ, max ((above M v v').q t x l) 0 * (above M v v').U t x l) +
        ∫ x in φ..φn, max ((below M v v').q t x l) 0 * (below M v v').U t x l := fun l =>
    (meridian_continuous_t a2 φs φ l).add (meridian_continuous_t b2 φ φn l)
  have iA := cut_region hA.cq a4 ht hl hs
  have iB := cut_region hB.cq b4 ht hl hn
  rw [intervalIntegral.integral_sub ((cX l1).intervalIntegrable _ _) ((cX l2).intervalIntegrable _ _), intervalIntegral.integral_add iA iB,
    intervalIntegral.integral_add ((meridian_continuous_t a2 φs φ l1).intervalIntegrable _ _) ((meridian_continuous_t b2 φ φn l1).intervalIntegrable _ _),
    intervalIntegral.integral_add ((meridian_continuous_t a2 φs φ l2).intervalIntegrable _ _) ((meridian_continuous_t b2 φ φn l2).intervalIntegrable _ _),
    integral_four (circle_continuous_t a3 φ l1 l2) (circle_continuous_t a3 φs l1 l2) (circle_continuous_t b3 φn l1 l2)
      (circle_continuous_t b3 φ l1 l2)]
  linear_combination pb + nb

end

/-! ### A sample: air that rotates about an axis in the plane of the equator, while this axis turns with half the rate of the planet -/

def precession : Motion where
  q := fun t φ l => sin φ + 2 * (cos φ * cos (l + t / 2))
  qt := fun t φ l => -(cos φ * sin (l + t / 2))
  qf := fun t φ l => cos φ - 2 * (sin φ * cos (l + t / 2))
  ql := fun t φ l => -(2 * (cos φ * sin (l + t / 2)))
  U := fun t φ l => -(sin φ * cos (l + t / 2))
  Ul := fun t φ l => sin φ * sin (l + t / 2)
  V := fun t _ l => sin (l + t / 2)
  Vf := fun t φ l => -(sin φ * sin (l + t / 2))
  S := fun _ _ _ => 0

theorem precession_obeys : precession.Obeys 1 where
  dt := fun t φ l => by
    have h1 := (hasDerivAt_cos (l + t / 2)).comp t (((hasDerivAt_id t).div_const 2).const_add l)
    have h2 := ((h1.const_mul (cos φ)).const_mul 2).const_add (sin φ)
    refine h2.congr_deriv ?_
    show _ = -(cos φ * sin (l + t / 2))
    ring
  df := fun t φ l => by
    have h2 := (hasDerivAt_sin φ).add (((hasDerivAt_cos φ).mul_const (cos (l + t / 2))).const_mul 2)
    refine h2.congr_deriv ?_
    show _ = cos φ - 2 * (sin φ * cos (l + t / 2))
    ring
  dl := fun t φ l => by
    have h1 := (hasDerivAt_cos (l + t / 2)).comp l ((hasDerivAt_id l).add_const (t / 2))
    have h2 := ((h1.const_mul (cos φ)).const_mul 2).const_add (sin φ)
    refine h2.congr_deriv ?_
    show _ = -(2 * (cos φ * sin (l + t / 2)))
    ring
  dU := fun t φ l => by
    have h1 := (hasDerivAt_cos (l + t / 2)).comp l ((hasDerivAt_id l).add_const (t / 2))
    refine (h1.const_mul (sin φ)).neg.congr_deriv ?_
    show _ = sin φ * sin (l + t / 2)
    ring
  dV := fun t φ l => by
    refine ((hasDerivAt_cos φ).const_mul (sin (l + t / 2))).congr_deriv ?_
    show _ = -(sin φ * sin (l + t / 2))
    ring
  cq := by show Continuous fun p : ℝ × ℝ × ℝ => sin p.2.1 + 2 * (cos p.2.1 * cos (p.2.2 + p.1 / 2)); fun_prop
  cqt := by show Continuous fun p : ℝ × ℝ × ℝ => -(cos p.2.1 * sin (p.2.2 + p.1 / 2)); fun_prop
  cqf := by show Continuous fun p : ℝ × ℝ × ℝ => cos p.2.1 - 2 * (sin p.2.1 * cos (p.2.2 + p.1 / 2)); fun_prop
  cql := by show Continuous fun p : ℝ × ℝ × ℝ => -(2 * (cos p.2.1 * sin (p.2.2 + p.1 / 2))); fun_prop
  cU := by show Continuous fun p : ℝ × ℝ × ℝ => -(sin p.2.1 * cos (p.2.2 + p.1 / 2)); fun_prop
  cUl := by show Continuous fun p : ℝ × ℝ × ℝ => sin p.2.1 * sin (p.2.2 + p.1 / 2); fun_prop
  cV := by show Continuous fun p : ℝ × ℝ × ℝ => sin (p.2.2 + p.1 / 2); fun_prop
  cVf := by show Continuous fun p : ℝ × ℝ × ℝ => -(sin p.2.1 * sin (p.2.2 + p.1 / 2)); fun_prop
  cS := by show Continuous fun _ : ℝ × ℝ × ℝ => (0 : ℝ); fun_prop
  mass := fun t φ l _ _ => by
    show sin φ * sin (l + t / 2) + -(sin φ * sin (l + t / 2)) = 0
    ring
  law := fun t φ l _ _ => by
    show 1 * cos φ * -(cos φ * sin (l + t / 2)) + -(sin φ * cos (l + t / 2)) * -(2 * (cos φ * sin (l + t / 2))) +
      sin (l + t / 2) * cos φ * (cos φ - 2 * (sin φ * cos (l + t / 2))) = 1 * cos φ * 0
    ring
  periodicq := fun t φ l => by
    show sin φ + 2 * (cos φ * cos (l + 2 * π + t / 2)) = sin φ + 2 * (cos φ * cos (l + t / 2))
    rw [show l + 2 * π + t / 2 = l + t / 2 + 2 * π by ring, cos_add_two_pi]
  periodicU := fun t φ l => by
    show -(sin φ * cos (l + 2 * π + t / 2)) = -(sin φ * cos (l + t / 2))
    rw [show l + 2 * π + t / 2 = l + t / 2 + 2 * π by ring, cos_add_two_pi]

/-- Hypotheses of `C180_budget`: the wave activity at 45°N of air that precesses, between two meridians, with a reference value of 1. -/
example : (∫ l in (0 : ℝ)..1, (meridionalWaveActivity 1 (fun x => precession.q 3 x l) 1 0 (π / 2) (π / 4) -
      meridionalWaveActivity 1 (fun x => precession.q 0 x l) 1 0 (π / 2) (π / 4))) =
    (∫ t in (0 : ℝ)..3, (meridionalTransport 1 (fun x => precession.q t x 0) (fun x => precession.U t x 0) 1 0 (π / 2) (π / 4) -
        meridionalTransport 1 (fun x => precession.q t x 1) (fun x => precession.U t x 1) 1 0 (π / 2) (π / 4)) / 1) -
      (∫ t in (0 : ℝ)..3, ∫ l in (0 : ℝ)..1,
        meridionalOutflow (fun x => precession.q t x l) (fun x => precession.V t x l) 1 0 (π / 2) (π / 4)) +
      ∫ t in (0 : ℝ)..3, ∫ l in (0 : ℝ)..1,
        meridionalSource 1 (fun x => precession.q t x l) (fun x => precession.S t x l - 0) 1 0 (π / 2) (π / 4) := by
  have hpi := pi_pos
  exact C180_budget (v := fun _ => 1) (v' := fun _ => 0) precession_obeys one_ne_zero (fun t => hasDerivAt_const t 1) continuous_const
    (by norm_num) (by norm_num) (by linarith) (by linarith) (by linarith) le_rfl

end Falwa

end
