import Verif.Lemmas.ColumnSwap
import Verif.Props.Conserved
import Verif.Spec.Column
import Verif.Props.SmoothSource

/-!
# C181: budget of the column mean of wave activity, and the computed terms
-/

noncomputable section

namespace Falwa

open MeasureTheory Filter Set Real Spec

section
variable {M : ℝ → Motion} {v v' : ℝ → ℝ → ℝ}

theorem stacked_wave (hs : Stacked M v v') (a φs φn φ : ℝ) :
    Continuous fun p : ℝ × ℝ × ℝ => meridionalWaveActivity a (fun x => (M p.1).q p.2.1 x p.2.2) (v p.1 p.2.1) φs φn φ := by
  have cq : Continuous fun p : (ℝ × ℝ × ℝ) × ℝ => (M p.1.1).q p.1.2.1 p.2 p.1.2.2 :=
    hs.cq.comp (f := fun p : (ℝ × ℝ × ℝ) × ℝ => (p.1.1, p.1.2.1, p.2, p.1.2.2)) (by fun_prop)
  have cv : Continuous fun p : (ℝ × ℝ × ℝ) × ℝ => v p.1.1 p.1.2.1 :=
    hs.cv.comp (f := fun p : (ℝ × ℝ × ℝ) × ℝ => (p.1.1, p.1.2.1)) (by fun_prop)
  unfold meridionalWaveActivity
  refine Continuous.add ?_ ?_
  · exact intervalIntegral.continuous_parametric_intervalIntegral_of_continuous'
      (f := fun (p : ℝ × ℝ × ℝ) x => max (v p.1 p.2.1 - (M p.1).q p.2.1 x p.2.2) 0 * (a * cos x))
      (((cv.sub cq).max continuous_const).mul (by fun_prop)) φ φn
  · exact intervalIntegral.continuous_parametric_intervalIntegral_of_continuous'
      (f := fun (p : ℝ × ℝ × ℝ) x => max ((M p.1).q p.2.1 x p.2.2 - v p.1 p.2.1) 0 * (a * cos x))
      (((cq.sub cv).max continuous_const).mul (by fun_prop)) φs φ

theorem stacked_transport (hs : Stacked M v v') (a φs φn φ : ℝ) :
    Continuous fun p : ℝ × ℝ × ℝ =>
      meridionalTransport a (fun x => (M p.1).q p.2.1 x p.2.2) (fun x => (M p.1).U p.2.1 x p.2.2) (v p.1 p.2.1) φs φn φ := by
  have cq : Continuous fun p : (ℝ × ℝ × ℝ) × ℝ => (M p.1.1).q p.1.2.1 p.2 p.1.2.2 :=
    hs.cq.comp (f := fun p : (ℝ × ℝ × ℝ) × ℝ => (p.1.1, p.1.2.1, p.2, p.1.2.2)) (by fun_prop)
  have cU : Continuous fun p : (ℝ × ℝ × ℝ) × ℝ => (M p.1.1).U p.1.2.1 p.2 p.1.2.2 :=
    hs.cU.comp (f := fun p : (ℝ × ℝ × ℝ) × ℝ => (p.1.1, p.1.2.1, p.2, p.1.2.2)) (by fun_prop)
  have cv : Continuous fun p : (ℝ × ℝ × ℝ) × ℝ => v p.1.1 p.1.2.1 :=
    hs.cv.comp (f := fun p : (ℝ × ℝ × ℝ) × ℝ => (p.1.1, p.1.2.1)) (by fun_prop)
  unfold meridionalTransport
  refine Continuous.add ?_ ?_
  · exact intervalIntegral.continuous_parametric_intervalIntegral_of_continuous'
      (f := fun (p : ℝ × ℝ × ℝ) x => max (v p.1 p.2.1 - (M p.1).q p.2.1 x p.2.2) 0 * (a * (M p.1).U p.2.1 x p.2.2))
      (((cv.sub cq).max continuous_const).mul (continuous_const.mul cU)) φ φn
  · exact intervalIntegral.continuous_parametric_intervalIntegral_of_continuous'
      (f := fun (p : ℝ × ℝ × ℝ) x => max ((M p.1).q p.2.1 x p.2.2 - v p.1 p.2.1) 0 * (a * (M p.1).U p.2.1 x p.2.2))
      (((cq.sub cv).max continuous_const).mul (continuous_const.mul cU)) φs φ

theorem stacked_outflow (hs : Stacked M v v') (φs φn φ : ℝ) :
    Continuous fun p : ℝ × ℝ × ℝ =>
      meridionalOutflow (fun x => (M p.1).q p.2.1 x p.2.2) (fun x => (M p.1).V p.2.1 x p.2.2) (v p.1 p.2.1) φs φn φ := by
  have cq : ∀ x, Continuous fun p : ℝ × ℝ × ℝ => (M p.1).q p.2.1 x p.2.2 := fun x =>
    hs.cq.comp (f := fun p : ℝ × ℝ × ℝ => (p.1, p.2.1, x, p.2.2)) (by fun_prop)
  have cV : ∀ x, Continuous fun p : ℝ × ℝ × ℝ => (M p.1).V p.2.1 x p.2.2 := fun x =>
    hs.cV.comp (f := fun p : ℝ × ℝ × ℝ => (p.1, p.2.1, x, p.2.2)) (by fun_prop)
  have cv : Continuous fun p : ℝ × ℝ × ℝ => v p.1 p.2.1 := hs.cv.comp (f := fun p : ℝ × ℝ × ℝ => (p.1, p.2.1)) (by fun_prop)
  unfold meridionalOutflow
  exact ((((cV φ).mul continuous_const).mul ((cq φ).sub cv)).add
    (((cV φn).mul continuous_const).mul ((cv.sub (cq φn)).max continuous_const))).sub
    (((cV φs).mul continuous_const).mul (((cq φs).sub cv).max continuous_const))

/-- Sources are integrable in height, time and longitude, and on each level. -/
theorem stacked_source (hs : Stacked M v v') {G : ℝ → ℝ → ℝ → ℝ → ℝ}
    (hG : Continuous fun p : ℝ × ℝ × ℝ × ℝ => G p.1 p.2.1 p.2.2.1 p.2.2.2)
    (a : ℝ) {φs φn φ : ℝ} (h1 : φs ≤ φ) (h2 : φ ≤ φn) (top t1 t2 l1 l2 : ℝ) :
    IntegrableOn (fun p : ℝ × ℝ × ℝ => meridionalSource a (fun x => (M p.1).q p.2.1 x p.2.2) (fun x => G p.1 p.2.1 x p.2.2)
        (v p.1 p.2.1) φs φn φ) (Icc 0 top ×ˢ Icc t1 t2 ×ˢ Icc l1 l2) ∧
      ∀ z, IntegrableOn (fun p : ℝ × ℝ => meridionalSource a (fun x => (M z).q p.1 x p.2) (fun x => G z p.1 x p.2)
        (v z p.1) φs φn φ) (Icc t1 t2 ×ˢ Icc l1 l2) := by
  have cq : Continuous fun p : (ℝ × ℝ × ℝ) × ℝ => (M p.1.1).q p.1.2.1 p.2 p.1.2.2 :=
    hs.cq.comp (f := fun p : (ℝ × ℝ × ℝ) × ℝ => (p.1.1, p.1.2.1, p.2, p.1.2.2)) (by fun_prop)
  have cG : Continuous fun p : (ℝ × ℝ × ℝ) × ℝ => G p.1.1 p.1.2.1 p.2 p.1.2.2 :=
    hG.comp (f := fun p : (ℝ × ℝ × ℝ) × ℝ => (p.1.1, p.1.2.1, p.2, p.1.2.2)) (by fun_prop)
  have cv : Continuous fun p : (ℝ × ℝ × ℝ) × ℝ => v p.1.1 p.1.2.1 :=
    hs.cv.comp (f := fun p : (ℝ × ℝ × ℝ) × ℝ => (p.1.1, p.1.2.1)) (by fun_prop)
  have cc : Continuous fun p : (ℝ × ℝ × ℝ) × ℝ => a * cos p.2 * G p.1.1 p.1.2.1 p.2 p.1.2.2 :=
    (by fun_prop : Continuous fun p : (ℝ × ℝ × ℝ) × ℝ => a * cos p.2).mul cG
  have lev : ∀ z : ℝ, Continuous fun p : (ℝ × ℝ) × ℝ => ((z, p.1.1, p.1.2), p.2) := fun z => by fun_prop
  have k3 : IsCompact (Icc 0 top ×ˢ Icc t1 t2 ×ˢ Icc l1 l2) := isCompact_Icc.prod (isCompact_Icc.prod isCompact_Icc)
  have k2 : IsCompact (Icc t1 t2 ×ˢ Icc l1 l2) := isCompact_Icc.prod isCompact_Icc
  constructor
  · have i1 := cut_parameter (cq.sub cv) cc k3 h1
    have i2 := cut_parameter (cv.sub cq) cc k3 h2
    refine (i1.sub i2).congr_fun (fun p _ => ?_) k3.measurableSet
    unfold meridionalSource
    simp only [Pi.sub_apply, sub_pos]
  · intro z
    have i1 := cut_parameter ((cq.sub cv).comp (lev z)) (cc.comp (lev z)) k2 h1
    have i2 := cut_parameter ((cv.sub cq).comp (lev z)) (cc.comp (lev z)) k2 h2
    refine (i1.sub i2).congr_fun (fun p _ => ?_) k2.measurableSet
    unfold meridionalSource
    simp only [Pi.sub_apply, Function.comp_apply, sub_pos]

theorem cut_interval {f c : ℝ → ℝ} (hf : Continuous f) (hc : Continuous c) {α β : ℝ} (h : α ≤ β) :
    IntervalIntegrable (fun x => if 0 < f x then c x else 0) volume α β := by
  rw [intervalIntegrable_iff_integrableOn_Ioc_of_le h]
  exact (cut_integrableOn hf hc isCompact_Icc).mono_set Ioc_subset_Icc_self

theorem meridionalSource_sub (a : ℝ) {q s r : ℝ → ℝ} (hq : Continuous q) (hs : Continuous s) (hr : Continuous r) (Q : ℝ) {φs φn φ : ℝ}
    (h1 : φs ≤ φ) (h2 : φ ≤ φn) :
    meridionalSource a q (fun x => s x - r x) Q φs φn φ = meridionalSource a q s Q φs φn φ - meridionalSource a q r Q φs φn φ := by
  have cut : ∀ {f : ℝ → ℝ}, Continuous f → ∀ {α β : ℝ}, α ≤ β →
      (∫ x in α..β, if 0 < f x then a * cos x * (s x - r x) else 0) =
        (∫ x in α..β, if 0 < f x then a * cos x * s x else 0) - ∫ x in α..β, if 0 < f x then a * cos x * r x else 0 := fun {f} hf {α β} h => by
    rw [← intervalIntegral.integral_sub (cut_interval hf (by fun_prop) h) (cut_interval hf (by fun_prop) h)]
    refine intervalIntegral.integral_congr fun x _ => ?_
    show (if 0 < f x then _ else _) = _
    split_ifs <;> ring
  have c1 := cut (f := fun x => q x - Q) (by fun_prop) h1
  have c2 := cut (f := fun x => Q - q x) (by fun_prop) h2
  simp only [sub_pos] at c1 c2
  unfold meridionalSource
  rw [c1, c2]
  ring

theorem plane_integral {g : ℝ → ℝ → ℝ} {t1 t2 l1 l2 : ℝ} (ht : t1 ≤ t2) (hl : l1 ≤ l2)
    (h : IntegrableOn (fun p : ℝ × ℝ => g p.1 p.2) (Icc t1 t2 ×ˢ Icc l1 l2)) :
    ∫ t in t1..t2, ∫ l in l1..l2, g t l = ∫ p in Icc t1 t2 ×ˢ Icc l1 l2, g p.1 p.2 := by
  rw [Measure.volume_eq_prod, setIntegral_prod _ h, intervalIntegral.integral_of_le ht, ← integral_Icc_eq_integral_Ioc]
  simp only [intervalIntegral.integral_of_le hl, ← integral_Icc_eq_integral_Ioc]

variable {a H top : ℝ}

/-- **C181 on the sphere.** The column mean of wave activity between two longitudes changes by the convergence of the column mean of the
zonal transport, by the column mean of the meridional flux, and by the source of QGPV less the change of the reference values. -/
theorem C181_column (h : ∀ z, 0 ≤ z → z ≤ top → (M z).Obeys a) (hs : Stacked M v v') (ha : a ≠ 0) (h0 : 0 ≤ top) {t1 t2 l1 l2 φs φn φ : ℝ}
    (ht : t1 ≤ t2) (hl : l1 ≤ l2) (hs0 : -(π / 2) ≤ φs) (h1 : φs ≤ φ) (h2 : φ ≤ φn) (hn0 : φn ≤ π / 2) (hc : cos φ ≠ 0) :
    (∫ l in l1..l2, (columnWave M v a H top φs φn φ t2 l - columnWave M v a H top φs φn φ t1 l)) =
      (∫ t in t1..t2, (columnTransport M v a H top φs φn φ t l1 - columnTransport M v a H top φs φn φ t l2) / (a * cos φ)) -
        (∫ t in t1..t2, ∫ l in l1..l2, columnOutflow M v H top φs φn φ t l) +
        ((∫ t in t1..t2, ∫ l in l1..l2, columnSource M v a H top φs φn φ t l fun z t φ l => (M z).S t φ l) -
          ∫ t in t1..t2, ∫ l in l1..l2, columnSource M v a H top φs φn φ t l fun z t _ _ => v' z t) := by
  unfold columnWave columnTransport columnOutflow columnSource
  have cW := stacked_wave hs a φs φn φ
  have cT := stacked_transport hs a φs φn φ
  have cO := stacked_outflow hs φs φn φ
  have cvz : Continuous fun p : ℝ × ℝ × ℝ × ℝ => v' p.1 p.2.1 := hs.cv'.comp (f := fun p : ℝ × ℝ × ℝ × ℝ => (p.1, p.2.1)) (by fun_prop)
  have sS := stacked_source hs (G := fun z t φ l => (M z).S t φ l) hs.cS a h1 h2 top t1 t2 l1 l2
  have sv := stacked_source hs (G := fun z t _ _ => v' z t) cvz a h1 h2 top t1 t2 l1 l2
  have cW' : ∀ t, Continuous fun p : ℝ × ℝ => meridionalWaveActivity a (fun x => (M p.1).q t x p.2) (v p.1 t) φs φn φ := fun t =>
    cW.comp (f := fun p : ℝ × ℝ => (p.1, t, p.2)) (by fun_prop)
  have cT' : ∀ l, Continuous fun p : ℝ × ℝ => meridionalTransport a (fun x => (M p.1).q p.2 x l) (fun x => (M p.1).U p.2 x l) (v p.1 p.2) φs φn φ :=
    fun l => cT.comp (f := fun p : ℝ × ℝ => (p.1, p.2, l)) (by fun_prop)
  have iW : ∀ t l, IntervalIntegrable (fun z => meridionalWaveActivity a (fun x => (M z).q t x l) (v z t) φs φn φ) volume 0 top := fun t l =>
    ((cW' t).comp (f := fun z : ℝ => (z, l)) (by fun_prop)).intervalIntegrable _ _
  have iT : ∀ t l, IntervalIntegrable (fun z => meridionalTransport a (fun x => (M z).q t x l) (fun x => (M z).U t x l) (v z t) φs φn φ)
      volume 0 top := fun t l => ((cT' l).comp (f := fun z : ℝ => (z, t)) (by fun_prop)).intervalIntegrable _ _
  have left : (∫ l in l1..l2, ((columnMean H top fun z => meridionalWaveActivity a (fun x => (M z).q t2 x l) (v z t2) φs φn φ) -
        columnMean H top fun z => meridionalWaveActivity a (fun x => (M z).q t1 x l) (v z t1) φs φn φ)) =
      columnMean H top fun z => ∫ l in l1..l2, (meridionalWaveActivity a (fun x => (M z).q t2 x l) (v z t2) φs φn φ -
        meridionalWaveActivity a (fun x => (M z).q t1 x l) (v z t1) φs φn φ) := by
    rw [columnMean_integral h0 (G := fun z l => meridionalWaveActivity a (fun x => (M z).q t2 x l) (v z t2) φs φn φ -
        meridionalWaveActivity a (fun x => (M z).q t1 x l) (v z t1) φs φn φ) ((cW' t2).sub (cW' t1)) hl]
    refine intervalIntegral.integral_congr fun l _ => ?_
    exact (columnMean_sub (iW t2 l) (iW t1 l)).symm
  have tran : (∫ t in t1..t2, ((columnMean H top fun z =>
            cos φ * meridionalTransport a (fun x => (M z).q t x l1) (fun x => (M z).U t x l1) (v z t) φs φn φ) -
          columnMean H top fun z =>
            cos φ * meridionalTransport a (fun x => (M z).q t x l2) (fun x => (M z).U t x l2) (v z t) φs φn φ) / (a * cos φ)) =
      columnMean H top fun z => ∫ t in t1..t2, (meridionalTransport a (fun x => (M z).q t x l1) (fun x => (M z).U t x l1) (v z t) φs φn φ -
          meridionalTransport a (fun x => (M z).q t x l2) (fun x => (M z).U t x l2) (v z t) φs φn φ) / a := by
    rw [columnMean_integral h0 (G := fun z t => (meridionalTransport a (fun x => (M z).q t x l1) (fun x => (M z).U t x l1) (v z t) φs φn φ -
          meridionalTransport a (fun x => (M z).q t x l2) (fun x => (M z).U t x l2) (v z t) φs φn φ) / a)
        (((cT' l1).sub (cT' l2)).div_const a) ht]
    refine intervalIntegral.integral_congr fun t _ => ?_
    rw [columnMean_const_mul, columnMean_const_mul, columnMean_div_const, columnMean_sub (iT t l1) (iT t l2), ← mul_sub, mul_comm (cos φ),
      mul_div_mul_right _ _ hc]
  obtain ⟨iO, eO⟩ := columnMean_integral2 (H := H) h0
    (G := fun z t l => meridionalOutflow (fun x => (M z).q t x l) (fun x => (M z).V t x l) (v z t) φs φn φ) ht hl
    (cO.continuousOn.integrableOn_compact (isCompact_Icc.prod (isCompact_Icc.prod isCompact_Icc)))
    fun z => (cO.comp (f := fun p : ℝ × ℝ => (z, p.1, p.2)) (by fun_prop)).continuousOn.integrableOn_compact (isCompact_Icc.prod isCompact_Icc)
  obtain ⟨iS, eS⟩ := columnMean_integral2 (H := H) h0
    (G := fun z t l => meridionalSource a (fun x => (M z).q t x l) (fun x => (M z).S t x l) (v z t) φs φn φ) ht hl sS.1 sS.2
  obtain ⟨iv, ev⟩ := columnMean_integral2 (H := H) h0
    (G := fun z t l => meridionalSource a (fun x => (M z).q t x l) (fun _ => v' z t) (v z t) φs φn φ) ht hl sv.1 sv.2
  have iX : IntervalIntegrable (fun z => ∫ t in t1..t2, (meridionalTransport a (fun x => (M z).q t x l1) (fun x => (M z).U t x l1) (v z t) φs φn φ -
          meridionalTransport a (fun x => (M z).q t x l2) (fun x => (M z).U t x l2) (v z t) φs φn φ) / a) volume 0 top :=
    (intervalIntegral.continuous_parametric_intervalIntegral_of_continuous' (((cT' l1).sub (cT' l2)).div_const a) t1 t2).intervalIntegrable _ _
  rw [left, tran, ← eO, ← eS, ← ev, ← columnMean_sub iX iO, ← columnMean_sub iS iv, ← columnMean_add (iX.sub iO) (iS.sub iv)]
  refine columnMean_congr_on h0 fun z z0 z1 => ?_
  have split : (∫ t in t1..t2, ∫ l in l1..l2, meridionalSource a (fun x => (M z).q t x l) (fun x => (M z).S t x l) (v z t) φs φn φ) -
      (∫ t in t1..t2, ∫ l in l1..l2, meridionalSource a (fun x => (M z).q t x l) (fun _ => v' z t) (v z t) φs φn φ) =
      ∫ t in t1..t2, ∫ l in l1..l2, meridionalSource a (fun x => (M z).q t x l) (fun x => (M z).S t x l - v' z t) (v z t) φs φn φ := by
    have sd := (stacked_source hs (G := fun z t φ l => (M z).S t φ l - v' z t) (hs.cS.sub cvz) a h1 h2 top t1 t2 l1 l2).2 z
    rw [plane_integral ht hl (sS.2 z), plane_integral ht hl (sv.2 z), plane_integral ht hl sd,
      ← integral_sub (sS.2 z) (sv.2 z)]
    refine integral_congr_ae (Eventually.of_forall fun p => ?_)
    exact (meridionalSource_sub a (hs.cq.comp (f := fun x : ℝ => (z, p.1, x, p.2)) (by fun_prop))
      (hs.cS.comp (f := fun x : ℝ => (z, p.1, x, p.2)) (by fun_prop)) continuous_const _ h1 h2).symm
  have e := C180_budget (h z z0 z1) ha (fun t => hs.dv z t) (hs.cv'.comp (f := fun t : ℝ => (z, t)) (by fun_prop)) ht hl hs0 h1 h2 hn0
  rw [← split] at e
  exact e

end

namespace Atmos

variable {M : ℝ → Motion} {v v' : ℝ → ℝ → ℝ} {F : ℝ → Flow} {A : ℝ → ℕ → Atmos} {a om H top φ : ℝ} {c : Scheme}

/-- The air that moves with `M` is analysed at every time `t` on the grids `A t`; the forcing given to the flux methods is its source. -/
structure Watched (c : Scheme) (M : ℝ → Motion) (F : ℝ → Flow) (a om H top : ℝ) (A : ℝ → ℕ → Atmos) : Prop where
  seen : ∀ t, Seen c (F t) (fun φ l z => (M z).q t φ l) a om H top (A t)
  wind : ∀ t φ l z, (F t).U φ l z = (M z).U t φ l
  forced : ∀ t, ∃ e : ℕ → ℝ, (∀ n, (A t n).ForcedBy (fun φ l z => (M z).S t φ l) (e n)) ∧ Tendsto e atTop (nhds 0)

/-- At the time `t`, at points that tend to longitude `l`, what the package returns tends to the column means of wave activity, of
transport and (if the meridian meets the contours in null sets) of the source. -/
structure ColumnLimits (c : Scheme) (M : ℝ → Motion) (v : ℝ → ℝ → ℝ) (a H top φs φn φ : ℝ) (A : ℕ → Atmos) (t l : ℝ) (x g : ℕ → ℤ) :
    Prop where
  wave : Tendsto (fun n => ((A n).analysis c).lwaBaro (x n) (g n)) atTop (nhds (columnWave M v a H top φs φn φ t l))
  flux : Tendsto (fun n => ((A n).analysis c).advFluxF1 (x n) (g n) + ((A n).analysis c).advFluxF2 (x n) (g n)) atTop
    (nhds (columnTransport M v a H top φs φn φ t l))
  source : CrossesContours top (fun φ l z => (M z).q t φ l) l (fun z => v z t) →
    Tendsto (fun n => ((A n).analysis c).ncforceBaro (x n) (g n)) atTop
      (nhds (columnSource M v a H top φs φn φ t l fun z t φ l => (M z).S t φ l))

/-- The budget of the column mean of wave activity between all times and longitudes. -/
def ColumnBudget (M : ℝ → Motion) (v v' : ℝ → ℝ → ℝ) (a H top φs φn φ : ℝ) : Prop :=
  ∀ t1 t2 l1 l2 : ℝ, t1 ≤ t2 → l1 ≤ l2 →
    (∫ l in l1..l2, (columnWave M v a H top φs φn φ t2 l - columnWave M v a H top φs φn φ t1 l)) =
      (∫ t in t1..t2, (columnTransport M v a H top φs φn φ t l1 - columnTransport M v a H top φs φn φ t l2) / (a * cos φ)) -
        (∫ t in t1..t2, ∫ l in l1..l2, columnOutflow M v H top φs φn φ t l) +
        ((∫ t in t1..t2, ∫ l in l1..l2, columnSource M v a H top φs φn φ t l fun z t φ l => (M z).S t φ l) -
          ∫ t in t1..t2, ∫ l in l1..l2, columnSource M v a H top φs φn φ t l fun z t _ _ => v' z t)

theorem wind_continuous (hs : Stacked M v v') (hw : ∀ t φ l z, (F t).U φ l z = (M z).U t φ l) (t : ℝ) :
    Continuous fun p : ℝ × ℝ × ℝ => (F t).U p.1 p.2.1 p.2.2 := by
  simp only [hw]
  exact hs.cU.comp (f := fun p : ℝ × ℝ × ℝ => (p.2.2, t, p.1, p.2.1)) (by fun_prop)

theorem source_continuous (hs : Stacked M v v') (t : ℝ) : Continuous fun p : ℝ × ℝ × ℝ => (M p.2.2).S t p.1 p.2.1 :=
  hs.cS.comp (f := fun p : ℝ × ℝ × ℝ => (p.2.2, t, p.1, p.2.1)) (by fun_prop)

/-- **C181, Northern Hemisphere, both classes.** Air whose QGPV changes only by its source is analysed at all times on ever finer grids.
The limits of `lwa_baro`, of the total advective flux and of `ncforce_baro` obey the budget of wave activity: it changes by the convergence
of the flux along longitude divided by `a cos φ`, by the meridional flux, and by the source less the change of the reference state. -/
theorem C181_north (h : ∀ z, 0 ≤ z → z ≤ top → (M z).Obeys a) (hs : Stacked M v v') (hA : Watched c M F a om H top A)
    (hW : ∀ t, WaveNorth a top (fun φ l z => (M z).q t φ l) φ fun z => v z t) :
    (∀ t l x g, TowardNorth (A t) x g l φ → ColumnLimits c M v a H top 0 (π / 2) φ (A t) t l x g) ∧
      ColumnBudget M v v' a H top 0 (π / 2) φ := by
  have hpi := pi_pos
  have hr := (hA.seen 0).refines
  have h0 : 0 ≤ top := by
    have := hr.height_mem 0 (k := 1) le_rfl (by have := (hr.regular 0).kmax3; omega)
    exact this.1.trans this.2
  refine ⟨fun t l x g hP => ?_, fun t1 t2 l1 l2 ht hl => ?_⟩
  · have hS := hA.seen t
    obtain ⟨θ, N, S, ε, hO⟩ := hS.observes
    obtain ⟨e, hf, he⟩ := hA.forced t
    refine ⟨(wave_north (Q := fun φ l z => (M z).q t φ l) (v := fun z => v z t) hS.tends hS.continuous hS.refines hS.last hS.partitions (hW t) hP).column, ?_, fun hcr => ?_⟩
    · have := flux_north (Q := fun φ l z => (M z).q t φ l) (v := fun z => v z t) hS.tends hS.continuous (wind_continuous hs hA.wind t) hO hS.refines hS.last hS.partitions (hW t) hP
      simp only [hA.wind] at this
      exact this
    · unfold columnSource
      exact source_north (G := fun φ l z => (M z).S t φ l) (Q := fun φ l z => (M z).q t φ l) (v := fun z => v z t)
        hS.tends hS.continuous (source_continuous hs t) hf he hS.refines hS.last hS.partitions (hW t) hcr hP
  · exact C181_column h hs hr.radius_pos.ne' h0 ht hl (by linarith) (hW 0).north (hW 0).pole.le le_rfl
      (cos_pos_of_mem_Ioo ⟨by linarith [(hW 0).north], (hW 0).pole⟩).ne'

/-- **C181, Southern Hemisphere.** -/
theorem C181_south (h : ∀ z, 0 ≤ z → z ≤ top → (M z).Obeys a) (hs : Stacked M v v') (hA : Watched c M F a om H top A)
    (hW : ∀ t, WaveSouth a top (fun φ l z => (M z).q t φ l) φ fun z => v z t) :
    (∀ t l x g, TowardSouth (A t) x g l φ → ColumnLimits c M v a H top (-(π / 2)) 0 φ (A t) t l x g) ∧
      ColumnBudget M v v' a H top (-(π / 2)) 0 φ := by
  have hpi := pi_pos
  have hr := (hA.seen 0).refines
  have h0 : 0 ≤ top := by
    have := hr.height_mem 0 (k := 1) le_rfl (by have := (hr.regular 0).kmax3; omega)
    exact this.1.trans this.2
  refine ⟨fun t l x g hP => ?_, fun t1 t2 l1 l2 ht hl => ?_⟩
  · have hS := hA.seen t
    obtain ⟨θ, N, S, ε, hO⟩ := hS.observes
    obtain ⟨e, hf, he⟩ := hA.forced t
    refine ⟨(wave_south (Q := fun φ l z => (M z).q t φ l) (v := fun z => v z t) hS.tends hS.continuous hS.refines hS.last hS.partitions (hW t) hP).column, ?_, fun hcr => ?_⟩
    · have := flux_south (Q := fun φ l z => (M z).q t φ l) (v := fun z => v z t) hS.tends hS.continuous (wind_continuous hs hA.wind t) hO hS.refines hS.last hS.partitions (hW t) hP
      simp only [hA.wind] at this
      exact this
    · unfold columnSource
      exact source_south (G := fun φ l z => (M z).S t φ l) (Q := fun φ l z => (M z).q t φ l) (v := fun z => v z t)
        hS.tends hS.continuous (source_continuous hs t) hf he hS.refines hS.last hS.partitions (hW t) hcr hP
  · exact C181_column h hs hr.radius_pos.ne' h0 ht hl le_rfl (hW 0).pole.le (hW 0).south (by linarith)
      (cos_pos_of_mem_Ioo ⟨(hW 0).pole, by linarith [(hW 0).south]⟩).ne'

/-! ### A sample: the wave of `Props/Conserved.lean`, which a source turns about the globe twice as fast as it would turn by itself -/

def driven : Motion where
  q := fun t φ l => sin φ + 2 * (cos φ * cos (l + t))
  qt := fun t φ l => -(2 * (cos φ * sin (l + t)))
  qf := fun t φ l => cos φ - 2 * (sin φ * cos (l + t))
  ql := fun t φ l => -(2 * (cos φ * sin (l + t)))
  U := fun t φ l => -(sin φ * cos (l + t))
  Ul := fun t φ l => sin φ * sin (l + t)
  V := fun t _ l => sin (l + t)
  Vf := fun t φ l => -(sin φ * sin (l + t))
  S := fun t φ l => -(cos φ * sin (l + t))

theorem driven_obeys : driven.Obeys 1 where
  dt := fun t φ l => by
    have h1 := (hasDerivAt_cos (l + t)).comp t ((hasDerivAt_id t).const_add l)
    have h2 := ((h1.const_mul (cos φ)).const_mul 2).const_add (sin φ)
    refine h2.congr_deriv ?_
    show _ = -(2 * (cos φ * sin (l + t)))
    ring
  df := fun t φ l => by
    have h2 := (hasDerivAt_sin φ).add (((hasDerivAt_cos φ).mul_const (cos (l + t))).const_mul 2)
    refine h2.congr_deriv ?_
    show _ = cos φ - 2 * (sin φ * cos (l + t))
    ring
  dl := fun t φ l => by
    have h1 := (hasDerivAt_cos (l + t)).comp l ((hasDerivAt_id l).add_const t)
    have h2 := ((h1.const_mul (cos φ)).const_mul 2).const_add (sin φ)
    refine h2.congr_deriv ?_
    show _ = -(2 * (cos φ * sin (l + t)))
    ring
  dU := fun t φ l => by
    have h1 := (hasDerivAt_cos (l + t)).comp l ((hasDerivAt_id l).add_const t)
    refine (h1.const_mul (sin φ)).neg.congr_deriv ?_
    show _ = sin φ * sin (l + t)
    ring
  dV := fun t φ l => by
    refine ((hasDerivAt_cos φ).const_mul (sin (l + t))).congr_deriv ?_
    show _ = -(sin φ * sin (l + t))
    ring
  cq := by show Continuous fun p : ℝ × ℝ × ℝ => sin p.2.1 + 2 * (cos p.2.1 * cos (p.2.2 + p.1)); fun_prop
  cqt := by show Continuous fun p : ℝ × ℝ × ℝ => -(2 * (cos p.2.1 * sin (p.2.2 + p.1))); fun_prop
  cqf := by show Continuous fun p : ℝ × ℝ × ℝ => cos p.2.1 - 2 * (sin p.2.1 * cos (p.2.2 + p.1)); fun_prop
  cql := by show Continuous fun p : ℝ × ℝ × ℝ => -(2 * (cos p.2.1 * sin (p.2.2 + p.1))); fun_prop
  cU := by show Continuous fun p : ℝ × ℝ × ℝ => -(sin p.2.1 * cos (p.2.2 + p.1)); fun_prop
  cUl := by show Continuous fun p : ℝ × ℝ × ℝ => sin p.2.1 * sin (p.2.2 + p.1); fun_prop
  cV := by show Continuous fun p : ℝ × ℝ × ℝ => sin (p.2.2 + p.1); fun_prop
  cVf := by show Continuous fun p : ℝ × ℝ × ℝ => -(sin p.2.1 * sin (p.2.2 + p.1)); fun_prop
  cS := by show Continuous fun p : ℝ × ℝ × ℝ => -(cos p.2.1 * sin (p.2.2 + p.1)); fun_prop
  mass := fun t φ l _ _ => by
    show sin φ * sin (l + t) + -(sin φ * sin (l + t)) = 0
    ring
  law := fun t φ l _ _ => by
    show 1 * cos φ * -(2 * (cos φ * sin (l + t))) + -(sin φ * cos (l + t)) * -(2 * (cos φ * sin (l + t))) +
      sin (l + t) * cos φ * (cos φ - 2 * (sin φ * cos (l + t))) = 1 * cos φ * -(cos φ * sin (l + t))
    ring
  periodicq := fun t φ l => by
    show sin φ + 2 * (cos φ * cos (l + 2 * π + t)) = sin φ + 2 * (cos φ * cos (l + t))
    rw [show l + 2 * π + t = l + t + 2 * π by ring, cos_add_two_pi]
  periodicU := fun t φ l => by
    show -(sin φ * cos (l + 2 * π + t)) = -(sin φ * cos (l + t))
    rw [show l + 2 * π + t = l + t + 2 * π by ring, cos_add_two_pi]

theorem driven_stacked (v : ℝ) : Stacked (fun _ => driven) (fun _ _ => v) fun _ _ => 0 where
  cq := by show Continuous fun p : ℝ × ℝ × ℝ × ℝ => sin p.2.2.1 + 2 * (cos p.2.2.1 * cos (p.2.2.2 + p.2.1)); fun_prop
  cU := by show Continuous fun p : ℝ × ℝ × ℝ × ℝ => -(sin p.2.2.1 * cos (p.2.2.2 + p.2.1)); fun_prop
  cV := by show Continuous fun p : ℝ × ℝ × ℝ × ℝ => sin (p.2.2.2 + p.2.1); fun_prop
  cS := by show Continuous fun p : ℝ × ℝ × ℝ × ℝ => -(cos p.2.2.1 * sin (p.2.2.2 + p.2.1)); fun_prop
  cv := continuous_const
  cv' := continuous_const
  dv := fun _ t => hasDerivAt_const t v

theorem driven_q (t : ℝ) : precessionQ (2 * t) = fun φ l _ => driven.q t φ l := by
  funext φ l z
  show sin φ + 2 * (cos φ * cos (l + 2 * t / 2)) = sin φ + 2 * (cos φ * cos (l + t))
  rw [mul_div_cancel_left₀ t two_ne_zero]

theorem driven_watched (c : Scheme) : Watched c (fun _ => driven) turned 1 (1 / 2) 1 1 turnedFine where
  seen := fun t => by
    have h := turnedFine_seen c (2 * t)
    rw [driven_q, mul_div_cancel_left₀ t two_ne_zero] at h
    exact h
  wind := fun _ _ _ _ => rfl
  forced := fun t => ⟨fun _ => 0, fun n i j k _ _ _ => by
    have e : (turnedFine t n).ncforce i j k =
      -(cos ((turnedFine t n).sphere.latitude j) * sin ((turnedFine t n).sphere.longitude i + t)) := rfl
    rw [e]
    show |_ - -(cos _ * sin (_ + t))| ≤ 0
    rw [sub_self, abs_zero], tendsto_const_nhds⟩

/-- The wave at any time has the reference values of the precession. -/
theorem driven_encloses {T v : ℝ} (h : Encloses 1 (precession.q 0) (-(π / 2)) (π / 2) T v) (t : ℝ) :
    Encloses 1 (driven.q t) (-(π / 2)) (π / 2) T v := by
  have e : driven.q t = precession.q (2 * t) := by
    funext φ l
    exact (congrFun (congrFun (congrFun (driven_q t) φ) l) 0).symm
  rw [e]
  exact C179_sphere precession_obeys (fun _ _ _ => rfl) 0 (2 * t) T v h

theorem driven_crosses (t v : ℝ) : CrossesContours 1 (fun φ l _ => driven.q t φ l) 0 fun _ => v := fun z _ _ => by
  have hf : AnalyticOnNhd ℝ (fun y => driven.q t y 0 - v) Set.univ := fun y _ => by
    have : ContDiff ℝ ⊤ fun y => driven.q t y 0 - v := by
      unfold driven
      fun_prop
    exact this.contDiffAt.analyticAt
  obtain ⟨y, hy⟩ : ∃ y, driven.q t y 0 - v ≠ 0 := by
    by_contra h
    push Not at h
    have h1 := h (π / 2)
    have h2 := h (-(π / 2))
    simp only [driven, sin_neg, cos_neg, sin_pi_div_two, cos_pi_div_two] at h1 h2
    linarith
  have hc := hf.preimage_zero_mem_codiscrete hy
  rw [Filter.codiscrete] at hc
  have h := ae_restrict_le_codiscreteWithin (μ := volume) MeasurableSet.univ hc
  rw [Measure.restrict_univ] at h
  refine measure_mono_null (fun y hy => ?_) h
  have : driven.q t y 0 - v = 0 := sub_eq_zero.2 hy.2
  simpa using this

/-- The limit of `ncforce_baro` in the sample below is not conditional. -/
example (c : Scheme) (t v : ℝ) (x g : ℕ → ℤ)
    (h : ColumnLimits c (fun _ => driven) (fun _ _ => v) 1 1 1 0 (π / 2) (π / 4) (turnedFine t) t 0 x g) :
    Tendsto (fun n => ((turnedFine t n).analysis c).ncforceBaro (x n) (g n)) atTop
      (nhds (columnSource (fun _ => driven) (fun _ _ => v) 1 1 1 0 (π / 2) (π / 4) t 0 fun _ t φ l => driven.S t φ l)) :=
  h.source (driven_crosses t v)

/-- Hypotheses of `C181_north` and `C181_south` (and so of `C181_column`), at 45°N and 45°S. -/
example : ∃ v w : ℝ, ∀ c : Scheme,
    ((∀ t, ColumnLimits c (fun _ => driven) (fun _ _ => v) 1 1 1 0 (π / 2) (π / 4) (turnedFine t) t 0 (fun _ => 1)
        fun n => (turnedFine t n).nd + (n + 1)) ∧
      ColumnBudget (fun _ => driven) (fun _ _ => v) (fun _ _ => 0) 1 1 1 0 (π / 2) (π / 4)) ∧
    ((∀ t, ColumnLimits c (fun _ => driven) (fun _ _ => w) 1 1 1 (-(π / 2)) 0 (-(π / 4)) (turnedFine t) t 0 (fun _ => 1)
        fun n => (turnedFine t n).nd - (n + 1)) ∧
      ColumnBudget (fun _ => driven) (fun _ _ => w) (fun _ _ => 0) 1 1 1 (-(π / 2)) 0 (-(π / 4))) := by
  have hpi := pi_pos
  obtain ⟨v, hv⟩ := precession_encloses (φ := π / 4) (by linarith) (by linarith)
  obtain ⟨w, hw⟩ := precession_encloses (φ := -(π / 4)) (by linarith) (by linarith)
  have hN : ∀ t, WaveNorth 1 1 (fun φ l _ => driven.q t φ l) (π / 4) fun _ => v := fun t =>
    ⟨by linarith, by linarith, fun z _ _ => by have := precession_high (2 * t) z; rw [driven_q] at this; exact this,
      fun _ _ _ => driven_encloses hv t⟩
  have hS : ∀ t, WaveSouth 1 1 (fun φ l _ => driven.q t φ l) (-(π / 4)) fun _ => w := fun t =>
    ⟨by linarith, by linarith, fun z _ _ => by have := precession_low (2 * t) z; rw [driven_q] at this; exact this,
      fun _ _ _ => driven_encloses hw t⟩
  refine ⟨v, w, fun c => ?_⟩
  have n := C181_north (H := 1) (fun _ _ _ => driven_obeys) (driven_stacked v) (driven_watched c) hN
  have s := C181_south (H := 1) (fun _ _ _ => driven_obeys) (driven_stacked w) (driven_watched c) hS
  exact ⟨⟨fun t => n.1 t 0 _ _ (turnedFine_north t), n.2⟩, ⟨fun t => s.1 t 0 _ _ (turnedFine_south t), s.2⟩⟩

end Atmos

end Falwa

end
