import Verif.Props.HemPrescribed
import Verif.Props.Rearrange
import Verif.Props.Defaults

/-!
# C202: the two parts of the wave activity (`return_partitioned_lwa=True`) on ever finer grids
-/

noncomputable section

namespace Falwa

open Finset Spec MeasureTheory Filter

/-- Anomalies of air with values below `v` that lies north of `φ`. -/
def Spec.deficitNorth (a : ℝ) (q : ℝ → ℝ) (v n φ : ℝ) : ℝ := ∫ x in φ..n, max (v - q x) 0 * (a * Real.cos x)

/-- Anomalies of air with values above `v` that lies south of `φ`. -/
def Spec.surplusSouth (a : ℝ) (q : ℝ → ℝ) (v s φ : ℝ) : ℝ := ∫ x in s..φ, max (q x - v) 0 * (a * Real.cos x)

variable {a φ σ l v : ℝ} {q : ℝ → ℝ → ℝ} {nlat nlon : ℕ → ℕ} {np : ℕ → Option ℕ} {j c : ℕ → ℕ}

theorem whole_grids (h1 : ∀ i, 3 ≤ nlat i) (h2 : ∀ i, 1 ≤ nlon i) (hlat : Tendsto nlat atTop atTop) (hlon : Tendsto nlon atTop atTop) :
    HemGrids nlat nlon (fun i => some (nlat i)) (fun _ => none) (Real.pi / 2) := by
  have hpi := Real.pi_pos
  refine ⟨h1, h2, fun i => ?_, fun i => le_rfl, fun i => ?_, hlat, hlon, hlat, by linarith, le_rfl, ?_⟩
  · show 0 < nlat i
    have := h1 i; omega
  · show 2 ≤ nlat i
    have := h1 i; omega
  · show Tendsto (fun i => (nlat i : ℝ) * (Real.pi / ((nlat i - 1 : ℕ) : ℝ))) atTop (nhds (Real.pi / 2 + Real.pi / 2))
    have hN : Tendsto (fun i => Real.pi / ((nlat i - 1 : ℕ) : ℝ)) atTop (nhds 0) :=
      tendsto_const_nhds.div_atTop (tendsto_natCast_atTop_atTop.comp ((tendsto_sub_atTop_nat 1).comp hlat))
    have := hN.const_add Real.pi
    rw [add_zero] at this
    rw [add_halves]
    refine this.congr fun i => ?_
    have h5 : (0 : ℝ) < ((nlat i - 1 : ℕ) : ℝ) := by exact_mod_cast (by have := h1 i; omega : 0 < nlat i - 1)
    have h6 : (nlat i : ℝ) = ((nlat i - 1 : ℕ) : ℝ) + 1 := by exact_mod_cast (by have := h1 i; omega : nlat i = nlat i - 1 + 1)
    rw [h6]
    field_simp

theorem cyclonic_sum {N : ℕ} {vort : ℕ → ℕ → ℝ} {Q dmu : ℕ → ℝ} {j c : ℕ} (h : j + 1 < N) : lwaCyclonic N vort Q dmu j c =
    ∑ r ∈ range N, (if r ≤ j then max (vort r c - Q j) 0 else 0) * dmu r := by
  rw [lwaCyclonic_eq_spec h, surplus_eq]

theorem regularLength_nonneg (ha : 0 ≤ a) {n r : ℕ} (hn : 3 ≤ n) (hr : r < n) : 0 ≤ regularLength a n r := by
  have hpi := Real.pi_pos
  have hb := regularLat_range hn hr
  unfold regularLength
  refine mul_nonneg (mul_nonneg ha (Real.cos_nonneg_of_mem_Icc ⟨?_, ?_⟩)) (by positivity)
  · nlinarith [hb.1]
  · nlinarith [hb.2]

/-- The sums of both parts, with any profile that tends to `v` at the rows. -/
theorem parts_tend (ha : 0 ≤ a) (hq : Continuous fun p : ℝ × ℝ => q p.1 p.2) (h1 : ∀ i, 3 ≤ nlat i) (h2 : ∀ i, 1 ≤ nlon i)
    (hlat : Tendsto nlat atTop atTop) (hlon : Tendsto nlon atTop atTop) (hj : ∀ i, j i + 1 < nlat i)
    (hrow : Tendsto (fun i => regularLat (nlat i) (j i) * Real.pi / 180) atTop (nhds φ)) (h3 : -(Real.pi / 2) < φ) (h4 : φ < Real.pi / 2)
    (hc : Tendsto (fun i => 2 * Real.pi * c i / nlon i) atTop (nhds l)) {f : ℕ → ℕ → ℝ} (hf : Tendsto (fun i => f i (j i)) atTop (nhds v)) :
    Tendsto (fun i => lwaAnticyclonic (nlat i) (sampled q (nlat i) (nlon i)) (f i) (regularLength a (nlat i)) (j i) (c i)) atTop
        (nhds (deficitNorth a (fun x => q x l) v (Real.pi / 2) φ)) ∧
      Tendsto (fun i => lwaCyclonic (nlat i) (sampled q (nlat i) (nlon i)) (f i) (regularLength a (nlat i)) (j i) (c i)) atTop
        (nhds (surplusSouth a (fun x => q x l) v (-(Real.pi / 2)) φ)) := by
  have hg := whole_grids h1 h2 hlat hlon
  have total := hg.activity (a := a) (fun i => hj i) hrow h3 h4 hq hc hf
  have hqm : Continuous fun p : ℝ × ℝ => (fun x y => max (q x y) v) p.1 p.2 := hq.max continuous_const
  have fixed := hg.activity (a := a) (q := fun x y => max (q x y) v) (fun i => hj i) hrow h3 h4 hqm hc (f := fun _ _ => v) tendsto_const_nhds
  have mass := hg.activity (a := a) (fun i => hj i) hrow h3 h4 (q := fun _ _ => 1) continuous_const hc (f := fun _ _ => 0) tendsto_const_nhds
  have eL : meridionalWaveActivity a (fun y => max (q y l) v) v (-(Real.pi / 2)) (Real.pi / 2) φ =
      surplusSouth a (fun x => q x l) v (-(Real.pi / 2)) φ := by
    unfold meridionalWaveActivity surplusSouth
    have z : ∀ x, max (v - max (q x l) v) 0 = 0 := fun x => max_eq_right (by linarith [le_max_right (q x l) v])
    have w : ∀ x, max (max (q x l) v - v) 0 = max (q x l - v) 0 := fun x => by
      rw [← max_sub_sub_right, sub_self, max_assoc, max_self]
    simp only [z, w, zero_mul, intervalIntegral.integral_zero, zero_add]
  rw [eL] at fixed
  have eF : ∀ i, lwaTotal (nlat i) (sampled (fun x y => max (q x y) v) (nlat i) (nlon i)) (fun _ => v) (regularLength a (nlat i)) (j i) (c i) =
      lwaCyclonic (nlat i) (sampled q (nlat i) (nlon i)) (fun _ => v) (regularLength a (nlat i)) (j i) (c i) := fun i => by
    rw [lwaTotal_sum (hj i), cyclonic_sum (hj i)]
    refine sum_congr rfl fun r _ => ?_
    congr 1
    have e : sampled (fun x y => max (q x y) v) (nlat i) (nlon i) r (c i) = max (sampled q (nlat i) (nlon i) r (c i)) v := rfl
    rw [e]
    by_cases hr : j i < r
    · rw [if_pos hr, if_neg (by omega)]
      exact max_eq_right (by linarith [le_max_right (sampled q (nlat i) (nlon i) r (c i)) v])
    · rw [if_neg hr, if_pos (by omega), ← max_sub_sub_right, sub_self, max_assoc, max_self]
  have bound : ∀ i, |lwaCyclonic (nlat i) (sampled q (nlat i) (nlon i)) (f i) (regularLength a (nlat i)) (j i) (c i) -
      lwaCyclonic (nlat i) (sampled q (nlat i) (nlon i)) (fun _ => v) (regularLength a (nlat i)) (j i) (c i)| ≤
      |f i (j i) - v| * lwaTotal (nlat i) (sampled (fun _ _ => 1) (nlat i) (nlon i)) (fun _ => 0) (regularLength a (nlat i)) (j i) (c i) := fun i => by
    rw [cyclonic_sum (hj i), cyclonic_sum (hj i), lwaTotal_sum (hj i), ← sum_sub_distrib, mul_sum]
    refine (abs_sum_le_sum_abs _ _).trans (sum_le_sum fun r hr => ?_)
    have hd := regularLength_nonneg ha (h1 i) (mem_range.1 hr)
    rw [← sub_mul, abs_mul, abs_of_nonneg hd, ← mul_assoc]
    refine mul_le_mul_of_nonneg_right ?_ hd
    by_cases hr : j i < r
    · rw [if_neg (by omega), if_neg (by omega), sub_self, abs_zero]
      refine mul_nonneg (abs_nonneg _) ?_
      rw [if_pos hr]
      exact le_max_right _ _
    · rw [if_pos (by omega), if_pos (by omega), if_neg hr]
      have e : sampled (fun _ _ : ℝ => (1 : ℝ)) (nlat i) (nlon i) r (c i) = 1 := rfl
      rw [e, sub_zero, max_eq_left zero_le_one, mul_one]
      refine (abs_max_sub_max_le_abs _ _ _).trans (le_of_eq ?_)
      rw [sub_sub_sub_cancel_left, abs_sub_comm]
  have hz : Tendsto (fun i => |f i (j i) - v| * lwaTotal (nlat i) (sampled (fun _ _ => 1) (nlat i) (nlon i)) (fun _ => 0)
      (regularLength a (nlat i)) (j i) (c i)) atTop (nhds 0) := by
    have h0 : Tendsto (fun i => |f i (j i) - v|) atTop (nhds 0) := by
      have := (hf.sub_const v).abs
      rwa [sub_self, abs_zero] at this
    have := h0.mul mass
    rw [zero_mul] at this
    exact this
  have hd := squeeze_zero_norm (f := fun i => lwaCyclonic (nlat i) (sampled q (nlat i) (nlon i)) (f i) (regularLength a (nlat i)) (j i) (c i) -
      lwaCyclonic (nlat i) (sampled q (nlat i) (nlon i)) (fun _ => v) (regularLength a (nlat i)) (j i) (c i)) (a := fun i => |f i (j i) - v| * lwaTotal (nlat i) (sampled (fun _ _ => 1) (nlat i) (nlon i)) (fun _ => 0)
      (regularLength a (nlat i)) (j i) (c i)) bound hz
  have south : Tendsto (fun i => lwaCyclonic (nlat i) (sampled q (nlat i) (nlon i)) (f i) (regularLength a (nlat i)) (j i) (c i)) atTop
      (nhds (surplusSouth a (fun x => q x l) v (-(Real.pi / 2)) φ)) := by
    have := hd.add (fixed.congr eF)
    rw [zero_add] at this
    exact this.congr fun i => sub_add_cancel _ _
  refine ⟨?_, south⟩
  have := total.sub south
  have e : meridionalWaveActivity a (fun y => q y l) v (-(Real.pi / 2)) (Real.pi / 2) φ - surplusSouth a (fun x => q x l) v (-(Real.pi / 2)) φ =
      deficitNorth a (fun x => q x l) v (Real.pi / 2) φ := by
    unfold meridionalWaveActivity surplusSouth deficitNorth
    ring
  rw [e] at this
  refine this.congr fun i => ?_
  show lwaTotal (nlat i) _ _ _ _ _ - _ = _
  unfold lwaTotal
  ring

theorem parts_congr {N : ℕ} {vort : ℕ → ℕ → ℝ} {Q d d' : ℕ → ℝ} (h : ∀ r < N, d r = d' r) (j c : ℕ) :
    lwaAnticyclonic N vort Q d j c = lwaAnticyclonic N vort Q d' j c ∧ lwaCyclonic N vort Q d j c = lwaCyclonic N vort Q d' j c := by
  unfold lwaAnticyclonic lwaCyclonic
  constructor <;> split_ifs <;> first | rfl | exact sum_congr rfl fun r hr => by rw [h r (mem_range.1 hr)]

/-- **C202.** A new `BarotropicField` with `return_partitioned_lwa=True` holds two fields. The first tends to the deficits north of the
latitude, the second to the surpluses south of it, about the value whose contour encloses the area south of the latitude. -/
theorem C202_object (ha : 0 < a) (hq : Continuous fun p : ℝ × ℝ => q p.1 p.2) (h1 : ∀ i, 3 ≤ nlat i) (h2 : ∀ i, 1 ≤ nlon i)
    (hp : ∀ i, 2 ≤ (np i).getD (nlat i)) (hlat : Tendsto nlat atTop atTop) (hlon : Tendsto nlon atTop atTop)
    (hnp : Tendsto (fun i => (np i).getD (nlat i)) atTop atTop) (hj : ∀ i, j i + 1 < nlat i)
    (hrow : Tendsto (fun i => regularLat (nlat i) (j i) * Real.pi / 180) atTop (nhds φ)) (h3 : -(Real.pi / 2) < φ) (h4 : φ < Real.pi / 2)
    (hc : Tendsto (fun i => 2 * Real.pi * c i / nlon i) atTop (nhds l)) (hv : Encloses a q (-(Real.pi / 2)) (Real.pi / 2) (southCap a φ) v) :
    ∃ A C : ℕ → ℕ → ℕ → ℝ,
      (∀ i, (baroStep (baroInit (nlat i) (nlon i) (regularLat (nlat i)) a true none none (np i)) (baroFresh (sampled q (nlat i) (nlon i)))
        .readLwa).2 = .lwa (.ok (.partitioned (A i) (C i)))) ∧
      Tendsto (fun i => A i (j i) (c i)) atTop (nhds (deficitNorth a (fun x => q x l) v (Real.pi / 2) φ)) ∧
      Tendsto (fun i => C i (j i) (c i)) atTop (nhds (surplusSouth a (fun x => q x l) v (-(Real.pi / 2)) φ)) := by
  choose Q hQ _ _ using fun i => barotropic_grid ha (h1 i) (h2 i) (np i) (hp i) q
  have hQlim := C159_profile ha hq h1 h2 hp hlat hlon hnp (fun i => (Nat.lt_succ_self _).trans (hj i)) hrow h4 h3 hv hQ
  obtain ⟨t1, t2⟩ := parts_tend ha.le hq h1 h2 hlat hlon hj hrow h3 h4 hc hQlim
  have hlen : ∀ i, ∀ r < nlat i, (baroInit (nlat i) (nlon i) (regularLat (nlat i)) a true none none (np i)).dmu r = regularLength a (nlat i) r :=
    fun i r hr => by
      have e := lengthElement_regular (h1 i) a hr
      rw [show Real.pi / 2 - -(Real.pi / 2) = Real.pi by ring] at e
      unfold regularLength
      rw [regularLat_step, ← e]
      rfl
  refine ⟨fun i => lwaAnticyclonic (nlat i) (sampled q (nlat i) (nlon i)) (Q i) (baroInit (nlat i) (nlon i) (regularLat (nlat i)) a true none none (np i)).dmu,
    fun i => lwaCyclonic (nlat i) (sampled q (nlat i) (nlon i)) (Q i) (baroInit (nlat i) (nlon i) (regularLat (nlat i)) a true none none (np i)).dmu,
    fun i => ?_, t1.congr fun i => ((parts_congr (hlen i) _ _).1).symm, t2.congr fun i => ((parts_congr (hlen i) _ _).2).symm⟩
  have hr := (C25_read_values (baroInit (nlat i) (nlon i) (regularLat (nlat i)) a false none none (np i)) (sampled q (nlat i) (nlon i))).1
  rw [hQ i] at hr
  injection hr with hr
  have hr' : ((baroInit (nlat i) (nlon i) (regularLat (nlat i)) a true none none (np i)).eqvInput (sampled q (nlat i) (nlon i))).qref = .ok (Q i) :=
    hr.symm
  rw [(C25_read_values _ _).2, hr']
  rfl

/-- **C202 for the function** `barotropic_eqlat_lwa`, called with the areas and length elements of the sphere. -/
theorem C202_function (ha : 0 < a) (hq : Continuous fun p : ℝ × ℝ => q p.1 p.2) (h1 : ∀ i, 3 ≤ nlat i) (h2 : ∀ i, 1 ≤ nlon i)
    (hp : ∀ i, 2 ≤ (np i).getD (nlat i)) (hlat : Tendsto nlat atTop atTop) (hlon : Tendsto nlon atTop atTop)
    (hnp : Tendsto (fun i => (np i).getD (nlat i)) atTop atTop) (hj : ∀ i, j i + 1 < nlat i)
    (hrow : Tendsto (fun i => regularLat (nlat i) (j i) * Real.pi / 180) atTop (nhds φ)) (h3 : -(Real.pi / 2) < φ) (h4 : φ < Real.pi / 2)
    (hc : Tendsto (fun i => 2 * Real.pi * c i / nlon i) atTop (nhds l)) (hv : Encloses a q (-(Real.pi / 2)) (Real.pi / 2) (southCap a φ) v) :
    ∃ A C : ℕ → ℕ → ℕ → ℝ,
      (∀ i, (barotropicCall (nlat i) (nlon i) (regularLat (nlat i)) (sampled q (nlat i) (nlon i))
        (cellArea a (nlon i) (regularLat (nlat i)) (poleToPole (nlat i))) (lengthElement a (regularLat (nlat i)) (poleToPole (nlat i))) (np i) a
        true).map Prod.snd = .ok (.partitioned (A i) (C i))) ∧
      Tendsto (fun i => A i (j i) (c i)) atTop (nhds (deficitNorth a (fun x => q x l) v (Real.pi / 2) φ)) ∧
      Tendsto (fun i => C i (j i) (c i)) atTop (nhds (surplusSouth a (fun x => q x l) v (-(Real.pi / 2)) φ)) := by
  obtain ⟨A, C, h, hA, hC⟩ := C202_object ha hq h1 h2 hp hlat hlon hnp hj hrow h3 h4 hc hv
  refine ⟨A, C, fun i => ?_, hA, hC⟩
  have e := (C108_object_agrees_with_function (nlat i) (nlon i) (regularLat (nlat i)) (sampled q (nlat i) (nlon i)) a true none none (np i)).2
  rw [h i] at e
  injection e with e
  exact e.symm

/-- **C202 (mirrored).** For the mirrored field, with the sign changed, the two limits exchange their roles: what is the first component in the
Northern Hemisphere is the second in the Southern. -/
theorem C202_mirror (a : ℝ) (q : ℝ → ℝ) (v n φ : ℝ) :
    deficitNorth a (fun x => - q (-x)) (-v) n (-φ) = surplusSouth a q v (-n) φ ∧
      surplusSouth a (fun x => - q (-x)) (-v) (-n) (-φ) = deficitNorth a q v n φ := by
  unfold deficitNorth surplusSouth
  constructor
  · have := intervalIntegral.integral_comp_neg (a := -φ) (b := n) (fun x => max (q x - v) 0 * (a * Real.cos x))
    rw [neg_neg] at this
    rw [← this]
    refine intervalIntegral.integral_congr fun x _ => ?_
    simp only [Real.cos_neg]
    rw [show -v - -q (-x) = q (-x) - v by ring]
  · have := intervalIntegral.integral_comp_neg (a := -n) (b := -φ) (fun x => max (v - q x) 0 * (a * Real.cos x))
    rw [neg_neg, neg_neg] at this
    rw [← this]
    refine intervalIntegral.integral_congr fun x _ => ?_
    simp only [Real.cos_neg]
    rw [show -q (-x) - -v = v - q (-x) by ring]

/-- Hypotheses of `C202_object` and `C202_function`: any continuous field, rows at 45°N. -/
example {q : ℝ → ℝ → ℝ} (hq : Continuous fun p : ℝ × ℝ => q p.1 p.2) : ∃ (v : ℝ) (A C : ℕ → ℕ → ℕ → ℝ),
    (∀ i, (baroStep (baroInit (4 * (i + 2) + 1) (i + 1) (regularLat (4 * (i + 2) + 1)) 1 true none none none)
      (baroFresh (sampled q (4 * (i + 2) + 1) (i + 1))) .readLwa).2 = .lwa (.ok (.partitioned (A i) (C i)))) ∧
    Tendsto (fun i => A i (3 * (i + 2)) 0) atTop (nhds (deficitNorth 1 (fun x => q x 0) v (Real.pi / 2) (Real.pi / 4))) ∧
    Tendsto (fun i => C i (3 * (i + 2)) 0) atTop (nhds (surplusSouth 1 (fun x => q x 0) v (-(Real.pi / 2)) (Real.pi / 4))) := by
  have hpi := Real.pi_pos
  have hA0 : 0 < 2 * Real.pi * (1 : ℝ) ^ 2 := by positivity
  have hs : 0 < Real.sin (Real.pi / 4) := Real.sin_pos_of_pos_of_lt_pi (by positivity) (by linarith)
  have hs' : Real.sin (Real.pi / 4) < 1 := by
    rw [← Real.sin_pi_div_two]
    exact Real.sin_lt_sin_of_lt_of_le_pi_div_two (by linarith) le_rfl (by linarith)
  obtain ⟨v, hv, _⟩ := C159_reference_exists (a := 1) (T := southCap 1 (Real.pi / 4)) one_pos hq le_rfl (by linarith : -(Real.pi / 2) < Real.pi / 2) le_rfl
    (by unfold southCap; exact mul_pos hA0 (by linarith))
    (by unfold southCap; rw [Real.sin_neg, Real.sin_pi_div_two]; exact mul_lt_mul_of_pos_left (by linarith) hA0)
  have hlat : Tendsto (fun i : ℕ => 4 * (i + 2) + 1) atTop atTop := tendsto_atTop_mono (fun i => (by omega : i ≤ 4 * (i + 2) + 1)) tendsto_id
  obtain ⟨A, C, h⟩ := C202_object (np := fun _ => none) (j := fun i => 3 * (i + 2)) (c := fun _ => 0) (l := 0) one_pos hq (fun i => by omega)
    (fun i => by omega) (fun i => by show 2 ≤ 4 * (i + 2) + 1; omega) hlat (tendsto_add_atTop_nat 1) hlat (fun i => by omega) quarter_north.toward
    (by linarith) (by linarith) (by simp) hv
  exact ⟨v, A, C, h⟩

end Falwa

end
