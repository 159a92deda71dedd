import Verif.Model.EqvlatRounding
import Verif.Props.Stability
import Verif.Props.Rounding
import Verif.Props.AreaRounding
import Verif.Props.InterpRounding
import Verif.Props.Arange
import Mathlib.Analysis.Calculus.Deriv.MeanValue
import Mathlib.Analysis.Real.Pi.Bounds

/-!
# C210: the reference profile with rounding
-/

noncomputable section

namespace Falwa

open Finset Real Spec

/-- Machine arithmetic with unit roundoff `u` and a number `p` for pi, as in IEEE 754 with rounding to nearest without overflow and underflow. -/
structure Rounds (u : ℝ) (fl : ℝ → ℝ) (p : ℝ) : Prop where
  nonneg : 0 ≤ u
  rel : RelativeError u fl
  mono : Monotone fl
  one : fl 1 = 1
  two : fl 2 = 2
  neg_one : fl (-1) = -1
  pi : |p - π| ≤ u * π

variable {u p : ℝ} {fl : ℝ → ℝ}

theorem Rounds.zero (h : Rounds u fl p) : fl 0 = 0 := by
  have := h.rel 0
  rw [sub_zero, abs_zero, mul_zero] at this
  exact abs_eq_zero.1 (le_antisymm this (abs_nonneg _))

theorem Rounds.fl_nonneg (h : Rounds u fl p) {x : ℝ} (hx : 0 ≤ x) : 0 ≤ fl x := by
  rw [← h.zero]
  exact h.mono hx

/-! ### Powers of the relative error -/

theorem one_sub_le_pow {u : ℝ} (hu : u ≤ 1) (n : ℕ) : 1 - n * u ≤ (1 - u) ^ n := by
  have := one_add_mul_le_pow (a := -u) (by linarith) n
  rw [← sub_eq_add_neg] at this
  linarith

theorem pow_mul_pow_le {u : ℝ} (h0 : 0 ≤ u) (hu : u ≤ 1) (n : ℕ) : (1 + u) ^ n * (1 - u) ^ n ≤ 1 := by
  rw [← mul_pow]
  exact pow_le_one₀ (mul_nonneg (by linarith) (by linarith)) (by nlinarith)

/-- Rounded numerator and denominator together. -/
theorem quotient_upper {u : ℝ} (h0 : 0 ≤ u) (hu : u ≤ 1) (m k : ℕ) : (1 - ((m + k : ℕ) : ℝ) * u) * (1 + u) ^ m ≤ (1 - u) ^ k := by
  have h1 := one_sub_le_pow hu (m + k)
  have h2 : (0 : ℝ) ≤ (1 + u) ^ m := pow_nonneg (by linarith) m
  have h3 : (0 : ℝ) ≤ (1 - u) ^ k := pow_nonneg (by linarith) k
  have h4 := pow_mul_pow_le h0 hu m
  calc (1 - ((m + k : ℕ) : ℝ) * u) * (1 + u) ^ m ≤ (1 - u) ^ (m + k) * (1 + u) ^ m := mul_le_mul_of_nonneg_right h1 h2
    _ = ((1 + u) ^ m * (1 - u) ^ m) * (1 - u) ^ k := by rw [pow_add]; ring
    _ ≤ 1 * (1 - u) ^ k := mul_le_mul_of_nonneg_right h4 h3
    _ = (1 - u) ^ k := one_mul _

theorem quotient_lower {u : ℝ} (h0 : 0 ≤ u) (hu : u ≤ 1) (m k : ℕ) : (1 - ((m + k : ℕ) : ℝ) * u) * (1 + u) ^ k ≤ (1 - u) ^ m := by
  have := quotient_upper h0 hu k m
  rwa [add_comm k m] at this

/-! ### The bins -/

/-- A field and areas as arrays of machine numbers. -/
structure EqvInput.Stored (I : EqvInput) (fl : ℝ → ℝ) : Prop where
  nlat_pos : 0 < I.nlat
  nlon_pos : 0 < I.nlon
  points : 2 ≤ I.nPoints
  radius_pos : 0 < I.radius
  area_nonneg : ∀ r < I.nlat, ∀ c < I.nlon, 0 ≤ I.area r c
  stored : ∀ r < I.nlat, ∀ c < I.nlon, fl (I.vort r c) = I.vort r c

namespace EqvInput

variable {I : EqvInput} {t : ℕ → Option SumOrder} {D : ℕ}

theorem Stored.cells (hI : I.Stored fl) : (cells I.nlat I.nlon).Nonempty :=
  ⟨(0, 0), mem_cells.2 ⟨hI.nlat_pos, hI.nlon_pos⟩⟩

theorem Stored.amin (hI : I.Stored fl) : fl (amin I.nlat I.nlon I.vort) = amin I.nlat I.nlon I.vort := by
  obtain ⟨q, hq, e⟩ := exists_amin (vort := I.vort) hI.cells
  obtain ⟨h1, h2⟩ := mem_cells.1 hq
  rw [e, hI.stored _ h1 _ h2]

theorem Stored.amax (hI : I.Stored fl) : fl (amax I.nlat I.nlon I.vort) = amax I.nlat I.nlon I.vort := by
  obtain ⟨q, hq, e⟩ := exists_amax (vort := I.vort) hI.cells
  obtain ⟨h1, h2⟩ := mem_cells.1 hq
  rw [e, hI.stored _ h1 _ h2]

theorem flBins_last (hI : I.Stored fl) : I.flBins fl (I.nPoints - 1) = Falwa.amax I.nlat I.nlon I.vort := by
  have := hI.points
  have e : I.nPoints - 1 + 1 = I.nPoints := by omega
  unfold flBins linspaceFl
  rw [if_pos e]

theorem flBins_zero (h : Rounds u fl p) (hI : I.Stored fl) : I.flBins fl 0 = Falwa.amin I.nlat I.nlon I.vort := by
  have := hI.points
  have e : ¬ 0 + 1 = I.nPoints := by omega
  unfold flBins linspaceFl
  rw [if_neg e, Nat.cast_zero, zero_mul, h.zero, zero_add, hI.amin]

theorem flBins_mono (h : Rounds u fl p) (hI : I.Stored fl) (hn : 4 * (I.nPoints : ℝ) * u ≤ 1) {i j : ℕ} (hij : i ≤ j) (hj : j < I.nPoints) :
    I.flBins fl i ≤ I.flBins fl j := by
  have h2 := hI.points
  have h0 := h.nonneg
  have hR : 0 ≤ Falwa.amax I.nlat I.nlon I.vort - Falwa.amin I.nlat I.nlon I.vort := sub_nonneg.2 amin_le_amax
  set R := Falwa.amax I.nlat I.nlon I.vort - Falwa.amin I.nlat I.nlon I.vort with hRd
  have hn2 : (2 : ℝ) ≤ I.nPoints := by exact_mod_cast h2
  have hu : u ≤ 1 / 8 := by nlinarith
  have hm : (0 : ℝ) < ((I.nPoints - 1 : ℕ) : ℝ) := by exact_mod_cast (by omega : 0 < I.nPoints - 1)
  have em : ((I.nPoints - 1 : ℕ) : ℝ) = I.nPoints - 1 := by rw [Nat.cast_sub (by omega), Nat.cast_one]
  set s := fl (fl R / ((I.nPoints - 1 : ℕ) : ℝ)) with hs
  have hs0 : 0 ≤ s := h.fl_nonneg (div_nonneg (h.fl_nonneg hR) hm.le)
  by_cases hjl : j + 1 = I.nPoints
  · have ej : I.flBins fl j = Falwa.amax I.nlat I.nlon I.vort := by unfold flBins linspaceFl; rw [if_pos hjl]
    by_cases hil : i + 1 = I.nPoints
    · rw [show i = j by omega]
    · rw [ej, ← hI.amax]
      unfold flBins linspaceFl
      rw [if_neg hil]
      refine h.mono ?_
      have hx : 0 ≤ (i : ℝ) * s := mul_nonneg (Nat.cast_nonneg _) hs0
      have a1 : Approx u 3 ((i : ℝ) * (R / ((I.nPoints - 1 : ℕ) : ℝ))) (fl ((i : ℝ) * s)) := by
        have b1 : Approx u 2 (R / ((I.nPoints - 1 : ℕ) : ℝ)) s := by
          have := (((approx_abs h.rel hR).mul_right (inv_nonneg.2 hm.le))).fl h.rel h0 (by linarith) (mul_nonneg hR (inv_nonneg.2 hm.le))
          rwa [← div_eq_mul_inv, ← div_eq_mul_inv] at this
        have := ((b1.mul_right (Nat.cast_nonneg i : (0 : ℝ) ≤ i))).fl h.rel h0 (by linarith)
          (mul_nonneg (div_nonneg hR hm.le) (Nat.cast_nonneg _))
        rwa [mul_comm _ (i : ℝ), mul_comm _ (i : ℝ)] at this
      have a2 := a1.2
      have a3 : (1 + u) ^ 3 * (1 - 3 * u) ≤ 1 := by
        have := quotient_upper h0 (by linarith) 3 0
        norm_num at this
        linarith
      have hi : (i : ℝ) ≤ I.nPoints - 2 := by
        have : i + 2 ≤ I.nPoints := by omega
        have : ((i + 2 : ℕ) : ℝ) ≤ I.nPoints := by exact_mod_cast this
        push_cast at this
        linarith
      have a4 : (1 + u) ^ 3 * (i : ℝ) ≤ I.nPoints - 1 := by
        have e1 : (i : ℝ) ≤ (I.nPoints - 1) * (1 - 3 * u) := by nlinarith
        have e2 : (0 : ℝ) ≤ (1 + u) ^ 3 := by positivity
        calc (1 + u) ^ 3 * (i : ℝ) ≤ (1 + u) ^ 3 * ((I.nPoints - 1) * (1 - 3 * u)) := mul_le_mul_of_nonneg_left e1 e2
          _ = (I.nPoints - 1) * ((1 + u) ^ 3 * (1 - 3 * u)) := by ring
          _ ≤ (I.nPoints - 1) * 1 := mul_le_mul_of_nonneg_left a3 (by linarith)
          _ = I.nPoints - 1 := mul_one _
      have a5 : (1 + u) ^ 3 * ((i : ℝ) * (R / ((I.nPoints - 1 : ℕ) : ℝ))) ≤ R := by
        rw [em, ← mul_assoc, mul_div_assoc', div_le_iff₀ (by linarith)]
        nlinarith
      show fl ((i : ℝ) * s) + _ ≤ _
      linarith
  · unfold flBins linspaceFl
    rw [if_neg hjl, if_neg (show ¬ i + 1 = I.nPoints by omega)]
    refine h.mono (add_le_add ?_ le_rfl)
    refine h.mono (mul_le_mul_of_nonneg_right ?_ hs0)
    exact_mod_cast hij

theorem flInd_le_iff (h : Rounds u fl p) (hI : I.Stored fl) (hn : 4 * (I.nPoints : ℝ) * u ≤ 1) {i : ℕ} (hi : i < I.nPoints) (k : ℕ) :
    I.flInd fl k ≤ i ↔ I.flat I.vort k < I.flBins fl i := by
  have h2 := hI.points
  have hb : Monotone fun m => I.flBins fl (min m (I.nPoints - 1)) := fun a b hab =>
    flBins_mono h hI hn (min_le_min hab le_rfl) (by have := min_le_right b (I.nPoints - 1); omega)
  unfold flInd
  rw [digitize_congr (bins' := fun m => I.flBins fl (min m (I.nPoints - 1))) (x' := I.flat I.vort k)
    (fun m hm => by rw [min_eq_left (by omega : m ≤ I.nPoints - 1)]), digitize_le_iff hb hi]
  rw [min_eq_left (by omega : i ≤ I.nPoints - 1)]

theorem flat_mem (hl : 0 < I.nlon) {k : ℕ} (hk : k < I.nlat * I.nlon) : k / I.nlon < I.nlat ∧ k % I.nlon < I.nlon :=
  ⟨Nat.div_lt_of_lt_mul (by rwa [mul_comm]), Nat.mod_lt _ hl⟩

theorem one_le_flInd (h : Rounds u fl p) (hI : I.Stored fl) {k : ℕ} (hk : k < I.nlat * I.nlon) : 1 ≤ I.flInd fl k := by
  refine one_le_digitize (by have := hI.points; omega) ?_
  rw [flBins_zero h hI]
  obtain ⟨h1, h2⟩ := flat_mem hI.nlon_pos hk
  exact amin_le (p := (k / I.nlon, k % I.nlon)) (mem_cells.2 ⟨h1, h2⟩)

/-! ### The cumulative areas -/

theorem filter_sum (f : ℕ → ℝ) (P : ℕ → Prop) [DecidablePred P] (L : ℕ) :
    (((List.range L).filter fun k => P k).map f).sum = ∑ k ∈ range L, if P k then f k else 0 := by
  induction L with
  | zero => simp
  | succ L ih =>
    rw [List.range_succ, List.filter_append, List.map_append, List.sum_append, ih, sum_range_succ]
    by_cases hP : P L <;> simp [hP]

theorem flat_sum (hl : 0 < I.nlon) (f : ℕ → ℕ → ℝ) (n : ℕ) :
    ∑ k ∈ range (n * I.nlon), f (k / I.nlon) (k % I.nlon) = ∑ r ∈ range n, ∑ c ∈ range I.nlon, f r c := by
  induction n with
  | zero => simp
  | succ n ih =>
    rw [Nat.succ_mul, sum_range_add, ih, sum_range_succ]
    congr 1
    refine sum_congr rfl fun c hc => ?_
    have hc := mem_range.1 hc
    rw [add_comm, Nat.add_mul_div_right _ _ hl, Nat.div_eq_of_lt hc, zero_add, Nat.add_mul_mod_self_right, Nat.mod_eq_of_lt hc]

theorem bins_below (h : Rounds u fl p) (hI : I.Stored fl) (hn : 4 * (I.nPoints : ℝ) * u ≤ 1) {i : ℕ} (hi : i < I.nPoints) :
    ∑ m ∈ range i, ((I.inBin fl (m + 1)).map (I.flat I.area)).sum = areaBelow I.nlat I.nlon I.vort I.area (I.flBins fl i) := by
  unfold inBin
  simp only [filter_sum]
  rw [sum_comm]
  unfold areaBelow
  rw [← flat_sum hI.nlon_pos (fun r c => if I.vort r c < I.flBins fl i then I.area r c else 0) I.nlat]
  refine sum_congr rfl fun k hk => ?_
  have hk := mem_range.1 hk
  have h1 := one_le_flInd h hI hk
  have h3 := flInd_le_iff h hI hn hi k
  show _ = if I.flat I.vort k < I.flBins fl i then I.flat I.area k else 0
  by_cases hc : I.flInd fl k ≤ i
  · rw [if_pos (h3.1 hc), sum_eq_single (I.flInd fl k - 1)]
    · rw [if_pos (by omega)]
    · intro m _ hne
      rw [if_neg (by omega)]
    · intro hne
      exact absurd (mem_range.2 (by omega)) hne
  · rw [if_neg (fun hh => hc (h3.2 hh))]
    refine sum_eq_zero fun m hm => ?_
    have := mem_range.1 hm
    rw [if_neg (by omega)]

/-- The orders in which the areas of the bins are added; a summand passes through at most `D` additions. -/
structure Orders (I : EqvInput) (fl : ℝ → ℝ) (t : ℕ → Option SumOrder) (D : ℕ) : Prop where
  once : ∀ i, 1 ≤ i → i < I.nPoints → IsOrder (I.inBin fl i) (t i)
  depth : ∀ i, 1 ≤ i → i < I.nPoints → ∀ s, t i = some s → s.depth ≤ D

theorem flSum_approx (h : Rounds u fl p) (hu : u < 1) {l : List ℕ} {o : Option SumOrder} (ho : IsOrder l o) (hd : ∀ s, o = some s → s.depth ≤ D)
    {f : ℕ → ℝ} (hf : ∀ k ∈ l, 0 ≤ f k) : Approx u D ((l.map f).sum) (flSum fl f o) := by
  cases o with
  | none =>
    have e : l = [] := ho
    rw [e]
    show Approx u D 0 0
    constructor <;> simp
  | some s =>
    have ho : s.rows.Perm l := ho
    have a := SumOrder.eval_approx h.rel h.nonneg hu (k := 0) f f s (fun r hr => hf r (ho.mem_iff.1 hr)) fun r _ => Approx.refl
    rw [(ho.map f).sum_eq, zero_add] at a
    exact a.mono h.nonneg hu (hd s rfl) (List.sum_nonneg fun x hx => by
      obtain ⟨r, hr, rfl⟩ := List.mem_map.1 hx
      exact hf r hr)

theorem flAq_approx (h : Rounds u fl p) (hu : u < 1) (hI : I.Stored fl) (ht : I.Orders fl t D) {i : ℕ} (hi : i < I.nPoints) :
    Approx u (D + i) (∑ m ∈ range i, ((I.inBin fl (m + 1)).map (I.flat I.area)).sum) (I.flAq fl t i) := by
  have pos : ∀ m, ∀ k ∈ I.inBin fl m, 0 ≤ I.flat I.area k := fun m k hk => by
    have hk := List.mem_range.1 (List.mem_filter.1 hk).1
    obtain ⟨h1, h2⟩ := flat_mem hI.nlon_pos hk
    exact hI.area_nonneg _ h1 _ h2
  have sums : ∀ m, 0 ≤ ((I.inBin fl m).map (I.flat I.area)).sum := fun m => List.sum_nonneg fun x hx => by
    obtain ⟨r, hr, rfl⟩ := List.mem_map.1 hx
    exact pos m r hr
  induction i with
  | zero =>
    rw [range_zero, sum_empty]
    show Approx u (D + 0) 0 0
    constructor <;> simp
  | succ i ih =>
    have a := flSum_approx h hu (ht.once (i + 1) (by omega) hi) (ht.depth (i + 1) (by omega) hi) (pos (i + 1))
    rw [sum_range_succ]
    exact ((ih (by omega)).add (a.mono h.nonneg hu (by omega) (sums _))).fl h.rel h.nonneg hu
      (add_nonneg (sum_nonneg fun m _ => sums _) (sums _))

theorem flHalf_approx (h : Rounds u fl p) (hu : u < 1) (hI : I.Stored fl) : Approx u 4 (2 * π * I.radius ^ 2) (I.flHalf fl p) := by
  have hpi := pi_pos
  have hr := hI.radius_pos
  have a1 : Approx u 1 π p := by
    have := abs_le.1 h.pi
    constructor
    · rw [pow_one]; linarith [this.1]
    · rw [pow_one]; linarith [this.2]
  have a2 : Approx u 2 (2 * π) (fl (2 * p)) := by
    have := (a1.mul_right zero_le_two).fl h.rel h.nonneg hu (by positivity)
    rwa [mul_comm π, mul_comm p] at this
  have a3 : Approx u 1 (I.radius ^ 2) (fl (I.radius * I.radius)) := by
    rw [pow_two]
    exact approx_abs h.rel (by positivity)
  have a4 : Approx u 3 (2 * π * I.radius ^ 2) (fl (2 * p) * fl (I.radius * I.radius)) := by
    have n1 : 0 ≤ fl (I.radius * I.radius) := h.fl_nonneg (by positivity)
    have b := a2.mul_right n1
    have h1 : (0 : ℝ) ≤ (1 - u) ^ 2 * (2 * π) := mul_nonneg (pow_nonneg (by linarith) _) (by positivity)
    have h2 : (0 : ℝ) ≤ (1 + u) ^ 2 * (2 * π) := mul_nonneg (pow_nonneg (by linarith [h.nonneg]) _) (by positivity)
    constructor
    · calc (1 - u) ^ 3 * (2 * π * I.radius ^ 2) = (1 - u) ^ 2 * (2 * π) * ((1 - u) ^ 1 * I.radius ^ 2) := by ring
        _ ≤ (1 - u) ^ 2 * (2 * π) * fl (I.radius * I.radius) := mul_le_mul_of_nonneg_left a3.1 h1
        _ ≤ _ := by linarith [b.1]
    · calc fl (2 * p) * fl (I.radius * I.radius) ≤ (1 + u) ^ 2 * (2 * π) * fl (I.radius * I.radius) := by linarith [b.2]
        _ ≤ (1 + u) ^ 2 * (2 * π) * ((1 + u) ^ 1 * I.radius ^ 2) := mul_le_mul_of_nonneg_left a3.2 h2
        _ = _ := by ring
  exact a4.fl h.rel h.nonneg hu (by positivity)

/-! ### The Gaussian grid -/

/-- Hypotheses on the sizes: the number `N` of roundings that a summand passes through is small against `1 / u`, and the cells below the maximum of the field
leave the part `N u` of the sphere free. -/
structure Room (I : EqvInput) (u : ℝ) (D : ℕ) : Prop where
  small : 4 * ((D + I.nPoints + 5 : ℕ) : ℝ) * u ≤ 1
  fits : areaBelow I.nlat I.nlon I.vort I.area (Falwa.amax I.nlat I.nlon I.vort) ≤ (1 - ((D + I.nPoints + 5 : ℕ) : ℝ) * u) * (4 * π * I.radius ^ 2)

theorem Room.points (hR : I.Room u D) (h : Rounds u fl p) : 4 * (I.nPoints : ℝ) * u ≤ 1 := by
  have h1 := hR.small
  have h0 := h.nonneg
  push_cast at h1
  have : 0 ≤ (D : ℝ) * u := mul_nonneg (Nat.cast_nonneg _) h0
  nlinarith

theorem Room.unit (hR : I.Room u D) (h : Rounds u fl p) : u < 1 := by
  have h1 := hR.small
  have h0 := h.nonneg
  push_cast at h1
  have a1 : 0 ≤ (D : ℝ) * u := mul_nonneg (Nat.cast_nonneg _) h0
  have a2 : 0 ≤ (I.nPoints : ℝ) * u := mul_nonneg (Nat.cast_nonneg _) h0
  nlinarith

theorem below_nonneg (hI : I.Stored fl) (v : ℝ) : 0 ≤ areaBelow I.nlat I.nlon I.vort I.area v := by
  unfold areaBelow
  refine sum_nonneg fun r hr => sum_nonneg fun c hc => ?_
  split_ifs
  · exact hI.area_nonneg r (mem_range.1 hr) c (mem_range.1 hc)
  · exact le_rfl

theorem below_le_total (hI : I.Stored fl) (v : ℝ) : areaBelow I.nlat I.nlon I.vort I.area v ≤ ∑ r ∈ range I.nlat, ∑ c ∈ range I.nlon, I.area r c := by
  unfold areaBelow
  refine sum_le_sum fun r hr => sum_le_sum fun c hc => ?_
  split_ifs
  · exact le_rfl
  · exact hI.area_nonneg r (mem_range.1 hr) c (mem_range.1 hc)

/-- **C210, room.** It is enough that all cells leave the part `N u` of the sphere free, or that they fit on the sphere and each of them covers at least that
part: the cells where the field is largest are not counted. -/
theorem C210_room (hI : I.Stored fl) (hs : 4 * ((D + I.nPoints + 5 : ℕ) : ℝ) * u ≤ 1)
    (hf : (∑ r ∈ range I.nlat, ∑ c ∈ range I.nlon, I.area r c ≤ (1 - ((D + I.nPoints + 5 : ℕ) : ℝ) * u) * (4 * π * I.radius ^ 2)) ∨
      (∑ r ∈ range I.nlat, ∑ c ∈ range I.nlon, I.area r c ≤ 4 * π * I.radius ^ 2 ∧
        ∀ r < I.nlat, ∀ c < I.nlon, ((D + I.nPoints + 5 : ℕ) : ℝ) * u * (4 * π * I.radius ^ 2) ≤ I.area r c)) : I.Room u D := by
  refine ⟨hs, ?_⟩
  rcases hf with hf | ⟨hf, hc⟩
  · exact (below_le_total hI _).trans hf
  · obtain ⟨q, hq, e⟩ := exists_amax (vort := I.vort) hI.cells
    obtain ⟨k1, k2⟩ := mem_cells.1 hq
    have h1 : areaBelow I.nlat I.nlon I.vort I.area (Falwa.amax I.nlat I.nlon I.vort) + I.area q.1 q.2 ≤
        ∑ r ∈ range I.nlat, ∑ c ∈ range I.nlon, I.area r c := by
      have e2 : ∑ r ∈ range I.nlat, ∑ c ∈ range I.nlon, (if r = q.1 then if c = q.2 then I.area r c else 0 else 0) = I.area q.1 q.2 := by
        rw [sum_eq_single q.1 (fun r _ hne => by simp [hne]) fun hn => absurd (mem_range.2 k1) hn,
          sum_eq_single q.2 (fun c _ hne => by simp [hne]) fun hn => absurd (mem_range.2 k2) hn]
        simp
      rw [← e2]
      unfold areaBelow
      rw [← sum_add_distrib]
      refine sum_le_sum fun r hr => ?_
      rw [← sum_add_distrib]
      refine sum_le_sum fun c hc' => ?_
      have a0 := hI.area_nonneg r (mem_range.1 hr) c (mem_range.1 hc')
      by_cases hq' : r = q.1 ∧ c = q.2
      · obtain ⟨rfl, rfl⟩ := hq'
        rw [e, if_neg (lt_irrefl _), if_pos rfl, if_pos rfl, zero_add]
      · have z : (if r = q.1 then if c = q.2 then I.area r c else 0 else 0) = 0 := by
          by_cases h1 : r = q.1
          · rw [if_pos h1, if_neg fun h2 => hq' ⟨h1, h2⟩]
          · rw [if_neg h1]
        rw [z, add_zero]
        split_ifs
        · exact le_rfl
        · exact a0
    have h2 := hc _ k1 _ k2
    linarith

/-- The computed Gaussian grid lies in the domain of the arc sine and is accurate. -/
theorem flGaussian_near (h : Rounds u fl p) (hI : I.Stored fl) (ht : I.Orders fl t D) (hR : I.Room u D) {i : ℕ} (hi : i < I.nPoints) :
    (-1 ≤ I.flGaussian fl p t i ∧ I.flGaussian fl p t i ≤ 1) ∧
      |I.flGaussian fl p t i - (areaBelow I.nlat I.nlon I.vort I.area (I.flBins fl i) / (2 * π * I.radius ^ 2) - 1)| ≤
        5 * ((D + I.nPoints + 5 : ℕ) : ℝ) * u := by
  have hpi := pi_pos
  have hr := hI.radius_pos
  have h0 := h.nonneg
  have hu := hR.unit h
  have hS : 0 < 2 * π * I.radius ^ 2 := by positivity
  set S := 2 * π * I.radius ^ 2 with hSd
  set A := areaBelow I.nlat I.nlon I.vort I.area (I.flBins fl i) with hA
  have hA0 : 0 ≤ A := below_nonneg hI _
  set x : ℝ := ((D + I.nPoints + 5 : ℕ) : ℝ) * u with hx
  have hx0 : 0 ≤ x := mul_nonneg (Nat.cast_nonneg _) h0
  have hx1 : 4 * x ≤ 1 := by
    have := hR.small
    rw [mul_assoc] at this
    exact this
  have hux : u ≤ x := by
    rw [hx]
    push_cast
    have a1 : 0 ≤ (D : ℝ) * u := mul_nonneg (Nat.cast_nonneg _) h0
    have a2 : 0 ≤ (I.nPoints : ℝ) * u := mul_nonneg (Nat.cast_nonneg _) h0
    nlinarith
  have hA2 : A ≤ (1 - x) * (2 * S) := by
    have e0 : I.flBins fl i ≤ Falwa.amax I.nlat I.nlon I.vort := by
      rw [← flBins_last hI]
      exact flBins_mono h hI (hR.points h) (by omega) (by omega)
    have e1 := (areaBelow_mono (q := I.vort) hI.area_nonneg e0).trans hR.fits
    rw [hSd]
    linarith
  have q := flAq_approx h hu hI ht hi
  rw [bins_below h hI (hR.points h) hi, ← hA] at q
  have d := flHalf_approx h hu hI
  rw [← hSd] at d
  have q1 := q.mono h0 hu (by omega : D + i ≤ D + I.nPoints) hA0
  set aq := I.flAq fl t i with haq
  set w := I.flHalf fl p with hw
  have hw0 : 0 < w := lt_of_lt_of_le (mul_pos (pow_pos (by linarith) 4) hS) d.1
  have haq0 : 0 ≤ aq := le_trans (mul_nonneg (pow_nonneg (by linarith) _) hA0) q1.1
  -- the quotient before its rounding
  have up : ∀ m, m ≤ D + I.nPoints + 1 → (1 - x) * (1 + u) ^ m ≤ (1 - u) ^ 4 := fun m hm => by
    have h1 := quotient_upper h0 hu.le m 4
    have h2 : ((m + 4 : ℕ) : ℝ) * u ≤ x := mul_le_mul_of_nonneg_right (by exact_mod_cast (by omega : m + 4 ≤ D + I.nPoints + 5)) h0
    have h3 : (0 : ℝ) ≤ (1 + u) ^ m := by positivity
    nlinarith
  have y2 : aq / w ≤ 2 := by
    rw [div_le_iff₀ hw0]
    have k1 : (1 - x) * aq ≤ (1 - x) * ((1 + u) ^ (D + I.nPoints) * A) := mul_le_mul_of_nonneg_left q1.2 (by linarith)
    have k2 : (1 - x) * (1 + u) ^ (D + I.nPoints) * A ≤ (1 - u) ^ 4 * A := mul_le_mul_of_nonneg_right (up _ (by omega)) hA0
    have k3 : (1 - u) ^ 4 * A ≤ (1 - u) ^ 4 * ((1 - x) * (2 * S)) := mul_le_mul_of_nonneg_left hA2 (by positivity)
    have k4 : (1 - x) * aq ≤ (1 - x) * (2 * w) := by nlinarith [d.1]
    have := le_of_mul_le_mul_left k4 (by linarith : (0 : ℝ) < 1 - x)
    linarith
  set y := fl (aq / w) with hy
  have hy0 : 0 ≤ y := h.fl_nonneg (div_nonneg haq0 hw0.le)
  have hy2 : y ≤ 2 := by rw [← h.two]; exact h.mono y2
  have eg : I.flGaussian fl p t i = fl (y - 1) := rfl
  rw [eg]
  refine ⟨⟨?_, ?_⟩, ?_⟩
  · rw [← h.neg_one]
    exact h.mono (by linarith)
  · have := h.mono (by linarith : y - 1 ≤ 1)
    rwa [h.one] at this
  · have r1 := h.rel (aq / w)
    rw [abs_of_nonneg (div_nonneg haq0 hw0.le), abs_le] at r1
    -- relative error of y
    have yu : y ≤ (1 + 2 * x) * (A / S) := by
      have k0 : y * w ≤ (1 + u) * aq := by
        have : y ≤ (1 + u) * (aq / w) := by linarith [r1.2]
        calc y * w ≤ (1 + u) * (aq / w) * w := mul_le_mul_of_nonneg_right this hw0.le
          _ = (1 + u) * aq := by field_simp
      have k1 : (1 + u) * aq ≤ (1 + u) ^ (D + I.nPoints + 1) * A := by
        have := mul_le_mul_of_nonneg_left q1.2 (by linarith : (0 : ℝ) ≤ 1 + u)
        rw [pow_succ]
        linarith
      have k2 : (1 - x) * ((1 + u) ^ (D + I.nPoints + 1) * A) ≤ (1 - u) ^ 4 * A := by
        have := mul_le_mul_of_nonneg_right (up (D + I.nPoints + 1) le_rfl) hA0
        linarith
      have k3 : y * ((1 - u) ^ 4 * S) ≤ y * w := mul_le_mul_of_nonneg_left d.1 hy0
      have k4 : (1 - u) ^ 4 * ((1 - x) * (y * S)) ≤ (1 - u) ^ 4 * A := by
        have := mul_le_mul_of_nonneg_left (k3.trans (k0.trans k1)) (by linarith : (0 : ℝ) ≤ 1 - x)
        linarith
      have k5 := le_of_mul_le_mul_left k4 (pow_pos (by linarith) 4)
      rw [mul_div_assoc', le_div_iff₀ hS]
      have k6 : 1 ≤ (1 + 2 * x) * (1 - x) := by nlinarith
      have k7 : 0 ≤ y * S := mul_nonneg hy0 hS.le
      calc y * S ≤ (1 + 2 * x) * (1 - x) * (y * S) := by nlinarith
        _ = (1 + 2 * x) * ((1 - x) * (y * S)) := by ring
        _ ≤ (1 + 2 * x) * A := mul_le_mul_of_nonneg_left k5 (by linarith)
    have yl : (1 - x) * (A / S) ≤ y := by
      have low : (1 - x) * (1 + u) ^ 4 ≤ (1 - u) ^ (D + I.nPoints + 1) := by
        have h1 := quotient_lower h0 hu.le (D + I.nPoints + 1) 4
        exact h1
      have k0 : (1 - u) * aq ≤ y * w := by
        have : (1 - u) * (aq / w) ≤ y := by linarith [r1.1]
        calc (1 - u) * aq = (1 - u) * (aq / w) * w := by field_simp
          _ ≤ y * w := mul_le_mul_of_nonneg_right this hw0.le
      have k1 : (1 - u) ^ (D + I.nPoints + 1) * A ≤ (1 - u) * aq := by
        have := mul_le_mul_of_nonneg_left q1.1 (by linarith : (0 : ℝ) ≤ 1 - u)
        rw [pow_succ]
        linarith
      have k2 : y * w ≤ y * ((1 + u) ^ 4 * S) := mul_le_mul_of_nonneg_left d.2 hy0
      have k3 : (1 + u) ^ 4 * ((1 - x) * A) ≤ (1 + u) ^ 4 * (y * S) := by
        have := mul_le_mul_of_nonneg_right low hA0
        linarith
      have k4 := le_of_mul_le_mul_left k3 (by positivity)
      rw [mul_div_assoc', div_le_iff₀ hS]
      exact k4
    have hAS : A / S ≤ 2 := by
      rw [div_le_iff₀ hS]
      nlinarith
    have hAS0 : 0 ≤ A / S := div_nonneg hA0 hS.le
    have r2 := h.rel (y - 1)
    have r3 : |y - 1| ≤ 1 := by rw [abs_le]; constructor <;> linarith
    have r4 : |fl (y - 1) - (y - 1)| ≤ x := r2.trans ((mul_le_of_le_one_right h0 r3).trans hux)
    rw [abs_le] at r4
    have e5 : 5 * ((D + I.nPoints + 5 : ℕ) : ℝ) * u = 5 * x := by rw [hx]; ring
    rw [e5, abs_le]
    constructor
    · nlinarith [r4.1]
    · nlinarith [r4.2]

/-- **C210, no NaN.** If the areas leave the part `N u` of the sphere free, where `N` is the number of roundings that an area passes through, the computed
reference profile is an array of numbers, for every field and every order of summation. -/
theorem C210_numbers (h : Rounds u fl p) (hI : I.Stored fl) (ht : I.Orders fl t D) (hR : I.Room u D) : ∃ f, I.flQref fl p t = .ok f := by
  have h1 : ¬ (I.nlat = 0 ∨ I.nlon = 0 ∨ I.nPoints = 0) := by
    have := hI.nlat_pos
    have := hI.nlon_pos
    have := hI.points
    omega
  have h2 : ∀ i < I.nPoints, (arcsinDeg (I.flGaussian fl p t i)).isSome := fun i hi =>
    (arcsinDeg_isSome_iff _).2 (flGaussian_near h hI ht hR hi).1
  unfold flQref
  rw [if_neg h1, if_pos h2]
  exact ⟨_, rfl⟩

/-- The computed value at a latitude against the cumulative areas of the field, up to one computed contour interval `d`. -/
theorem profile_areas (h : Rounds u fl p) (hI : I.Stored fl) (ht : I.Orders fl t D) (hR : I.Room u D) {f : ℕ → ℝ} (hf : I.flQref fl p t = .ok f)
    {d : ℝ} (hd : ∀ i, i + 1 < I.nPoints → I.flBins fl (i + 1) - I.flBins fl i ≤ d) {j : ℕ} (hy : -90 ≤ I.ylat j ∧ I.ylat j ≤ 90) :
    areaBelow I.nlat I.nlon I.vort I.area (f j - d) ≤
      southOf I.radius (I.ylat j) + 2 * π * I.radius ^ 2 * (5 * ((D + I.nPoints + 5 : ℕ) : ℝ) * u) ∧
    (southOf I.radius (I.ylat j) - 2 * π * I.radius ^ 2 * (5 * ((D + I.nPoints + 5 : ℕ) : ℝ) * u) <
      areaUpTo I.nlat I.nlon I.vort I.area (f j + d) ∨ Falwa.amax I.nlat I.nlon I.vort ≤ f j + d) := by
  have hpi := pi_pos
  have hr := hI.radius_pos
  have hn := hI.points
  have hS : 0 < 2 * π * I.radius ^ 2 := by positivity
  have h1 : ¬ (I.nlat = 0 ∨ I.nlon = 0 ∨ I.nPoints = 0) := by
    have := hI.nlat_pos
    have := hI.nlon_pos
    omega
  have h2 : ∀ i < I.nPoints, (arcsinDeg (I.flGaussian fl p t i)).isSome := fun i hi =>
    (arcsinDeg_isSome_iff _).2 (flGaussian_near h hI ht hR hi).1
  unfold flQref at hf
  rw [if_neg h1, if_pos h2] at hf
  obtain rfl : _ = f := Outcome.ok.inj hf
  set ε := 5 * ((D + I.nPoints + 5 : ℕ) : ℝ) * u with hε
  set T := southOf I.radius (I.ylat j) with hT
  have mono := fun {i k : ℕ} => flBins_mono (i := i) (j := k) h hI (hR.points h)
  -- latitudes are compared through areas
  have lat : ∀ i < I.nPoints, (arcsinDeg (I.flGaussian fl p t i)).getD 0 ≤ I.ylat j ↔ I.flGaussian fl p t i ≤ sin (I.ylat j * π / 180) := fun i hi => by
    have hm := (flGaussian_near h hI ht hR hi).1
    rw [arcsinDeg_getD hm]
    have e1 : rad2deg (arcsin (I.flGaussian fl p t i)) ≤ I.ylat j ↔ arcsin (I.flGaussian fl p t i) ≤ I.ylat j * π / 180 := by
      unfold rad2deg
      rw [div_le_iff₀ hpi, le_div_iff₀ (by norm_num : (0 : ℝ) < 180)]
    rw [e1, arcsin_le_iff_le_sin hm ⟨by nlinarith [hy.1], by nlinarith [hy.2]⟩]
  have eT : T = 2 * π * I.radius ^ 2 * (1 + sin (I.ylat j * π / 180)) := rfl
  have below : ∀ i < I.nPoints, (arcsinDeg (I.flGaussian fl p t i)).getD 0 ≤ I.ylat j →
      areaBelow I.nlat I.nlon I.vort I.area (I.flBins fl i) ≤ T + 2 * π * I.radius ^ 2 * ε := fun i hi hl => by
    have k1 := (lat i hi).1 hl
    have k2 := abs_le.1 (flGaussian_near h hI ht hR hi).2
    have k3 : areaBelow I.nlat I.nlon I.vort I.area (I.flBins fl i) / (2 * π * I.radius ^ 2) ≤ 1 + sin (I.ylat j * π / 180) + ε := by
      linarith [k2.1]
    rw [div_le_iff₀ hS] at k3
    rw [eT]
    linarith
  have above : ∀ i < I.nPoints, I.ylat j < (arcsinDeg (I.flGaussian fl p t i)).getD 0 →
      T - 2 * π * I.radius ^ 2 * ε < areaBelow I.nlat I.nlon I.vort I.area (I.flBins fl i) := fun i hi hl => by
    have k1 : sin (I.ylat j * π / 180) < I.flGaussian fl p t i := not_le.1 fun hh => not_le.2 hl ((lat i hi).2 hh)
    have k2 := abs_le.1 (flGaussian_near h hI ht hR hi).2
    have k3 : 1 + sin (I.ylat j * π / 180) - ε < areaBelow I.nlat I.nlon I.vort I.area (I.flBins fl i) / (2 * π * I.radius ^ 2) := by
      linarith [k2.2]
    rw [lt_div_iff₀ hS] at k3
    rw [eT]
    linarith
  have d0 : 0 ≤ d := (sub_nonneg.2 (mono (Nat.zero_le 1) (by omega))).trans (hd 0 (by omega))
  rcases npInterp_cases (xp := fun i => (arcsinDeg (I.flGaussian fl p t i)).getD 0) (fp := I.flBins fl) (by omega : 0 < I.nPoints) (I.ylat j) with
    ⟨hlt, _⟩ | ⟨i, hi, b1, b2, e⟩ | ⟨b1, _, e⟩
  · exfalso
    have g0 : I.flGaussian fl p t 0 = -1 := by
      show fl (fl (0 / _) - 1) = -1
      rw [zero_div, h.zero, zero_sub, h.neg_one]
    refine absurd hlt (not_lt.2 ((lat 0 (by omega)).2 ?_))
    rw [g0]
    exact neg_one_le_sin _
  · beta_reduce
    rw [e]
    obtain ⟨c1, c2⟩ := interp_segment_bounds b1 b2 (mono (Nat.le_succ i) hi)
    have hstep := hd i hi
    refine ⟨(areaBelow_mono (q := I.vort) hI.area_nonneg (by linarith)).trans (below i (by omega) b1), Or.inl ?_⟩
    refine (above (i + 1) hi b2).trans_le ?_
    unfold areaBelow areaUpTo
    refine sum_le_sum fun r hr => sum_le_sum fun c hc => ?_
    have a0 := hI.area_nonneg r (mem_range.1 hr) c (mem_range.1 hc)
    by_cases k1 : I.vort r c < I.flBins fl (i + 1)
    · rw [if_pos k1, if_pos (by linarith)]
    · rw [if_neg k1]
      split_ifs
      · exact a0
      · exact le_rfl
  · beta_reduce
    rw [e]
    refine ⟨(areaBelow_mono (q := I.vort) hI.area_nonneg (by linarith)).trans (below _ (by omega) b1), Or.inr ?_⟩
    rw [flBins_last hI]
    linarith

/-- **C210, accuracy.** The computed value at a latitude lies between the exact contour values of areas that differ from the area south of the latitude by
the part `5 N u` of a hemisphere, up to one computed contour interval `d`. -/
theorem C210_contour (h : Rounds u fl p) (hI : I.Stored fl) (ht : I.Orders fl t D) (hR : I.Room u D) {f : ℕ → ℝ} (hf : I.flQref fl p t = .ok f)
    {d : ℝ} (hd : ∀ i, i + 1 < I.nPoints → I.flBins fl (i + 1) - I.flBins fl i ≤ d) {j : ℕ} (hy : -90 ≤ I.ylat j ∧ I.ylat j ≤ 90) :
    (∀ v, IsContour I.nlat I.nlon I.vort I.area (southOf I.radius (I.ylat j) - 2 * π * I.radius ^ 2 * (5 * ((D + I.nPoints + 5 : ℕ) : ℝ) * u)) v →
      v - d ≤ f j) ∧
    ∀ v, IsContour I.nlat I.nlon I.vort I.area (southOf I.radius (I.ylat j) + 2 * π * I.radius ^ 2 * (5 * ((D + I.nPoints + 5 : ℕ) : ℝ) * u)) v →
      f j ≤ v + d := by
  obtain ⟨k1, k2⟩ := profile_areas h hI ht hR hf hd hy
  refine ⟨fun v hv => ?_, fun v hv => ?_⟩
  · rcases k2 with k2 | k2
    · by_contra hlt
      push Not at hlt
      have k3 := areaUpTo_le_below (q₁ := I.vort) (q₂ := I.vort) hI.area_nonneg (v := f j + d) (w := v) fun r _ c _ hle => by linarith
      have := hv.1
      linarith
    · obtain ⟨r, hr, c, hc, e⟩ := hv.attained
      have : v ≤ Falwa.amax I.nlat I.nlon I.vort := e ▸ le_amax (p := (r, c)) (mem_cells.2 ⟨hr, hc⟩)
      linarith
  · by_contra hlt
    push Not at hlt
    have k3 := areaUpTo_le_below (q₁ := I.vort) (q₂ := I.vort) hI.area_nonneg (v := v) (w := f j - d) fun r _ c _ hle => by linarith
    have := hv.2
    linarith

/-! ### Every order of summation -/

theorem depth_lt_rows (s : SumOrder) : s.depth < s.rows.length := by
  induction s with
  | row r => simp [SumOrder.depth, SumOrder.rows]
  | add a b iha ihb =>
    rw [SumOrder.depth, SumOrder.rows, List.length_append]
    omega

/-- Whatever the order, no summand passes through more additions than there are grid points. -/
theorem orders_all (ho : ∀ i, 1 ≤ i → i < I.nPoints → IsOrder (I.inBin fl i) (t i)) : I.Orders fl t (I.nlat * I.nlon) where
  once := ho
  depth := fun i h1 hi s hs => by
    have hp : s.rows.Perm (I.inBin fl i) := by
      have := ho i h1 hi
      rw [hs] at this
      exact this
    have h2 := depth_lt_rows s
    rw [hp.length_eq] at h2
    have h3 : (I.inBin fl i).length ≤ (List.range (I.nlat * I.nlon)).length := List.length_filter_le _ _
    rw [List.length_range] at h3
    omega

/-! ### The default areas -/

theorem approx_mul {u : ℝ} (h0 : 0 ≤ u) (hu : u < 1) {k l : ℕ} {x y x' y' : ℝ} (hx : 0 ≤ x) (hx' : 0 ≤ x') (a : Approx u k x y) (b : Approx u l x' y') :
    Approx u (k + l) (x * x') (y * y') := by
  have hl : (0 : ℝ) ≤ (1 - u) ^ k * x := mul_nonneg (pow_nonneg (by linarith) _) hx
  have hl' : (0 : ℝ) ≤ (1 - u) ^ l * x' := mul_nonneg (pow_nonneg (by linarith) _) hx'
  constructor
  · calc (1 - u) ^ (k + l) * (x * x') = (1 - u) ^ k * x * ((1 - u) ^ l * x') := by rw [pow_add]; ring
      _ ≤ y * y' := mul_le_mul a.1 b.1 hl' (hl.trans a.1)
  · calc y * y' ≤ (1 + u) ^ k * x * ((1 + u) ^ l * x') := mul_le_mul a.2 b.2 (hl'.trans b.1) (mul_nonneg (pow_nonneg (by linarith) _) hx)
      _ = (1 + u) ^ (k + l) * (x * x') := by rw [pow_add]; ring

theorem mul_cos_le {x : ℝ} (h0 : 0 ≤ x) (hx : x ≤ π / 2) : x * cos x ≤ sin x * (1 - x ^ 2 / 3) := by
  have hpi := pi_pos
  have inner : ∀ y ∈ Set.Icc (0 : ℝ) (π / 2), y * cos y ≤ sin y := fun y hy => by
    rcases eq_or_lt_of_le hy.2 with e | e
    · rw [e, cos_pi_div_two, sin_pi_div_two]
      norm_num
    · have hc : 0 < cos y := cos_pos_of_mem_Ioo ⟨by linarith [hy.1], e⟩
      have := Real.le_tan hy.1 e
      rwa [Real.tan_eq_sin_div_cos, le_div_iff₀ hc] at this
  have hd : ∀ y : ℝ, HasDerivAt (fun z : ℝ => sin z * (1 - z ^ 2 / 3) - z * cos z) (y / 3 * (sin y - y * cos y)) y := fun y => by
    have h1 : HasDerivAt (fun z : ℝ => 1 - z ^ 2 / 3) (-(2 * y / 3)) y :=
      (((hasDerivAt_pow 2 y).div_const 3).const_sub 1).congr_deriv (by norm_num)
    have h2 : HasDerivAt (fun z : ℝ => z * cos z) (1 * cos y + y * -sin y) y := (hasDerivAt_id y).mul (hasDerivAt_cos y)
    exact (((hasDerivAt_sin y).mul h1).sub h2).congr_deriv (by ring)
  have hm : MonotoneOn (fun z : ℝ => sin z * (1 - z ^ 2 / 3) - z * cos z) (Set.Icc 0 (π / 2)) := by
    refine monotoneOn_of_deriv_nonneg (convex_Icc _ _) (fun y _ => (hd y).continuousAt.continuousWithinAt)
      (fun y _ => (hd y).differentiableAt.differentiableWithinAt) fun y hy => ?_
    rw [interior_Icc] at hy
    rw [(hd y).deriv]
    have := inner y ⟨hy.1.le, hy.2.le⟩
    exact mul_nonneg (by linarith [hy.1]) (by linarith)
  have := hm ⟨le_rfl, by linarith⟩ ⟨h0, hx⟩ h0
  simp only [sin_zero, zero_mul, sub_zero] at this
  linarith

/-- The rectangle rule for the cosine misses a part of the sphere that goes with the square of the spacing. -/
theorem cos_sum_gap (n : ℕ) (hn : 2 ≤ n) : (∑ j ∈ range (n + 1), sin (j * (π / n))) * (π / n) ≤ 2 - (π / n) ^ 2 / 6 := by
  set h : ℝ := π / n with hh
  have hn0 : (0 : ℝ) < n := by exact_mod_cast (by omega : 0 < n)
  have hn2 : (2 : ℝ) ≤ n := by exact_mod_cast hn
  have hpi := pi_pos
  have hpos : 0 < h := by positivity
  have hnh : (n : ℝ) * h = π := by rw [hh]; field_simp
  have hle : h / 2 < π / 2 := by nlinarith
  have hS := sum_sin_telescope h (n + 1)
  have e : (((n + 1 : ℕ) : ℝ) - 1 / 2) * h = h / 2 + π := by push_cast; linarith
  rw [e, cos_add_pi] at hS
  have hsin : 0 < sin (h / 2) := sin_pos_of_pos_of_lt_pi (by linarith) (by linarith)
  have hx := mul_cos_le (x := h / 2) (by linarith) hle.le
  set S := ∑ j ∈ range (n + 1), sin (j * h)
  have h1 : sin (h / 2) * S = cos (h / 2) := by linarith
  have h2 : sin (h / 2) * (S * h) ≤ sin (h / 2) * (2 - h ^ 2 / 6) := by
    have : sin (h / 2) * (S * h) = cos (h / 2) * h := by rw [← h1]; ring
    rw [this]
    nlinarith
  exact le_of_mul_le_mul_left h2 hsin

theorem flDefaultArea_approx (h : Rounds u fl p) (hu : u < 1) {radius : ℝ} (hr : 0 < radius) {nlat nlon : ℕ} (h3 : 3 ≤ nlat) (h1 : 1 ≤ nlon) {c : ℕ → ℝ}
    {j : ℕ} (hc : 0 ≤ c j) (k : ℕ) :
    Approx u 11 (2 * π * radius ^ 2 * (c j * (π / ((nlat - 1 : ℕ) : ℝ))) / nlon) (flDefaultArea fl p radius nlat nlon c j k) := by
  have hpi := pi_pos
  have h0 := h.nonneg
  have hm : (0 : ℝ) < ((nlat - 1 : ℕ) : ℝ) := by exact_mod_cast (by omega : 0 < nlat - 1)
  have hl : (0 : ℝ) < nlon := by exact_mod_cast h1
  have a0 : Approx u 4 (2 * π * radius ^ 2) (fl (fl (2 * p) * fl (radius * radius))) :=
    flHalf_approx (I := ⟨1, 1, fun _ => 0, fun _ _ => 0, fun _ _ => 0, 2, radius⟩) h hu
      ⟨one_pos, one_pos, le_rfl, hr, fun _ _ _ _ => le_rfl, fun _ _ _ _ => h.zero⟩
  have a1 : Approx u 1 π p := by
    have := abs_le.1 h.pi
    constructor
    · rw [pow_one]; linarith [this.1]
    · rw [pow_one]; linarith [this.2]
  have b1 : Approx u 2 (π / ((nlat - 1 : ℕ) : ℝ)) (fl (p / ((nlat - 1 : ℕ) : ℝ))) := by
    have := (a1.mul_right (inv_nonneg.2 hm.le)).fl h.rel h0 hu (mul_nonneg hpi.le (inv_nonneg.2 hm.le))
    rwa [← div_eq_mul_inv, ← div_eq_mul_inv] at this
  have n1 : 0 ≤ π / ((nlat - 1 : ℕ) : ℝ) := by positivity
  have b2 : Approx u 3 (π / ((nlat - 1 : ℕ) : ℝ)) (fl (fl (p / ((nlat - 1 : ℕ) : ℝ)) * 1)) := by
    have := b1.fl h.rel h0 hu n1
    rwa [← mul_one (fl (p / _))] at this
  have b3 : Approx u 4 (c j * (π / ((nlat - 1 : ℕ) : ℝ))) (fl (c j * fl (fl (p / ((nlat - 1 : ℕ) : ℝ)) * 1))) := by
    have := (b2.mul_right hc).fl h.rel h0 hu (mul_nonneg n1 hc)
    rwa [mul_comm _ (c j), mul_comm _ (c j)] at this
  have n2 : 0 ≤ c j * (π / ((nlat - 1 : ℕ) : ℝ)) := mul_nonneg hc n1
  have n3 : 0 ≤ 2 * π * radius ^ 2 * (c j * (π / ((nlat - 1 : ℕ) : ℝ))) := mul_nonneg (by positivity) n2
  have b4 := (approx_mul h0 hu (by positivity) n2 a0 b3).fl h.rel h0 hu n3
  have b5 := (b4.mul_right (inv_nonneg.2 hl.le)).fl h.rel h0 hu (mul_nonneg n3 (inv_nonneg.2 hl.le))
  rw [← div_eq_mul_inv, ← div_eq_mul_inv] at b5
  have b6 := b5.fl h.rel h0 hu (div_nonneg n3 hl.le)
  unfold flDefaultArea
  rw [mul_one (fl (_ / (nlon : ℝ)))]
  exact b6

/-- **C210, default areas.** On a regular grid from pole to pole, with cosines accurate to `8 u`, the default areas leave enough of the sphere free as long as
`4 (D + nPoints + 40) (nlat - 1)² u ≤ 3`. -/
theorem C210_default (h : Rounds u fl p) {radius : ℝ} (hr : 0 < radius) {nlat nlon nPoints : ℕ} (h3 : 3 ≤ nlat) (h1 : 1 ≤ nlon) (hn : 2 ≤ nPoints)
    {ylat c : ℕ → ℝ} {vort : ℕ → ℕ → ℝ} (hc0 : ∀ j < nlat, 0 ≤ c j) (hc : ∀ j < nlat, |c j - cos (regularLat nlat j * π / 180)| ≤ 8 * u)
    (hv : ∀ r < nlat, ∀ s < nlon, fl (vort r s) = vort r s)
    (ht : (EqvInput.mk nlat nlon ylat vort (flDefaultArea fl p radius nlat nlon c) nPoints radius).Orders fl t D)
    (hu : 4 * ((D + nPoints + 40 : ℕ) : ℝ) * ((nlat - 1 : ℕ) : ℝ) ^ 2 * u ≤ 3) :
    (EqvInput.mk nlat nlon ylat vort (flDefaultArea fl p radius nlat nlon c) nPoints radius).Stored fl ∧
    (EqvInput.mk nlat nlon ylat vort (flDefaultArea fl p radius nlat nlon c) nPoints radius).Room u D ∧
    ∃ f, (EqvInput.mk nlat nlon ylat vort (flDefaultArea fl p radius nlat nlon c) nPoints radius).flQref fl p t = .ok f := by
  have hpi := pi_pos
  have hp3 := pi_gt_three
  have h0 := h.nonneg
  set m : ℝ := ((nlat - 1 : ℕ) : ℝ) with hm
  have hm2 : (2 : ℝ) ≤ m := by rw [hm]; exact_mod_cast (by omega : 2 ≤ nlat - 1)
  have em : (nlat : ℝ) = m + 1 := by
    rw [hm, ← Nat.cast_succ]
    congr 1
    omega
  set N : ℝ := ((D + nPoints + 40 : ℕ) : ℝ) with hN
  have eN : ((D + nPoints + 5 : ℕ) : ℝ) = N - 35 := by
    rw [hN]
    push_cast
    ring
  have hN40 : 40 ≤ N := by rw [hN]; exact_mod_cast (by omega : 40 ≤ D + nPoints + 40)
  have hNu : 0 ≤ N * u := mul_nonneg (by linarith) h0
  have hs : 16 * (N * u) ≤ 3 := by
    have : 4 ≤ m ^ 2 := by nlinarith
    nlinarith
  have hu1 : u < 1 := by nlinarith
  have hl : (0 : ℝ) < nlon := by exact_mod_cast h1
  have hS : 0 < 2 * π * radius ^ 2 := by positivity
  have area0 : ∀ r < nlat, ∀ s < nlon, 0 ≤ flDefaultArea fl p radius nlat nlon c r s := fun r hr' s _ => by
    have a := (flDefaultArea_approx h hu1 hr h3 h1 (hc0 r hr') s).1
    have k0 := hc0 r hr'
    have : 0 ≤ 2 * π * radius ^ 2 * (c r * (π / ((nlat - 1 : ℕ) : ℝ))) / nlon :=
      div_nonneg (mul_nonneg hS.le (mul_nonneg k0 (div_nonneg hpi.le (by positivity)))) hl.le
    exact le_trans (mul_nonneg (pow_nonneg (by linarith) _) this) a
  have stored : (EqvInput.mk nlat nlon ylat vort (flDefaultArea fl p radius nlat nlon c) nPoints radius).Stored fl :=
    ⟨by show 0 < nlat; omega, by show 0 < nlon; omega, hn, hr, area0, hv⟩
  have room : (EqvInput.mk nlat nlon ylat vort (flDefaultArea fl p radius nlat nlon c) nPoints radius).Room u D := by
    refine C210_room stored ?_ (Or.inl ?_)
    · show 4 * ((D + nPoints + 5 : ℕ) : ℝ) * u ≤ 1
      rw [eN]
      nlinarith
    · show ∑ r ∈ range nlat, ∑ s ∈ range nlon, flDefaultArea fl p radius nlat nlon c r s ≤
        (1 - ((D + nPoints + 5 : ℕ) : ℝ) * u) * (4 * π * radius ^ 2)
      rw [eN]
      have k1 : ∑ r ∈ range nlat, ∑ s ∈ range nlon, flDefaultArea fl p radius nlat nlon c r s ≤
          (1 + u) ^ 11 * (2 * π * radius ^ 2) * ((∑ r ∈ range nlat, c r) * (π / m)) := by
        rw [sum_mul, mul_sum]
        refine sum_le_sum fun r hr' => ?_
        have hr' := mem_range.1 hr'
        calc ∑ s ∈ range nlon, flDefaultArea fl p radius nlat nlon c r s
            ≤ ∑ _s ∈ range nlon, (1 + u) ^ 11 * (2 * π * radius ^ 2 * (c r * (π / m)) / nlon) :=
              sum_le_sum fun s _ => (flDefaultArea_approx h hu1 hr h3 h1 (hc0 r hr') s).2
          _ = (1 + u) ^ 11 * (2 * π * radius ^ 2) * (c r * (π / m)) := by
              rw [sum_const, card_range, nsmul_eq_mul]
              field_simp
      have k2 : (∑ r ∈ range nlat, c r) * (π / m) ≤ 2 - (π / m) ^ 2 / 6 + 48 * u := by
        have g := cos_sum_gap (nlat - 1) (by omega)
        rw [show nlat - 1 + 1 = nlat by omega, ← hm] at g
        have s1 : ∑ r ∈ range nlat, c r ≤ ∑ r ∈ range nlat, (sin (r * (π / m)) + 8 * u) := sum_le_sum fun r hr' => by
          have := (abs_le.1 (hc r (mem_range.1 hr'))).2
          rw [cos_regularLat nlat r h3, ← hm] at this
          linarith
        rw [sum_add_distrib, sum_const, card_range, nsmul_eq_mul] at s1
        have s2 : (nlat : ℝ) * (8 * u) * (π / m) ≤ 48 * u := by
          rw [em, mul_div_assoc', div_le_iff₀ (by linarith)]
          have := pi_lt_four
          have q1 : (m + 1) * π ≤ 6 * m := by nlinarith
          nlinarith
        have s3 := mul_le_mul_of_nonneg_right s1 (div_nonneg hpi.le (by linarith : (0 : ℝ) ≤ m))
        nlinarith
      have k3 : 9 / m ^ 2 ≤ (π / m) ^ 2 := by
        rw [div_pow]
        gcongr
        nlinarith
      have k4 : 2 * (N * u) ≤ 9 / m ^ 2 / 6 := by
        rw [div_div, le_div_iff₀ (by positivity)]
        linarith
      have k5 : (1 - 11 * u) * (1 + u) ^ 11 ≤ 1 := by
        have := quotient_upper h0 hu1.le 11 0
        norm_num at this
        linarith
      have k6 : 2 - (π / m) ^ 2 / 6 + 48 * u ≤ 2 * (1 - (N - 35) * u) * (1 - 11 * u) := by
        have : 0 ≤ (N - 35) * u * (11 * u) := mul_nonneg (mul_nonneg (by linarith) h0) (by linarith)
        nlinarith
      have k7 : 0 ≤ 2 * (1 - (N - 35) * u) := by nlinarith
      have k8 : (1 + u) ^ 11 * ((∑ r ∈ range nlat, c r) * (π / m)) ≤ 2 * (1 - (N - 35) * u) := by
        have e0 : (0 : ℝ) ≤ (1 + u) ^ 11 := by positivity
        have e1 := mul_le_mul_of_nonneg_left (k2.trans k6) e0
        have e2 := mul_le_mul_of_nonneg_left k5 k7
        linarith
      have k9 := mul_le_mul_of_nonneg_left k8 hS.le
      linarith
  exact ⟨stored, room, C210_numbers h stored ht room⟩

/-! ### The computed contour interval -/

theorem flBins_near (h : Rounds u fl p) (hI : I.Stored fl) (hu : 8 * u ≤ 1) {M : ℝ} (hM : ∀ r < I.nlat, ∀ c < I.nlon, |I.vort r c| ≤ M) {i : ℕ}
    (hi : i < I.nPoints) :
    |I.flBins fl i - (Falwa.amin I.nlat I.nlon I.vort +
      i * ((Falwa.amax I.nlat I.nlon I.vort - Falwa.amin I.nlat I.nlon I.vort) / ((I.nPoints - 1 : ℕ) : ℝ)))| ≤ 10 * u * M := by
  have h2 := hI.points
  have h0 := h.nonneg
  have hm : (0 : ℝ) < ((I.nPoints - 1 : ℕ) : ℝ) := by exact_mod_cast (by omega : 0 < I.nPoints - 1)
  have hR : 0 ≤ Falwa.amax I.nlat I.nlon I.vort - Falwa.amin I.nlat I.nlon I.vort := sub_nonneg.2 amin_le_amax
  have m1 : |Falwa.amin I.nlat I.nlon I.vort| ≤ M := by
    obtain ⟨q, hq, e⟩ := exists_amin (vort := I.vort) hI.cells
    obtain ⟨k1, k2⟩ := mem_cells.1 hq
    rw [e]
    exact hM _ k1 _ k2
  have m2 : |Falwa.amax I.nlat I.nlon I.vort| ≤ M := by
    obtain ⟨q, hq, e⟩ := exists_amax (vort := I.vort) hI.cells
    obtain ⟨k1, k2⟩ := mem_cells.1 hq
    rw [e]
    exact hM _ k1 _ k2
  have hM0 : 0 ≤ M := (abs_nonneg _).trans m1
  rw [abs_le] at m1 m2
  by_cases hl : i + 1 = I.nPoints
  · have e1 : I.flBins fl i = Falwa.amax I.nlat I.nlon I.vort := by unfold flBins linspaceFl; rw [if_pos hl]
    have e2 : ((I.nPoints - 1 : ℕ) : ℝ) = i := by congr 1; omega
    rw [e2] at hm
    rw [e1, e2, mul_div_cancel₀ _ hm.ne', add_sub_cancel, sub_self, abs_zero]
    positivity
  · have e1 : I.flBins fl i = fl (fl ((i : ℝ) * fl (fl (Falwa.amax I.nlat I.nlon I.vort - Falwa.amin I.nlat I.nlon I.vort) /
        ((I.nPoints - 1 : ℕ) : ℝ))) + Falwa.amin I.nlat I.nlon I.vort) := by unfold flBins linspaceFl; rw [if_neg hl]
    rw [e1]
    set lo := Falwa.amin I.nlat I.nlon I.vort
    set R := Falwa.amax I.nlat I.nlon I.vort - lo with hRd
    have b1 : Approx u 2 (R / ((I.nPoints - 1 : ℕ) : ℝ)) (fl (fl R / ((I.nPoints - 1 : ℕ) : ℝ))) := by
      have := (((approx_abs h.rel hR).mul_right (inv_nonneg.2 hm.le))).fl h.rel h0 (by linarith) (mul_nonneg hR (inv_nonneg.2 hm.le))
      rwa [← div_eq_mul_inv, ← div_eq_mul_inv] at this
    have a1 : Approx u 3 ((i : ℝ) * (R / ((I.nPoints - 1 : ℕ) : ℝ))) (fl ((i : ℝ) * fl (fl R / ((I.nPoints - 1 : ℕ) : ℝ)))) := by
      have := ((b1.mul_right (Nat.cast_nonneg i : (0 : ℝ) ≤ i))).fl h.rel h0 (by linarith)
        (mul_nonneg (div_nonneg hR hm.le) (Nat.cast_nonneg _))
      rwa [mul_comm _ (i : ℝ), mul_comm _ (i : ℝ)] at this
    set x := (i : ℝ) * (R / ((I.nPoints - 1 : ℕ) : ℝ)) with hx
    set y := fl ((i : ℝ) * fl (fl R / ((I.nPoints - 1 : ℕ) : ℝ)))
    have hx0 : 0 ≤ x := mul_nonneg (Nat.cast_nonneg _) (div_nonneg hR hm.le)
    have hxR : x ≤ R := by
      have k : (i : ℝ) ≤ ((I.nPoints - 1 : ℕ) : ℝ) := by exact_mod_cast (by omega : i ≤ I.nPoints - 1)
      rw [hx, mul_div_assoc', div_le_iff₀ hm]
      nlinarith
    have c1 : |y - x| ≤ 4 * u * x := by
      have p1 : (1 + u) ^ 3 ≤ 1 + 4 * u := by nlinarith [mul_nonneg h0 h0, mul_nonneg (mul_nonneg h0 h0) h0]
      have p2 : 1 - 4 * u ≤ (1 - u) ^ 3 := by nlinarith [one_sub_le_pow (by linarith : u ≤ 1) 3]
      have q1 := mul_le_mul_of_nonneg_right p1 hx0
      have q2 := mul_le_mul_of_nonneg_right p2 hx0
      rw [abs_le]
      constructor
      · linarith [a1.1]
      · linarith [a1.2]
    have c2 : |y - x| ≤ 8 * u * M := c1.trans (by nlinarith [mul_le_mul_of_nonneg_left hxR h0])
    have c3 := h.rel (y + lo)
    have c4 : |y + lo| ≤ 2 * M := by
      rw [abs_le] at c2 ⊢
      constructor <;> nlinarith [c2.1, c2.2]
    have c5 : |fl (y + lo) - (y + lo)| ≤ 2 * u * M := c3.trans (by nlinarith [mul_le_mul_of_nonneg_left c4 h0])
    rw [abs_le] at c2 c5 ⊢
    constructor <;> linarith [c2.1, c2.2, c5.1, c5.2]

/-- **C210, interval.** The computed contour interval is the exact one up to `20 u M`, with `M` a bound of the field. -/
theorem C210_interval (h : Rounds u fl p) (hI : I.Stored fl) (hu : 8 * u ≤ 1) {M : ℝ} (hM : ∀ r < I.nlat, ∀ c < I.nlon, |I.vort r c| ≤ M) {i : ℕ}
    (hi : i + 1 < I.nPoints) :
    I.flBins fl (i + 1) - I.flBins fl i ≤
      (Falwa.amax I.nlat I.nlon I.vort - Falwa.amin I.nlat I.nlon I.vort) / ((I.nPoints - 1 : ℕ) : ℝ) + 20 * u * M := by
  have a := abs_le.1 (flBins_near h hI hu hM hi)
  have b := abs_le.1 (flBins_near h hI hu hM (by omega : i < I.nPoints))
  push_cast at a
  linarith [a.2, b.1]

/-! ### Examples -/

theorem exists_order (l : List ℕ) : ∃ o, IsOrder l o := by
  induction l with
  | nil => exact ⟨none, rfl⟩
  | cons a l ih =>
    obtain ⟨o, ho⟩ := ih
    cases o with
    | none =>
      have e : l = [] := ho
      exact ⟨some (.row a), by rw [e]; exact List.Perm.refl _⟩
    | some s => exact ⟨some (.add (.row a) s), List.Perm.cons a ho⟩

/-- Double precision. -/
theorem rounds_double : Rounds ((1 / 2) ^ 53) (roundBits 52) (roundBits 52 π) where
  nonneg := by positivity
  rel := relativeError_roundBits 52
  mono := roundBits_mono 52
  one := roundBits_one 52
  two := by
    have := roundBits_exact (p := 52) (n := 1) (e := 1) (by norm_num) (by norm_num)
    norm_num at this
    exact this
  neg_one := by
    refine roundBits_fix (-2 ^ 52) ?_
    have hl : Int.log 2 |(-1 : ℝ)| = 0 := by rw [abs_neg, abs_one]; exact Int.log_one_right 2
    rw [hl, zero_sub, zpow_neg]
    norm_num
  pi := by
    have := relativeError_roundBits (K := ℝ) 52 π
    rwa [abs_of_pos pi_pos] at this

theorem double_nat {n : ℕ} (h : n < 2 ^ 53) : roundBits 52 (n : ℝ) = n := by
  rcases Nat.eq_zero_or_pos n with rfl | hn
  · rw [Nat.cast_zero]
    exact rounds_double.zero
  · have := roundBits_exact (p := 52) (n := n) (e := 0) (by exact_mod_cast hn) (by exact_mod_cast h)
    rw [zpow_zero, mul_one] at this
    exact_mod_cast this

/-- A field that increases along both axes on the one degree grid, with the default areas. -/
def oneDegree : EqvInput :=
  ⟨181, 360, regularLat 181, fun r c => ((r + c : ℕ) : ℝ), flDefaultArea (roundBits 52) (roundBits 52 π) 6378000 181 360
    (fun j => cos (regularLat 181 j * π / 180)), 181, 6378000⟩

/-- The hypotheses of the theorems hold in double precision on the one degree grid whatever the order of summation. -/
theorem oneDegree_runs : ∃ t, oneDegree.Orders (roundBits 52) t (181 * 360) ∧ oneDegree.Stored (roundBits 52) ∧
    oneDegree.Room ((1 / 2) ^ 53) (181 * 360) ∧ ∃ f, oneDegree.flQref (roundBits 52) (roundBits 52 π) t = .ok f := by
  have ho := fun i => exists_order (oneDegree.inBin (roundBits 52) i)
  choose t ht using ho
  have o : oneDegree.Orders (roundBits 52) t (181 * 360) := orders_all fun i _ _ => ht i
  have hpi := pi_pos
  have := C210_default (nlat := 181) (nlon := 360) (nPoints := 181) (radius := 6378000) (ylat := regularLat 181)
    (c := fun j => cos (regularLat 181 j * π / 180)) (vort := fun r c => ((r + c : ℕ) : ℝ)) (t := t) (D := 181 * 360) rounds_double (by norm_num)
    (by norm_num) (by norm_num) (by norm_num)
    (fun j hj => by
      rw [cos_regularLat 181 j (by norm_num)]
      have hj : (j : ℝ) ≤ 180 := by exact_mod_cast (by omega : j ≤ 180)
      refine sin_nonneg_of_nonneg_of_le_pi (by positivity) ?_
      norm_num
      nlinarith)
    (fun j _ => by rw [sub_self, abs_zero]; positivity) (fun r hr s hs => double_nat (by omega)) o (by norm_num)
  exact ⟨t, o, this⟩

/-- The hypotheses of `C210_numbers`, `C210_contour` and `C210_interval`. -/
example : ∃ t, Rounds ((1 / 2) ^ 53) (roundBits 52) (roundBits 52 π) ∧ oneDegree.Stored (roundBits 52) ∧
    oneDegree.Orders (roundBits 52) t (181 * 360) ∧ oneDegree.Room ((1 / 2) ^ 53) (181 * 360) ∧
    (∃ f, oneDegree.flQref (roundBits 52) (roundBits 52 π) t = .ok f) ∧ (-90 ≤ oneDegree.ylat 90 ∧ oneDegree.ylat 90 ≤ 90) ∧
    ∀ r < oneDegree.nlat, ∀ c < oneDegree.nlon, |oneDegree.vort r c| ≤ 540 := by
  obtain ⟨t, h1, h2, h3, h4⟩ := oneDegree_runs
  refine ⟨t, rounds_double, h2, h1, h3, h4, by norm_num [oneDegree, regularLat], fun r hr c hc => ?_⟩
  have hr : r < 181 := hr
  have hc : c < 360 := hc
  show |((r + c : ℕ) : ℝ)| ≤ 540
  rw [abs_of_nonneg (Nat.cast_nonneg _)]
  exact_mod_cast (by omega : r + c ≤ 540)

/-- The second alternative of `C210_room`. -/
example : sampleInput.Stored (roundBits 52) ∧ sampleInput.Room ((1 / 2) ^ 53) 6 := by
  have st : sampleInput.Stored (roundBits 52) := by
    refine ⟨by norm_num [sampleInput], by norm_num [sampleInput], by norm_num [sampleInput], by norm_num [sampleInput],
      fun _ _ _ _ => by norm_num [sampleInput], fun r _ c _ => ?_⟩
    have k0 := double_nat (n := 0) (by norm_num)
    have k1 := double_nat (n := 1) (by norm_num)
    have k2 := double_nat (n := 2) (by norm_num)
    have k5 := double_nat (n := 5) (by norm_num)
    push_cast at k0 k1 k2 k5
    simp only [sampleInput]
    split_ifs <;> assumption
  have h3 := pi_gt_three
  have h4 := pi_lt_four
  refine ⟨st, C210_room st (by norm_num [sampleInput]) (Or.inr ⟨?_, fun r _ c _ => ?_⟩)⟩
  · simp only [sampleInput, sum_const, card_range]
    norm_num
    linarith
  · norm_num [sampleInput]
    linarith

end EqvInput

end Falwa

end
