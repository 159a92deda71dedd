import Verif.Props.EqvlatRounding
import Verif.Props.GridBound

/-!
# C211: from a field on the sphere to the numbers that the machine returns
-/

noncomputable section

namespace Falwa

open Finset Real Spec

/-! ### Areas with errors -/

theorem below_close {n m : ℕ} {g A A' : ℕ → ℕ → ℝ} {E : ℝ} (h : ∑ r ∈ range n, ∑ c ∈ range m, |A r c - A' r c| ≤ E) (v : ℝ) :
    areaBelow n m g A' v ≤ areaBelow n m g A v + E := by
  refine le_trans ?_ (add_le_add le_rfl h)
  unfold areaBelow
  rw [← sum_add_distrib]
  refine sum_le_sum fun r _ => ?_
  rw [← sum_add_distrib]
  refine sum_le_sum fun c _ => ?_
  split_ifs
  · linarith [neg_abs_le (A r c - A' r c)]
  · rw [zero_add]; exact abs_nonneg _

theorem upTo_close {n m : ℕ} {g A A' : ℕ → ℕ → ℝ} {E : ℝ} (h : ∑ r ∈ range n, ∑ c ∈ range m, |A r c - A' r c| ≤ E) (v : ℝ) :
    areaUpTo n m g A v ≤ areaUpTo n m g A' v + E := by
  refine le_trans ?_ (add_le_add le_rfl h)
  unfold areaUpTo
  rw [← sum_add_distrib]
  refine sum_le_sum fun r _ => ?_
  rw [← sum_add_distrib]
  refine sum_le_sum fun c _ => ?_
  split_ifs
  · linarith [le_abs_self (A r c - A' r c)]
  · rw [zero_add]; exact abs_nonneg _

variable {u p a L K W : ℝ} {fl : ℝ → ℝ} {q : ℝ → ℝ → ℝ} {N M n D : ℕ} {cs : ℕ → ℝ} {vort : ℕ → ℕ → ℝ} {t : ℕ → Option SumOrder}

/-- The default areas against those of exact arithmetic. -/
theorem area_error (h : Rounds u fl p) (ha : 0 < a) (hN : 2 ≤ N) (hM : 1 ≤ M) (hu : 420 * u ≤ 1) (hc0 : ∀ j < N + 1, 0 ≤ cs j)
    (hc : ∀ j < N + 1, |cs j - cos (regularLat (N + 1) j * π / 180)| ≤ 8 * u) :
    ∑ r ∈ range (N + 1), ∑ s ∈ range M, |flDefaultArea fl p a (N + 1) M cs r s - cellWeight a N M r s| ≤ 2 * π * a ^ 2 * (84 * u) := by
  have hpi := pi_pos
  have hpi4 := pi_lt_four
  have h0 := h.nonneg
  have hN' : (2 : ℝ) ≤ N := by exact_mod_cast hN
  have hM' : (0 : ℝ) < M := by exact_mod_cast hM
  have hS : 0 < 2 * π * a ^ 2 := by positivity
  have hh : 0 < π / N := by positivity
  have row : ∀ r ∈ range (N + 1), ∑ s ∈ range M, |flDefaultArea fl p a (N + 1) M cs r s - cellWeight a N M r s| ≤
      2 * π * a ^ 2 * (π / N) * (12 * u * cs r + 8 * u) := fun r hr => by
    have hr := mem_range.1 hr
    have k0 := hc0 r hr
    have cell : ∀ s ∈ range M, |flDefaultArea fl p a (N + 1) M cs r s - cellWeight a N M r s| ≤
        2 * π * a ^ 2 * (π / N) * (12 * u * cs r + 8 * u) / M := fun s _ => by
      obtain ⟨b1, b2⟩ := EqvInput.flDefaultArea_approx h (by linarith : u < 1) ha (by omega : 3 ≤ N + 1) hM k0 s
      rw [Nat.add_sub_cancel] at b1 b2
      have k1 := hc r hr
      rw [regularLat_rad, Nat.add_sub_cancel, show π / 2 - -(π / 2) = π by ring] at k1
      have e1 : cellWeight a N M r s = 2 * π * a ^ 2 * (π / N) / M * cos (-(π / 2) + r * (π / N)) := by
        unfold cellWeight
        ring
      have e2 : 2 * π * a ^ 2 * (cs r * (π / N)) / M = 2 * π * a ^ 2 * (π / N) / M * cs r := by ring
      have e3 : 2 * π * a ^ 2 * (π / N) * (12 * u * cs r + 8 * u) / M = 2 * π * a ^ 2 * (π / N) / M * (12 * u * cs r + 8 * u) := by ring
      rw [e2] at b1 b2
      rw [e1, e3]
      set G := 2 * π * a ^ 2 * (π / N) / M with hG
      have hG0 : 0 ≤ G := by positivity
      have hGc : 0 ≤ G * cs r := mul_nonneg hG0 k0
      have p1 : (1 + u) ^ 11 ≤ 1 + 12 * u := by
        have := quotient_upper h0 (by linarith : u ≤ 1) 11 0
        norm_num at this
        have k2 : 0 < 1 - 11 * u := by linarith
        have k3 : (1 - 11 * u) * (1 + u) ^ 11 ≤ (1 - 11 * u) * (1 + 12 * u) := by nlinarith
        exact le_of_mul_le_mul_left k3 k2
      have p2 : 1 - 12 * u ≤ (1 - u) ^ 11 := by
        have := one_sub_le_pow (by linarith : u ≤ 1) 11
        norm_num at this
        linarith
      have q1 := mul_le_mul_of_nonneg_right p1 hGc
      have q2 := mul_le_mul_of_nonneg_right p2 hGc
      rw [abs_le] at k1
      have q3 := mul_le_mul_of_nonneg_left k1.1 hG0
      have q4 := mul_le_mul_of_nonneg_left k1.2 hG0
      rw [abs_le]
      constructor <;> nlinarith
    refine (sum_le_sum cell).trans (le_of_eq ?_)
    rw [sum_const, card_range, nsmul_eq_mul]
    field_simp
  refine (sum_le_sum row).trans ?_
  rw [← mul_sum, sum_add_distrib, ← mul_sum, sum_const, card_range, nsmul_eq_mul]
  have s1 : (∑ r ∈ range (N + 1), cs r) * (π / N) ≤ 3 := by
    have g := cos_sum_le_two N hN
    have t1 : ∑ r ∈ range (N + 1), cs r ≤ ∑ r ∈ range (N + 1), (sin (r * (π / N)) + 8 * u) := sum_le_sum fun r hr => by
      have := (abs_le.1 (hc r (mem_range.1 hr))).2
      rw [cos_regularLat (N + 1) r (by omega), Nat.add_sub_cancel] at this
      linarith
    rw [sum_add_distrib, sum_const, card_range, nsmul_eq_mul] at t1
    have t2 : ((N + 1 : ℕ) : ℝ) * (8 * u) * (π / N) ≤ 48 * u := by
      rw [mul_div_assoc', div_le_iff₀ (by linarith)]
      push_cast
      have q1 : ((N : ℝ) + 1) * π ≤ 6 * N := by nlinarith
      nlinarith
    have t3 := mul_le_mul_of_nonneg_right t1 hh.le
    nlinarith
  have s2 : ((N + 1 : ℕ) : ℝ) * (8 * u) * (π / N) ≤ 48 * u := by
    rw [mul_div_assoc', div_le_iff₀ (by linarith)]
    push_cast
    have q1 : ((N : ℝ) + 1) * π ≤ 6 * N := by nlinarith
    nlinarith
  have s3 := mul_le_mul_of_nonneg_left s1 (by linarith : (0 : ℝ) ≤ 12 * u)
  calc 2 * π * a ^ 2 * (π / N) * (12 * u * ∑ r ∈ range (N + 1), cs r + ((N + 1 : ℕ) : ℝ) * (8 * u))
      = 2 * π * a ^ 2 * (12 * u * ((∑ r ∈ range (N + 1), cs r) * (π / N)) + ((N + 1 : ℕ) : ℝ) * (8 * u) * (π / N)) := by ring
    _ ≤ 2 * π * a ^ 2 * (84 * u) := mul_le_mul_of_nonneg_left (by linarith) hS.le

/-! ### Caps that are two rows apart -/

theorem cap_step (a : ℝ) {N j : ℕ} (hN : 2 ≤ N) (hj : j < N) :
    southCap a (-(π / 2) + j * (π / N)) + 2 * π * a ^ 2 * (2 / (N : ℝ) ^ 2) ≤ southCap a (-(π / 2) + ((j + 1 : ℕ) : ℝ) * (π / N)) := by
  obtain ⟨h1, h2, hs, hc⟩ := half_step hN
  have hpi := pi_pos
  have hN' : (0 : ℝ) < N := by exact_mod_cast (by omega : 0 < N)
  have o := odd_step (m := 2 * j + 1) hN rfl hj
  have lo : 1 / (N : ℝ) ≤ sin (π / N / 2) := by
    have := mul_le_sin h1.le h2.le
    refine le_trans (le_of_eq ?_) this
    field_simp
  rw [cap_cos, cap_cos]
  push_cast at o ⊢
  set y := π / N / 2 with hy
  rw [show (π / N : ℝ) = 2 * y by rw [hy]; ring]
  have e : cos ((j : ℝ) * (2 * y)) - cos (((j : ℝ) + 1) * (2 * y)) = 2 * sin ((2 * j + 1) * y) * sin y := by
    rw [cos_sub_cos, show ((j : ℝ) * (2 * y) + (j + 1) * (2 * y)) / 2 = (2 * j + 1) * y by ring,
      show ((j : ℝ) * (2 * y) - (j + 1) * (2 * y)) / 2 = -y by ring, sin_neg]
    ring
  have b : 2 / (N : ℝ) ^ 2 ≤ cos ((j : ℝ) * (2 * y)) - cos (((j : ℝ) + 1) * (2 * y)) := by
    have l0 : 0 < 1 / (N : ℝ) := by positivity
    have e2 : 2 / (N : ℝ) ^ 2 = 2 * (1 / (N : ℝ) * (1 / N)) := by field_simp
    rw [e, e2]
    nlinarith [mul_le_mul lo lo l0.le hs.le]
  have hA : 0 ≤ 2 * π * a ^ 2 := by positivity
  rw [← mul_add]
  refine mul_le_mul_of_nonneg_left ?_ hA
  linarith

/-- Bounds of the reference state from areas on the sphere. -/
theorem reference_between {P : ℝ → ℝ} {B x H U V : ℝ} (hB : 0 ≤ B) (hH : 0 < H) (h1 : -(π / 2) ≤ x - H) (h2 : x + H ≤ π / 2)
    (hP : ∀ φ ∈ Set.Ioo (-(π / 2)) (π / 2), Encloses a q (-(π / 2)) (π / 2) (southCap a φ) (P φ))
    (hPB : ∀ φ ∈ Set.Ioo (-(π / 2)) (π / 2), ∀ φ' ∈ Set.Ioo (-(π / 2)) (π / 2), |P φ - P φ'| ≤ B * |φ - φ'|)
    (b1 : southCap a (x - H) < areaAtMost a q (-(π / 2)) (π / 2) U)
    (b2 : ∀ w, w < V → areaAtMost a q (-(π / 2)) (π / 2) w < southCap a (x + H)) : P x - B * H ≤ U ∧ V ≤ P x + B * H := by
  have hcont : Continuous (southCap a) := by unfold southCap; fun_prop
  have hxm : x ∈ Set.Ioo (-(π / 2)) (π / 2) := ⟨by linarith, by linarith⟩
  constructor
  · obtain ⟨φ, hφ1, hφ2⟩ : ∃ φ ∈ Set.Ioo (x - H) x, southCap a φ < areaAtMost a q (-(π / 2)) (π / 2) U := by
      have ev := hcont.continuousAt.eventually_lt continuousAt_const b1
      have ev2 : ∀ᶠ φ in nhdsWithin (x - H) (Set.Ioi (x - H)), φ ∈ Set.Ioo (x - H) x := Ioo_mem_nhdsGT (by linarith)
      obtain ⟨φ, h1, h2⟩ := ((ev.filter_mono nhdsWithin_le_nhds).and ev2).exists
      exact ⟨φ, h2, h1⟩
    have hφm : φ ∈ Set.Ioo (-(π / 2)) (π / 2) := ⟨by linarith [hφ1.1], by linarith [hφ1.2, hxm.2]⟩
    have h1 : P φ ≤ U := by
      by_contra h
      exact absurd hφ2 (not_lt.2 ((hP φ hφm).below _ (not_le.1 h)).le)
    have h2 := (abs_le.1 (hPB x hxm φ hφm)).2
    have h3 : |x - φ| ≤ H := by rw [abs_le]; constructor <;> linarith [hφ1.1, hφ1.2]
    have := mul_le_mul_of_nonneg_left h3 hB
    linarith
  · refine le_of_forall_lt fun w hw => ?_
    obtain ⟨w', hw1, hw2⟩ := exists_between hw
    obtain ⟨φ, hφ1, hφ2⟩ : ∃ φ ∈ Set.Ioo x (x + H), areaAtMost a q (-(π / 2)) (π / 2) w' < southCap a φ := by
      have ev := continuousAt_const.eventually_lt hcont.continuousAt (b2 w' hw2)
      have ev2 : ∀ᶠ φ in nhdsWithin (x + H) (Set.Iio (x + H)), φ ∈ Set.Ioo x (x + H) := Ioo_mem_nhdsLT (by linarith)
      obtain ⟨φ, h1, h2⟩ := ((ev.filter_mono nhdsWithin_le_nhds).and ev2).exists
      exact ⟨φ, h2, h1⟩
    have hφm : φ ∈ Set.Ioo (-(π / 2)) (π / 2) := ⟨by linarith [hφ1.1, hxm.1], by linarith [hφ1.2]⟩
    have h1 : w' ≤ P φ := by
      by_contra h
      exact absurd hφ2 (not_lt.2 ((hP φ hφm).above _ (not_le.1 h)).le)
    have h2 := (abs_le.1 (hPB φ hφm x hxm)).2
    have h3 : |φ - x| ≤ H := by rw [abs_le]; constructor <;> linarith [hφ1.1, hφ1.2]
    have := mul_le_mul_of_nonneg_left h3 hB
    linarith

/-! ### The claim -/

/-- The input of `eqvlat_fawa` for a `BarotropicField` with default areas on a regular grid of `N` intervals from pole to pole and `M` columns. -/
def machineInput (fl : ℝ → ℝ) (p a : ℝ) (N M n : ℕ) (cs : ℕ → ℝ) (vort : ℕ → ℕ → ℝ) : EqvInput :=
  EqvInput.mk (N + 1) M (regularLat (N + 1)) vort (flDefaultArea fl p a (N + 1) M cs) n a

/-- A field on the sphere, given to the machine: the values at the grid points and the cosines are rounded, the areas of a bin are added in some order. -/
structure OnMachine (u : ℝ) (fl : ℝ → ℝ) (p a : ℝ) (q : ℝ → ℝ → ℝ) (W : ℝ) (N M n D : ℕ) (cs : ℕ → ℝ) (vort : ℕ → ℕ → ℝ) (t : ℕ → Option SumOrder) : Prop where
  rounds : Rounds u fl p
  radius_pos : 0 < a
  rows : 2 ≤ N
  columns : 1 ≤ M
  points : 2 ≤ n
  cos_nonneg : ∀ j < N + 1, 0 ≤ cs j
  cos_near : ∀ j < N + 1, |cs j - cos (regularLat (N + 1) j * π / 180)| ≤ 8 * u
  bound : ∀ r < N + 1, ∀ s < M, |cellValue q N M r s| ≤ W
  near : ∀ r < N + 1, ∀ s < M, |vort r s - cellValue q N M r s| ≤ u * W
  stored : ∀ r < N + 1, ∀ s < M, fl (vort r s) = vort r s
  orders : (machineInput fl p a N M n cs vort).Orders fl t D
  small : 5 * ((D + n + 40 : ℕ) : ℝ) * (N : ℝ) ^ 2 * u ≤ 2

theorem OnMachine.unit (hm : OnMachine u fl p a q W N M n D cs vort t) : 420 * u ≤ 1 := by
  have h0 := hm.rounds.nonneg
  have h1 := hm.small
  have h2 : (42 : ℝ) ≤ ((D + n + 40 : ℕ) : ℝ) := by
    have := hm.points
    exact_mod_cast (by omega : 42 ≤ D + n + 40)
  have h3 : (2 : ℝ) ≤ N := by exact_mod_cast hm.rows
  have h4 : (4 : ℝ) ≤ (N : ℝ) ^ 2 := by nlinarith
  have h5 : (168 : ℝ) ≤ ((D + n + 40 : ℕ) : ℝ) * (N : ℝ) ^ 2 := by nlinarith
  have h6 := mul_le_mul_of_nonneg_right h5 h0
  nlinarith

theorem OnMachine.runs (hm : OnMachine u fl p a q W N M n D cs vort t) :
    (machineInput fl p a N M n cs vort).Stored fl ∧ (machineInput fl p a N M n cs vort).Room u D ∧
      ∃ f, (machineInput fl p a N M n cs vort).flQref fl p t = .ok f := by
  refine EqvInput.C210_default hm.rounds hm.radius_pos (by have := hm.rows; omega) hm.columns hm.points hm.cos_nonneg hm.cos_near hm.stored hm.orders ?_
  have := hm.small
  have h0 : 0 ≤ ((D + n + 40 : ℕ) : ℝ) * (N : ℝ) ^ 2 * u := mul_nonneg (by positivity) hm.rounds.nonneg
  rw [Nat.add_sub_cancel]
  nlinarith

theorem OnMachine.bound_nonneg (hm : OnMachine u fl p a q W N M n D cs vort t) : 0 ≤ W :=
  (abs_nonneg _).trans (hm.bound 0 (by omega) 0 hm.columns)

theorem OnMachine.bound_two (hm : OnMachine u fl p a q W N M n D cs vort t) : ∀ r < N + 1, ∀ s < M, |vort r s| ≤ 2 * W := fun r hr s hs => by
  have h1 := hm.near r hr s hs
  have h2 := hm.bound r hr s hs
  have h3 := hm.unit
  have h4 := hm.rounds.nonneg
  have h5 := hm.bound_nonneg
  have h6 : u * W ≤ W := by nlinarith
  rw [abs_le] at h1 h2 ⊢
  constructor <;> linarith [h1.1, h1.2, h2.1, h2.2]

/-- The computed contour interval. -/
theorem OnMachine.interval (hm : OnMachine u fl p a q W N M n D cs vort t) (hs : SlopeBound q L K) (hL : 0 ≤ L) (hK : 0 ≤ K) {i : ℕ} (hi : i + 1 < n) :
    (machineInput fl p a N M n cs vort).flBins fl (i + 1) - (machineInput fl p a N M n cs vort).flBins fl i ≤
      (L * π + K * (2 * π)) / ((n - 1 : ℕ) : ℝ) + 42 * u * W := by
  have h0 := hm.rounds.nonneg
  have hu := hm.unit
  have hW := hm.bound_nonneg
  have hpi := pi_pos
  have k := EqvInput.C210_interval hm.rounds hm.runs.1 (by linarith) (M := 2 * W) hm.bound_two hi
  have hne : (cells (N + 1) M).Nonempty := ⟨(0, 0), mem_cells.2 ⟨by omega, hm.columns⟩⟩
  have r : amax (N + 1) M vort - amin (N + 1) M vort ≤ L * π + K * (2 * π) + 2 * u * W := by
    obtain ⟨x, hx, f1⟩ := exists_amax (vort := vort) hne
    obtain ⟨y, hy, f2⟩ := exists_amin (vort := vort) hne
    obtain ⟨r1, r2⟩ := mem_cells.1 hx
    obtain ⟨r3, r4⟩ := mem_cells.1 hy
    rw [f1, f2]
    have c1 := abs_le.1 (hm.near _ r1 _ r2)
    have c2 := abs_le.1 (hm.near _ r3 _ r4)
    have c3 := abs_le.1 (slope_range hs hL hK (point_mem hm.rows hm.columns r1 r2) (point_mem hm.rows hm.columns r3 r4))
    have c4 : cellValue q N M x.1 x.2 - cellValue q N M y.1 y.2 ≤ L * π + K * (2 * π) := c3.2
    linarith [c1.2, c2.1]
  have hn1 : (1 : ℝ) ≤ ((n - 1 : ℕ) : ℝ) := by
    have := hm.points
    exact_mod_cast (by omega : 1 ≤ n - 1)
  have k2 : (amax (N + 1) M vort - amin (N + 1) M vort) / ((n - 1 : ℕ) : ℝ) ≤ (L * π + K * (2 * π)) / ((n - 1 : ℕ) : ℝ) + 2 * u * W := by
    rw [div_le_iff₀ (by linarith), add_mul, div_mul_cancel₀ _ (by linarith)]
    have : 0 ≤ 2 * u * W := by positivity
    nlinarith
  refine k.trans ?_
  show (amax (N + 1) M vort - amin (N + 1) M vort) / ((n - 1 : ℕ) : ℝ) + 20 * u * (2 * W) ≤ _
  linarith

/-- Bounds of the reference state from areas on the grid. -/
theorem sphere_between (hq : Continuous fun x : ℝ × ℝ => q x.1 x.2) (hs : SlopeBound q L K) (hL : 0 ≤ L) (hK : 0 ≤ K) (hN : 2 ≤ N) (hM : 1 ≤ M) (ha : 0 < a)
    {P : ℝ → ℝ} {B : ℝ} (hB : 0 ≤ B) (hP : ∀ φ ∈ Set.Ioo (-(π / 2)) (π / 2), Encloses a q (-(π / 2)) (π / 2) (southCap a φ) (P φ))
    (hPB : ∀ φ ∈ Set.Ioo (-(π / 2)) (π / 2), ∀ φ' ∈ Set.Ioo (-(π / 2)) (π / 2), |P φ - P φ'| ≤ B * |φ - φ'|) {j : ℕ} (h2 : 2 ≤ j) (hj : j + 2 ≤ N) {U V : ℝ}
    (low : areaBelow (N + 1) M (cellValue q N M) (cellWeight a N M) V ≤ southCap a (-(π / 2) + j * (π / N)) + 2 * π * a ^ 2 * (2 / (N : ℝ) ^ 2))
    (high : southCap a (-(π / 2) + j * (π / N)) - 2 * π * a ^ 2 * (2 / (N : ℝ) ^ 2) < areaUpTo (N + 1) M (cellValue q N M) (cellWeight a N M) U) :
    P (-(π / 2) + j * (π / N)) - B * (2 * (π / N)) ≤ U + (L * (π / N / 2) + K * (2 * π / M)) ∧
      V - (L * (π / N / 2) + K * (2 * π / M)) ≤ P (-(π / 2) + j * (π / N)) + B * (2 * (π / N)) := by
  have hpi := pi_pos
  have hN' : (0 : ℝ) < N := by exact_mod_cast (by omega : 0 < N)
  have hh : 0 < π / N := by positivity
  have e1 : (N : ℝ) * (π / N) = π := mul_div_cancel₀ _ hN'.ne'
  set x := -(π / 2) + (j : ℝ) * (π / N) with hx
  obtain ⟨g1, g2, gs, gc⟩ := half_step hN
  have s0 : 0 < sin (π / N / 2) / (π / N / 2) := div_pos gs g1
  have s1 : sin (π / N / 2) / (π / N / 2) ≤ 1 := (div_le_one g1).2 (sin_le g1.le)
  have hX : 0 ≤ 2 * π * a ^ 2 * (2 / (N : ℝ) ^ 2) := by positivity
  have c2 : ((j - 2 : ℕ) : ℝ) = j - 2 := by rw [Nat.cast_sub h2]; simp
  have b1 : southCap a (x - 2 * (π / N)) < areaAtMost a q (-(π / 2)) (π / 2) (U + (L * (π / N / 2) + K * (2 * π / M))) := by
    have m1 := cap_step a (j := j - 2) hN (by omega)
    have m2 := cap_before a hN (by omega : 0 < j) (by omega : j ≤ N)
    rw [show j - 2 + 1 = j - 1 by omega, c2, show -(π / 2) + ((j : ℝ) - 2) * (π / N) = x - 2 * (π / N) by rw [hx]; ring] at m1
    rw [← hx] at m2
    refine lt_of_lt_of_le ?_ (count_le hq hs hL hK hN hM a U)
    have m3 := mul_lt_mul_of_pos_left high s0
    have m4 := mul_le_mul_of_nonneg_right s1 hX
    rw [mul_sub] at m3
    linarith
  have b2 : ∀ w, w < V - (L * (π / N / 2) + K * (2 * π / M)) → areaAtMost a q (-(π / 2)) (π / 2) w < southCap a (x + 2 * (π / N)) := fun w hw => by
    have m1 := cap_step a (j := j + 1) hN (by omega)
    have m2 := cap_after ha hN (by omega : j < N)
    rw [show -(π / 2) + ((j + 1 + 1 : ℕ) : ℝ) * (π / N) = x + 2 * (π / N) by rw [hx]; push_cast; ring] at m1
    rw [← hx] at m2
    refine lt_of_le_of_lt (count_ge hq hs hL hK hN hM a hw) ?_
    have c0 : 0 ≤ areaBelow (N + 1) M (cellValue q N M) (cellWeight a N M) V := sum_nonneg fun r hr => sum_nonneg fun c _ => by
      split_ifs
      · exact cellWeight_nonneg hN (mem_range.1 hr) c
      · exact le_rfl
    have m3 := mul_le_mul_of_nonneg_right s1 c0
    linarith
  have cj : (2 : ℝ) ≤ j := by exact_mod_cast h2
  have cN : (j : ℝ) + 2 ≤ N := by exact_mod_cast hj
  have d2 := mul_le_mul_of_nonneg_right cj hh.le
  have d3 := mul_le_mul_of_nonneg_right cN hh.le
  exact reference_between (x := x) (H := 2 * (π / N)) hB (by positivity) (by rw [hx]; linarith) (by rw [hx]; linarith) hP hPB b1 b2

/-- **C211 (profile).** Let `P` be the reference state of a field on the sphere, with a slope of at most `B`. On every row at least two intervals away from the
poles the number that the machine returns differs from it by at most the change of `P` over two intervals, the error of the grid and `43 u W`. -/
theorem C211_profile (hm : OnMachine u fl p a q W N M n D cs vort t) (hq : Continuous fun x : ℝ × ℝ => q x.1 x.2) (hs : SlopeBound q L K) (hL : 0 ≤ L)
    (hK : 0 ≤ K) {P : ℝ → ℝ} {B : ℝ} (hB : 0 ≤ B)
    (hP : ∀ φ ∈ Set.Ioo (-(π / 2)) (π / 2), Encloses a q (-(π / 2)) (π / 2) (southCap a φ) (P φ))
    (hPB : ∀ φ ∈ Set.Ioo (-(π / 2)) (π / 2), ∀ φ' ∈ Set.Ioo (-(π / 2)) (π / 2), |P φ - P φ'| ≤ B * |φ - φ'|) :
    ∃ f, (machineInput fl p a N M n cs vort).flQref fl p t = .ok f ∧
      ∀ j, 2 ≤ j → j + 2 ≤ N → |f j - P (-(π / 2) + j * (π / N))| ≤ B * (2 * (π / N)) + gridError L K N M n + 43 * u * W := by
  obtain ⟨st, room, f, hf⟩ := hm.runs
  refine ⟨f, hf, fun j h2 hj => ?_⟩
  have hpi := pi_pos
  have h0 := hm.rounds.nonneg
  have hu := hm.unit
  have hW := hm.bound_nonneg
  have hN := hm.rows
  have hN' : (0 : ℝ) < N := by exact_mod_cast (by omega : 0 < N)
  have ha := hm.radius_pos
  have hS : 0 < 2 * π * a ^ 2 := by positivity
  have hh : 0 < π / N := by positivity
  have e1 : (N : ℝ) * (π / N) = π := mul_div_cancel₀ _ hN'.ne'
  have ylat : regularLat (N + 1) j * π / 180 = -(π / 2) + j * (π / N) := by
    rw [regularLat_rad, Nat.add_sub_cancel, show π / 2 - -(π / 2) = π by ring]
  have hjN : (j : ℝ) ≤ N := by exact_mod_cast (by omega : j ≤ N)
  have yb : -90 ≤ regularLat (N + 1) j ∧ regularLat (N + 1) j ≤ 90 := by
    have b1 : 0 ≤ (j : ℝ) * (π / N) := by positivity
    have b2 := mul_le_mul_of_nonneg_right hjN hh.le
    constructor <;> nlinarith
  have south : southOf a (regularLat (N + 1) j) = southCap a (-(π / 2) + j * (π / N)) := by
    unfold southOf southCap
    rw [ylat]
  obtain ⟨k1, k2⟩ := EqvInput.profile_areas hm.rounds st hm.orders room hf (fun i hi => hm.interval hs hL hK hi) (j := j) yb
  set d := (L * π + K * (2 * π)) / ((n - 1 : ℕ) : ℝ) + 42 * u * W with hd
  have k1 : areaBelow (N + 1) M vort (flDefaultArea fl p a (N + 1) M cs) (f j - d) ≤
      southOf a (regularLat (N + 1) j) + 2 * π * a ^ 2 * (5 * ((D + n + 5 : ℕ) : ℝ) * u) := k1
  have k2 : southOf a (regularLat (N + 1) j) - 2 * π * a ^ 2 * (5 * ((D + n + 5 : ℕ) : ℝ) * u) <
      areaUpTo (N + 1) M vort (flDefaultArea fl p a (N + 1) M cs) (f j + d) ∨ amax (N + 1) M vort ≤ f j + d := k2
  rw [south] at k1 k2
  set x := -(π / 2) + (j : ℝ) * (π / N) with hx
  -- errors of the areas
  have Ea := area_error hm.rounds ha hN hm.columns hu hm.cos_nonneg hm.cos_near
  have eps : 5 * ((D + n + 5 : ℕ) : ℝ) * u + 84 * u ≤ 2 / (N : ℝ) ^ 2 := by
    rw [le_div_iff₀ (by positivity)]
    have := hm.small
    have q1 : 5 * ((D + n + 5 : ℕ) : ℝ) * u + 84 * u ≤ 5 * ((D + n + 40 : ℕ) : ℝ) * u := by
      push_cast
      nlinarith
    have q2 := mul_le_mul_of_nonneg_right q1 (sq_nonneg (N : ℝ))
    linarith
  have area0 : ∀ r < N + 1, ∀ s < M, 0 ≤ flDefaultArea fl p a (N + 1) M cs r s := st.area_nonneg
  have low : areaBelow (N + 1) M (cellValue q N M) (cellWeight a N M) (f j - d - u * W) ≤ southCap a x + 2 * π * a ^ 2 * (2 / (N : ℝ) ^ 2) := by
    have l1 := below_close (g := cellValue q N M) Ea (f j - d - u * W)
    have l2 : areaBelow (N + 1) M (cellValue q N M) (flDefaultArea fl p a (N + 1) M cs) (f j - d - u * W) ≤
        areaBelow (N + 1) M vort (flDefaultArea fl p a (N + 1) M cs) (f j - d) := by
      unfold areaBelow
      refine sum_le_sum fun r hr => sum_le_sum fun s hs' => ?_
      have hr := mem_range.1 hr
      have hs' := mem_range.1 hs'
      have c1 := abs_le.1 (hm.near r hr s hs')
      by_cases hlt : cellValue q N M r s < f j - d - u * W
      · rw [if_pos hlt, if_pos (by linarith [c1.2])]
      · rw [if_neg hlt]
        split_ifs
        · exact area0 r hr s hs'
        · exact le_rfl
    have l3 := mul_le_mul_of_nonneg_left eps hS.le
    rw [mul_add] at l3
    linarith
  have high : southCap a x - 2 * π * a ^ 2 * (2 / (N : ℝ) ^ 2) < areaUpTo (N + 1) M (cellValue q N M) (cellWeight a N M) (f j + d + u * W) := by
    rcases k2 with k2 | k2
    · have l1 := upTo_close (g := cellValue q N M) Ea (f j + d + u * W)
      have l2 : areaUpTo (N + 1) M vort (flDefaultArea fl p a (N + 1) M cs) (f j + d) ≤
          areaUpTo (N + 1) M (cellValue q N M) (flDefaultArea fl p a (N + 1) M cs) (f j + d + u * W) := by
        unfold areaUpTo
        refine sum_le_sum fun r hr => sum_le_sum fun s hs' => ?_
        have hr := mem_range.1 hr
        have hs' := mem_range.1 hs'
        have c1 := abs_le.1 (hm.near r hr s hs')
        by_cases hle : vort r s ≤ f j + d
        · rw [if_pos hle, if_pos (by linarith [c1.1])]
        · rw [if_neg hle]
          split_ifs
          · exact area0 r hr s hs'
          · exact le_rfl
      have l3 := mul_le_mul_of_nonneg_left eps hS.le
      rw [mul_add] at l3
      linarith
    · have tot := cap_lt_total ha hN hm.columns (by omega : 0 < j) (by omega : j < N)
      have full : areaUpTo (N + 1) M (cellValue q N M) (cellWeight a N M) (f j + d + u * W) = ∑ r ∈ range (N + 1), ∑ s ∈ range M, cellWeight a N M r s := by
        unfold areaUpTo
        refine sum_congr rfl fun r hr => sum_congr rfl fun s hs' => ?_
        have hr := mem_range.1 hr
        have hs' := mem_range.1 hs'
        have c1 := abs_le.1 (hm.near r hr s hs')
        have c2 : vort r s ≤ amax (N + 1) M vort := le_amax (p := (r, s)) (mem_cells.2 ⟨hr, hs'⟩)
        rw [if_pos (by linarith [c1.1])]
      rw [full]
      have : 0 < 2 * π * a ^ 2 * (2 / (N : ℝ) ^ 2) := by positivity
      linarith
  obtain ⟨r1, r2⟩ := sphere_between hq hs hL hK hN hm.columns ha hB hP hPB h2 hj low high
  unfold gridError
  rw [abs_le]
  constructor <;> linarith

/-! ### Wave activity -/

theorem profile_range {I : EqvInput} (h : Rounds u fl p) (hI : I.Stored fl) (hR : I.Room u D) {f : ℕ → ℝ} (hf : I.flQref fl p t = .ok f) (j : ℕ) :
    amin I.nlat I.nlon I.vort ≤ f j ∧ f j ≤ amax I.nlat I.nlon I.vort := by
  unfold EqvInput.flQref at hf
  split_ifs at hf with h1 h2
  obtain rfl : _ = f := Outcome.ok.inj hf
  rw [← EqvInput.flBins_zero h hI, ← EqvInput.flBins_last hI]
  exact npInterp_bounds (by have := hI.points; omega) (fun i k hik hk => EqvInput.flBins_mono h hI (hR.points h) hik hk) _

theorem dmu_error (h : Rounds u fl p) (ha : 0 < a) (hN : 2 ≤ N) (hu : 420 * u ≤ 1) {r : ℕ} (hc0 : 0 ≤ cs r)
    (hc : |cs r - cos (regularLat (N + 1) r * π / 180)| ≤ 8 * u) :
    0 ≤ flDmu fl p a (N + 1) cs r ∧ |flDmu fl p a (N + 1) cs r - a * cos (-(π / 2) + r * (π / N)) * (π / N)| ≤ 15 * u * (a * (π / N)) := by
  have hpi := pi_pos
  have h0 := h.nonneg
  have hu1 : u < 1 := by linarith
  have hN' : (0 : ℝ) < N := by exact_mod_cast (by omega : 0 < N)
  have n1 : 0 ≤ π / (N : ℝ) := by positivity
  have a1 : Approx u 1 π p := by
    have := abs_le.1 h.pi
    constructor
    · rw [pow_one]; linarith [this.1]
    · rw [pow_one]; linarith [this.2]
  have b1 : Approx u 2 (π / (N : ℝ)) (fl (p / (N : ℝ))) := by
    have := (a1.mul_right (inv_nonneg.2 hN'.le)).fl h.rel h0 hu1 (mul_nonneg hpi.le (inv_nonneg.2 hN'.le))
    rwa [← div_eq_mul_inv, ← div_eq_mul_inv] at this
  have b2 := b1.fl h.rel h0 hu1 n1
  have n2 : 0 ≤ a * cs r := mul_nonneg ha.le hc0
  have b3 : Approx u 1 (a * cs r) (fl (a * cs r)) := approx_abs h.rel n2
  have b4 := (EqvInput.approx_mul h0 hu1 n2 n1 b3 b2).fl h.rel h0 hu1 (mul_nonneg n2 n1)
  have e : flDmu fl p a (N + 1) cs r = fl (fl (a * cs r) * fl (fl (p / (N : ℝ)))) := by
    unfold flDmu
    rw [Nat.add_sub_cancel, mul_one]
  rw [e]
  obtain ⟨c1, c2⟩ := b4
  set z := fl (fl (a * cs r) * fl (fl (p / (N : ℝ)))) with hz
  rw [regularLat_rad, Nat.add_sub_cancel, show π / 2 - -(π / 2) = π by ring, abs_le] at hc
  have hcos := cos_le_one (-(π / 2) + r * (π / N))
  set G := a * (π / N) with hG
  have hG0 : 0 ≤ G := by positivity
  have e1 : a * cs r * (π / N) = G * cs r := by rw [hG]; ring
  have e2 : a * cos (-(π / 2) + r * (π / N)) * (π / N) = G * cos (-(π / 2) + r * (π / N)) := by rw [hG]; ring
  rw [e1] at c1 c2
  rw [e2]
  have hGc : 0 ≤ G * cs r := mul_nonneg hG0 hc0
  have p1 : (1 + u) ^ 5 ≤ 1 + 6 * u := by
    have := quotient_upper h0 hu1.le 5 0
    norm_num at this
    have k2 : 0 < 1 - 5 * u := by linarith
    have k3 : (1 - 5 * u) * (1 + u) ^ 5 ≤ (1 - 5 * u) * (1 + 6 * u) := by nlinarith
    exact le_of_mul_le_mul_left k3 k2
  have p2 : 1 - 6 * u ≤ (1 - u) ^ 5 := by
    have := one_sub_le_pow hu1.le 5
    norm_num at this
    linarith
  have q1 := (c2.trans (mul_le_mul_of_nonneg_right p1 hGc))
  have q2 := (mul_le_mul_of_nonneg_right p2 hGc).trans c1
  have q3 := mul_le_mul_of_nonneg_left hc.1 hG0
  have q4 := mul_le_mul_of_nonneg_left hc.2 hG0
  have q5 : u * (G * cs r) ≤ u * (G * (51 / 50)) := mul_le_mul_of_nonneg_left (mul_le_mul_of_nonneg_left (by linarith [hc.2]) hG0) h0
  have q6 : 0 ≤ u * G := mul_nonneg h0 hG0
  refine ⟨le_trans (mul_nonneg (pow_nonneg (by linarith) _) hGc) c1, ?_⟩
  rw [abs_le]
  constructor <;> nlinarith

theorem activity_dmu (m : ℕ) (g : ℕ → ℕ → ℝ) (Q d d' : ℕ → ℝ) (j c : ℕ) :
    |waveActivity m g Q d j c - waveActivity m g Q d' j c| ≤ ∑ r ∈ range m, |g r c - Q j| * |d r - d' r| := by
  unfold waveActivity
  rw [← sum_sub_distrib]
  refine (abs_sum_le_sum_abs _ _).trans ?_
  refine (sum_le_sum fun r _ => le_of_eq ?_).trans
    (sum_le_sum_of_subset_of_nonneg (filter_subset _ _) fun r _ _ => mul_nonneg (abs_nonneg (g r c - Q j)) (abs_nonneg (d r - d' r)))
  rw [← mul_sub, abs_mul, abs_abs]

theorem activity_le (m : ℕ) (g : ℕ → ℕ → ℝ) (Q d : ℕ → ℝ) (hd : ∀ r < m, 0 ≤ d r) (j c : ℕ) :
    0 ≤ waveActivity m g Q d j c ∧ waveActivity m g Q d j c ≤ ∑ r ∈ range m, |g r c - Q j| * d r := by
  unfold waveActivity
  exact ⟨sum_nonneg fun r hr => mul_nonneg (abs_nonneg _) (hd r (mem_range.1 (mem_filter.1 hr).1)),
    sum_le_sum_of_subset_of_nonneg (filter_subset _ _) fun r hr _ => mul_nonneg (abs_nonneg _) (hd r (mem_range.1 hr))⟩

/-- The rounded sums against the exact wave activity of the field and the computed profile. -/
theorem activity_error (h : Rounds u fl p) (ha : 0 < a) (hN : 2 ≤ N) (hu : 420 * u ≤ 1) (hW : 0 ≤ W) {f : ℕ → ℝ} {j c : ℕ}
    (hc0 : ∀ r < N + 1, 0 ≤ cs r) (hc : ∀ r < N + 1, |cs r - cos (regularLat (N + 1) r * π / 180)| ≤ 8 * u)
    (hv : ∀ r < N + 1, |vort r c - cellValue q N M r c| ≤ u * W) (hf : ∀ r < N + 1, |vort r c - f j| ≤ 4 * W) (hj : j + 1 < N + 1)
    {tl : SumOrder} (htl : tl.Sums (N + 1)) (hd : 4 * ((tl.depth + 4 : ℕ) : ℝ) * u ≤ 1) :
    ∃ A, flLwa fl tl (N + 1) vort f (flDmu fl p a (N + 1) cs) false = .total A ∧
      |A j c - waveActivity (N + 1) (cellValue q N M) f (fun r => a * cos (-(π / 2) + r * (π / N)) * (π / N)) j c| ≤
        (366 + 50 * ((tl.depth + 4 : ℕ) : ℝ)) * u * (a * W) := by
  have hpi := pi_pos
  have hpi4 := pi_lt_four
  have h0 := h.nonneg
  have hN' : (2 : ℝ) ≤ N := by exact_mod_cast hN
  have hh : 0 < π / N := by positivity
  have six : ((N + 1 : ℕ) : ℝ) * (a * (π / N)) ≤ 6 * a := by
    have q1 : ((N : ℝ) + 1) * π ≤ 6 * N := by nlinarith
    have q2 : ((N : ℝ) + 1) * (π / N) ≤ 6 := by
      rw [mul_div_assoc', div_le_iff₀ (by linarith)]
      exact q1
    push_cast
    nlinarith
  have dm : ∀ r < N + 1, _ := fun r hr => dmu_error (cs := cs) h ha hN hu (hc0 r hr) (hc r hr)
  have de0 : ∀ r < N + 1, 0 ≤ a * cos (-(π / 2) + r * (π / N)) * (π / N) := fun r hr => by
    have := cellWeight_nonneg (a := 1) (M := 1) hN hr 0
    have e1 : (N : ℝ) * (π / N) = π := mul_div_cancel₀ _ (by linarith)
    have b : (r : ℝ) * (π / N) ≤ N * (π / N) := mul_le_mul_of_nonneg_right (by exact_mod_cast (by omega : r ≤ N)) hh.le
    have b0 : 0 ≤ (r : ℝ) * (π / N) := by positivity
    exact mul_nonneg (mul_nonneg ha.le (cos_nonneg_of_mem_Icc ⟨by linarith, by linarith⟩)) hh.le
  have de1 : ∀ r < N + 1, a * cos (-(π / 2) + r * (π / N)) * (π / N) ≤ a * (π / N) := fun r _ => by
    have := cos_le_one (-(π / 2) + r * (π / N))
    have g : 0 ≤ a * (π / N) := by positivity
    nlinarith
  obtain ⟨A, hA, a1, a2⟩ := C118_total h.rel h0 (by linarith : u < 1) htl vort f (flDmu fl p a (N + 1) cs) (fun r hr => (dm r hr).1) hj c
  refine ⟨A, hA, ?_⟩
  have aW : 0 ≤ a * W := mul_nonneg ha.le hW
  set g := a * (π / N) with hg
  have g0 : 0 ≤ g := by positivity
  -- the size of the sum
  obtain ⟨w0, w1⟩ := activity_le (N + 1) vort f (flDmu fl p a (N + 1) cs) (fun r hr => (dm r hr).1) j c
  have w2 : waveActivity (N + 1) vort f (flDmu fl p a (N + 1) cs) j c ≤ 25 * (a * W) := by
    refine w1.trans ((sum_le_sum (g := fun _ => 4 * W * (g * (26 / 25))) fun r hr => ?_).trans ?_)
    · have hr := mem_range.1 hr
      have k1 := (abs_le.1 (dm r hr).2).2
      have k2 := de1 r hr
      have k3 : 15 * u * g ≤ 1 / 25 * g := mul_le_mul_of_nonneg_right (by linarith) g0
      exact mul_le_mul (hf r hr) (by linarith) (dm r hr).1 (by linarith)
    · rw [sum_const, card_range, nsmul_eq_mul]
      have := mul_le_mul_of_nonneg_left six (by linarith : (0 : ℝ) ≤ 4 * W * (26 / 25))
      nlinarith
  set m : ℝ := ((tl.depth + 4 : ℕ) : ℝ) with hm
  have hm0 : 0 ≤ m := Nat.cast_nonneg _
  have hmu : 0 ≤ m * u := mul_nonneg hm0 h0
  set w := waveActivity (N + 1) vort f (flDmu fl p a (N + 1) cs) j c with hw
  have t1 : |A j c - w| ≤ 50 * m * u * (a * W) := by
    have p1 : (1 + u) ^ (tl.depth + 4) ≤ 1 + 2 * (m * u) := by
      have := quotient_upper h0 (by linarith : u ≤ 1) (tl.depth + 4) 0
      rw [pow_zero, add_zero, ← hm] at this
      have k2 : 0 < 1 - m * u := by nlinarith
      have k3 : (1 - m * u) * (1 + u) ^ (tl.depth + 4) ≤ (1 - m * u) * (1 + 2 * (m * u)) := by nlinarith
      exact le_of_mul_le_mul_left k3 k2
    have p2 : 1 - 2 * (m * u) ≤ (1 - u) ^ (tl.depth + 4) := by
      have := one_sub_le_pow (by linarith : u ≤ 1) (tl.depth + 4)
      rw [← hm] at this
      linarith
    have q1 := mul_le_mul_of_nonneg_right p1 w0
    have q2 := mul_le_mul_of_nonneg_right p2 w0
    have q3 := mul_le_mul_of_nonneg_left w2 hmu
    rw [abs_le]
    constructor <;> linarith
  have t2 := activity_dmu (N + 1) vort f (flDmu fl p a (N + 1) cs) (fun r => a * cos (-(π / 2) + r * (π / N)) * (π / N)) j c
  have t2' : |w - waveActivity (N + 1) vort f (fun r => a * cos (-(π / 2) + r * (π / N)) * (π / N)) j c| ≤ 360 * u * (a * W) := by
    refine t2.trans ((sum_le_sum (g := fun _ => 4 * W * (15 * u * g)) fun r hr => ?_).trans ?_)
    · have hr := mem_range.1 hr
      exact mul_le_mul (hf r hr) (dm r hr).2 (abs_nonneg _) (by linarith)
    · rw [sum_const, card_range, nsmul_eq_mul]
      have := mul_le_mul_of_nonneg_left six (by positivity : (0 : ℝ) ≤ 4 * W * (15 * u))
      nlinarith
  obtain ⟨-, -, f₁, -, -, f₂, -, e1, -, e2, -, -, t3⟩ := C114_lipschitz (N + 1) vort (cellValue q N M) f f
    (fun r => a * cos (-(π / 2) + r * (π / N)) * (π / N)) none de0 j c
  have e1 : lwaTotal (N + 1) vort f (fun r => a * cos (-(π / 2) + r * (π / N)) * (π / N)) = f₁ := by injection e1
  have e2 : lwaTotal (N + 1) (cellValue q N M) f (fun r => a * cos (-(π / 2) + r * (π / N)) * (π / N)) = f₂ := by injection e2
  rw [← e1, ← e2, lwaTotal_eq_spec hj, lwaTotal_eq_spec hj] at t3
  have t3' : |waveActivity (N + 1) vort f (fun r => a * cos (-(π / 2) + r * (π / N)) * (π / N)) j c -
      waveActivity (N + 1) (cellValue q N M) f (fun r => a * cos (-(π / 2) + r * (π / N)) * (π / N)) j c| ≤ 6 * u * (a * W) := by
    refine t3.trans ((sum_le_sum (g := fun _ => u * W * g) fun r hr => ?_).trans ?_)
    · have hr := mem_range.1 hr
      rw [sub_self, abs_zero, add_zero]
      exact mul_le_mul (hv r hr) (de1 r hr) (de0 r hr) (mul_nonneg h0 hW)
    · rw [sum_const, card_range, nsmul_eq_mul]
      have := mul_le_mul_of_nonneg_left six (mul_nonneg h0 hW)
      nlinarith
  rw [abs_le] at t1 t2' t3' ⊢
  constructor <;> linarith [t1.1, t1.2, t2'.1, t2'.2, t3'.1, t3'.2]

/-- **C211 (wave activity).** On the same rows the wave activity that the machine returns differs from the integral on the sphere by at most an explicit
amount that goes with the spacings, the interval of the partition and the unit roundoff. -/
theorem C211_lwa (hm : OnMachine u fl p a q W N M n D cs vort t) (hq : Continuous fun x : ℝ × ℝ => q x.1 x.2) (hs : SlopeBound q L K) (hL : 0 ≤ L)
    (hK : 0 ≤ K) {P : ℝ → ℝ} {B : ℝ} (hB : 0 ≤ B)
    (hP : ∀ φ ∈ Set.Ioo (-(π / 2)) (π / 2), Encloses a q (-(π / 2)) (π / 2) (southCap a φ) (P φ))
    (hPB : ∀ φ ∈ Set.Ioo (-(π / 2)) (π / 2), ∀ φ' ∈ Set.Ioo (-(π / 2)) (π / 2), |P φ - P φ'| ≤ B * |φ - φ'|)
    {tl : SumOrder} (htl : tl.Sums (N + 1)) (hd : 4 * ((tl.depth + 4 : ℕ) : ℝ) * u ≤ 1) :
    ∃ f A, (machineInput fl p a N M n cs vort).flQref fl p t = .ok f ∧ flLwa fl tl (N + 1) vort f (flDmu fl p a (N + 1) cs) false = .total A ∧
      ∀ j c, 2 ≤ j → j + 2 ≤ N → c < M →
        |A j c - meridionalWaveActivity a (fun φ => q φ (c * (2 * π / M))) (P (-(π / 2) + j * (π / N))) (-(π / 2)) (π / 2) (-(π / 2) + j * (π / N))| ≤
          a * (π / N) * ((L + (L * π + K * (2 * π) + u * W)) * π + (L * π + K * (2 * π) + u * W)) +
            a * (B * (2 * (π / N)) + gridError L K N M n + 43 * u * W) * π + (366 + 50 * ((tl.depth + 4 : ℕ) : ℝ)) * u * (a * W) := by
  obtain ⟨f, hf, prof⟩ := C211_profile hm hq hs hL hK hB hP hPB
  obtain ⟨st, room, -⟩ := hm.runs
  refine ⟨f, _, hf, rfl, fun j c h2 hj hc => ?_⟩
  have hpi := pi_pos
  have ha := hm.radius_pos
  have hN := hm.rows
  have hW := hm.bound_nonneg
  have hN' : (0 : ℝ) < N := by exact_mod_cast (by omega : 0 < N)
  have hh : 0 < π / N := by positivity
  have e1 : (N : ℝ) * (π / N) = π := mul_div_cancel₀ _ hN'.ne'
  have hend : -(π / 2) + (N : ℝ) * (π / N) = π / 2 := by rw [e1]; ring
  have range : amin (N + 1) M vort ≤ f j ∧ f j ≤ amax (N + 1) M vort := profile_range hm.rounds st room hf j
  have hne : (cells (N + 1) M).Nonempty := ⟨(0, 0), mem_cells.2 ⟨by omega, hm.columns⟩⟩
  obtain ⟨x, hx, f1⟩ := exists_amax (vort := vort) hne
  obtain ⟨y, hy, f2⟩ := exists_amin (vort := vort) hne
  obtain ⟨r1, r2⟩ := mem_cells.1 hx
  obtain ⟨r3, r4⟩ := mem_cells.1 hy
  rw [f1, f2] at range
  have fb : ∀ r < N + 1, |vort r c - f j| ≤ 4 * W := fun r hr => by
    have k1 := abs_le.1 (hm.bound_two r hr c hc)
    have k2 := abs_le.1 (hm.bound_two _ r1 _ r2)
    have k3 := abs_le.1 (hm.bound_two _ r3 _ r4)
    rw [abs_le]
    constructor <;> linarith [k1.1, k1.2, k2.2, k3.1, range.1, range.2]
  obtain ⟨A, hA, err⟩ := activity_error (q := q) (M := M) (c := c) hm.rounds ha hN hm.unit hW hm.cos_nonneg hm.cos_near
    (fun r hr => hm.near r hr c hc) fb (by omega : j + 1 < N + 1) htl hd
  have hAe : (fun j c => fl (flLwaAnticyclonic fl tl (N + 1) vort f (flDmu fl p a (N + 1) cs) j c +
      flLwaCyclonic fl tl (N + 1) vort f (flDmu fl p a (N + 1) cs) j c)) = A := by injection hA
  show |(fun j c => fl (flLwaAnticyclonic fl tl (N + 1) vort f (flDmu fl p a (N + 1) cs) j c +
      flLwaCyclonic fl tl (N + 1) vort f (flDmu fl p a (N + 1) cs) j c)) j c - _| ≤ _
  rw [hAe]
  have hl : (c : ℝ) * (2 * π / M) ∈ Set.Icc 0 (2 * π) := (point_mem hN hm.columns (by omega : 0 < N + 1) hc).2
  have hg : GradientBound (fun φ => q φ (c * (2 * π / M))) L (-(π / 2)) (-(π / 2) + N * (π / N)) := by
    rw [hend]
    intro z hz w hw
    have := hs (z, c * (2 * π / M)) ⟨hz, hl⟩ (w, c * (2 * π / M)) ⟨hw, hl⟩
    simpa using this
  have hr : ∀ φ ∈ Set.Icc (-(π / 2)) (-(π / 2) + N * (π / N)), |q φ (c * (2 * π / M)) - f j| ≤ L * π + K * (2 * π) + u * W := by
    rw [hend]
    intro φ hφ
    have k1 := abs_le.1 (slope_range hs hL hK (p := (φ, c * (2 * π / M))) ⟨hφ, hl⟩ (point_mem hN hm.columns r1 r2))
    have k2 := abs_le.1 (slope_range hs hL hK (p := (φ, c * (2 * π / M))) ⟨hφ, hl⟩ (point_mem hN hm.columns r3 r4))
    have k3 := abs_le.1 (hm.near _ r1 _ r2)
    have k4 := abs_le.1 (hm.near _ r3 _ r4)
    unfold cellValue at k3 k4
    simp only at k1 k2
    rw [abs_le]
    constructor <;> linarith [k1.1, k2.2, k3.2, k4.1, range.1, range.2]
  obtain ⟨g, hg', hb⟩ := C119_lwa q (fun c' : ℕ => (c' : ℝ) * (2 * π / M)) f (Q := P (-(π / 2) + j * (π / N))) (c := c) none ha.le hh.le hL hg hr
    (by omega : j < N)
  have ge : waveActivity (N + 1) (cellValue q N M) f (fun r => a * cos (-(π / 2) + r * (π / N)) * (π / N)) j c = g j c := by
    rw [← lwaTotal_eq_spec (by omega : j + 1 < N + 1)]
    injection hg' with hg'
    rw [← hg']
    rfl
  rw [ge] at err
  rw [hend, e1] at hb
  have pr := mul_le_mul_of_nonneg_right (mul_le_mul_of_nonneg_left (prof j h2 hj) ha.le) hpi.le
  rw [abs_le] at err hb ⊢
  constructor <;> linarith [err.1, err.2, hb.1, hb.2]

/-! ### The conditions hold on the one-degree grid in double precision -/

theorem roundBits_scaled {p : ℕ} {z k : ℤ} (h : |z| ≤ 2 ^ (p + 1)) : roundBits p ((z : ℝ) * 2 ^ k) = z * 2 ^ k := by
  set y : ℝ := (z : ℝ) * 2 ^ k with hy
  have habs : |y| = ((|z| : ℤ) : ℝ) * 2 ^ k := by
    rw [hy, abs_mul, abs_of_pos (zpow_pos (by norm_num : (0 : ℝ) < 2) k), Int.cast_abs]
  have pos : roundBits p |y| = |y| := by
    rw [habs]
    rcases (abs_nonneg z).eq_or_lt with h0 | h0
    · rw [← h0]
      simp [roundBits]
    · rcases h.lt_or_eq with h1 | h1
      · exact roundBits_exact h0 h1
      · have := roundBits_exact (p := p) (n := 1) (e := (p : ℤ) + 1 + k) one_pos (one_lt_pow₀ (by norm_num) (by omega))
        have e : ((|z| : ℤ) : ℝ) * 2 ^ k = ((1 : ℤ) : ℝ) * 2 ^ ((p : ℤ) + 1 + k) := by
          rw [h1, zpow_add₀ (by norm_num : (2 : ℝ) ≠ 0) ((p : ℤ) + 1) k]
          push_cast
          rw [one_mul]
          norm_cast
        rw [e]
        exact this
  unfold roundBits at pos
  rw [abs_abs] at pos
  rcases abs_choice y with h1 | h1
  · rw [h1] at pos
    exact roundBits_fix _ (by rw [h1]; exact pos.symm)
  · refine roundBits_fix (-round (|y| / 2 ^ (Int.log 2 |y| - p))) ?_
    rw [Int.cast_neg, neg_mul, pos, h1, neg_neg]

theorem roundBits_idem (p : ℕ) (x : ℝ) : roundBits p (roundBits p x) = roundBits p x := by
  rcases eq_or_ne x 0 with rfl | hx
  · simp [roundBits]
  have hw : |x / 2 ^ (Int.log 2 |x| - (p : ℤ))| < 2 ^ (p + 1) := by
    rw [abs_div, abs_of_pos (zpow_pos (by norm_num : (0 : ℝ) < 2) _), div_lt_iff₀ (zpow_pos (by norm_num) _)]
    have := Int.lt_zpow_succ_log_self (R := ℝ) (b := 2) (by norm_num) |x|
    refine this.trans_eq ?_
    rw [← zpow_natCast, ← zpow_add₀ (by norm_num : (2 : ℝ) ≠ 0)]
    push_cast
    congr 1
    ring
  have hr := abs_sub_round (x / 2 ^ (Int.log 2 |x| - (p : ℤ)))
  have hz : |round (x / 2 ^ (Int.log 2 |x| - (p : ℤ)))| ≤ (2 : ℤ) ^ (p + 1) := by
    set z := round (x / 2 ^ (Int.log 2 |x| - (p : ℤ))) with hzd
    have h1 := abs_lt.1 hw
    have h2 := abs_le.1 hr
    have h3 : (z : ℝ) < ((2 ^ (p + 1) + 1 : ℤ) : ℝ) := by push_cast; linarith [h1.2, h2.1]
    have h4 : ((-(2 ^ (p + 1)) - 1 : ℤ) : ℝ) < (z : ℝ) := by push_cast; linarith [h1.1, h2.2]
    have h5 : z < 2 ^ (p + 1) + 1 := by exact_mod_cast h3
    have h6 : -(2 ^ (p + 1)) - 1 < z := by exact_mod_cast h4
    rw [abs_le]
    omega
  exact roundBits_scaled hz

theorem valley_cell {N M r s : ℕ} (hM : 1 ≤ M) (hs : s < M) : |cellValue valley N M r s| ≤ 1 := by
  have hpi := pi_pos
  have hM' : (0 : ℝ) < M := by exact_mod_cast hM
  have h1 : (s : ℝ) * (2 * π / M) ≤ 2 * π := by
    have : (s : ℝ) ≤ M := by exact_mod_cast hs.le
    rw [mul_div_assoc', div_le_iff₀ hM']
    nlinarith
  have h0 : 0 ≤ (s : ℝ) * (2 * π / M) := by positivity
  have h2 : |(s : ℝ) * (2 * π / M) - π| ≤ π := abs_le.2 ⟨by linarith, by linarith⟩
  have h3 := mul_le_mul_of_nonneg_right h2 (by positivity : 0 ≤ 2 / π)
  have h4 : π * (2 / π) = 2 := by field_simp
  have h5 : 0 ≤ |(s : ℝ) * (2 * π / M) - π| * (2 / π) := by positivity
  show |(|(s : ℝ) * (2 * π / M) - π| * (2 / π) - 1)| ≤ 1
  rw [abs_le]
  constructor <;> linarith

/-- The field `valley` on the one-degree grid of the Earth, its values and the cosines rounded to doubles. -/
theorem valley_machine : ∃ t, OnMachine ((1 / 2) ^ 53) (roundBits 52) (roundBits 52 π) 6378000 valley 1 180 360 181 65160
    (fun j => roundBits 52 (cos (regularLat 181 j * π / 180))) (fun r s => roundBits 52 (cellValue valley 180 360 r s)) t := by
  choose o ho using fun i => EqvInput.exists_order ((machineInput (roundBits 52) (roundBits 52 π) 6378000 180 360 181
    (fun j => roundBits 52 (cos (regularLat 181 j * π / 180))) (fun r s => roundBits 52 (cellValue valley 180 360 r s))).inBin (roundBits 52) i)
  refine ⟨o, EqvInput.rounds_double, by norm_num, by norm_num, by norm_num, by norm_num, fun j hj => ?_, fun j hj => ?_, fun r _ s hs => valley_cell (by norm_num) hs,
    fun r _ s hs => ?_, fun r _ s _ => roundBits_idem 52 _, EqvInput.orders_all fun i _ _ => ho i, by norm_num⟩
  · have h0 : 0 ≤ cos (regularLat 181 j * π / 180) := by
      have hpi := pi_pos
      rw [regularLat_rad]
      have h1 : (j : ℝ) ≤ 180 := by exact_mod_cast (by omega : j ≤ 180)
      have h2 : (0 : ℝ) ≤ j := Nat.cast_nonneg _
      refine cos_nonneg_of_mem_Icc ⟨?_, ?_⟩ <;> norm_num <;> nlinarith
    have := roundBits_mono 52 h0
    simpa [roundBits] using this
  · have h1 := relativeError_roundBits (K := ℝ) 52 (cos (regularLat 181 j * π / 180))
    have h2 := abs_cos_le_one (regularLat 181 j * π / 180)
    refine h1.trans ?_
    norm_num at h2 ⊢
    linarith
  · have h1 := relativeError_roundBits (K := ℝ) 52 (cellValue valley 180 360 r s)
    exact h1.trans (mul_le_mul_of_nonneg_left (valley_cell (by norm_num) hs) (by positivity))

example : (∃ t, OnMachine ((1 / 2) ^ 53) (roundBits 52) (roundBits 52 π) 6378000 valley 1 180 360 181 65160
      (fun j => roundBits 52 (cos (regularLat 181 j * π / 180))) (fun r s => roundBits 52 (cellValue valley 180 360 r s)) t) ∧
    (Continuous fun x : ℝ × ℝ => valley x.1 x.2) ∧ SlopeBound valley 0 (2 / π) ∧ 0 ≤ 2 / π ∧
    (∀ φ ∈ Set.Ioo (-(π / 2)) (π / 2), Encloses 6378000 valley (-(π / 2)) (π / 2) (southCap 6378000 φ) (sin φ)) ∧
    (∀ φ ∈ Set.Ioo (-(π / 2)) (π / 2), ∀ φ' ∈ Set.Ioo (-(π / 2)) (π / 2), |sin φ - sin φ'| ≤ 1 * |φ - φ'|) ∧
    (SumOrder.sequential 180).Sums (180 + 1) ∧ 4 * (((SumOrder.sequential 180).depth + 4 : ℕ) : ℝ) * (1 / 2) ^ 53 ≤ 1 := by
  refine ⟨valley_machine, valley_continuous, valley_slope, by positivity, fun φ hφ => valley_reference (by norm_num) hφ, fun φ _ φ' _ => ?_,
    SumOrder.sequential_sums 180, ?_⟩
  · rw [one_mul]
    exact abs_sin_sub_sin_le φ φ'
  · rw [SumOrder.depth_sequential]
    norm_num

end Falwa

end
