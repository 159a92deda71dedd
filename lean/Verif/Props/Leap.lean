import Verif.Props.Grl

/-! # The experiments of figure 5: C150 (integration) and C151 (rates on the finer time mesh) -/

noncomputable section

namespace Falwa

open Real Finset Spec

namespace Leap

variable {L : Leap}

/-- Right-hand side of the equation for the perturbation `D` of the wave activity by a change `g` of the damping rate: convergence of
the flux, damping, forcing by the changed damping of the given wave activity, diffusion of the previous slot. -/
def law (L : Leap) (g D : ℤ → ℤ → ℝ) (m i : ℤ) : ℝ :=
  convergence L.nlon (L.a * cos L.phi) L.dl (fun i => D m i * (L.cgxp m i - L.al * (D m i + L.lwap m i))) i +
    (L.gamap m i + g m i) * D m i + g m i * L.lwap m i +
    L.diff * (D (m - 1) ((i + 1) % L.nlon) - 2 * D (m - 1) i + D (m - 1) ((i - 1) % L.nlon)) / (L.a * cos L.phi * L.dl) ^ 2

/-- `D` starts from zero and follows the law by centred time steps of length `dt`, in all columns and all slots up to `len`. -/
def Follows (L : Leap) (len : ℤ) (g D : ℤ → ℤ → ℝ) : Prop :=
  (∀ i, 0 ≤ i → i < L.nlon → D 0 i = 0 ∧ D 1 i = 0) ∧
    ∀ m i, 1 ≤ m → m < len → 0 ≤ i → i < L.nlon → D (m + 1) i = D (m - 1) i + 2 * L.dt * L.law g D m i

theorem rate_eq (g D : ℤ → ℤ → ℝ) (m i : ℤ) : L.rate g D m i ((i + 1) % L.nlon) ((i - 1) % L.nlon) = L.law g D m i := by
  unfold rate law convergence const
  rw [show 2 * L.a * cos L.phi * L.dl = 2 * L.dl * (L.a * cos L.phi) by ring,
    show L.a * L.a * L.dl * L.dl * cos L.phi * cos L.phi = (L.a * cos L.phi * L.dl) ^ 2 by ring]
  ring

theorem new1_eq {D : ℤ → ℤ → ℝ} {m i : ℤ} (hN : 2 ≤ L.nlon) (h1 : 0 ≤ i) (h2 : i < L.nlon) :
    L.new1 D m i = D (m - 1) i + 2 * L.dt * L.law L.gama1p D m i := by
  rw [← rate_eq, ← ring_neighbours hN h1 h2 (fun p q => L.rate L.gama1p D m i p q)]
  unfold new1
  by_cases e : i = 0
  · rw [if_pos e, if_pos e, e]
  · rw [if_neg e, if_neg e]
    by_cases e' : i = L.nlon - 1
    · rw [if_pos e', if_pos e', e']
    · rw [if_neg e', if_neg e']

theorem new2_eq {D E : ℤ → ℤ → ℝ} {m i : ℤ} (hN : 2 ≤ L.nlon) (h1 : 0 ≤ i) (h2 : i < L.nlon) :
    L.new2 D E m i = (if i = L.nlon - 1 then D (m - 1) i else E (m - 1) i) + 2 * L.dt * L.law L.gama2p E m i := by
  rw [← rate_eq, ← ring_neighbours hN h1 h2 (fun p q => L.rate L.gama2p E m i p q)]
  unfold new2
  by_cases e : i = 0
  · rw [if_pos e, if_neg (by omega), if_pos e, e]
  · rw [if_neg e, if_neg e]
    by_cases e' : i = L.nlon - 1
    · rw [if_pos e', if_pos e', if_pos e', e']
    · rw [if_neg e', if_neg e', if_neg e']

theorem law_congr {g D D' : ℤ → ℤ → ℝ} {m i : ℤ} (h : ∀ i, D m i = D' m i) (h' : ∀ i, D (m - 1) i = D' (m - 1) i) :
    L.law g D m i = L.law g D' m i := by
  unfold law
  simp only [h, h']

theorem run_spec {len : ℤ} (hl : 1 ≤ len) :
    (∀ i, (L.run len).1 0 i = 0 ∧ (L.run len).1 1 i = 0 ∧ (L.run len).2 0 i = 0 ∧ (L.run len).2 1 i = 0) ∧
    ∀ m i, 1 ≤ m → m ≤ len - 1 → (L.run len).1 (m + 1) i = L.new1 (L.run len).1 m i ∧
      (L.run len).2 (m + 1) i = L.new2 (L.run len).1 (L.run len).2 m i := by
  unfold run
  refine doLoop_induct (P := fun k (s : (ℤ → ℤ → ℝ) × (ℤ → ℤ → ℝ)) =>
    (∀ i, s.1 0 i = 0 ∧ s.1 1 i = 0 ∧ s.2 0 i = 0 ∧ s.2 1 i = 0) ∧
    ∀ m i, 1 ≤ m → m ≤ k → s.1 (m + 1) i = L.new1 s.1 m i ∧ s.2 (m + 1) i = L.new2 s.1 s.2 m i) ?_ ?_ (len - 1) (by omega)
  · exact ⟨fun i => ⟨rfl, rfl, rfl, rfl⟩, fun m i h1 h2 => absurd h2 (by omega)⟩
  · intro k s hk ih
    have k1 : ∀ t i, t ≤ k → (L.step k s).1 t i = s.1 t i := fun t i h => if_neg (by omega)
    have k2 : ∀ t i, t ≤ k → (L.step k s).2 t i = s.2 t i := fun t i h => if_neg (by omega)
    refine ⟨fun i => ?_, fun m i h1 h2 => ?_⟩
    · rw [k1 0 i (by omega), k1 1 i (by omega), k2 0 i (by omega), k2 1 i (by omega)]
      exact ih.1 i
    · have e1 : L.new1 (L.step k s).1 m i = L.new1 s.1 m i := by
        unfold new1 rate
        simp only [k1 m _ h2, k1 (m - 1) _ (by omega : m - 1 ≤ k)]
      have e2 : L.new2 (L.step k s).1 (L.step k s).2 m i = L.new2 s.1 s.2 m i := by
        unfold new2 rate
        simp only [k2 m _ h2, k1 (m - 1) _ (by omega : m - 1 ≤ k), k2 (m - 1) _ (by omega : m - 1 ≤ k)]
      rw [e1, e2]
      by_cases e : m = k
      · rw [e]
        exact ⟨if_pos rfl, if_pos rfl⟩
      · rw [k1 (m + 1) i (by omega), k2 (m + 1) i (by omega)]
        exact ih.2 m i h1 (by omega)

/-- C150, first experiment: the first array follows the law with the damping changed by `gama1p`. -/
theorem C150_first {len : ℤ} (hN : 2 ≤ L.nlon) (hl : 1 ≤ len) : L.Follows len L.gama1p (L.run len).1 := by
  obtain ⟨h0, h⟩ := L.run_spec hl
  refine ⟨fun i _ _ => ⟨(h0 i).1, (h0 i).2.1⟩, fun m i h1 h2 h3 h4 => ?_⟩
  rw [(h m i h1 (by omega)).1, new1_eq hN h3 h4]

/-- C150: both arrays follow the law, each with its own change of the damping. -/
def C150_Statement : Prop :=
  ∀ (L : Leap) (len : ℤ), 2 ≤ L.nlon → 1 ≤ len →
    L.Follows len L.gama1p (L.run len).1 ∧ L.Follows len L.gama2p (L.run len).2

/-- C150, second experiment: the second array follows the law in all columns but the last, whose steps start from the value of
the first array. -/
theorem C150_second_partial {len : ℤ} (hN : 2 ≤ L.nlon) (hl : 1 ≤ len) :
    (∀ i, 0 ≤ i → i < L.nlon → (L.run len).2 0 i = 0 ∧ (L.run len).2 1 i = 0) ∧
    (∀ m i, 1 ≤ m → m < len → 0 ≤ i → i < L.nlon - 1 →
      (L.run len).2 (m + 1) i = (L.run len).2 (m - 1) i + 2 * L.dt * L.law L.gama2p (L.run len).2 m i) ∧
    ∀ m, 1 ≤ m → m < len → (L.run len).2 (m + 1) (L.nlon - 1) = (L.run len).2 (m - 1) (L.nlon - 1) +
      2 * L.dt * L.law L.gama2p (L.run len).2 m (L.nlon - 1) +
      ((L.run len).1 (m - 1) (L.nlon - 1) - (L.run len).2 (m - 1) (L.nlon - 1)) := by
  obtain ⟨h0, h⟩ := L.run_spec hl
  refine ⟨fun i _ _ => ⟨(h0 i).2.2.1, (h0 i).2.2.2⟩, fun m i h1 h2 h3 h4 => ?_, fun m h1 h2 => ?_⟩
  · rw [(h m i h1 (by omega)).2, new2_eq hN h3 (by omega), if_neg (by omega)]
  · rw [(h m (L.nlon - 1) h1 (by omega)).2, new2_eq hN (by omega) (by omega), if_pos rfl]
    ring

/-- C150, equal changes: with the same change of the damping in both experiments the second array follows the law. -/
theorem C150_equal {len : ℤ} (hN : 2 ≤ L.nlon) (hl : 1 ≤ len)
    (hg : ∀ m i, 0 ≤ i → i < L.nlon → L.gama1p m i = L.gama2p m i) : L.Follows len L.gama2p (L.run len).2 := by
  obtain ⟨z, a, b⟩ := L.C150_second_partial hN hl
  obtain ⟨z', c⟩ := L.C150_first hN hl
  have key : ∀ k : ℕ, ∀ t : ℤ, 0 ≤ t → t ≤ k → t ≤ len → ∀ i, 0 ≤ i → i < L.nlon → (L.run len).1 t i = (L.run len).2 t i := by
    intro k
    induction k with
    | zero =>
      intro t h1 h2 _ i h3 h4
      obtain rfl : t = 0 := by omega
      rw [(z i h3 h4).1, (z' i h3 h4).1]
    | succ k ih =>
      intro t h1 h2 hle i h3 h4
      by_cases e : t ≤ k
      · exact ih t h1 e hle i h3 h4
      · by_cases e1 : t = 1
        · rw [e1, (z i h3 h4).2, (z' i h3 h4).2]
        · have ht : (t - 1) + 1 = t := by ring
          have hN' : L.nlon ≠ 0 := by omega
          have p1 := fun i h3 h4 => ih (t - 1) (by omega) (by omega) (by omega) i h3 h4
          have p2 := fun i h3 h4 => ih (t - 1 - 1) (by omega) (by omega) (by omega) i h3 h4
          by_cases e0 : t = 0
          · rw [e0, (z i h3 h4).1, (z' i h3 h4).1]
          have hlaw : L.law L.gama1p (L.run len).1 (t - 1) i = L.law L.gama2p (L.run len).2 (t - 1) i := by
            have q : ∀ s : ℤ, 0 ≤ s % L.nlon ∧ s % L.nlon < L.nlon := fun s =>
              ⟨Int.emod_nonneg _ hN', Int.emod_lt_of_pos _ (by omega)⟩
            unfold law convergence
            simp only [p1 i h3 h4, p2 i h3 h4, hg _ i h3 h4, p1 _ (q (i + 1)).1 (q (i + 1)).2, p1 _ (q (i - 1)).1 (q (i - 1)).2,
              p2 _ (q (i + 1)).1 (q (i + 1)).2, p2 _ (q (i - 1)).1 (q (i - 1)).2]
          have r1 := c (t - 1) i (by omega) (by omega) h3 h4
          rw [ht] at r1
          by_cases el : i = L.nlon - 1
          · have r2 := b (t - 1) (by omega) (by omega)
            rw [ht, ← el] at r2
            rw [r1, r2, hlaw]
            ring
          · have r2 := a (t - 1) i (by omega) (by omega) h3 (by omega)
            rw [ht] at r2
            rw [r1, r2, hlaw, p2 i h3 h4]
  refine ⟨z, fun m i h1 h2 h3 h4 => ?_⟩
  by_cases el : i = L.nlon - 1
  · have r2 := b m h1 h2
    have := key (m - 1).toNat (m - 1) (by omega) (by omega) (by omega) i h3 h4
    rw [← el] at r2
    rw [r2, this]
    ring
  · exact a m i h1 h2 h3 (by omega)

theorem sum_law {g D : ℤ → ℤ → ℝ} {m : ℤ} (hN : 0 < L.nlon) :
    ∑ i ∈ Ico 0 L.nlon, L.law g D m i =
      ∑ i ∈ Ico 0 L.nlon, ((L.gamap m i + g m i) * D m i + g m i * L.lwap m i) := by
  have h1 := Grl.sum_convergence hN (L.a * cos L.phi) L.dl (fun i => D m i * (L.cgxp m i - L.al * (D m i + L.lwap m i)))
  have h2 : ∑ i ∈ Ico 0 L.nlon,
      L.diff * (D (m - 1) ((i + 1) % L.nlon) - 2 * D (m - 1) i + D (m - 1) ((i - 1) % L.nlon)) / (L.a * cos L.phi * L.dl) ^ 2 = 0 := by
    rw [← sum_div, ← mul_sum, sum_add_distrib, sum_sub_distrib, sum_shift hN 1 (D (m - 1)), ← mul_sum]
    have : ∑ i ∈ Ico 0 L.nlon, D (m - 1) ((i - 1) % L.nlon) = ∑ i ∈ Ico 0 L.nlon, D (m - 1) i := by
      rw [← sum_shift hN (-1) (D (m - 1))]
      exact sum_congr rfl fun i _ => by rw [sub_eq_add_neg i]
    rw [this]
    ring
  unfold law
  rw [sum_add_distrib, h2, add_zero]
  have : ∀ i ∈ Ico 0 L.nlon, convergence L.nlon (L.a * cos L.phi) L.dl
        (fun i => D m i * (L.cgxp m i - L.al * (D m i + L.lwap m i))) i + (L.gamap m i + g m i) * D m i + g m i * L.lwap m i =
      convergence L.nlon (L.a * cos L.phi) L.dl (fun i => D m i * (L.cgxp m i - L.al * (D m i + L.lwap m i))) i +
        ((L.gamap m i + g m i) * D m i + g m i * L.lwap m i) := fun i _ => by ring
  rw [sum_congr rfl this, sum_add_distrib, h1, zero_add]

/-- C150, zonal budget: flux and diffusion do not change the zonal sum of the perturbation; only damping does. In the second
experiment the last column adds the difference of the two arrays. -/
theorem C150_zonal {len m : ℤ} (hN : 2 ≤ L.nlon) (hl : 1 ≤ len) (h1 : 1 ≤ m) (h2 : m < len) :
    ∑ i ∈ Ico 0 L.nlon, (L.run len).1 (m + 1) i = ∑ i ∈ Ico 0 L.nlon, (L.run len).1 (m - 1) i + 2 * L.dt *
      ∑ i ∈ Ico 0 L.nlon, ((L.gamap m i + L.gama1p m i) * (L.run len).1 m i + L.gama1p m i * L.lwap m i) ∧
    ∑ i ∈ Ico 0 L.nlon, (L.run len).2 (m + 1) i = ∑ i ∈ Ico 0 L.nlon, (L.run len).2 (m - 1) i + 2 * L.dt *
      ∑ i ∈ Ico 0 L.nlon, ((L.gamap m i + L.gama2p m i) * (L.run len).2 m i + L.gama2p m i * L.lwap m i) +
      ((L.run len).1 (m - 1) (L.nlon - 1) - (L.run len).2 (m - 1) (L.nlon - 1)) := by
  obtain ⟨_, c⟩ := L.C150_first hN hl
  obtain ⟨_, a, b⟩ := L.C150_second_partial hN hl
  refine ⟨?_, ?_⟩
  · rw [sum_congr rfl fun i hi => c m i h1 h2 (mem_Ico.1 hi).1 (mem_Ico.1 hi).2, sum_add_distrib, ← mul_sum, sum_law (by omega)]
  · have e : ∀ i ∈ Ico 0 L.nlon, (L.run len).2 (m + 1) i = (L.run len).2 (m - 1) i + 2 * L.dt * L.law L.gama2p (L.run len).2 m i +
        (if i = L.nlon - 1 then ((L.run len).1 (m - 1) (L.nlon - 1) - (L.run len).2 (m - 1) (L.nlon - 1)) else 0) := by
      intro i hi
      rw [mem_Ico] at hi
      by_cases el : i = L.nlon - 1
      · rw [if_pos el, el, b m h1 h2]
      · rw [if_neg el, a m i h1 h2 hi.1 (by omega), add_zero]
    rw [sum_congr rfl e, sum_add_distrib, sum_add_distrib, ← mul_sum, sum_law (by omega), sum_ite_eq' ,
      if_pos (mem_Ico.2 ⟨by omega, by omega⟩)]

/-- C150, meaning: without the nonlinear part of the flux, a wave activity that follows the law with forcing `f` and the
diagnosed damping, plus the perturbation, follows the law with the changed damping. -/
theorem C150_changed {len m i : ℤ} {f : ℤ → ℤ → ℝ} (hN : 2 ≤ L.nlon) (hl : 1 ≤ len) (hal : L.al = 0)
    (h1 : 1 ≤ m) (h2 : m < len) (h3 : 0 ≤ i) (h4 : i < L.nlon) {tot : ℤ → ℤ → ℝ} (ht : ∀ m i, tot m i = L.lwap m i + (L.run len).1 m i)
    (hb : L.lwap (m + 1) i = L.lwap (m - 1) i + 2 * L.dt *
      (convergence L.nlon (L.a * cos L.phi) L.dl (fun i => L.lwap m i * L.cgxp m i) i + L.gamap m i * L.lwap m i + f m i +
        L.diff * (L.lwap (m - 1) ((i + 1) % L.nlon) - 2 * L.lwap (m - 1) i + L.lwap (m - 1) ((i - 1) % L.nlon)) /
          (L.a * cos L.phi * L.dl) ^ 2)) :
    tot (m + 1) i = tot (m - 1) i + 2 * L.dt *
      (convergence L.nlon (L.a * cos L.phi) L.dl (fun i => tot m i * L.cgxp m i) i + (L.gamap m i + L.gama1p m i) * tot m i + f m i +
        L.diff * (tot (m - 1) ((i + 1) % L.nlon) - 2 * tot (m - 1) i + tot (m - 1) ((i - 1) % L.nlon)) /
          (L.a * cos L.phi * L.dl) ^ 2) := by
  have c := (L.C150_first hN hl).2 m i h1 h2 h3 h4
  unfold law at c
  rw [hal] at c
  unfold convergence at *
  simp only [ht]
  rw [hb, c]
  ring

/-- Two columns; the first experiment changes the damping of the second column in slot 1. -/
def twoColumns : Leap where
  nlon := 2
  dt := 1
  a := 1
  dl := 1
  phi := 0
  al := 0
  diff := 0
  cgxp := fun _ _ => 0
  gamap := fun _ _ => 0
  gama1p := fun m i => if m = 1 ∧ i = 1 then -1 else 0
  gama2p := fun _ _ => 0
  lwap := fun _ _ => 1

theorem C150_refuted : ¬ C150_Statement := by
  intro h
  obtain ⟨⟨z, a⟩, y, b⟩ := h twoColumns 4 le_rfl (by norm_num)
  have e := (twoColumns.C150_second_partial (len := 4) le_rfl (by norm_num)).2.2 3 (by norm_num) (by norm_num)
  rw [b 3 (twoColumns.nlon - 1) (by norm_num) (by norm_num) (by decide) (by decide)] at e
  have e' : (twoColumns.run 4).1 2 1 - (twoColumns.run 4).2 2 1 = 0 := by
    have : ((3 : ℤ) - 1) = 2 := by norm_num
    rw [show twoColumns.nlon - 1 = 1 from rfl, this] at e
    linarith
  have d := a 1 1 le_rfl (by norm_num) (by norm_num) (by decide)
  have d' := b 1 1 le_rfl (by norm_num) (by norm_num) (by decide)
  have v1 : twoColumns.law twoColumns.gama1p (twoColumns.run 4).1 1 1 = -1 := by
    unfold law convergence
    rw [(z 1 (by norm_num) (by decide)).2]
    show -((_ * ((0 : ℝ) - 0 * _) - _ * ((0 : ℝ) - 0 * _)) / _) + ((0 : ℝ) + _) * 0 + (if (1 : ℤ) = 1 ∧ (1 : ℤ) = 1 then (-1 : ℝ) else 0) * 1 +
      (0 : ℝ) * _ / _ = -1
    rw [if_pos ⟨rfl, rfl⟩]
    norm_num
  have v2 : twoColumns.law twoColumns.gama2p (twoColumns.run 4).2 1 1 = 0 := by
    unfold law convergence
    rw [(y 1 (by norm_num) (by decide)).2]
    show -((_ * ((0 : ℝ) - 0 * _) - _ * ((0 : ℝ) - 0 * _)) / _) + ((0 : ℝ) + 0) * 0 + (0 : ℝ) * 1 + (0 : ℝ) * _ / _ = 0
    norm_num
  rw [show (1 : ℤ) + 1 = 2 by norm_num, show (1 : ℤ) - 1 = 0 by norm_num, (z 1 (by norm_num) (by decide)).1, v1] at d
  rw [show (1 : ℤ) + 1 = 2 by norm_num, show (1 : ℤ) - 1 = 0 by norm_num, (y 1 (by norm_num) (by decide)).1, v2] at d'
  rw [d, d'] at e'
  revert e'
  show (0 : ℝ) + 2 * 1 * -1 - (0 + 2 * 1 * 0) ≠ 0
  norm_num

end Leap

/-! ### C151: the rates -/

/-- C151, change of the damping: where the rate is positive inside the box the change takes away the part `1 - c` of it; elsewhere
there is no change. -/
theorem C151_change (c : ℝ) (ta tb ia ib : ℤ) (g : ℤ → ℤ → ℝ) (m i : ℤ) :
    gamaChange c ta tb ia ib g m i = if (ta ≤ m ∧ m ≤ tb) ∧ (ia ≤ i ∧ i ≤ ib) then -(1 - c) * max (g m i) 0 else 0 := by
  unfold gamaChange
  by_cases h : (ta ≤ m ∧ m ≤ tb) ∧ (ia ≤ i ∧ i ≤ ib)
  · rw [if_pos h]
    by_cases hg : 0 < g m i
    · rw [if_pos ⟨h.1, h.2, hg⟩, max_eq_left hg.le]
      ring
    · rw [if_neg (fun h => hg h.2.2), max_eq_right (not_lt.1 hg)]
      ring
  · rw [if_neg h, if_neg (fun h' => h ⟨h'.1, h'.2.1⟩), sub_self]

/-- C151, interpolation: every fine step gets exactly one value, the linear interpolation between the rates of the two intervals
around it. -/
theorem C151_interpolation {w half len m0 m1 t : ℤ} (g : ℤ → ℤ → ℝ) (x : ℤ) (hw : 0 < w) (hh : 0 ≤ half) (h0 : 0 ≤ t) (h1 : t < len)
    (hl : len + half ≤ (m1 - m0 + 1) * w) :
    finer w half len m0 m1 g t x = g (m0 + (t + half) / w) x * (((t + half) % w : ℤ) / w : ℝ) +
      g (m0 + (t + half) / w - 1) x * (1 - (((t + half) % w : ℤ) / w : ℝ)) := by
  have hq : (t + half) / w * w + (t + half) % w = t + half := by
    have := Int.emod_add_mul_ediv (t + half) w
    linarith
  have hr := Int.emod_nonneg (t + half) hw.ne'
  have hr' := Int.emod_lt_of_pos (t + half) hw
  have hq0 : 0 ≤ (t + half) / w := Int.ediv_nonneg (by omega) hw.le
  have hq1 : (t + half) / w < m1 - m0 + 1 := Int.ediv_lt_of_lt_mul hw (by omega)
  unfold finer
  rw [doLoop_write (fun s : ℤ → ℤ → ℝ => s t x) (m0 + (t + half) / w)
    (g (m0 + (t + half) / w) x * (((t + half) % w : ℤ) / w : ℝ) +
      g (m0 + (t + half) / w - 1) x * (1 - (((t + half) % w : ℤ) / w : ℝ))) (fun m s _ _ => ?_), if_pos ⟨by omega, by omega⟩]
  by_cases e : m = m0 + (t + half) / w
  · rw [if_pos e]
    rw [doLoop_write (fun s : ℤ → ℤ → ℝ => s t x) ((t + half) % w)
      (g (m0 + (t + half) / w) x * (((t + half) % w : ℤ) / w : ℝ) +
        g (m0 + (t + half) / w - 1) x * (1 - (((t + half) % w : ℤ) / w : ℝ))) (fun i s i1 i2 => ?_), if_pos ⟨hr, by omega⟩]
    have em : m - m0 = (t + half) / w := by omega
    by_cases ei : i = (t + half) % w
    · have et : (m - m0) * w + i - half = t := by rw [em, ei]; omega
      rw [if_pos ei, et, if_pos h0, if_pos h1]
      show (if t = t then _ else _) = _
      rw [if_pos rfl, e, ei]
    · have et : t ≠ (m - m0) * w + i - half := by rw [em]; omega
      rw [if_neg ei]
      by_cases c1 : 0 ≤ (m - m0) * w + i - half
      · rw [if_pos c1]
        by_cases c2 : (m - m0) * w + i - half < len
        · rw [if_pos c2]
          exact if_neg et
        · rw [if_neg c2]
      · rw [if_neg c1]
  · rw [if_neg e]
    refine doLoop_keep (fun s : ℤ → ℤ → ℝ => s t x) (fun i s i1 i2 => ?_) s
    have et : t ≠ (m - m0) * w + i - half := by
      intro h
      apply e
      have : (t + half) / w = m - m0 := by
        rw [show t + half = i + w * (m - m0) by rw [h]; ring, Int.add_mul_ediv_left _ _ hw.ne',
          Int.ediv_eq_zero_of_lt i1 (by omega), zero_add]
      omega
    by_cases c1 : 0 ≤ (m - m0) * w + i - half
    · rw [if_pos c1]
      by_cases c2 : (m - m0) * w + i - half < len
      · rw [if_pos c2]
        exact if_neg et
      · rw [if_neg c2]
    · rw [if_neg c1]

/-- C151, constants: rates that are the same in all intervals from the one before the window to the one after it are the same on the
finer mesh. -/
theorem C151_constant {w half len m0 m1 x t : ℤ} {g : ℤ → ℤ → ℝ} {c : ℝ} (hw : 0 < w) (hh : 0 ≤ half) (h0 : 0 ≤ t) (h1 : t < len)
    (hl : len + half ≤ (m1 - m0 + 1) * w) (hg : ∀ m, m0 - 1 ≤ m → m ≤ m1 → g m x = c) :
    finer w half len m0 m1 g t x = c := by
  rw [C151_interpolation g x hw hh h0 h1 hl]
  have hq0 : 0 ≤ (t + half) / w := Int.ediv_nonneg (by omega) hw.le
  have hq1 : (t + half) / w < m1 - m0 + 1 := Int.ediv_lt_of_lt_mul hw (by omega)
  rw [hg _ (by omega) (by omega), hg _ (by omega) (by omega)]
  ring

/-- C151, centres: the rate of an interval is taken `w - half` fine steps after the start of the interval; for `half = w / 2` that is
the centre of the interval. For `half = 0` the value of a slot (of an array started one slot earlier) is taken at the slot itself. -/
theorem C151_centre {w half len m0 m1 x m : ℤ} {g : ℤ → ℤ → ℝ} (hw : 0 < w) (hh : 0 ≤ half)
    (h0 : 0 ≤ (m - m0) * w + (w - half)) (h1 : (m - m0) * w + (w - half) < len) (hl : len + half ≤ (m1 - m0 + 1) * w) :
    finer w half len m0 m1 g ((m - m0) * w + (w - half)) x = g m x := by
  rw [C151_interpolation g x hw hh h0 h1 hl, show (m - m0) * w + (w - half) + half = w * (m - m0 + 1) by ring,
    Int.mul_ediv_cancel_left _ hw.ne', Int.mul_emod_right, show m0 + (m - m0 + 1) - 1 = m by ring]
  norm_num

/-- C151, sign: a change of the damping that is nowhere positive stays so on the finer mesh and is nowhere larger in size than the
largest one. -/
theorem C151_bounds {w half len m0 m1 t x : ℤ} {g : ℤ → ℤ → ℝ} {lo hi : ℝ} (hw : 0 < w) (hh : 0 ≤ half) (h0 : 0 ≤ t) (h1 : t < len)
    (hl : len + half ≤ (m1 - m0 + 1) * w) (hg : ∀ m, lo ≤ g m x ∧ g m x ≤ hi) :
    lo ≤ finer w half len m0 m1 g t x ∧ finer w half len m0 m1 g t x ≤ hi := by
  rw [C151_interpolation g x hw hh h0 h1 hl]
  have hwr : (0 : ℝ) < w := by exact_mod_cast hw
  have r0 : (0 : ℝ) ≤ ((t + half) % w : ℤ) / w := div_nonneg (by exact_mod_cast Int.emod_nonneg _ hw.ne') hwr.le
  have r1 : (((t + half) % w : ℤ) : ℝ) / w ≤ 1 := by
    rw [div_le_one hwr]
    exact_mod_cast (Int.emod_lt_of_pos _ hw).le
  have a := hg (m0 + (t + half) / w)
  have b := hg (m0 + (t + half) / w - 1)
  generalize (((t + half) % w : ℤ) : ℝ) / w = r at *
  constructor <;> nlinarith [mul_nonneg r0 (sub_nonneg.2 a.1), mul_nonneg (sub_nonneg.2 r1) (sub_nonneg.2 b.1),
    mul_nonneg r0 (sub_nonneg.2 a.2), mul_nonneg (sub_nonneg.2 r1) (sub_nonneg.2 b.2)]

/-! ### The hypotheses can be met -/

example : Leap.twoColumns.Follows 4 Leap.twoColumns.gama1p (Leap.twoColumns.run 4).1 := Leap.C150_first le_rfl (by norm_num)

/-- Both experiments change the damping in the same way. -/
def Leap.sameColumns : Leap := { Leap.twoColumns with gama2p := Leap.twoColumns.gama1p }

example : Leap.sameColumns.Follows 4 Leap.sameColumns.gama2p (Leap.sameColumns.run 4).2 :=
  Leap.C150_equal le_rfl (by norm_num) fun _ _ _ _ => rfl

example : ∑ i ∈ Finset.Ico 0 Leap.twoColumns.nlon, (Leap.twoColumns.run 4).1 (1 + 1) i =
    ∑ i ∈ Finset.Ico 0 Leap.twoColumns.nlon, (Leap.twoColumns.run 4).1 (1 - 1) i + 2 * Leap.twoColumns.dt *
      ∑ i ∈ Finset.Ico 0 Leap.twoColumns.nlon, ((Leap.twoColumns.gamap 1 i + Leap.twoColumns.gama1p 1 i) *
        (Leap.twoColumns.run 4).1 1 i + Leap.twoColumns.gama1p 1 i * Leap.twoColumns.lwap 1 i) :=
  (Leap.C150_zonal le_rfl (by norm_num) le_rfl (by norm_num)).1

example : (Leap.twoColumns.run 4).2 (1 + 1) 0 = (Leap.twoColumns.run 4).2 (1 - 1) 0 +
    2 * Leap.twoColumns.dt * Leap.twoColumns.law Leap.twoColumns.gama2p (Leap.twoColumns.run 4).2 1 0 :=
  (Leap.C150_second_partial le_rfl (by norm_num)).2.1 1 0 le_rfl (by norm_num) le_rfl (by decide)

/-- A steady wave activity meets the hypothesis of `C150_changed`. -/
example : (1 + (Leap.twoColumns.run 4).1 (1 + 1) 1 : ℝ) = 1 + (Leap.twoColumns.run 4).1 (1 - 1) 1 + 2 * Leap.twoColumns.dt *
    (convergence Leap.twoColumns.nlon (Leap.twoColumns.a * cos Leap.twoColumns.phi) Leap.twoColumns.dl
        (fun i => (1 + (Leap.twoColumns.run 4).1 1 i) * Leap.twoColumns.cgxp 1 i) 1 +
      (Leap.twoColumns.gamap 1 1 + Leap.twoColumns.gama1p 1 1) * (1 + (Leap.twoColumns.run 4).1 1 1) + 0 +
      Leap.twoColumns.diff * ((1 + (Leap.twoColumns.run 4).1 (1 - 1) ((1 + 1) % Leap.twoColumns.nlon)) -
        2 * (1 + (Leap.twoColumns.run 4).1 (1 - 1) 1) + (1 + (Leap.twoColumns.run 4).1 (1 - 1) ((1 - 1) % Leap.twoColumns.nlon))) /
        (Leap.twoColumns.a * cos Leap.twoColumns.phi * Leap.twoColumns.dl) ^ 2) :=
  Leap.C150_changed (f := fun _ _ => 0) (tot := fun m i => 1 + (Leap.twoColumns.run 4).1 m i) le_rfl (by norm_num) rfl le_rfl
    (by norm_num) (by norm_num) (by decide) (fun _ _ => rfl) (by
      unfold convergence
      show (1 : ℝ) = 1 + 2 * 1 * (-((1 * 0 - 1 * 0) / _) + 0 * 1 + 0 + 0 * _ / _)
      norm_num)

example : gamaChange 0.7 84 92 200 220 (fun _ _ => 1) 90 210 = -(1 - 0.7) * max 1 0 := by
  rw [C151_change, if_pos (by norm_num)]

example (g : ℤ → ℤ → ℝ) (x : ℤ) : finer 360 180 8640 76 100 g 180 x = g 77 x * 0 + g 76 x * (1 - 0) := by
  rw [C151_interpolation g x (by norm_num) (by norm_num) (by norm_num) (by norm_num) (by norm_num)]
  norm_num

example : finer 360 180 8640 76 100 (fun m _ => if 75 ≤ m ∧ m ≤ 100 then 5 else 0) 0 0 = 5 :=
  C151_constant (by norm_num) (by norm_num) (by norm_num) (by norm_num) (by norm_num) fun m h1 h2 => if_pos ⟨by omega, h2⟩

example (g : ℤ → ℤ → ℝ) : finer 360 180 8640 76 100 g ((80 - 76) * 360 + (360 - 180)) 7 = g 80 7 :=
  C151_centre (by norm_num) (by norm_num) (by norm_num) (by norm_num) (by norm_num)

example : -2 ≤ finer 360 180 8640 76 100 (fun m _ => if m = 90 then -2 else 0) 5000 0 ∧
    finer 360 180 8640 76 100 (fun m _ => if m = 90 then -2 else 0) 5000 0 ≤ 0 :=
  C151_bounds (by norm_num) (by norm_num) (by norm_num) (by norm_num) (by norm_num) fun m => by
    split_ifs <;> norm_num

end Falwa
