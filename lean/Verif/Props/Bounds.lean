import Verif.Model.Bounds
import Verif.Props.Grid
import Mathlib.Tactic.NormNum
import Mathlib.Tactic.FinCases
import Mathlib.Algebra.Order.Field.Rat

/-!
# C141: the Fortran routines and the bounds of their arrays

Fortran does not check subscripts. The theorems state for each routine exactly which sizes keep every access inside the declared arrays.
-/

set_option linter.unusedSimpArgs false

namespace Falwa

namespace Bounds

/-! ## Reading a trace -/

theorem Safe_nil : Safe [] := fun a h => by simp at h

theorem Safe_cons (a : Acc) (t : List Acc) : Safe (a :: t) ↔ a.Inside ∧ Safe t := by
  simp [Safe]

theorem Safe_append (s t : List Acc) : Safe (s ++ t) ↔ Safe s ∧ Safe t := by
  simp only [Safe, List.mem_append]
  exact ⟨fun h => ⟨fun a ha => h a (.inl ha), fun a ha => h a (.inr ha)⟩, fun h a ha => ha.elim (h.1 a) (h.2 a)⟩

theorem mem_loop (lo hi : ℤ) (f : ℤ → List Acc) (a : Acc) : a ∈ loop lo hi f ↔ ∃ v, lo ≤ v ∧ v ≤ hi ∧ a ∈ f v := by
  unfold loop
  rw [List.mem_flatMap]
  constructor
  · rintro ⟨n, hn, ha⟩
    rw [List.mem_range] at hn
    exact ⟨lo + n, by omega, by omega, ha⟩
  · rintro ⟨v, h1, h2, ha⟩
    refine ⟨(v - lo).toNat, ?_, ?_⟩
    · rw [List.mem_range]; omega
    · have : lo + ((v - lo).toNat : ℤ) = v := by omega
      rw [this]; exact ha

theorem Safe_loop (lo hi : ℤ) (f : ℤ → List Acc) : Safe (loop lo hi f) ↔ ∀ v, lo ≤ v → v ≤ hi → Safe (f v) := by
  constructor
  · intro h v h1 h2 a ha
    exact h a ((mem_loop lo hi f a).2 ⟨v, h1, h2, ha⟩)
  · intro h a ha
    obtain ⟨v, h1, h2, h3⟩ := (mem_loop lo hi f a).1 ha
    exact h v h1 h2 a h3

theorem Safe_when (c : Prop) [Decidable c] (t : List Acc) : Safe (when c t) ↔ (c → Safe t) := by
  unfold when
  by_cases h : c
  · rw [if_pos h]; exact ⟨fun s _ => s, fun s => s h⟩
  · rw [if_neg h]; exact ⟨fun _ hc => absurd hc h, fun _ => Safe_nil⟩

theorem inside1 (l : ℕ) (s : String) (i d : ℤ) : (FArr.at ⟨s, [d]⟩ l [i]).Inside ↔ 1 ≤ i ∧ i ≤ d := by
  simp [Acc.Inside, FArr.at]

theorem inside2 (l : ℕ) (s : String) (i j d e : ℤ) :
    (FArr.at ⟨s, [d, e]⟩ l [i, j]).Inside ↔ (1 ≤ i ∧ i ≤ d) ∧ 1 ≤ j ∧ j ≤ e := by
  simp [Acc.Inside, FArr.at]

theorem inside3 (l : ℕ) (s : String) (i j k d e f : ℤ) :
    (FArr.at ⟨s, [d, e, f]⟩ l [i, j, k]).Inside ↔ (1 ≤ i ∧ i ≤ d) ∧ (1 ≤ j ∧ j ≤ e) ∧ 1 ≤ k ∧ k ≤ f := by
  simp [Acc.Inside, FArr.at]

/-! ## `compute_reference_states` -/

namespace RefDims

variable (D : RefDims)

/-- The values of `ind` that are used lie in the partition arrays. -/
def IndOk : Prop := ∀ k i j, 2 ≤ k → k ≤ D.kmax - 1 → 1 ≤ i → i ≤ D.nlon → 1 ≤ j → j ≤ D.nlat → 1 ≤ D.ind k i j ∧ D.ind k i j ≤ D.npart

theorem means_safe (h2 : D.nlat ≤ 2 * D.jd - 1) : Safe D.means := by
  simp only [means, Safe_append, Safe_loop, Safe_cons, Safe_nil, rows, cube, prof, lats, inside1, inside2, inside3, and_true]
  refine ⟨⟨⟨?_, ?_⟩, ?_⟩, ?_⟩ <;> intros <;> (try constructor) <;> intros <;> omega

theorem area_safe (h1 : 1 ≤ D.jd) (h3 : 1 ≤ D.npart) (hi : D.IndOk) : Safe D.area := by
  simp only [area, Safe_append, Safe_loop, Safe_cons, Safe_nil, rows, cube, prof, lats, level, part, inside1, inside2, inside3, and_true]
  intro k hk hk'
  refine ⟨⟨⟨⟨⟨⟨⟨?_, ?_⟩, ?_⟩, ?_⟩, ?_⟩, ?_⟩, ?_⟩, ?_⟩
  · intros; omega
  · intros; omega
  · intro j h1 h2 i h3 h4
    have := hi k i j hk hk' h3 h4 h1 h2
    omega
  all_goals (intros; omega)

theorem coefficients_safe (h1 : 3 ≤ D.jd) : Safe D.coefficients := by
  simp only [coefficients, Safe_append, Safe_loop, Safe_cons, Safe_nil, rows, cube, prof, lats, inside1, inside2, inside3, and_true]
  refine ⟨⟨⟨?_, ?_⟩, ?_⟩, ?_⟩ <;> intros <;> omega

theorem sweeps_safe (h1 : 3 ≤ D.jd) (h2 : 3 ≤ D.kmax) : Safe D.sweeps := by
  simp only [sweeps, Safe_append, Safe_loop, Safe_cons, Safe_nil, Safe_when, rows, cube, prof, lats, inside1, inside2, inside3, and_true]
  intro n _ _
  refine ⟨fun j _ _ => ⟨fun k _ _ _ => ?_, ?_⟩, fun l _ _ => ?_⟩ <;> omega

theorem wind_safe (h1 : 3 ≤ D.jd) : Safe D.wind := by
  simp only [wind, Safe_append, Safe_loop, Safe_cons, Safe_nil, rows, inside2, and_true]
  refine ⟨?_, ?_⟩ <;> intros <;> omega

theorem temperature_safe (h1 : 3 ≤ D.jd) (h2 : 3 ≤ D.kmax) : Safe D.temperature := by
  simp only [temperature, Safe_append, Safe_loop, Safe_cons, Safe_nil, rows, prof, inside1, inside2, and_true]
  refine ⟨⟨?_, ?_⟩, ?_⟩
  · intro k _ _
    refine ⟨⟨⟨⟨⟨?_, ?_⟩, ?_⟩, ?_⟩, ?_⟩, ?_⟩ <;> intros <;> omega
  · intros; omega
  · omega

/-- C141, `compute_reference_states`: with at least three rows per hemisphere, at least three levels and no more rows north of row `jd` than
`jd`, every access is in bounds. -/
theorem C141_reference (h1 : 3 ≤ D.jd) (h2 : 3 ≤ D.kmax) (h3 : D.nlat ≤ 2 * D.jd - 1) (h4 : 1 ≤ D.npart) (hi : D.IndOk) :
    Safe D.trace := by
  simp only [trace, Safe_append]
  exact ⟨D.means_safe h3, D.area_safe (by omega) h4 hi, D.coefficients_safe h1, D.sweeps_safe h1 h2, D.wind_safe h1,
    D.temperature_safe h1 h2⟩

/-- C141: these sizes are also necessary. -/
theorem C141_reference_iff (hk : 1 ≤ D.kmax) (hm : 1 ≤ D.maxits) (hp : 1 ≤ D.npart)
    (hl : D.jd ≤ D.nlat) (hi : D.IndOk) : Safe D.trace ↔ 3 ≤ D.jd ∧ 3 ≤ D.kmax ∧ D.nlat ≤ 2 * D.jd - 1 := by
  constructor
  · intro h
    simp only [trace, Safe_append] at h
    obtain ⟨a1, _, _, a4, a5, _⟩ := h
    simp only [means, Safe_append, Safe_loop, Safe_cons, Safe_nil, rows, cube, prof, lats, inside1, inside2, inside3, and_true] at a1
    have b1 := (a1.1.2 D.nlat hl le_rfl).1 1 le_rfl hk
    simp only [wind, Safe_append, Safe_loop, Safe_cons, Safe_nil, rows, inside2, and_true] at a5
    have b2 := a5.2 1 le_rfl hk
    simp only [sweeps, Safe_append, Safe_loop, Safe_cons, Safe_nil, Safe_when, rows, cube, prof, lats, inside1, inside2, inside3,
      and_true] at a4
    have b3 := ((a4 1 le_rfl hm).1 2 le_rfl (by omega)).2
    omega
  · rintro ⟨h1, h2, h3⟩
    exact D.C141_reference h1 h2 h3 hp hi

/-- The documented grid: 181 latitudes, 240 longitudes, 49 levels, `ind` in the middle. -/
example : ∃ D : RefDims, D.nlat = 181 ∧ D.kmax = 49 ∧ D.IndOk ∧ Safe D.trace :=
  ⟨⟨240, 181, 49, 91, 181, 100000, fun _ _ _ => 91⟩, rfl, rfl, fun _ _ _ _ _ _ _ _ _ => by norm_num,
    C141_reference _ (by norm_num) (by norm_num) (by norm_num) (by norm_num) fun _ _ _ _ _ _ _ _ _ => by norm_num⟩

end RefDims

/-! ## `compute_qref_and_fawa_first` -/

namespace FawaDims

variable (D : FawaDims)

/-- The values of `ind` that are used lie in the partition arrays, for both analyses. -/
def IndOk : Prop := ∀ k i j, 2 ≤ k → k ≤ D.kmax - 1 → 1 ≤ i → i ≤ D.imax → 1 ≤ j → j ≤ D.jmax →
  (1 ≤ D.ind k i j ∧ D.ind k i j ≤ D.nnd) ∧ 1 ≤ D.indV k i j ∧ D.indV k i j ≤ D.nnd

theorem means_safe (h2 : D.jmax ≤ 2 * D.nd - 1) : Safe D.means := by
  simp only [means, Safe_append, Safe_loop, Safe_cons, Safe_nil, rows, cube, prof, lats, inside1, inside2, inside3, and_true]
  refine ⟨⟨?_, ?_⟩, ?_⟩ <;> intros <;> (try constructor) <;> intros <;> omega

theorem areaQ_safe (k : ℤ) (hk : 2 ≤ k) (hk' : k ≤ D.kmax - 1) (h1 : 1 ≤ D.nd) (h3 : 1 ≤ D.nnd) (hi : D.IndOk) : Safe (D.areaQ k) := by
  simp only [areaQ, Safe_append, Safe_loop, Safe_cons, Safe_nil, rows, cube, prof, lats, level, part, inside1, inside2, inside3, and_true]
  refine ⟨⟨⟨⟨⟨⟨⟨?_, ?_⟩, ?_⟩, ?_⟩, ?_⟩, ?_⟩, ?_⟩, ?_⟩
  · intros; omega
  · intros; omega
  · intro j h1 h2 i h3 h4
    have := hi k i j hk hk' h3 h4 h1 h2
    omega
  all_goals (intros; omega)

theorem areaV_safe (k : ℤ) (hk : 2 ≤ k) (hk' : k ≤ D.kmax - 1) (h3 : 1 ≤ D.nnd) (hi : D.IndOk) : Safe (D.areaV k) := by
  simp only [areaV, Safe_append, Safe_loop, Safe_cons, Safe_nil, rows, cube, prof, lats, level, part, inside1, inside2, inside3, and_true]
  refine ⟨⟨⟨⟨?_, ?_⟩, ?_⟩, ?_⟩, ?_⟩
  · intros; omega
  · intro j h1 h2 i h3 h4
    have := hi k i j hk hk' h3 h4 h1 h2
    omega
  all_goals (intros; omega)

theorem rest_safe (h1 : 3 ≤ D.nd) (h2 : 2 ≤ D.kmax) (h3 : 0 ≤ D.jb) (h4 : D.jd = D.nd - D.jb) : Safe D.rest := by
  simp only [rest, Safe_append, Safe_loop, Safe_cons, Safe_nil, rows, prof, tjk, sjk, inside1, inside2, inside3, and_true]
  refine ⟨⟨?_, ?_⟩, ?_⟩ <;> intros <;> omega

/-- C141, `compute_qref_and_fawa_first`. -/
theorem C141_fawa (h1 : 3 ≤ D.nd) (h2 : 2 ≤ D.kmax) (h3 : 0 ≤ D.jb) (h4 : D.jd = D.nd - D.jb) (h5 : D.jmax ≤ 2 * D.nd - 1)
    (h6 : 1 ≤ D.nnd) (hi : D.IndOk) : Safe D.trace := by
  simp only [trace, Safe_append, Safe_loop]
  exact ⟨D.means_safe h5, fun k a b => ⟨D.areaQ_safe k a b (by omega) h6 hi, D.areaV_safe k a b h6 hi⟩, D.rest_safe h1 h2 h3 h4⟩

/-- C141: these sizes are also necessary. -/
theorem C141_fawa_iff (hk : 3 ≤ D.kmax) (h4 : D.jd = D.nd - D.jb) (hl : D.nd ≤ D.jmax) (h6 : 1 ≤ D.nnd) (hi : D.IndOk) :
    Safe D.trace ↔ 3 ≤ D.nd ∧ 0 ≤ D.jb ∧ D.jmax ≤ 2 * D.nd - 1 := by
  constructor
  · intro h
    simp only [trace, Safe_append] at h
    obtain ⟨a1, _, a3⟩ := h
    simp only [means, Safe_append, Safe_loop, Safe_cons, Safe_nil, rows, cube, prof, lats, inside1, inside2, inside3, and_true] at a1
    have b1 := (a1.2 D.jmax hl le_rfl).1 1 le_rfl (by omega)
    simp only [rest, Safe_append, Safe_loop, Safe_cons, Safe_nil, rows, prof, tjk, sjk, inside1, inside2, inside3, and_true] at a3
    have b2 := a3.1.2 2 le_rfl (by omega)
    have b3 := a3.2 (D.nd - 1)
    refine ⟨by omega, ?_, by omega⟩
    by_contra hb
    have := b3 (by omega) le_rfl
    omega
  · rintro ⟨h1, h2, h3⟩
    exact D.C141_fawa h1 (by omega) h2 h4 h3 h6 hi

/-- The documented grid. -/
example : ∃ D : FawaDims, D.jmax = 181 ∧ D.jb = 5 ∧ D.IndOk ∧ Safe D.trace :=
  ⟨⟨360, 181, 97, 91, 181, 5, 86, fun _ _ _ => 91, fun _ _ _ => 1⟩, rfl, rfl, fun _ _ _ _ _ _ _ _ _ => by norm_num,
    C141_fawa _ (by norm_num) (by norm_num) (by norm_num) (by norm_num) (by norm_num) (by norm_num) fun _ _ _ _ _ _ _ _ _ => by norm_num⟩

end FawaDims

/-! ## The direct inversion -/

namespace InvDims

variable (D : InvDims)

theorem before_safe (k : ℤ) (hk : 2 ≤ k) (hk' : k ≤ D.kmax - 1) (h3 : 0 ≤ D.jb) (h4 : D.jd = D.nd - D.jb) : Safe (D.before k) := by
  simp only [before, Safe_append, Safe_loop, Safe_cons, Safe_nil, Safe_when, rows, prof, inner, mat, vec, sjk, inside1, inside2, inside3,
    and_true]
  refine ⟨⟨⟨?_, ?_⟩, ?_⟩, ?_⟩
  · omega
  · intros; omega
  · intro jj _ _
    refine ⟨⟨⟨⟨⟨?_, ?_⟩, ?_⟩, ?_⟩, ?_⟩, ?_⟩ <;> intros <;> omega
  · intro i _ _ j _ _
    refine ⟨⟨?_, ?_⟩, ?_⟩ <;> intros <;> omega

theorem after_safe (k : ℤ) (hk : 2 ≤ k) (hk' : k ≤ D.kmax - 1) : Safe (D.after k) := by
  simp only [after, Safe_append, Safe_loop, Safe_cons, Safe_nil, mat, vec, sjk, tjk, inside1, inside2, inside3, and_true]
  refine ⟨⟨⟨?_, ?_⟩, ?_⟩, ?_⟩
  · intros; omega
  · intro i _ _ j _ _
    refine ⟨⟨?_, ?_⟩, ?_⟩ <;> intros <;> omega
  · intro i _ _
    refine ⟨⟨?_, ?_⟩, ?_⟩ <;> intros <;> omega
  · intro i _ _
    refine ⟨⟨?_, ?_⟩, ?_⟩ <;> intros <;> omega

theorem sweep_safe (h1 : 3 ≤ D.jd) (h2 : 2 ≤ D.kmax) (h3 : 0 ≤ D.jb) (h4 : D.jd = D.nd - D.jb) : Safe D.sweep := by
  simp only [sweep, Safe_append]
  constructor
  · simp only [sweepWind, Safe_append, Safe_loop, Safe_cons, Safe_nil, rows, inner, mat, vec, sjk, tjk, pjk, inside1, inside2, inside3,
      and_true]
    refine ⟨⟨⟨⟨⟨?_, ?_⟩, ?_⟩, ?_⟩, ?_⟩, ?_⟩
    · intros; omega
    · intro k _ _
      refine ⟨⟨⟨?_, ?_⟩, ?_⟩, ?_⟩
      · intros; omega
      · intros; omega
      · intros; omega
      · intro i _ _
        refine ⟨⟨?_, ?_⟩, ?_⟩ <;> intros <;> omega
    all_goals (intros; omega)
  · simp only [sweepTemperature, Safe_append, Safe_loop, Safe_cons, Safe_nil, rows, prof, inner, inside1, inside2, inside3, and_true]
    refine ⟨⟨?_, ?_⟩, ?_⟩
    · intro k _ _
      refine ⟨⟨⟨⟨⟨⟨?_, ?_⟩, ?_⟩, ?_⟩, ?_⟩, ?_⟩, ?_⟩ <;> intros <;> omega
    · intros; omega
    · omega

/-- C141, `matrix_b4_inversion`, `matrix_after_inversion` and `upward_sweep` as the wrapper calls them. -/
theorem C141_inversion (h1 : 3 ≤ D.jd) (h2 : 2 ≤ D.kmax) (h3 : 0 ≤ D.jb) (h4 : D.jd = D.nd - D.jb) : Safe D.calls := by
  simp only [calls, Safe_append, Safe_loop]
  exact ⟨fun k a b => ⟨D.before_safe k a b h3 h4, D.after_safe k a b⟩, D.sweep_safe h1 h2 h3 h4⟩

/-- C141: these sizes are also necessary. -/
theorem C141_inversion_iff (h2 : 1 ≤ D.kmax) (h4 : D.jd = D.nd - D.jb) :
    Safe D.calls ↔ 3 ≤ D.jd ∧ 2 ≤ D.kmax ∧ 0 ≤ D.jb := by
  constructor
  · intro h
    simp only [calls, sweep, Safe_append] at h
    obtain ⟨_, a1, a2⟩ := h
    simp only [sweepWind, Safe_append, Safe_loop, Safe_cons, Safe_nil, rows, inner, mat, vec, sjk, tjk, pjk, inside1, inside2, inside3,
      and_true] at a1
    simp only [sweepTemperature, Safe_append, Safe_loop, Safe_cons, Safe_nil, rows, prof, inner, inside1, inside2, inside3,
      and_true] at a2
    have b1 := a1.1.1.2
    have b2 := a1.2 1 le_rfl h2
    have b3 := a2.2
    omega
  · rintro ⟨h1, h2, h3⟩
    exact D.C141_inversion h1 h2 h3 h4

/-- The documented grid. -/
example : ∃ D : InvDims, D.nd = 91 ∧ D.jb = 5 ∧ Safe D.calls :=
  ⟨⟨97, 91, 5, 86⟩, rfl, rfl, C141_inversion _ (by norm_num) (by norm_num) (by norm_num) (by norm_num)⟩

end InvDims

/-! ## QGPV -/

namespace PvDims

variable (D : PvDims)

theorem vorticity_safe (h1 : 2 ≤ D.nlon) (h2 : 2 ≤ D.nlat) : Safe D.vorticity := by
  simp only [vorticity, Safe_append, Safe_loop, Safe_cons, Safe_nil, rows, cube, inside2, inside3, and_true]
  refine ⟨?_, ?_⟩
  · intro k _ _
    refine ⟨?_, ?_⟩
    · intro j _ _
      refine ⟨?_, ?_⟩ <;> intros <;> omega
    · intros; omega
  · intro k _ _ j _ _
    refine ⟨?_, ?_⟩ <;> intros <;> omega

theorem meanPv_safe : Safe D.meanPv := by
  simp only [meanPv, Safe_append, Safe_loop, Safe_cons, Safe_nil, rows, cube, inside2, inside3, and_true]
  intro k _ _ j _ _
  refine ⟨?_, ?_⟩ <;> intros <;> omega

/-- C141, `compute_qgpv`. -/
theorem C141_qgpv18 (h1 : 2 ≤ D.nlon) (h2 : 2 ≤ D.nlat) : Safe D.qgpv18 := by
  simp only [qgpv18, Safe_append]
  refine ⟨⟨⟨⟨?_, ?_⟩, D.vorticity_safe h1 h2⟩, ?_⟩, D.meanPv_safe⟩
  · simp only [Safe_append, Safe_loop, Safe_cons, Safe_nil, rows, cube, inside2, inside3, and_true]
    intros; omega
  · simp only [Safe_append, Safe_loop, Safe_cons, Safe_nil, zmst, st, inside1, inside2, and_true]
    intro j _ _
    refine ⟨?_, ?_⟩ <;> intros <;> omega
  · simp only [Safe_append, Safe_loop, Safe_cons, Safe_nil, rows, cube, prof, inside1, inside2, inside3, and_true]
    intros; omega

/-- C141, `compute_qgpv_direct_inv`. -/
theorem C141_qgpv22 (h1 : 2 ≤ D.nlon) (h2 : 2 ≤ D.nlat) : Safe D.qgpv22 := by
  simp only [qgpv22, Safe_append]
  refine ⟨⟨D.vorticity_safe h1 h2, ?_⟩, D.meanPv_safe⟩
  simp only [Safe_append, Safe_loop]
  intro k _ _ j _ _
  refine ⟨?_, ?_⟩
  · split_ifs <;> simp only [Safe_cons, Safe_nil, prof, inside1, and_true] <;> omega
  · simp only [Safe_cons, Safe_nil, prof, cube, inside1, inside3, and_true]
    intros; omega

theorem vorticity_unsafe (hk : 1 ≤ D.kmax) (hl : 3 ≤ D.nlat) (h : Safe D.vorticity) : 2 ≤ D.nlon := by
  simp only [vorticity, Safe_append, Safe_loop, Safe_cons, Safe_nil, rows, cube, inside2, inside3, and_true] at h
  have := ((h.1 1 le_rfl hk).1 2 le_rfl (by omega)).2
  omega

/-- C141: two longitudes are necessary for both routines on grids of three or more latitudes. -/
theorem C141_qgpv_iff (hk : 1 ≤ D.kmax) (hl : 3 ≤ D.nlat) : (Safe D.qgpv18 ↔ 2 ≤ D.nlon) ∧ (Safe D.qgpv22 ↔ 2 ≤ D.nlon) := by
  refine ⟨⟨fun h => ?_, fun h => D.C141_qgpv18 h (by omega)⟩, fun h => ?_, fun h => D.C141_qgpv22 h (by omega)⟩
  · simp only [qgpv18, Safe_append] at h
    exact D.vorticity_unsafe hk hl h.1.1.2
  · simp only [qgpv22, Safe_append] at h
    exact D.vorticity_unsafe hk hl h.1.1

/-- The documented grid. -/
example : ∃ D : PvDims, D.nlat = 181 ∧ Safe D.qgpv18 ∧ Safe D.qgpv22 :=
  ⟨⟨360, 181, 97, 91⟩, rfl, C141_qgpv18 _ (by norm_num) (by norm_num), C141_qgpv22 _ (by norm_num) (by norm_num)⟩

end PvDims

/-! ## Wave activity and fluxes -/

namespace FluxDims

variable (D : FluxDims)

/-- C141, `compute_lwa_only_nhn22`, both branches. -/
theorem C141_lwa (h1 : 1 ≤ D.nd) (h2 : 0 ≤ D.jb) (h3 : D.jmax = 2 * D.nd - 1) : Safe D.lwaOnly := by
  simp only [lwaOnly, Safe_append, Safe_loop, Safe_cons, Safe_nil, cube, hem, plane, qref, prof, inside1, inside2, inside3, and_true]
  refine ⟨?_, ?_⟩
  · intros; omega
  · intro k _ _
    cases hb : D.nhem <;> simp only [jstart, jend, row, hb, if_true, if_false, Bool.false_eq_true]
    · refine ⟨⟨?_, ?_⟩, ?_⟩
      · intro i _ _ j _ _
        refine ⟨?_, ?_⟩ <;> intros <;> omega
      · intros; omega
      · intros; omega
    · refine ⟨⟨?_, ?_⟩, ?_⟩
      · intro i _ _ j _ _
        refine ⟨?_, ?_⟩ <;> intros <;> omega
      · intros; omega
      · intros; omega

/-- C141: a non-negative boundary is also necessary. -/
theorem C141_lwa_iff (h1 : 2 ≤ D.nd) (hi : 1 ≤ D.imax) (hk : 3 ≤ D.kmax) (h3 : D.jmax = 2 * D.nd - 1) : Safe D.lwaOnly ↔ 0 ≤ D.jb := by
  refine ⟨fun h => ?_, fun h => D.C141_lwa (by omega) h h3⟩
  simp only [lwaOnly, Safe_append, Safe_loop, Safe_cons, Safe_nil, cube, hem, plane, qref, prof, inside1, inside2, inside3, and_true] at h
  by_contra hb
  have a := fun j => (h.2 2 le_rfl (by omega)).1.1 1 le_rfl hi j
  cases hc : D.nhem <;> simp only [jstart, jend, hc, if_true, if_false, Bool.false_eq_true] at a
  · have := (a (D.nd - D.jb) (by omega) le_rfl).1
    omega
  · have := (a (D.jb + 1) le_rfl (by omega)).1
    omega

/-- The documented grid, southern branch. -/
example : ∃ D : FluxDims, D.nhem = false ∧ D.jb = 5 ∧ Safe D.lwaOnly :=
  ⟨⟨360, 181, 97, 91, 5, 86, false⟩, rfl, rfl, C141_lwa _ (by norm_num) (by norm_num) (by norm_num)⟩

/-- Every access outside its array satisfies `P`. -/
def _root_.Falwa.Bounds.Only (P : Acc → Prop) (t : List Acc) : Prop := ∀ a ∈ t, a.Inside ∨ P a

theorem _root_.Falwa.Bounds.Only_nil (P : Acc → Prop) : Only P [] := fun a h => by simp at h

theorem _root_.Falwa.Bounds.Only_cons (P : Acc → Prop) (a : Acc) (t : List Acc) : Only P (a :: t) ↔ (a.Inside ∨ P a) ∧ Only P t := by
  simp [Only]

theorem _root_.Falwa.Bounds.Only_append (P : Acc → Prop) (s t : List Acc) : Only P (s ++ t) ↔ Only P s ∧ Only P t := by
  simp only [Only, List.mem_append]
  exact ⟨fun h => ⟨fun a ha => h a (.inl ha), fun a ha => h a (.inr ha)⟩, fun h a ha => ha.elim (h.1 a) (h.2 a)⟩

theorem _root_.Falwa.Bounds.Only_loop (P : Acc → Prop) (lo hi : ℤ) (f : ℤ → List Acc) :
    Only P (loop lo hi f) ↔ ∀ v, lo ≤ v → v ≤ hi → Only P (f v) := by
  constructor
  · intro h v h1 h2 a ha
    exact h a ((mem_loop lo hi f a).2 ⟨v, h1, h2, ha⟩)
  · intro h a ha
    obtain ⟨v, h1, h2, h3⟩ := (mem_loop lo hi f a).1 ha
    exact h v h1 h2 a h3

theorem _root_.Falwa.Bounds.Safe.only {t : List Acc} (h : Safe t) (P : Acc → Prop) : Only P t := fun a ha => .inl (h a ha)

theorem fluxAt_safe (k i j : ℤ) (hk : 2 ≤ k) (hk' : k ≤ D.kmax - 1) (hi : 1 ≤ i) (hi' : i ≤ D.imax) (hj : D.jstart ≤ j) (hj' : j ≤ D.jend)
    (h1 : 0 ≤ D.jb) (h2 : D.jd = D.nd - D.jb) (h3 : D.jmax = 2 * D.nd - 1) : Safe (D.fluxAt k i j) := by
  simp only [fluxAt, Safe_append, Safe_loop, Safe_cons, Safe_nil, Safe_when, cube, hem, plane, qref, inner, prof, inside1, inside2, inside3,
    and_true]
  cases hb : D.nhem <;> simp only [jstart, jend, row, ref, hb, if_true, if_false, Bool.false_eq_true] at hj hj' ⊢
  · refine ⟨⟨⟨?_, ?_⟩, ?_⟩, ?_⟩ <;> intros <;> omega
  · refine ⟨⟨⟨?_, ?_⟩, ?_⟩, ?_⟩ <;> intros <;> omega

/-- C141, `compute_flux_dirinv_nshem`, northern branch: the only accesses outside an array are `uref(0,k)` on line 152 and, for `jb = 0`, row
zero of `ep2` and `ep3` on lines 177-178. -/
theorem C141_flux_north (hb : D.nhem = true) (h1 : 0 ≤ D.jb) (h2 : D.jd = D.nd - D.jb) (h3 : D.jmax = 2 * D.nd - 1) (h4 : 2 ≤ D.jd) :
    Only (fun a => (∃ k, a.line = 152 ∧ a.arr.name = "uref" ∧ a.ix = [0, k]) ∨
      D.jb = 0 ∧ ∃ i k, (a.line = 177 ∧ a.arr.name = "ep2" ∨ a.line = 178 ∧ a.arr.name = "ep3") ∧ a.ix = [i, 0, k]) D.flux := by
  simp only [flux, Only_append, Only_loop]
  refine ⟨?_, ?_⟩
  · intro k _ _
    apply Safe.only
    simp only [Safe_cons, Safe_nil, prof, inside1, and_true]
    omega
  · intro k hk hk' i hi hi'
    refine ⟨?_, ?_⟩
    · intro j hj hj'
      refine ⟨(D.fluxAt_safe k i j hk hk' hi hi' hj hj' h1 h2 h3).only _, ?_⟩
      simp only [jstart, jend, row, ref, hb, if_true] at hj hj'
      simp only [momentumAt, Only_cons, Only_nil, cube, hem, inner, row, ref, hb, if_true, inside2, inside3, and_true]
      refine ⟨.inl ?_, .inl ?_, .inl ?_, .inl ?_, .inl ?_, .inl ?_, ?_, .inl ?_⟩
      all_goals try omega
      by_cases hc : j = D.jb + 1
      · right; left
        refine ⟨k, rfl, rfl, ?_⟩
        show [j - D.jb - 1, k] = [0, k]
        rw [hc]; congr 1; omega
      · left; omega
    · simp only [tail, Only_cons, Only_nil, cube, hem, inner, inside2, inside3, and_true]
      refine ⟨?_, .inl ?_, .inl ?_, .inl ?_, ?_, .inl ?_, .inl ?_, .inl ?_⟩
      all_goals try omega
      · by_cases hc : D.jb = 0
        · right; right
          refine ⟨hc, i, k, .inl ⟨rfl, rfl⟩, ?_⟩
          show [i, D.jb, k] = [i, 0, k]
          rw [hc]
        · left; omega
      · by_cases hc : D.jb = 0
        · right; right
          refine ⟨hc, i, k, .inr ⟨rfl, rfl⟩, ?_⟩
          show [i, D.jb, k] = [i, 0, k]
          rw [hc]
        · left; omega

/-- C141, `compute_flux_dirinv_nshem`, southern branch: the only accesses outside an array are `uref(jd+1,k)` on line 155 (151 in the model) and,
for `jb = 0`, row zero of `ep2` and `ep3`. -/
theorem C141_flux_south (hb : D.nhem = false) (h1 : 0 ≤ D.jb) (h2 : D.jd = D.nd - D.jb) (h3 : D.jmax = 2 * D.nd - 1) (h4 : 2 ≤ D.jd) :
    Only (fun a => (∃ k, a.line = 151 ∧ a.arr.name = "uref" ∧ a.ix = [D.jd + 1, k]) ∨
      D.jb = 0 ∧ ∃ i k, (a.line = 177 ∧ a.arr.name = "ep2" ∨ a.line = 178 ∧ a.arr.name = "ep3") ∧ a.ix = [i, 0, k]) D.flux := by
  simp only [flux, Only_append, Only_loop]
  refine ⟨?_, ?_⟩
  · intro k _ _
    apply Safe.only
    simp only [Safe_cons, Safe_nil, prof, inside1, and_true]
    omega
  · intro k hk hk' i hi hi'
    refine ⟨?_, ?_⟩
    · intro j hj hj'
      refine ⟨(D.fluxAt_safe k i j hk hk' hi hi' hj hj' h1 h2 h3).only _, ?_⟩
      simp only [jstart, jend, row, ref, hb, if_false, Bool.false_eq_true] at hj hj'
      simp only [momentumAt, Only_cons, Only_nil, cube, hem, inner, row, ref, hb, if_false, Bool.false_eq_true, inside2, inside3, and_true]
      refine ⟨.inl ?_, .inl ?_, ?_, .inl ?_, .inl ?_, .inl ?_, .inl ?_, .inl ?_⟩
      all_goals try omega
      by_cases hc : j = D.jd
      · right; left
        refine ⟨k, rfl, rfl, ?_⟩
        show [j + 1, k] = [D.jd + 1, k]
        rw [hc]
      · left; omega
    · simp only [tail, Only_cons, Only_nil, cube, hem, inner, inside2, inside3, and_true]
      refine ⟨?_, .inl ?_, .inl ?_, .inl ?_, ?_, .inl ?_, .inl ?_, .inl ?_⟩
      all_goals try omega
      · by_cases hc : D.jb = 0
        · right; right
          refine ⟨hc, i, k, .inl ⟨rfl, rfl⟩, ?_⟩
          show [i, D.jb, k] = [i, 0, k]
          rw [hc]
        · left; omega
      · by_cases hc : D.jb = 0
        · right; right
          refine ⟨hc, i, k, .inr ⟨rfl, rfl⟩, ?_⟩
          show [i, D.jb, k] = [i, 0, k]
          rw [hc]
        · left; omega

/-- C141: the flux routine leaves its arrays for every size, in both branches. -/
theorem C141_flux_never (hi : 1 ≤ D.imax) (hk : 3 ≤ D.kmax) (h2 : D.jd = D.nd - D.jb) (h4 : 2 ≤ D.jd) : ¬ Safe D.flux := by
  intro h
  simp only [flux, Safe_append, Safe_loop] at h
  have a := (h.2 2 le_rfl (by omega) 1 le_rfl hi).1
  cases hb : D.nhem <;> simp only [jstart, jend, momentumAt, Safe_cons, Safe_nil, cube, hem, inner, row, ref, hb, if_true, if_false,
    Bool.false_eq_true, inside2, inside3, and_true] at a
  · have := (a (D.nd - D.jb) (by omega) le_rfl).2
    omega
  · have := (a (D.jb + 1) le_rfl (by omega)).2
    omega

/-- The documented grid meets the hypotheses. -/
example : ∃ D : FluxDims, D.nhem = true ∧ 1 ≤ D.imax ∧ 3 ≤ D.kmax ∧ 0 ≤ D.jb ∧ D.jd = D.nd - D.jb ∧ D.jmax = 2 * D.nd - 1 ∧ 2 ≤ D.jd :=
  ⟨⟨360, 181, 97, 91, 5, 86, true⟩, by norm_num⟩

end FluxDims

/-! ## Accepted grids -/

/-- Number of rows of a hemisphere: `nlat // 2 + nlat % 2`, oopinterface.py lines 163, 1736, 1818. -/
def halfRows (nlat : ℕ) : ℤ := ((nlat / 2 + nlat % 2 : ℕ) : ℤ)

/-- Property C141 for `QGFieldNH18`: on every accepted latitude grid the reference state routine stays inside its arrays. -/
def C141_Statement : Prop :=
  ∀ (n : ℕ) (ylat : ℕ → ℚ) (g : LatGrid ℚ) (nlon kmax npart maxits : ℤ) (ind : ℤ → ℤ → ℤ → ℤ), checkYlat n ylat = .ok g →
    2 ≤ nlon → 3 ≤ kmax → 2 ≤ npart → 1 ≤ maxits → (∀ k i j, 1 ≤ ind k i j ∧ ind k i j ≤ npart) →
    Safe (RefDims.mk nlon g.nlat kmax g.equatorIdx npart maxits ind).trace

/-- Property C141 for `QGFieldNHN22` with the boundary `jb`: the routines of the direct inversion. -/
def C141_Statement_direct (jb : ℕ) : Prop :=
  ∀ (n : ℕ) (ylat : ℕ → ℚ) (g : LatGrid ℚ) (nlon kmax : ℤ) (ind indV : ℤ → ℤ → ℤ → ℤ), checkYlat n ylat = .ok g →
    2 ≤ nlon → 3 ≤ kmax → (∀ k i j, (1 ≤ ind k i j ∧ ind k i j ≤ g.nlat) ∧ 1 ≤ indV k i j ∧ indV k i j ≤ g.nlat) →
    Safe (FawaDims.mk nlon g.nlat kmax (halfRows g.nlat) g.nlat jb (halfRows g.nlat - jb) ind indV).trace ∧
      Safe (InvDims.mk kmax (halfRows g.nlat) jb (halfRows g.nlat - jb)).calls

/-- An evenly spaced grid with the equator at row `e` is accepted as it is. -/
theorem even_accepted (n e : ℕ) (d : ℚ) (hd : 0 < d) (hn : 2 ≤ n) (he : e < n) :
    ∃ g, checkYlat n (fun i => d * ((i : ℚ) - e)) = .ok g ∧ g.nlat = n ∧ g.equatorIdx = e + 1 := by
  have hz : ∀ i : ℕ, d * ((i : ℚ) - e) = 0 ↔ i = e := by
    intro i
    constructor
    · intro h
      rcases mul_eq_zero.1 h with h | h
      · exact absurd h (ne_of_gt hd)
      · exact_mod_cast sub_eq_zero.1 h
    · rintro rfl; simp
  have h1 : zeroCount n (fun i => d * ((i : ℚ) - e)) = 1 := by
    rw [zeroCount_eq_one]
    exact ⟨e, ⟨he, (hz e).2 rfl⟩, fun j hj => (hz j).1 hj.2⟩
  obtain ⟨g, hg⟩ := ((C32_accepts_exactly n (fun i => d * ((i : ℚ) - e)) hn).1).mpr
    ⟨by
      have : d * (((0 : ℕ) : ℚ) - e) < d * (((1 : ℕ) : ℚ) - e) := by
        apply mul_lt_mul_of_pos_left _ hd; norm_num
      exact this.le, Or.inr ((zeroCount_eq_one _ _).mp h1)⟩
  obtain ⟨_, _, h3, h4, h5, h6⟩ := C32_analysis_grid _ _ g hg
  have hni : g.needInterp = false := by
    rcases Bool.eq_false_or_eq_true g.needInterp with ht | hf
    · exact absurd ((hz e).2 rfl) (h4.mp ht e he)
    · exact hf
  have hl : g.nlat = n := by rw [h5, hni]; simp
  refine ⟨g, hg, hl, ?_⟩
  have := (h3 e (by omega)).1 (by rw [h6 hni]; exact (hz e).2 rfl)
  omega

/-- C141 fails: on the grid 30°S, 20°S, …, 90°N of 13 rows the zonal means are written to rows 5 to 10 of arrays with four rows. -/
theorem C141_refuted : ¬ C141_Statement := by
  intro h
  obtain ⟨g, hg, h1, h2⟩ := even_accepted 13 3 10 (by norm_num) (by norm_num) (by norm_num)
  have a := h 13 _ g 36 49 13 1 (fun _ _ _ => 1) hg (by norm_num) (by norm_num) (by norm_num) (by norm_num) fun _ _ _ => by norm_num
  rw [RefDims.C141_reference_iff _ (by norm_num) (by norm_num) (by norm_num) (by simp [h1, h2])
    (fun _ _ _ _ _ _ _ _ _ => by norm_num)] at a
  have := a.2.2
  simp only [h1, h2] at this
  norm_num at this

/-- The same happens on every evenly spaced grid with more rows north than south of the equator. -/
theorem C141_offcentre (n e : ℕ) (d : ℚ) (hd : 0 < d) (hn : 2 ≤ n) (he : 2 * e + 1 < n) (nlon kmax npart maxits : ℤ)
    (ind : ℤ → ℤ → ℤ → ℤ) (hk : 1 ≤ kmax) (hm : 1 ≤ maxits) (hp : 1 ≤ npart) (hi : ∀ k i j, 1 ≤ ind k i j ∧ ind k i j ≤ npart) :
    ∃ g, checkYlat n (fun i => d * ((i : ℚ) - e)) = .ok g ∧
      ¬ Safe (RefDims.mk nlon g.nlat kmax g.equatorIdx npart maxits ind).trace := by
  obtain ⟨g, hg, h1, h2⟩ := even_accepted n e d hd hn (by omega)
  refine ⟨g, hg, ?_⟩
  rw [RefDims.C141_reference_iff _ hk hm hp (by simp only [h1, h2]; omega) (fun k i j _ _ _ _ _ _ => hi k i j)]
  simp only [h1, h2]
  omega

example : (0 : ℚ) < 10 ∧ 2 ≤ 13 ∧ 2 * 3 + 1 < 13 := by norm_num

/-- C141 fails for `QGFieldNHN22` with its default boundary: on the 15 degree grid of 13 rows row zero of `u` is read. -/
theorem C141_refuted_direct : ¬ C141_Statement_direct 5 := by
  intro h
  obtain ⟨g, hg, h1, h2⟩ := even_accepted 13 6 15 (by norm_num) (by norm_num) (by norm_num)
  have a := (h 13 _ g 24 49 (fun _ _ _ => 1) (fun _ _ _ => 1) hg (by norm_num) (by norm_num) fun _ _ _ => by rw [h1]; norm_num).2
  rw [InvDims.C141_inversion_iff _ (by norm_num) rfl] at a
  have := a.1
  simp only [h1, halfRows] at this
  norm_num at this

/-- C141 for grids with the equator in the middle and at least five rows.
Missing: the other accepted grids (`C141_refuted`). -/
theorem C141_accepted_partial {K : Type*} [Field K] [LinearOrder K] [IsStrictOrderedRing K] (n : ℕ) (ylat : ℕ → K) (g : LatGrid K)
    (_h : checkYlat n ylat = .ok g) (hm : g.nlat = 2 * g.equatorIdx - 1) (h5 : 5 ≤ g.nlat) (nlon kmax npart maxits : ℤ)
    (ind : ℤ → ℤ → ℤ → ℤ) (hk : 3 ≤ kmax) (hp : 1 ≤ npart) (hi : ∀ k i j, 1 ≤ ind k i j ∧ ind k i j ≤ npart) :
    Safe (RefDims.mk nlon g.nlat kmax g.equatorIdx npart maxits ind).trace := by
  apply RefDims.C141_reference
  · show 3 ≤ ((g.equatorIdx : ℕ) : ℤ); omega
  · exact hk
  · show ((g.nlat : ℕ) : ℤ) ≤ 2 * ((g.equatorIdx : ℕ) : ℤ) - 1; omega
  · exact hp
  · exact fun k i j _ _ _ _ _ _ => hi k i j

/-- C141 for `QGFieldNHN22`: an odd number of rows, at least `2 eq_boundary_index + 5` of them, is exactly what the routines need.
Missing: the other accepted grids (`C141_refuted_direct`). -/
theorem C141_accepted_direct_partial {K : Type*} [Field K] [LinearOrder K] [IsStrictOrderedRing K] (n : ℕ) (ylat : ℕ → K)
    (g : LatGrid K) (_h : checkYlat n ylat = .ok g) (jb : ℕ) (nlon kmax : ℤ) (ind indV : ℤ → ℤ → ℤ → ℤ) (hk : 3 ≤ kmax) (h1 : 2 ≤ g.nlat)
    (hi : ∀ k i j, (1 ≤ ind k i j ∧ ind k i j ≤ g.nlat) ∧ 1 ≤ indV k i j ∧ indV k i j ≤ g.nlat) :
    (Safe (FawaDims.mk nlon g.nlat kmax (halfRows g.nlat) g.nlat jb (halfRows g.nlat - jb) ind indV).trace ∧
      Safe (InvDims.mk kmax (halfRows g.nlat) jb (halfRows g.nlat - jb)).calls) ↔ g.nlat % 2 = 1 ∧ 2 * jb + 5 ≤ g.nlat := by
  rw [FawaDims.C141_fawa_iff _ hk rfl (by simp only [halfRows]; omega) (by simp only; omega) (fun k i j _ _ _ _ _ _ => hi k i j),
    InvDims.C141_inversion_iff _ (by simp only; omega) rfl]
  simp only [halfRows]
  omega

/-- The one degree grid with the default boundary. -/
example : ∃ g, checkYlat 181 (fun i => (1 : ℚ) * ((i : ℚ) - (90 : ℕ))) = .ok g ∧ g.nlat = 2 * g.equatorIdx - 1 ∧ 5 ≤ g.nlat ∧
    g.nlat % 2 = 1 ∧ 2 * 5 + 5 ≤ g.nlat := by
  obtain ⟨g, hg, h1, h2⟩ := even_accepted 181 90 1 (by norm_num) (by norm_num) (by norm_num)
  exact ⟨g, hg, by omega, by omega, by omega, by omega⟩

end Bounds

end Falwa
