import Verif.Props.Rotation

/-!
# Symmetric atmospheres have symmetric results (C121)

A field that repeats every `s` columns, for instance a pattern of one zonal wave number or a zonally symmetric field (all `s`).
-/

noncomputable section

namespace Falwa

open Real Finset

namespace Atmos

variable (A : Atmos)

/-- All input fields have the same values `s` columns further east. -/
def Repeats (s : ℤ) : Prop :=
  ∀ i, 1 ≤ i → i ≤ A.nlon → ∀ j k,
    A.uField (rot A.nlon s i) j k = A.uField i j k ∧ A.vField (rot A.nlon s i) j k = A.vField i j k ∧
    A.tField (rot A.nlon s i) j k = A.tField i j k ∧ A.ncforce (rot A.nlon s i) j k = A.ncforce i j k

variable {A}

theorem Repeats.rotate_eq {s : ℤ} (h : A.Repeats s) (hn : 1 ≤ A.nlon) : A.rotate s = A.rotate 0 := by
  have e : ∀ i, rot A.nlon s i = rot A.nlon s (rot A.nlon 0 i) := fun i => by rw [rot_rot, add_zero]
  have h' : ∀ i j k, _ := fun i j k => h (rot A.nlon 0 i) (rot_mem hn 0 i).1 (rot_mem hn 0 i).2 j k
  have e1 : (fun i j l => A.uField (rot A.nlon s i) j l) = fun i j l => A.uField (rot A.nlon 0 i) j l := by
    funext i j l; rw [e]; exact (h' i j l).1
  have e2 : (fun i j l => A.vField (rot A.nlon s i) j l) = fun i j l => A.vField (rot A.nlon 0 i) j l := by
    funext i j l; rw [e]; exact (h' i j l).2.1
  have e3 : (fun i j l => A.tField (rot A.nlon s i) j l) = fun i j l => A.tField (rot A.nlon 0 i) j l := by
    funext i j l; rw [e]; exact (h' i j l).2.2.1
  have e4 : (fun i j l => A.ncforce (rot A.nlon s i) j l) = fun i j l => A.ncforce (rot A.nlon 0 i) j l := by
    funext i j l; rw [e]; exact (h' i j l).2.2.2
  unfold rotate
  rw [e1, e2, e3, e4]

/-- C121: vorticity and QGPV repeat with the fields. -/
theorem C121_qgpv {s : ℤ} (h : A.Repeats s) (hn : 2 ≤ A.nlon) (c : Scheme) (i : ℤ) (hi : 1 ≤ i ∧ i ≤ A.nlon) (j k : ℤ) :
    A.avort (rot A.nlon s i) j k = A.avort i j k ∧ A.qgpv c (rot A.nlon s i) j k = A.qgpv c i j k := by
  have h1 := A.C47_qgpv s hn c
  have h0 := A.C47_qgpv 0 hn c
  rw [h.rotate_eq (by omega)] at h1
  constructor
  · rw [← h1.1, h0.1, rot_zero hi.1 hi.2]
  · rw [← h1.2, h0.2, rot_zero hi.1 hi.2]

/-- C121: all local results repeat with the fields. -/
theorem C121_local_results {s : ℤ} (h : A.Repeats s) (hn : 2 ≤ A.nlon) (hl : 1 ≤ A.nlat) (hjb : 0 ≤ A.jb) (hnd : A.jb + 1 ≤ A.nd)
    (c : Scheme) (i : ℤ) (hi : 1 ≤ i ∧ i ≤ A.nlon) (g : ℤ) :
    (∀ k, (A.analysis c).lwa (rot A.nlon s i) g k = (A.analysis c).lwa i g k) ∧
    (A.analysis c).lwaBaro (rot A.nlon s i) g = (A.analysis c).lwaBaro i g ∧
    (A.analysis c).uBaro (rot A.nlon s i) g = (A.analysis c).uBaro i g ∧
    (A.analysis c).advFluxF1 (rot A.nlon s i) g = (A.analysis c).advFluxF1 i g ∧
    (A.analysis c).advFluxF2 (rot A.nlon s i) g = (A.analysis c).advFluxF2 i g ∧
    (A.analysis c).advFluxF3 (rot A.nlon s i) g = (A.analysis c).advFluxF3 i g ∧
    (A.analysis c).zonalFluxSum (rot A.nlon s i) g = (A.analysis c).zonalFluxSum i g ∧
    (A.analysis c).heatFlux (rot A.nlon s i) g = (A.analysis c).heatFlux i g ∧
    (A.analysis c).divEddyMomentumFlux (rot A.nlon s i) g = (A.analysis c).divEddyMomentumFlux i g ∧
    (A.analysis c).ncforceBaro (rot A.nlon s i) g = (A.analysis c).ncforceBaro i g := by
  have h1 := A.C47_local_results s hn hl hjb hnd c i hi g
  have h0 := A.C47_local_results 0 hn hl hjb hnd c i hi g
  rw [h.rotate_eq (by omega)] at h1
  dsimp only at h1 h0
  rw [rot_zero hi.1 hi.2] at h0
  obtain ⟨a1, a2, a3, a4, a5, a6, a7, a8, _, _, a9, a10, _⟩ := h1
  obtain ⟨b1, b2, b3, b4, b5, b6, b7, b8, _, _, b9, b10, _⟩ := h0
  exact ⟨fun k => (a1 k).symm.trans (b1 k), a2.symm.trans b2, a3.symm.trans b3, a4.symm.trans b4, a5.symm.trans b5,
    a6.symm.trans b6, a7.symm.trans b7, a8.symm.trans b8, a9.symm.trans b9, a10.symm.trans b10⟩

/-- C121: the zonal convergence repeats with the fields; for a zonally symmetric atmosphere it is zero on every row. -/
theorem C121_convergence (hn : 2 ≤ A.nlon) (hl : 1 ≤ A.nlat) (hjb : 0 ≤ A.jb) (hnd : A.jb + 1 ≤ A.nd) (c : Scheme) :
    (∀ s : ℕ, A.Repeats s → ∀ r x : ℕ, x < A.nlon.toNat →
      (A.analysis c).convergenceZonal r ((x + s) % A.nlon.toNat) = (A.analysis c).convergenceZonal r x) ∧
    (A.Repeats 1 → ∀ r x : ℕ, x < A.nlon.toNat → (A.analysis c).convergenceZonal r x = 0) := by
  constructor
  · intro s h r x hx
    have h1 := A.C47_convergence hn hl hjb c s r x hx
    have h0 := A.C47_convergence hn hl hjb c 0 r x hx
    rw [h.rotate_eq (by omega)] at h1
    rw [add_zero, Nat.mod_eq_of_lt hx] at h0
    exact h1.symm.trans h0
  · intro h r x hx
    have step : ∀ i : ℤ, 1 ≤ i → i + 1 ≤ A.nlon → ∀ g, (A.analysis c).zonalFluxSum (i + 1) g = (A.analysis c).zonalFluxSum i g := by
      intro i h1 h2 g
      have := (C121_local_results h hn hl hjb hnd c i ⟨h1, by omega⟩ g).2.2.2.2.2.2.1
      rwa [show rot A.nlon 1 i = i + 1 by unfold rot; rw [Int.emod_eq_of_lt (by omega) (by omega)]; ring] at this
    have all : ∀ y : ℕ, y < A.nlon.toNat → ∀ g,
        (A.analysis c).zonalFluxSum ((y : ℤ) + 1) g = (A.analysis c).zonalFluxSum 1 g := by
      intro y
      induction y with
      | zero => intro _ g; simp
      | succ y ih =>
        intro hy g
        have := step ((y : ℤ) + 1) (by omega) (by omega) g
        push_cast
        rw [this]
        exact ih (by omega) g
    unfold QGAnalysis.convergenceZonal zonalConvergence
    rw [show zonalDiff (A.analysis c).nlon.toNat (fun q y : ℕ => (A.analysis c).zonalFluxSum (y + 1) (q + 1)) r x = 0 from ?_]
    · simp
    · show zonalDiff A.nlon.toNat _ r x = 0
      unfold zonalDiff
      split_ifs with c1 c2
      · beta_reduce; rw [all _ (by omega), all _ (by omega), sub_self]
      · beta_reduce; rw [all _ (by omega), all _ (by omega), sub_self]
      · beta_reduce; rw [all _ (by omega), all _ (by omega), sub_self]

/-- Wave number two on four columns. -/
def waveTwo : Atmos :=
  { sample with
    uField := fun i j _ => if i % 2 = 0 ∧ j = 3 then 1 else 0
    vField := fun i j _ => if i % 2 = 1 ∧ j = 6 then 1 else 0
    tField := fun i j l => if i % 2 = 0 ∧ j = 7 then 1 + l else l }

example : waveTwo.Repeats 2 ∧ ¬ waveTwo.Repeats 1 ∧ 2 ≤ waveTwo.nlon ∧ 1 ≤ waveTwo.nlat ∧ 0 ≤ waveTwo.jb ∧
    waveTwo.jb + 1 ≤ waveTwo.nd := by
  refine ⟨fun i _ _ j k => ?_, fun h => ?_, by decide, by decide, by decide, by decide⟩
  · have e : rot sample.nlon 2 i % 2 = i % 2 := by
      show ((i - 1 + 2) % 4 + 1) % 2 = i % 2
      omega
    simp only [waveTwo, e]
    exact ⟨trivial, trivial, trivial, rfl⟩
  · have := (h 1 (by decide) (by decide) 3 1).1
    rw [show rot waveTwo.nlon 1 1 = 2 by decide] at this
    norm_num [waveTwo] at this

/-- The zonally symmetric case. -/
example : { sample with uField := fun _ j _ => j, vField := fun _ _ _ => 0, tField := fun _ j l => j + l : Atmos }.Repeats 1 :=
  fun _ _ _ _ _ => ⟨rfl, rfl, rfl, rfl⟩

end Atmos

end Falwa
