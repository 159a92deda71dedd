import Verif.Props.Impulse

/-!
# C216: present wave activity limits the acceleration of the zonal-mean wind
-/

noncomputable section

namespace Falwa

open Real Set Filter Spec

variable {a om φ : ℝ} {nlat nlon : ℕ → ℕ} {np : ℕ → Option ℕ} {j : ℕ → ℕ} {M : Motion}

/-- **C216.** Let absolute vorticity be carried by its own wind without sources. Where rows of ever finer grids tend to a latitude, the zonal mean of `lwa` over the cosine of
latitude, from one analysis at the time `t0`, tends to a number by which the zonal mean of the zonal wind there can exceed its value at `t0` at most, at any time before or after. -/
theorem C216_acceleration (ha : 0 < a) (h : M.Obeys a) (hS : ∀ t φ l, M.S t φ l = 0) (hq : ∀ t, AbsoluteVorticity a om (M.U t) (M.V t) (M.q t))
    (hG : Finer nlat nlon np j φ) (t0 : ℝ) :
    ∃ (α : ℝ) (A : ℕ → ℕ → ℕ → ℝ), (∀ i, GivesLwa a (M.q t0) (nlat i) (nlon i) (np i) (A i)) ∧
      Tendsto (fun i => (∑ c ∈ Finset.range (nlon i), A i (j i) c) / nlon i / cos (regularLat (nlat i) (j i) * π / 180)) atTop (nhds α) ∧
      ∀ t, longitudeMean (M.U t φ) ≤ longitudeMean (M.U t0 φ) + α := by
  have same : ∀ {s : ℝ} {A B : ℕ → ℕ → ℕ → ℝ}, (∀ i, GivesLwa a (M.q s) (nlat i) (nlon i) (np i) (A i)) →
      (∀ i, GivesLwa a (M.q s) (nlat i) (nlon i) (np i) (B i)) → A = B := fun hA hB => by
    funext i
    have := (hA i).symm.trans (hB i)
    simpa using this
  have wind : Tendsto (fun i => (∑ c ∈ Finset.range (nlon i), sampled (M.U t0) (nlat i) (nlon i) (j i) c) / nlon i) atTop (nhds (longitudeMean (M.U t0 φ))) :=
    circle_tends hG.columns hG.moreColumns fun l hl c hc hcl => ((hq t0).wind.tendsto (φ, l)).comp (hG.toward.prodMk_nhds hcl)
  obtain ⟨L, hL, hg⟩ := gradient_bounded h t0
  obtain ⟨-, w, A, -, -, hA, ht, -⟩ := C192_package ha (hq t0) hG hL hg
  refine ⟨w - longitudeMean (M.U t0 φ), A, hA, ?_, fun t => ?_⟩
  · refine (ht.sub wind).congr fun i => ?_
    ring
  · obtain ⟨L', hL', hg'⟩ := gradient_bounded h t
    obtain ⟨-, w', B, -, -, hB, ht', hle⟩ := C192_package ha (hq t) hG hL' hg'
    obtain ⟨w'', A'', B'', hA'', hB'', hw1, hw2⟩ := C193_package ha h hS hq hG hG t0 t
    rw [same hA'' hA] at hw1
    rw [same hB'' hB] at hw2
    have e1 := tendsto_nhds_unique hw1 ht
    have e2 := tendsto_nhds_unique hw2 ht'
    linarith

example := C216_acceleration one_pos tilted_obeys (fun _ _ _ => rfl) tilted_vorticity northern_finer 0

end Falwa

end
