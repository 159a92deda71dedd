import Verif.Props.GridBound
import Verif.Props.Defaults

/-!
# C219: error bound of `barotropic_eqlat_lwa` on a given grid
-/

noncomputable section

namespace Falwa

open Spec

variable {a L K B : ℝ} {N M j : ℕ} {np : Option ℕ} {q : ℝ → ℝ → ℝ} {P : ℝ → ℝ}

/-- **C219.** `barotropic_eqlat_lwa`, called with the areas and length elements of the regular grid, returns a profile and a wave activity within explicit amounts of the reference
state of the sphere and of the integral that defines local wave activity. -/
theorem C219_function (hq : Continuous fun p : ℝ × ℝ => q p.1 p.2) (hs : SlopeBound q L K) (hL : 0 ≤ L) (hK : 0 ≤ K) (hN : 2 ≤ N) (hM : 1 ≤ M)
    (ha : 0 < a) (hnp : 2 ≤ np.getD (N + 1)) (hB : 0 ≤ B)
    (hP : ∀ φ ∈ Set.Ioo (-(Real.pi / 2)) (Real.pi / 2), Encloses a q (-(Real.pi / 2)) (Real.pi / 2) (southCap a φ) (P φ))
    (hPB : ∀ φ ∈ Set.Ioo (-(Real.pi / 2)) (Real.pi / 2), ∀ φ' ∈ Set.Ioo (-(Real.pi / 2)) (Real.pi / 2), |P φ - P φ'| ≤ B * |φ - φ'|) :
    ∃ (Q : ℕ → ℝ) (A : ℕ → ℕ → ℝ),
      barotropicCall (N + 1) M (regularLat (N + 1)) (sampled q (N + 1) M) (cellArea a M (regularLat (N + 1)) (poleToPole (N + 1)))
        (lengthElement a (regularLat (N + 1)) (poleToPole (N + 1))) np a false = .ok (Q, .total A) ∧
      ∀ j, 0 < j → j < N → |Q j - P (-(Real.pi / 2) + j * (Real.pi / N))| ≤ B * (Real.pi / N) + gridError L K N M (np.getD (N + 1)) ∧
        ∀ c < M, |A j c - meridionalWaveActivity a (fun φ => q φ (c * (2 * Real.pi / M))) (P (-(Real.pi / 2) + j * (Real.pi / N))) (-(Real.pi / 2)) (Real.pi / 2)
            (-(Real.pi / 2) + j * (Real.pi / N))| ≤
          a * (Real.pi / N) * ((L + 2 * (L * Real.pi + K * (2 * Real.pi))) * Real.pi + 2 * (L * Real.pi + K * (2 * Real.pi))) +
            a * (B * (Real.pi / N) + gridError L K N M (np.getD (N + 1))) * Real.pi := by
  obtain ⟨Q, hQ, -⟩ := barotropic_grid ha (by omega : 3 ≤ N + 1) hM np hnp q
  have one : 0 < 1 := Nat.one_pos
  obtain ⟨A, hA, -⟩ := C205_lwa hq hs hL hK hN hM ha hnp one (by omega : 1 < N) (c := 0) (by omega) hB hP hPB
  obtain ⟨e1, e2⟩ := C108_object_agrees_with_function (N + 1) M (regularLat (N + 1)) (sampled q (N + 1) M) a false none none np
  have k1 := e1.symm.trans hQ
  have k2 := e2.symm.trans hA
  rw [Option.getD_none, Option.getD_none] at k1 k2
  refine ⟨Q, A, ?_, fun j h0 hj => ⟨C205_profile hq hs hL hK hN hM ha hnp hQ h0 hj hB hP hPB, fun c hc => ?_⟩⟩
  · revert k1 k2
    generalize barotropicCall (N + 1) M (regularLat (N + 1)) (sampled q (N + 1) M) (cellArea a M (regularLat (N + 1)) (poleToPole (N + 1)))
        (lengthElement a (regularLat (N + 1)) (poleToPole (N + 1))) np a false = o
    intro k1 k2
    injection k1 with k1
    injection k2 with k2
    cases o with
    | valueError => cases k1
    | nan => cases k1
    | ok f =>
      obtain ⟨f1, f2⟩ := f
      have g1 : f1 = Q := by injection k1
      have g2 : f2 = .total A := by injection k2
      rw [g1, g2]
  · obtain ⟨A', hA', b⟩ := C205_lwa hq hs hL hK hN hM ha hnp h0 hj hc hB hP hPB
    have : A' = A := by
      have := hA'.symm.trans hA
      simpa using this
    rwa [this] at b

/-- The hypotheses hold for a field that varies with longitude, on four intervals and eight columns. -/
example := C219_function (np := none) (N := 4) (M := 8) valley_continuous valley_slope le_rfl (by positivity) (by norm_num) (by norm_num) one_pos (by simp) zero_le_one
  (fun φ hφ => valley_reference one_pos hφ) (fun φ _ φ' _ => by rw [one_mul]; exact Real.abs_sin_sub_sin_le φ φ')

end Falwa

end
