import Verif.Model.RefState
import Verif.Lemmas.AreaAnalysis
import Mathlib.Algebra.BigOperators.Field

/-! Lemmas about `compute_reference_states`. -/

noncomputable section

namespace Falwa.RefIn

open Real Finset

variable (I : RefIn)

/-- Point `(j, k)` is treated in sweep `nnn`. -/
def Active (nnn j k : ℤ) : Prop := (2 ≤ k ∧ k ≤ I.kmax - 1) ∧ (j + k) % 2 = nnn % 2

instance (nnn j k : ℤ) : Decidable (I.Active nnn j k) := by unfold Active; infer_instance

/-- A row after a sweep, without the top level. -/
def midRow (nnn : ℤ) (omega : ℝ) (u : ℤ → ℤ → ℝ) (j k : ℤ) : ℝ :=
  if k = 1 then 0 else if I.Active nnn j k then I.relax omega u j k else u j k

/-- A row after a sweep. -/
def newRow (nnn : ℤ) (omega : ℝ) (u : ℤ → ℤ → ℝ) (j k : ℤ) : ℝ :=
  if k = I.kmax then I.midRow nnn omega u j (I.kmax - 2) - I.uz j else I.midRow nnn omega u j k

variable {I}

theorem resid_congr {u v : ℤ → ℤ → ℝ} {j k : ℤ} (h1 : u (j + 1) k = v (j + 1) k) (h2 : u (j - 1) k = v (j - 1) k)
    (h3 : u j (k + 1) = v j (k + 1)) (h4 : u j (k - 1) = v j (k - 1)) (h5 : u j k = v j k) :
    I.resid u j k = I.resid v j k := by
  unfold resid; rw [h1, h2, h3, h4, h5]

theorem relax_congr {omega : ℝ} {u v : ℤ → ℤ → ℝ} {j k : ℤ} (h : I.resid u j k = I.resid v j k) (h5 : u j k = v j k) :
    I.relax omega u j k = I.relax omega v j k := by
  unfold relax; rw [h, h5]

/-- One row: all residuals are those of the state before the sweep. -/
theorem row_spec (hk : 3 ≤ I.kmax) (nnn : ℤ) (omega : ℝ) (u : ℤ → ℤ → ℝ) (j : ℤ) (hj : 2 ≤ j) (t : Sor)
    (ht : ∀ j' k', t.u j' k' = if 2 ≤ j' ∧ j' ≤ j - 1 then I.newRow nnn omega u j' k' else u j' k') :
    (∀ j' k', (I.rowStep nnn omega j t).u j' k' = if 2 ≤ j' ∧ j' ≤ j then I.newRow nnn omega u j' k' else u j' k') ∧
    (I.rowStep nnn omega j t).anorm =
      t.anorm + ∑ k ∈ Icc 2 (I.kmax - 1), if I.Active nnn j k then |I.resid u j k| else 0 := by
  have inner := doLoop_induct (lo := 2) (f := I.pointStep nnn omega j) (s := t)
    (fun b s => (∀ j' k', s.u j' k' = if j' = j ∧ (2 ≤ k' ∧ k' ≤ b) ∧ I.Active nnn j k' then I.relax omega u j k'
        else t.u j' k') ∨ I.kmax - 1 < b)
    (Or.inl fun j' k' => by rw [if_neg (by omega)]) (by
      rintro k s hk2 (ih | ih)
      swap
      · right; omega
      by_cases hkb : I.kmax - 1 < k
      · right; exact hkb
      left
      intro j' k'
      have hs : ∀ j'' k'', (j'' = j → k < k'' ∨ ¬ (j + k'') % 2 = nnn % 2 ∨ k'' = k) → s.u j'' k'' = t.u j'' k'' := by
        intro j'' k'' h
        rw [ih, if_neg]
        rintro ⟨a, b, c⟩
        rcases h a with h | h | h
        · omega
        · exact h c.2
        · omega
      unfold pointStep
      by_cases hp : (j + k) % 2 = nnn % 2
      · rw [if_pos hp]
        have hu : ∀ j'' k'', (j'' = j - 1 ∧ k'' = k ∨ j ≤ j'') → (j'' = j → k < k'' ∨ ¬ (j + k'') % 2 = nnn % 2 ∨ k'' = k) →
            s.u j'' k'' = u j'' k'' := by
          intro j'' k'' hx h
          rw [hs j'' k'' h, ht]
          by_cases hin : 2 ≤ j'' ∧ j'' ≤ j - 1
          · rw [if_pos hin]
            have hj'' : j'' = j - 1 ∧ k'' = k := by
              rcases hx with hx | hx
              · exact hx
              · omega
            obtain ⟨rfl, rfl⟩ := hj''
            unfold newRow midRow
            have hna : ¬ I.Active nnn (j - 1) k'' := by
              rintro ⟨_, c⟩; omega
            rw [if_neg (by omega), if_neg (by omega), if_neg hna]
          · rw [if_neg hin]
        have hr : I.resid s.u j k = I.resid u j k := by
          refine resid_congr ?_ ?_ ?_ ?_ ?_
          · exact hu _ _ (Or.inr (by omega)) (fun h => by omega)
          · exact hu _ _ (Or.inl ⟨rfl, rfl⟩) (fun h => by omega)
          · exact hu _ _ (Or.inr le_rfl) (fun h => Or.inl (by omega))
          · exact hu _ _ (Or.inr le_rfl) (fun h => Or.inr (Or.inl (by omega)))
          · exact hu _ _ (Or.inr le_rfl) (fun h => Or.inr (Or.inr rfl))
        have hjk : s.u j k = u j k := hu _ _ (Or.inr le_rfl) (fun h => Or.inr (Or.inr rfl))
        show set2 s.u j k (I.relax omega s.u j k) j' k' = _
        unfold set2
        rw [relax_congr hr hjk]
        by_cases hx : j' = j ∧ k' = k
        · obtain ⟨rfl, rfl⟩ := hx
          rw [if_pos ⟨rfl, rfl⟩, if_pos ⟨rfl, ⟨by omega, le_rfl⟩, ⟨⟨by omega, by omega⟩, hp⟩⟩]
        · rw [if_neg hx, ih]
          by_cases hy : j' = j ∧ (2 ≤ k' ∧ k' ≤ k - 1) ∧ I.Active nnn j k'
          · rw [if_pos hy, if_pos ⟨hy.1, ⟨hy.2.1.1, by omega⟩, hy.2.2⟩]
          · rw [if_neg hy, if_neg]
            rintro ⟨a, b, c⟩
            exact hy ⟨a, ⟨b.1, by have : k' ≠ k := fun e => hx ⟨a, e⟩; omega⟩, c⟩
      · rw [if_neg hp, ih]
        by_cases hy : j' = j ∧ (2 ≤ k' ∧ k' ≤ k - 1) ∧ I.Active nnn j k'
        · rw [if_pos hy, if_pos ⟨hy.1, ⟨hy.2.1.1, by omega⟩, hy.2.2⟩]
        · rw [if_neg hy, if_neg]
          rintro ⟨a, b, c⟩
          exact hy ⟨a, ⟨b.1, by have : k' ≠ k := fun e => hp (e ▸ c.2); omega⟩, c⟩) (I.kmax - 1) (by omega)
  have inner' := inner.resolve_right (lt_irrefl _)
  -- the norm
  have hnorm : ∀ b, 1 ≤ b → b ≤ I.kmax - 1 → (doLoop 2 b (I.pointStep nnn omega j) t).anorm =
      t.anorm + ∑ k ∈ Icc 2 b, if I.Active nnn j k then |I.resid u j k| else 0 := by
    have key := doLoop_induct (lo := 2) (f := I.pointStep nnn omega j) (s := t)
      (fun b s => b ≤ I.kmax - 1 → (∀ j' k', s.u j' k' = if j' = j ∧ (2 ≤ k' ∧ k' ≤ b) ∧ I.Active nnn j k'
          then I.relax omega u j k' else t.u j' k') ∧
        s.anorm = t.anorm + ∑ k ∈ Icc 2 b, if I.Active nnn j k then |I.resid u j k| else 0)
      (fun _ => ⟨fun j' k' => by rw [if_neg (by omega)], by rw [Icc_eq_empty (by norm_num), sum_empty, add_zero]⟩) (by
        intro k s hk2 ih hkb
        obtain ⟨ih1, ih2⟩ := ih (by omega)
        have hs : ∀ j'' k'', (j'' = j → k < k'' ∨ ¬ (j + k'') % 2 = nnn % 2 ∨ k'' = k) → s.u j'' k'' = t.u j'' k'' := by
          intro j'' k'' h
          rw [ih1, if_neg]
          rintro ⟨a, b, c⟩
          rcases h a with h | h | h
          · omega
          · exact h c.2
          · omega
        have hI : Icc 2 k = insert k (Icc 2 (k - 1)) := by
          ext x; simp only [mem_Icc, mem_insert]; omega
        unfold pointStep
        by_cases hp : (j + k) % 2 = nnn % 2
        · rw [if_pos hp]
          have hu : ∀ j'' k'', (j'' = j - 1 ∧ k'' = k ∨ j ≤ j'') →
              (j'' = j → k < k'' ∨ ¬ (j + k'') % 2 = nnn % 2 ∨ k'' = k) → s.u j'' k'' = u j'' k'' := by
            intro j'' k'' hx h
            rw [hs j'' k'' h, ht]
            by_cases hin : 2 ≤ j'' ∧ j'' ≤ j - 1
            · rw [if_pos hin]
              have hj'' : j'' = j - 1 ∧ k'' = k := by
                rcases hx with hx | hx
                · exact hx
                · omega
              obtain ⟨rfl, rfl⟩ := hj''
              unfold newRow midRow
              have hna : ¬ I.Active nnn (j - 1) k'' := by
                rintro ⟨_, c⟩; omega
              rw [if_neg (by omega), if_neg (by omega), if_neg hna]
            · rw [if_neg hin]
          have hr : I.resid s.u j k = I.resid u j k := by
            refine resid_congr ?_ ?_ ?_ ?_ ?_
            · exact hu _ _ (Or.inr (by omega)) (fun h => by omega)
            · exact hu _ _ (Or.inl ⟨rfl, rfl⟩) (fun h => by omega)
            · exact hu _ _ (Or.inr le_rfl) (fun h => Or.inl (by omega))
            · exact hu _ _ (Or.inr le_rfl) (fun h => Or.inr (Or.inl (by omega)))
            · exact hu _ _ (Or.inr le_rfl) (fun h => Or.inr (Or.inr rfl))
          have hjk : s.u j k = u j k := hu _ _ (Or.inr le_rfl) (fun h => Or.inr (Or.inr rfl))
          have hact : I.Active nnn j k := ⟨⟨by omega, hkb⟩, hp⟩
          refine ⟨fun j' k' => ?_, ?_⟩
          · show set2 s.u j k (I.relax omega s.u j k) j' k' = _
            unfold set2
            rw [relax_congr hr hjk]
            by_cases hx : j' = j ∧ k' = k
            · obtain ⟨rfl, rfl⟩ := hx
              rw [if_pos ⟨rfl, rfl⟩, if_pos ⟨rfl, ⟨by omega, le_rfl⟩, hact⟩]
            · rw [if_neg hx, ih1]
              by_cases hy : j' = j ∧ (2 ≤ k' ∧ k' ≤ k - 1) ∧ I.Active nnn j k'
              · rw [if_pos hy, if_pos ⟨hy.1, ⟨hy.2.1.1, by omega⟩, hy.2.2⟩]
              · rw [if_neg hy, if_neg]
                rintro ⟨a, b, c⟩
                exact hy ⟨a, ⟨b.1, by have : k' ≠ k := fun e => hx ⟨a, e⟩; omega⟩, c⟩
          · show s.anorm + |I.resid s.u j k| = _
            rw [hI, sum_insert (by simp), if_pos hact, ih2, hr]
            ring
        · rw [if_neg hp]
          have hact : ¬ I.Active nnn j k := fun x => hp x.2
          refine ⟨fun j' k' => ?_, ?_⟩
          · rw [ih1]
            by_cases hy : j' = j ∧ (2 ≤ k' ∧ k' ≤ k - 1) ∧ I.Active nnn j k'
            · rw [if_pos hy, if_pos ⟨hy.1, ⟨hy.2.1.1, by omega⟩, hy.2.2⟩]
            · rw [if_neg hy, if_neg]
              rintro ⟨a, b, c⟩
              exact hy ⟨a, ⟨b.1, by have : k' ≠ k := fun e => hp (e ▸ c.2); omega⟩, c⟩
          · rw [hI, sum_insert (by simp), if_neg hact, zero_add, ih2])
    intro b hb1 hb2
    exact (key b (by omega) hb2).2
  refine ⟨fun j' k' => ?_, ?_⟩
  · unfold rowStep
    show set2 (set2 (doLoop 2 (I.kmax - 1) (I.pointStep nnn omega j) t).u j 1 0) j I.kmax _ j' k' = _
    have hmid : ∀ k', set2 (doLoop 2 (I.kmax - 1) (I.pointStep nnn omega j) t).u j 1 0 j k' = I.midRow nnn omega u j k' := by
      intro k'
      unfold set2 midRow
      by_cases h1 : k' = 1
      · rw [if_pos ⟨rfl, h1⟩, if_pos h1]
      · rw [if_neg (fun x => h1 x.2), if_neg h1, inner']
        by_cases ha : I.Active nnn j k'
        · rw [if_pos ha, if_pos ⟨rfl, ha.1, ha⟩]
        · rw [if_neg ha, if_neg (fun x => ha x.2.2), ht, if_neg (by omega)]
    by_cases hjj : j' = j
    · subst hjj
      rw [if_pos ⟨hj, le_rfl⟩]
      show (if j' = j' ∧ k' = I.kmax then set2 _ j' 1 0 j' (I.kmax - 2) - I.uz j' else set2 _ j' 1 0 j' k') = _
      unfold newRow
      by_cases hkk : k' = I.kmax
      · rw [if_pos ⟨rfl, hkk⟩, if_pos hkk, hmid]
      · rw [if_neg (fun x => hkk x.2), if_neg hkk, hmid]
    · show (if j' = j ∧ k' = I.kmax then _ else if j' = j ∧ k' = 1 then _ else _) = _
      rw [if_neg (fun x => hjj x.1), if_neg (fun x => hjj x.1), inner', if_neg (fun x => hjj x.1), ht]
      by_cases hin : 2 ≤ j' ∧ j' ≤ j - 1
      · rw [if_pos hin, if_pos ⟨hin.1, by omega⟩]
      · rw [if_neg hin, if_neg (by omega)]
  · exact hnorm (I.kmax - 1) (by omega) le_rfl

/-- A whole sweep in closed form. -/
theorem sweep_spec (hk : 3 ≤ I.kmax) (hj : 3 ≤ I.jd) (nnn : ℤ) (omega : ℝ) (u : ℤ → ℤ → ℝ) :
    (∀ j k, (I.sweep nnn omega u).u j k =
      if j = 1 then I.bound k else if j = I.jd then 0
      else if 2 ≤ j ∧ j ≤ I.jd - 1 then I.newRow nnn omega u j k else u j k) ∧
    (I.sweep nnn omega u).anorm =
      ∑ j ∈ Icc 2 (I.jd - 1), ∑ k ∈ Icc 2 (I.kmax - 1), if I.Active nnn j k then |I.resid u j k| else 0 := by
  have outer := doLoop_induct (lo := 2) (f := I.rowStep nnn omega) (s := { u := u, anorm := 0 })
    (fun b s => (∀ j' k', s.u j' k' = if 2 ≤ j' ∧ j' ≤ b then I.newRow nnn omega u j' k' else u j' k') ∧
      s.anorm = ∑ j ∈ Icc 2 b, ∑ k ∈ Icc 2 (I.kmax - 1), if I.Active nnn j k then |I.resid u j k| else 0)
    ⟨fun j' k' => by rw [if_neg (by omega)], by rw [Icc_eq_empty (by norm_num), sum_empty]⟩ (by
      rintro j t hj2 ⟨ih1, ih2⟩
      obtain ⟨a, b⟩ := row_spec hk nnn omega u j hj2 t ih1
      refine ⟨a, ?_⟩
      have hI : Icc 2 j = insert j (Icc 2 (j - 1)) := by
        ext x; simp only [mem_Icc, mem_insert]; omega
      rw [b, ih2, hI, sum_insert (by simp), add_comm]) (I.jd - 1) (by omega)
  refine ⟨fun j k => ?_, outer.2⟩
  show setRow (setRow (doLoop 2 (I.jd - 1) (I.rowStep nnn omega) { u := u, anorm := 0 }).u I.jd (fun _ => 0)) 1 I.bound j k = _
  unfold setRow
  rw [outer.1]

/-- `trefRaw` step by step. -/
theorem trefRaw_spec (hj : 3 ≤ I.jd) (k : ℤ) :
    I.trefRaw k 1 = 0 ∧ I.trefRaw k 2 = 0 ∧
    ∀ j, 2 ≤ j → j ≤ I.jd - 1 → I.trefRaw k (j + 1) = I.trefRaw k (j - 1) + 2 * I.ty j k * I.dphi := by
  have := doLoop_induct (lo := 2) (s := fun _ => (0 : ℝ))
    (f := fun j t => Function.update t (j + 1) (t (j - 1) + 2 * I.ty j k * I.dphi))
    (fun b t => t 1 = 0 ∧ t 2 = 0 ∧ ∀ j, 2 ≤ j → j ≤ b → t (j + 1) = t (j - 1) + 2 * I.ty j k * I.dphi)
    ⟨rfl, rfl, fun j h1 h2 => by omega⟩ (by
      rintro b t hb ⟨h1, h2, h3⟩
      refine ⟨?_, ?_, fun j j1 j2 => ?_⟩
      · rw [Function.update_of_ne (by omega), h1]
      · rw [Function.update_of_ne (by omega), h2]
      · by_cases hjb : j = b
        · subst hjb
          rw [Function.update_self, Function.update_of_ne (by omega)]
        · rw [Function.update_of_ne (by omega), Function.update_of_ne (by omega), h3 j j1 (by omega)]) (I.jd - 1) (by omega)
  exact this

end Falwa.RefIn
