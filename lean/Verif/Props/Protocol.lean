import Verif.Model.Protocol
import Mathlib.Tactic.Common

/-!
# C36–C39, C72, C73: the call protocol of `QGField`
-/

set_option linter.unusedSimpArgs false

namespace Falwa

variable {D : Type*}

/-! ### Vocabulary -/

/-- The property `qgpv` can be read at all: not an even grid in northern-only mode. -/
def QGConfig.Readable (C : QGConfig) : Prop := ¬ (C.evenGrid = true ∧ C.nhOnly = true)

/-- The solver reports `maxit` or more sweeps in a hemisphere that is analysed. -/
def QGConfig.Failed (C : QGConfig) (n m : ℕ) : Prop :=
  C.kind = .nh18 ∧ (C.maxit ≤ n ∨ (C.nhOnly = false ∧ C.maxit ≤ m))

/-- Some call of `interpolate_fields` is in the history. -/
def HasInterp (ops : List (QGOp D)) : Prop := ∃ (i : ℕ) (d : D), ops[i]? = some (.interpolate d)

/-- A call of `compute_reference_states` with `P` for its solver outcome comes after a call of `interpolate_fields`. -/
def RefAfterInterp (ops : List (QGOp D)) (P : ℕ → ℕ → Prop) : Prop :=
  ∃ (i j : ℕ) (d : D) (n m : ℕ), i < j ∧ ops[i]? = some (.interpolate d) ∧ ops[j]? = some (.refStates n m) ∧ P n m

/-! ### Histories, one call at a time -/

theorem getElem?_snoc {α : Type*} (l : List α) (a b : α) (j : ℕ) :
    (l ++ [a])[j]? = some b ↔ l[j]? = some b ∨ (j = l.length ∧ a = b) := by
  rcases lt_trichotomy j l.length with h | h | h
  · rw [List.getElem?_append_left h]
    constructor
    · exact Or.inl
    · rintro (h' | ⟨h', _⟩)
      · exact h'
      · omega
  · subst h
    simp
  · have h1 : (l ++ [a])[j]? = none := by rw [List.getElem?_eq_none_iff, List.length_append, List.length_singleton]; omega
    have h2 : l[j]? = none := by rw [List.getElem?_eq_none_iff]; omega
    rw [h1, h2]
    constructor
    · intro h'; cases h'
    · rintro (h' | ⟨h', _⟩)
      · cases h'
      · omega

theorem lt_length_of_getElem? {α : Type*} {l : List α} {j : ℕ} {b : α} (h : l[j]? = some b) : j < l.length := by
  by_contra hc
  rw [List.getElem?_eq_none_iff.mpr (by omega)] at h
  cases h

theorem hasInterp_snoc (ops : List (QGOp D)) (op : QGOp D) :
    HasInterp (ops ++ [op]) ↔ HasInterp ops ∨ ∃ d, op = .interpolate d := by
  unfold HasInterp
  constructor
  · rintro ⟨i, d, h⟩
    rcases (getElem?_snoc _ _ _ _).mp h with h | ⟨_, h⟩
    · exact Or.inl ⟨i, d, h⟩
    · exact Or.inr ⟨d, h⟩
  · rintro (⟨i, d, h⟩ | ⟨d, h⟩)
    · exact ⟨i, d, (getElem?_snoc _ _ _ _).mpr (Or.inl h)⟩
    · exact ⟨ops.length, d, (getElem?_snoc _ _ _ _).mpr (Or.inr ⟨rfl, h⟩)⟩

theorem refAfterInterp_snoc (ops : List (QGOp D)) (op : QGOp D) (P : ℕ → ℕ → Prop) :
    RefAfterInterp (ops ++ [op]) P ↔
      RefAfterInterp ops P ∨ (HasInterp ops ∧ ∃ n m, op = .refStates n m ∧ P n m) := by
  constructor
  · rintro ⟨i, j, d, n, m, hij, hi, hj, hP⟩
    rcases (getElem?_snoc _ _ _ _).mp hj with hj | ⟨hj, hop⟩
    · have hl := lt_length_of_getElem? hj
      rcases (getElem?_snoc _ _ _ _).mp hi with hi | ⟨hi, _⟩
      · exact Or.inl ⟨i, j, d, n, m, hij, hi, hj, hP⟩
      · omega
    · rcases (getElem?_snoc _ _ _ _).mp hi with hi | ⟨hi, _⟩
      · exact Or.inr ⟨⟨i, d, hi⟩, n, m, hop, hP⟩
      · omega
  · rintro (⟨i, j, d, n, m, hij, hi, hj, hP⟩ | ⟨⟨i, d, hi⟩, n, m, hop, hP⟩)
    · exact ⟨i, j, d, n, m, hij, (getElem?_snoc _ _ _ _).mpr (Or.inl hi), (getElem?_snoc _ _ _ _).mpr (Or.inl hj), hP⟩
    · exact ⟨i, ops.length, d, n, m, lt_length_of_getElem? hi, (getElem?_snoc _ _ _ _).mpr (Or.inl hi),
        (getElem?_snoc _ _ _ _).mpr (Or.inr ⟨rfl, hop⟩), hP⟩

theorem qgRun_snoc (C : QGConfig) (s : QGState D) (ops : List (QGOp D)) (op : QGOp D) :
    qgRun C s (ops ++ [op]) = (qgStep C (qgRun C s ops) op).state := by
  unfold qgRun
  rw [List.foldl_append]; rfl

/-! ### Effect of `compute_reference_states` -/

theorem qgpvRead_ok (C : QGConfig) (s : QGState D) :
    qgpvRead C s = .ok () ↔ (∃ d, s.fields = some d) ∧ C.Readable := by
  unfold qgpvRead QGConfig.Readable
  cases s.fields <;> cases C.evenGrid <;> cases C.nhOnly <;> simp

theorem qgpvRead_error (C : QGConfig) (s : QGState D) (h : qgpvRead C s ≠ .ok ()) :
    qgpvRead C s = .error .valueError := by
  unfold qgpvRead at *
  revert h
  cases s.fields <;> cases C.evenGrid <;> cases C.nhOnly <;> simp

/-- A call that cannot read `qgpv` raises `ValueError` and changes nothing. -/
theorem doRefStates_refused (C : QGConfig) (s : QGState D) (n m : ℕ) (h : qgpvRead C s ≠ .ok ()) :
    doRefStates C s n m = ⟨s, .error .valueError, false⟩ := by
  unfold doRefStates
  rw [qgpvRead_error C s h]

/-- A call whose solver fails leaves the flag set and signals. -/
theorem doRefStates_failed (C : QGConfig) (s : QGState D) (n m : ℕ) (d : D) (hd : s.fields = some d)
    (hr : C.Readable) (hf : C.Failed n m) :
    (doRefStates C s n m).state.nonconv = true ∧ (doRefStates C s n m).state.refDone = s.refDone ∧
    (doRefStates C s n m).state.fields = s.fields ∧
    ((doRefStates C s n m).result = .error .valueError ∨ (doRefStates C s n m).warned = true) := by
  have hq := (qgpvRead_ok C s).mpr ⟨⟨d, hd⟩, hr⟩
  obtain ⟨hk, hf⟩ := hf
  unfold doRefStates
  rw [hq]
  simp only [hd]
  unfold refInner
  rw [hk]
  by_cases h1 : C.maxit ≤ n
  · by_cases h3 : C.raiseErr = true
    · simp [notify, h1, h3, hd]
    · by_cases h4 : C.nhOnly = true
      · simp [notify, h1, h3, h4, refSouthNH18, hd]
      · by_cases h2 : C.maxit ≤ m <;> simp [notify, h1, h2, h3, h4, refSouthNH18, hd]
  · have h2 := hf.resolve_left h1
    by_cases h3 : C.raiseErr = true <;> simp [notify, h1, h2.1, h2.2, h3, refSouthNH18, hd]

/-- A call whose solver converges returns, stores the new reference states, keeps the non-convergence flag as it was and
sets the completion flag if that flag is not set. -/
theorem doRefStates_good (C : QGConfig) (s : QGState D) (n m : ℕ) (d : D) (hd : s.fields = some d)
    (hr : C.Readable) (hf : ¬ C.Failed n m) :
    (doRefStates C s n m).result = .ok () ∧ (doRefStates C s n m).warned = false ∧
    (doRefStates C s n m).state.nonconv = s.nonconv ∧
    (doRefStates C s n m).state.refDone = (if s.nonconv then s.refDone else true) ∧
    (doRefStates C s n m).state.fields = s.fields ∧
    (doRefStates C s n m).state.refN = some (d, if C.kind = .nh18 then n else 0) ∧
    (doRefStates C s n m).state.refS =
      (if C.nhOnly then s.refS else some (d, if C.kind = .nh18 then m else 0)) := by
  have hq := (qgpvRead_ok C s).mpr ⟨⟨d, hd⟩, hr⟩
  unfold doRefStates
  rw [hq]
  simp only [hd]
  unfold refInner
  cases hk : C.kind with
  | nhn22 => cases hnc : s.nonconv <;> cases hn : C.nhOnly <;> simp [hnc, hd, hk]
  | nh18 =>
    have h1 : ¬ C.maxit ≤ n := fun h => hf ⟨hk, Or.inl h⟩
    cases hn : C.nhOnly with
    | true => cases hnc : s.nonconv <;> simp [h1, refSouthNH18, hn, hnc, hd, hk]
    | false =>
      have h2 : ¬ C.maxit ≤ m := fun h => hf ⟨hk, Or.inr ⟨hn, h⟩⟩
      cases hnc : s.nonconv <;> simp [h1, h2, refSouthNH18, hn, hnc, hd, hk]

/-- Calls other than `interpolate_fields` and `compute_reference_states` keep fields, reference states and both flags. -/
theorem qgStep_frame (C : QGConfig) (s : QGState D) (op : QGOp D)
    (h1 : ∀ d, op ≠ .interpolate d) (h2 : ∀ n m, op ≠ .refStates n m) :
    (qgStep C s op).state.fields = s.fields ∧ (qgStep C s op).state.nonconv = s.nonconv ∧
    (qgStep C s op).state.refDone = s.refDone ∧ (qgStep C s op).state.refN = s.refN ∧
    (qgStep C s op).state.refS = s.refS := by
  cases op with
  | interpolate d => exact absurd rfl (h1 d)
  | refStates n m => exact absurd rfl (h2 n m)
  | fluxes nc =>
    simp only [qgStep, doFluxes]
    split
    · simp
    · split_ifs <;> simp
  | lwaOnly => simp only [qgStep, doLwaOnly]; split <;> simp
  | layerwise nc =>
    simp only [qgStep, doLayerwise]
    split
    · simp
    · split
      · simp
      · split_ifs <;> simp
      · simp
  | read r => simp [qgStep]

/-! ### The invariant over histories -/

/-- What the state says about the history. -/
structure Invariant (C : QGConfig) (ops : List (QGOp D)) (s : QGState D) : Prop where
  fields : (∃ d, s.fields = some d) ↔ HasInterp ops
  nonconv : s.nonconv = true ↔ C.Readable ∧ RefAfterInterp ops C.Failed
  refDone : s.refDone = true → C.Readable ∧ RefAfterInterp ops (fun n m => ¬ C.Failed n m)
  done_of : s.nonconv = false → C.Readable → RefAfterInterp ops (fun n m => ¬ C.Failed n m) → s.refDone = true
  convN : s.nonconv = false → C.kind = .nh18 → ∀ p, s.refN = some p → p.2 < C.maxit
  convS : s.nonconv = false → C.kind = .nh18 → ∀ p, s.refS = some p → p.2 < C.maxit
  present : s.refDone = true → s.refN.isSome ∧ (C.nhOnly = false → s.refS.isSome)
  noS : C.nhOnly = true → s.refS = none

theorem Invariant.fresh (C : QGConfig) : Invariant C [] (QGState.fresh : QGState D) where
  fields := by simp [QGState.fresh, HasInterp]
  nonconv := by simp [QGState.fresh, RefAfterInterp]
  refDone := by simp [QGState.fresh]
  done_of := by simp [RefAfterInterp]
  convN := by simp [QGState.fresh]
  convS := by simp [QGState.fresh]
  present := by simp [QGState.fresh]
  noS := by simp [QGState.fresh]

theorem doRefStates_fail_frame (C : QGConfig) (s : QGState D) (n m : ℕ) (d : D) (hd : s.fields = some d)
    (hr : C.Readable) (hf : C.Failed n m) :
    (doRefStates C s n m).state.refN.isSome ∧ (s.refS.isSome → (doRefStates C s n m).state.refS.isSome) ∧
    (C.nhOnly = true → (doRefStates C s n m).state.refS = s.refS) := by
  have hq := (qgpvRead_ok C s).mpr ⟨⟨d, hd⟩, hr⟩
  obtain ⟨hk, hf⟩ := hf
  unfold doRefStates
  rw [hq]
  simp only [hd]
  unfold refInner
  rw [hk]
  by_cases h1 : C.maxit ≤ n
  · by_cases h3 : C.raiseErr = true
    · simp [notify, h1, h3]
    · by_cases h4 : C.nhOnly = true
      · simp [notify, h1, h3, h4, refSouthNH18]
      · by_cases h2 : C.maxit ≤ m <;> simp [notify, h1, h2, h3, h4, refSouthNH18]
  · have h2 := hf.resolve_left h1
    by_cases h3 : C.raiseErr = true <;> simp [notify, h1, h2.1, h2.2, h3, refSouthNH18]

theorem Invariant.step (C : QGConfig) (ops : List (QGOp D)) (s : QGState D) (h : Invariant C ops s) (op : QGOp D) :
    Invariant C (ops ++ [op]) (qgStep C s op).state := by
  by_cases h1 : ∃ d, op = .interpolate d
  · obtain ⟨d, rfl⟩ := h1
    have hs : (qgStep C s (.interpolate d)).state = { s with fields := some d } := rfl
    have hno : ∀ P, RefAfterInterp (ops ++ [.interpolate d]) P ↔ RefAfterInterp ops P := fun P => by
      rw [refAfterInterp_snoc]; simp
    rw [hs]
    exact
      { fields := ⟨fun _ => (hasInterp_snoc _ _).mpr (Or.inr ⟨d, rfl⟩), fun _ => ⟨d, rfl⟩⟩
        nonconv := by rw [hno]; exact h.nonconv
        refDone := by rw [hno]; exact h.refDone
        done_of := by rw [hno]; exact h.done_of
        convN := h.convN
        convS := h.convS
        present := h.present
        noS := h.noS }
  by_cases h2 : ∃ n m, op = .refStates n m
  · obtain ⟨n, m, rfl⟩ := h2
    have hs : (qgStep C s (.refStates n m)).state = (doRefStates C s n m).state := rfl
    have hi : HasInterp (ops ++ [.refStates n m]) ↔ HasInterp ops := by rw [hasInterp_snoc]; simp
    have hsn : ∀ P : ℕ → ℕ → Prop, RefAfterInterp (ops ++ [.refStates n m]) P ↔
        RefAfterInterp ops P ∨ (HasInterp ops ∧ P n m) := by
      intro P
      rw [refAfterInterp_snoc]
      constructor
      · rintro (h | ⟨h, n', m', he, hP⟩)
        · exact Or.inl h
        · cases he; exact Or.inr ⟨h, hP⟩
      · rintro (h | ⟨h, hP⟩)
        · exact Or.inl h
        · exact Or.inr ⟨h, n, m, rfl, hP⟩
    rw [hs]
    by_cases hq : qgpvRead C s = .ok ()
    · obtain ⟨⟨d, hd⟩, hr⟩ := (qgpvRead_ok C s).mp hq
      have hint : HasInterp ops := h.fields.mp ⟨d, hd⟩
      by_cases hf : C.Failed n m
      · obtain ⟨a, b, c, _⟩ := doRefStates_failed C s n m d hd hr hf
        obtain ⟨e1, e2, e3⟩ := doRefStates_fail_frame C s n m d hd hr hf
        refine ⟨?_, ?_, ?_, ?_, ?_, ?_, ?_, ?_⟩
        · rw [c, hi]; exact h.fields
        · rw [a, hsn]; simp [hr, hint, hf]
        · rw [b, hsn]
          intro hd'
          exact ⟨hr, Or.inl (h.refDone hd').2⟩
        · rw [a]; intro hc; cases hc
        · rw [a]; intro hc; cases hc
        · rw [a]; intro hc; cases hc
        · rw [b]; intro hd'
          exact ⟨e1, fun hn => e2 ((h.present hd').2 hn)⟩
        · intro hn; rw [e3 hn]; exact h.noS hn
      · obtain ⟨_, _, a, b, c, e1, e2⟩ := doRefStates_good C s n m d hd hr hf
        refine ⟨?_, ?_, ?_, ?_, ?_, ?_, ?_, ?_⟩
        · rw [c, hi]; exact h.fields
        · rw [a, hsn, h.nonconv]; simp [hf]
        · intro _; exact ⟨hr, (hsn _).mpr (Or.inr ⟨hint, hf⟩)⟩
        · rw [a, b]; intro hc _ _; rw [hc]; rfl
        · rw [a, e1]
          intro hc hk p hp
          rw [if_pos hk] at hp
          cases hp
          exact not_le.mp fun hle => hf ⟨hk, Or.inl hle⟩
        · rw [a, e2]
          intro hc hk p hp
          cases hn : C.nhOnly with
          | true => rw [hn, if_pos rfl] at hp; exact h.convS hc hk p hp
          | false =>
            rw [hn, if_neg (by simp), if_pos hk] at hp
            cases hp
            exact not_le.mp fun hle => hf ⟨hk, Or.inr ⟨hn, hle⟩⟩
        · intro _
          rw [e1, e2]
          exact ⟨rfl, fun hn => by rw [hn]; rfl⟩
        · intro hn; rw [e2, hn, if_pos rfl]; exact h.noS hn
    · rw [doRefStates_refused C s n m hq]
      have hno : C.Readable → ¬ HasInterp ops := fun hr hi => hq ((qgpvRead_ok C s).mpr ⟨h.fields.mpr hi, hr⟩)
      have hRA : C.Readable → ∀ P, RefAfterInterp (ops ++ [.refStates n m]) P ↔ RefAfterInterp ops P := by
        intro hr P
        rw [hsn]
        exact ⟨fun h => h.elim id fun h => absurd h.1 (hno hr), Or.inl⟩
      refine ⟨?_, ?_, ?_, ?_, h.convN, h.convS, h.present, h.noS⟩
      · rw [hi]; exact h.fields
      · rw [h.nonconv]
        exact ⟨fun ⟨a, b⟩ => ⟨a, (hRA a _).mpr b⟩, fun ⟨a, b⟩ => ⟨a, (hRA a _).mp b⟩⟩
      · intro hd; exact ⟨(h.refDone hd).1, (hRA (h.refDone hd).1 _).mpr (h.refDone hd).2⟩
      · intro a b c; exact h.done_of a b ((hRA b _).mp c)
  · have h1' : ∀ d, op ≠ .interpolate d := fun d hd => h1 ⟨d, hd⟩
    have h2' : ∀ n m, op ≠ .refStates n m := fun n m hd => h2 ⟨n, m, hd⟩
    obtain ⟨a, b, c, e, f⟩ := qgStep_frame C s op h1' h2'
    have hi : HasInterp (ops ++ [op]) ↔ HasInterp ops := by
      rw [hasInterp_snoc]
      exact ⟨fun h => h.elim id fun h => absurd h h1, Or.inl⟩
    have hRA : ∀ P, RefAfterInterp (ops ++ [op]) P ↔ RefAfterInterp ops P := by
      intro P
      rw [refAfterInterp_snoc]
      exact ⟨fun h => h.elim id fun ⟨_, n, m, hop, _⟩ => absurd ⟨n, m, hop⟩ h2, Or.inl⟩
    refine ⟨?_, ?_, ?_, ?_, ?_, ?_, ?_, ?_⟩
    · rw [a, hi]; exact h.fields
    · rw [b, hRA]; exact h.nonconv
    · rw [c, hRA]; exact h.refDone
    · rw [b, c, hRA]; exact h.done_of
    · rw [b, e]; exact h.convN
    · rw [b, f]; exact h.convS
    · rw [c, e, f]; exact h.present
    · rw [f]; exact h.noS

theorem Invariant.run (C : QGConfig) (ops : List (QGOp D)) : Invariant C ops (qgRun C QGState.fresh ops) := by
  induction ops using List.reverseRecOn with
  | nil => exact Invariant.fresh C
  | append_singleton ops op ih => rw [qgRun_snoc]; exact ih.step C ops _ op

/-! ## C36 -/

/-- C36, decision: after any history, the flux computation completes exactly if the grid is readable, some
`compute_reference_states` came after an `interpolate_fields`, none of these calls failed to converge, and the shape of
`ncforce` is right. -/
theorem C36_completes_exactly (C : QGConfig) (ops : List (QGOp D)) (nc : NcArg) :
    (qgStep C (qgRun C QGState.fresh ops) (.fluxes nc)).result = .ok () ↔
      C.Readable ∧ RefAfterInterp ops (fun n m => ¬ C.Failed n m) ∧ ¬ RefAfterInterp ops C.Failed ∧
        nc ≠ .wrongShape := by
  have I := Invariant.run C ops
  set s := qgRun C QGState.fresh ops
  have hfi : ∀ P, RefAfterInterp ops P → HasInterp ops := fun P ⟨i, j, d, n, m, _, hi, _⟩ => ⟨i, d, hi⟩
  simp only [qgStep, doFluxes]
  constructor
  · intro h
    by_cases hq : qgpvRead C s = .ok ()
    · have hr := ((qgpvRead_ok C s).mp hq).2
      rw [hq] at h
      simp only at h
      split_ifs at h with a b c
      rw [Bool.not_eq_true] at a
      simp only [Bool.not_eq_true', Bool.not_eq_false] at b
      refine ⟨hr, (I.refDone b).2, fun hF => ?_, c⟩
      rw [I.nonconv.mpr ⟨hr, hF⟩] at a
      cases a
    · rw [qgpvRead_error C s hq] at h
      cases h
  · rintro ⟨hr, hg, hb, hn⟩
    have hq := (qgpvRead_ok C s).mpr ⟨I.fields.mpr (hfi _ hg), hr⟩
    have hnc : s.nonconv = false := by
      rw [← Bool.not_eq_true]
      exact fun h => hb (I.nonconv.mp h).2
    rw [hq]
    simp [hnc, I.done_of hnc hr hg, hn]

/-- C36, refusal: in all other cases nothing changes and the exception is `ValueError`, or `AssertionError` if only the
shape of `ncforce` is wrong. -/
theorem C36_refused (C : QGConfig) (s : QGState D) (nc : NcArg)
    (h : (qgStep C s (.fluxes nc)).result ≠ .ok ()) :
    (qgStep C s (.fluxes nc)).state = s ∧
    ((qgStep C s (.fluxes nc)).result = .error .valueError ∨
      (nc = .wrongShape ∧ (qgStep C s (.fluxes nc)).result = .error .assertionError)) := by
  simp only [qgStep, doFluxes] at h ⊢
  by_cases hq : qgpvRead C s = .ok ()
  · rw [hq] at h ⊢
    simp only at h ⊢
    split_ifs at h ⊢ with a b c <;> simp_all
  · rw [qgpvRead_error C s hq]
    simp

/-- C36, provenance: a completed flux computation uses reference states whose solver converged in fewer than `maxit`
sweeps, in both hemispheres of a global analysis. -/
theorem C36_uses_converged_states (C : QGConfig) (ops : List (QGOp D)) (nc : NcArg)
    (h : (qgStep C (qgRun C QGState.fresh ops) (.fluxes nc)).result = .ok ()) :
    ∃ p, (qgStep C (qgRun C QGState.fresh ops) (.fluxes nc)).state.flux = some p ∧
      (∃ r, p.refN = some r ∧ (C.kind = .nh18 → r.2 < C.maxit)) ∧
      (C.nhOnly = false → ∃ r, p.refS = some r ∧ (C.kind = .nh18 → r.2 < C.maxit)) := by
  have I := Invariant.run C ops
  obtain ⟨hr, hg, hb, hn⟩ := (C36_completes_exactly C ops nc).mp h
  set s := qgRun C QGState.fresh ops
  have hfi : HasInterp ops := by obtain ⟨i, j, d, n, m, _, hi, _⟩ := hg; exact ⟨i, d, hi⟩
  obtain ⟨d, hd⟩ := I.fields.mpr hfi
  have hq := (qgpvRead_ok C s).mpr ⟨⟨d, hd⟩, hr⟩
  have hnc : s.nonconv = false := by
    rw [← Bool.not_eq_true]
    exact fun h => hb (I.nonconv.mp h).2
  have hdone := I.done_of hnc hr hg
  refine ⟨⟨d, s.refN, s.refS⟩, ?_, ?_, ?_⟩
  · simp only [qgStep, doFluxes, hq]
    simp [hnc, hdone, hn, currentProv, hd]
  · obtain ⟨r, hr'⟩ := Option.isSome_iff_exists.mp (I.present hdone).1
    exact ⟨r, hr', fun hk => I.convN hnc hk r hr'⟩
  · intro hno
    obtain ⟨r, hr'⟩ := Option.isSome_iff_exists.mp ((I.present hdone).2 hno)
    exact ⟨r, hr', fun hk => I.convS hnc hk r hr'⟩

/-- A history that meets the conditions, and one call that fails. -/
example : RefAfterInterp [QGOp.interpolate (0 : ℕ), .refStates 5 7] (fun n m =>
      ¬ (QGConfig.mk .nh18 100 true false false).Failed n m) ∧
    (QGConfig.mk .nh18 100 true false false).Failed 5 100 ∧ (QGConfig.mk .nh18 100 true false false).Readable :=
  ⟨⟨0, 1, 0, 5, 7, by norm_num, rfl, rfl, by simp [QGConfig.Failed]⟩, by simp [QGConfig.Failed],
    by simp [QGConfig.Readable]⟩

/-! ## C37 -/

/-- C37, full statement, for a call that reaches the solver: a failure is signalled and flagged, and the flag is off
after a call whose solver met its criterion within `maxit` sweeps in the analysed hemispheres. -/
def C37_Statement : Prop :=
  ∀ (C : QGConfig) (ops : List (QGOp ℕ)) (n m : ℕ), C.Readable → C.kind = .nh18 → HasInterp ops →
    let o := qgStep C (qgRun C QGState.fresh ops) (.refStates n m)
    ((C.maxit < n ∨ (C.nhOnly = false ∧ C.maxit < m)) →
      (o.result = .error .valueError ∨ o.warned = true) ∧ o.state.nonconv = true) ∧
    ((n ≤ C.maxit ∧ (C.nhOnly = false → m ≤ C.maxit)) → o.state.nonconv = false)

/-- C37, partial: every failure (and every convergence in exactly `maxit` sweeps) is signalled and flagged; the flag is off
if this call and all earlier ones took fewer than `maxit` sweeps.
Missing: the flag is not cleared by a later success, and convergence in the last allowed sweep counts as failure
(`C37_refuted`). -/
theorem C37_signalled_partial (C : QGConfig) (ops : List (QGOp D)) (n m : ℕ) (hr : C.Readable)
    (hi : HasInterp ops) :
    let o := qgStep C (qgRun C QGState.fresh ops) (.refStates n m)
    (C.Failed n m → (o.result = .error .valueError ∨ o.warned = true) ∧ o.state.nonconv = true) ∧
    (¬ C.Failed n m → o.result = .ok () ∧ o.warned = false ∧
      (o.state.nonconv = true ↔ RefAfterInterp ops C.Failed)) := by
  have I := Invariant.run C ops
  obtain ⟨d, hd⟩ := I.fields.mpr hi
  constructor
  · intro hf
    obtain ⟨a, _, _, b⟩ := doRefStates_failed C _ n m d hd hr hf
    exact ⟨b, a⟩
  · intro hf
    obtain ⟨a, b, c, _⟩ := doRefStates_good C _ n m d hd hr hf
    refine ⟨a, b, ?_⟩
    show (doRefStates C _ n m).state.nonconv = true ↔ _
    rw [c, I.nonconv]
    exact ⟨fun h => h.2, fun h => ⟨hr, h⟩⟩

example : HasInterp [QGOp.interpolate (0 : ℕ)] := ⟨0, 0, rfl⟩

/-- C37 fails: a solver that meets its criterion in exactly `maxit` = 10 sweeps is reported as not converged. -/
theorem C37_refuted : ¬ C37_Statement := by
  intro h
  have := (h ⟨.nh18, 10, false, true, false⟩ [.interpolate 0] 10 0 (by simp [QGConfig.Readable]) rfl ⟨0, 0, rfl⟩).2
    ⟨le_rfl, by simp⟩
  revert this
  decide

/-! ## C38 -/

/-- C38, full statement. -/
def C38_Statement : Prop :=
  ∀ (C : QGConfig) (ops : List (QGOp ℕ)) (d n m : ℕ), C.Readable → ¬ C.Failed n m →
    (qgStep C (qgRun C QGState.fresh (ops ++ [.interpolate d, .refStates n m])) (.fluxes .absent)).result = .ok ()

/-- C38, what happens instead: after one failure the flux computation raises `ValueError` for ever. -/
theorem C38_failure_is_permanent (C : QGConfig) (ops : List (QGOp D)) (more : List (QGOp D)) (nc : NcArg)
    (h : (qgRun C QGState.fresh ops).nonconv = true) :
    (qgRun C QGState.fresh (ops ++ more)).nonconv = true ∧
    (qgStep C (qgRun C QGState.fresh (ops ++ more)) (.fluxes nc)).result = .error .valueError := by
  have hF := (Invariant.run C ops).nonconv.mp h
  have hF' : RefAfterInterp (ops ++ more) C.Failed := by
    induction more using List.reverseRecOn with
    | nil => rw [List.append_nil]; exact hF.2
    | append_singleton l o ih => rw [← List.append_assoc, refAfterInterp_snoc]; exact Or.inl ih
  refine ⟨(Invariant.run C _).nonconv.mpr ⟨hF.1, hF'⟩, ?_⟩
  have hne : (qgStep C (qgRun C QGState.fresh (ops ++ more)) (.fluxes nc)).result ≠ .ok () :=
    fun hok => ((C36_completes_exactly C _ nc).mp hok).2.2.1 hF'
  have hnc := (Invariant.run C (ops ++ more)).nonconv.mpr ⟨hF.1, hF'⟩
  simp only [qgStep, doFluxes] at hne ⊢
  by_cases hq : qgpvRead C (qgRun C QGState.fresh (ops ++ more)) = .ok ()
  · rw [hq]; simp [hnc]
  · rw [qgpvRead_error C _ hq]

/-- A history with a failure. -/
example : (qgRun ⟨.nh18, 10, false, true, false⟩ QGState.fresh [.interpolate (0 : ℕ), .refStates 11 0]).nonconv = true := by
  decide

/-- C38, partial: a converging recomputation makes the fluxes available if no earlier call failed.
Missing: histories with a failure, which is the point of the property; there it is false for every continuation
(`C38_failure_is_permanent`, `C38_refuted`). -/
theorem C38_no_failure_partial (C : QGConfig) (ops : List (QGOp D)) (d : D) (n m : ℕ) (hr : C.Readable)
    (hf : ¬ C.Failed n m) (hno : ¬ RefAfterInterp ops C.Failed) :
    (qgStep C (qgRun C QGState.fresh (ops ++ [.interpolate d, .refStates n m])) (.fluxes .absent)).result = .ok () := by
  have e : ops ++ [.interpolate d, .refStates n m] = (ops ++ [.interpolate d]) ++ [.refStates n m] := by simp
  rw [C36_completes_exactly, e]
  have h1 : HasInterp (ops ++ [.interpolate d]) := (hasInterp_snoc _ _).mpr (Or.inr ⟨d, rfl⟩)
  refine ⟨hr, ?_, ?_, by simp⟩
  · rw [refAfterInterp_snoc]; exact Or.inr ⟨h1, n, m, rfl, hf⟩
  · rw [refAfterInterp_snoc, refAfterInterp_snoc]
    rintro ((h | ⟨_, n', m', h, _⟩) | ⟨_, n', m', h, hf'⟩)
    · exact hno h
    · cases h
    · cases h; exact hf hf'

theorem C38_refuted : ¬ C38_Statement := by
  intro h
  have := h ⟨.nh18, 10, false, true, false⟩ [.interpolate 0, .refStates 11 0] 1 5 0 (by simp [QGConfig.Readable])
    (by simp [QGConfig.Failed])
  revert this
  rw [show ([.interpolate 0, .refStates 11 0] ++ [.interpolate 1, .refStates 5 0] : List (QGOp ℕ)) =
    [.interpolate 0, .refStates 11 0] ++ [.interpolate 1, .refStates 5 0] from rfl,
    (C38_failure_is_permanent _ _ _ _ (by decide)).2]
  simp

/-! ## C39 -/

/-- Call number `j` of the history is a `compute_layerwise_lwa_fluxes` that returned normally. -/
def LayerwiseCompleted (C : QGConfig) (ops : List (QGOp D)) (j : ℕ) : Prop :=
  ∃ nc, ops[j]? = some (.layerwise nc) ∧
    (qgStep C (qgRun C QGState.fresh (ops.take j)) (.layerwise nc)).result = .ok ()

theorem layerDone_step (C : QGConfig) (s : QGState D) (op : QGOp D) :
    (qgStep C s op).state.layerDone = true ↔
      s.layerDone = true ∨ ((∃ nc, op = .layerwise nc) ∧ (qgStep C s op).result = .ok ()) := by
  cases op with
  | interpolate d => simp [qgStep, doInterpolate]
  | refStates n m =>
    have key : (doRefStates C s n m).state.layerDone = s.layerDone := by
      unfold doRefStates
      split
      · rfl
      · rfl
      · simp only [refInner]
        cases C.kind with
        | nhn22 => simp only; split_ifs <;> rfl
        | nh18 =>
          simp only [refSouthNH18, notify]
          by_cases h1 : C.maxit ≤ n <;> by_cases h2 : C.maxit ≤ m <;> cases C.raiseErr <;> cases C.nhOnly <;>
            cases hnc : s.nonconv <;> simp [h1, h2, hnc]
    simp [qgStep, key]
  | fluxes nc =>
    simp only [qgStep, doFluxes]
    split
    · simp
    · split_ifs <;> simp
  | lwaOnly => simp only [qgStep, doLwaOnly]; split <;> simp
  | layerwise nc =>
    simp only [qgStep, doLayerwise]
    split
    · simp
    · split
      · simp
      · split_ifs <;> simp
      · simp
  | read r => simp [qgStep]

/-- C39, guard: reading a layerwise term raises `ValueError` exactly until the first completed
`compute_layerwise_lwa_fluxes`. -/
theorem C39_guard (C : QGConfig) (ops : List (QGOp D)) :
    ((qgStep C (qgRun C QGState.fresh ops) (.read .layerwise)).result = .ok () ↔ ∃ j, LayerwiseCompleted C ops j) ∧
    ((¬ ∃ j, LayerwiseCompleted C ops j) →
      (qgStep C (qgRun C QGState.fresh ops) (.read .layerwise)).result = .error .valueError) := by
  have key : (qgRun C QGState.fresh ops).layerDone = true ↔ ∃ j, LayerwiseCompleted C ops j := by
    induction ops using List.reverseRecOn with
    | nil => simp [qgRun, QGState.fresh, LayerwiseCompleted]
    | append_singleton ops op ih =>
      rw [qgRun_snoc, layerDone_step, ih]
      constructor
      · rintro (⟨j, nc, h1, h2⟩ | ⟨⟨nc, rfl⟩, h⟩)
        · have hl := lt_length_of_getElem? h1
          refine ⟨j, nc, (getElem?_snoc _ _ _ _).mpr (Or.inl h1), ?_⟩
          rw [List.take_append_of_le_length hl.le]; exact h2
        · exact ⟨ops.length, nc, (getElem?_snoc _ _ _ _).mpr (Or.inr ⟨rfl, rfl⟩), by simpa using h⟩
      · rintro ⟨j, nc, h1, h2⟩
        rcases (getElem?_snoc _ _ _ _).mp h1 with h1' | ⟨hj, hop⟩
        · have hl := lt_length_of_getElem? h1'
          rw [List.take_append_of_le_length hl.le] at h2
          exact Or.inl ⟨j, nc, h1', h2⟩
        · subst hj hop
          exact Or.inr ⟨⟨nc, rfl⟩, by simpa using h2⟩
  rw [← key]
  simp only [qgStep, doRead]
  cases (qgRun C QGState.fresh ops).layerDone <;> simp

/-- C39, the second half of the property: completion implies interpolated fields and computed reference states. -/
def C39_Statement : Prop :=
  ∀ (C : QGConfig) (ops : List (QGOp ℕ)) (nc : NcArg),
    (qgStep C (qgRun C QGState.fresh ops) (.layerwise nc)).result = .ok () →
    HasInterp ops ∧ RefAfterInterp ops (fun n m => ¬ C.Failed n m)

/-- C39, partial: completion implies interpolated fields. Missing: reference states (`C39_refuted`). -/
theorem C39_needs_fields_partial (C : QGConfig) (ops : List (QGOp D)) (nc : NcArg)
    (h : (qgStep C (qgRun C QGState.fresh ops) (.layerwise nc)).result = .ok ()) : HasInterp ops := by
  rw [← (Invariant.run C ops).fields]
  cases hd : (qgRun C QGState.fresh ops).fields with
  | some d => exact ⟨d, rfl⟩
  | none => simp [qgStep, doLayerwise, hd] at h

/-- The first half: a completed call exists in this history, none in the empty one. -/
example : LayerwiseCompleted ⟨.nh18, 10, true, true, false⟩ [.interpolate (0 : ℕ), .layerwise .absent] 1 :=
  ⟨.absent, rfl, by decide⟩

/-- C39 fails: right after `interpolate_fields` the layerwise fluxes are computed from zero reference states. -/
theorem C39_refuted : ¬ C39_Statement := by
  intro h
  obtain ⟨_, i, j, d, n, m, hij, hi, hj, _⟩ := h ⟨.nh18, 10, true, true, false⟩ [.interpolate 0] .absent (by decide)
  have hl := lt_length_of_getElem? hj
  simp only [List.length_singleton] at hl
  omega

/-! ## C72 -/

/-- The calls that compute a result group. -/
def Computes : QGOp D → ResultName → Prop
  | .interpolate _, .interpolated => True
  | .refStates _ _, .refStates => True
  | .fluxes _, .barotropic => True
  | .fluxes _, .lwa3d => True
  | .lwaOnly, .barotropic => True
  | .lwaOnly, .lwa3d => True
  | .layerwise _, .layerwise => True
  | .layerwise _, .lwa3d => True
  | _, _ => False

/-- A call that computes the result group has returned normally. -/
def ComputedIn (C : QGConfig) (ops : List (QGOp D)) (r : ResultName) : Prop :=
  ∃ j op, ops[j]? = some op ∧ Computes op r ∧ (qgStep C (qgRun C QGState.fresh (ops.take j)) op).result = .ok ()

/-- C72, full statement: reading a result that was never computed raises `ValueError`. -/
def C72_Statement : Prop :=
  ∀ (C : QGConfig) (ops : List (QGOp ℕ)) (r : ResultName), ¬ ComputedIn C ops r →
    (qgStep C (qgRun C QGState.fresh ops) (.read r)).result = .error .valueError

/-- C72, partial: it holds for the interpolated fields and for the layerwise terms, which can be read exactly if a call that
computes them has returned. Missing: reference states, barotropic results and `lwa`, which are read as zeros (`C72_refuted`). -/
theorem C72_guarded_groups_partial (C : QGConfig) (ops : List (QGOp D)) (r : ResultName)
    (hr : r = .interpolated ∨ r = .layerwise) :
    ((qgStep C (qgRun C QGState.fresh ops) (.read r)).result = .ok () ↔ ComputedIn C ops r) ∧
    (¬ ComputedIn C ops r → (qgStep C (qgRun C QGState.fresh ops) (.read r)).result = .error .valueError) := by
  rcases hr with rfl | rfl
  · have key : (qgStep C (qgRun C QGState.fresh ops) (.read .interpolated)).result = .ok () ↔
        ComputedIn C ops .interpolated := by
      have hf := (Invariant.run C ops).fields
      constructor
      · intro h
        cases hd : (qgRun C QGState.fresh ops).fields with
        | none => simp [qgStep, doRead, qgpvRead, hd] at h
        | some d =>
          obtain ⟨j, d', hj⟩ := hf.1 ⟨d, hd⟩
          refine ⟨j, _, hj, trivial, ?_⟩
          by_cases hc : (C.evenGrid && C.nhOnly) = true
          · simp [qgStep, doRead, qgpvRead, hd, hc] at h
          · simp [qgStep, doInterpolate, qgpvRead, hc]
      · rintro ⟨j, op, hj, ho, hres⟩
        cases op with
        | interpolate d' =>
          obtain ⟨d, hd⟩ := hf.2 ⟨j, d', hj⟩
          by_cases hc : (C.evenGrid && C.nhOnly) = true
          · simp [qgStep, doInterpolate, qgpvRead, hc] at hres
          · simp [qgStep, doRead, qgpvRead, hd, hc]
        | _ => exact ho.elim
    refine ⟨key, fun h => ?_⟩
    rw [← key] at h
    simp only [qgStep, doRead, qgpvRead] at h ⊢
    split at h
    · rfl
    · split_ifs at h ⊢
      · rfl
      · exact absurd rfl h
  · have e : ComputedIn C ops .layerwise ↔ ∃ j, LayerwiseCompleted C ops j := by
      constructor
      · rintro ⟨j, op, hj, ho, hres⟩
        cases op with
        | layerwise nc => exact ⟨j, nc, hj, hres⟩
        | _ => exact ho.elim
      · rintro ⟨j, nc, hj, hres⟩
        exact ⟨j, _, hj, trivial, hres⟩
    rw [e]
    exact C39_guard C ops

/-- The interpolated fields are computed in this history, the layerwise terms are not. -/
example : ComputedIn ⟨.nh18, 10, true, true, false⟩ [.interpolate (0 : ℕ)] .interpolated ∧
    ¬ ComputedIn ⟨.nh18, 10, true, true, false⟩ [.interpolate (0 : ℕ)] .layerwise := by
  refine ⟨⟨0, _, rfl, trivial, by decide⟩, ?_⟩
  rintro ⟨j, op, hj, ho, _⟩
  have hl := lt_length_of_getElem? hj
  simp only [List.length_singleton, Nat.lt_one_iff] at hl
  subst hl
  simp only [List.getElem?_cons_zero, Option.some.injEq] at hj
  subst hj
  exact ho

/-- C72 fails: on a fresh object `uref` is returned without an error. -/
theorem C72_refuted : ¬ C72_Statement := by
  intro h
  have := h ⟨.nh18, 10, true, true, false⟩ [] .refStates (by rintro ⟨j, op, hj, _⟩; simp at hj)
  revert this
  decide

/-! ## C73 -/

/-- C73, full statement: the reference states behind a flux result belong to the same fields. -/
def C73_Statement : Prop :=
  ∀ (C : QGConfig) (ops : List (QGOp ℕ)) (p : ResultProv ℕ), (qgRun C QGState.fresh ops).flux = some p →
    (∀ r, p.refN = some r → r.1 = p.fields) ∧ (∀ r, p.refS = some r → r.1 = p.fields)

/-- Everything in the state comes from one input. -/
structure OneInput (d : D) (s : QGState D) : Prop where
  fields : ∀ x, s.fields = some x → x = d
  refN : ∀ r, s.refN = some r → r.1 = d
  refS : ∀ r, s.refS = some r → r.1 = d
  flux : ∀ p, s.flux = some p → p.fields = d ∧ (∀ r, p.refN = some r → r.1 = d) ∧ (∀ r, p.refS = some r → r.1 = d)

/-- C73, partial: it holds if the input arrays were not replaced between calls of `interpolate_fields`.
Missing: replaced inputs (`C73_refuted`). -/
theorem C73_same_input_partial (C : QGConfig) (ops : List (QGOp D)) (d : D)
    (hops : ∀ op ∈ ops, ∀ x, op = .interpolate x → x = d) (p : ResultProv D)
    (h : (qgRun C QGState.fresh ops).flux = some p) :
    (∀ r, p.refN = some r → r.1 = p.fields) ∧ (∀ r, p.refS = some r → r.1 = p.fields) := by
  have key : OneInput d (qgRun C QGState.fresh ops) := by
    clear h
    induction ops using List.reverseRecOn with
    | nil => exact ⟨by simp [qgRun, QGState.fresh], by simp [qgRun, QGState.fresh], by simp [qgRun, QGState.fresh],
        by simp [qgRun, QGState.fresh]⟩
    | append_singleton ops op ih =>
      have I := ih fun o ho => hops o (List.mem_append_left _ ho)
      rw [qgRun_snoc]
      set s := qgRun C QGState.fresh ops
      have hprov : ∀ p, currentProv s = some p →
          p.fields = d ∧ (∀ r, p.refN = some r → r.1 = d) ∧ (∀ r, p.refS = some r → r.1 = d) := by
        intro p hp
        unfold currentProv at hp
        cases hf : s.fields with
        | none => rw [hf] at hp; cases hp
        | some x => rw [hf] at hp; cases hp; exact ⟨I.fields x hf, I.refN, I.refS⟩
      cases op with
      | interpolate x =>
        have hx : x = d := hops _ (List.mem_append_right _ (List.mem_singleton_self _)) x rfl
        exact ⟨fun y hy => by cases hy; exact hx, I.refN, I.refS, I.flux⟩
      | refStates n m =>
        show OneInput d (doRefStates C s n m).state
        unfold doRefStates
        split
        · exact I
        · exact I
        · rename_i x _ hx
          have hxd := I.fields x hx
          subst hxd
          simp only [refInner]
          cases C.kind with
          | nhn22 =>
            cases hn : C.nhOnly <;> cases hnc : s.nonconv <;> simp [hnc, hn] <;>
              exact ⟨I.fields, by simp, by first | exact I.refS | simp, I.flux⟩
          | nh18 =>
            simp only [refSouthNH18, notify]
            by_cases h1 : C.maxit ≤ n <;> by_cases h2 : C.maxit ≤ m <;> cases C.raiseErr <;> cases C.nhOnly <;>
              cases hnc : s.nonconv <;> simp [h1, h2, hnc] <;>
              exact ⟨I.fields, by simp, by first | exact I.refS | simp, I.flux⟩
      | fluxes nc =>
        simp only [qgStep, doFluxes]
        split
        · exact I
        · split_ifs
          · exact I
          · exact I
          · exact I
          · exact ⟨I.fields, I.refN, I.refS, hprov⟩
      | lwaOnly =>
        simp only [qgStep, doLwaOnly]
        split
        · exact I
        · exact ⟨I.fields, I.refN, I.refS, I.flux⟩
      | layerwise nc =>
        simp only [qgStep, doLayerwise]
        split
        · exact I
        · split
          · exact I
          · split_ifs
            · exact I
            · exact ⟨I.fields, I.refN, I.refS, I.flux⟩
          · exact ⟨I.fields, I.refN, I.refS, I.flux⟩
      | read r => exact I
  obtain ⟨a, b, c⟩ := key.flux p h
  rw [a]
  exact ⟨b, c⟩

/-- A history with one input that produces fluxes. -/
example : (qgRun ⟨.nh18, 10, true, true, false⟩ QGState.fresh
    [.interpolate (0 : ℕ), .refStates 5 0, .fluxes .absent]).flux.isSome := by decide

/-- C73 fails: after new input and `interpolate_fields` the fluxes are computed with the old reference states. -/
theorem C73_refuted : ¬ C73_Statement := by
  intro h
  have hp : (qgRun ⟨.nh18, 10, true, true, false⟩ QGState.fresh
      [.interpolate 0, .refStates 5 0, .interpolate 1, .fluxes .absent]).flux = some ⟨1, some (0, 5), none⟩ := rfl
  have := (h _ _ _ hp).1 (0, 5) rfl
  cases this

end Falwa
