import Verif.Model.Shapes
import Verif.Props.Grid

/-!
# C58, C59: shapes

C58. Every public step works on even latitude grids and returns the input number of latitudes: **violated** (`C58_refuted`).
C59. Results match `ylat_ref_states`, and tuples match properties: **violated** (`C59_refuted`).
-/

set_option linter.unusedSimpArgs false

namespace Falwa

namespace ShapeCfg

/-- An even grid of `2 m` latitudes without equator: the analysis grid has one latitude more. -/
def Even (c : ShapeCfg) (m : ℕ) : Prop := c.need = true ∧ 1 ≤ m ∧ c.nlat = 2 * m ∧ c.nA = 2 * m + 1 ∧ c.eq = m + 1

/-- A grid of `2 m + 1` latitudes with the equator in the middle. -/
def Middle (c : ShapeCfg) (m : ℕ) : Prop := c.need = false ∧ 1 ≤ m ∧ c.nlat = 2 * m + 1 ∧ c.nA = 2 * m + 1 ∧ c.eq = m + 1

end ShapeCfg

section Accepted

variable {K : Type*} [Field K] [LinearOrder K] [IsStrictOrderedRing K]

/-- Accepted even grids without equator. -/
theorem even_of_check (n : ℕ) (ylat : ℕ → K) (g : LatGrid K) (h : checkYlat n ylat = .ok g) (h0 : ∀ i < n, ylat i ≠ 0)
    (nlon nlev kmax jb : ℕ) (nh : Bool) : ∃ m, n = 2 * m ∧ (ShapeCfg.ofGrid n g nlon nlev kmax jb nh).Even m := by
  obtain ⟨h1, h2, h3, h4, h5, h6⟩ := C32_analysis_grid n ylat g h
  have hi := h4.mpr h0
  have h7 := C33_middle_equator_partial n ylat g h (Or.inl hi)
  have h8 : 2 ≤ n := by
    by_contra hc
    unfold checkYlat at h
    rw [if_pos (by omega)] at h
    cases h
  rw [hi, if_pos rfl] at h5
  exact ⟨g.equatorIdx - 1, by omega, hi, by omega, by show n = _; omega, by show g.nlat = _; omega,
    by show g.equatorIdx = _; omega⟩

/-- Accepted grids symmetric about an equator. -/
theorem middle_of_check (n : ℕ) (ylat : ℕ → K) (g : LatGrid K) (h : checkYlat n ylat = .ok g) (h0 : ∃ i < n, ylat i = 0)
    (hs : ∀ i < n, ylat (n - 1 - i) = - ylat i)
    (nlon nlev kmax jb : ℕ) (nh : Bool) : ∃ m, n = 2 * m + 1 ∧ (ShapeCfg.ofGrid n g nlon nlev kmax jb nh).Middle m := by
  obtain ⟨h1, h2, h3, h4, h5, h6⟩ := C32_analysis_grid n ylat g h
  have hi : g.needInterp = false := by
    rcases Bool.eq_false_or_eq_true g.needInterp with ht | hf
    · obtain ⟨i, hi, hz⟩ := h0
      exact absurd hz (h4.mp ht i hi)
    · exact hf
  have h7 := C33_middle_equator_partial n ylat g h (Or.inr hs)
  have h8 : 2 ≤ n := by
    by_contra hc
    unfold checkYlat at h
    rw [if_pos (by omega)] at h
    cases h
  rw [hi, if_neg (by simp)] at h5
  exact ⟨g.equatorIdx - 1, by omega, hi, by omega, by show n = _; omega, by show g.nlat = _; omega,
    by show g.equatorIdx = _; omega⟩

end Accepted

namespace ShapeCfg

variable {c : ShapeCfg} {m : ℕ}

theorem lastLen_self (n : ℕ) : lastLen n n = n := by unfold lastLen; split_ifs <;> simp
theorem lastLen_le {n k : ℕ} (h : k ≤ n) (h1 : 1 ≤ k) : lastLen n k = k := by unfold lastLen; rw [if_neg (by omega), min_eq_left h]
theorem firstLen_le {n k : ℕ} (h : k ≤ n) (h1 : 1 ≤ k) : firstLen n k = k := by
  unfold firstLen; rw [if_neg (by omega), min_eq_left h]
theorem storeSlice_ok {n k : ℕ} (h : k ≤ n) (h1 : 1 ≤ k) : storeSlice n k = .ok () := by
  unfold storeSlice; rw [lastLen_le h h1, if_pos rfl]

theorem bcastRev_self (s : List ℕ) : bcastRev s s = .ok s := by
  induction s with
  | nil => rfl
  | cons x xs ih => simp [bcastRev, ih, Except.map]

theorem bcast_self (s : Shape) : bcastShape s s = .ok s := by simp [bcastShape, bcastRev_self, Except.map]
theorem bcast_col (a b : ℕ) : bcastShape [a, b] [a, 1] = .ok [a, b] := by simp [bcastShape, bcastRev, Except.map]
theorem bcast_row (a b : ℕ) : bcastShape [a, b] [b] = .ok [a, b] := by simp [bcastShape, bcastRev, Except.map]
theorem bcast_lead (a b k : ℕ) : bcastShape [a, b, k] [1, b, k] = .ok [a, b, k] := by simp [bcastShape, bcastRev, Except.map]
theorem bcast_mid (a b k : ℕ) : bcastShape [a, b, k] [1, b, 1] = .ok [a, b, k] := by simp [bcastShape, bcastRev, Except.map]
theorem bcast_last (a b k : ℕ) : bcastShape [a, b, k] [a, b, 1] = .ok [a, b, k] := by simp [bcastShape, bcastRev, Except.map]
theorem bcast_first (a b k : ℕ) : bcastShape [a, 1, 1] [a, b, k] = .ok [a, b, k] := by
  rcases eq_or_ne b 1 with rfl | h1 <;> rcases eq_or_ne k 1 with rfl | h2
  · simp [bcastShape, bcastRev, Except.map]
  · simp [bcastShape, bcastRev, Except.map, h2, h2.symm]
  · simp [bcastShape, bcastRev, Except.map, h1, h1.symm]
  · simp [bcastShape, bcastRev, Except.map, h1, h1.symm, h2, h2.symm]
theorem bcast_outer (a b : ℕ) : bcastShape [1, a] [b, 1] = .ok [b, a] := by
  rcases eq_or_ne b 1 with rfl | h1
  · simp [bcastShape, bcastRev, Except.map]
  · simp [bcastShape, bcastRev, Except.map, h1, h1.symm]

/-- The analysis grid has `2 m + 1` latitudes with the equator in the middle. -/
def Centred (c : ShapeCfg) (m : ℕ) : Prop := 1 ≤ m ∧ c.nA = 2 * m + 1 ∧ c.eq = m + 1

theorem Even.centred (h : c.Even m) : c.Centred m := ⟨h.2.1, h.2.2.2.1, h.2.2.2.2⟩
theorem Middle.centred (h : c.Middle m) : c.Centred m := ⟨h.2.1, h.2.2.2.1, h.2.2.2.2⟩

section Centred
variable (h : c.Centred m)
include h

theorem latDim_eq : c.latDim = if c.nh then m + 1 else 2 * m + 1 := by
  obtain ⟨_, h1, h2⟩ := h; simp only [latDim, h1, h2]

theorem ylatAnalysis_eq : c.ylatRefStatesAnalysis = c.latDim := by
  rw [latDim_eq h]
  obtain ⟨_, h1, h2⟩ := h
  simp only [ylatRefStatesAnalysis, h1]
  cases c.nh
  · simp
  · simp only [if_true]; rw [lastLen_le (by omega) (by omega)]; omega

theorem qrefCorrect_eq : c.qrefCorrect = .ok [c.latDim, c.kmax] := by
  have : (if c.nh then lastLen c.nA c.eq else c.nA) = c.latDim := by
    rw [latDim_eq h]
    obtain ⟨_, h1, h2⟩ := h
    rw [h1, h2, lastLen_le (by omega) (by omega)]
  rw [qrefCorrect, this, bcast_col]

theorem clatLen_eq : c.clatLen = c.latDim := by
  rw [latDim_eq h]
  obtain ⟨_, h1, h2⟩ := h
  rw [clatLen, h1, h2, lastLen_le (by omega) (by omega)]

theorem phiRows_eq : c.phiRows = c.latDim := by
  rw [latDim_eq h]
  obtain ⟨_, h1, h2⟩ := h
  rw [phiRows, h1, h2]
  cases c.nh <;> simp; omega

theorem eq_le_latDim : c.eq ≤ c.latDim ∧ 1 ≤ c.eq := by
  rw [latDim_eq h]
  obtain ⟨_, h1, h2⟩ := h
  rw [h2]; split_ifs <;> omega

theorem fluxVectorPhi_eq : c.fluxVectorPhi = .ok [c.latDim, c.nlon] := by
  simp only [fluxVectorPhi, phiRows_eq h, bcast_lead, bcast_self, bcast_mid, bind, Except.bind]
  rfl

/-- The hemispheric flux calls succeed if the forcing has the shape of the fields. -/
theorem fluxCalls_ok : c.fluxCalls c.field = .ok () := by
  obtain ⟨h1, h2⟩ := eq_le_latDim h
  simp only [fluxCalls, qrefCorrect_eq h, bind, Except.bind, List.getD_cons_zero, List.getD_cons_succ, lastLen_le h1 h2,
    firstLen_le h1 h2, field, fluxCall, and_self, if_true, storeSlice_ok h1 h2, ite_self]

theorem lwaOnly_ok : c.lwaOnly = .ok () := by
  obtain ⟨h1, h2⟩ := eq_le_latDim h
  simp only [lwaOnly, qrefCorrect_eq h, bind, Except.bind, List.getD_cons_zero, List.getD_cons_succ, lastLen_le h1 h2,
    firstLen_le h1 h2, field, fluxCall, and_self, if_true, storeSlice_ok h1 h2, ite_self]

/-- … and fail for any other shape. -/
theorem fluxCalls_error (nc : Shape) (hn : nc ≠ c.field) : c.fluxCalls nc = .error .valueError := by
  obtain ⟨h1, h2⟩ := eq_le_latDim h
  have hn' : ¬ (nc = [c.nlon, c.nA, c.kmax]) := hn
  simp only [fluxCalls, qrefCorrect_eq h, bind, Except.bind, List.getD_cons_zero, List.getD_cons_succ, lastLen_le h1 h2,
    firstLen_le h1 h2, field, fluxCall, hn', false_and, if_false]

theorem zDeriv_ok (n : ℕ) : c.zDerivShape [c.kmax, c.nA, n] [c.kmax, c.nA] = .ok [c.kmax, c.nA, n] := by
  have hw : c.eq - 1 + 1 + (c.eq - 1) = c.nA := by obtain ⟨_, h1, h2⟩ := h; omega
  simp only [zDerivShape, bcast_first, hw, bcast_last, bind, Except.bind, List.getD_cons_zero, List.getD_cons_succ, if_true]

theorem stretchTerm_ok : c.stretchTerm = .ok () := by
  obtain ⟨h1, h2⟩ := eq_le_latDim h
  have h3 : c.latDim ≤ c.nA := by
    rw [latDim_eq h]; obtain ⟨_, h1, _⟩ := h; rw [h1]; split_ifs <;> omega
  have h4 : (if c.nh then c.nA else c.latDim) = c.nA := by
    rw [latDim_eq h]; obtain ⟨_, h1, _⟩ := h; rw [h1]; split_ifs <;> simp_all
  have h5 : lastLen c.nA c.eq = c.eq := lastLen_le (by omega) h2
  simp only [stretchTerm, storeSlice_ok h3 (by omega), ite_self, bind, Except.bind, field, h4, bcast_lead, bcast_self,
    bcast_mid, bcast_outer, swapOuter, List.reverse_cons, List.reverse_nil, List.nil_append, List.cons_append,
    zDeriv_ok h, List.getD_cons_zero, List.getD_cons_succ, h5, storeSlice_ok h1 h2]

theorem layerwise_ok : c.layerwise (some (swapOuter c.field)) = .ok () := by
  have : swapOuter (swapOuter c.field) = c.field := by simp [swapOuter]
  simp only [layerwise, qrefCorrect_eq h, bind, Except.bind, ncArg, this, if_true, fluxCalls_ok h, stretchTerm_ok h]

theorem storeReferenceStates_ok (hj : c.jb ≤ m) (b : Bool) : c.storeReferenceStates (c.solverRows b) = .ok () := by
  obtain ⟨h1, h2⟩ := eq_le_latDim h
  obtain ⟨h3, h4, h5⟩ := h
  have h6 : c.nA / 2 + c.nA % 2 = c.eq := by omega
  have h7 : storeSlice c.latDim c.jd = .ok () := storeSlice_ok (by unfold jd; omega) (by unfold jd; omega)
  have h8 : storeSlice c.latDim c.eq = .ok () := storeSlice_ok h1 h2
  cases b <;> simp [storeReferenceStates, solverRows, h6, h7, h8, bind, Except.bind, pure, Except.pure]

end Centred

/-! ### Even grids -/

section EvenGrid
variable (h : c.Even m)
include h

theorem returnInterp_even (s : Shape) (axis : ℕ) (hs : s.getD axis 0 = c.latDim) :
    c.returnInterp s axis = .ok (s.set axis c.ylatRefStates) := by
  have hl := latDim_eq h.centred
  obtain ⟨h1, h2, h3, h4, h5⟩ := h
  rw [hl] at hs
  unfold returnInterp ylatRefStates interpAxis
  rw [h1, h3, h4, hs]
  cases c.nh
  · simp
  · rw [if_pos rfl, if_pos rfl, if_pos rfl, if_pos rfl, if_pos rfl, lastLen_le (n := 2 * m + 1) (by omega) (by omega),
      if_pos (by omega)]

/-- In global mode the fields come back with the input number of latitudes. -/
theorem qgpvProp_even_global (hn : c.nh = false) : c.qgpvProp = .ok [c.kmax, c.nlat, c.nlon] := by
  obtain ⟨h1, h2, h3, h4, h5⟩ := h
  simp [qgpvProp, returnInterp, interpAxis, h1, hn, swapOuter, field]

/-- In northern-only mode the fields cannot be read at all. -/
theorem qgpvProp_even_north (hn : c.nh = true) : c.qgpvProp = .error .valueError := by
  obtain ⟨h1, h2, h3, h4, h5⟩ := h
  have : lastLen c.nA (c.nA / 2 + 1) ≠ c.nA := by rw [h4, lastLen_le (by omega) (by omega)]; omega
  simp [qgpvProp, returnInterp, interpAxis, h1, hn, swapOuter, field, this.symm]

theorem ylatRefStates_even : c.ylatRefStates = if c.nh then m else 2 * m := by
  obtain ⟨h1, h2, h3, h4, h5⟩ := h
  unfold ylatRefStates
  rw [h1, h3]
  cases c.nh
  · simp
  · simp only [if_true]; rw [lastLen_le (by omega) (by omega)]; omega

theorem qrefProp_even : c.qrefProp = .ok [c.kmax, c.ylatRefStates] := by
  simp only [qrefProp, ylatAnalysis_eq h.centred, bcast_col, bind, Except.bind]
  rw [returnInterp_even h _ _ rfl]; rfl

theorem urefProp_even : c.urefProp = .ok [c.kmax, c.ylatRefStates] := returnInterp_even h _ _ rfl
theorem baroProp_even : c.baroProp = .ok [c.ylatRefStates, c.nlon] := returnInterp_even h _ _ rfl
theorem layerProp_even : c.layerProp = .ok [c.kmax, c.ylatRefStates, c.nlon] := returnInterp_even h _ _ rfl

/-- The heating rate fails for every shape. -/
theorem heatingRate_even (lev rows lon : ℕ) : c.heatingRate [lev, rows, lon] = .error .valueError := by
  obtain ⟨h1, h2, h3, h4, h5⟩ := h
  have hw : c.eq - 1 + 1 + (c.eq - 1) = 2 * m + 1 := by omega
  have hm : (2 * m : ℕ) ≠ 2 * m + 1 := by omega
  have hm1 : (2 * m : ℕ) ≠ 1 := by omega
  have hm2 : (m : ℕ) ≠ 0 := by omega
  rcases eq_or_ne lev c.nlev with rfl | hl
  · simp only [heatingRate, interpAxis, List.getD_cons_zero, if_true, List.set_cons_zero, bind, Except.bind, bcast_outer,
      zDerivShape, bcast_first, hw, h3]
    by_cases hr : rows = 2 * m + 1
    · subst hr
      rw [bcast_last]
      simp [bcastShape, bcastRev, Except.map, hm.symm, hm1, hm2]
    · by_cases hr1 : rows = 1
      · subst hr1
        simp [bcastShape, bcastRev, Except.map, hm.symm, hm1, hm2]
      · simp [bcastShape, bcastRev, Except.map, hr, hm2, hr1]
  · simp [heatingRate, interpAxis, hl, bind, Except.bind]

end EvenGrid

/-! ### Grids with the equator in the middle -/

section MiddleGrid
variable (h : c.Middle m)
include h

theorem ylatRefStates_middle : c.ylatRefStates = c.latDim := by
  rw [latDim_eq h.centred]
  obtain ⟨h1, h2, h3, h4, h5⟩ := h
  unfold ylatRefStates
  rw [h1, h3]
  cases c.nh
  · simp
  · simp only [if_true, Bool.false_eq_true, if_false]; rw [lastLen_le (by omega) (by omega)]; omega

theorem returnInterp_middle (s : Shape) (axis : ℕ) : c.returnInterp s axis = .ok s := by
  unfold returnInterp
  rw [h.1, if_neg (by simp)]

end MiddleGrid

/-- All shapes of the flux results for `r` latitudes. -/
def uniform (c : ShapeCfg) (r : ℕ) : FluxShapes :=
  { adv := [r, c.nlon], conv := [r, c.nlon], div := [r, c.nlon], phi := [r, c.nlon], baro := [r, c.nlon]
    lwa := [c.kmax, r, c.nlon] }

/-- On every centred analysis grid where `qgpv` can be read, the flux tuple has the latitudes of the analysis grid. -/
theorem computeFluxes_centred (h : c.Centred m) (s : Shape) (hq : c.qgpvProp = .ok s) (nc : Option Shape)
    (hnc : nc = none ∨ nc = some (swapOuter c.field)) : c.computeFluxes nc = .ok (c.uniform c.latDim) := by
  have h0 : c.ncArg c.field nc = .ok c.field := by
    rcases hnc with rfl | rfl
    · rfl
    · simp [ncArg, swapOuter]
  have h1 : convShape (swapOuter [c.nlon, c.latDim]) c.latDim = .ok [c.latDim, c.nlon] := by
    simp [convShape, swapOuter]
  simp only [computeFluxes, hq, bind, Except.bind, h0, fluxCalls_ok h, clatLen_eq h, bcast_row, h1, fluxVectorPhi_eq h]
  rfl

theorem fluxProps_even (h : c.Even m) : c.fluxProps (c.uniform c.latDim) = .ok (c.uniform c.ylatRefStates) := by
  have e : c.returnInterp [c.latDim, c.nlon] 0 = .ok [c.ylatRefStates, c.nlon] := returnInterp_even h _ _ rfl
  simp only [fluxProps, uniform, e, bind, Except.bind, baroProp_even h, layerProp_even h]

theorem fluxProps_middle (h : c.Middle m) : c.fluxProps (c.uniform c.latDim) = .ok (c.uniform c.ylatRefStates) := by
  rw [ylatRefStates_middle h]
  simp only [fluxProps, uniform, baroProp, layerProp, returnInterp_middle h, bind, Except.bind]
  rfl

end ShapeCfg

open ShapeCfg

/-! ## C58 -/

section C58

/-- C58 for one object: each step works, and every array has the input number of latitudes, or half of it. -/
def WorksOnInputGrid (c : ShapeCfg) (nhn22 : Bool) (n : ℕ) : Prop :=
  c.interpolateFields true = .ok (List.replicate 4 [c.kmax, n, c.nlon]) ∧
  c.computeReferenceStates nhn22 true = .ok (List.replicate 3 [c.kmax, if c.nh then n / 2 else n]) ∧
  c.lwaOnly = .ok () ∧
  (∃ f, c.computeFluxes none = .ok f ∧ f = c.uniform (if c.nh then n / 2 else n) ∧
    c.fluxProps f = .ok (c.uniform (if c.nh then n / 2 else n))) ∧
  c.layerwise none = .ok () ∧
  c.heatingRate [c.nlev, n, c.nlon] = .ok [c.kmax, n, c.nlon]

/-- C58: on every accepted grid without equator, in both modes and both classes. -/
def C58_Statement : Prop :=
  ∀ (n : ℕ) (ylat : ℕ → ℚ) (g : LatGrid ℚ), checkYlat n ylat = .ok g → (∀ i < n, ylat i ≠ 0) →
    ∀ (nlon nlev kmax jb : ℕ) (nh nhn22 : Bool), 3 ≤ nlon → 3 ≤ nlev → 3 ≤ kmax → jb ≤ n / 2 →
      WorksOnInputGrid (ShapeCfg.ofGrid n g nlon nlev kmax jb nh) nhn22 n

variable {K : Type*} [Field K] [LinearOrder K] [IsStrictOrderedRing K]

/-- C58, partial: in global mode, on every accepted grid without equator, the interpolation, the reference states, the local
wave activity and the fluxes work; all **properties** have the input number of latitudes. The layerwise fluxes work if a
forcing on the analysis grid is passed.
Missing: the tuple of the fluxes (`C58_tuple_never`), the default forcing of the layerwise fluxes (`C58_layerwise_never`), the
heating-rate forcing (`C58_heating_never`), and northern-only mode (`C58_northern_never`). -/
theorem C58_global_partial (n : ℕ) (ylat : ℕ → K) (g : LatGrid K) (h : checkYlat n ylat = .ok g) (h0 : ∀ i < n, ylat i ≠ 0)
    (nlon nlev kmax jb : ℕ) (nhn22 : Bool) (hj : jb ≤ n / 2) (c : ShapeCfg)
    (hc : c = ShapeCfg.ofGrid n g nlon nlev kmax jb false) :
    c.interpolateFields true = .ok (List.replicate 4 [kmax, n, nlon]) ∧
    c.computeReferenceStates nhn22 true = .ok (List.replicate 3 [kmax, n]) ∧
    c.lwaOnly = .ok () ∧
    (∃ f, c.computeFluxes none = .ok f ∧ c.fluxProps f = .ok (c.uniform n)) ∧
    c.layerwise (some [kmax, n + 1, nlon]) = .ok () ∧ c.layerProp = .ok [kmax, n, nlon] := by
  obtain ⟨m, hm, he⟩ := even_of_check n ylat g h h0 nlon nlev kmax jb false
  rw [← hc] at he
  have e1 : c.nh = false := by rw [hc]; rfl
  have e2 : c.kmax = kmax := by rw [hc]; rfl
  have e3 : c.nlon = nlon := by rw [hc]; rfl
  have e4 : c.nlat = n := by rw [hc]; rfl
  have e5 : c.jb = jb := by rw [hc]; rfl
  have hq := qgpvProp_even_global he e1
  have hr : c.ylatRefStates = n := by rw [ylatRefStates_even he, e1, hm]; rfl
  have hst := storeReferenceStates_ok he.centred (by omega) nhn22
  refine ⟨?_, ?_, lwaOnly_ok he.centred, ⟨_, computeFluxes_centred he.centred _ hq none (Or.inl rfl), ?_⟩, ?_, ?_⟩
  · simp only [interpolateFields, if_true, hq, bind, Except.bind, e2, e3, e4]; rfl
  · simp only [computeReferenceStates, hq, bind, Except.bind, hst, if_true, qrefProp_even he, urefProp_even he, hr, e2]; rfl
  · rw [fluxProps_even he, hr]
  · have : swapOuter c.field = [kmax, n + 1, nlon] := by
      have : c.nA = n + 1 := by rw [he.2.2.2.1, hm]
      simp [swapOuter, field, e2, e3, this]
    rw [← this]
    exact layerwise_ok he.centred
  · rw [layerProp_even he, hr, e2, e3]

/-- C58, violation: in northern-only mode, on every accepted grid without equator, reading the fields, the default
`interpolate_fields()`, the reference states, and the fluxes raise `ValueError`. -/
theorem C58_northern_never (n : ℕ) (ylat : ℕ → K) (g : LatGrid K) (h : checkYlat n ylat = .ok g) (h0 : ∀ i < n, ylat i ≠ 0)
    (nlon nlev kmax jb : ℕ) (nhn22 named : Bool) (nc : Option Shape) (c : ShapeCfg)
    (hc : c = ShapeCfg.ofGrid n g nlon nlev kmax jb true) :
    c.qgpvProp = .error .valueError ∧ c.interpolateFields true = .error .valueError ∧
    c.computeReferenceStates nhn22 named = .error .valueError ∧ c.computeFluxes nc = .error .valueError := by
  obtain ⟨m, hm, he⟩ := even_of_check n ylat g h h0 nlon nlev kmax jb true
  rw [← hc] at he
  have hq := qgpvProp_even_north he (by rw [hc]; rfl)
  refine ⟨hq, ?_, ?_, ?_⟩
  · simp only [interpolateFields, if_true, hq, bind, Except.bind]
  · simp only [computeReferenceStates, hq, bind, Except.bind]
  · simp only [computeFluxes, hq, bind, Except.bind]

/-- C58, violation: on every accepted grid without equator and in both modes, the layerwise fluxes with the default forcing
raise `ValueError`, and with a forcing on the input grid `AssertionError`. -/
theorem C58_layerwise_never (n : ℕ) (ylat : ℕ → K) (g : LatGrid K) (h : checkYlat n ylat = .ok g) (h0 : ∀ i < n, ylat i ≠ 0)
    (nlon nlev kmax jb : ℕ) (nh : Bool) (c : ShapeCfg) (hc : c = ShapeCfg.ofGrid n g nlon nlev kmax jb nh) :
    c.layerwise none = .error .valueError ∧ c.layerwise (some [kmax, n, nlon]) = .error .assertionError := by
  obtain ⟨m, hm, he⟩ := even_of_check n ylat g h h0 nlon nlev kmax jb nh
  rw [← hc] at he
  have hA : c.nA = n + 1 := by rw [he.2.2.2.1, hm]
  have hL : c.nlat = n := by rw [hc]; rfl
  have hne : [c.nlon, c.nlat, c.kmax] ≠ c.field := by
    rw [field, hA, hL]; intro hc; simp at hc
  constructor
  · simp only [layerwise, qrefCorrect_eq he.centred, bind, Except.bind, ncArg, fluxCalls_error he.centred _ hne]
  · have : ¬ (swapOuter [kmax, n, nlon] = c.field) := by
      rw [field, hA]; intro hc; simp [swapOuter] at hc
    simp only [layerwise, qrefCorrect_eq he.centred, bind, Except.bind, ncArg, this, if_false]

/-- C58, violation: on every accepted grid without equator and in both modes, `compute_ncforce_from_heating_rate` raises
`ValueError` whatever the number of levels, latitudes and longitudes of the heating rate. -/
theorem C58_heating_never (n : ℕ) (ylat : ℕ → K) (g : LatGrid K) (h : checkYlat n ylat = .ok g) (h0 : ∀ i < n, ylat i ≠ 0)
    (nlon nlev kmax jb : ℕ) (nh : Bool) (lev rows lon : ℕ) :
    (ShapeCfg.ofGrid n g nlon nlev kmax jb nh).heatingRate [lev, rows, lon] = .error .valueError := by
  obtain ⟨m, hm, he⟩ := even_of_check n ylat g h h0 nlon nlev kmax jb nh
  exact heatingRate_even he lev rows lon

/-- C58, violation: in global mode the tuple returned by `compute_lwa_and_barotropic_fluxes` has one latitude too many on every
accepted grid without equator. -/
theorem C58_tuple_never (n : ℕ) (ylat : ℕ → K) (g : LatGrid K) (h : checkYlat n ylat = .ok g) (h0 : ∀ i < n, ylat i ≠ 0)
    (nlon nlev kmax jb : ℕ) (c : ShapeCfg) (hc : c = ShapeCfg.ofGrid n g nlon nlev kmax jb false) :
    c.computeFluxes none = .ok (c.uniform (n + 1)) := by
  obtain ⟨m, hm, he⟩ := even_of_check n ylat g h h0 nlon nlev kmax jb false
  rw [← hc] at he
  have e1 : c.nh = false := by rw [hc]; rfl
  rw [computeFluxes_centred he.centred _ (qgpvProp_even_global he e1) none (Or.inl rfl), latDim_eq he.centred, e1, hm]
  rfl

/-- Even grids without equator exist for every even size: the `2 m` latitudes `1 - 2 m, 3 - 2 m, …, 2 m - 1`. -/
theorem even_accepted (m : ℕ) (hm : 1 ≤ m) : ∃ g, checkYlat (2 * m) (fun i : ℕ => (2 * i - (2 * m - 1) : ℚ)) = .ok g ∧
    ∀ i < 2 * m, (2 * i - (2 * m - 1) : ℚ) ≠ 0 := by
  have hz : ∀ i < 2 * m, (2 * i - (2 * m - 1) : ℚ) ≠ 0 := by
    intro i _ hc
    have : ((2 * i + 1 : ℕ) : ℚ) = ((2 * m : ℕ) : ℚ) := by push_cast; linarith
    have := Nat.cast_injective this
    omega
  have h0 : zeroCount (2 * m) (fun i : ℕ => (2 * i - (2 * m - 1) : ℚ)) = 0 := by
    unfold zeroCount
    rw [Finset.card_eq_zero, Finset.filter_eq_empty_iff]
    exact fun i hi => hz i (Finset.mem_range.mp hi)
  obtain ⟨e, he, _⟩ := firstZero_spec (2 * m + 1) (fun i : ℕ => (-90 + 180 * (i : ℚ) / (2 * m : ℕ) : ℚ))
    ⟨m, by omega, (evenGrid_zero (2 * m) (by omega) m).mpr (by omega)⟩
  unfold checkYlat
  rw [if_neg (by omega), if_neg (by push_cast; linarith), if_pos ⟨by omega, h0⟩]
  refine ⟨{ needInterp := true, nlat := 2 * m + 1, ylat := fun i => -90 + 180 * i / (2 * m : ℕ), equatorIdx := e + 1 }, ?_, hz⟩
  simp only [he, Except.map]

/-- The hypotheses of the theorems above are met by every even number of equally spaced latitudes. -/
example : ∃ (ylat : ℕ → ℚ) (g : LatGrid ℚ), checkYlat 180 ylat = .ok g ∧ ∀ i < 180, ylat i ≠ 0 := by
  obtain ⟨g, h1, h2⟩ := even_accepted 90 (by norm_num)
  exact ⟨_, g, h1, h2⟩

/-- C58 is violated. -/
theorem C58_refuted : ¬ C58_Statement := by
  intro hS
  obtain ⟨g, h1, h2⟩ := even_accepted 90 (by norm_num)
  have := (hS _ _ g h1 h2 360 37 49 5 true true (by norm_num) (by norm_num) (by norm_num) (by norm_num)).1
  rw [(C58_northern_never _ _ g h1 h2 360 37 49 5 true true none _ rfl).2.1] at this
  cases this

end C58

/-! ## C59 -/

section C59

/-- C59 for one object: whenever the flux computation succeeds, the properties have as many latitudes as `ylat_ref_states`, and
the tuple has the shapes of the properties; the reference states have as many latitudes as `ylat_ref_states`. -/
def ShapesMatch (c : ShapeCfg) : Prop :=
  c.qrefProp = .ok [c.kmax, c.ylatRefStates] ∧ c.urefProp = .ok [c.kmax, c.ylatRefStates] ∧
  c.layerProp = .ok [c.kmax, c.ylatRefStates, c.nlon] ∧ c.baroProp = .ok [c.ylatRefStates, c.nlon] ∧
  ∀ nc f, c.computeFluxes nc = .ok f → c.fluxProps f = .ok (c.uniform c.ylatRefStates) ∧ f = c.uniform c.ylatRefStates

/-- C59: on every accepted grid, in both modes. -/
def C59_Statement : Prop :=
  ∀ (n : ℕ) (ylat : ℕ → ℚ) (g : LatGrid ℚ), checkYlat n ylat = .ok g →
    ∀ (nlon nlev kmax jb : ℕ) (nh : Bool), 3 ≤ nlon → 3 ≤ nlev → 3 ≤ kmax → jb ≤ n / 2 →
      ShapesMatch (ShapeCfg.ofGrid n g nlon nlev kmax jb nh)

variable {K : Type*} [Field K] [LinearOrder K] [IsStrictOrderedRing K]

/-- The forcing argument is either left out or has the shape of the fields. -/
theorem computeFluxes_nc {c : ShapeCfg} {nc : Option Shape} {f : FluxShapes} (h : c.computeFluxes nc = .ok f) :
    nc = none ∨ nc = some (swapOuter c.field) := by
  cases nc with
  | none => exact Or.inl rfl
  | some s =>
    right
    by_cases hs : swapOuter s = c.field
    · rw [← hs]; simp [swapOuter]
    · cases hq : c.qgpvProp with
      | error e => simp only [computeFluxes, hq, bind, Except.bind] at h; cases h
      | ok q => simp only [computeFluxes, hq, bind, Except.bind, ncArg, hs, if_false] at h; cases h

/-- C59, partial: on every accepted grid that contains the equator and is symmetric about it, in both modes, all shapes match.
Missing: grids without equator (only the tuples fail, `C59_properties_partial`, `C59_tuple_never`) and grids with the equator
off the middle (`C59_offcentre_never`). -/
theorem C59_middle_partial (n : ℕ) (ylat : ℕ → K) (g : LatGrid K) (h : checkYlat n ylat = .ok g) (h0 : ∃ i < n, ylat i = 0)
    (hs : ∀ i < n, ylat (n - 1 - i) = - ylat i) (nlon nlev kmax jb : ℕ) (nh : Bool) :
    ShapesMatch (ShapeCfg.ofGrid n g nlon nlev kmax jb nh) ∧
    ∃ f, (ShapeCfg.ofGrid n g nlon nlev kmax jb nh).computeFluxes none = .ok f := by
  obtain ⟨m, hm, he⟩ := middle_of_check n ylat g h h0 hs nlon nlev kmax jb nh
  generalize ShapeCfg.ofGrid n g nlon nlev kmax jb nh = c at he
  have hr := ylatRefStates_middle he
  have hq : c.qgpvProp = .ok (swapOuter c.field) := returnInterp_middle he _ _
  refine ⟨⟨?_, ?_, ?_, ?_, ?_⟩, _, computeFluxes_centred he.centred _ hq none (Or.inl rfl)⟩
  · simp only [qrefProp, ylatAnalysis_eq he.centred, bcast_col, bind, Except.bind, returnInterp_middle he, hr]; rfl
  · rw [urefProp, returnInterp_middle he, hr]; rfl
  · rw [layerProp, returnInterp_middle he, hr]; rfl
  · rw [baroProp, returnInterp_middle he, hr]; rfl
  · intro nc f hf
    rw [computeFluxes_centred he.centred _ hq nc (computeFluxes_nc hf)] at hf
    injection hf with hf
    subst hf
    exact ⟨fluxProps_middle he, by rw [hr]⟩

/-- C59, partial: on every accepted grid without equator, in both modes, the properties match `ylat_ref_states`.
Missing: the tuples, see `C59_tuple_never`. -/
theorem C59_properties_partial (n : ℕ) (ylat : ℕ → K) (g : LatGrid K) (h : checkYlat n ylat = .ok g)
    (h0 : ∀ i < n, ylat i ≠ 0) (nlon nlev kmax jb : ℕ) (nh : Bool) (c : ShapeCfg)
    (hc : c = ShapeCfg.ofGrid n g nlon nlev kmax jb nh) :
    c.ylatRefStates = (if nh then n / 2 else n) ∧
    c.qrefProp = .ok [kmax, c.ylatRefStates] ∧ c.urefProp = .ok [kmax, c.ylatRefStates] ∧
    c.layerProp = .ok [kmax, c.ylatRefStates, nlon] ∧ c.baroProp = .ok [c.ylatRefStates, nlon] ∧
    ∀ nc f, c.computeFluxes nc = .ok f → c.fluxProps f = .ok (c.uniform c.ylatRefStates) := by
  obtain ⟨m, hm, he⟩ := even_of_check n ylat g h h0 nlon nlev kmax jb nh
  rw [← hc] at he
  have e1 : c.nh = nh := by rw [hc]; rfl
  have e2 : c.kmax = kmax := by rw [hc]; rfl
  have e3 : c.nlon = nlon := by rw [hc]; rfl
  refine ⟨?_, by rw [qrefProp_even he, e2], by rw [urefProp_even he, e2], by rw [layerProp_even he, e2, e3],
    by rw [baroProp_even he, e3], fun nc f hf => ?_⟩
  · rw [ylatRefStates_even he, e1, hm]; cases nh <;> simp
  · cases hq : c.qgpvProp with
    | error e => simp only [computeFluxes, hq, bind, Except.bind] at hf; cases hf
    | ok q =>
      rw [computeFluxes_centred he.centred _ hq nc (computeFluxes_nc hf)] at hf
      injection hf with hf
      subst hf
      exact fluxProps_even he

/-- C59, violation: in global mode, on every accepted grid without equator, the tuple of the fluxes has `n + 1` latitudes and the
properties have `n`. -/
theorem C59_tuple_never (n : ℕ) (ylat : ℕ → K) (g : LatGrid K) (h : checkYlat n ylat = .ok g) (h0 : ∀ i < n, ylat i ≠ 0)
    (nlon nlev kmax jb : ℕ) (c : ShapeCfg) (hc : c = ShapeCfg.ofGrid n g nlon nlev kmax jb false) :
    ∃ f p, c.computeFluxes none = .ok f ∧ c.fluxProps f = .ok p ∧ f.adv = [n + 1, nlon] ∧ p.adv = [n, nlon] ∧
      f.lwa = [kmax, n + 1, nlon] ∧ p.lwa = [kmax, n, nlon] := by
  have e2 : c.kmax = kmax := by rw [hc]; rfl
  have e3 : c.nlon = nlon := by rw [hc]; rfl
  have h1 := C58_tuple_never n ylat g h h0 nlon nlev kmax jb c hc
  have h2 := C59_properties_partial n ylat g h h0 nlon nlev kmax jb false c hc
  refine ⟨_, _, h1, h2.2.2.2.2.2 _ _ h1, ?_⟩
  rw [h2.1, if_neg (by simp)]
  simp [uniform, e2, e3]

/-- C59, violation: in northern-only mode, on every accepted grid with an equator that is not latitude `n / 2 + 1`, the stored
hemisphere has `equator_idx` latitudes and `ylat_ref_states` has `n / 2 + 1`, so the reference wind does not match. -/
theorem C59_offcentre_never (n : ℕ) (ylat : ℕ → K) (g : LatGrid K) (h : checkYlat n ylat = .ok g) (h0 : ∃ i < n, ylat i = 0)
    (hm : g.equatorIdx ≠ n / 2 + 1) (nlon nlev kmax jb : ℕ) (c : ShapeCfg)
    (hc : c = ShapeCfg.ofGrid n g nlon nlev kmax jb true) :
    c.urefProp = .ok [kmax, g.equatorIdx] ∧ c.ylatRefStates = n / 2 + 1 ∧ c.urefProp ≠ .ok [kmax, c.ylatRefStates] := by
  obtain ⟨h1, h2, h3, h4, h5, h6⟩ := C32_analysis_grid n ylat g h
  have hi : g.needInterp = false := by
    rcases Bool.eq_false_or_eq_true g.needInterp with ht | hf
    · obtain ⟨i, hi, hz⟩ := h0
      exact absurd hz (h4.mp ht i hi)
    · exact hf
  have h8 : 2 ≤ n := by
    by_contra hc
    unfold checkYlat at h
    rw [if_pos (by omega)] at h
    cases h
  subst hc
  have a : (ShapeCfg.ofGrid n g nlon nlev kmax jb true).urefProp = .ok [kmax, g.equatorIdx] := by
    simp [urefProp, returnInterp, ShapeCfg.ofGrid, hi, latDim, swapOuter]
  have b : (ShapeCfg.ofGrid n g nlon nlev kmax jb true).ylatRefStates = n / 2 + 1 := by
    simp only [ylatRefStates, ShapeCfg.ofGrid, hi, if_true, Bool.false_eq_true, if_false]
    exact lastLen_le (by omega) (by omega)
  refine ⟨a, b, ?_⟩
  rw [a, b]
  simpa using hm

/-- C59 is violated. -/
theorem C59_refuted : ¬ C59_Statement := by
  intro hS
  obtain ⟨g, h1, h2⟩ := even_accepted 90 (by norm_num)
  have h3 := hS _ _ g h1 360 37 49 5 false (by norm_num) (by norm_num) (by norm_num) (by norm_num)
  have h4 := C58_tuple_never _ _ g h1 h2 360 37 49 5 _ rfl
  have h5 := (C59_properties_partial _ _ g h1 h2 360 37 49 5 false _ rfl).1
  have h6 := (h3.2.2.2.2 _ _ h4).2
  rw [h5] at h6
  simp [uniform] at h6

/-- Five latitudes with the equator in the middle meet the hypotheses of `C59_middle_partial`. -/
theorem five_accepted : ∃ g : LatGrid ℚ, checkYlat 5 (fun i => (45 * i - 90 : ℚ)) = .ok g ∧ (∃ i < 5, (45 * (i : ℕ) - 90 : ℚ) = 0) ∧
    ∀ i < 5, (45 * ((5 - 1 - i : ℕ) : ℚ) - 90) = -(45 * (i : ℕ) - 90 : ℚ) := by
  have h1 : zeroCount 5 (fun i => (45 * (i : ℚ) - 90 : ℚ)) = 1 := by
    have : (Finset.range 5).filter (fun i : ℕ => (45 * (i : ℚ) - 90 : ℚ) = 0) = {2} := by
      ext i
      simp only [Finset.mem_filter, Finset.mem_range, Finset.mem_singleton]
      constructor
      · rintro ⟨_, h⟩
        have : ((i : ℕ) : ℚ) = ((2 : ℕ) : ℚ) := by push_cast; linarith
        exact Nat.cast_injective this
      · rintro rfl; norm_num
    rw [zeroCount, this]; rfl
  obtain ⟨e, he, _⟩ := firstZero_spec 5 (fun i : ℕ => (45 * (i : ℚ) - 90 : ℚ)) ⟨2, by norm_num, by norm_num⟩
  refine ⟨{ needInterp := false, nlat := 5, ylat := fun i => 45 * i - 90, equatorIdx := e + 1 }, ?_,
    ⟨2, by norm_num, by norm_num⟩, ?_⟩
  · unfold checkYlat
    rw [if_neg (by norm_num), if_neg (by norm_num), if_neg (by norm_num), if_pos h1, he]
    rfl
  · intro i hi
    have : i = 0 ∨ i = 1 ∨ i = 2 ∨ i = 3 ∨ i = 4 := by omega
    rcases this with rfl | rfl | rfl | rfl | rfl <;> norm_num

/-- Three latitudes with the equator first meet the hypotheses of `C59_offcentre_never`. -/
example : ∃ g : LatGrid ℚ, checkYlat 3 (fun i => (i : ℚ)) = .ok g ∧ g.equatorIdx ≠ 3 / 2 + 1 := by
  have h1 : zeroCount 3 (fun i => (i : ℚ)) = 1 := by
    have : (Finset.range 3).filter (fun i : ℕ => (i : ℚ) = 0) = {0} := by
      ext i
      simp only [Finset.mem_filter, Finset.mem_range, Finset.mem_singleton, Nat.cast_eq_zero]
      omega
    rw [zeroCount, this]; rfl
  obtain ⟨e, he, _, hz, _⟩ := firstZero_spec 3 (fun i : ℕ => (i : ℚ)) ⟨0, by norm_num, by norm_num⟩
  have hz' : e = 0 := by exact_mod_cast hz
  refine ⟨{ needInterp := false, nlat := 3, ylat := fun i => i, equatorIdx := e + 1 }, ?_, ?_⟩
  · unfold checkYlat
    rw [if_neg (by norm_num), if_neg (by norm_num), if_neg (by norm_num), if_pos h1, he]
    rfl
  · subst hz'; norm_num

end C59

end Falwa
