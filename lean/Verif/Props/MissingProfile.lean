import Verif.Props.Missing

/-!
# Properties C189 and C190: reference profile and FAWA of fields with missing values
-/

namespace Falwa

namespace Gap

namespace Input

variable (I : Input)

/-- A value of the field is missing in some cell. -/
def Missing : Prop := ∃ r < I.nlat, ∃ c < I.nlon, I.vort r c = none

/-- The call is one that `eqvlat_fawa` accepts. -/
def Sound : Prop := 0 < I.nlat ∧ 0 < I.nlon ∧ 0 < I.nPoints ∧ I.radius ≠ 0

variable {I}

theorem Missing.sizes (h : I.Missing) : I.nlat ≠ 0 ∧ I.nlon ≠ 0 := by
  obtain ⟨r, hr, c, hc, _⟩ := h; omega

theorem Missing.bins_eq (h : I.Missing) (i : ℕ) : I.bins i = none := by
  obtain ⟨r, hr, c, hc, e⟩ := h
  have : ¬ ∀ p ∈ cells I.nlat I.nlon, (I.vort p.1 p.2).isSome := by
    intro hall
    have := hall (r, c) (by simp [cells, hr, hc])
    simp [e] at this
  rw [bins, reduce, if_neg this]
  rfl

theorem Missing.ind_eq (h : I.Missing) (hn : 0 < I.nPoints) (p : ℕ × ℕ) : I.ind p = 0 ∨ I.nPoints ≤ I.ind p := by
  have hb : ¬ ∀ i < I.nPoints, (I.bins i).isSome := by
    intro hall
    have := hall 0 hn
    rw [h.bins_eq] at this
    simp at this
  unfold ind digitize
  rw [if_neg hb]
  split_ifs <;> omega

theorem Missing.binSum_eq (h : I.Missing) (hn : 0 < I.nPoints) (w : ℕ → ℕ → Option ℝ) {m : ℕ} (h1 : m ≠ 0)
    (h2 : m < I.nPoints) : I.binSum w m = some 0 := by
  have he : (cells I.nlat I.nlon).filter (fun p => I.ind p = m) = ∅ := by
    refine Finset.filter_eq_empty_iff.2 fun p _ e => ?_
    rcases h.ind_eq hn p with h3 | h3 <;> omega
  rw [binSum, he]
  simp

theorem Missing.running_eq (h : I.Missing) (hn : 0 < I.nPoints) (w : ℕ → ℕ → Option ℝ) {i : ℕ} (hi : i < I.nPoints) :
    I.running w i = some 0 := by
  have := total_eq_some (f := fun m => if m = 0 then some 0 else I.binSum w m) (g := fun _ => (0 : ℝ)) (n := i + 1)
    (fun r hr => by
      by_cases e : r = 0
      · rw [if_pos e]
      · rw [if_neg e, h.binSum_eq hn w e (by omega)])
  rw [running, this, Finset.sum_const_zero]

/-- Where a value is missing anywhere, all equivalent latitudes are the same. -/
theorem Missing.eqvLatitude_eq (h : I.Missing) (hn : 0 < I.nPoints) {i : ℕ} (hi : i < I.nPoints) :
    I.eqvLatitude i = some (rad2deg (Real.arcsin (-1))) := by
  rw [eqvLatitude, aq, h.running_eq hn _ hi, arcsinDeg]
  norm_num

theorem Missing.interp_eq (h : I.Missing) (hn : 0 < I.nPoints) (fp : ℕ → Option ℝ) {v : Option ℝ}
    (hf : ∀ i < I.nPoints, fp i = v) : ∃ F, I.interpToYlat fp = .ok F ∧ ∀ j, F j = v := by
  have hs := h.sizes
  have h1 : ¬ (I.nlat = 0 ∨ I.nlon = 0 ∨ I.nPoints = 0) := by omega
  have h2 : ∀ i < I.nPoints, (I.eqvLatitude i).isSome := fun i hi => by rw [h.eqvLatitude_eq hn hi]; rfl
  refine ⟨_, by rw [interpToYlat, if_neg h1, if_pos h2], fun j => ?_⟩
  unfold npInterp
  have h0 : (I.eqvLatitude 0).getD 0 = rad2deg (Real.arcsin (-1)) := by rw [h.eqvLatitude_eq hn hn]; rfl
  by_cases hx : I.ylat j < (I.eqvLatitude 0).getD 0
  · rw [if_pos hx, hf 0 hn]
  · rw [if_neg hx]
    have hl : (I.eqvLatitude (I.nPoints - 1)).getD 0 ≤ I.ylat j := by
      rw [h.eqvLatitude_eq hn (by omega)]
      rw [h0] at hx
      exact not_lt.1 hx
    have hj : Nat.findGreatest (fun m => (I.eqvLatitude m).getD 0 ≤ I.ylat j) (I.nPoints - 1) = I.nPoints - 1 :=
      Nat.findGreatest_eq hl
    simp only [hj, if_true]
    exact hf _ (by omega)

/-- A single missing value makes the whole reference profile of `eqvlat_fawa` NaN. -/
theorem C189_profile (h : I.Missing) (hs : I.Sound) : ∃ q, I.qref = .ok q ∧ ∀ j, q j = none :=
  h.interp_eq hs.2.2.1 _ fun i _ => h.bins_eq i

theorem toGap_bins (E : EqvInput) (i : ℕ) : E.toGap.bins i = some (E.bins i) := by
  have : ∀ p ∈ cells E.toGap.nlat E.toGap.nlon, (E.toGap.vort p.1 p.2).isSome := fun p _ => rfl
  rw [bins, reduce, reduce, if_pos this, if_pos this]
  rfl

theorem toGap_ind (E : EqvInput) (p : ℕ × ℕ) : E.toGap.ind p = E.ind p := by
  have hv : ∀ r c, E.toGap.vort r c = some (E.vort r c) := fun _ _ => rfl
  have : ∀ i < E.toGap.nPoints, (E.toGap.bins i).isSome := fun i _ => by rw [toGap_bins]; rfl
  unfold ind digitize
  rw [if_pos this, hv]
  simp only [toGap_bins, Option.getD_some]
  rfl

theorem toGap_running (E : EqvInput) (w : ℕ → ℕ → ℝ) (i : ℕ) :
    E.toGap.running (fun r c => some (w r c)) i = some (cumsum (fun m => if m = 0 then 0 else E.binSum w m) i) := by
  rw [running, cumsum]
  refine total_eq_some fun m _ => ?_
  by_cases hm : m = 0
  · rw [if_pos hm, if_pos hm]
  · have hall : ∀ p ∈ (cells E.toGap.nlat E.toGap.nlon).filter (fun p => E.toGap.ind p = m),
        (some (w p.1 p.2)).isSome = true := fun _ _ => rfl
    rw [if_neg hm, if_neg hm, binSum, if_pos hall]
    simp only [toGap_ind]
    rfl

theorem toGap_eqvLatitude (E : EqvInput) (i : ℕ) : E.toGap.eqvLatitude i = E.eqvLatitude E.aq i := by
  have ha : E.toGap.aq i = E.aq i := by
    have := toGap_running E E.area i
    exact congrArg (fun x : Option ℝ => x.getD 0) this
  rw [eqvLatitude, ha]; rfl

theorem toGap_interp (E : EqvInput) (fp : ℕ → ℝ) :
    E.toGap.interpToYlat (fun i => some (fp i)) = (E.interpToYlat E.aq fp).map fun q j => some (q j) := by
  have he := toGap_eqvLatitude E
  rw [interpToYlat, EqvInput.interpToYlat]
  by_cases h1 : E.nlat = 0 ∨ E.nlon = 0 ∨ E.nPoints = 0
  · have h1' : E.toGap.nlat = 0 ∨ E.toGap.nlon = 0 ∨ E.toGap.nPoints = 0 := h1
    rw [if_pos h1, if_pos h1']; rfl
  · have h1' : ¬ (E.toGap.nlat = 0 ∨ E.toGap.nlon = 0 ∨ E.toGap.nPoints = 0) := h1
    rw [if_neg h1, if_neg h1']
    by_cases h2 : ∀ i < E.nPoints, (E.eqvLatitude E.aq i).isSome
    · have h2' : ∀ i < E.toGap.nPoints, (E.toGap.eqvLatitude i).isSome := fun i hi => by rw [he]; exact h2 i hi
      rw [if_pos h2, if_pos h2', Outcome.map]
      congr 1
      funext j
      simp only [npInterp, Falwa.npInterp, he]
      have hyl : E.toGap.ylat = E.ylat := rfl
      have hnp : E.toGap.nPoints = E.nPoints := rfl
      rw [hyl, hnp]
      split_ifs <;> rfl
    · have h2' : ¬ ∀ i < E.toGap.nPoints, (E.toGap.eqvLatitude i).isSome := fun h => h2 fun i hi => by
        have := h i hi; rw [he] at this; exact this
      rw [if_neg h2, if_neg h2']; rfl

/-- Without missing values the profile is the ordinary one. -/
theorem C189_complete (E : EqvInput) : E.toGap.qref = E.qref.map fun q j => some (q j) := by
  rw [qref, funext (toGap_bins E), toGap_interp]
  rfl

end Input

/-- A single missing value in `pv_field` makes all of `equivalent_latitudes` NaN, and all of `lwa` but the last row, which
is 0. -/
theorem C189_barotropic {C : BaroConfig} {pv : ℕ → ℕ → Option ℝ} (h : ∃ r < C.nlat, ∃ c < C.nlon, pv r c = none)
    (hn : 0 < C.nPartitions) (hr : C.radius ≠ 0) :
    (∃ q, equivalentLatitudes C pv = .ok q ∧ ∀ j, q j = none) ∧
      ∃ L, baroLwa C pv = .ok L ∧ (∀ j c, j + 1 < C.nlat → L j c = none) ∧ ∀ c, L (C.nlat - 1) c = some 0 := by
  have hm : (eqvInput C pv).Missing := h
  have hs : (eqvInput C pv).Sound :=
    ⟨Nat.pos_of_ne_zero hm.sizes.1, Nat.pos_of_ne_zero hm.sizes.2, hn, hr⟩
  obtain ⟨q, e, hq⟩ := Input.C189_profile hm hs
  refine ⟨⟨q, e, hq⟩, _, by rw [baroLwa, equivalentLatitudes, e]; rfl, fun j c hj => ?_, fun c => ?_⟩
  · exact (C187_total_nan hj).2 (Or.inl (hq j))
  · exact C187_last_row (by omega)

/-- A barotropic field of three rows and one column with a gap. -/
example : (∃ r < 3, ∃ c < 1, (fun r _ => if r = 1 then none else some 2 : ℕ → ℕ → Option ℝ) r c = none) :=
  ⟨1, by omega, 0, by omega, by simp⟩

/-! ### C190: FAWA -/

namespace Input

variable {I : Input}

theorem qbar_eq_none (j : ℕ) : I.qbar j = none ↔ ∃ c < I.nlon, I.vort j c = none := by
  rw [qbar, Option.map_eq_none_iff, total_eq_none]

theorem cbarFromTop_eq_none : ∀ d, d + 1 ≤ I.nlat →
    (I.cbarFromTop d = none ↔ 1 ≤ d ∧ ∃ r, I.nlat - 1 - d ≤ r ∧ r < I.nlat ∧ ∃ c < I.nlon, I.vort r c = none)
  | 0, _ => by simp [cbarFromTop]
  | d + 1, hd => by
    rw [cbarFromTop, Option.map₂_eq_none_iff, Option.map₂_eq_none_iff, cbarFromTop_eq_none d (by omega), qbar_eq_none,
      qbar_eq_none]
    constructor
    · rintro (⟨_, r, h1, h2, h3⟩ | h | h)
      · exact ⟨by omega, r, by omega, h2, h3⟩
      · exact ⟨by omega, I.nlat - 1 - d, by omega, by omega, h⟩
      · exact ⟨by omega, I.nlat - 2 - d, by omega, by omega, h⟩
    · rintro ⟨_, r, h1, h2, h3⟩
      by_cases e : r = I.nlat - 2 - d
      · exact Or.inr (Or.inr (e ▸ h3))
      · by_cases e' : r = I.nlat - 1 - d
        · exact Or.inr (Or.inl (e' ▸ h3))
        · exact Or.inl ⟨by omega, r, by omega, h2, h3⟩

/-- The complete field `E` agrees with the given one where that is known. -/
def Completes (E : EqvInput) (I : Input) : Prop :=
  E.nlat = I.nlat ∧ E.nlon = I.nlon ∧ E.area = I.area ∧ ∀ r c v, I.vort r c = some v → E.vort r c = v

theorem Completes.cbar {E : EqvInput} (h : Completes E I) {j : ℕ}
    (hj : ∀ r, j ≤ r → r < I.nlat → ∀ c < I.nlon, I.vort r c ≠ none) : I.cbar j = some (E.cbar j) := by
  obtain ⟨h1, h2, h3, h4⟩ := h
  have hq : ∀ r, j ≤ r → r < I.nlat → I.qbar r = some (E.qbar r) := by
    intro r hr hr'
    rw [qbar, total_eq_some (g := fun c => E.vort r c), EqvInput.qbar, h2]
    · rfl
    · intro c hc
      obtain ⟨v, hv⟩ := Option.ne_none_iff_exists'.1 (hj r hr hr' c hc)
      rw [hv, h4 r c v hv]
  have ha : ∀ r, I.rowArea r = E.rowArea r := fun r => by rw [rowArea, EqvInput.rowArea, h2, h3]
  have key : ∀ d, j + d + 1 ≤ I.nlat → I.cbarFromTop d = some (E.cbarFromTop d) := by
    intro d
    induction d with
    | zero => intro _; rfl
    | succ d ih =>
      intro hd
      rw [cbarFromTop, ih (by omega), hq _ (by omega) (by omega), hq _ (by omega) (by omega), EqvInput.cbarFromTop, h1,
        ha, ha]
      rfl
  unfold Input.cbar EqvInput.cbar
  rw [h1]
  by_cases hc : 1 ≤ j ∧ j < I.nlat
  · rw [if_pos hc, if_pos hc, key _ (by omega)]
  · rw [if_neg hc, if_neg hc]

/-- Without missing values FAWA is the ordinary one. -/
theorem C190_complete (E : EqvInput) : E.toGap.fawa = E.fawa.map fun F j => some (F j) := by
  have hc : ∀ j, E.toGap.cbar j = some (E.cbar j) := fun j =>
    Completes.cbar (I := E.toGap) ⟨rfl, rfl, rfl, fun r c v h => Option.some.inj h⟩ (fun r _ _ c _ => by
      rw [show E.toGap.vort r c = some (E.vort r c) from rfl]; exact Option.some_ne_none _)
  have hq : E.toGap.cq = fun i => some (E.cq i) := funext fun i => toGap_running E (fun r c => E.area r c * E.vort r c) i
  rw [fawa, EqvInput.fawa, hq, toGap_interp]
  cases E.interpToYlat E.aq E.cq with
  | valueError => rfl
  | nan => rfl
  | ok q => simp only [Outcome.map, hc, Option.map₂_some_some]; rfl

/-- Where a value is missing, FAWA is NaN, as the profile is. -/
def C190_Statement : Prop :=
  ∀ I : Input, I.Missing → I.Sound → ∀ F, I.fawa = .ok F → ∀ j, j + 1 < I.nlat → F j = none

/-- FAWA in a field with a missing value: NaN at the rows from 1 up to the row of the missing value, except for the last
row; from there on it is a number, namely that of the area integral of the field alone, without the reference part. -/
theorem C190_partial (h : I.Missing) (hs : I.Sound) : ∃ F, I.fawa = .ok F ∧
    (∀ j, j + 2 < I.nlat → (∃ r, j + 1 ≤ r ∧ r < I.nlat ∧ ∃ c < I.nlon, I.vort r c = none) → F j = none) ∧
    ∀ j, (∀ r, j + 1 ≤ r → r < I.nlat → ∀ c < I.nlon, I.vort r c ≠ none) → ∀ E, Completes E I →
      F j = some (-(E.cbar (j + 1)) / (2 * Real.pi * I.radius)) := by
  obtain ⟨G, e, hG⟩ := h.interp_eq hs.2.2.1 I.cq (v := some 0) fun i hi => by rw [cq, h.running_eq hs.2.2.1 _ hi]
  refine ⟨_, by rw [fawa, e]; rfl, fun j hj hr => ?_, fun j hj E hE => ?_⟩
  · have hc : I.cbar (j + 1) = none := by
      rw [cbar, if_pos ⟨by omega, by omega⟩, cbarFromTop_eq_none _ (by omega)]
      obtain ⟨r, h1, h2, h3⟩ := hr
      exact ⟨by omega, r, by omega, h2, h3⟩
    beta_reduce
    rw [hc]; rfl
  · beta_reduce
    rw [hE.cbar hj, hG]
    simp

/-- Three rows, one column, with the first value missing. -/
noncomputable def sampleGap : Input :=
  ⟨3, 1, fun j => 60 * (j : ℝ) - 60, fun r _ => if r = 0 then none else some 2, fun _ _ => 1, 3, 1⟩

theorem sampleGap_missing : sampleGap.Missing ∧ sampleGap.Sound :=
  ⟨⟨0, by simp [sampleGap], 0, by simp [sampleGap], by simp [sampleGap]⟩, by
    refine ⟨?_, ?_, ?_, ?_⟩ <;> simp [sampleGap]⟩

/-- The code violates this. -/
theorem C190_refuted : ¬ C190_Statement := by
  intro hall
  obtain ⟨F, e, _, hF⟩ := C190_partial sampleGap_missing.1 sampleGap_missing.2
  have h1 := hall sampleGap sampleGap_missing.1 sampleGap_missing.2 F e 0 (by simp [sampleGap])
  have h2 := hF 0 (fun r h _ c _ => by
      have : r ≠ 0 := by omega
      simp [sampleGap, this])
    ⟨3, 1, fun j => 60 * (j : ℝ) - 60, fun _ _ => 2, fun _ _ => 1, 3, 1⟩
    ⟨rfl, rfl, rfl, fun r c v hv => by
      by_cases hr : r = 0
      · simp [sampleGap, hr] at hv
      · simpa [sampleGap, hr] using hv⟩
  rw [h1] at h2
  exact absurd h2 (by simp)

end Input

end Gap

end Falwa
