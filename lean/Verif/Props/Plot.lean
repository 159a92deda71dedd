import Verif.Model.Plot
import Verif.Lemmas.Numpy
import Mathlib.Order.Bounds.Basic

/-!
# C158: The figures that compare two fields
-/

noncomputable section

namespace Falwa.Plot

namespace Pair

variable (P : Pair)

/-- The values of the two fields. -/
def values : Set ℝ := {v | ∃ p ∈ cells P.nlat P.nlon, v = P.fa p.1 p.2 ∨ v = P.fb p.1 p.2}

/-- The grid is not empty. -/
def Grid : Prop := 0 < P.nlat ∧ 0 < P.nlon

variable {P}

theorem Grid.nonempty (h : P.Grid) : (cells P.nlat P.nlon).Nonempty :=
  ⟨(0, 0), by simp [cells, h.1, h.2]⟩

theorem Grid.least (h : P.Grid) : IsLeast P.values P.cmin := by
  constructor
  · rcases min_choice (amin P.nlat P.nlon P.fa) (amin P.nlat P.nlon P.fb) with e | e
    · obtain ⟨p, hp, hv⟩ := exists_amin (vort := P.fa) h.nonempty
      exact ⟨p, hp, Or.inl (by rw [cmin, e, hv])⟩
    · obtain ⟨p, hp, hv⟩ := exists_amin (vort := P.fb) h.nonempty
      exact ⟨p, hp, Or.inr (by rw [cmin, e, hv])⟩
  · rintro v ⟨p, hp, rfl | rfl⟩
    · exact (min_le_left _ _).trans (amin_le hp)
    · exact (min_le_right _ _).trans (amin_le hp)

theorem Grid.greatest (h : P.Grid) : IsGreatest P.values P.cmax := by
  constructor
  · rcases max_choice (amax P.nlat P.nlon P.fa) (amax P.nlat P.nlon P.fb) with e | e
    · obtain ⟨p, hp, hv⟩ := exists_amax (vort := P.fa) h.nonempty
      exact ⟨p, hp, Or.inl (by rw [cmax, e, hv])⟩
    · obtain ⟨p, hp, hv⟩ := exists_amax (vort := P.fb) h.nonempty
      exact ⟨p, hp, Or.inr (by rw [cmax, e, hv])⟩
  · rintro v ⟨p, hp, rfl | rfl⟩
    · exact (le_amax hp).trans (le_max_left _ _)
    · exact (le_amax hp).trans (le_max_right _ _)

end Pair

theorem contourf_eq (lo hi : ℝ) :
    contourf lo hi = if lo < hi then Except.ok (Scale.levels lo hi) else Except.error PyError.valueError := by
  have key : (∀ i < 30, linspace lo hi 31 i < linspace lo hi 31 (i + 1)) ↔ lo < hi := by
    have step : ∀ i : ℕ, linspace lo hi 31 (i + 1) - linspace lo hi 31 i = (hi - lo) / 30 := by
      intro i
      simp only [linspace]
      push_cast
      ring
    constructor
    · intro h
      have := h 0 (by norm_num)
      have := step 0
      linarith
    · intro h i _
      have := step i
      linarith
  unfold contourf
  by_cases h : lo < hi
  · rw [if_pos (key.mpr h), if_pos h]
  · rw [if_neg (fun e => h (key.mp e)), if_neg h]

/-- **C158 (common scale).** Where either figure is drawn, the panels of the two fields have one scale, from the least to the greatest
value of the two fields, so that every value is coloured and no part of the scale lies outside of the data. -/
theorem C158_common_scale {P : Pair} (hP : P.Grid) {factor : Option ℝ} {F : Figure}
    (h : P.onMap factor = .ok F ∨ P.plain factor = .ok F) :
    ∃ lo hi, lo < hi ∧ IsLeast P.values lo ∧ IsGreatest P.values hi ∧ F.a = .levels lo hi ∧ F.b = .levels lo hi
      ∧ ∀ v ∈ P.values, F.a.Shows v ∧ F.b.Shows v := by
  have main : P.cmin < P.cmax ∧ F.a = .levels P.cmin P.cmax ∧ F.b = .levels P.cmin P.cmax := by
    by_cases hc : P.cmin < P.cmax
    · refine ⟨hc, ?_⟩
      simp only [Pair.onMap, Pair.plain, contourf_eq, if_pos hc, bind, Except.bind] at h
      cases factor with
      | none =>
        rcases h with h | h
        · cases h
        · cases h; exact ⟨rfl, rfl⟩
      | some f =>
        simp only at h
        by_cases ht : 0 < P.top f
        · by_cases hf : f = 0
          · simp only [if_pos ht, if_pos hf] at h
            rcases h with h | h <;> cases h <;> exact ⟨rfl, rfl⟩
          · simp only [if_pos ht, if_neg hf, or_self] at h
            cases h
            exact ⟨rfl, rfl⟩
        · by_cases hf : f = 0
          · simp only [if_neg ht, if_pos hf] at h
            rcases h with h | h <;> cases h
            exact ⟨rfl, rfl⟩
          · simp only [if_neg ht, if_neg hf, or_self] at h
            cases h
    · simp only [Pair.onMap, Pair.plain, contourf_eq, if_neg hc, bind, Except.bind, or_self] at h
      cases h
  obtain ⟨hc, ha, hb⟩ := main
  refine ⟨P.cmin, P.cmax, hc, hP.least, hP.greatest, ha, hb, fun v hv => ?_⟩
  rw [ha, hb]
  exact ⟨⟨hP.least.2 hv, hP.greatest.2 hv⟩, ⟨hP.least.2 hv, hP.greatest.2 hv⟩⟩

theorem Pair.top_pos {P : Pair} (hc : P.cmin < P.cmax) (f : ℝ) : 0 < P.top f ↔ 0 < f := by
  have hm : 0 < max |P.cmin| |P.cmax| := by
    rcases eq_or_ne P.cmax 0 with h0 | h0
    · exact lt_max_of_lt_left (abs_pos.mpr (by rw [h0] at hc; exact hc.ne))
    · exact lt_max_of_lt_right (abs_pos.mpr h0)
  exact mul_pos_iff_of_pos_right hm

/-- **C158 (which calls work).** `compare_two_fields` draws its figure exactly if the two fields are not the same constant and the
factor is not negative; `compare_two_fields_on_map` exactly if they are not the same constant and the factor is a positive number. -/
theorem C158_accepted {P : Pair} (hP : P.Grid) (factor : Option ℝ) :
    ((∃ F, P.plain factor = .ok F) ↔ (∃ v ∈ P.values, ∃ w ∈ P.values, v ≠ w) ∧ ∀ f, factor = some f → 0 ≤ f)
      ∧ ((∃ F, P.onMap factor = .ok F) ↔ (∃ v ∈ P.values, ∃ w ∈ P.values, v ≠ w) ∧ ∃ f, factor = some f ∧ 0 < f) := by
  have hne : (∃ v ∈ P.values, ∃ w ∈ P.values, v ≠ w) ↔ P.cmin < P.cmax := by
    constructor
    · rintro ⟨v, hv, w, hw, hvw⟩
      by_contra hc
      push Not at hc
      have := hP.least.2 hv
      have := hP.least.2 hw
      have := hP.greatest.2 hv
      have := hP.greatest.2 hw
      exact hvw (by linarith)
    · intro h
      exact ⟨_, hP.least.1, _, hP.greatest.1, h.ne⟩
  rw [hne]
  by_cases hc : P.cmin < P.cmax
  · cases factor with
    | none => simp [Pair.onMap, Pair.plain, contourf_eq, hc, bind, Except.bind]
    | some f =>
      have ht := Pair.top_pos hc f
      by_cases hp : 0 < f
      · simp [Pair.onMap, Pair.plain, contourf_eq, hc, bind, Except.bind, ht, hp, hp.ne', hp.le]
      · rcases eq_or_ne f 0 with h0 | h0
        · have h1 : ¬ 0 < P.top 0 := by simp [Pair.top]
          simp [Pair.onMap, Pair.plain, contourf_eq, hc, bind, Except.bind, h1, h0]
        · have hlt : ¬ 0 ≤ f := fun h => hp (lt_of_le_of_ne h (Ne.symm h0))
          simp [Pair.onMap, Pair.plain, contourf_eq, hc, bind, Except.bind, ht, hp, h0, hlt]
  · simp [Pair.onMap, Pair.plain, contourf_eq, hc, bind, Except.bind]

/-- **C158 (both functions agree)** for every number except 0. -/
theorem C158_agree (P : Pair) {f : ℝ} (hf : f ≠ 0) : P.plain (some f) = P.onMap (some f) := by
  simp only [Pair.plain, Pair.onMap, if_neg hf]

/-- **C158 (what the difference panel shows).** A difference is coloured exactly if it is at most the factor times the greatest
modulus of all values; larger differences are left blank. -/
theorem C158_difference {P : Pair} (hP : P.Grid) {f : ℝ} (hf : 0 < f) {F : Figure}
    (h : P.onMap (some f) = .ok F ∨ P.plain (some f) = .ok F) :
    ∃ M, IsGreatest ((fun v => |v|) '' P.values) M ∧ F.diff = .levels 0 (f * M)
      ∧ ∀ p ∈ cells P.nlat P.nlon, (F.diff.Shows |P.fa p.1 p.2 - P.fb p.1 p.2| ↔ |P.fa p.1 p.2 - P.fb p.1 p.2| ≤ f * M) := by
  rw [C158_agree P hf.ne', or_self] at h
  have hd : F.diff = .levels 0 (P.top f) := by
    by_cases hc : P.cmin < P.cmax
    · have ht := (Pair.top_pos hc f).mpr hf
      simp only [Pair.onMap, contourf_eq, if_pos hc, if_pos ht, bind, Except.bind] at h
      cases h
      rfl
    · simp only [Pair.onMap, contourf_eq, if_neg hc, bind, Except.bind] at h
      cases h
  refine ⟨max |P.cmin| |P.cmax|, ⟨?_, ?_⟩, hd, fun p _ => ?_⟩
  · rcases max_choice |P.cmin| |P.cmax| with e | e
    · exact ⟨P.cmin, hP.least.1, e.symm⟩
    · exact ⟨P.cmax, hP.greatest.1, e.symm⟩
  · rintro _ ⟨v, hv, rfl⟩
    exact abs_le_max_abs_abs (hP.least.2 hv) (hP.greatest.2 hv)
  · rw [hd]
    exact ⟨fun h => h.2, fun h => ⟨abs_nonneg _, h⟩⟩

/-- **C158 (the factor 2 shows everything).** -/
theorem C158_two {P : Pair} (hP : P.Grid) {f : ℝ} (hf : 2 ≤ f) {F : Figure}
    (h : P.onMap (some f) = .ok F ∨ P.plain (some f) = .ok F) (p : ℕ × ℕ) (hp : p ∈ cells P.nlat P.nlon) :
    F.diff.Shows |P.fa p.1 p.2 - P.fb p.1 p.2| := by
  obtain ⟨M, hM, _, hs⟩ := C158_difference hP (by linarith) h
  rw [hs p hp]
  have h1 : |P.fa p.1 p.2| ≤ M := hM.2 ⟨_, ⟨p, hp, Or.inl rfl⟩, rfl⟩
  have h2 : |P.fb p.1 p.2| ≤ M := hM.2 ⟨_, ⟨p, hp, Or.inr rfl⟩, rfl⟩
  have h3 : 0 ≤ M := (abs_nonneg _).trans h1
  calc |P.fa p.1 p.2 - P.fb p.1 p.2| ≤ |P.fa p.1 p.2| + |P.fb p.1 p.2| := abs_sub _ _
    _ ≤ 2 * M := by linarith
    _ ≤ f * M := mul_le_mul_of_nonneg_right hf h3

/-- The documented scale of the difference panel: chosen by matplotlib for the factor `None`, from 0 to the factor times the greatest
value of the two fields otherwise. -/
def Documented (P : Pair) (factor : Option ℝ) (s : Scale) : Prop :=
  match factor with
  | none => s = .auto
  | some f => ∃ M, IsGreatest P.values M ∧ s = .levels 0 (f * M)

/-- **C158, full claim**: for a factor `None` or a positive factor, both functions draw the figure with the documented scale. -/
def C158_Statement : Prop :=
  ∀ P : Pair, P.Grid → ∀ factor : Option ℝ, (∀ f, factor = some f → 0 < f) →
    (∃ F, P.plain factor = .ok F ∧ Documented P factor F.diff) ∧ ∃ F, P.onMap factor = .ok F ∧ Documented P factor F.diff

/-- **C158 (partial).** Missing from `C158_Statement`: the factor `None` on the map, equal constant fields, and fields whose least
value is more negative than the greatest value is positive. Otherwise the figure is drawn with the documented scale. -/
theorem C158_partial {P : Pair} (hP : P.Grid) (hv : ∃ v ∈ P.values, ∃ w ∈ P.values, v ≠ w)
    (hpos : ∃ w ∈ P.values, ∀ v ∈ P.values, -v ≤ w) :
    (∀ factor : Option ℝ, (∀ f, factor = some f → 0 < f) → ∃ F, P.plain factor = .ok F ∧ Documented P factor F.diff)
      ∧ ∀ f : ℝ, 0 < f → ∃ F, P.onMap (some f) = .ok F ∧ Documented P (some f) F.diff := by
  have hcmax : max |P.cmin| |P.cmax| = P.cmax := by
    obtain ⟨w, hw, hall⟩ := hpos
    have h1 := hall _ hP.least.1
    have h2 := hall _ hP.greatest.1
    have h3 := hP.greatest.2 hw
    have h4 := hP.least.2 hP.greatest.1
    rw [max_eq_iff]
    have h5 : |P.cmax| = P.cmax := abs_of_nonneg (by linarith)
    exact Or.inr ⟨h5, by rw [h5]; exact abs_le.mpr ⟨by linarith, h4⟩⟩
  have num : ∀ f : ℝ, 0 < f → ∃ F, P.onMap (some f) = .ok F ∧ Documented P (some f) F.diff := by
    intro f hf
    obtain ⟨F, hF⟩ := (C158_accepted hP (some f)).2.mpr ⟨hv, f, rfl, hf⟩
    obtain ⟨M, hM, hd, _⟩ := C158_difference hP hf (Or.inl hF)
    refine ⟨F, hF, P.cmax, hP.greatest, ?_⟩
    have hM' : M = P.cmax := by
      have hg : IsGreatest ((fun v => |v|) '' P.values) (max |P.cmin| |P.cmax|) := by
        refine ⟨?_, ?_⟩
        · rcases max_choice |P.cmin| |P.cmax| with e | e
          · exact ⟨P.cmin, hP.least.1, e.symm⟩
          · exact ⟨P.cmax, hP.greatest.1, e.symm⟩
        · rintro _ ⟨v, hv, rfl⟩
          exact abs_le_max_abs_abs (hP.least.2 hv) (hP.greatest.2 hv)
      rw [← hcmax]
      exact hM.unique hg
    rw [hd, hM']
  refine ⟨fun factor hf => ?_, num⟩
  cases factor with
  | none =>
    obtain ⟨F, hF⟩ := (C158_accepted hP none).1.mpr ⟨hv, by simp⟩
    refine ⟨F, hF, ?_⟩
    by_cases hc : P.cmin < P.cmax
    · simp only [Pair.plain, contourf_eq, if_pos hc, bind, Except.bind] at hF
      cases hF
      rfl
    · simp only [Pair.plain, contourf_eq, if_neg hc, bind, Except.bind] at hF
      cases hF
  | some f =>
    obtain ⟨F, hF, hd⟩ := num f (hf f rfl)
    exact ⟨F, by rw [C158_agree P (hf f rfl).ne', hF], hd⟩

/-- Two fields of two values. -/
def two (a b c d : ℝ) : Pair := ⟨1, 2, fun _ i => if i = 0 then a else b, fun _ i => if i = 0 then c else d⟩

theorem two_values (a b c d : ℝ) : (two a b c d).values = {a, b, c, d} := by
  ext v
  simp only [Pair.values, two, cells, Set.mem_ofPred_eq, Finset.mem_product, Finset.mem_range, Prod.exists,
    Set.mem_insert_iff, Set.mem_singleton_iff]
  constructor
  · rintro ⟨j, i, ⟨_, hi⟩, h | h⟩ <;> split_ifs at h <;> simp [h]
  · rintro (rfl | rfl | rfl | rfl)
    · exact ⟨0, 0, by norm_num, by simp⟩
    · exact ⟨0, 1, by norm_num, by simp⟩
    · exact ⟨0, 0, by norm_num, by simp⟩
    · exact ⟨0, 1, by norm_num, by simp⟩

theorem two_grid (a b c d : ℝ) : (two a b c d).Grid := ⟨by norm_num [two], by norm_num [two]⟩

/-- **C158 (the map without a factor).** The documented call with `diff_factor=None` fails on the map for all fields. -/
theorem C158_none {P : Pair} : ∀ F, P.onMap none ≠ .ok F := by
  intro F
  by_cases hc : P.cmin < P.cmax <;> simp [Pair.onMap, contourf_eq, hc, bind, Except.bind]

/-- **C158 (refuted)** by the factor `None`, and for positive factors by negative fields and by equal constant fields. -/
theorem C158_refuted :
    ¬ C158_Statement ∧ (∀ f : ℝ, 0 < f → ∃ P : Pair, P.Grid ∧ ∃ F, P.plain (some f) = .ok F ∧ ¬ Documented P (some f) F.diff)
      ∧ ∀ factor, ∃ P : Pair, P.Grid ∧ P.plain factor = .error .valueError ∧ P.onMap factor = .error .valueError := by
  refine ⟨fun h => ?_, fun f hf => ?_, fun factor => ?_⟩
  · obtain ⟨_, F, hF, _⟩ := h (two 0 1 0 1) (two_grid _ _ _ _) none (by simp)
    exact C158_none F hF
  · have hG := two_grid (-2) (-1) (-2) (-1)
    obtain ⟨F, hF⟩ := (C158_accepted hG (some f)).1.mpr
      ⟨⟨-2, by simp [two_values], -1, by simp [two_values], by norm_num⟩, by rintro _ ⟨⟩; exact hf.le⟩
    refine ⟨_, hG, F, hF, ?_⟩
    rintro ⟨M, hM, hd⟩
    obtain ⟨N, hN, hd', _⟩ := C158_difference hG hf (Or.inr hF)
    rw [hd'] at hd
    injection hd with _ he
    have hMN : N = M := mul_left_cancel₀ hf.ne' he
    have hN0 : |(-2 : ℝ)| ≤ N := hN.2 ⟨-2, by simp [two_values], rfl⟩
    have hM0 : M ∈ (two (-2) (-1) (-2) (-1)).values := hM.1
    rw [abs_neg, abs_of_pos (by norm_num : (0 : ℝ) < 2)] at hN0
    simp only [two_values, Set.mem_insert_iff, Set.mem_singleton_iff] at hM0
    rcases hM0 with h | h | h | h <;> linarith
  · have hG := two_grid 1 1 1 1
    have hc : ¬ (two 1 1 1 1).cmin < (two 1 1 1 1).cmax := by
      have h1 := hG.least.1
      have h2 := hG.greatest.1
      simp only [two_values, Set.mem_insert_iff, Set.mem_singleton_iff, or_self] at h1 h2
      rw [h1, h2]
      exact lt_irrefl _
    refine ⟨_, hG, ?_, ?_⟩
    · simp only [Pair.plain, contourf_eq, if_neg hc, bind, Except.bind]
    · simp only [Pair.onMap, contourf_eq, if_neg hc, bind, Except.bind]

/-- Fields that differ by more than the default factor allows: the difference panel is drawn and blank at that cell. -/
example : ∃ F, (two 0 1 0 2).onMap (some (1 / 100)) = .ok F ∧ ¬ F.diff.Shows |(1 : ℝ) - 2| := by
  have hG := two_grid 0 1 0 2
  obtain ⟨F, hF⟩ := (C158_accepted hG (some (1 / 100))).2.mpr
    ⟨⟨0, by simp [two_values], 1, by simp [two_values], by norm_num⟩, _, rfl, by norm_num⟩
  refine ⟨F, hF, ?_⟩
  obtain ⟨M, hM, hd, _⟩ := C158_difference hG (by norm_num) (Or.inl hF)
  obtain ⟨v, hv, rfl⟩ := hM.1
  rw [hd]
  rintro ⟨_, h⟩
  simp only [two_values, Set.mem_insert_iff, Set.mem_singleton_iff] at hv
  rcases hv with rfl | rfl | rfl | rfl <;> norm_num at h

/-- The hypotheses of `C158_partial` hold for fields that are not negative. -/
example : (two 0 1 0 2).Grid ∧ (∃ v ∈ (two 0 1 0 2).values, ∃ w ∈ (two 0 1 0 2).values, v ≠ w)
    ∧ ∃ w ∈ (two 0 1 0 2).values, ∀ v ∈ (two 0 1 0 2).values, -v ≤ w :=
  ⟨two_grid _ _ _ _, ⟨0, by simp [two_values], 1, by simp [two_values], by norm_num⟩,
    2, by simp [two_values], by
      intro v hv
      simp only [two_values, Set.mem_insert_iff, Set.mem_singleton_iff] at hv
      rcases hv with rfl | rfl | rfl | rfl <;> norm_num⟩

end Falwa.Plot
