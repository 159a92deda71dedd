import Verif.Model.Scripts
import Verif.Props.Interp

/-! # C153: order of the axes in the scripts. C154: interpolation from hybrid levels. -/

noncomputable section

namespace Falwa.Script

variable {β : Type*} {nlat nlev : ℕ} {f : Data β}

/-! ### C153 -/

/-- The file as netCDF defines it: each axis strictly monotonic, with at least two points. -/
structure IsFile (nlat nlev : ℕ) (f : Data β) : Prop where
  two_lat : 2 ≤ nlat
  two_lev : 2 ≤ nlev
  lat : Ascending nlat f.lat ∨ Ascending nlat (rev nlat f.lat)
  lev : Ascending nlev f.lev ∨ Ascending nlev (rev nlev f.lev)

/-- As the package wants it: latitude ascending, pressure descending. -/
def Ordered (nlat nlev : ℕ) (d : Data β) : Prop := Ascending nlat d.lat ∧ ∀ k l, k < l → l < nlev → d.lev l < d.lev k

/-- The same atmosphere: every value stands at the latitude and the pressure where the file has it. -/
def SameAtmosphere (nlat nlev : ℕ) (f d : Data β) : Prop :=
  ∀ j k j' k', j < nlat → k < nlev → j' < nlat → k' < nlev → d.lat j = f.lat j' → d.lev k = f.lev k' → d.val k j = f.val k' j'

theorem rev_rev {γ : Type*} {n j : ℕ} (x : ℕ → γ) (h : j < n) : rev n (rev n x) j = x j := by
  unfold rev
  congr 1
  omega

theorem ascending_congr {n : ℕ} {x y : ℕ → ℝ} (h : ∀ j, j < n → x j = y j) (hx : Ascending n x) : Ascending n y := by
  intro i j hij hj
  rw [← h i (by omega), ← h j hj]
  exact hx i j hij hj

theorem asc_inj {n : ℕ} {x : ℕ → ℝ} (h : Ascending n x) {i j : ℕ} (hi : i < n) (hj : j < n) (e : x i = x j) : i = j := by
  rcases Nat.lt_trichotomy i j with c | c | c
  · exact absurd e (h i j c hj).ne
  · exact c
  · exact absurd e (h j i c hi).ne'

theorem mono_inj {n : ℕ} {x : ℕ → ℝ} (h : Ascending n x ∨ Ascending n (rev n x)) {i j : ℕ} (hi : i < n) (hj : j < n)
    (e : x i = x j) : i = j := by
  rcases h with h | h
  · exact asc_inj h hi hj e
  · have := asc_inj h (i := n - 1 - i) (j := n - 1 - j) (by omega) (by omega) (by
      unfold rev
      rw [show n - 1 - (n - 1 - i) = i by omega, show n - 1 - (n - 1 - j) = j by omega]
      exact e)
    omega

/-- Which of the two cases the test of the script finds. -/
theorem not_both {n : ℕ} {x : ℕ → ℝ} (hn : 2 ≤ n) (h : Ascending n x) (h' : Ascending n (rev n x)) : False := by
  have a := h 0 (n - 1) (by omega) (by omega)
  have b := h' 0 (n - 1) (by omega) (by omega)
  unfold rev at b
  rw [show n - 1 - 0 = n - 1 by omega, show n - 1 - (n - 1) = 0 by omega] at b
  exact absurd a (not_lt.2 b.le)

theorem first_neg {n : ℕ} {x : ℕ → ℝ} (hn : 2 ≤ n) (h : Ascending n (rev n x)) : x 1 - x 0 < 0 := by
  have b := h (n - 2) (n - 1) (by omega) (by omega)
  unfold rev at b
  rw [show n - 1 - (n - 2) = 1 by omega, show n - 1 - (n - 1) = 0 by omega] at b
  linarith

theorem first_pos {n : ℕ} {x : ℕ → ℝ} (hn : 2 ≤ n) (h : Ascending n x) : 0 < x 1 - x 0 := sub_pos.2 (h 0 1 (by omega) (by omega))

theorem latIf_asc {n : ℕ} {x : ℕ → ℝ} (hn : 2 ≤ n) (h : Ascending n x) : latIf n x = x := by
  unfold latIf
  rw [if_neg (not_lt.2 (first_pos hn h).le)]

theorem latIf_desc {n : ℕ} {x : ℕ → ℝ} (hn : 2 ≤ n) (h : Ascending n (rev n x)) : latIf n x = rev n x := by
  unfold latIf
  rw [if_pos (first_neg hn h)]

theorem levIf_asc {n : ℕ} {x : ℕ → ℝ} (hn : 2 ≤ n) (h : Ascending n x) : levIf n x = rev n x := by
  unfold levIf
  rw [if_pos (first_pos hn h)]

theorem levIf_desc {n : ℕ} {x : ℕ → ℝ} (hn : 2 ≤ n) (h : Ascending n (rev n x)) : levIf n x = x := by
  unfold levIf
  rw [if_neg (not_lt.2 (first_neg hn h).le)]

theorem rev_asc {n : ℕ} {x : ℕ → ℝ} (h : Ascending n x) {k l : ℕ} (hkl : k < l) (hl : l < n) : rev n x l < rev n x k :=
  h _ _ (by omega) (by omega)

theorem desc_of_rev {n : ℕ} {x : ℕ → ℝ} (h : Ascending n (rev n x)) {k l : ℕ} (hkl : k < l) (hl : l < n) : x l < x k := by
  have := rev_asc h hkl hl
  rwa [rev_rev x hl, rev_rev x (by omega)] at this

/-- The coordinates that `lubis` and `sample` hand over are in the right order. -/
theorem ordered_if (hf : IsFile nlat nlev f) (val : ℕ → ℕ → β) : Ordered nlat nlev ⟨latIf nlat f.lat, levIf nlev f.lev, val⟩ := by
  refine ⟨?_, fun k l hkl hl => ?_⟩
  · show Ascending nlat (latIf nlat f.lat)
    rcases hf.lat with h | h
    · rw [latIf_asc hf.two_lat h]
      exact h
    · rw [latIf_desc hf.two_lat h]
      exact h
  · show levIf nlev f.lev l < levIf nlev f.lev k
    rcases hf.lev with h | h
    · rw [levIf_asc hf.two_lev h]
      exact rev_asc h hkl hl
    · rw [levIf_desc hf.two_lev h]
      exact desc_of_rev h hkl hl

/-- C153: every script hands over the atmosphere of the file, in the order that the package wants, whatever the order in the file. -/
def C153_Statement : Prop :=
  ∀ (nlat nlev : ℕ) (f : Data ℝ), IsFile nlat nlev f →
    ∀ s ∈ [lubis nlat nlev, sample nlat nlev, predigest nlat nlev], Ordered nlat nlev (s f) ∧ SameAtmosphere nlat nlev f (s f)

/-- C153, order: the scripts that test the order of the axes hand over ordered coordinates for every file; the one that does not
test does so if and only if both axes of the file have to be reversed. -/
theorem C153_order (hf : IsFile nlat nlev f) :
    Ordered nlat nlev (lubis nlat nlev f) ∧ Ordered nlat nlev (sample nlat nlev f) ∧
    (Ordered nlat nlev (predigest nlat nlev f) ↔ Ascending nlat (rev nlat f.lat) ∧ Ascending nlev f.lev) := by
  refine ⟨ordered_if hf _, ordered_if hf _, fun h => ⟨h.1, ?_⟩, fun h => ⟨h.1, fun k l hkl hl => rev_asc h.2 hkl hl⟩⟩
  rcases hf.lev with c | c
  · exact c
  · have a := h.2 0 (nlev - 1) (by have := hf.two_lev; omega) (by have := hf.two_lev; omega)
    have b := c 0 (nlev - 1) (by have := hf.two_lev; omega) (by have := hf.two_lev; omega)
    exact absurd a (not_lt.2 b.le)

/-- C153, `predigest_data.py`: the values stay with their coordinates. -/
theorem C153_predigest_partial (hf : IsFile nlat nlev f) : SameAtmosphere nlat nlev f (predigest nlat nlev f) := by
  intro j k j' k' hj hk hj' hk' h1 h2
  have e1 := mono_inj hf.lat (i := nlat - 1 - j) (by omega) hj' h1
  have e2 := mono_inj hf.lev (i := nlev - 1 - k) (by omega) hk' h2
  show f.val (nlev - 1 - k) (nlat - 1 - j) = _
  rw [e1, e2]

/-- C153, Lubis et al.: for every file whose axes are in the order of the package, the atmosphere of the file is handed over. -/
theorem C153_lubis_partial (hf : IsFile nlat nlev f) (h1 : Ascending nlat f.lat) (h2 : Ascending nlev (rev nlev f.lev)) :
    SameAtmosphere nlat nlev f (lubis nlat nlev f) := by
  intro j k j' k' hj hk hj' hk' e1 e2
  have a1 : latIf nlat f.lat j = f.lat j' := e1
  have a2 : levIf nlev f.lev k = f.lev k' := e2
  rw [latIf_asc hf.two_lat h1] at a1
  rw [levIf_desc hf.two_lev h2] at a2
  show f.val k j = _
  rw [mono_inj hf.lat hj hj' a1, mono_inj hf.lev hk hk' a2]

/-- C153, Neal et al.: for every file whose axes are both in the opposite order, the atmosphere of the file is handed over. -/
theorem C153_sample_partial (hf : IsFile nlat nlev f) (h1 : Ascending nlat (rev nlat f.lat)) (h2 : Ascending nlev f.lev) :
    SameAtmosphere nlat nlev f (sample nlat nlev f) := by
  intro j k j' k' hj hk hj' hk' e1 e2
  have a1 : latIf nlat f.lat j = f.lat j' := e1
  have a2 : levIf nlev f.lev k = f.lev k' := e2
  rw [latIf_desc hf.two_lat h1] at a1
  rw [levIf_asc hf.two_lev h2] at a2
  show f.val (nlev - 1 - k) (nlat - 1 - j) = _
  rw [mono_inj hf.lat (i := nlat - 1 - j) (by omega) hj' a1, mono_inj hf.lev (i := nlev - 1 - k) (by omega) hk' a2]

/-- C153, Lubis et al., other files: the field is mirrored along every axis that the file has in the opposite order. With a
latitude axis symmetric about the equator, the value handed over for latitude `φ` is that of `-φ`. -/
theorem C153_lubis_mirrored (hf : IsFile nlat nlev f) {j k : ℕ} (hj : j < nlat) (h1 : Ascending nlat (rev nlat f.lat))
    (h2 : Ascending nlev (rev nlev f.lev)) (hs : ∀ j, j < nlat → f.lat (nlat - 1 - j) = -f.lat j) :
    (lubis nlat nlev f).lat j = -f.lat j ∧ (lubis nlat nlev f).lev k = f.lev k ∧ (lubis nlat nlev f).val k j = f.val k j := by
  refine ⟨?_, ?_, rfl⟩
  · show latIf nlat f.lat j = _
    rw [latIf_desc hf.two_lat h1]
    exact hs j hj
  · show levIf nlev f.lev k = _
    rw [levIf_desc hf.two_lev h2]

/-- C153, which files: a file whose values are all different is handed over correctly by the scripts of Lubis et al. only if both axes
are in the order of the package, by that of Neal et al. only if both are in the opposite order. -/
theorem C153_iff (hf : IsFile nlat nlev f) (hv : ∀ j k j' k', j < nlat → k < nlev → j' < nlat → k' < nlev →
      f.val k j = f.val k' j' → j = j' ∧ k = k') :
    (SameAtmosphere nlat nlev f (lubis nlat nlev f) ↔ Ascending nlat f.lat ∧ Ascending nlev (rev nlev f.lev)) ∧
    (SameAtmosphere nlat nlev f (sample nlat nlev f) ↔ Ascending nlat (rev nlat f.lat) ∧ Ascending nlev f.lev) := by
  have t1 := hf.two_lat
  have t2 := hf.two_lev
  have latC : ∀ j, j < nlat → ∃ j', j' < nlat ∧ latIf nlat f.lat j = f.lat j' ∧
      ((Ascending nlat f.lat → j' = j) ∧ (Ascending nlat (rev nlat f.lat) → j' = nlat - 1 - j)) := by
    intro j hj
    rcases hf.lat with h | h
    · exact ⟨j, hj, by rw [latIf_asc t1 h], fun _ => rfl, fun h' => (not_both t1 h h').elim⟩
    · exact ⟨nlat - 1 - j, by omega, by rw [latIf_desc t1 h]; rfl, fun h' => (not_both t1 h' h).elim, fun _ => rfl⟩
  have levC : ∀ k, k < nlev → ∃ k', k' < nlev ∧ levIf nlev f.lev k = f.lev k' ∧
      ((Ascending nlev f.lev → k' = nlev - 1 - k) ∧ (Ascending nlev (rev nlev f.lev) → k' = k)) := by
    intro k hk
    rcases hf.lev with h | h
    · exact ⟨nlev - 1 - k, by omega, by rw [levIf_asc t2 h]; rfl, fun _ => rfl, fun h' => (not_both t2 h h').elim⟩
    · exact ⟨k, hk, by rw [levIf_desc t2 h], fun h' => (not_both t2 h' h).elim, fun _ => rfl⟩
  obtain ⟨j', hj', ej, aj, bj⟩ := latC 0 (by omega)
  obtain ⟨k', hk', ek, ak, bk⟩ := levC 0 (by omega)
  refine ⟨⟨fun h => ?_, fun h => C153_lubis_partial hf h.1 h.2⟩, ⟨fun h => ?_, fun h => C153_sample_partial hf h.1 h.2⟩⟩
  · have e := h 0 0 j' k' (by omega) (by omega) hj' hk' ej ek
    have := hv 0 0 j' k' (by omega) (by omega) hj' hk' e
    refine ⟨hf.lat.resolve_right fun c => ?_, hf.lev.resolve_left fun c => ?_⟩
    · have := bj c
      omega
    · have := ak c
      omega
  · have e := h 0 0 j' k' (by omega) (by omega) hj' hk' ej ek
    have := hv (nlat - 1 - 0) (nlev - 1 - 0) j' k' (by omega) (by omega) hj' hk' e
    refine ⟨hf.lat.resolve_left fun c => ?_, hf.lev.resolve_right fun c => ?_⟩
    · have := aj c
      omega
    · have := bk c
      omega

/-- Two latitudes from north to south, two pressures from below upwards, four different values. -/
def north : Data ℝ := ⟨fun j => 45 - 90 * j, fun k => 1000 - 500 * k, fun k j => 2 * k + j⟩

theorem north_file : IsFile 2 2 north where
  two_lat := le_rfl
  two_lev := le_rfl
  lat := Or.inr (by
    intro i j hij hj
    obtain ⟨rfl, rfl⟩ : i = 0 ∧ j = 1 := by omega
    unfold rev north
    norm_num)
  lev := Or.inr (by
    intro i j hij hj
    obtain ⟨rfl, rfl⟩ : i = 0 ∧ j = 1 := by omega
    unfold rev north
    norm_num)

theorem C153_refuted : ¬ C153_Statement := by
  intro h
  have a := (h 2 2 north north_file (lubis 2 2) (by simp)).2 0 0 1 0 (by omega) (by omega) (by omega) (by omega)
    (by
      show latIf 2 north.lat 0 = _
      unfold latIf
      rw [if_pos (by unfold north; norm_num)]
      rfl)
    (by
      show levIf 2 north.lev 0 = _
      unfold levIf
      rw [if_neg (by unfold north; norm_num)])
  revert a
  show (2 * ((0 : ℕ) : ℝ) + ((0 : ℕ) : ℝ)) ≠ 2 * ((0 : ℕ) : ℝ) + ((1 : ℕ) : ℝ)
  norm_num

/-! ### C154 -/

namespace Hybrid

variable {H : Hybrid}

/-- Hybrid coefficients: interfaces ascending in pressure, the last one on the ground. -/
structure Sound (H : Hybrid) : Prop where
  two : 2 ≤ H.nlev
  asc : ∀ l, l < H.nlev → H.face l < H.face (l + 1)
  ground : H.ai H.nlev = 0 ∧ H.bi H.nlev = 1

theorem Sound.face_lt (h : H.Sound) {k l : ℕ} (hkl : k < l) (hl : l ≤ H.nlev) : H.face k < H.face l := by
  obtain ⟨d, rfl⟩ : ∃ d, l = k + 1 + d := ⟨l - k - 1, by omega⟩
  induction d with
  | zero => exact h.asc k (by omega)
  | succ d ih => exact lt_trans (ih (by omega) (by omega)) (h.asc (k + 1 + d) (by omega))

theorem Sound.mid_asc (h : H.Sound) : Ascending H.nlev H.mid := by
  intro i j hij hj
  have a := h.face_lt hij (by omega)
  have b := h.face_lt (k := i + 1) (l := j + 1) (by omega) (by omega)
  unfold mid
  linarith

theorem Sound.face_ground (h : H.Sound) : H.face H.nlev = H.ps := by
  unfold face
  rw [h.ground.1, h.ground.2]
  ring

/-- The lowest level lies half a layer above the ground. -/
theorem Sound.lowest (h : H.Sound) : H.mid (H.nlev - 1) = H.ps / 100 - (H.ps - H.face (H.nlev - 1)) / 200 := by
  have := h.two
  unfold mid
  rw [show H.nlev - 1 + 1 = H.nlev by omega, h.face_ground]
  ring

/-- C154: between the uppermost level and the ground the topography array is 1 above the ground and NaN below it. -/
def C154_Statement : Prop :=
  ∀ (H : Hybrid) (y : ℕ → ℝ) (p : ℝ), H.Sound → H.mid 0 ≤ p →
    (p ≤ H.ps / 100 → H.topography y p = some 1) ∧ (H.ps / 100 < p → H.topography y p = none)

/-- C154, where: the array is 1 exactly between the uppermost and the lowest level, NaN elsewhere. -/
theorem C154_where (y : ℕ → ℝ) (p : ℝ) :
    H.topography y p = if H.mid 0 ≤ p ∧ p ≤ H.mid (H.nlev - 1) then some 1 else none := by
  unfold topography value
  by_cases h1 : p < H.mid 0
  · rw [if_pos h1, if_neg (fun h => absurd h1 (not_lt.2 h.1))]
    rfl
  · rw [if_neg h1]
    by_cases h2 : H.mid (H.nlev - 1) < p
    · rw [if_pos h2, if_neg (fun h => absurd h2 (not_lt.2 h.2))]
      rfl
    · rw [if_neg h2, if_pos ⟨not_lt.1 h1, not_lt.1 h2⟩]
      rfl

/-- C154, below the ground: NaN. -/
theorem C154_below_partial (h : H.Sound) (y : ℕ → ℝ) {p : ℝ} (hp : H.ps / 100 ≤ p) : H.topography y p = none := by
  rw [C154_where, if_neg]
  intro c
  have := h.lowest
  have := h.face_lt (k := H.nlev - 1) (l := H.nlev) (by have := h.two; omega) le_rfl
  rw [h.face_ground] at this
  linarith [c.2]

/-- C154, above the lowest level: 1. -/
theorem C154_above_partial (h : H.Sound) (y : ℕ → ℝ) {p : ℝ} (h1 : H.mid 0 ≤ p)
    (h2 : p ≤ H.ps / 100 - (H.ps - H.face (H.nlev - 1)) / 200) : H.topography y p = some 1 := by
  rw [C154_where, if_pos ⟨h1, by rw [h.lowest]; exact h2⟩]

/-- C154, gap: in the lower half of the lowest layer, which is above the ground and never empty, the array is NaN. -/
theorem C154_gap (h : H.Sound) (y : ℕ → ℝ) :
    H.ps / 100 - (H.ps - H.face (H.nlev - 1)) / 200 < H.ps / 100 ∧
    ∀ p, H.ps / 100 - (H.ps - H.face (H.nlev - 1)) / 200 < p → p ≤ H.ps / 100 → H.topography y p = none := by
  have a := h.face_lt (k := H.nlev - 1) (l := H.nlev) (by have := h.two; omega) le_rfl
  rw [h.face_ground] at a
  refine ⟨by linarith, fun p h1 _ => ?_⟩
  rw [C154_where, if_neg]
  rintro ⟨_, c⟩
  rw [h.lowest] at c
  exact absurd c (not_le.2 h1)

/-- C154, values: what is not NaN is the linear interpolation between the two neighbouring levels; values on the levels are
kept, and bounds of the field are kept. -/
theorem C154_values (h : H.Sound) (y : ℕ → ℝ) {p v : ℝ} (hv : H.value y p = some v) :
    (∃ m, m + 1 < H.nlev ∧ H.mid m ≤ p ∧ p ≤ H.mid (m + 1) ∧ v = Spec.line (H.mid m) (y m) (H.mid (m + 1)) (y (m + 1)) p) ∧
    (∀ m, m < H.nlev → p = H.mid m → v = y m) ∧
    ∀ lo hi : ℝ, (∀ l, l < H.nlev → lo ≤ y l ∧ y l ≤ hi) → lo ≤ v ∧ v ≤ hi := by
  have hm := h.mid_asc
  have h2 := h.two
  unfold value at hv
  by_cases c1 : p < H.mid 0
  · rw [if_pos c1] at hv
    exact absurd hv (by simp)
  rw [if_neg c1] at hv
  by_cases c2 : H.mid (H.nlev - 1) < p
  · rw [if_pos c2] at hv
    exact absurd hv (by simp)
  rw [if_neg c2] at hv
  obtain rfl : interp1d H.nlev H.mid y p = v := Option.some.inj hv
  have br : ∃ m, m + 1 < H.nlev ∧ H.mid m ≤ p ∧ p ≤ H.mid (m + 1) := by
    have key : ∀ q, q + 1 < H.nlev → p ≤ H.mid (q + 1) → ∃ m, m + 1 < H.nlev ∧ H.mid m ≤ p ∧ p ≤ H.mid (m + 1) := by
      intro q
      induction q with
      | zero => exact fun a b => ⟨0, a, not_lt.1 c1, b⟩
      | succ q ih =>
        intro a b
        by_cases c : H.mid (q + 1) ≤ p
        · exact ⟨q + 1, a, c, b⟩
        · exact ih (by omega) (not_le.1 c).le
    refine key (H.nlev - 2) (by omega) ?_
    rw [show H.nlev - 2 + 1 = H.nlev - 1 by omega]
    exact not_lt.1 c2
  obtain ⟨m, m1, m2, m3⟩ := br
  refine ⟨⟨m, m1, m2, m3, interp1d_inside hm y m1 m2 m3⟩, fun l hl e => by rw [e, interp1d_node hm h2 y hl], fun lo hi hb => ?_⟩
  rw [interp1d_inside hm y m1 m2 m3]
  have hd : 0 < H.mid (m + 1) - H.mid m := sub_pos.2 (hm m (m + 1) (by omega) m1)
  have r0 : 0 ≤ (p - H.mid m) / (H.mid (m + 1) - H.mid m) := div_nonneg (sub_nonneg.2 m2) hd.le
  have r1 : (p - H.mid m) / (H.mid (m + 1) - H.mid m) ≤ 1 := (div_le_one hd).2 (by linarith)
  have e : Spec.line (H.mid m) (y m) (H.mid (m + 1)) (y (m + 1)) p =
      y m + (y (m + 1) - y m) * ((p - H.mid m) / (H.mid (m + 1) - H.mid m)) := by
    unfold Spec.line
    rw [mul_div_assoc]
  rw [e]
  generalize (p - H.mid m) / (H.mid (m + 1) - H.mid m) = r at r0 r1
  have a := hb m (by omega)
  have b := hb (m + 1) m1
  constructor <;> nlinarith [mul_nonneg r0 (sub_nonneg.2 b.1), mul_nonneg (sub_nonneg.2 r1) (sub_nonneg.2 a.1),
    mul_nonneg r0 (sub_nonneg.2 b.2), mul_nonneg (sub_nonneg.2 r1) (sub_nonneg.2 a.2)]

/-- Two layers of a sigma grid with a ground pressure of 1000 hPa. -/
def sigma : Hybrid := ⟨2, fun _ => 0, fun l => l / 2, 100000, 100000⟩

theorem sigma_sound : sigma.Sound where
  two := le_rfl
  asc := by
    intro l _
    show (0 : ℝ) * 100000 + (l : ℝ) / 2 * 100000 < 0 * 100000 + ((l + 1 : ℕ) : ℝ) / 2 * 100000
    push_cast
    linarith
  ground := ⟨rfl, by show ((2 : ℕ) : ℝ) / 2 = 1; norm_num⟩

theorem sigma_mid (l : ℕ) : sigma.mid l = 250 + 500 * l := by
  unfold mid face
  show ((0 : ℝ) * 100000 + ((l + 1 : ℕ) : ℝ) / 2 * 100000 + (0 * 100000 + (l : ℝ) / 2 * 100000)) / 2 / 100 = _
  push_cast
  ring

theorem C154_refuted : ¬ C154_Statement := by
  intro h
  have a := (h sigma (fun _ => 0) 900 sigma_sound (by rw [sigma_mid]; norm_num)).1 (by
    show (900 : ℝ) ≤ 100000 / 100
    norm_num)
  rw [C154_where, if_neg (by
    rw [sigma_mid, sigma_mid]
    show ¬ (_ ∧ (900 : ℝ) ≤ 250 + 500 * ((2 - 1 : ℕ) : ℝ))
    norm_num)] at a
  exact absurd a (by simp)

example : sigma.topography (fun _ => 0) 1000 = none := C154_below_partial sigma_sound _ (by show (100000 : ℝ) / 100 ≤ 1000; norm_num)

example : sigma.topography (fun _ => 0) 500 = some 1 := C154_above_partial sigma_sound _ (by rw [sigma_mid]; norm_num) (by
  rw [← sigma_sound.lowest, sigma_mid]
  show (500 : ℝ) ≤ 250 + 500 * ((2 - 1 : ℕ) : ℝ)
  norm_num)

example : sigma.value (fun l => 7 + l) 250 = some 7 := by
  have hv : sigma.value (fun l => 7 + l) 250 = some (interp1d sigma.nlev sigma.mid (fun l => 7 + l) 250) := by
    unfold value
    rw [sigma_mid, sigma_mid, if_neg (by norm_num), if_neg (by
      show ¬ ((250 : ℝ) + 500 * ((2 - 1 : ℕ) : ℝ) < 250)
      norm_num)]
  rw [hv, (C154_values sigma_sound _ hv).2.1 0 (by decide) (by rw [sigma_mid]; norm_num)]
  norm_num

end Hybrid

/-! ### The hypotheses can be met -/

/-- The opposite order in both axes. -/
def southUp : Data ℝ := ⟨fun j => -45 + 90 * j, fun k => 1000 - 500 * k, fun k j => 2 * k + j⟩

theorem southUp_lat : Ascending 2 southUp.lat := by
  intro i j hij hj
  obtain ⟨rfl, rfl⟩ : i = 0 ∧ j = 1 := by omega
  unfold southUp
  norm_num

theorem southUp_lev : Ascending 2 (rev 2 southUp.lev) := by
  intro i j hij hj
  obtain ⟨rfl, rfl⟩ : i = 0 ∧ j = 1 := by omega
  unfold rev southUp
  norm_num

theorem southUp_file : IsFile 2 2 southUp := ⟨le_rfl, le_rfl, Or.inl southUp_lat, Or.inr southUp_lev⟩

example : SameAtmosphere 2 2 southUp (lubis 2 2 southUp) := C153_lubis_partial southUp_file southUp_lat southUp_lev

/-- As ERA5 files have it: from north to south, from the top downwards. -/
def era : Data ℝ := ⟨fun j => 45 - 90 * j, fun k => 500 + 500 * k, fun k j => 2 * k + j⟩

theorem era_lat : Ascending 2 (rev 2 era.lat) := by
  intro i j hij hj
  obtain ⟨rfl, rfl⟩ : i = 0 ∧ j = 1 := by omega
  unfold rev era
  norm_num

theorem era_lev : Ascending 2 era.lev := by
  intro i j hij hj
  obtain ⟨rfl, rfl⟩ : i = 0 ∧ j = 1 := by omega
  unfold era
  norm_num

theorem era_file : IsFile 2 2 era := ⟨le_rfl, le_rfl, Or.inr era_lat, Or.inl era_lev⟩

example : SameAtmosphere 2 2 era (sample 2 2 era) := C153_sample_partial era_file era_lat era_lev

example : Ordered 2 2 (predigest 2 2 era) ∧ SameAtmosphere 2 2 era (predigest 2 2 era) :=
  ⟨(C153_order era_file).2.2.2 ⟨era_lat, era_lev⟩, C153_predigest_partial era_file⟩

example : ¬ SameAtmosphere 2 2 era (lubis 2 2 era) := fun h =>
  not_both le_rfl ((C153_iff era_file (by
    intro j k j' k' hj hk hj' hk' e
    have e' : 2 * (k : ℝ) + (j : ℝ) = 2 * (k' : ℝ) + (j' : ℝ) := e
    have : 2 * k + j = 2 * k' + j' := by exact_mod_cast e'
    omega)).1.1 h).1 era_lat

example : (lubis 2 2 north).lat 0 = -north.lat 0 :=
  (C153_lubis_mirrored (k := 0) north_file (by omega) (north_file.lat.resolve_left fun h => absurd (h 0 1 (by omega) (by omega)) (by
    unfold north; norm_num)) (north_file.lev.resolve_left fun h => absurd (h 0 1 (by omega) (by omega)) (by
    unfold north; norm_num)) (by
    intro j hj
    have : j = 0 ∨ j = 1 := by omega
    unfold north
    rcases this with rfl | rfl <;> norm_num)).1

end Falwa.Script
