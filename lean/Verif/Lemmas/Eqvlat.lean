import Verif.Model.Eqvlat
import Verif.Lemmas.Numpy

/-! Helper lemmas for the equivalent-latitude analysis. -/

namespace Falwa.EqvInput

open Finset

variable {I : EqvInput}

theorem bins_mono (I : EqvInput) : Monotone I.bins := fun _ _ h => linspace_mono amin_le_amax _ h

theorem bins_zero (I : EqvInput) : I.bins 0 = amin I.nlat I.nlon I.vort := linspace_zero _ _ _

theorem one_le_ind (hn : 0 < I.nPoints) {p : ℕ × ℕ} (hp : p ∈ cells I.nlat I.nlon) : 1 ≤ I.ind p :=
  one_le_digitize hn (by rw [bins_zero]; exact amin_le hp)

theorem ind_le (I : EqvInput) (p : ℕ × ℕ) : I.ind p ≤ I.nPoints := digitize_le _ _ _

theorem binSum_zero (hn : 0 < I.nPoints) (w : ℕ → ℕ → ℝ) : I.binSum w 0 = 0 := by
  unfold binSum
  rw [filter_false_of_mem, sum_empty]
  intro p hp h
  have := one_le_ind hn hp
  omega

/-- Cumulative bin sums count the cells with a small bin index. -/
theorem cumsum_binSum (I : EqvInput) (w : ℕ → ℕ → ℝ) (i : ℕ) :
    cumsum (I.binSum w) i = ∑ p ∈ (cells I.nlat I.nlon).filter (fun p => I.ind p ≤ i), w p.1 p.2 := by
  unfold cumsum binSum
  rw [sum_filter]
  simp only [sum_filter]
  rw [sum_comm]
  refine sum_congr rfl fun p _ => ?_
  rw [sum_ite_eq]
  simp only [mem_range, Nat.lt_succ_iff]

theorem aqVgrad_eq (I : EqvInput) (i : ℕ) :
    I.aqVgrad i = ∑ p ∈ (cells I.nlat I.nlon).filter (fun p => I.ind p ≤ i), I.area p.1 p.2 :=
  cumsum_binSum I I.area i

theorem cumsum_guard (hn : 0 < I.nPoints) (w : ℕ → ℕ → ℝ) (i : ℕ) :
    cumsum (fun m => if m = 0 then 0 else I.binSum w m) i = cumsum (I.binSum w) i := by
  unfold cumsum
  refine sum_congr rfl fun m _ => ?_
  show (if m = 0 then 0 else I.binSum w m) = _
  split_ifs with h
  · rw [h, binSum_zero hn]
  · rfl

theorem aq_eq_aqVgrad (hn : 0 < I.nPoints) : I.aq = I.aqVgrad := by
  funext i; exact cumsum_guard hn I.area i

theorem aq_eq (hn : 0 < I.nPoints) (i : ℕ) :
    I.aq i = ∑ p ∈ (cells I.nlat I.nlon).filter (fun p => I.ind p ≤ i), I.area p.1 p.2 := by
  rw [aq_eq_aqVgrad hn, aqVgrad_eq]

theorem aq_zero (I : EqvInput) : I.aq 0 = 0 := by simp [aq, cumsum]

theorem aq_mono (hn : 0 < I.nPoints) (ha : ∀ p ∈ cells I.nlat I.nlon, 0 ≤ I.area p.1 p.2) :
    Monotone I.aq := by
  intro i j hij
  rw [aq_eq hn, aq_eq hn]
  apply sum_le_sum_of_subset_of_nonneg
  · intro p hp
    rw [mem_filter] at hp ⊢
    exact ⟨hp.1, hp.2.trans hij⟩
  · intro p hp _
    exact ha p (mem_filter.1 hp).1

theorem aq_le_total (hn : 0 < I.nPoints) (ha : ∀ p ∈ cells I.nlat I.nlon, 0 ≤ I.area p.1 p.2) (i : ℕ) :
    I.aq i ≤ ∑ p ∈ cells I.nlat I.nlon, I.area p.1 p.2 := by
  rw [aq_eq hn]
  exact sum_le_sum_of_subset_of_nonneg (filter_subset _ _) (fun p hp _ => ha p hp)

theorem aq_nonneg (hn : 0 < I.nPoints) (ha : ∀ p ∈ cells I.nlat I.nlon, 0 ≤ I.area p.1 p.2) (i : ℕ) :
    0 ≤ I.aq i := by
  rw [← aq_zero I]; exact aq_mono hn ha (Nat.zero_le i)

theorem ind_eq_last_iff (hn : 2 ≤ I.nPoints) {p : ℕ × ℕ} (hp : p ∈ cells I.nlat I.nlon) :
    I.ind p = I.nPoints ↔ I.vort p.1 p.2 = amax I.nlat I.nlon I.vort := by
  unfold ind
  rw [digitize_eq_last_iff (by omega) I.bins_mono]
  have : I.bins (I.nPoints - 1) = amax I.nlat I.nlon I.vort := linspace_last _ _ hn
  rw [this]
  exact ⟨fun h => le_antisymm (le_amax hp) h, fun h => h.ge⟩

theorem arcsinDeg_isSome_iff (x : ℝ) : (arcsinDeg x).isSome ↔ -1 ≤ x ∧ x ≤ 1 := by
  unfold arcsinDeg; split_ifs with h <;> simp [h]

theorem arcsinDeg_getD {x : ℝ} (h : -1 ≤ x ∧ x ≤ 1) : (arcsinDeg x).getD 0 = rad2deg (Real.arcsin x) := by
  unfold arcsinDeg; rw [if_pos h]; rfl

theorem rad2deg_mono : Monotone rad2deg := fun x y h => by
  unfold rad2deg
  have := Real.pi_pos
  gcongr

theorem gaussianGrid_mem (hn : 0 < I.nPoints) (hr : I.radius ≠ 0)
    (ha : ∀ p ∈ cells I.nlat I.nlon, 0 ≤ I.area p.1 p.2)
    (ht : ∑ p ∈ cells I.nlat I.nlon, I.area p.1 p.2 ≤ 4 * Real.pi * I.radius ^ 2) (i : ℕ) :
    -1 ≤ I.gaussianGrid I.aq i ∧ I.gaussianGrid I.aq i ≤ 1 := by
  unfold gaussianGrid
  have hpos : 0 < 2 * Real.pi * I.radius ^ 2 := by
    have := Real.pi_pos
    positivity
  constructor
  · have := div_nonneg (aq_nonneg hn ha i) hpos.le; linarith
  · have : I.aq i / (2 * Real.pi * I.radius ^ 2) ≤ 2 := by
      rw [div_le_iff₀ hpos]
      have := aq_le_total hn ha i
      linarith
    linarith

theorem eqvLatitude_mono (hn : 0 < I.nPoints) (hr : I.radius ≠ 0)
    (ha : ∀ p ∈ cells I.nlat I.nlon, 0 ≤ I.area p.1 p.2)
    (ht : ∑ p ∈ cells I.nlat I.nlon, I.area p.1 p.2 ≤ 4 * Real.pi * I.radius ^ 2) :
    Monotone (fun i => (I.eqvLatitude I.aq i).getD 0) := by
  intro i j hij
  simp only [eqvLatitude]
  rw [arcsinDeg_getD (gaussianGrid_mem hn hr ha ht i), arcsinDeg_getD (gaussianGrid_mem hn hr ha ht j)]
  apply rad2deg_mono
  apply Real.monotone_arcsin
  unfold gaussianGrid
  have hpos : 0 < 2 * Real.pi * I.radius ^ 2 := by
    have := Real.pi_pos
    positivity
  have := div_le_div_of_nonneg_right (aq_mono hn ha hij) hpos.le
  linarith

theorem interpToYlat_ok (h1 : 0 < I.nlat) (h2 : 0 < I.nlon) (hn : 0 < I.nPoints) (hr : I.radius ≠ 0)
    (ha : ∀ p ∈ cells I.nlat I.nlon, 0 ≤ I.area p.1 p.2)
    (ht : ∑ p ∈ cells I.nlat I.nlon, I.area p.1 p.2 ≤ 4 * Real.pi * I.radius ^ 2) (fp : ℕ → ℝ) :
    I.interpToYlat I.aq fp = .ok (fun j =>
      npInterp I.nPoints (fun i => (I.eqvLatitude I.aq i).getD 0) fp (I.ylat j)) := by
  unfold interpToYlat
  rw [if_neg (by omega), if_pos]
  intro i _
  exact (arcsinDeg_isSome_iff _).2 (gaussianGrid_mem hn hr ha ht i)

/-! ### dependence on the distribution only -/

/-- The (value, area) pairs of all cells, with multiplicity. -/
def pairs (I : EqvInput) : Multiset (ℝ × ℝ) :=
  (cells I.nlat I.nlon).val.map (fun p => (I.vort p.1 p.2, I.area p.1 p.2))

theorem sum_pairs (I : EqvInput) (g : ℝ × ℝ → ℝ) :
    ∑ p ∈ cells I.nlat I.nlon, g (I.vort p.1 p.2, I.area p.1 p.2) = (I.pairs.map g).sum := by
  unfold pairs; rw [Multiset.map_map]; rfl

theorem mem_pairs {I : EqvInput} {x : ℝ × ℝ} :
    x ∈ I.pairs ↔ ∃ p ∈ cells I.nlat I.nlon, (I.vort p.1 p.2, I.area p.1 p.2) = x := by
  unfold pairs; rw [Multiset.mem_map]; rfl

theorem amin_of_pairs {I J : EqvInput} (h : I.pairs = J.pairs) (hI : (cells I.nlat I.nlon).Nonempty) :
    amin I.nlat I.nlon I.vort ≤ amin J.nlat J.nlon J.vort ∧
    amax J.nlat J.nlon J.vort ≤ amax I.nlat I.nlon I.vort := by
  obtain ⟨q, hq⟩ := hI
  have hJ : (cells J.nlat J.nlon).Nonempty := by
    have : (I.vort q.1 q.2, I.area q.1 q.2) ∈ J.pairs := h ▸ mem_pairs.2 ⟨q, hq, rfl⟩
    obtain ⟨p, hp, _⟩ := mem_pairs.1 this
    exact ⟨p, hp⟩
  constructor
  · obtain ⟨p, hp, e⟩ := exists_amin (vort := J.vort) hJ
    have : (J.vort p.1 p.2, J.area p.1 p.2) ∈ I.pairs := h ▸ mem_pairs.2 ⟨p, hp, rfl⟩
    obtain ⟨p', hp', e'⟩ := mem_pairs.1 this
    rw [e, ← (Prod.mk.inj e').1]; exact amin_le hp'
  · obtain ⟨p, hp, e⟩ := exists_amax (vort := J.vort) hJ
    have : (J.vort p.1 p.2, J.area p.1 p.2) ∈ I.pairs := h ▸ mem_pairs.2 ⟨p, hp, rfl⟩
    obtain ⟨p', hp', e'⟩ := mem_pairs.1 this
    rw [e, ← (Prod.mk.inj e').1]; exact le_amax hp'

theorem nonempty_of_pairs {I J : EqvInput} (h : I.pairs = J.pairs) (hI : (cells I.nlat I.nlon).Nonempty) :
    (cells J.nlat J.nlon).Nonempty := by
  obtain ⟨q, hq⟩ := hI
  have : (I.vort q.1 q.2, I.area q.1 q.2) ∈ J.pairs := h ▸ mem_pairs.2 ⟨q, hq, rfl⟩
  obtain ⟨p, hp, _⟩ := mem_pairs.1 this
  exact ⟨p, hp⟩

theorem empty_iff (I : EqvInput) : (I.nlat = 0 ∨ I.nlon = 0) ↔ ¬ (cells I.nlat I.nlon).Nonempty := by
  constructor
  · rintro h ⟨p, hp⟩
    rw [mem_cells] at hp; omega
  · intro h
    by_contra hc
    exact h (cells_nonempty (by omega) (by omega))

theorem bins_of_pairs {I J : EqvInput} (h : I.pairs = J.pairs) (hn : I.nPoints = J.nPoints) :
    I.bins = J.bins := by
  funext i
  unfold bins
  by_cases hI : (cells I.nlat I.nlon).Nonempty
  · have hJ := nonempty_of_pairs h hI
    have a := amin_of_pairs h hI
    have b := amin_of_pairs h.symm hJ
    rw [le_antisymm a.1 b.1, le_antisymm b.2 a.2, hn]
  · have hJ : ¬ (cells J.nlat J.nlon).Nonempty := fun hJ => hI (nonempty_of_pairs h.symm hJ)
    unfold amin amax
    rw [dif_neg hI, dif_neg hI, dif_neg hJ, dif_neg hJ, hn]

theorem binSum_of_pairs {I J : EqvInput} (h : I.pairs = J.pairs) (hn : I.nPoints = J.nPoints) (i : ℕ) :
    I.binSum I.area i = J.binSum J.area i := by
  unfold binSum ind
  rw [sum_filter, sum_filter, bins_of_pairs h hn, hn]
  have e1 := sum_pairs I (fun x => if digitize J.nPoints J.bins x.1 = i then x.2 else 0)
  have e2 := sum_pairs J (fun x => if digitize J.nPoints J.bins x.1 = i then x.2 else 0)
  simp only at e1 e2
  rw [e1, e2, h]

end Falwa.EqvInput
