import Verif.Props.SmoothFlux
import Verif.Lemmas.SourceSums
import Mathlib.Analysis.Analytic.Order
import Mathlib.MeasureTheory.Topology
import Mathlib.Analysis.Calculus.ContDiff.Basic

/-!
# C177: the contribution of non-conservative sources for smooth input
-/

noncomputable section

namespace Falwa

open Real Finset Spec MeasureTheory Filter

namespace QGAnalysis

/-- What the code adds up in the Northern Hemisphere, with the sign of each row. -/
theorem source_north_sum (S : QGAnalysis) (s : ℤ) (n j : ℕ) (i g k : ℤ) (hs : S.nd = s) (hn : S.nlat = s + n) (hj : S.outRow g = s + j) :
    sourceNorth (Icc S.nd S.nlat) (fun r => S.qgpv i r k) (S.qref g k) (fun r => S.ncforce i r k) (fun r => S.a * cos (S.lat r) * S.dphi)
        (S.outRow g) - S.contourNorth i g k =
      ∑ r ∈ range (n + 1), (if j ≤ r then (if S.qgpv i (s + r) k ≤ S.qref g k then -1 else 0)
        else if S.qref g k < S.qgpv i (s + r) k then 1 else 0) * (S.a * cos (S.lat (s + r)) * S.ncforce i (s + r) k * S.dphi) := by
  unfold sourceNorth contourNorth
  rw [sum_filter, sum_filter, ← sum_sub_distrib, hs, hn, sum_Icc_range]
  refine sum_congr rfl fun r _ => ?_
  rw [hj]
  have hD : DisplacedNorth (fun r => S.qgpv i r k) (S.qref g k) (s + j) (s + r) ↔ (s + (j : ℤ) ≤ s + r ∧ S.qgpv i (s + r) k < S.qref g k) ∨
    (s + (r : ℤ) < s + j ∧ S.qref g k < S.qgpv i (s + r) k) := Iff.rfl
  by_cases h : j ≤ r
  · rw [if_pos h]
    rcases lt_trichotomy (S.qgpv i (s + r) k) (S.qref g k) with hq | hq | hq
    · rw [if_pos (hD.2 (Or.inl ⟨by omega, hq⟩)), if_pos hq, if_neg (fun c => hq.ne c.2), if_pos hq.le]; ring
    · rw [if_neg (fun c => by rcases hD.1 c with c | c; exacts [hq.not_lt c.2, by omega]), if_pos ⟨by omega, hq⟩, if_pos hq.le]; ring
    · rw [if_neg (fun c => by rcases hD.1 c with c | c; exacts [hq.not_gt c.2, by omega]), if_neg (fun c => hq.ne' c.2),
        if_neg hq.not_ge]; ring
  · rw [if_neg h, if_neg (c := s + (j : ℤ) ≤ s + r ∧ S.qgpv i (s + r) k = S.qref g k) (fun c => h (by omega))]
    by_cases hq : S.qref g k < S.qgpv i (s + r) k
    · rw [if_pos (hD.2 (Or.inr ⟨by omega, hq⟩)), if_neg hq.not_gt, if_pos hq]; ring
    · rw [if_neg (fun c => by rcases hD.1 c with c | c; exacts [h (by omega), hq c.2]), if_neg hq]; ring

/-- The same in the Southern Hemisphere. -/
theorem source_south_sum (S : QGAnalysis) (n j : ℕ) (i g k : ℤ) (hn : S.nd = 1 + n) (hj : g = 1 + j) :
    sourceSouth (Icc 1 S.nd) (fun r => S.qgpv i r k) (S.qref g k) (fun r => S.ncforce i r k) (fun r => S.a * cos (S.lat r) * S.dphi)
        g + S.contourSouth i g k =
      ∑ r ∈ range (n + 1), (if j < r then (if S.qgpv i (1 + r) k < S.qref g k then -1 else 0)
        else if S.qref g k ≤ S.qgpv i (1 + r) k then 1 else 0) * (S.a * cos (S.lat (1 + r)) * S.ncforce i (1 + r) k * S.dphi) := by
  unfold sourceSouth contourSouth
  rw [sum_filter, sum_filter, ← sum_add_distrib, hn, sum_Icc_range]
  refine sum_congr rfl fun r _ => ?_
  have hD : DisplacedSouth (fun r => S.qgpv i r k) (S.qref g k) g (1 + r) ↔ (1 + (r : ℤ) ≤ g ∧ S.qref g k < S.qgpv i (1 + r) k) ∨
    (g < 1 + r ∧ S.qgpv i (1 + r) k < S.qref g k) := Iff.rfl
  by_cases h : j < r
  · rw [if_pos h, if_neg (c := 1 + (r : ℤ) ≤ g ∧ S.qgpv i (1 + r) k = S.qref g k) (fun c => by omega)]
    by_cases hq : S.qgpv i (1 + r) k < S.qref g k
    · rw [if_pos (hD.2 (Or.inr ⟨by omega, hq⟩)), if_pos hq, if_pos hq]; ring
    · rw [if_neg (fun c => by rcases hD.1 c with c | c; exacts [by omega, hq c.2]), if_neg hq]; ring
  · rw [if_neg h]
    rcases lt_trichotomy (S.qgpv i (1 + r) k) (S.qref g k) with hq | hq | hq
    · rw [if_neg (fun c => by rcases hD.1 c with c | c; exacts [hq.not_gt c.2, by omega]), if_neg (fun c => hq.ne c.2),
        if_neg hq.not_ge]; ring
    · rw [if_neg (fun c => by rcases hD.1 c with c | c; exacts [hq.not_gt c.2, by omega]), if_pos ⟨by omega, hq⟩, if_pos hq.ge]; ring
    · rw [if_pos (hD.2 (Or.inl ⟨by omega, hq⟩)), if_neg hq.not_gt, if_neg (fun c => hq.ne' c.2), if_pos hq.le]; ring

end QGAnalysis

namespace Atmos

variable {F : Flow} {θ : ℝ → ℝ → ℝ → ℝ} {N S : Layers} {A : ℕ → Atmos} {ε e : ℕ → ℝ} {a om H top : ℝ} {c : Scheme}
variable {φ l : ℝ} {v : ℝ → ℝ} {g x : ℕ → ℤ} {G Q : ℝ → ℝ → ℝ → ℝ}

/-- The forcing given to the flux methods is `G` at the points of the analysis grid, up to `e`. -/
def ForcedBy (A : Atmos) (G : ℝ → ℝ → ℝ → ℝ) (e : ℝ) : Prop :=
  ∀ i j k, A.sphere.Mem i j → 2 ≤ k → k ≤ A.kmax - 1 →
    |A.ncforce i j k - G (A.sphere.latitude j) (A.sphere.longitude i) (A.height k)| ≤ e

/-- The meridian at longitude `l` meets the contour `v z` in a null set, on every level. -/
def CrossesContours (top : ℝ) (Q : ℝ → ℝ → ℝ → ℝ) (l : ℝ) (v : ℝ → ℝ) : Prop :=
  ∀ z, 0 ≤ z → z ≤ top → volume {y | y ∈ Set.Icc (-(π / 2)) (π / 2) ∧ Q y l z = v z} = 0

/-- Both classes in the Northern Hemisphere, from the limit of the QGPV. -/
theorem source_north (hT : QgpvTends c Q A) (hQ : Continuous fun p : ℝ × ℝ × ℝ => Q p.1 p.2.1 p.2.2)
    (hG : Continuous fun p : ℝ × ℝ × ℝ => G p.1 p.2.1 p.2.2) (hf : ∀ n, (A n).ForcedBy G (e n)) (he : Tendsto e atTop (nhds 0))
    (hA : Refines a om H top A) (hlast : ∀ n, (A n).height (A n).kmax = top) (hp : c = .nh18 → Tendsto (fun n => (A n).npart) atTop atTop)
    (hW : WaveNorth a top Q φ v) (hcr : CrossesContours top Q l v) (hP : TowardNorth A x g l φ) :
    Tendsto (fun n => ((A n).analysis c).ncforceBaro (x n) (g n)) atTop
      (nhds (columnMean H top fun z => meridionalSource a (fun y => Q y l z) (fun y => G y l z) (v z) 0 (π / 2) φ)) := by
  have ha := hA.radius_pos
  have hpi := pi_pos
  have hj : ∀ n, (A n).nd + (((A n).outRow (g n) - (A n).nd).toNat : ℤ) = (A n).outRow (g n) := fun n => by have := hP.row n; omega
  have hn : ∀ n, (A n).nlat = (A n).nd + (A n).cells := fun n => by
    have := cells_eq (hA.regular n); have := (hA.regular n).odd
    omega
  refine (mean_limit (c := c) hA hlast (G := fun n k => ∑ r ∈ range ((A n).cells + 1),
    (if ((A n).outRow (g n) - (A n).nd).toNat ≤ r then (if (A n).qgpv c (x n) ((A n).nd + r) k ≤ (A n).qref c (g n) k then -1 else 0)
        else if (A n).qref c (g n) k < (A n).qgpv c (x n) ((A n).nd + r) k then 1 else 0) *
      ((A n).a * cos ((A n).lat ((A n).nd + r)) * (A n).ncforce (x n) ((A n).nd + r) k * (A n).dphi)) fun f k z hz hft hk ht => ?_).congr
    fun n => ?_
  · obtain ⟨e', hap⟩ := hT.approaches hQ hA hp hft hk ht
    have hqc : Continuous fun p : ℝ × ℝ => (fun x l => Q x l z) p.1 p.2 := hQ.comp (f := fun p : ℝ × ℝ => (p.1, p.2, z)) (by fun_prop)
    have href := C160_north_partial ha hqc (hW.high z hz.1 hz.2) hap (g := fun n => g (f n))
      (fun n => ⟨(hP.row (f n)).1, (hP.row (f n)).2.2.le⟩) (hP.latitude.comp hft) hW.north hW.pole (hW.encloses z hz.1 hz.2)
    have rows := hap.rows_north hqc (fun n => hP.col (f n)) (hP.longitude.comp hft)
    have force := field_rows hA hG he hf hP.col hP.longitude hft hk ht (b := fun n => (A (f n)).nd) (s := 0) (t := π / 2)
      (fun n => ⟨by have := (hA.regular (f n)).nd3; omega, (hn (f n)).ge⟩) fun n r => lat_north (hA.regular (f n)) r
    have weight := (cos_rows_north ha (fun n => hA.regular (f n)) fun n => hA.radius (f n)).mul force
    have hnull : volume {y | y ∈ Set.Icc 0 (π / 2) ∧ Q y l z = v z} = 0 :=
      have sub : {y | y ∈ Set.Icc 0 (π / 2) ∧ Q y l z = v z} ⊆ {y | y ∈ Set.Icc (-(π / 2)) (π / 2) ∧ Q y l z = v z} :=
        fun y hy => ⟨⟨by linarith [hy.1.1], hy.1.2⟩, hy.2⟩
      measure_mono_null sub (hcr z hz.1 hz.2)
    have main := source_limit (by positivity : (0 : ℝ) < π / 2) ⟨hW.north, hW.pole.le⟩ hap.cells rows weight href
      (j := fun n => ((A (f n)).outRow (g (f n)) - (A (f n)).nd).toNat)
      ((hP.latitude.comp hft).congr fun n => by
        rw [lat_north (hA.regular (f n)), hj (f n)]; rfl)
      hnull
      (σ := fun n r => if ((A (f n)).outRow (g (f n)) - (A (f n)).nd).toNat ≤ r then
          (if (A (f n)).qgpv c (x (f n)) ((A (f n)).nd + r) (k n) ≤ (A (f n)).qref c (g (f n)) (k n) then -1 else 0)
        else if (A (f n)).qref c (g (f n)) (k n) < (A (f n)).qgpv c (x (f n)) ((A (f n)).nd + r) (k n) then 1 else 0)
      (fun n r => by split_ifs <;> norm_num)
      (fun n r h1 h2 => by rw [if_pos h1.le, if_pos h2.le])
      (fun n r h1 h2 => by rw [if_pos h1.le, if_neg (not_le.2 h2)])
      (fun n r h1 h2 => by rw [if_neg (not_le.2 h1), if_pos h2])
      (fun n r h1 h2 => by rw [if_neg (not_le.2 h1), if_neg h2.not_gt])
    refine main.congr fun n => sum_congr rfl fun r _ => ?_
    rw [sub_zero, cells_width (hA.regular (f n))]
  · rw [QGAnalysis.C86_north_partial ((hA.regular n).valid c) (hA.regular n).kmax3 (x n) (g n) (hP.col n)
      ⟨(hP.row n).2.1, (hP.row n).2.2, north_mode (hP.row n).1⟩]
    refine QGAnalysis.columnMean_congr fun k _ => ?_
    exact (QGAnalysis.source_north_sum ((A n).analysis c) (A n).nd (A n).cells _ (x n) (g n) k rfl (hn n) (hj n).symm).symm

/-- The same in the Southern Hemisphere. -/
theorem source_south (hT : QgpvTends c Q A) (hQ : Continuous fun p : ℝ × ℝ × ℝ => Q p.1 p.2.1 p.2.2)
    (hG : Continuous fun p : ℝ × ℝ × ℝ => G p.1 p.2.1 p.2.2) (hf : ∀ n, (A n).ForcedBy G (e n)) (he : Tendsto e atTop (nhds 0))
    (hA : Refines a om H top A) (hlast : ∀ n, (A n).height (A n).kmax = top) (hp : c = .nh18 → Tendsto (fun n => (A n).npart) atTop atTop)
    (hW : WaveSouth a top Q φ v) (hcr : CrossesContours top Q l v) (hP : TowardSouth A x g l φ) :
    Tendsto (fun n => ((A n).analysis c).ncforceBaro (x n) (g n)) atTop
      (nhds (columnMean H top fun z => meridionalSource a (fun y => Q y l z) (fun y => G y l z) (v z) (-(π / 2)) 0 φ)) := by
  have ha := hA.radius_pos
  have hpi := pi_pos
  have hj : ∀ n, 1 + ((g n - 1).toNat : ℤ) = g n := fun n => by have := hP.row n; omega
  have hn : ∀ n, (A n).nd = 1 + (A n).cells := fun n => by
    have := cells_eq (hA.regular n)
    omega
  refine (mean_limit (c := c) hA hlast (G := fun n k => ∑ r ∈ range ((A n).cells + 1),
    (if (g n - 1).toNat < r then (if (A n).qgpv c (x n) (1 + r) k < (A n).qref c (g n) k then -1 else 0)
        else if (A n).qref c (g n) k ≤ (A n).qgpv c (x n) (1 + r) k then 1 else 0) *
      ((A n).a * cos ((A n).lat (1 + r)) * (A n).ncforce (x n) (1 + r) k * (A n).dphi)) fun f k z hz hft hk ht => ?_).congr
    fun n => ?_
  · obtain ⟨e', hap⟩ := hT.approaches hQ hA hp hft hk ht
    have hqc : Continuous fun p : ℝ × ℝ => (fun x l => Q x l z) p.1 p.2 := hQ.comp (f := fun p : ℝ × ℝ => (p.1, p.2, z)) (by fun_prop)
    have href := C160_south_partial ha hqc (hW.low z hz.1 hz.2) hap (fun n => hP.globe (f n)) (g := fun n => g (f n))
      (fun n => ⟨(hP.row (f n)).1.le, (hP.row (f n)).2.1⟩) (hP.latitude.comp hft) hW.south hW.pole (hW.encloses z hz.1 hz.2)
    have rows := hap.rows_south hqc (fun n => hP.col (f n)) (hP.longitude.comp hft)
    have force := field_rows hA hG he hf hP.col hP.longitude hft hk ht (b := fun _ => 1) (s := -(π / 2)) (t := 0)
      (fun n => ⟨le_rfl, by
        have := hn (f n); have := (hA.regular (f n)).odd; have := (hA.regular (f n)).nd3
        omega⟩) fun n r => lat_south (hA.regular (f n)) r
    have weight := (cos_rows_south ha (fun n => hA.regular (f n)) fun n => hA.radius (f n)).mul force
    have hnull : volume {y | y ∈ Set.Icc (-(π / 2)) 0 ∧ Q y l z = v z} = 0 :=
      have sub : {y | y ∈ Set.Icc (-(π / 2)) 0 ∧ Q y l z = v z} ⊆ {y | y ∈ Set.Icc (-(π / 2)) (π / 2) ∧ Q y l z = v z} :=
        fun y hy => ⟨⟨hy.1.1, by linarith [hy.1.2]⟩, hy.2⟩
      measure_mono_null sub (hcr z hz.1 hz.2)
    have main := source_limit (by linarith : -(π / 2) < 0) ⟨hW.pole.le, hW.south⟩ hap.cells rows weight href
      (j := fun n => (g (f n) - 1).toNat)
      ((hP.latitude.comp hft).congr fun n => by
        rw [lat_south (hA.regular (f n)), hj (f n)]; rfl)
      hnull
      (σ := fun n r => if (g (f n) - 1).toNat < r then
          (if (A (f n)).qgpv c (x (f n)) (1 + r) (k n) < (A (f n)).qref c (g (f n)) (k n) then -1 else 0)
        else if (A (f n)).qref c (g (f n)) (k n) ≤ (A (f n)).qgpv c (x (f n)) (1 + r) (k n) then 1 else 0)
      (fun n r => by split_ifs <;> norm_num)
      (fun n r h1 h2 => by rw [if_pos h1, if_pos h2])
      (fun n r h1 h2 => by rw [if_pos h1, if_neg h2.not_gt])
      (fun n r h1 h2 => by rw [if_neg h1.not_gt, if_pos h2.le])
      (fun n r h1 h2 => by rw [if_neg h1.not_gt, if_neg (not_le.2 h2)])
    refine main.congr fun n => sum_congr rfl fun r _ => ?_
    rw [zero_sub, neg_neg, cells_width (hA.regular (f n))]
  · rw [QGAnalysis.C86_south_partial ((hA.regular n).valid c) (hA.regular n).kmax3 (x n) (g n) (hP.col n)
      ⟨hP.globe n, (hP.row n).1, (hP.row n).2.2⟩]
    refine QGAnalysis.columnMean_congr fun k _ => ?_
    exact (QGAnalysis.source_south_sum ((A n).analysis c) (A n).cells _ (x n) (g n) k (hn n) (hj n).symm).symm

/-- **C177, `QGFieldNHN22`.** Winds, temperature and forcing sampled from smooth fields on ever finer grids with equal spacings:
`ncforce_baro` tends to the column average of the forcing integrated over the displaced air of the QGPV of the flow on the sphere, in
both hemispheres, if the meridian meets the contours in null sets. -/
theorem C177_nhn22 (hF : F.IsCurl a top) (hN : N.Of θ H top) (hS : S.Of θ H top)
    (hNg : Continuous fun p : ℝ × ℝ × ℝ => N.g p.1 p.2.1 p.2.2) (hSg : Continuous fun p : ℝ × ℝ × ℝ => S.g p.1 p.2.1 p.2.2)
    (hA : Refines a om H top A) (hlast : ∀ n, (A n).height (A n).kmax = top) (hO : ∀ n, (A n).Observes F θ N S (ε n))
    (hεN : ∀ n, 2 * ε n ≤ N.s) (hεS : ∀ n, 2 * ε n ≤ S.s) (hε : Tendsto (fun n => ε n / (A n).dz) atTop (nhds 0))
    (hG : Continuous fun p : ℝ × ℝ × ℝ => G p.1 p.2.1 p.2.2) (hf : ∀ n, (A n).ForcedBy G (e n)) (he : Tendsto e atTop (nhds 0))
    (hcr : CrossesContours top (F.qgpv om H N S) l v) :
    (WaveNorth a top (F.qgpv om H N S) φ v → TowardNorth A x g l φ →
      Tendsto (fun n => ((A n).analysis .nhn22).ncforceBaro (x n) (g n)) atTop (nhds (columnMean H top fun z =>
        meridionalSource a (fun y => F.qgpv om H N S y l z) (fun y => G y l z) (v z) 0 (π / 2) φ))) ∧
    (WaveSouth a top (F.qgpv om H N S) φ v → TowardSouth A x g l φ →
      Tendsto (fun n => ((A n).analysis .nhn22).ncforceBaro (x n) (g n)) atTop (nhds (columnMean H top fun z =>
        meridionalSource a (fun y => F.qgpv om H N S y l z) (fun y => G y l z) (v z) (-(π / 2)) 0 φ))) := by
  have hT : QgpvTends .nhn22 (F.qgpv om H N S) A := C168_qgpv hF hN hS hA hO hεN hεS hε
  have hQ := qgpv_continuous (om := om) (H := H) hF.continuous hNg hSg
  exact ⟨fun hW => source_north hT hQ hG hf he hA hlast (fun h => nomatch h) hW hcr,
    fun hW => source_south hT hQ hG hf he hA hlast (fun h => nomatch h) hW hcr⟩

/-- **C177, `QGFieldNH18`.** The same with more and more partitions. -/
theorem C177_nh18 {L : Layers} {B : ℝ} (hF : F.IsCurl a top)
    (hL : L.Of θ H top) (hLg : Continuous fun p : ℝ × ℝ × ℝ => L.g p.1 p.2.1 p.2.2)
    (hmean : ∀ z, L.mean z = (N.mean z + S.mean z) / 2) (hstat : ∀ z, L.stability z = (N.stability z + S.stability z) / 2)
    (hB : ∀ φ l z, 0 ≤ z → z ≤ top → |L.g φ l z| ≤ B)
    (hA : Refines a om H top A) (hlast : ∀ n, (A n).height (A n).kmax = top) (hO : ∀ n, (A n).Observes F θ N S (ε n))
    (hεL : ∀ n, 2 * ε n ≤ L.s) (hε : Tendsto (fun n => ε n / (A n).dz) atTop (nhds 0))
    (hp : Tendsto (fun n => (A n).npart) atTop atTop)
    (hG : Continuous fun p : ℝ × ℝ × ℝ => G p.1 p.2.1 p.2.2) (hf : ∀ n, (A n).ForcedBy G (e n)) (he : Tendsto e atTop (nhds 0))
    (hcr : CrossesContours top (F.qgpvZonal om H L) l v) :
    (WaveNorth a top (F.qgpvZonal om H L) φ v → TowardNorth A x g l φ →
      Tendsto (fun n => ((A n).analysis .nh18).ncforceBaro (x n) (g n)) atTop (nhds (columnMean H top fun z =>
        meridionalSource a (fun y => F.qgpvZonal om H L y l z) (fun y => G y l z) (v z) 0 (π / 2) φ))) ∧
    (WaveSouth a top (F.qgpvZonal om H L) φ v → TowardSouth A x g l φ →
      Tendsto (fun n => ((A n).analysis .nh18).ncforceBaro (x n) (g n)) atTop (nhds (columnMean H top fun z =>
        meridionalSource a (fun y => F.qgpvZonal om H L y l z) (fun y => G y l z) (v z) (-(π / 2)) 0 φ))) := by
  have hT : QgpvTends .nh18 (F.qgpvZonal om H L) A := C169_limit_partial hF hL hmean hstat hB hA hO hεL hε
  have hQ := qgpvZonal_continuous (om := om) (H := H) hF.continuous hLg
  exact ⟨fun hW => source_north hT hQ hG hf he hA hlast (fun _ => hp) hW hcr,
    fun hW => source_south hT hQ hG hf he hA hlast (fun _ => hp) hW hcr⟩

/-! ### A sample: the flow across the poles, forced most strongly aloft and at 45 degrees -/

theorem polarFine_forced (n : ℕ) : (polarFine n).ForcedBy (fun y _ z => sin y * (exp z * cos y)) 0 := fun i j k _ _ _ => by
  have e : (polarFine n).ncforce i j k = sin ((polarFine n).sphere.latitude j) *
      (exp ((polarFine n).height k) * cos ((polarFine n).sphere.latitude j)) := rfl
  rw [e]
  rw [sub_self, abs_zero]

theorem polarQ_crosses (v : ℝ → ℝ) : CrossesContours 1 polarQ 0 v := fun z _ _ => by
  have hf : AnalyticOnNhd ℝ (fun y => polarQ y 0 z - v z) Set.univ := fun y _ => by
    have : ContDiff ℝ ⊤ fun y => polarQ y 0 z - v z := by
      unfold polarQ
      fun_prop
    exact this.contDiffAt.analyticAt
  obtain ⟨y, hy⟩ : ∃ y, polarQ y 0 z - v z ≠ 0 := by
    by_contra h
    push Not at h
    have h1 := h 0
    have h2 := h (π / 2)
    simp only [polarQ, sin_zero, cos_zero, sin_pi_div_two, cos_pi_div_two] at h1 h2
    linarith
  have hc := hf.preimage_zero_mem_codiscrete hy
  rw [Filter.codiscrete] at hc
  have h := ae_restrict_le_codiscreteWithin (μ := volume) MeasurableSet.univ hc
  rw [Measure.restrict_univ] at h
  refine measure_mono_null (fun y hy => ?_) h
  have : polarQ y 0 z - v z = 0 := sub_eq_zero.2 hy.2
  simpa using this

/-- Hypotheses of `C177_nhn22` and `C177_nh18`, at 45°N and 45°S. -/
example : ∃ v w : ℝ → ℝ, ∀ c : Scheme,
    Tendsto (fun n => ((polarFine n).analysis c).ncforceBaro 1 ((polarFine n).nd + (n + 1))) atTop (nhds (columnMean 1 1 fun z =>
      meridionalSource 1 (fun y => polarQ y 0 z) (fun y => sin y * (exp z * cos y)) (v z) 0 (π / 2) (π / 4))) ∧
    Tendsto (fun n => ((polarFine n).analysis c).ncforceBaro 1 ((polarFine n).nd - (n + 1))) atTop (nhds (columnMean 1 1 fun z =>
      meridionalSource 1 (fun y => polarQ y 0 z) (fun y => sin y * (exp z * cos y)) (w z) (-(π / 2)) 0 (-(π / 4)))) := by
  have hpi := pi_pos
  obtain ⟨v, hv⟩ := polarQ_encloses (φ := π / 4) (by linarith) (by linarith)
  obtain ⟨w, hw⟩ := polarQ_encloses (φ := -(π / 4)) (by linarith) (by linarith)
  have hN : WaveNorth 1 1 polarQ (π / 4) v := ⟨by linarith, by linarith, fun z _ _ => polarQ_high z, fun z _ _ => hv z⟩
  have hS : WaveSouth 1 1 polarQ (-(π / 4)) w := ⟨by linarith, by linarith, fun z _ _ => polarQ_low z, fun z _ _ => hw z⟩
  have hg : Continuous fun p : ℝ × ℝ × ℝ => evenLayers.g p.1 p.2.1 p.2.2 := by
    show Continuous fun p : ℝ × ℝ × ℝ => cos p.1 * cos p.2.1
    fun_prop
  have hG : Continuous fun p : ℝ × ℝ × ℝ => sin p.1 * (exp p.2.2 * cos p.1) := by fun_prop
  have h2 : ∀ _ : ℕ, 2 * (0 : ℝ) ≤ evenLayers.s := fun _ => by show 2 * (0 : ℝ) ≤ 1; norm_num
  refine ⟨v, w, fun c => ?_⟩
  cases c
  · have h := fun {φ v g} => C177_nh18 (N := evenLayers) (S := evenLayers) (L := evenLayers) (ε := fun _ => 0) (e := fun _ => 0) (l := 0)
      (φ := φ) (v := v) (g := g) (x := fun _ => 1) (G := fun y _ z => sin y * (exp z * cos y)) acrossPoles_curl evenLayers_of hg
      (fun z => (add_self_div_two z).symm) (fun z => (add_self_div_two (1 : ℝ)).symm) evenLayers_bound polarFine_refines polarFine_last
      (fun n => polarWave_observes (2 * n)) h2 (by simp) polarFine_npart hG polarFine_forced tendsto_const_nhds
    simp only [acrossPoles_qgpvZonal] at h
    exact ⟨(h (polarQ_crosses v)).1 hN polarFine_north, (h (polarQ_crosses w)).2 hS polarFine_south⟩
  · have h := fun {φ v g} => C177_nhn22 (N := evenLayers) (S := evenLayers) (ε := fun _ => 0) (e := fun _ => 0) (l := 0)
      (φ := φ) (v := v) (g := g) (x := fun _ => 1) (G := fun y _ z => sin y * (exp z * cos y)) acrossPoles_curl evenLayers_of evenLayers_of hg hg
      polarFine_refines polarFine_last (fun n => polarWave_observes (2 * n)) h2 h2 (by simp) hG polarFine_forced tendsto_const_nhds
    simp only [acrossPoles_qgpv] at h
    exact ⟨(h (polarQ_crosses v)).1 hN polarFine_north, (h (polarQ_crosses w)).2 hS polarFine_south⟩

end Atmos

end Falwa

end
