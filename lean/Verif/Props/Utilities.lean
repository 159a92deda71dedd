import Verif.Model.Utilities
import Verif.Lemmas.Periodic
import Mathlib.Algebra.BigOperators.Field
import Mathlib.Tactic.FieldSimp
import Mathlib.Tactic.Ring
import Mathlib.Tactic.IntervalCases
import Mathlib.Tactic.Linarith

/-!
# Properties of the finite-difference operators of `utilities.py` (C18-C24)
-/

namespace Falwa

open Finset

set_option linter.unusedSectionVars false

section Horizontal

variable {K : Type*} [Field K] [LinearOrder K] [IsStrictOrderedRing K]

/-! ## C18, C19: zonal convergence -/

/-- The difference taken by the code is the one between the eastern and the western neighbour on the circle. -/
theorem zonalDiff_eq (nlon : ℕ) (field : ℕ → ℕ → K) (h : 2 ≤ nlon) (r c : ℕ) (hc : c < nlon) :
    zonalDiff nlon field r c = field r (east nlon c) - field r (west nlon c) := by
  unfold zonalDiff
  by_cases h1 : c = nlon - 1
  · rw [if_pos h1, h1, east_last (by omega), west_pos (by omega) (by omega)]
    congr 2
  · rw [if_neg h1]
    by_cases h0 : c = 0
    · rw [if_pos h0, h0, east_of_lt (by omega), west_zero (by omega)]
    · rw [if_neg h0, east_of_lt (by omega), west_pos (by omega) hc]

/-- C18, full statement. -/
def C18_Statement (K : Type*) [Field K] [LinearOrder K] : Prop :=
  ∀ (nlon : ℕ) (field : ℕ → ℕ → K) (clat : ℕ → K) (dlambda radius tol : K), 3 ≤ nlon → ∀ r,
    ∑ c ∈ range nlon, zonalConvergence nlon field clat dlambda radius tol r c = 0 ∧
    ((∀ c < nlon, field r c = field r 0) →
      ∀ c < nlon, zonalConvergence nlon field clat dlambda radius tol r c = 0) ∧
    (|clat r| ≤ tol → ∀ c < nlon, zonalConvergence nlon field clat dlambda radius tol r c = 0)

/-- C18, partial: zero total on every latitude, zero for a uniform row, and the centred difference quotient on the
other rows. On the rows near the poles the result is the undivided difference of the neighbours.
Missing: zero on the rows near the poles, which fails (`C18_refuted`). -/
theorem C18_zonal_total_partial (nlon : ℕ) (field : ℕ → ℕ → K) (clat : ℕ → K) (dlambda radius tol : K)
    (h : 2 ≤ nlon) (r : ℕ) :
    ∑ c ∈ range nlon, zonalConvergence nlon field clat dlambda radius tol r c = 0 ∧
    ((∀ c < nlon, field r c = field r 0) →
      ∀ c < nlon, zonalConvergence nlon field clat dlambda radius tol r c = 0) ∧
    (tol < |clat r| → ∀ c < nlon, zonalConvergence nlon field clat dlambda radius tol r c =
      - ((field r (east nlon c) - field r (west nlon c)) / (2 * dlambda)) / (radius * clat r)) ∧
    (|clat r| ≤ tol → ∀ c < nlon, zonalConvergence nlon field clat dlambda radius tol r c =
      field r (east nlon c) - field r (west nlon c)) := by
  have hd : ∑ c ∈ range nlon, zonalDiff nlon field r c = 0 := by
    rw [sum_congr rfl fun c hc => zonalDiff_eq nlon field h r c (mem_range.mp hc), sum_sub_distrib,
      sum_east nlon (field r), sum_west nlon (field r), sub_self]
  refine ⟨?_, fun hu c hc => ?_, fun ht c hc => ?_, fun ht c hc => ?_⟩
  · unfold zonalConvergence
    split_ifs
    · rw [← sum_mul, hd, zero_mul]
    · exact hd
  · have : zonalDiff nlon field r c = 0 := by
      rw [zonalDiff_eq nlon field h r c hc, hu _ (east_lt (by omega) c), hu _ (west_lt (by omega) c), sub_self]
    unfold zonalConvergence
    rw [this, zero_mul, ite_self]
  · unfold zonalConvergence
    rw [if_pos ht, zonalDiff_eq nlon field h r c hc]
    rw [mul_div_assoc', neg_div, div_div]
    rw [mul_neg, mul_one, neg_div]
    congr 2
    ring
  · unfold zonalConvergence
    rw [if_neg (not_lt.mpr ht), zonalDiff_eq nlon field h r c hc]

/-- Both kinds of rows occur: cosine 1 and cosine 0 with a positive tolerance. -/
example : (2 : ℕ) ≤ 3 ∧ (1 / 100000 : ℚ) < |1| ∧ |(0 : ℚ)| ≤ 1 / 100000 := by norm_num

/-- C18 fails near the poles: for the row 0, 1, 0 with cosine 0 the first value is 1. -/
theorem C18_refuted : ¬ C18_Statement ℚ := by
  intro h
  have := (h 3 (fun _ c => if c = 1 then 1 else 0) (fun _ => 0) 1 1 (1 / 100000) (by norm_num) 0).2.2
    (by norm_num) 0 (by norm_num)
  simp [zonalConvergence, zonalDiff] at this

/-- C19, linearity. -/
theorem C19_linear (nlon : ℕ) (f g : ℕ → ℕ → K) (a b : K) (clat : ℕ → K) (dlambda radius tol : K) (r c : ℕ) :
    zonalConvergence nlon (fun r c => a * f r c + b * g r c) clat dlambda radius tol r c =
      a * zonalConvergence nlon f clat dlambda radius tol r c +
      b * zonalConvergence nlon g clat dlambda radius tol r c := by
  unfold zonalConvergence zonalDiff
  split_ifs <;> ring

/-- C19, rotation: the result for the field rotated by `s` longitudes is the rotated result, across the seam too. -/
theorem C19_rotation (nlon s : ℕ) (h : 2 ≤ nlon) (f : ℕ → ℕ → K) (clat : ℕ → K) (dlambda radius tol : K)
    (r c : ℕ) (hc : c < nlon) :
    zonalConvergence nlon (fun r c => f r ((c + s) % nlon)) clat dlambda radius tol r c =
      zonalConvergence nlon f clat dlambda radius tol r ((c + s) % nlon) := by
  have : zonalDiff nlon (fun r c => f r ((c + s) % nlon)) r c = zonalDiff nlon f r ((c + s) % nlon) := by
    rw [zonalDiff_eq nlon _ h r c hc, zonalDiff_eq nlon f h r _ (Nat.mod_lt _ (by omega)), east_rotate, west_rotate]
  unfold zonalConvergence
  rw [this]

example : 2 ≤ 240 ∧ 239 < 240 := by norm_num

/-! ## C20: meridional divergence -/

/-- C20, full statement: exactness on affine products on every row off the poles. -/
def C20_Statement (K : Type*) [Field K] [LinearOrder K] : Prop :=
  ∀ (nlat : ℕ) (field : ℕ → ℕ → K) (clat : ℕ → K) (dphi radius tol a b : K), 3 ≤ nlat → dphi ≠ 0 → radius ≠ 0 →
    0 ≤ tol → ∀ c, (∀ r < nlat, field r c * clat r = a + b * (dphi * r)) →
    ∀ r < nlat, tol < |clat r| → meridionalDivergence nlat field clat dphi radius tol r c = b / (radius * clat r)

/-- C20, partial: exact on the interior rows; on the first and the last row the result is half of the slope.
Missing: exactness on the first and last row, which fails (`C20_refuted`). -/
theorem C20_affine_partial (nlat : ℕ) (field : ℕ → ℕ → K) (clat : ℕ → K) (dphi radius tol a b : K)
    (h : 3 ≤ nlat) (hd : dphi ≠ 0) (hr : radius ≠ 0) (ht : 0 ≤ tol) (c : ℕ)
    (haff : ∀ r < nlat, field r c * clat r = a + b * (dphi * r)) (r : ℕ) (hrn : r < nlat) (hcl : tol < |clat r|) :
    meridionalDivergence nlat field clat dphi radius tol r c =
      (if r = 0 ∨ r = nlat - 1 then 1 / 2 else 1) * (b / (radius * clat r)) := by
  have hc0 : clat r ≠ 0 := by
    intro h0; rw [h0, abs_zero] at hcl; exact absurd hcl (not_lt.mpr ht)
  unfold meridionalDivergence
  rw [if_pos hcl]
  unfold meridionalDiff
  by_cases h1 : r = nlat - 1
  · rw [if_pos h1, if_pos (Or.inr h1), haff _ (by omega), haff _ (by omega)]
    have e : ((nlat - 1 : ℕ) : K) = ((nlat - 2 : ℕ) : K) + 1 := by
      rw [show nlat - 1 = nlat - 2 + 1 by omega]; push_cast; ring
    rw [e]
    field_simp
    ring
  · rw [if_neg h1]
    by_cases h0 : r = 0
    · rw [if_pos h0, if_pos (Or.inl h0), haff _ (by omega), haff _ (by omega)]
      field_simp
      push_cast
      ring
    · rw [if_neg h0, if_neg (by tauto), haff _ (by omega), haff _ (by omega)]
      have e : (r : K) = ((r - 1 : ℕ) : K) + 1 := by
        conv_lhs => rw [show r = r - 1 + 1 by omega]
        push_cast; ring
      push_cast
      rw [e]
      field_simp
      ring

/-- Three rows with cosines 1, 2, 1 and products 0, 1, 2. -/
example : ∀ r : ℕ, r < 3 → (if r = 0 then (0 : ℚ) else if r = 1 then 1 / 2 else 2) * (if r = 1 then 2 else 1) =
    0 + 1 * (1 * (r : ℚ)) := by
  intro r hr; interval_cases r <;> norm_num

/-- C20 fails on the first row: field = row number, cosine 1, spacing 1 gives 1/2 there. -/
theorem C20_refuted : ¬ C20_Statement ℚ := by
  intro h
  have := h 3 (fun r _ => r) (fun _ => 1) 1 1 (1 / 100000) 0 1 (by norm_num) (by norm_num) (by norm_num)
    (by norm_num) 0 (by intro r _; ring) 0 (by norm_num) (by norm_num)
  norm_num [meridionalDivergence, meridionalDiff] at this

/-- C20, linearity. -/
theorem C20_linear (nlat : ℕ) (f g : ℕ → ℕ → K) (a b : K) (clat : ℕ → K) (dphi radius tol : K) (r c : ℕ) :
    meridionalDivergence nlat (fun r c => a * f r c + b * g r c) clat dphi radius tol r c =
      a * meridionalDivergence nlat f clat dphi radius tol r c +
      b * meridionalDivergence nlat g clat dphi radius tol r c := by
  unfold meridionalDivergence meridionalDiff
  split_ifs <;> ring

/-- Sum of centred differences over the interior. -/
theorem sum_centred (F : ℕ → K) (n : ℕ) :
    ∑ i ∈ range n, (F (i + 2) - F i) = F (n + 1) + F n - F 1 - F 0 := by
  induction n with
  | zero => simp
  | succ n ih => rw [sum_range_succ, ih]; ring

/-- C20, summation: the cosine-weighted total over the interior rows (`1 .. nlat-2`) only depends on the products on
the two outermost rows of each side. -/
theorem C20_interior_total (nlat : ℕ) (field : ℕ → ℕ → K) (clat : ℕ → K) (dphi radius tol : K)
    (h : 3 ≤ nlat) (hd : dphi ≠ 0) (hr : radius ≠ 0) (ht : 0 ≤ tol) (c : ℕ)
    (hcl : ∀ r, 1 ≤ r → r + 1 < nlat → tol < |clat r|) :
    ∑ r ∈ Ico 1 (nlat - 1), radius * clat r * dphi * meridionalDivergence nlat field clat dphi radius tol r c =
      (field (nlat - 1) c * clat (nlat - 1) + field (nlat - 2) c * clat (nlat - 2)
        - field 1 c * clat 1 - field 0 c * clat 0) / 2 := by
  have key := sum_centred (fun r => field r c * clat r) (nlat - 2)
  rw [show nlat - 2 + 1 = nlat - 1 by omega] at key
  rw [← key, sum_Ico_eq_sum_range, show nlat - 1 - 1 = nlat - 2 by omega, Finset.sum_div]
  refine sum_congr rfl fun i hi => ?_
  have hi := mem_range.mp hi
  have hc := hcl (1 + i) (by omega) (by omega)
  have hc0 : clat (1 + i) ≠ 0 := by
    intro h0; rw [h0, abs_zero] at hc; exact absurd hc (not_lt.mpr ht)
  unfold meridionalDivergence meridionalDiff
  rw [if_pos hc, if_neg (by omega), if_neg (by omega), show 1 + i + 1 = i + 2 by omega, show 1 + i - 1 = i by omega]
  field_simp

example : ∀ r, 1 ≤ r → r + 1 < 4 → (1 / 100000 : ℚ) < |(if r = 0 ∨ r = 3 then 0 else 1)| := by
  intro r h1 h2
  rw [if_neg (by omega)]; norm_num

/-! ## C21: curl -/

/-- The curl written with neighbours on the circle. -/
theorem curl2d_eq (nlat nlon : ℕ) (u v : ℕ → ℕ → K) (clat : ℕ → K) (dlambda dphi radius : K) (h : 2 ≤ nlon)
    (r c : ℕ) (hr0 : 0 < r) (hr1 : r + 1 < nlat) (hc : c < nlon) :
    curl2d nlat nlon u v clat dlambda dphi radius r c =
      ((v r (east nlon c) - v r (west nlon c)) / (2 * dlambda)
        - (u (r + 1) c * clat (r + 1) - u (r - 1) c * clat (r - 1)) / (2 * dphi)) / radius / clat r := by
  have := zonalDiff_eq nlon v h r c hc
  unfold zonalDiff at this
  unfold curl2d
  rw [if_neg (by omega), this]

/-- C21, curl of a gradient: if `u cos` and `v` are the centred differences of one potential in longitude and latitude,
the curl vanishes at every grid point. -/
theorem C21_curl_of_gradient (nlat nlon : ℕ) (u v ψ : ℕ → ℕ → K) (clat : ℕ → K) (dlambda dphi radius : K)
    (h : 2 ≤ nlon)
    (hu : ∀ r < nlat, ∀ c < nlon, u r c * clat r = (ψ r (east nlon c) - ψ r (west nlon c)) / (2 * dlambda))
    (hv : ∀ r, 0 < r → r + 1 < nlat → ∀ c < nlon, v r c = (ψ (r + 1) c - ψ (r - 1) c) / (2 * dphi))
    (r c : ℕ) (hc : c < nlon) :
    curl2d nlat nlon u v clat dlambda dphi radius r c = 0 := by
  by_cases hb : r = 0 ∨ nlat - 1 ≤ r
  · unfold curl2d; rw [if_pos hb]
  · rw [curl2d_eq nlat nlon u v clat dlambda dphi radius h r c (by omega) (by omega) hc,
      hv r (by omega) (by omega) _ (east_lt (by omega) c), hv r (by omega) (by omega) _ (west_lt (by omega) c),
      hu (r + 1) (by omega) c hc, hu (r - 1) (by omega) c hc]
    have : ((ψ (r + 1) (east nlon c) - ψ (r - 1) (east nlon c)) / (2 * dphi) -
        (ψ (r + 1) (west nlon c) - ψ (r - 1) (west nlon c)) / (2 * dphi)) / (2 * dlambda) -
        ((ψ (r + 1) (east nlon c) - ψ (r + 1) (west nlon c)) / (2 * dlambda) -
        (ψ (r - 1) (east nlon c) - ψ (r - 1) (west nlon c)) / (2 * dlambda)) / (2 * dphi) = 0 := by
      ring
    rw [this, zero_div, zero_div]

/-- A potential and winds that meet the hypotheses: ψ = row · (longitude = 0), unit spacings, cosine 1. -/
example : ∃ u v ψ : ℕ → ℕ → ℚ,
    (∀ r < 3, ∀ c < 3, u r c * 1 = (ψ r (east 3 c) - ψ r (west 3 c)) / (2 * 1)) ∧
    (∀ r, 0 < r → r + 1 < 3 → ∀ c < 3, v r c = (ψ (r + 1) c - ψ (r - 1) c) / (2 * 1)) ∧ v 1 0 = 1 ∧ u 1 1 = -1 / 2 := by
  refine ⟨fun r c => ((if east 3 c = 0 then (r : ℚ) else 0) - (if west 3 c = 0 then (r : ℚ) else 0)) / (2 * 1),
    fun r c => ((if c = 0 then ((r + 1 : ℕ) : ℚ) else 0) - (if c = 0 then ((r - 1 : ℕ) : ℚ) else 0)) / (2 * 1),
    fun r c => if c = 0 then (r : ℚ) else 0, fun r _ c _ => by rw [mul_one], fun r _ _ c _ => rfl, ?_, ?_⟩
  · norm_num
  · norm_num [east, west]

/-- C21, the boundary rows are zero, and the curl is linear in the pair of winds. -/
theorem C21_boundary_and_linear (nlat nlon : ℕ) (u v u' v' : ℕ → ℕ → K) (clat : ℕ → K) (dlambda dphi radius a b : K)
    (r c : ℕ) :
    ((r = 0 ∨ r = nlat - 1) → curl2d nlat nlon u v clat dlambda dphi radius r c = 0) ∧
    curl2d nlat nlon (fun r c => a * u r c + b * u' r c) (fun r c => a * v r c + b * v' r c)
        clat dlambda dphi radius r c =
      a * curl2d nlat nlon u v clat dlambda dphi radius r c +
      b * curl2d nlat nlon u' v' clat dlambda dphi radius r c := by
  refine ⟨fun h => ?_, ?_⟩
  · unfold curl2d
    rw [if_pos (by omega)]
  · unfold curl2d
    split_ifs <;> ring

/-- C21, rotation. -/
theorem C21_rotation (nlat nlon s : ℕ) (u v : ℕ → ℕ → K) (clat : ℕ → K) (dlambda dphi radius : K) (h : 2 ≤ nlon)
    (r c : ℕ) (hc : c < nlon) :
    curl2d nlat nlon (fun r c => u r ((c + s) % nlon)) (fun r c => v r ((c + s) % nlon))
        clat dlambda dphi radius r c =
      curl2d nlat nlon u v clat dlambda dphi radius r ((c + s) % nlon) := by
  by_cases hb : r = 0 ∨ nlat - 1 ≤ r
  · unfold curl2d; rw [if_pos hb, if_pos hb]
  · rw [curl2d_eq _ _ _ _ _ _ _ _ h r c (by omega) (by omega) hc,
      curl2d_eq _ _ _ _ _ _ _ _ h r _ (by omega) (by omega) (Nat.mod_lt _ (by omega)), east_rotate, west_rotate]

example : 2 ≤ 4 ∧ 3 < 4 := by norm_num

end Horizontal

section Vertical

variable {K : Type*} [Field K] [LinearOrder K] [IsStrictOrderedRing K]

/-! ## C22: vertical derivative -/

/-- C22, when the call succeeds: `gfunc` must have `2 equator_idx - 1` latitudes (or broadcast with that table). -/
theorem C22_shape (nlat kmax eq : ℕ) (dz : K) (statN statS decay : ℕ → K) (g : ℕ → ℕ → ℕ → K)
    (mult : ℕ → ℕ → K) (heq : 2 ≤ eq) (hn : 2 ≤ nlat) :
    ((∃ z, zDerivativeOfProd nlat kmax eq dz statN statS decay g mult = .ok z) ↔ nlat = 2 * eq - 1) := by
  unfold zDerivativeOfProd statTableWidth
  rw [if_neg (by omega)]
  constructor
  · rintro ⟨z, hz⟩
    split_ifs at hz with h
    omega
  · intro h
    rw [if_pos (Or.inl (by omega))]
    exact ⟨_, rfl⟩

example : 2 ≤ 61 ∧ 2 ≤ 121 ∧ 121 = 2 * 61 - 1 := by norm_num

/-- C22, linearity in `gfunc` for successful calls. -/
theorem C22_linear (nlat kmax eq : ℕ) (dz : K) (statN statS decay : ℕ → K) (g g' : ℕ → ℕ → ℕ → K) (a b : K)
    (mult : ℕ → ℕ → K) (z z' : ℕ → ℕ → ℕ → K)
    (h : zDerivativeOfProd nlat kmax eq dz statN statS decay g mult = .ok z)
    (h' : zDerivativeOfProd nlat kmax eq dz statN statS decay g' mult = .ok z') :
    zDerivativeOfProd nlat kmax eq dz statN statS decay (fun k j c => a * g k j c + b * g' k j c) mult =
      .ok (fun k j c => a * z k j c + b * z' k j c) := by
  unfold zDerivativeOfProd at h h' ⊢
  split_ifs at h h' ⊢ with h1 h2
  injection h with h
  injection h' with h'
  subst h h'
  congr 1
  funext k j c
  unfold zDer toBeDiff
  simp only
  split_ifs <;> ring

example : ∃ z, zDerivativeOfProd (K := ℚ) 3 5 2 1 (fun _ => 1) (fun _ => 1) (fun _ => 1) (fun k _ _ => k)
    (fun _ _ => 1) = .ok z := (C22_shape 3 5 2 1 _ _ _ _ _ le_rfl (by norm_num)).mpr rfl

/-- The quantity that is differentiated, written independently: decay times `g` over the static stability of the
hemisphere of row `j` (southern below the equator row, northern above, mean at the equator). -/
def diffQuantity (eq : ℕ) (statN statS decay : ℕ → K) (g : ℕ → ℕ → ℕ → K) (k j c : ℕ) : K :=
  decay k * g k j c / (if j + 1 < eq then statS k else if j + 1 = eq then (statS k + statN k) / 2 else statN k)

/-- C22, exactness: if the differentiated quantity is affine in height with slope `b` in a column, the result is
multiplier times `b` at every level, the boundary levels included. Slope 0 is the constant case. -/
theorem C22_affine (kmax eq : ℕ) (dz : K) (statN statS decay : ℕ → K) (g : ℕ → ℕ → ℕ → K) (mult : ℕ → ℕ → K)
    (hk : 2 ≤ kmax) (heq : 2 ≤ eq) (hdz : dz ≠ 0) (j c : ℕ) (a b : K)
    (haff : ∀ k < kmax, diffQuantity eq statN statS decay g k j c = a + b * (dz * k)) :
    ∃ z, zDerivativeOfProd (2 * eq - 1) kmax eq dz statN statS decay g mult = .ok z ∧
      ∀ k < kmax, z k j c = mult k j * b := by
  refine ⟨_, by unfold zDerivativeOfProd statTableWidth; rw [if_neg (by omega), if_pos (Or.inl (by omega))], ?_⟩
  have hT : ∀ k < kmax, toBeDiff (2 * eq - 1) eq statN statS decay g k j c = a + b * (dz * k) := by
    intro k hk'
    rw [← haff k hk']
    have hb1 : bcast (2 * eq - 1) j = j := by unfold bcast; rw [if_neg (by omega)]
    have hb2 : bcast (statTableWidth eq) j = j := by unfold bcast statTableWidth; rw [if_neg (by omega)]
    unfold toBeDiff diffQuantity
    rw [hb1, hb2]
    unfold statTable
    congr 1
    by_cases h1 : j + 1 < eq
    · rw [if_pos (by omega), if_pos h1]
    · rw [if_neg (by omega), if_neg h1]
      by_cases h2 : j + 1 = eq
      · rw [if_pos (by omega), if_pos h2]; ring
      · rw [if_neg (by omega), if_neg h2]
  have hb : bcast (2 * eq - 1) j = j := by unfold bcast; rw [if_neg (by omega)]
  intro k hk'
  unfold zDer
  simp only [hb]
  by_cases h1 : k = kmax - 1
  · rw [if_pos h1, hT _ (by omega), hT _ (by omega), h1]
    have e : ((kmax - 1 : ℕ) : K) = ((kmax - 2 : ℕ) : K) + 1 := by
      rw [show kmax - 1 = kmax - 2 + 1 by omega]; push_cast; ring
    rw [e]; field_simp; ring
  · rw [if_neg h1]
    by_cases h0 : k = 0
    · rw [if_pos h0, hT _ (by omega), hT _ (by omega), h0]
      push_cast; field_simp; ring
    · rw [if_neg h0, hT _ (by omega), hT _ (by omega)]
      have e : (k : K) = ((k - 1 : ℕ) : K) + 1 := by
        conv_lhs => rw [show k = k - 1 + 1 by omega]
        push_cast; ring
      push_cast; rw [e]; field_simp; ring

/-- Unit decay, stabilities 2 (south) and 4 (north), `g` proportional to height and stability: slope 3. -/
example : ∀ k < 5, ∀ j < 3, diffQuantity (K := ℚ) 2 (fun _ => 4) (fun _ => 2) (fun _ => 1)
    (fun k j _ => (if j = 0 then 2 else if j = 1 then 3 else 4) * (1 + 3 * (10 * (k : ℚ)))) k j 0 =
      1 + 3 * (10 * (k : ℚ)) := by
  intro k _ j hj
  unfold diffQuantity
  interval_cases j <;> norm_num

/-! ## C23: static stability -/

theorem statOf_affine (kmax : ℕ) (height t0 : ℕ → K) (hk : 2 ≤ kmax)
    (hh : ∀ k l, k < kmax → l < kmax → k ≠ l → height k ≠ height l) (a s : K)
    (ht : ∀ k < kmax, t0 k = a + s * height k) (k : ℕ) (hkk : k < kmax) : statOf kmax height t0 k = s := by
  have aux : ∀ k l, k < kmax → l < kmax → k ≠ l → (t0 k - t0 l) / (height k - height l) = s := by
    intro k l h1 h2 h3
    have := sub_ne_zero.mpr (hh k l h1 h2 h3)
    rw [ht k h1, ht l h2, div_eq_iff this]
    ring
  unfold statOf
  by_cases h1 : k = kmax - 1
  · rw [if_pos h1]; exact aux _ _ (by omega) (by omega) (by omega)
  · rw [if_neg h1]
    by_cases h0 : k = 0
    · rw [if_pos h0]; exact aux _ _ (by omega) (by omega) (by omega)
    · rw [if_neg h0]; exact aux _ _ (by omega) (by omega) (by omega)

theorem zonalMean_add_const (nlon : ℕ) (hn : 0 < nlon) (x : ℕ → K) (d : K) :
    zonalMean nlon (fun c => x c + d) = zonalMean nlon x + d := by
  have : (nlon : K) ≠ 0 := by exact_mod_cast hn.ne'
  unfold zonalMean
  rw [sum_add_distrib, sum_const, card_range, nsmul_eq_mul]
  field_simp

theorem domainMean_add_const (rows : Finset ℕ) (area zm : ℕ → K) (d : K) (h : ∑ j ∈ rows, area j ≠ 0) :
    domainMean rows area (fun j => zm j + d) = domainMean rows area zm + d := by
  unfold domainMean
  have : ∑ j ∈ rows, (zm j + d) * area j = ∑ j ∈ rows, zm j * area j + d * ∑ j ∈ rows, area j := by
    rw [mul_sum, ← sum_add_distrib]
    exact sum_congr rfl fun j _ => by ring
  rw [this, add_div, mul_div_cancel_right₀ _ h]

/-- Positive areas and non-empty hemispheric domains. -/
structure StatSensible (nlat nlon : ℕ) (area : ℕ → ℕ → K) (sEt nEt : Option ℕ) : Prop where
  nlat_pos : 2 ≤ nlat
  nlon_pos : 0 < nlon
  area_pos : ∀ j < nlat, ∀ c < nlon, 0 < area j c
  sEt_pos : sEt ≠ some 0

theorem zonalMean_pos (nlon : ℕ) (hn : 0 < nlon) (x : ℕ → K) (h : ∀ c < nlon, 0 < x c) : 0 < zonalMean nlon x := by
  unfold zonalMean
  exact div_pos (sum_pos (fun c hc => h c (mem_range.mp hc)) ⟨0, mem_range.mpr hn⟩) (by exact_mod_cast hn)

/-- The rows of the Python slice `[-n:]` of `nlat` rows: the last `n` ones, all of them if `n = 0`. -/
def Spec.InLast (nlat n j : ℕ) : Prop := n = 0 ∨ nlat ≤ j + n

instance (nlat n j : ℕ) : Decidable (Spec.InLast nlat n j) := inferInstanceAs (Decidable (_ ∨ _))

theorem lastRowsStart_le_iff (nlat n j : ℕ) : lastRowsStart nlat n ≤ j ↔ Spec.InLast nlat n j := by
  unfold lastRowsStart Spec.InLast
  split_ifs <;> omega

theorem mem_northRows {nlat n j : ℕ} : j ∈ northRows nlat n ↔ j < nlat ∧ Spec.InLast nlat n j := by
  rw [northRows, mem_Ico, lastRowsStart_le_iff, and_comm]

theorem mem_southRows {nlat n j : ℕ} : j ∈ southRows nlat n ↔ j < nlat ∧ j < n := by
  rw [southRows, mem_range]; omega

theorem northRows_lt {nlat n j : ℕ} (h : j ∈ northRows nlat n) : j < nlat := (mem_Ico.mp h).2
theorem southRows_lt {nlat n j : ℕ} (h : j ∈ southRows nlat n) : j < nlat :=
  lt_of_lt_of_le (mem_range.mp h) (min_le_right _ _)

theorem StatSensible.north_nonempty {nlat nlon : ℕ} {area : ℕ → ℕ → K} {sEt nEt : Option ℕ}
    (S : StatSensible nlat nlon area sEt nEt) (n : ℕ) : (northRows nlat n).Nonempty := by
  have := S.nlat_pos
  refine ⟨nlat - 1, mem_Ico.mpr ⟨?_, by omega⟩⟩
  unfold lastRowsStart
  split_ifs <;> omega

theorem StatSensible.south_nonempty {nlat nlon : ℕ} {area : ℕ → ℕ → K} {sEt nEt : Option ℕ}
    (S : StatSensible nlat nlon area sEt nEt) : (southRows nlat (sEt.getD (nlat / 2))).Nonempty := by
  have := S.nlat_pos
  refine ⟨0, mem_range.mpr (lt_min ?_ (by omega))⟩
  cases h : sEt with
  | none => show 0 < nlat / 2; omega
  | some n =>
    show 0 < n
    rcases Nat.eq_zero_or_pos n with rfl | hp
    · exact absurd h S.sEt_pos
    · exact hp

theorem StatSensible.sum_pos {nlat nlon : ℕ} {area : ℕ → ℕ → K} {sEt nEt : Option ℕ}
    (S : StatSensible nlat nlon area sEt nEt) {rows : Finset ℕ} (hne : rows.Nonempty) (hlt : ∀ j ∈ rows, j < nlat) :
    0 < ∑ j ∈ rows, zonalMean nlon (area j) :=
  Finset.sum_pos (fun j hj => zonalMean_pos nlon S.nlon_pos _ (S.area_pos j (hlt j hj))) hne

/-- C23, exactness: temperature `base(lat, lon) + s height` gives static stability `s` on every level in both
hemispheres; `s = 0` is the case of a temperature that does not change with height. -/
theorem C23_affine (kmax nlat nlon : ℕ) (height : ℕ → K) (area : ℕ → ℕ → K) (theta : ℕ → ℕ → ℕ → K)
    (sEt nEt : Option ℕ) (S : StatSensible nlat nlon area sEt nEt) (hk : 2 ≤ kmax)
    (hh : ∀ k l, k < kmax → l < kmax → k ≠ l → height k ≠ height l)
    (base : ℕ → ℕ → K) (s : K) (hθ : ∀ k < kmax, ∀ j < nlat, ∀ c < nlon, theta k j c = base j c + s * height k)
    (k : ℕ) (hkk : k < kmax) :
    (staticStability kmax nlat nlon height area theta sEt nEt).statN k = s ∧
    (staticStability kmax nlat nlon height area theta sEt nEt).statS k = s := by
  have hz : ∀ k < kmax, ∀ j < nlat, zonalMean nlon (theta k j) = zonalMean nlon (base j) + s * height k := by
    intro k hk j hj
    rw [← zonalMean_add_const nlon S.nlon_pos]
    unfold zonalMean
    congr 1
    exact sum_congr rfl fun c hc => hθ k hk j hj c (mem_range.mp hc)
  have key : ∀ rows : Finset ℕ, rows.Nonempty → (∀ j ∈ rows, j < nlat) → ∀ k < kmax,
      domainMean rows (fun j => zonalMean nlon (area j)) (fun j => zonalMean nlon (theta k j)) =
      domainMean rows (fun j => zonalMean nlon (area j)) (fun j => zonalMean nlon (base j)) + s * height k := by
    intro rows hne hlt k hk
    rw [← domainMean_add_const _ _ _ _ (S.sum_pos hne hlt).ne']
    unfold domainMean
    congr 1
    exact sum_congr rfl fun j hj => by beta_reduce; rw [hz k hk j (hlt j hj)]
  exact ⟨statOf_affine kmax height _ hk hh _ s
      (key _ (S.north_nonempty _) (fun j hj => northRows_lt hj)) k hkk,
    statOf_affine kmax height _ hk hh _ s
      (key _ S.south_nonempty (fun j hj => southRows_lt hj)) k hkk⟩

/-- Unit areas on a 3 × 2 grid and equally spaced heights meet the hypotheses. -/
example : StatSensible (K := ℚ) 3 2 (fun _ _ => 1) none none ∧
    (∀ k l, k < 5 → l < 5 → k ≠ l → (1000 * (k : ℚ)) ≠ 1000 * (l : ℚ)) := by
  refine ⟨⟨by norm_num, by norm_num, fun _ _ _ _ => by norm_num, by simp⟩, fun k l _ _ h h' => h ?_⟩
  have : (k : ℚ) = l := by linarith
  exact_mod_cast this

/-- C23, bounds: each hemispheric mean lies between any bounds of the temperature in that hemisphere. -/
theorem C23_means_bounded (kmax nlat nlon : ℕ) (height : ℕ → K) (area : ℕ → ℕ → K) (theta : ℕ → ℕ → ℕ → K)
    (sEt nEt : Option ℕ) (S : StatSensible nlat nlon area sEt nEt) (k : ℕ) (lo hi : K) :
    ((∀ j < nlat, Spec.InLast nlat (nEt.getD (nlat / 2)) j → ∀ c < nlon, lo ≤ theta k j c ∧ theta k j c ≤ hi) →
      lo ≤ (staticStability kmax nlat nlon height area theta sEt nEt).t0N k ∧
      (staticStability kmax nlat nlon height area theta sEt nEt).t0N k ≤ hi) ∧
    ((∀ j < nlat, j < sEt.getD (nlat / 2) → ∀ c < nlon, lo ≤ theta k j c ∧ theta k j c ≤ hi) →
      lo ≤ (staticStability kmax nlat nlon height area theta sEt nEt).t0S k ∧
      (staticStability kmax nlat nlon height area theta sEt nEt).t0S k ≤ hi) := by
  have hn : (0 : K) < nlon := by exact_mod_cast S.nlon_pos
  have hz : ∀ j, (∀ c < nlon, lo ≤ theta k j c ∧ theta k j c ≤ hi) →
      lo ≤ zonalMean nlon (theta k j) ∧ zonalMean nlon (theta k j) ≤ hi := by
    intro j hb
    unfold zonalMean
    rw [le_div_iff₀ hn, div_le_iff₀ hn]
    constructor
    · have := card_nsmul_le_sum (range nlon) (theta k j) lo (fun c hc => (hb c (mem_range.mp hc)).1)
      rw [card_range, nsmul_eq_mul] at this
      linarith
    · have := sum_le_card_nsmul (range nlon) (theta k j) hi (fun c hc => (hb c (mem_range.mp hc)).2)
      rw [card_range, nsmul_eq_mul] at this
      linarith
  have key : ∀ rows : Finset ℕ, rows.Nonempty → (∀ j ∈ rows, j < nlat) →
      (∀ j ∈ rows, ∀ c < nlon, lo ≤ theta k j c ∧ theta k j c ≤ hi) →
      lo ≤ domainMean rows (fun j => zonalMean nlon (area j)) (fun j => zonalMean nlon (theta k j)) ∧
      domainMean rows (fun j => zonalMean nlon (area j)) (fun j => zonalMean nlon (theta k j)) ≤ hi := by
    intro rows hne hlt hb
    have hs := S.sum_pos hne hlt
    have ha : ∀ j ∈ rows, 0 ≤ zonalMean nlon (area j) := fun j hj =>
      (zonalMean_pos nlon S.nlon_pos _ (S.area_pos j (hlt j hj))).le
    unfold domainMean
    rw [le_div_iff₀ hs, div_le_iff₀ hs, mul_sum, mul_sum]
    exact ⟨sum_le_sum fun j hj => mul_le_mul_of_nonneg_right (hz j (hb j hj)).1 (ha j hj),
      sum_le_sum fun j hj => mul_le_mul_of_nonneg_right (hz j (hb j hj)).2 (ha j hj)⟩
  exact ⟨fun h => key _ (S.north_nonempty _) (fun j hj => northRows_lt hj) fun j hj =>
      h j (mem_northRows.1 hj).1 (mem_northRows.1 hj).2,
    fun h => key _ S.south_nonempty (fun j hj => southRows_lt hj) fun j hj =>
      h j (mem_southRows.1 hj).1 (mem_southRows.1 hj).2⟩

/-- C23, non-interference: each hemisphere's mean and stability only depend on temperature and area on its own rows. -/
theorem C23_hemispheres_independent (kmax nlat nlon : ℕ) (height : ℕ → K) (area area' : ℕ → ℕ → K)
    (theta theta' : ℕ → ℕ → ℕ → K) (sEt nEt : Option ℕ) :
    ((∀ j < nlat, Spec.InLast nlat (nEt.getD (nlat / 2)) j → ∀ c < nlon,
        area j c = area' j c ∧ ∀ k, theta k j c = theta' k j c) →
      (staticStability kmax nlat nlon height area theta sEt nEt).t0N =
        (staticStability kmax nlat nlon height area' theta' sEt nEt).t0N ∧
      (staticStability kmax nlat nlon height area theta sEt nEt).statN =
        (staticStability kmax nlat nlon height area' theta' sEt nEt).statN) ∧
    ((∀ j < nlat, j < sEt.getD (nlat / 2) → ∀ c < nlon,
        area j c = area' j c ∧ ∀ k, theta k j c = theta' k j c) →
      (staticStability kmax nlat nlon height area theta sEt nEt).t0S =
        (staticStability kmax nlat nlon height area' theta' sEt nEt).t0S ∧
      (staticStability kmax nlat nlon height area theta sEt nEt).statS =
        (staticStability kmax nlat nlon height area' theta' sEt nEt).statS) := by
  have key : ∀ rows : Finset ℕ,
      (∀ j ∈ rows, ∀ c < nlon, area j c = area' j c ∧ ∀ k, theta k j c = theta' k j c) →
      (fun k => domainMean rows (fun j => zonalMean nlon (area j)) (fun j => zonalMean nlon (theta k j))) =
      (fun k => domainMean rows (fun j => zonalMean nlon (area' j)) (fun j => zonalMean nlon (theta' k j))) := by
    intro rows h
    have ha : ∀ j ∈ rows, zonalMean nlon (area j) = zonalMean nlon (area' j) := fun j hj => by
      unfold zonalMean
      rw [sum_congr rfl fun c hc => (h j hj c (mem_range.mp hc)).1]
    have ht : ∀ k, ∀ j ∈ rows, zonalMean nlon (theta k j) = zonalMean nlon (theta' k j) := fun k j hj => by
      unfold zonalMean
      rw [sum_congr rfl fun c hc => (h j hj c (mem_range.mp hc)).2 k]
    funext k
    unfold domainMean
    have hs : ∑ j ∈ rows, zonalMean nlon (theta k j) * zonalMean nlon (area j) =
        ∑ j ∈ rows, zonalMean nlon (theta' k j) * zonalMean nlon (area' j) :=
      sum_congr rfl fun j hj => by rw [ht k j hj, ha j hj]
    rw [hs, sum_congr rfl ha]
  constructor
  · intro h
    have := key _ fun j hj => h j (mem_northRows.1 hj).1 (mem_northRows.1 hj).2
    exact ⟨this, congrArg (statOf kmax height) this⟩
  · intro h
    have := key _ fun j hj => h j (mem_southRows.1 hj).1 (mem_southRows.1 hj).2
    exact ⟨this, congrArg (statOf kmax height) this⟩

/-- The default domains of a grid with 4 latitudes are rows 0, 1 and rows 2, 3: disjoint and non-empty. -/
example : (∀ j < 4, j < (none : Option ℕ).getD (4 / 2) ↔ j = 0 ∨ j = 1) ∧
    (∀ j < 4, Spec.InLast 4 ((none : Option ℕ).getD (4 / 2)) j ↔ j = 2 ∨ j = 3) := by decide

end Vertical

/-! ## C24: QGPV for given vorticity -/

namespace QgpvInput

/-- Row `j` lies in one of the two hemispheric slices. -/
def Covered (Q : QgpvInput) (j : ℕ) : Prop := Spec.InLast Q.nlat Q.nlatS j ∨ j < Q.nlatS

/-- Temperature equals the mean profile of the hemisphere that the code uses for the row. -/
def AtRest (Q : QgpvInput) : Prop :=
  ∀ k j c, (Spec.InLast Q.nlat Q.nlatS j → Q.theta k j c = Q.t0N k) ∧
    (¬ Spec.InLast Q.nlat Q.nlatS j → Q.theta k j c = Q.t0S k)

end QgpvInput

/-- C24, full statement: whatever `np.empty_like` returns, an atmosphere at rest has QGPV equal to absolute vorticity
on every row. -/
def C24_Statement : Prop :=
  ∀ (Q : QgpvInput) (junk : ℕ → ℕ → ℕ → ℝ), Q.AtRest →
    ∀ k < Q.kmax, ∀ j < Q.nlat, ∀ c, Q.qgpv junk k j c = Q.avort k j c

/-- C24, partial: true on every row that one of the hemispheric slices covers, and all rows are covered if
`2 nlat_s ≥ nlat` (in particular for an even number of latitudes with the default `nlat_s`).
Missing: the rows between the slices, where the claim fails (`C24_refuted`, `C24_middle_row`). -/
theorem C24_rest_partial (Q : QgpvInput) (junk : ℕ → ℕ → ℕ → ℝ) (h : Q.AtRest) (k j c : ℕ) :
    (Q.Covered j → Q.qgpv junk k j c = Q.avort k j c ∧ Q.dzdiv junk k j c = 0) ∧
    (Q.nlat ≤ 2 * Q.nlatS → Q.Covered j) := by
  constructor
  · intro hc
    have hz : ∀ k, Q.zdiv junk k j c = 0 := by
      intro k
      unfold QgpvInput.zdiv
      simp only [lastRowsStart_le_iff]
      by_cases h1 : Spec.InLast Q.nlat Q.nlatS j
      · rw [if_pos h1, (h k j c).1 h1, sub_self, mul_zero, zero_div]
      · have h2 : j < Q.nlatS := hc.resolve_left h1
        rw [if_neg h1, if_pos h2, (h k j c).2 h1, sub_self, mul_zero, zero_div]
    have hd : Q.dzdiv junk k j c = 0 := by
      unfold QgpvInput.dzdiv
      simp only [hz]
      split_ifs <;> simp
    refine ⟨?_, hd⟩
    unfold QgpvInput.qgpv
    rw [hd, zero_mul, add_zero]
  · intro hn
    unfold QgpvInput.Covered Spec.InLast
    omega

/-- C24, linearity of the stretching term in the departure from the mean profile, on covered rows: two inputs that
differ in temperature only. -/
theorem C24_linear_partial (Q : QgpvInput) (junk : ℕ → ℕ → ℕ → ℝ) (d1 d2 : ℕ → ℕ → ℕ → ℝ) (a b : ℝ)
    (k j c : ℕ) (hc : Q.Covered j) :
    let mean := fun k j (_ : ℕ) => if Spec.InLast Q.nlat Q.nlatS j then Q.t0N k else Q.t0S k
    let run := fun d : ℕ → ℕ → ℕ → ℝ =>
      ({ Q with theta := fun k j c => mean k j c + d k j c } : QgpvInput).dzdiv junk k j c
    run (fun k j c => a * d1 k j c + b * d2 k j c) = a * run d1 + b * run d2 := by
  intro mean run
  have hz : ∀ d : ℕ → ℕ → ℕ → ℝ, ∀ k,
      ({ Q with theta := fun k j c => mean k j c + d k j c } : QgpvInput).zdiv junk k j c =
      Real.exp (-Q.unih k / Q.scaleHeight) * d k j c /
        (if Spec.InLast Q.nlat Q.nlatS j then Q.statN k else Q.statS k) := by
    intro d k
    unfold QgpvInput.zdiv
    simp only [mean, lastRowsStart_le_iff]
    by_cases h1 : Spec.InLast Q.nlat Q.nlatS j
    · simp only [h1, if_true, add_sub_cancel_left]
    · have h2 : j < Q.nlatS := hc.resolve_left h1
      simp only [h1, h2, if_true, if_false, add_sub_cancel_left]
  simp only [run]
  unfold QgpvInput.dzdiv
  simp only [hz]
  split_ifs <;> ring

/-- C24, the uncovered rows in general: there the stretching term is computed from uninitialised memory only, and
any value can come out. -/
theorem C24_middle_row (Q : QgpvInput) (j : ℕ) (hj : ¬ Q.Covered j) (hk : 3 ≤ Q.kmax)
    (hu : Q.unih 1 ≠ Q.unih 0) (x : ℝ) :
    ∃ junk, ∀ c, Q.dzdiv junk 0 j c = x := by
  have hE : Real.exp (Q.unih 0 / Q.scaleHeight) ≠ 0 := (Real.exp_pos _).ne'
  have hs : Q.unih 1 - Q.unih 0 ≠ 0 := sub_ne_zero.mpr hu
  refine ⟨fun k _ _ => if k = 1 then x * (Q.unih 1 - Q.unih 0) / Real.exp (Q.unih 0 / Q.scaleHeight) else 0,
    fun c => ?_⟩
  have h1 : ¬ Spec.InLast Q.nlat Q.nlatS j := fun h => hj (Or.inl h)
  have h2 : ¬ j < Q.nlatS := fun h => hj (Or.inr h)
  unfold QgpvInput.dzdiv QgpvInput.zdiv
  simp only [lastRowsStart_le_iff, h1, h2, if_false]
  rw [if_neg (by omega)]
  simp
  field_simp

/-- With an odd number of latitudes and the default `nlat_s` the middle row is uncovered, for every size. -/
theorem C24_odd_grid_uncovered (Q : QgpvInput) (m : ℕ) (hm : 1 ≤ m) (h1 : Q.nlat = 2 * m + 1)
    (h2 : Q.nlatS = Q.nlat / 2) : ¬ Q.Covered m := by
  unfold QgpvInput.Covered Spec.InLast
  omega

/-- An input at rest with 3 latitudes at -60, 30 and 60 degrees and default `nlat_s = 1`. -/
noncomputable def qgpvSample : QgpvInput where
  omega := 1
  nlat := 3
  kmax := 3
  unih := fun k => k
  ylat := fun j => if j = 0 then -60 else if j = 1 then 30 else 60
  avort := fun _ _ _ => 0
  theta := fun _ _ _ => 300
  t0N := fun _ => 300
  t0S := fun _ => 300
  statN := fun _ => 1
  statS := fun _ => 1
  nlatS := 1
  scaleHeight := 7000

theorem qgpvSample_rest : qgpvSample.AtRest := fun _ _ _ => ⟨fun _ => rfl, fun _ => rfl⟩

example : qgpvSample.Covered 0 ∧ qgpvSample.Covered 2 ∧ ¬ qgpvSample.Covered 1 := by
  unfold QgpvInput.Covered qgpvSample Spec.InLast
  norm_num

/-- C24 fails: the middle row of the sample depends on uninitialised memory. -/
theorem C24_refuted : ¬ C24_Statement := by
  intro h
  obtain ⟨junk, hj⟩ := C24_middle_row qgpvSample 1
    (C24_odd_grid_uncovered qgpvSample 1 (by norm_num) rfl rfl) (by norm_num [qgpvSample])
    (by norm_num [qgpvSample]) 1
  have := h qgpvSample junk qgpvSample_rest 0 (by norm_num [qgpvSample]) 1 (by norm_num [qgpvSample]) 0
  unfold QgpvInput.qgpv at this
  rw [hj 0] at this
  have e : (30 : ℝ) * Real.pi / 180 = Real.pi / 6 := by ring
  norm_num [qgpvSample, e] at this

/-- C24, the usual odd grid: if the uncovered row is the equator, the factor `sin(lat)` removes the uninitialised value
from the QGPV (if it is finite), but not from the stretching term that is returned beside it. -/
theorem C24_equator_row_partial (Q : QgpvInput) (junk : ℕ → ℕ → ℕ → ℝ) (k j c : ℕ) (h : Q.ylat j = 0) :
    Q.qgpv junk k j c = Q.avort k j c := by
  unfold QgpvInput.qgpv
  rw [h, zero_mul, zero_div, Real.sin_zero, mul_zero, mul_zero, add_zero]

end Falwa
