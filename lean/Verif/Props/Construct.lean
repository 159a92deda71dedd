import Verif.Model.Construct
import Verif.Props.Interp
import Mathlib.Tactic.Linarith

/-!
# The constructor (C122 – C124)
-/

noncomputable section

namespace Falwa

open Finset

namespace QGArgs

variable {x : QGArgs}

/-- Everything but the shapes of the fields is acceptable. -/
structure GridsFine (x : QGArgs) : Prop where
  vertical : x.checkVertical = .ok ()
  latitude : ∃ g, checkYlat x.nlat x.ylat = .ok g

/-- The three fields have the documented shape. -/
def ShapesFine (x : QGArgs) : Prop :=
  x.uShape = [x.nlev, x.nlat, x.nlon] ∧ x.vShape = [x.nlev, x.nlat, x.nlon] ∧ x.tShape = [x.nlev, x.nlat, x.nlon]

theorem GridsFine.nlev2 (h : x.GridsFine) : 2 ≤ x.nlev := by
  by_contra c
  have := h.vertical
  unfold checkVertical at this
  rw [if_pos (by omega)] at this
  cases this

theorem GridsFine.nlat2 (h : x.GridsFine) : 2 ≤ x.nlat := by
  by_contra c
  obtain ⟨g, hg⟩ := h.latitude
  unfold checkYlat at hg
  rw [if_pos (by omega)] at hg
  cases hg

end QGArgs

/-- What broadcasting against `(n, 1, 1)` turns into `(n, m, l)`. -/
theorem bcast_levels (s : Shape) (n m l : ℕ) (hn : 2 ≤ n) (hm : 2 ≤ m) :
    bcastShape s [n, 1, 1] = .ok [n, m, l] ↔ s = [n, m, l] ∨ s = [1, m, l] ∨ s = [m, l] := by
  obtain ⟨r, rfl⟩ : ∃ r : Shape, s = r.reverse := ⟨s.reverse, (List.reverse_reverse s).symm⟩
  have n1 : ¬ n = 1 := by omega
  have m1 : ¬ m = 1 := by omega
  unfold bcastShape
  rw [List.reverse_reverse]
  rcases r with _ | ⟨a, _ | ⟨b, _ | ⟨c, _ | ⟨d, r⟩⟩⟩⟩
  · simp [bcastRev, Except.map]; omega
  · simp [bcastRev, Except.map]; omega
  · simp [bcastRev, Except.map]
  · by_cases h : c = n
    · simp [bcastRev, Except.map, h, n1]
    · by_cases h' : c = 1
      · subst h'
        simp [bcastRev, Except.map, n1, Ne.symm n1]
      · simp [bcastRev, Except.map, n1, h, h']
  · have hl : (d :: r).length ≥ 1 := by simp
    have no : ∀ t : Shape, 4 ≤ t.length → t ≠ [n, m, l] ∧ t ≠ [1, m, l] ∧ t ≠ [m, l] := by
      intro t ht
      refine ⟨?_, ?_, ?_⟩ <;> rintro rfl <;> simp at ht
    have hr := no (a :: b :: c :: d :: r).reverse (by simp)
    refine iff_of_false (fun e => ?_) (by rintro (e | e | e); exacts [hr.1 e, hr.2.1 e, hr.2.2 e])
    rw [show [n, 1, 1].reverse = [1, 1, n] from rfl] at e
    by_cases h : c = n
    · subst h
      simp only [bcastRev, or_true, true_or, if_true, Except.map] at e
      exact (no (a :: b :: c :: d :: r).reverse (by simp)).1 (Except.ok.inj e)
    · by_cases h' : c = 1
      · subst h'
        simp only [bcastRev, or_true, if_true, Except.map, if_neg (show ¬ (1 = n ∨ n = 1) by omega)] at e
        exact (no (a :: b :: n :: d :: r).reverse (by simp)).1 (Except.ok.inj e)
      · simp only [bcastRev, or_true, if_true, Except.map, if_neg (show ¬ (c = n ∨ n = 1) by omega), if_neg h'] at e
        cases e

namespace QGArgs

/-- C122, as documented: a field of another shape than `(nlev, nlat, nlon)` is refused with `TypeError`. -/
def C122_Statement : Prop := ∀ x : QGArgs, x.GridsFine → ¬ x.ShapesFine → x.construct = .error .typeError

/-- C122: which calls are accepted. The winds need the documented shape. The temperature may lack the vertical axis, or have one level
there. -/
theorem C122_accepted_partial (x : QGArgs) (h : x.GridsFine) :
    (∃ A, x.construct = .ok A) ↔ x.uShape = [x.nlev, x.nlat, x.nlon] ∧ x.vShape = [x.nlev, x.nlat, x.nlon] ∧
      (x.tShape = [x.nlev, x.nlat, x.nlon] ∨ x.tShape = [1, x.nlat, x.nlon] ∨ x.tShape = [x.nlat, x.nlon]) := by
  rw [← bcast_levels _ _ _ _ h.nlev2 h.nlat2]
  obtain ⟨g, hg⟩ := h.latitude
  unfold construct check
  rw [h.vertical, hg]
  rcases hb : bcastShape x.tShape [x.nlev, 1, 1] with e | th
  · simp [bind, Except.bind, Except.map]
  · by_cases hu : x.uShape = [x.nlev, x.nlat, x.nlon] <;> by_cases hv : x.vShape = [x.nlev, x.nlat, x.nlon] <;>
      by_cases ht : th = [x.nlev, x.nlat, x.nlon] <;>
      simp [bind, Except.bind, Except.map, checkShape, hu, hv, ht]

/-- C122: with a temperature that is accepted, a wind of another shape is refused with `TypeError`. -/
theorem C122_winds_partial (x : QGArgs) (h : x.GridsFine) (ht : x.tShape = [x.nlev, x.nlat, x.nlon])
    (hw : x.uShape ≠ [x.nlev, x.nlat, x.nlon] ∨ x.vShape ≠ [x.nlev, x.nlat, x.nlon]) : x.construct = .error .typeError := by
  obtain ⟨g, hg⟩ := h.latitude
  have hb := (bcast_levels x.tShape _ _ x.nlon h.nlev2 h.nlat2).2 (Or.inl ht)
  unfold construct check
  rw [h.vertical, hg, hb]
  by_cases hu : x.uShape = [x.nlev, x.nlat, x.nlon]
  · have hv := hw.resolve_left (not_not.2 hu)
    simp [bind, Except.bind, Except.map, checkShape, hu, hv]
  · simp [bind, Except.bind, Except.map, checkShape, hu]

/-- C122: a temperature that does not broadcast against the levels is refused with `ValueError`, whatever the winds. -/
theorem C122_value_error (x : QGArgs) (h : x.GridsFine) (e : PyError) (hb : bcastShape x.tShape [x.nlev, 1, 1] = .error e) :
    x.construct = .error e := by
  unfold construct check
  rw [h.vertical, hb]
  simp [bind, Except.bind, Except.map]

/-- Seven levels, five latitudes, four longitudes; the shapes are given. -/
def shaped (su sv st : Shape) : QGArgs where
  nlev := 7
  nlat := 5
  nlon := 4
  ylat := fun j => 45 * j - 90
  plev := fun l => 1000 * Real.exp (-(l : ℝ))
  uShape := su
  vShape := sv
  tShape := st
  u := fun _ j _ => 10 * j
  v := fun _ _ i => i
  t := fun l _ _ => 300 - 5 * l
  ncforce := fun _ _ _ => 0
  kmax := 5
  maxit := 100
  dz := 1000
  npart := none
  tol := 1
  rjac := 9 / 10
  scaleHeight := 7000
  cp := 1004
  rr := 287
  omega := 7 / 100000
  radius := 6378000
  nhOnly := false
  evenly := false
  eqBoundary := 0
  spline := fun _ _ y _ => y 0
  splineDeriv := fun _ _ _ _ => 1
  unsetN := fun _ _ => 0
  unsetS := fun _ _ => 0
  inv := fun M => M

theorem shaped_grid : checkYlat 5 (fun j : ℕ => (45 * j - 90 : ℝ)) =
    .ok { needInterp := false, nlat := 5, ylat := fun j : ℕ => (45 * j - 90 : ℝ), equatorIdx := 3 } := by
  have z : ∀ i : ℕ, (45 * (i : ℝ) - 90 = 0) ↔ i = 2 := by
    intro i
    constructor
    · intro h
      have : (i : ℝ) = ((2 : ℕ) : ℝ) := by push_cast; linarith
      exact_mod_cast this
    · rintro rfl; norm_num
  have c : zeroCount 5 (fun j : ℕ => (45 * j - 90 : ℝ)) = 1 := by
    unfold zeroCount
    rw [Finset.filter_congr (fun i _ => z i)]
    rfl
  have f : firstZero 5 (fun j : ℕ => (45 * j - 90 : ℝ)) = .ok 2 := by
    unfold firstZero
    simp only [z]
    rfl
  unfold checkYlat
  rw [if_neg (by omega), if_neg (by norm_num), if_neg (by omega), if_pos c, f]
  rfl

theorem shaped_latitude : ∃ g, checkYlat 5 (fun j : ℕ => (45 * j - 90 : ℝ)) = .ok g := ⟨_, shaped_grid⟩

theorem shaped_zlev (su sv st : Shape) (l : ℕ) : (shaped su sv st).zlev l = 7000 * l := by
  unfold zlev shaped
  rw [mul_div_cancel_left₀ _ (by norm_num : (1000 : ℝ) ≠ 0), Real.log_exp]
  ring

theorem shaped_fine (su sv st : Shape) : (shaped su sv st).GridsFine where
  vertical := by
    have hz := shaped_zlev su sv st 6
    have hc : checkPlev 7 (fun l : ℕ => 1000 * Real.exp (-(l : ℝ))) 7000 5 1000 = .ok := by
      unfold checkPlev
      rw [if_neg, if_neg]
      · unfold plevTop
        unfold zlev shaped at hz
        beta_reduce
        rw [show (7 - 1 : ℕ) = 6 from rfl, hz]
        norm_num
      · have : Real.exp (-((1 : ℕ) : ℝ)) ≤ Real.exp (-((0 : ℕ) : ℝ)) := Real.exp_le_exp.2 (by norm_num)
        beta_reduce
        linarith
    unfold checkVertical
    rw [if_neg (by unfold shaped; norm_num), if_neg (by unfold shaped; simp)]
    change (match checkPlev 7 (fun l : ℕ => 1000 * Real.exp (-(l : ℝ))) 7000 5 1000 with
      | .ok => Except.ok ()
      | .typeError => Except.error PyError.typeError
      | .valueError _ => Except.error PyError.valueError) = _
    rw [hc]
  latitude := shaped_latitude

/-- C122 is violated: a temperature without vertical axis is accepted, and used on every level. -/
theorem C122_refuted : ¬ C122_Statement := by
  intro h
  have h1 := h (shaped [7, 5, 4] [7, 5, 4] [5, 4]) (shaped_fine _ _ _) (by
    rintro ⟨_, _, ht⟩
    exact absurd ht (by decide))
  obtain ⟨A, hA⟩ := (C122_accepted_partial (shaped [7, 5, 4] [7, 5, 4] [5, 4]) (shaped_fine _ _ _)).2
    ⟨rfl, rfl, Or.inr (Or.inr rfl)⟩
  rw [hA] at h1
  cases h1

/-- Another deviation: a temperature on the wrong number of levels is refused with `ValueError` instead. -/
example : (shaped [7, 5, 4] [7, 5, 4] [6, 5, 4]).construct = .error .valueError :=
  C122_value_error _ (shaped_fine _ _ _) _ rfl

example : ∃ x : QGArgs, x.GridsFine ∧ x.tShape = [x.nlev, x.nlat, x.nlon] ∧
    (x.uShape ≠ [x.nlev, x.nlat, x.nlon] ∨ x.vShape ≠ [x.nlev, x.nlat, x.nlon]) :=
  ⟨shaped [4, 5, 7] [7, 5, 4] [7, 5, 4], shaped_fine _ _ _, rfl, Or.inl (by decide)⟩

/-! ### C123: data on the pseudoheight grid -/

/-- The levels of the data are `0, dz, 2 dz, …` for some positive `dz`. -/
structure OnGrid (x : QGArgs) : Prop where
  nlev2 : 2 ≤ x.nlev
  hpos : 0 < x.scaleHeight
  pos : ∀ l, l < x.nlev → 0 < x.plev l
  up : x.plev 1 < x.plev 0
  even : ∀ l, l < x.nlev → x.zlev l = l * (x.zlev 1 - x.zlev 0)

/-- The same call without the flag, asking for the levels of the data. -/
def withoutFlag (x : QGArgs) : QGArgs := { x with evenly := false, kmax := x.nlev, dz := x.zlev 1 - x.zlev 0 }

/-- The same call with the flag. -/
def withFlag (x : QGArgs) : QGArgs := { x with evenly := true }

theorem OnGrid.dz_pos {x : QGArgs} (h : x.OnGrid) : 0 < x.zlev 1 - x.zlev 0 := by
  have p1 := h.pos 1 (by have := h.nlev2; omega)
  have := Real.log_lt_log (div_pos p1 (by norm_num : (0 : ℝ) < 1000)) (div_lt_div_of_pos_right h.up (by norm_num))
  unfold zlev
  nlinarith [h.hpos]

theorem OnGrid.ascending {x : QGArgs} (h : x.OnGrid) : Ascending x.nlev x.zlev := by
  intro i j hij hj
  rw [h.even i (by omega), h.even j hj]
  exact mul_lt_mul_of_pos_right (by exact_mod_cast hij) h.dz_pos

theorem OnGrid.plev {x : QGArgs} (h : x.OnGrid) :
    checkPlev x.nlev x.plev x.scaleHeight x.nlev (x.zlev 1 - x.zlev 0) = .ok := by
  unfold checkPlev
  rw [if_neg (by have := h.up; linarith), if_neg]
  have e : plevTop x.nlev x.plev x.scaleHeight = x.zlev (x.nlev - 1) := rfl
  rw [e, h.even _ (by have := h.nlev2; omega), Nat.cast_sub (by have := h.nlev2; omega)]
  push_cast
  exact lt_irrefl _

/-- C123: on data that lie on the pseudoheight grid, the flag `data_on_evenly_spaced_pseudoheight_grid` changes nothing: the outcome
of the constructor is the same, error or analysis, and so is the normalisation. -/
theorem C123_same (x : QGArgs) (h : x.OnGrid) :
    x.withFlag.construct = x.withoutFlag.construct ∧ x.withFlag.prefactor = x.withoutFlag.prefactor := by
  have kk : x.withFlag.kmaxUsed = x.withoutFlag.kmaxUsed := rfl
  have dd : x.withFlag.dzUsed = x.withoutFlag.dzUsed := rfl
  have hh : x.withFlag.height = x.withoutFlag.height := by
    funext k
    by_cases hk : k < x.nlev
    · have a : x.withFlag.height k = x.zlev k := if_pos hk
      have b : x.withoutFlag.height k = k * (x.zlev 1 - x.zlev 0) := if_pos hk
      rw [a, b, h.even k hk]
    · have a : x.withFlag.height k = 0 := if_neg hk
      have b : x.withoutFlag.height k = 0 := if_neg hk
      rw [a, b]
  have vv : x.withFlag.vert = x.withoutFlag.vert := by
    funext f k
    by_cases hk : 1 ≤ k ∧ k ≤ (x.nlev : ℤ)
    · have a : x.withFlag.vert f k = f k := if_pos hk
      have b : x.withoutFlag.vert f k =
        interp1d x.nlev x.zlev (fun l => f ((l : ℤ) + 1)) (x.withoutFlag.height (k - 1).toNat) := if_pos hk
      obtain ⟨m, rfl⟩ : ∃ m : ℕ, k = m + 1 := ⟨(k - 1).toNat, by omega⟩
      have hm : m < x.nlev := by omega
      have e : x.withoutFlag.height m = x.zlev m := by
        rw [← hh]
        exact if_pos hm
      rw [a, b, show ((m : ℤ) + 1 - 1).toNat = m by omega, e, interp1d_node h.ascending h.nlev2 _ hm]
    · have a : x.withFlag.vert f k = 0 := if_neg hk
      have b : x.withoutFlag.vert f k = 0 := if_neg hk
      rw [a, b]
  have aa : x.withFlag.atmos = x.withoutFlag.atmos := by
    funext g
    unfold atmos
    rw [vv, hh, kk, dd]
    rfl
  have cv : x.withFlag.checkVertical = x.withoutFlag.checkVertical := by
    have a : x.withFlag.checkVertical = .ok () := by
      unfold checkVertical
      rw [if_neg (by have := h.nlev2; show ¬ x.nlev < 2; omega)]
      rfl
    have b : x.withoutFlag.checkVertical = .ok () := by
      unfold checkVertical
      rw [if_neg (by have := h.nlev2; show ¬ x.nlev < 2; omega)]
      change (match checkPlev x.nlev x.plev x.scaleHeight x.nlev (x.zlev 1 - x.zlev 0) with
        | .ok => Except.ok ()
        | .typeError => Except.error PyError.typeError
        | .valueError _ => Except.error PyError.valueError) = _
      rw [h.plev]
    rw [a, b]
  refine ⟨?_, ?_⟩
  · unfold construct check
    rw [cv, aa]
    rfl
  · unfold prefactor
    rw [kk, dd]
    rfl

example : (shaped [7, 5, 4] [7, 5, 4] [7, 5, 4]).OnGrid where
  nlev2 := by unfold shaped; norm_num
  hpos := by unfold shaped; norm_num
  pos := fun l _ => by unfold shaped; positivity
  up := by
    have : Real.exp (-((1 : ℕ) : ℝ)) < Real.exp (-((0 : ℕ) : ℝ)) := Real.exp_lt_exp.2 (by norm_num)
    show 1000 * Real.exp (-((1 : ℕ) : ℝ)) < 1000 * Real.exp (-((0 : ℕ) : ℝ))
    linarith
  even := fun l _ => by
    rw [shaped_zlev, shaped_zlev, shaped_zlev]
    push_cast
    ring

/-! ### C124: the normalisation -/

/-- C124: for every accepted call with a positive scale height, positive pressures, positive `dz` (where it is given) and at least two
levels, the normalisation of the column averages is positive. -/
def C124_Statement : Prop :=
  ∀ x : QGArgs, (∃ A, x.construct = .ok A) → 0 < x.scaleHeight → (∀ l, l < x.nlev → 0 < x.plev l) → (x.evenly = false → 0 < x.dz) →
    2 ≤ x.kmaxUsed → 0 < x.prefactor

/-- C124: true with three levels or more and an ascending grid. -/
theorem C124_positive_partial (x : QGArgs) (hk : 3 ≤ x.kmaxUsed) (hd : 0 < x.dzUsed) : 0 < x.prefactor := by
  unfold prefactor
  refine sum_pos (fun k _ => mul_pos (Real.exp_pos _) hd) ⟨1, ?_⟩
  rw [mem_Ico]
  omega

/-- C124: with the flag, an accepted call has an ascending grid only if the first two pressures descend; nothing checks this. -/
theorem C124_descending_partial (x : QGArgs) (he : x.evenly = true) (hh : 0 < x.scaleHeight) (h0 : 0 < x.plev 0) (h1 : 0 < x.plev 1)
    (hk : 3 ≤ x.nlev) : 0 < x.prefactor ↔ x.plev 1 < x.plev 0 := by
  have ek : x.kmaxUsed = x.nlev := if_pos he
  have ed : x.dzUsed = x.zlev 1 - x.zlev 0 := if_pos he
  have key : 0 < x.dzUsed ↔ x.plev 1 < x.plev 0 := by
    have hl : Real.log (x.plev 1 / 1000) < Real.log (x.plev 0 / 1000) ↔ x.plev 1 < x.plev 0 := by
      rw [Real.log_lt_log_iff (by positivity) (by positivity), div_lt_div_iff_of_pos_right (by norm_num)]
    rw [← hl, ed]
    unfold zlev
    constructor
    · intro h
      by_contra c
      nlinarith [mul_le_mul_of_nonneg_left (not_lt.1 c) hh.le]
    · intro h
      nlinarith [mul_lt_mul_of_pos_left h hh]
  rw [← key]
  refine ⟨fun h => ?_, fun h => C124_positive_partial x (by omega) h⟩
  by_contra c
  refine absurd h (not_lt.2 ?_)
  unfold prefactor
  exact sum_nonpos fun k _ => mul_nonpos_of_nonneg_of_nonpos (Real.exp_pos _).le (not_lt.1 c)

/-- C124: with fewer than three levels the normalisation is zero, and the column averages divide by it. -/
theorem C124_few_levels (x : QGArgs) (hk : x.kmaxUsed ≤ 2) : x.prefactor = 0 := by
  unfold prefactor
  rw [Ico_eq_empty (by omega), sum_empty]

/-- Pressure from the top downward, on an evenly spaced grid, with the flag. -/
def topDown : QGArgs := { shaped [7, 5, 4] [7, 5, 4] [7, 5, 4] with evenly := true, plev := fun l => 1000 * Real.exp ((l : ℝ) - 6) }

theorem topDown_accepted : ∃ A, topDown.construct = .ok A :=
  (C122_accepted_partial topDown
    { vertical := by
        unfold checkVertical
        rw [if_neg (by show ¬ 7 < 2; norm_num), if_pos (show topDown.evenly = true from rfl)]
      latitude := shaped_latitude }).2 ⟨rfl, rfl, Or.inl rfl⟩

/-- C124 is violated: with the flag, levels from the top downward are accepted, and give a negative normalisation. -/
theorem C124_refuted : ¬ C124_Statement := by
  intro h
  have hp : ∀ l, 0 < topDown.plev l := fun l => by
    show 0 < 1000 * Real.exp ((l : ℝ) - 6)
    positivity
  have h1 := h topDown topDown_accepted (show (0 : ℝ) < 7000 by norm_num) (fun l _ => hp l)
    (fun e => absurd e (by show ¬ true = false; simp)) (show 2 ≤ 7 by norm_num)
  have h2 := (C124_descending_partial topDown rfl (show (0 : ℝ) < 7000 by norm_num) (hp 0) (hp 1) (show 3 ≤ 7 by norm_num)).1 h1
  have : Real.exp (((0 : ℕ) : ℝ) - 6) < Real.exp (((1 : ℕ) : ℝ) - 6) := Real.exp_lt_exp.2 (by norm_num)
  have h3 : 1000 * Real.exp (((1 : ℕ) : ℝ) - 6) < 1000 * Real.exp (((0 : ℕ) : ℝ) - 6) := h2
  linarith

/-- Also without the flag: two levels are accepted. -/
example : ∃ x : QGArgs, x.evenly = false ∧ 0 < x.dz ∧ x.kmaxUsed = 2 ∧ (∃ A, x.construct = .ok A) ∧ x.prefactor = 0 := by
  refine ⟨{ shaped [7, 5, 4] [7, 5, 4] [7, 5, 4] with kmax := 2 }, rfl, show (0 : ℝ) < 1000 by norm_num, rfl, ?_,
    C124_few_levels _ le_rfl⟩
  refine (C122_accepted_partial _ { vertical := ?_, latitude := shaped_latitude }).2 ⟨rfl, rfl, Or.inl rfl⟩
  have hc : checkPlev 7 (fun l : ℕ => 1000 * Real.exp (-(l : ℝ))) 7000 2 1000 = .ok := by
    have hz := shaped_zlev [7, 5, 4] [7, 5, 4] [7, 5, 4] 6
    unfold zlev shaped at hz
    unfold checkPlev
    rw [if_neg, if_neg]
    · unfold plevTop
      beta_reduce
      rw [show (7 - 1 : ℕ) = 6 from rfl, hz]
      norm_num
    · have : Real.exp (-((1 : ℕ) : ℝ)) ≤ Real.exp (-((0 : ℕ) : ℝ)) := Real.exp_le_exp.2 (by norm_num)
      beta_reduce
      linarith
  unfold checkVertical
  rw [if_neg (by show ¬ 7 < 2; norm_num), if_neg (by show ¬ false = true; simp)]
  change (match checkPlev 7 (fun l : ℕ => 1000 * Real.exp (-(l : ℝ))) 7000 2 1000 with
    | .ok => Except.ok ()
    | .typeError => Except.error PyError.typeError
    | .valueError _ => Except.error PyError.valueError) = _
  rw [hc]

example : 0 < (shaped [7, 5, 4] [7, 5, 4] [7, 5, 4]).prefactor :=
  C124_positive_partial _ (show 3 ≤ 5 by norm_num) (show (0 : ℝ) < 1000 by norm_num)

end QGArgs

end Falwa
