import Verif.Model.Xarray
import Mathlib.Data.List.Forall2
import Mathlib.Algebra.BigOperators.Intervals
import Mathlib.Algebra.BigOperators.Ring.Finset
import Mathlib.Tactic.Linarith
import Mathlib.Tactic.Ring
import Mathlib.Tactic.NormNum

/-! # Properties of the xarray interface: C60 – C65 -/

noncomputable section

set_option linter.unusedSectionVars false
set_option linter.unusedSimpArgs false
set_option linter.unusedTactic false

namespace Falwa.Xr

/-! ### C60 -/

/-- C60, name given by the user: it is returned if present, otherwise `KeyError`. -/
theorem C60_user {ds : List String} {first : String} {rest : List String} {table : List (String × String)} {name : String}
    (h : table.lookup first = some name) :
    (name ∈ ds → getName ds first rest (some table) = .ok name) ∧
    (name ∉ ds → getName ds first rest (some table) = .error .keyError) := by
  unfold getName
  simp only [Option.bind_some, h]
  exact ⟨fun hn => if_pos hn, fun hn => if_neg hn⟩

/-- C60, no name given: the first default that is present. -/
theorem C60_default {ds : List String} {first : String} {rest : List String} {user : Option (List (String × String))}
    (h : ∀ table, user = some table → table.lookup first = none) (name : String) :
    getName ds first rest user = .ok name ↔
      ∃ pre post, first :: rest = pre ++ name :: post ∧ name ∈ ds ∧ ∀ m ∈ pre, m ∉ ds := by
  have hb : user.bind (·.lookup first) = none := by
    cases user with
    | none => rfl
    | some table => exact h table rfl
  unfold getName
  simp only [hb]
  cases hf : (first :: rest).find? (fun name => decide (name ∈ ds)) with
  | none =>
    rw [List.find?_eq_none] at hf
    constructor
    · intro e; cases e
    · rintro ⟨pre, post, e, hn, -⟩
      have := hf name (by rw [e]; simp)
      simp [hn] at this
  | some m =>
    rw [List.find?_eq_some_iff_append] at hf
    obtain ⟨hm, as, bs, e, has⟩ := hf
    simp only [decide_eq_true_eq] at hm
    constructor
    · intro e'
      injection e' with e'
      subst e'
      exact ⟨as, bs, e, hm, fun x hx => by simpa using has x hx⟩
    · rintro ⟨pre, post, e', hn, hpre⟩
      have : (first :: rest).find? (fun name => decide (name ∈ ds)) = some name := by
        rw [List.find?_eq_some_iff_append]
        exact ⟨by simpa using hn, pre, post, e', fun x hx => by simpa using hpre x hx⟩
      have h2 : (first :: rest).find? (fun name => decide (name ∈ ds)) = some m := by
        rw [List.find?_eq_some_iff_append]
        exact ⟨by simpa using hm, as, bs, e, has⟩
      rw [this] at h2
      injection h2 with h2
      rw [h2]

/-- C60, failure: without a user's name, `KeyError` exactly if no default is present. -/
theorem C60_error {ds : List String} {first : String} {rest : List String} {user : Option (List (String × String))}
    (h : ∀ table, user = some table → table.lookup first = none) :
    getName ds first rest user = .error .keyError ↔ ∀ m ∈ first :: rest, m ∉ ds := by
  have hb : user.bind (·.lookup first) = none := by
    cases user with
    | none => rfl
    | some table => exact h table rfl
  unfold getName
  simp only [hb]
  cases hf : (first :: rest).find? (fun name => decide (name ∈ ds)) with
  | none =>
    rw [List.find?_eq_none] at hf
    exact ⟨fun _ m hm => by simpa using hf m hm, fun _ => rfl⟩
  | some m =>
    have h1 := List.mem_of_find?_eq_some hf
    have h2 := List.find?_some hf
    simp only [decide_eq_true_eq] at h2
    exact Iff.intro (fun e => nomatch e) (fun e => absurd h2 (e m h1))

example : getName ["time", "lat", "latitude"] "ylat" ["lat", "latitude"] none = .ok "lat" ∧
    getName ["time", "lat"] "ylat" ["lat"] (some [("ylat", "y")]) = .error .keyError := by decide

/-! ### C61 -/

/-- A valid multi-index of a shape. -/
def Valid (shape idx : List ℕ) : Prop := List.Forall₂ (fun d i => i < d) shape idx

theorem ravel_lt {shape idx : List ℕ} (h : Valid shape idx) : ravel shape idx < shape.prod := by
  induction h with
  | nil => simp [ravel]
  | @cons d i ds is hi _ ih =>
    rw [List.prod_cons]
    show i * ds.prod + ravel ds is < d * ds.prod
    calc i * ds.prod + ravel ds is < i * ds.prod + ds.prod := by omega
      _ = (i + 1) * ds.prod := by ring
      _ ≤ d * ds.prod := Nat.mul_le_mul_right _ hi

theorem unravel_ravel {shape idx : List ℕ} (h : Valid shape idx) : unravel shape (ravel shape idx) = idx := by
  induction h with
  | nil => rfl
  | @cons d i ds is hi hs ih =>
    have hl := ravel_lt hs
    have hp : 0 < ds.prod := by omega
    show (i * ds.prod + ravel ds is) / ds.prod :: unravel ds ((i * ds.prod + ravel ds is) % ds.prod) = i :: is
    rw [add_comm, Nat.add_mul_div_right _ _ hp, Nat.div_eq_of_lt hl, zero_add, Nat.add_mul_mod_self_right, Nat.mod_eq_of_lt hl, ih]

theorem unravel_valid : ∀ {shape : List ℕ} {n : ℕ}, n < shape.prod → Valid shape (unravel shape n) ∧ ravel shape (unravel shape n) = n := by
  intro shape
  induction shape with
  | nil => intro n h; exact ⟨List.Forall₂.nil, by have : n < 1 := h; show 0 = n; omega⟩
  | cons d ds ih =>
    intro n h
    rw [List.prod_cons] at h
    have hp : 0 < ds.prod := Nat.pos_of_ne_zero fun e => by rw [e] at h; omega
    obtain ⟨v, r⟩ := ih (Nat.mod_lt n hp)
    refine ⟨List.Forall₂.cons ?_ v, ?_⟩
    · exact (Nat.div_lt_iff_lt_mul hp).2 h
    · show n / ds.prod * ds.prod + ravel ds (unravel ds (n % ds.prod)) = n
      rw [r]
      exact Nat.div_add_mod' n ds.prod

theorem ravel_append {s t i j : List ℕ} (h : Valid s i) : ravel (s ++ t) (i ++ j) = ravel s i * t.prod + ravel t j := by
  induction h with
  | nil => simp [ravel]
  | @cons d a ds is _ _ ih =>
    show a * (ds ++ t).prod + ravel (ds ++ t) (is ++ j) = (a * ds.prod + ravel ds is) * t.prod + ravel t j
    rw [ih, List.prod_append]
    ring

theorem valid_append {s t i j : List ℕ} (h : Valid s i) (h' : Valid t j) : Valid (s ++ t) (i ++ j) := by
  induction h with
  | nil => exact h'
  | cons hd _ ih => exact List.Forall₂.cons hd ih

theorem length_product {α : Type*} (cs : List (List α)) : (product cs).length = (cs.map List.length).prod := by
  induction cs with
  | nil => rfl
  | cons c cs ih =>
    show (c.flatMap fun x => (product cs).map (x :: ·)).length = _
    rw [List.length_flatMap, List.map_cons, List.prod_cons, ← ih]
    simp [List.map_const', List.sum_replicate]

theorem flatMap_getElem? {α β : Type*} (f : α → List β) (m : ℕ) (hf : ∀ a, (f a).length = m) :
    ∀ (l : List α) (q r : ℕ), r < m → (l.flatMap f)[q * m + r]? = l[q]?.bind fun a => (f a)[r]? := by
  intro l
  induction l with
  | nil => intro q r _; simp
  | cons a l ih =>
    intro q r hr
    rw [List.flatMap_cons]
    cases q with
    | zero =>
      rw [List.getElem?_append_left (by rw [hf]; omega)]
      simp
    | succ q =>
      rw [List.getElem?_append_right (by rw [hf]; nlinarith), hf, show (q + 1) * m + r - m = q * m + r by
        rw [Nat.add_mul, one_mul]; omega, ih q r hr]
      simp

/-- The combination at position `n` has in each place the coordinate selected by the multi-index of `n`. -/
theorem product_getElem? {α : Type*} : ∀ (cs : List (List α)) (n : ℕ), n < (cs.map List.length).prod →
    ∃ values, (product cs)[n]? = some values ∧
      List.Forall₂ (fun (p : List α × ℕ) v => p.1[p.2]? = some v) (cs.zip (unravel (cs.map List.length) n)) values := by
  intro cs
  induction cs with
  | nil =>
    intro n h
    have : n < 1 := h
    have : n = 0 := by omega
    subst this
    exact ⟨[], rfl, List.Forall₂.nil⟩
  | cons c cs ih =>
    intro n h
    rw [List.map_cons, List.prod_cons] at h
    set m := (cs.map List.length).prod with hm
    have hp : 0 < m := Nat.pos_of_ne_zero fun e => by rw [e] at h; omega
    obtain ⟨v, hv, hf⟩ := ih (n % m) (Nat.mod_lt n hp)
    have hq : n / m < c.length := (Nat.div_lt_iff_lt_mul hp).2 h
    refine ⟨c[n / m] :: v, ?_, List.Forall₂.cons (List.getElem?_eq_getElem hq) hf⟩
    show (c.flatMap fun x => (product cs).map (x :: ·))[n]? = _
    have := flatMap_getElem? (fun x => (product cs).map (x :: ·)) m (fun a => by rw [List.length_map, length_product]) c (n / m) (n % m)
      (Nat.mod_lt n hp)
    rw [Nat.div_add_mod'] at this
    rw [this, List.getElem?_eq_getElem hq, Option.bind_some, List.getElem?_map, hv]
    rfl

variable {α C : Type*}

/-- C61: for each position `n` in the flattened order there is exactly one multi-index `pos` of the extra dimensions with
the following properties. The `n`-th combination of `iter_other` holds the coordinates at `pos`. The `n`-th field given to the
solver is the input at `pos`. The output array holds the `n`-th result at `pos`. Each multi-index belongs to some position. -/
theorem C61_flatten_restore (coords : List (List C)) (core : List ℕ) (A R : List ℕ → α)
    (other : List ℕ) (ho : other = coords.map List.length) :
    (product coords).length = other.prod ∧
    ∃ out, asDataArray other core (other.prod :: core) R = .ok out ∧
    (∀ n, n < other.prod → ∃ pos, Valid other pos ∧
      (∃ values, (product coords)[n]? = some values ∧
        List.Forall₂ (fun (p : List C × ℕ) v => p.1[p.2]? = some v) (coords.zip pos) values) ∧
      (∀ c, Valid core c → flattenOther other core A (n :: c) = A (pos ++ c)) ∧
      (∀ c, Valid core c → out (pos ++ c) = R (n :: c))) ∧
    (∀ pos, Valid other pos → ∃ n, n < other.prod ∧
      (∀ c, Valid core c → flattenOther other core A (n :: c) = A (pos ++ c)) ∧
      (∀ c, Valid core c → out (pos ++ c) = R (n :: c))) := by
  refine ⟨by rw [length_product, ho], ?_⟩
  -- both reshapes at a valid multi-index
  have flat : ∀ pos c, Valid other pos → Valid core c → flattenOther other core A (ravel other pos :: c) = A (pos ++ c) := by
    intro pos c hp hc
    show A (unravel (other ++ core) (ravel other pos * core.prod + ravel core c)) = _
    rw [← ravel_append hp, unravel_ravel (valid_append hp hc)]
  have hv : ∀ pos c, Valid other pos → Valid core c → Valid (other.prod :: core) (ravel other pos :: c) :=
    fun pos c hp hc => List.Forall₂.cons (ravel_lt hp) hc
  obtain ⟨out, ho1, ho2⟩ : ∃ out, asDataArray other core (other.prod :: core) R = .ok out ∧
      ∀ pos c, Valid other pos → Valid core c → out (pos ++ c) = R (ravel other pos :: c) := by
    unfold asDataArray
    by_cases e : other.prod :: core = other ++ core
    · rw [if_pos e]
      refine ⟨R, rfl, fun pos c hp hc => ?_⟩
      have hl : other.length = 1 := by
        have := congrArg List.length e
        simp only [List.length_cons, List.length_append] at this
        omega
      obtain ⟨d, rfl⟩ := List.length_eq_one_iff.1 hl
      cases hp with
      | cons hd h' =>
        cases h'
        simp [ravel]
    · rw [if_neg e, if_neg (by simp), if_neg (by simp)]
      refine ⟨_, rfl, fun pos c hp hc => ?_⟩
      show R (unravel (other.prod :: core) (ravel (other ++ core) (pos ++ c))) = _
      rw [ravel_append hp]
      have := unravel_ravel (hv pos c hp hc)
      exact congrArg R this
  refine ⟨out, ho1, fun n hn => ?_, fun pos hp => ⟨ravel other pos, ravel_lt hp, fun c hc => flat pos c hp hc, fun c hc => ho2 pos c hp hc⟩⟩
  obtain ⟨v, r⟩ := unravel_valid hn
  refine ⟨unravel other n, v, ?_, fun c hc => ?_, fun c hc => ?_⟩
  · rw [ho] at hn ⊢
    exact product_getElem? coords n hn
  · have := flat _ c v hc
    rwa [r] at this
  · have := ho2 _ c v hc
    rwa [r] at this

/-- Two extra dimensions of sizes 2 and 3: position 4 is the pair (1, 1). -/
example : (product [[0, 6], [10, 20, 30]])[4]? = some [6, 20] ∧ Valid [2, 3] [1, 1] ∧ ravel [2, 3] [1, 1] = 4 :=
  ⟨rfl, List.Forall₂.cons (by decide) (List.Forall₂.cons (by decide) List.Forall₂.nil), rfl⟩

/-! ### C62 -/

/-- The value `v` is attached to pressure `p`, latitude `y` and longitude index `i`. -/
def Gridded.At (G : Gridded) (p y : ℝ) (i : ℕ) (v : ℝ) : Prop :=
  ∃ k, k < G.nlev ∧ ∃ j, j < G.nlat ∧ G.plev k = p ∧ G.ylat j = y ∧ G.val k j i = v

/-- Strictly monotone coordinates, in either direction. -/
def Gridded.Monotone (G : Gridded) : Prop :=
  (IsAscending G.nlat G.ylat ∨ IsDescending G.nlat G.ylat) ∧ (IsAscending G.nlev G.plev ∨ IsDescending G.nlev G.plev)

theorem flip_ascending {n : ℕ} {x : ℕ → ℝ} (h : IsDescending n x) : IsAscending n (flipAxis n x) := by
  intro i hi
  have := h (n - 1 - (i + 1)) (by omega)
  rw [show n - 1 - (i + 1) + 1 = n - 1 - i by omega] at this
  unfold flipAxis
  linarith

theorem flip_descending {n : ℕ} {x : ℕ → ℝ} (h : IsAscending n x) : IsDescending n (flipAxis n x) := by
  intro i hi
  have := h (n - 1 - (i + 1)) (by omega)
  rw [show n - 1 - (i + 1) + 1 = n - 1 - i by omega] at this
  unfold flipAxis
  linarith

open Classical in
/-- C62, input fields: latitudes are ascending, pressures descending, and every value keeps its coordinates. -/
theorem C62_fields {G : Gridded} (h : G.Monotone) :
    IsAscending (orient G).nlat (orient G).ylat ∧ IsDescending (orient G).nlev (orient G).plev ∧
    ∀ p y i v, (orient G).At p y i v ↔ G.At p y i v := by
  refine ⟨?_, ?_, fun p y i v => ?_⟩
  · show IsAscending G.nlat (if (decide (¬ IsAscending G.nlat G.ylat)) = true then _ else _)
    by_cases c : IsAscending G.nlat G.ylat
    · rw [if_neg (by simpa using c)]; exact c
    · rw [if_pos (by simpa using c)]; exact flip_ascending (h.1.resolve_left c)
  · show IsDescending G.nlev (if (decide (¬ IsDescending G.nlev G.plev)) = true then _ else _)
    by_cases c : IsDescending G.nlev G.plev
    · rw [if_neg (by simpa using c)]; exact c
    · rw [if_pos (by simpa using c)]; exact flip_descending (h.2.resolve_right c)
  · have idx : ∀ (b : Bool) n k, k < n → (if b then n - 1 - k else k) < n := by
      intro b n k hk; split_ifs <;> omega
    have inv : ∀ (b : Bool) n k, k < n → (if b then n - 1 - (if b then n - 1 - k else k) else (if b then n - 1 - k else k)) = k := by
      intro b n k hk
      by_cases hb : b = true
      · simp only [if_pos hb]; omega
      · simp only [if_neg hb]
    have coord : ∀ (b : Bool) n (x : ℕ → ℝ) k, (if b then flipAxis n x else x) k = x (if b then n - 1 - k else k) := by
      intro b n x k
      split_ifs <;> rfl
    set fy : Bool := decide (¬ IsAscending G.nlat G.ylat) with hfy
    set fp : Bool := decide (¬ IsDescending G.nlev G.plev) with hfp
    constructor
    · rintro ⟨k, hk, j, hj, e1, e2, e3⟩
      refine ⟨_, idx fp _ k hk, _, idx fy _ j hj, ?_, ?_, e3⟩
      · rw [← coord fp G.nlev G.plev k]; exact e1
      · rw [← coord fy G.nlat G.ylat j]; exact e2
    · rintro ⟨k, hk, j, hj, e1, e2, e3⟩
      refine ⟨_, idx fp G.nlev k hk, _, idx fy G.nlat j hj, ?_, ?_, ?_⟩
      · show (if fp then flipAxis G.nlev G.plev else G.plev) _ = p
        rw [coord, inv fp _ k hk]; exact e1
      · show (if fy then flipAxis G.nlat G.ylat else G.ylat) _ = y
        rw [coord, inv fy _ j hj]; exact e2
      · show G.val (if fp then _ else _) (if fy then _ else _) i = v
        rw [inv fp _ k hk, inv fy _ j hj]; exact e3

/-- C62: the same for arrays passed later, on the coordinates of the dataset. -/
def C62_Statement : Prop := ∀ G : Gridded, G.Monotone → ∀ p y i v, (later G).At p y i v ↔ G.At p y i v

open Classical in
/-- C62, arrays passed later, what holds: they keep their coordinates if the dataset needs no flipping. -/
theorem C62_later_partial {G : Gridded} (h1 : IsAscending G.nlat G.ylat) (h2 : IsDescending G.nlev G.plev) :
    ∀ p y i v, (later G).At p y i v ↔ G.At p y i v := by
  have e1 : (orient G).ylat = G.ylat := by
    show (if (decide (¬ IsAscending G.nlat G.ylat)) = true then _ else _) = _
    rw [if_neg (by simpa using h1)]
  have e2 : (orient G).plev = G.plev := by
    show (if (decide (¬ IsDescending G.nlev G.plev)) = true then _ else _) = _
    rw [if_neg (by simpa using h2)]
  intro p y i v
  show (∃ k, k < G.nlev ∧ ∃ j, j < G.nlat ∧ (orient G).plev k = p ∧ (orient G).ylat j = y ∧ G.val k j i = v) ↔ _
  rw [e1, e2]
  rfl

/-- Latitudes from north to south, the usual order of reanalysis data, with a signal on the northernmost row. -/
def northFirst : Gridded where
  nlev := 2
  nlat := 3
  plev := fun k => 1000 - 500 * k
  ylat := fun j => 90 - 90 * j
  val := fun _ j _ => if j = 0 then 1 else 0

theorem northFirst_descending : IsDescending northFirst.nlat northFirst.ylat := by
  intro i _
  show (90 - 90 * ((i + 1 : ℕ) : ℝ)) - (90 - 90 * (i : ℝ)) < 0
  push_cast
  linarith

theorem northFirst_plev : IsDescending northFirst.nlev northFirst.plev := by
  intro i _
  show (1000 - 500 * ((i + 1 : ℕ) : ℝ)) - (1000 - 500 * (i : ℝ)) < 0
  push_cast
  linarith

open Classical in
/-- C62 fails for arrays passed later: the heating of the north pole is read at the south pole. -/
theorem C62_refuted : ¬ C62_Statement := by
  intro hS
  have hna : ¬ IsAscending northFirst.nlat northFirst.ylat := by
    intro ha
    have h1 := ha 0 (by decide)
    have h2 := northFirst_descending 0 (by decide)
    linarith
  have e1 : (orient northFirst).ylat = flipAxis 3 northFirst.ylat := by
    show (if (decide (¬ IsAscending northFirst.nlat northFirst.ylat)) = true then _ else _) = _
    rw [if_pos (by simpa using hna)]
    rfl
  have e2 : (orient northFirst).plev = northFirst.plev := by
    show (if (decide (¬ IsDescending northFirst.nlev northFirst.plev)) = true then _ else _) = _
    rw [if_neg (by simpa using northFirst_plev)]
  have hl : (later northFirst).At 1000 (-90) 0 1 := by
    refine ⟨0, by decide, 0, by decide, ?_, ?_, ?_⟩
    · show (orient northFirst).plev 0 = 1000
      rw [e2]; norm_num [northFirst]
    · show (orient northFirst).ylat 0 = -90
      rw [e1]; norm_num [flipAxis, northFirst]
    · show (if (0 : ℕ) = 0 then (1 : ℝ) else 0) = 1
      simp
  obtain ⟨k, -, j, -, -, hy, hv⟩ := (hS northFirst ⟨Or.inr northFirst_descending, Or.inr northFirst_plev⟩ _ _ _ _).1 hl
  have hj : j = 0 := by
    by_contra hj
    have : (if j = 0 then (1 : ℝ) else 0) = 1 := hv
    rw [if_neg hj] at this
    norm_num at this
  rw [hj] at hy
  norm_num [northFirst] at hy

example : northFirst.Monotone := ⟨Or.inr northFirst_descending, Or.inr northFirst_plev⟩

/-! ### C63 -/

/-- C63: each label goes with the profile of its hemisphere. -/
def C63_Statement : Prop :=
  ∀ south north : ℕ → ℝ,
    (labelStability (fieldStability false south north)).lookup "static_stability_n" = some north ∧
    (labelStability (fieldStability false south north)).lookup "static_stability_s" = some south

/-- C63, what the code does: the labels are exchanged, for every pair of profiles. -/
theorem C63_swapped_partial (south north : ℕ → ℝ) :
    (labelStability (fieldStability false south north)).lookup "static_stability_n" = some south ∧
    (labelStability (fieldStability false south north)).lookup "static_stability_s" = some north ∧
    labelStability (fieldStability true south north) = [("static_stability", north)] := by
  refine ⟨?_, ?_, ?_⟩ <;> rfl

/-- C63 fails exactly where the profiles differ. -/
theorem C63_refuted : ¬ C63_Statement := by
  intro h
  have h1 := (h (fun _ => 0) (fun _ => 1)).1
  rw [(C63_swapped_partial _ _).1] at h1
  have := congrFun (Option.some.inj h1) 0
  norm_num at this

/-! ### C64 -/

/-- One hemisphere: latitudes in strict order, the only latitude near the equator at one end. -/
def Hemispheric (lat : List ℝ) : Prop :=
  (lat.Pairwise (· < ·) ∨ lat.Pairwise (· > ·)) ∧
  ∃ e rest, (lat = e :: rest ∨ lat = rest ++ [e]) ∧ IsEquator e ∧ ∀ y ∈ rest, ¬ IsEquator y

theorem reindex_sub {α : Type*} {P Q : List (ℝ × α)} (hn : (P.map Prod.fst).Nodup) (hQ : ∀ p ∈ Q, p ∈ P) :
    reindexRows (P.map Prod.fst) (P.map Prod.snd) (Q.map Prod.fst) = Q.map Prod.snd := by
  have key : ∀ p ∈ P, (P.map Prod.snd)[(P.map Prod.fst).idxOf p.1]? = some p.2 := by
    intro p hp
    obtain ⟨i, hi, rfl⟩ := List.getElem_of_mem hp
    have : (P.map Prod.fst).idxOf ((P.map Prod.fst)[i]'(by simpa using hi)) = i := List.Nodup.idxOf_getElem hn i (by simpa using hi)
    rw [List.getElem_map] at this
    rw [this, List.getElem?_map, List.getElem?_eq_getElem hi]
    rfl
  unfold reindexRows
  induction Q with
  | nil => rfl
  | cons q Q ih =>
    rw [List.map_cons, List.filterMap_cons, key q (hQ q (by simp)), List.map_cons]
    exact congrArg _ (ih fun p hp => hQ p (by simp [hp]))

theorem neg_far {R : ℝ → ℝ → Prop} (hR : R = (· < ·) ∨ R = (· > ·)) {e a : ℝ} (he : IsEquator e) (ha : ¬ IsEquator a) :
    (R e a → R (-a) e) ∧ (R a e → R e (-a)) := by
  unfold IsEquator at he ha
  rw [abs_lt] at he
  rw [not_lt, le_abs'] at ha
  rcases hR with rfl | rfl <;> constructor <;> intro h <;> beta_reduce at h ⊢ <;>
    rcases ha with ha | ha <;> linarith [he.1, he.2]

theorem pairwise_neg {R : ℝ → ℝ → Prop} (hR : R = (· < ·) ∨ R = (· > ·)) {l : List ℝ} (h : l.Pairwise R) :
    (l.reverse.map (- ·)).Pairwise R := by
  rw [List.pairwise_map, List.pairwise_reverse]
  refine h.imp ?_
  intro a b hab
  rcases hR with rfl | rfl <;> beta_reduce at hab ⊢ <;> linarith

theorem trans_of {R : ℝ → ℝ → Prop} (hR : R = (· < ·) ∨ R = (· > ·)) {a b c : ℝ} (h1 : R a b) (h2 : R b c) : R a c := by
  rcases hR with rfl | rfl <;> beta_reduce at h1 h2 ⊢ <;> linarith

theorem front_pairwise {R : ℝ → ℝ → Prop} (hR : R = (· < ·) ∨ R = (· > ·)) {e : ℝ} {rest : List ℝ} (he : IsEquator e)
    (hr : ∀ y ∈ rest, ¬ IsEquator y) (h : (e :: rest).Pairwise R) : (rest.reverse.map (- ·) ++ e :: rest).Pairwise R := by
  rw [List.pairwise_cons] at h
  rw [List.pairwise_append]
  refine ⟨pairwise_neg hR h.2, List.pairwise_cons.2 h, fun c hc d hd => ?_⟩
  obtain ⟨a, ha, rfl⟩ := List.mem_map.1 hc
  rw [List.mem_reverse] at ha
  have h1 := (neg_far hR he (hr a ha)).1 (h.1 a ha)
  rcases List.mem_cons.1 hd with rfl | hd
  · exact h1
  · exact trans_of hR h1 (h.1 d hd)

theorem back_pairwise {R : ℝ → ℝ → Prop} (hR : R = (· < ·) ∨ R = (· > ·)) {e : ℝ} {rest : List ℝ} (he : IsEquator e)
    (hr : ∀ y ∈ rest, ¬ IsEquator y) (h : (rest ++ [e]).Pairwise R) : ((rest ++ [e]) ++ rest.reverse.map (- ·)).Pairwise R := by
  have h0 := h
  rw [List.pairwise_append] at h
  rw [List.pairwise_append]
  refine ⟨h0, pairwise_neg hR h.1, fun d hd c hc => ?_⟩
  obtain ⟨a, ha, rfl⟩ := List.mem_map.1 hc
  rw [List.mem_reverse] at ha
  have h1 := (neg_far hR he (hr a ha)).2 (h.2.2 a ha e (by simp))
  rcases List.mem_append.1 hd with hd | hd
  · exact trans_of hR (h.2.2 d hd e (by simp)) h1
  · rw [List.mem_singleton] at hd
    subst hd
    exact h1

theorem isEquator_neg (y : ℝ) : IsEquator (-y) ↔ IsEquator y := by
  unfold IsEquator
  rw [abs_neg]

theorem nodup_of {lat : List ℝ} (h : lat.Pairwise (· < ·) ∨ lat.Pairwise (· > ·)) : lat.Nodup := by
  rcases h with h | h
  · exact h.imp fun hab => ne_of_lt hab
  · exact h.imp fun hab => ne_of_gt hab

/-- What the mirrored globe has to satisfy, for the rows of one variable; `flip` is the action on mirrored values. -/
structure Mirrored {α : Type*} (lat : List ℝ) (rows : List α) (flip : α → α) (lat' : List ℝ) (rows' : List α) : Prop where
  length : rows'.length = lat'.length
  content : ∀ y x, (y, x) ∈ lat'.zip rows' ↔
    (y, x) ∈ lat.zip rows ∨ (¬ IsEquator y ∧ ∃ x', (-y, x') ∈ lat.zip rows ∧ x = flip x')

theorem zip_map_fst_snd {α : Type*} (P : List (ℝ × α)) : (P.map Prod.fst).zip (P.map Prod.snd) = P := by
  induction P with
  | nil => rfl
  | cons p P ih => simp [ih]

/-- The two layouts of the result have the right content. -/
theorem mirrored_of {α : Type*} {P T : List (ℝ × α)} {e : ℝ} {x0 : α} (flip : α → α) (hP : ∀ p, p ∈ P ↔ p = (e, x0) ∨ p ∈ T)
    (he : IsEquator e) (hT : ∀ p ∈ T, ¬ IsEquator p.1) (Q : List (ℝ × α))
    (hQ : ∀ p, p ∈ Q ↔ p ∈ P ∨ p ∈ T.reverse.map fun p => (-p.1, flip p.2)) :
    Mirrored (P.map Prod.fst) (P.map Prod.snd) flip (Q.map Prod.fst) (Q.map Prod.snd) := by
  refine ⟨by simp, fun y x => ?_⟩
  rw [zip_map_fst_snd, zip_map_fst_snd, hQ]
  refine or_congr_right ?_
  simp only [List.mem_map, List.mem_reverse]
  constructor
  · rintro ⟨p, hp, h⟩
    injection h with h1 h2
    refine ⟨?_, p.2, ?_, h2.symm⟩
    · rw [← h1, isEquator_neg]; exact hT p hp
    · rw [← h1, neg_neg]; exact (hP _).2 (Or.inr hp)
  · rintro ⟨hy, x', hx, rfl⟩
    rcases (hP _).1 hx with h | h
    · injection h with h1 h2
      exact absurd ((isEquator_neg y).1 (h1 ▸ he)) hy
    · exact ⟨_, h, by simp⟩

open Classical in
/-- C64: the globe has `2 n - 1` latitudes in the same strict order, exactly one of them at the equator. The variables keep
their names and order. At the original latitudes the values are unchanged; at each mirrored latitude they are those of the
other hemisphere, negated for the meridional wind. -/
theorem C64_mirror {α : Type*} [Neg α] {ds : LatDs α} (user : Option (List (String × String))) (h : Hemispheric ds.lat)
    (hl : ∀ p ∈ ds.vars, p.2.length = ds.lat.length) :
    ∃ out, hemisphereToGlobe ds user = .ok out ∧
      out.lat.length = 2 * ds.lat.length - 1 ∧
      (ds.lat.Pairwise (· < ·) → out.lat.Pairwise (· < ·)) ∧ (ds.lat.Pairwise (· > ·) → out.lat.Pairwise (· > ·)) ∧
      (∃! y, y ∈ out.lat ∧ IsEquator y) ∧
      List.Forall₂ (fun p q => q.1 = p.1 ∧
        Mirrored ds.lat p.2 (fun x => if getName (ds.vars.map Prod.fst) "v" ["V"] user = .ok p.1 then -x else x) out.lat q.2)
        ds.vars out.vars := by
  obtain ⟨hm, e, rest, hlat, he, hr⟩ := h
  have hnd := nodup_of hm
  -- the front layout covers the single row as well
  have hsplit : ds.lat = e :: rest ∨ (ds.lat = rest ++ [e] ∧ rest ≠ []) := by
    rcases hlat with hlat | hlat
    · exact Or.inl hlat
    · by_cases h0 : rest = []
      · left; rw [hlat, h0]; rfl
      · exact Or.inr ⟨hlat, h0⟩
  set vName := getName (ds.vars.map Prod.fst) "v" ["V"] user with hv
  have rowsEq : ∀ (b : Prop) [Decidable b] (l : List α), (if b then l.map (- ·) else l) = l.map (fun x => if b then -x else x) := by
    intro b _ l
    split_ifs <;> simp
  rcases hsplit with hlat | ⟨hlat, h0⟩
  · refine ⟨{ lat := rest.reverse.map (- ·) ++ ds.lat
              vars := ds.vars.map fun p => (p.1, (if vName = .ok p.1 then (reindexRows ds.lat p.2 rest.reverse).map (- ·)
                else reindexRows ds.lat p.2 rest.reverse) ++ p.2) }, ?_, ?_, ?_, ?_, ?_, ?_⟩
    · unfold hemisphereToGlobe
      have h1 : ds.lat.head? = some e := by rw [hlat]; rfl
      obtain ⟨y1, h2⟩ : ∃ y1, ds.lat.getLast? = some y1 := by
        rw [hlat]; exact ⟨_, List.getLast?_eq_some_getLast (by simp)⟩
      have h3 : ds.lat.tail = rest := by rw [hlat]; rfl
      simp only [h1, h2]
      rw [if_neg (by rw [not_not]; exact Or.inl he), if_neg (by rw [not_not]; exact hnd)]
      simp only [if_pos he, h3, ← hv]
    · simp [hlat]; omega
    · intro hp; rw [hlat] at hp ⊢; exact front_pairwise (Or.inl rfl) he hr hp
    · intro hp; rw [hlat] at hp ⊢; exact front_pairwise (Or.inr rfl) he hr hp
    · refine ⟨e, ⟨by simp [hlat], he⟩, ?_⟩
      rintro y ⟨hy, hye⟩
      simp only [hlat, List.mem_append, List.mem_map, List.mem_reverse, List.mem_cons] at hy
      rcases hy with ⟨a, ha, rfl⟩ | rfl | hy
      · exact absurd ((isEquator_neg a).1 hye) (hr a ha)
      · rfl
      · exact absurd hye (hr y hy)
    · rw [List.forall₂_map_right_iff, List.forall₂_same]
      intro p hp
      refine ⟨rfl, ?_⟩
      have hlen := hl p hp
      rw [rowsEq]
      obtain ⟨P, hP1, hP2⟩ : ∃ P : List (ℝ × α), P.map Prod.fst = ds.lat ∧ P.map Prod.snd = p.2 :=
        ⟨ds.lat.zip p.2, by rw [List.map_fst_zip]; omega, by rw [List.map_snd_zip]; omega⟩
      rw [← hP1, ← hP2]
      cases P with
      | nil => rw [hlat] at hP1; cases hP1
      | cons q T =>
        have hq : q.1 = e ∧ T.map Prod.fst = rest := by
          rw [hlat, List.map_cons] at hP1
          injection hP1 with a b
          exact ⟨a, b⟩
        have hrev : rest.reverse = T.reverse.map Prod.fst := by rw [← hq.2, List.map_reverse]
        rw [hrev, reindex_sub (by rw [hP1]; exact hnd) (by intro p hp; simp at hp ⊢; exact Or.inr hp)]
        have := mirrored_of (P := q :: T) (T := T) (e := e) (x0 := q.2)
          (fun x => if vName = .ok p.1 then -x else x) (fun p => by rw [List.mem_cons, ← hq.1]) he
          (fun p hp => hr p.1 (by rw [← hq.2]; exact List.mem_map_of_mem hp))
          ((T.reverse.map fun r => (-r.1, if vName = .ok p.1 then -r.2 else r.2)) ++ (q :: T))
          (fun p => by rw [List.mem_append, or_comm])
        convert this using 1 <;> simp [Function.comp_def]
  · refine ⟨{ lat := ds.lat ++ rest.reverse.map (- ·)
              vars := ds.vars.map fun p => (p.1, p.2 ++ (if vName = .ok p.1 then (reindexRows ds.lat p.2 rest.reverse).map (- ·)
                else reindexRows ds.lat p.2 rest.reverse)) }, ?_, ?_, ?_, ?_, ?_, ?_⟩
    · unfold hemisphereToGlobe
      obtain ⟨y0, r', hr0⟩ : ∃ y0 r', rest = y0 :: r' := List.exists_cons_of_ne_nil h0
      have h1 : ds.lat.head? = some y0 := by rw [hlat, hr0]; rfl
      have h2 : ds.lat.getLast? = some e := by rw [hlat]; simp
      have h3 : ds.lat.dropLast = rest := by rw [hlat]; simp
      have hy0 : ¬ IsEquator y0 := hr y0 (by rw [hr0]; simp)
      simp only [h1, h2]
      rw [if_neg (by rw [not_not]; exact Or.inr he), if_neg (by rw [not_not]; exact hnd)]
      simp only [if_neg hy0, h3, ← hv]
    · simp [hlat]; omega
    · intro hp; rw [hlat] at hp ⊢; exact back_pairwise (Or.inl rfl) he hr hp
    · intro hp; rw [hlat] at hp ⊢; exact back_pairwise (Or.inr rfl) he hr hp
    · refine ⟨e, ⟨by simp [hlat], he⟩, ?_⟩
      rintro y ⟨hy, hye⟩
      simp only [hlat, List.mem_append, List.mem_map, List.mem_reverse, List.mem_singleton] at hy
      rcases hy with (hy | rfl) | ⟨a, ha, rfl⟩
      · exact absurd hye (hr y hy)
      · rfl
      · exact absurd ((isEquator_neg a).1 hye) (hr a ha)
    · rw [List.forall₂_map_right_iff, List.forall₂_same]
      intro p hp
      refine ⟨rfl, ?_⟩
      have hlen := hl p hp
      rw [rowsEq]
      obtain ⟨P, hP1, hP2⟩ : ∃ P : List (ℝ × α), P.map Prod.fst = ds.lat ∧ P.map Prod.snd = p.2 :=
        ⟨ds.lat.zip p.2, by rw [List.map_fst_zip]; omega, by rw [List.map_snd_zip]; omega⟩
      rw [← hP1, ← hP2]
      rcases List.eq_nil_or_concat P with hnil | ⟨T, q, hT⟩
      · rw [hnil, hlat] at hP1; simp at hP1
      · rw [List.concat_eq_append] at hT
        subst hT
        have hq : T.map Prod.fst = rest ∧ q.1 = e := by
          rw [hlat, List.map_append] at hP1
          have := List.append_inj' hP1 rfl
          exact ⟨this.1, by simpa using this.2⟩
        have hrev : rest.reverse = T.reverse.map Prod.fst := by rw [← hq.1, List.map_reverse]
        rw [hrev, reindex_sub (by rw [hP1]; exact hnd) (by intro p hp; simp at hp ⊢; exact Or.inl hp)]
        have := mirrored_of (P := T ++ [q]) (T := T) (e := e) (x0 := q.2)
          (fun x => if vName = .ok p.1 then -x else x) (fun p => by rw [List.mem_append, List.mem_singleton, ← hq.2, or_comm]) he
          (fun p hp => hr p.1 (by rw [← hq.1]; exact List.mem_map_of_mem hp))
          ((T ++ [q]) ++ (T.reverse.map fun r => (-r.1, if vName = .ok p.1 then -r.2 else r.2)))
          (fun p => by rw [List.mem_append])
        convert this using 1 <;> simp [Function.comp_def]

open Classical in
/-- C64, refusal: without the equator at an end there is an `AssertionError`. -/
theorem C64_refused {α : Type*} [Neg α] {ds : LatDs α} (user : Option (List (String × String))) {y0 y1 : ℝ}
    (h0 : ds.lat.head? = some y0) (h1 : ds.lat.getLast? = some y1) (n0 : ¬ IsEquator y0) (n1 : ¬ IsEquator y1) :
    hemisphereToGlobe ds user = .error .assertionError := by
  unfold hemisphereToGlobe
  simp only [h0, h1]
  rw [if_pos (by rintro (h | h) <;> contradiction)]

/-- A northern hemisphere from the pole to the equator. -/
example : Hemispheric [90, 45, 0] := by
  refine ⟨Or.inr (by norm_num), 0, [90, 45], Or.inr rfl, by norm_num [IsEquator], ?_⟩
  intro y hy
  rcases List.mem_cons.1 hy with rfl | hy
  · norm_num [IsEquator]
  · rw [List.mem_singleton] at hy; subst hy; norm_num [IsEquator]

/-! ### C65 -/

/-- Distinct time labels. -/
def DistinctTimes (n : ℕ) (t : ℕ → ℝ) : Prop := ∀ i j, i < n → j < n → t i = t j → i = j

theorem selTime_eq {n : ℕ} {t y : ℕ → ℝ} (h : DistinctTimes n t) {i : ℕ} (hi : i < n) : selTime n t y (t i) = y i := by
  unfold selTime
  cases hf : (List.range n).find? (fun j => decide (t j = t i)) with
  | none =>
    rw [List.find?_eq_none] at hf
    exact absurd (decide_eq_true rfl) (hf i (List.mem_range.2 hi))
  | some j =>
    have h1 := List.mem_range.1 (List.mem_of_find?_eq_some hf)
    have h2 := List.find?_some hf
    simp only [decide_eq_true_eq] at h2
    rw [h j i h1 hi h2]

/-- C65, closure: the change of LWA between the first and the last time is the sum of the three integrals and the residual. -/
theorem C65_closes {n : ℕ} {t : ℕ → ℝ} (hn : 1 ≤ n) (h : DistinctTimes n t) (lwa czaf demf mhf : ℕ → ℝ) :
    let b := integrateBudget n t lwa czaf demf mhf
    b.deltaLwa = lwa (n - 1) - lwa 0 ∧ b.deltaLwa = b.czaf + b.demf + b.mhf + b.residual := by
  refine ⟨?_, ?_⟩
  · show selTime n t lwa (t (n - 1)) - selTime n t lwa (t 0) = _
    rw [selTime_eq h (by omega), selTime_eq h (by omega)]
  · simp only [integrateBudget]
    ring

theorem integrate_split (m n : ℕ) (t y : ℕ → ℝ) :
    integrate (m + n + 1) t y = integrate (m + 1) t y + integrate (n + 1) (fun i => t (m + i)) (fun i => y (m + i)) := by
  unfold integrate
  rw [show m + n + 1 - 1 = m + n by omega, show m + 1 - 1 = m by omega, show n + 1 - 1 = n by omega, Finset.sum_range_add]
  rfl

/-- C65, additivity: the budget over an interval is the sum of the budgets of two parts that share the time `m`. -/
theorem C65_additive {m n : ℕ} {t : ℕ → ℝ} (h : DistinctTimes (m + n + 1) t) (lwa czaf demf mhf : ℕ → ℝ) :
    let b := integrateBudget (m + n + 1) t lwa czaf demf mhf
    let b1 := integrateBudget (m + 1) t lwa czaf demf mhf
    let b2 := integrateBudget (n + 1) (fun i => t (m + i)) (fun i => lwa (m + i)) (fun i => czaf (m + i)) (fun i => demf (m + i))
      (fun i => mhf (m + i))
    b.deltaLwa = b1.deltaLwa + b2.deltaLwa ∧ b.czaf = b1.czaf + b2.czaf ∧ b.demf = b1.demf + b2.demf ∧
      b.mhf = b1.mhf + b2.mhf ∧ b.residual = b1.residual + b2.residual := by
  intro b b1 b2
  have h1 : DistinctTimes (m + 1) t := fun i j hi hj => h i j (by omega) (by omega)
  have h2 : DistinctTimes (n + 1) (fun i => t (m + i)) := fun i j hi hj e => by
    have := h (m + i) (m + j) (by omega) (by omega) e
    omega
  have d0 := (C65_closes (by omega) h lwa czaf demf mhf).1
  have d1 := (C65_closes (by omega) h1 lwa czaf demf mhf).1
  have d2 := (C65_closes (by omega) h2 (fun i => lwa (m + i)) (fun i => czaf (m + i)) (fun i => demf (m + i)) (fun i => mhf (m + i))).1
  have d : b.deltaLwa = b1.deltaLwa + b2.deltaLwa := by
    show (integrateBudget _ _ _ _ _ _).deltaLwa = (integrateBudget _ _ _ _ _ _).deltaLwa + (integrateBudget _ _ _ _ _ _).deltaLwa
    rw [d0, d1, d2, show m + n + 1 - 1 = m + n by omega, show m + 1 - 1 = m by omega, show n + 1 - 1 = n by omega, Nat.add_zero]
    ring
  have ec : b.czaf = b1.czaf + b2.czaf := integrate_split m n t czaf
  have ed : b.demf = b1.demf + b2.demf := integrate_split m n t demf
  have em : b.mhf = b1.mhf + b2.mhf := integrate_split m n t mhf
  refine ⟨d, ec, ed, em, ?_⟩
  have r : b.residual = b.deltaLwa - b.czaf - b.demf - b.mhf := rfl
  have r1 : b1.residual = b1.deltaLwa - b1.czaf - b1.demf - b1.mhf := rfl
  have r2 : b2.residual = b2.deltaLwa - b2.czaf - b2.demf - b2.mhf := rfl
  rw [r, r1, r2, d, ec, ed, em]
  ring

/-- C65, exactness: a tendency `p + q t` is integrated exactly, on any time axis. -/
theorem C65_affine {n : ℕ} (hn : 1 ≤ n) (t : ℕ → ℝ) (p q : ℝ) :
    integrate n t (fun i => p + q * t i) = p * (t (n - 1) - t 0) + q * ((t (n - 1)) ^ 2 - (t 0) ^ 2) / 2 := by
  obtain ⟨m, rfl⟩ : ∃ m, n = m + 1 := ⟨n - 1, by omega⟩
  unfold integrate
  rw [show m + 1 - 1 = m by omega]
  have e : ∀ i ∈ Finset.range m, (t (i + 1) - t i) * (0.5 * ((p + q * t (i + 1)) + (p + q * t i))) =
      (fun i => p * t i + q * (t i) ^ 2 / 2) (i + 1) - (fun i => p * t i + q * (t i) ^ 2 / 2) i := by
    intro i _
    beta_reduce
    ring
  rw [Finset.sum_congr rfl e, Finset.sum_range_sub (fun i => p * t i + q * (t i) ^ 2 / 2)]
  ring

example : DistinctTimes 4 (fun i => 21600 * i) := by
  intro i j _ _ h
  have h : (21600 : ℝ) * i = 21600 * j := h
  have : (i : ℝ) = j := by linarith
  exact_mod_cast this

end Falwa.Xr
