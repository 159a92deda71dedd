import Verif.Model.DatasetArgs

/-! # Which fields a `QGDataset` is made of (C157) -/

namespace Falwa.Xr

variable {C α : Type}

/-! ### What the docstring says -/

/-- The variable of a dataset under the user's name or the first default name that is there. -/
def Holds (vars : List (String × Arr C α)) (names : String × List String) (user : Option (List (String × String))) (a : Arr C α) : Prop :=
  ∃ n, getName (vars.map Prod.fst) names.1 names.2 user = .ok n ∧ vars.lookup n = some a

/-- The field an argument stands for: the array itself, or a variable of the dataset. -/
def Gives (arg : Arg C α) (names : String × List String) (user : Option (List (String × String))) (a : Arr C α) : Prop :=
  arg = .array a ∨ ∃ vars, arg = .dataset vars ∧ Holds vars names user a

/-- The field of an optional argument: its own, or if omitted that of the first argument, which must be a dataset. -/
def Fills (first own : Arg C α) (names : String × List String) (user : Option (List (String × String))) (a : Arr C α) : Prop :=
  Gives own names user a ∨ own = .missing ∧ ∃ vars, first = .dataset vars ∧ Holds vars names user a

/-- The three fields fit: same dimensions, which end with height, latitude and longitude, and same labels. -/
structure Fit (user : Option (List (String × String))) (r : Built C α) : Prop where
  uv : Agree r.u r.v
  ut : Agree r.u r.t
  vt : Agree r.v r.t
  plev : getName ((r.u.coords ++ r.v.coords ++ r.t.coords).map Prod.fst) "plev" ["lev", "level", "isobaricInhPa", "pressure_level"] user =
    .ok r.plev
  ylat : getName ((r.u.coords ++ r.v.coords ++ r.t.coords).map Prod.fst) "ylat" ["lat", "latitude"] user = .ok r.ylat
  xlon : getName ((r.u.coords ++ r.v.coords ++ r.t.coords).map Prod.fst) "xlon" ["lon", "longitude"] user = .ok r.xlon
  dims : ∃ other, r.u.dims = other ++ [r.plev, r.ylat, r.xlon]
  dimsV : r.v.dims = r.u.dims
  dimsT : r.t.dims = r.u.dims

/-- `r` is made of the fields that the arguments stand for. -/
def Means (u v t : Arg C α) (user : Option (List (String × String))) (r : Built C α) : Prop :=
  Gives u ("u", ["U"]) user r.u ∧ Fills u v ("v", ["V"]) user r.v ∧ Fills u t ("t", ["T"]) user r.t

/-! ### Lemmas -/

theorem getArray_ok {vars : List (String × Arr C α)} {names : String × List String} {user : Option (List (String × String))} {a : Arr C α} :
    getArray vars names.1 names.2 user = .ok a ↔ Holds vars names user a := by
  unfold getArray Holds
  cases h : getName (vars.map Prod.fst) names.1 names.2 user with
  | error e => simp
  | ok n =>
    cases h' : vars.lookup n with
    | none =>
      simp [h']
    | some b => simp [h']

theorem fillUp_ok {vars : List (String × Arr C α)} {names : String × List String} {user : Option (List (String × String))} {own : Arg C α}
    {a : Arr C α} : fillUp vars names.1 names.2 user own = .ok a ↔ Fills (.dataset vars) own names user a := by
  cases own with
  | missing =>
    unfold fillUp
    rw [getArray_ok]
    constructor
    · exact fun h => Or.inr ⟨rfl, vars, rfl, h⟩
    · rintro (h | ⟨_, w, hw, h⟩)
      · rcases h with h | ⟨w, hw, _⟩
        · cases h
        · cases hw
      · cases hw; exact h
  | array b =>
    unfold fillUp
    constructor
    · intro h; exact Or.inl (Or.inl (by rw [Except.ok.inj h]))
    · rintro (h | ⟨h, _⟩)
      · rcases h with h | ⟨w, hw, _⟩
        · rw [(Arg.array.inj h)]
        · cases hw
      · cases h
  | dataset w =>
    unfold fillUp
    rw [getArray_ok]
    constructor
    · exact fun h => Or.inl (Or.inr ⟨w, rfl, h⟩)
    · rintro (h | ⟨h, _⟩)
      · rcases h with h | ⟨w', hw, h⟩
        · cases h
        · cases hw; exact h
      · cases h
  | foreign =>
    unfold fillUp
    constructor
    · intro h; cases h
    · rintro (h | ⟨h, _⟩)
      · rcases h with h | ⟨w', hw, h⟩
        · cases h
        · cases hw
      · cases h

theorem dimIs_ok {dims : List String} {n : ℕ} {name : String} :
    dimIs dims n name = .ok () ↔ n ≤ dims.length ∧ dims[dims.length - n]? = some name := by
  unfold dimIs
  split_ifs with h1 h2
  · constructor
    · intro h; cases h
    · rintro ⟨h, _⟩; omega
  · exact ⟨fun _ => ⟨by omega, h2⟩, fun _ => rfl⟩
  · constructor
    · intro h; cases h
    · rintro ⟨_, h⟩; exact absurd h h2

theorem dims_end {dims : List String} {a b c : String} :
    (dimIs dims 3 a = .ok () ∧ dimIs dims 2 b = .ok () ∧ dimIs dims 1 c = .ok ()) ↔ ∃ other, dims = other ++ [a, b, c] := by
  rw [dimIs_ok, dimIs_ok, dimIs_ok]
  constructor
  · rintro ⟨⟨h3, e3⟩, ⟨_, e2⟩, ⟨_, e1⟩⟩
    refine ⟨dims.take (dims.length - 3), ?_⟩
    conv_lhs => rw [← List.take_append_drop (dims.length - 3) dims]
    congr 1
    have hl : (dims.drop (dims.length - 3)).length = 3 := by simp; omega
    apply List.ext_getElem?
    intro i
    rw [List.getElem?_drop]
    rcases i with _ | _ | _ | i
    · simpa using e3
    · rw [show dims.length - 3 + (0 + 1) = dims.length - 2 by omega, e2]; rfl
    · rw [show dims.length - 3 + (0 + 1 + 1) = dims.length - 1 by omega, e1]; rfl
    · rw [List.getElem?_eq_none (by omega)]; rfl
  · rintro ⟨other, rfl⟩
    simp

theorem threeArrays_ok {u v t : Arg C α} {user : Option (List (String × String))} {a b c : Arr C α} :
    threeArrays u v t user = .ok (a, b, c) ↔
      (Gives u ("u", ["U"]) user a ∧ Fills u v ("v", ["V"]) user b ∧ Fills u t ("t", ["T"]) user c) ∧
        ((∃ vars, u = .dataset vars) ∨ ((∃ x, v = .array x) ∧ ∃ x, t = .array x)) := by
  have no : ∀ {first : Arg C α} {names}, ¬ Fills first .foreign names user b := by
    intro f n h
    rcases h with (h | ⟨_, h, _⟩) | ⟨h, _⟩ <;> cases h
  have no' : ∀ {first : Arg C α} {names}, ¬ Fills first .foreign names user c := by
    intro f n h
    rcases h with (h | ⟨_, h, _⟩) | ⟨h, _⟩ <;> cases h
  have gm : ∀ {names}, ¬ Gives (.missing : Arg C α) names user a := by
    intro n h; rcases h with h | ⟨_, h, _⟩ <;> cases h
  have gf : ∀ {names}, ¬ Gives (.foreign : Arg C α) names user a := by
    intro n h; rcases h with h | ⟨_, h, _⟩ <;> cases h
  cases u with
  | missing => constructor
               · intro h; cases h
               · rintro ⟨⟨h, _⟩, _⟩; exact absurd h gm
  | foreign => constructor
               · intro h; cases h
               · rintro ⟨⟨h, _⟩, _⟩; exact absurd h gf
  | dataset vars =>
    by_cases hv : v = .foreign
    · subst hv
      constructor
      · intro h; cases h
      · rintro ⟨⟨_, h, _⟩, _⟩; exact absurd h no
    · by_cases ht : t = .foreign
      · subst ht
        constructor
        · intro h; cases v <;> cases h
        · rintro ⟨⟨_, _, h⟩, _⟩; exact absurd h no'
      · have e : threeArrays (.dataset vars) v t user = (do
            let b ← fillUp vars "v" ["V"] user v
            let c ← fillUp vars "t" ["T"] user t
            let a ← getArray vars "u" ["U"] user
            pure (a, b, c)) := by
          cases v <;> cases t <;> first | rfl | exact absurd rfl hv | exact absurd rfl ht
        rw [e]
        have g : Gives (.dataset vars : Arg C α) ("u", ["U"]) user a ↔ Holds vars ("u", ["U"]) user a := by
          constructor
          · rintro (h | ⟨w, hw, h⟩)
            · cases h
            · cases hw; exact h
          · exact fun h => Or.inr ⟨vars, rfl, h⟩
        rw [g, ← getArray_ok, ← fillUp_ok (names := ("v", ["V"])), ← fillUp_ok (names := ("t", ["T"]))]
        have tr : ((∃ vars', (.dataset vars : Arg C α) = .dataset vars') ∨ ((∃ x, v = .array x) ∧ ∃ x, t = .array x)) = True :=
          eq_true (Or.inl ⟨vars, rfl⟩)
        rw [tr, and_true]
        cases h1 : fillUp vars "v" ["V"] user v <;> cases h2 : fillUp vars "t" ["T"] user t <;> cases h3 : getArray vars "u" ["U"] user <;>
          simp [bind, Except.bind, pure, Except.pure]
  | array x =>
    have hg : Gives (.array x : Arg C α) ("u", ["U"]) user a ↔ x = a := by
      constructor
      · rintro (h | ⟨w, hw, h⟩)
        · exact Arg.array.inj h
        · cases hw
      · rintro rfl; exact Or.inl rfl
    have fill : ∀ {y z : Arr C α} {names}, Fills (.array x) (.array y) names user z ↔ y = z := by
      intro y z n
      constructor
      · rintro ((h | ⟨_, h, _⟩) | ⟨h, _⟩)
        · exact Arg.array.inj h
        · cases h
        · cases h
      · rintro rfl; exact Or.inl (Or.inl rfl)
    have key : ∀ {y z : Arr C α}, threeArrays (.array x) (.array y) (.array z) user = .ok (x, y, z) := fun {y z} => rfl
    by_cases hva : ∃ y, v = .array y
    · by_cases hta : ∃ z, t = .array z
      · obtain ⟨y, rfl⟩ := hva
        obtain ⟨z, rfl⟩ := hta
        rw [key, hg, fill, fill]
        simp
      · constructor
        · intro h
          obtain ⟨y, rfl⟩ := hva
          cases t with
          | array z => exact absurd ⟨z, rfl⟩ hta
          | missing => cases h
          | dataset w => cases h
          | foreign => cases h
        · rintro ⟨_, ⟨w, hw⟩ | ⟨_, h⟩⟩
          · cases hw
          · exact absurd h hta
    · constructor
      · intro h
        cases v with
        | array y => exact absurd ⟨y, rfl⟩ hva
        | missing => cases t <;> cases h
        | dataset w => cases t <;> cases h
        | foreign => cases t <;> cases h
      · rintro ⟨_, ⟨w, hw⟩ | ⟨h, _⟩⟩
        · cases hw
        · exact absurd h hva

variable [DecidableEq C]

/-! ### Theorems -/

/-- C157, exactly when the constructor gets past its checks, and with what: the fields are those of the arguments, they fit, and either the
first argument is a dataset or the others are arrays. -/
theorem C157_accepted {u v t : Arg C α} {user : Option (List (String × String))} {r : Built C α} :
    construct u v t user = .ok r ↔
      Means u v t user r ∧ Fit user r ∧ ((∃ vars, u = .dataset vars) ∨ ((∃ x, v = .array x) ∧ ∃ x, t = .array x)) := by
  have sub : ∀ {a b c : Arr C α}, threeArrays u v t user = .ok (a, b, c) → (construct u v t user = .ok r ↔
      (r.u = a ∧ r.v = b ∧ r.t = c) ∧ Fit user r) := by
    intro a b c h
    unfold construct
    rw [h]
    simp only [bind, Except.bind]
    constructor
    · intro hr
      by_cases h1 : Agree a b ∧ Agree a c ∧ Agree b c
      swap
      · rw [if_pos h1] at hr; cases hr
      rw [if_neg (not_not.2 h1)] at hr
      cases hp : getName ((a.coords ++ b.coords ++ c.coords).map Prod.fst) plevNames.1 plevNames.2 user with
      | error e => rw [hp] at hr; cases hr
      | ok plev =>
      cases hy : getName ((a.coords ++ b.coords ++ c.coords).map Prod.fst) ylatNames.1 ylatNames.2 user with
      | error e => rw [hp, hy] at hr; cases hr
      | ok ylat =>
      cases hx : getName ((a.coords ++ b.coords ++ c.coords).map Prod.fst) xlonNames.1 xlonNames.2 user with
      | error e => rw [hp, hy, hx] at hr; cases hr
      | ok xlon =>
      rw [hp, hy, hx] at hr
      dsimp only at hr
      cases d3 : dimIs a.dims 3 plev with
      | error e => rw [d3] at hr; cases hr
      | ok _ =>
      cases d2 : dimIs a.dims 2 ylat with
      | error e => rw [d3, d2] at hr; cases hr
      | ok _ =>
      cases d1 : dimIs a.dims 1 xlon with
      | error e => rw [d3, d2, d1] at hr; cases hr
      | ok _ =>
      rw [d3, d2, d1] at hr
      dsimp only at hr
      by_cases e1 : a.dims = b.dims
      swap
      · rw [if_pos e1] at hr; cases hr
      by_cases e2 : a.dims = c.dims
      swap
      · rw [if_neg (not_not.2 e1), if_pos e2] at hr; cases hr
      rw [if_neg (not_not.2 e1), if_neg (not_not.2 e2)] at hr
      rw [← Except.ok.inj hr]
      exact ⟨⟨rfl, rfl, rfl⟩, h1.1, h1.2.1, h1.2.2, hp, hy, hx, dims_end.1 ⟨d3, d2, d1⟩, e1.symm, e2.symm⟩
    · rintro ⟨⟨rfl, rfl, rfl⟩, hf⟩
      obtain ⟨d3, d2, d1⟩ := dims_end.2 hf.dims
      have hp : getName ((r.u.coords ++ r.v.coords ++ r.t.coords).map Prod.fst) plevNames.1 plevNames.2 user = .ok r.plev := hf.plev
      have hy : getName ((r.u.coords ++ r.v.coords ++ r.t.coords).map Prod.fst) ylatNames.1 ylatNames.2 user = .ok r.ylat := hf.ylat
      have hx : getName ((r.u.coords ++ r.v.coords ++ r.t.coords).map Prod.fst) xlonNames.1 xlonNames.2 user = .ok r.xlon := hf.xlon
      rw [if_neg (by rw [not_not]; exact ⟨hf.uv, hf.ut, hf.vt⟩), hp, hy, hx]
      dsimp only
      rw [d3, d2, d1]
      dsimp only
      rw [if_neg (by rw [not_not]; exact hf.dimsV.symm), if_neg (by rw [not_not]; exact hf.dimsT.symm)]
  constructor
  · intro hr
    cases h : threeArrays u v t user with
    | error e =>
      unfold construct at hr
      rw [h] at hr
      cases hr
    | ok x =>
      obtain ⟨a, b, c⟩ := x
      obtain ⟨⟨e1, e2, e3⟩, hf⟩ := (sub h).1 hr
      obtain ⟨hm, hs⟩ := threeArrays_ok.1 h
      rw [← e1, ← e2, ← e3] at hm
      exact ⟨hm, hf, hs⟩
  · rintro ⟨hm, hf, hs⟩
    exact (sub (threeArrays_ok.2 ⟨hm, hs⟩)).2 ⟨⟨rfl, rfl, rfl⟩, hf⟩

/-- C157: whenever the arguments stand for three fields that fit, the dataset is made of these fields. -/
def C157_Statement (C α : Type) [DecidableEq C] : Prop :=
  ∀ (u v t : Arg C α) (user : Option (List (String × String))) (r : Built C α), Means u v t user r → Fit user r →
    construct u v t user = .ok r

/-- C157 if the first argument is a dataset or the other two are arrays. Missing: an array first and a dataset second or third. -/
theorem C157_partial {u v t : Arg C α} {user : Option (List (String × String))} {r : Built C α} (hm : Means u v t user r)
    (hf : Fit user r) (h : (∃ vars, u = .dataset vars) ∨ ((∃ x, v = .array x) ∧ ∃ x, t = .array x)) :
    construct u v t user = .ok r := C157_accepted.2 ⟨hm, hf, h⟩

/-- C157: an array first and a dataset second or third, both given, is a `ValueError` whatever they hold. -/
theorem C157_mixed {x : Arr C α} {v t : Arg C α} (user : Option (List (String × String)))
    (hv : (∃ y, v = .array y) ∨ ∃ w, v = .dataset w) (ht : (∃ y, t = .array y) ∨ ∃ w, t = .dataset w)
    (h : (∃ w, v = .dataset w) ∨ ∃ w, t = .dataset w) : construct (.array x) v t user = .error .valueError := by
  rcases hv with ⟨y, rfl⟩ | ⟨w, rfl⟩ <;> rcases ht with ⟨z, rfl⟩ | ⟨w', rfl⟩
  · rcases h with ⟨_, h⟩ | ⟨_, h⟩ <;> cases h
  · rfl
  · rfl
  · rfl

/-- C157: an array alone, or without one of the other fields, is refused. -/
theorem C157_missing {x : Arr C α} {v t : Arg C α} (user : Option (List (String × String))) (h : v = .missing ∨ t = .missing) :
    construct (.array x) v t user = .error .assertionError := by
  rcases h with rfl | rfl
  · cases t <;> rfl
  · cases v <;> rfl

omit [DecidableEq C] in
/-- C157: in an accepted dataset the three fields have the same label at the same index of every dimension. -/
theorem Fit.labels {user : Option (List (String × String))} {r : Built C α} (h : Fit user r) {d : String} {x y : C}
    (hx : (d, x) ∈ r.u.coords) (hy : (d, y) ∈ r.v.coords ∨ (d, y) ∈ r.t.coords) : x = y := by
  rcases hy with hy | hy
  · exact h.uv.1 _ hx _ hy rfl
  · exact h.ut.1 _ hx _ hy rfl

/-- C157: so every accepted call pairs values of the same place and time, position by position. -/
theorem C157_labels {u v t : Arg C α} {user : Option (List (String × String))} {r : Built C α} (h : construct u v t user = .ok r) :
    r.v.dims = r.u.dims ∧ r.t.dims = r.u.dims ∧
    (∀ d ∈ r.u.dims, r.v.size d = r.u.size d ∧ r.t.size d = r.u.size d) ∧
    ∀ d x y, (d, x) ∈ r.u.coords → ((d, y) ∈ r.v.coords ∨ (d, y) ∈ r.t.coords) → x = y := by
  have hf := (C157_accepted.1 h).2.1
  refine ⟨hf.dimsV, hf.dimsT, fun d hd => ⟨(hf.uv.2 d hd (by rw [hf.dimsV]; exact hd)).symm,
    (hf.ut.2 d hd (by rw [hf.dimsT]; exact hd)).symm⟩, fun d x y hx hy => hf.labels hx hy⟩

/-- Fields on the same grid. -/
def plain (n : ℕ) : Arr ℕ ℕ := ⟨["time", "lev", "lat", "lon"], fun _ => 3, [("time", 1), ("lev", 2), ("lat", 3), ("lon", 4)], n⟩

theorem plain_fit : Fit none (⟨plain 1, plain 2, plain 3, "lev", "lat", "lon"⟩ : Built ℕ ℕ) :=
  ⟨by decide, by decide, by decide, by decide, by decide, by decide, ⟨["time"], rfl⟩, rfl, rfl⟩

/-- C157 is violated: `da_u` an array and `da_v` a dataset that holds `v`. -/
theorem C157_refuted : ¬ C157_Statement ℕ ℕ := by
  intro H
  have := H (.array (plain 1)) (.dataset [("v", plain 2)]) (.array (plain 3)) none _
    ⟨Or.inl rfl, Or.inl (Or.inr ⟨_, rfl, "v", by decide, rfl⟩), Or.inl (Or.inl rfl)⟩ plain_fit
  rw [C157_mixed none (Or.inr ⟨_, rfl⟩) (Or.inl ⟨_, rfl⟩) (Or.inl ⟨_, rfl⟩)] at this
  cases this

-- one dataset; a dataset with an override; three datasets; three arrays
example : construct (.dataset [("U", plain 1), ("v", plain 2), ("t", plain 3)]) .missing .missing none =
    .ok ⟨plain 1, plain 2, plain 3, "lev", "lat", "lon"⟩ :=
  C157_partial ⟨Or.inr ⟨_, rfl, "U", by decide, rfl⟩, Or.inr ⟨rfl, _, rfl, "v", by decide, rfl⟩, Or.inr ⟨rfl, _, rfl, "t", by decide, rfl⟩⟩
    plain_fit (Or.inl ⟨_, rfl⟩)

example : construct (.dataset [("u", plain 1), ("v", plain 7), ("t", plain 3)]) (.array (plain 2)) .missing none =
    .ok ⟨plain 1, plain 2, plain 3, "lev", "lat", "lon"⟩ :=
  C157_partial ⟨Or.inr ⟨_, rfl, "u", by decide, rfl⟩, Or.inl (Or.inl rfl), Or.inr ⟨rfl, _, rfl, "t", by decide, rfl⟩⟩
    plain_fit (Or.inl ⟨_, rfl⟩)

example : construct (.dataset [("u", plain 1)]) (.dataset [("v", plain 2)]) (.dataset [("T", plain 3)]) none =
    .ok ⟨plain 1, plain 2, plain 3, "lev", "lat", "lon"⟩ :=
  C157_partial ⟨Or.inr ⟨_, rfl, "u", by decide, rfl⟩, Or.inl (Or.inr ⟨_, rfl, "v", by decide, rfl⟩),
    Or.inl (Or.inr ⟨_, rfl, "T", by decide, rfl⟩)⟩ plain_fit (Or.inl ⟨_, rfl⟩)

end Falwa.Xr
