import Verif.Props.Xarray
import Verif.Props.MirrorNhn
import Verif.Props.MirrorFail
import Verif.Props.Stability
import Verif.Props.ZonalQG

/-!
# Wave activity on a globe made from one hemisphere (C156)

`hemisphere_to_globe` (`/repo/src/falwa/xarrayinterface.py` lines 738-791) says that it gives identical fields of local wave activity on
both hemispheres. Here its result is the input of `QGFieldNH18` and `QGFieldNHN22`.
-/

noncomputable section

set_option linter.unusedSectionVars false
set_option linter.unusedSimpArgs false

namespace Falwa

open Real Finset

/-! ### Rows of the globe -/

namespace Xr

/-- Each variable of the globe: rows south of the equator, the equator, and the same rows in reverse order, negated for `v`. -/
def globeOf {α : Type*} (fl : α → α) (rows : List α) (n : ℕ) : Prop :=
  ∃ (L : List α) (x0 : α), rows = L ++ x0 :: L.reverse.map fl ∧ L.length + 1 = n

theorem globe_rows {α : Type*} [InvolutiveNeg α] {ds out : LatDs α} {user : Option (List (String × String))} (h : Hemispheric ds.lat)
    (hl : ∀ p ∈ ds.vars, p.2.length = ds.lat.length) (hr : hemisphereToGlobe ds user = .ok out) {nv : String}
    (hv : getName (ds.vars.map Prod.fst) "v" ["V"] user = .ok nv) {p : String × List α} (hp : p ∈ out.vars) :
    globeOf (fun x => if p.1 = nv then -x else x) p.2 ds.lat.length := by
  obtain ⟨hm, e, rest, hlat, he, hrest⟩ := h
  have hnd := nodup_of hm
  have hsplit : ds.lat = e :: rest ∨ (ds.lat = rest ++ [e] ∧ rest ≠ []) := by
    rcases hlat with hlat | hlat
    · exact Or.inl hlat
    · by_cases h0 : rest = []
      · left; rw [hlat, h0]; rfl
      · exact Or.inr ⟨hlat, h0⟩
  have hvn : ∀ n : String, ((getName (ds.vars.map Prod.fst) "v" ["V"] user = .ok n) ↔ n = nv) := fun n => by
    rw [hv]; exact ⟨fun h => (Except.ok.inj h).symm, fun h => by rw [h]⟩
  rcases hsplit with hlat | ⟨hlat, h0⟩
  · have h1 : ds.lat.head? = some e := by rw [hlat]; rfl
    obtain ⟨y1, h2⟩ : ∃ y1, ds.lat.getLast? = some y1 := by
      rw [hlat]; exact ⟨_, List.getLast?_eq_some_getLast (by simp)⟩
    have h3 : ds.lat.tail = rest := by rw [hlat]; rfl
    unfold hemisphereToGlobe at hr
    simp only [h1, h2] at hr
    rw [if_neg (by rw [not_not]; exact Or.inl he), if_neg (by rw [not_not]; exact hnd)] at hr
    simp only [if_pos he, h3] at hr
    rw [← Except.ok.inj hr] at hp
    obtain ⟨q, hq, rfl⟩ := List.mem_map.1 hp
    have hlen := hl q hq
    simp only [hvn]
    obtain ⟨P, hP1, hP2⟩ : ∃ P : List (ℝ × α), P.map Prod.fst = ds.lat ∧ P.map Prod.snd = q.2 :=
      ⟨ds.lat.zip q.2, by rw [List.map_fst_zip]; omega, by rw [List.map_snd_zip]; omega⟩
    cases P with
    | nil => rw [hlat] at hP1; cases hP1
    | cons c T =>
      have hq : c.1 = e ∧ T.map Prod.fst = rest := by
        rw [hlat, List.map_cons] at hP1
        injection hP1 with a b
        exact ⟨a, b⟩
      have hrev : rest.reverse = T.reverse.map Prod.fst := by rw [← hq.2, List.map_reverse]
      have := reindex_sub (P := c :: T) (Q := T.reverse) (by rw [hP1]; exact hnd) (by intro p hp; simp at hp ⊢; exact Or.inr hp)
      rw [hP1, hP2, ← hrev] at this
      rw [this]
      refine ⟨(T.reverse.map Prod.snd).map (fun x => if q.1 = nv then -x else x), c.2, ?_, ?_⟩
      · rw [← hP2]
        by_cases hn : q.1 = nv <;> simp [hn, Function.comp_def]
      · rw [← hP1]; simp
  · obtain ⟨y0, r', hr0⟩ : ∃ y0 r', rest = y0 :: r' := List.exists_cons_of_ne_nil h0
    have h1 : ds.lat.head? = some y0 := by rw [hlat, hr0]; rfl
    have h2 : ds.lat.getLast? = some e := by rw [hlat]; simp
    have h3 : ds.lat.dropLast = rest := by rw [hlat]; simp
    have hy0 : ¬ IsEquator y0 := hrest y0 (by rw [hr0]; simp)
    unfold hemisphereToGlobe at hr
    simp only [h1, h2] at hr
    rw [if_neg (by rw [not_not]; exact Or.inr he), if_neg (by rw [not_not]; exact hnd)] at hr
    simp only [if_neg hy0, h3] at hr
    rw [← Except.ok.inj hr] at hp
    obtain ⟨q, hq, rfl⟩ := List.mem_map.1 hp
    have hlen := hl q hq
    simp only [hvn]
    obtain ⟨P, hP1, hP2⟩ : ∃ P : List (ℝ × α), P.map Prod.fst = ds.lat ∧ P.map Prod.snd = q.2 :=
      ⟨ds.lat.zip q.2, by rw [List.map_fst_zip]; omega, by rw [List.map_snd_zip]; omega⟩
    rcases List.eq_nil_or_concat P with hnil | ⟨T, c, hT⟩
    · rw [hnil, hlat] at hP1; simp at hP1
    · rw [List.concat_eq_append] at hT
      subst hT
      have hq : T.map Prod.fst = rest ∧ c.1 = e := by
        rw [hlat, List.map_append] at hP1
        have := List.append_inj' hP1 rfl
        exact ⟨this.1, by simpa using this.2⟩
      have hrev : rest.reverse = T.reverse.map Prod.fst := by rw [← hq.1, List.map_reverse]
      have := reindex_sub (P := T ++ [c]) (Q := T.reverse) (by rw [hP1]; exact hnd) (by intro p hp; simp at hp ⊢; exact Or.inl hp)
      rw [hP1, hP2, ← hrev] at this
      rw [this]
      refine ⟨T.map Prod.snd, c.2, ?_, ?_⟩
      · rw [← hP2]
        by_cases hn : q.1 = nv <;> simp [hn, Function.comp_def]
      · rw [← hP1]; simp

/-- The row on the other side of the equator. -/
theorem globeOf.row {α : Type*} {fl : α → α} (hfl : ∀ x, fl (fl x) = x) {rows : List α} {n : ℕ} (h : globeOf fl rows n) {m : ℕ}
    (hm : m < 2 * n - 1) (hne : m ≠ n - 1) : rows[2 * n - 2 - m]? = (rows[m]?).map fl := by
  obtain ⟨L, x0, rfl, hn⟩ := h
  have low : ∀ m, m < L.length → (L ++ x0 :: L.reverse.map fl)[2 * n - 2 - m]? = ((L ++ x0 :: L.reverse.map fl)[m]?).map fl := by
    intro m hm
    rw [List.getElem?_append_left hm, List.getElem?_append_right (by omega),
      show 2 * n - 2 - m - L.length = (L.length - 1 - m) + 1 by omega, List.getElem?_cons_succ, List.getElem?_map,
      List.getElem?_reverse (by omega), show L.length - 1 - (L.length - 1 - m) = m by omega]
  by_cases h1 : m < L.length
  · exact low m h1
  · have := low (2 * n - 2 - m) (by omega)
    rw [show 2 * n - 2 - (2 * n - 2 - m) = m by omega] at this
    rw [this, Option.map_map, show fl ∘ fl = id from funext hfl, Option.map_id]
    rfl

theorem globeOf.length {α : Type*} {fl : α → α} {rows : List α} {n : ℕ} (h : globeOf fl rows n) : rows.length = 2 * n - 1 := by
  obtain ⟨L, x0, rfl, hn⟩ := h
  simp; omega

open Classical in
/-- The globe of a northern hemisphere. -/
theorem globe_north {α : Type*} [Neg α] {e : ℝ} {rest : List ℝ} {vars : List (String × List α)} (user : Option (List (String × String)))
    (hn : (e :: rest).Nodup) (he : IsEquator e) (hl : ∀ p ∈ vars, p.2.length = rest.length + 1) :
    ∃ out : LatDs α, hemisphereToGlobe ⟨e :: rest, vars⟩ user = .ok out ∧ out.lat.length = 2 * rest.length + 1 ∧
      ∀ n rows, (n, rows) ∈ vars →
        (n, (rows.tail.reverse.map fun x => if getName (vars.map Prod.fst) "v" ["V"] user = .ok n then -x else x) ++ rows) ∈ out.vars := by
  have h2 : ∃ y1, (e :: rest).getLast? = some y1 := ⟨_, List.getLast?_eq_some_getLast (by simp)⟩
  obtain ⟨y1, h2⟩ := h2
  refine ⟨{ lat := rest.reverse.map (- ·) ++ e :: rest
            vars := vars.map fun p => (p.1, (if getName (vars.map Prod.fst) "v" ["V"] user = .ok p.1 then
              (reindexRows (e :: rest) p.2 rest.reverse).map (- ·) else reindexRows (e :: rest) p.2 rest.reverse) ++ p.2) }, ?_, ?_⟩
  · unfold hemisphereToGlobe
    simp only [List.head?_cons, h2]
    rw [if_neg (by rw [not_not]; exact Or.inl he), if_neg (by rw [not_not]; exact hn)]
    simp only [if_pos he, List.tail_cons]
  · refine ⟨?_, ?_⟩
    · simp; omega
    · intro n rows hp
      refine List.mem_map.2 ⟨(n, rows), hp, ?_⟩
      have hlen := hl _ hp
      dsimp only
      congr 2
      obtain ⟨x, xs, rfl⟩ : ∃ x xs, rows = x :: xs := by
        cases rows with
        | nil => simp at hlen
        | cons x xs => exact ⟨x, xs, rfl⟩
      have hxs : xs.length = rest.length := by simpa using hlen
      have e1 : (rest.zip xs).map Prod.fst = rest := List.map_fst_zip (by omega)
      have e2 : (rest.zip xs).map Prod.snd = xs := List.map_snd_zip (by omega)
      have hre : reindexRows (e :: rest) (x :: xs) rest.reverse = xs.reverse := by
        have := reindex_sub (P := (e, x) :: rest.zip xs) (Q := (rest.zip xs).reverse) (by
          rw [List.map_cons, e1]; exact hn) (by intro p hp; simp at hp ⊢; exact Or.inr hp)
        rw [List.map_cons, List.map_cons, e1, e2, List.map_reverse, List.map_reverse, e1, e2] at this
        exact this
      rw [hre]
      by_cases hv : getName (vars.map Prod.fst) "v" ["V"] user = .ok n
      · simp [hv]
      · simp [hv]

end Xr

/-! ### QGPV off one row -/

namespace QgpvIn

variable {I J : QgpvIn}

/-- Two inputs that differ in the zonal differences of `v` in row `m` only. -/
structure SameBut (I J : QgpvIn) (m : ℤ) : Prop where
  nlon : J.nlon = I.nlon
  nlat : J.nlat = I.nlat
  kmax : J.kmax = I.kmax
  u : J.u = I.u
  theta : J.theta = I.theta
  height : J.height = I.height
  a : J.a = I.a
  om : J.om = I.om
  h : J.h = I.h
  dv : ∀ i j k, j ≠ m → J.dv i j k = I.dv i j k

variable {m : ℤ} (h : SameBut I J m)
include h

theorem SameBut.phi : J.phi = I.phi := by funext j; unfold QgpvIn.phi; rw [h.nlat]

theorem SameBut.inner (i j k : ℤ) (hj : j ≠ m) : J.inner i j k = I.inner i j k := by
  unfold QgpvIn.inner QgpvIn.cor QgpvIn.dphi
  rw [h.phi, h.dv i j k hj, h.u, h.a, h.om, h.nlat]

theorem SameBut.avort (h2 : m ≠ 2) (h3 : m ≠ I.nlat - 1) (i j k : ℤ) (hj : j ≠ m) : J.avort i j k = I.avort i j k := by
  unfold QgpvIn.avort QgpvIn.zmean
  rw [h.nlat, h.nlon, h.inner i j k hj]
  simp only [h.inner _ (I.nlat - 1) k (Ne.symm h3), h.inner _ 2 k (Ne.symm h2)]

theorem SameBut.stretch (t0 stat : ℤ → ℝ) (c : ℝ) (i j k : ℤ) : J.stretch t0 stat c i j k = I.stretch t0 stat c i j k := by
  unfold QgpvIn.stretch QgpvIn.alt
  rw [h.theta, h.height, h.h]

theorem SameBut.pv18 (h2 : m ≠ 2) (h3 : m ≠ I.nlat - 1) (t0 stat : ℤ → ℝ) (i j k : ℤ) (hj : j ≠ m) :
    J.pv18 t0 stat i j k = I.pv18 t0 stat i j k := by
  have hz : J.zmean J.avort j k = I.zmean I.avort j k := by
    unfold QgpvIn.zmean
    rw [h.nlon]
    simp only [h.avort h2 h3 _ j k hj]
  unfold QgpvIn.pv18
  rw [h.kmax, h.avort h2 h3 i j k hj, h.stretch, hz]

theorem SameBut.pv22 (h2 : m ≠ 2) (h3 : m ≠ I.nlat - 1) (nd : ℤ) (ts tn ss sn : ℤ → ℝ) (i j k : ℤ) (hj : j ≠ m) :
    J.pv22 nd ts tn ss sn i j k = I.pv22 nd ts tn ss sn i j k := by
  have hc : J.cor j = I.cor j := by unfold QgpvIn.cor; rw [h.om, h.phi]
  unfold QgpvIn.pv22
  rw [h.kmax, h.avort h2 h3 i j k hj, h.stretch, h.stretch, hc]

end QgpvIn

/-- The area analysis sees the cells of the grid only. -/
theorem AreaIn.qref_congr (I : AreaIn) (q' : ℤ → ℤ → ℝ) (hi : 1 ≤ I.imax) (hj : 1 ≤ I.jmax)
    (h : ∀ i j, 1 ≤ i → i ≤ I.imax → 1 ≤ j → j ≤ I.jmax → q' i j = I.q i j) (j : ℤ) : (I.withField q').qref j = I.qref j := by
  have hmax : (I.withField q').qmax = I.qmax := by
    show maxval I.imax I.jmax q' = maxval I.imax I.jmax I.q
    unfold maxval
    rw [h 1 1 le_rfl hi le_rfl hj]
    exact doLoop_congr _ fun j t j1 j2 => doLoop_congr _ fun i t i1 i2 => by rw [h i j i1 i2 j1 j2]
  have hmin : (I.withField q').qmin = I.qmin := by
    show minval I.imax I.jmax q' = minval I.imax I.jmax I.q
    unfold minval
    rw [h 1 1 le_rfl hi le_rfl hj]
    exact doLoop_congr _ fun j t j1 j2 => doLoop_congr _ fun i t i1 i2 => by rw [h i j i1 i2 j1 j2]
  have hdq : (I.withField q').dq = I.dq := by unfold dq; rw [hmax, hmin]; rfl
  have hbins : (I.withField q').bins = I.bins := by
    unfold bins
    refine doLoop_congr _ fun j t j1 j2 => doLoop_congr _ fun i t i1 i2 => ?_
    have e : (I.withField q').q i j = I.q i j := h i j i1 i2 j1 j2
    have hind : (I.withField q').ind i j = I.ind i j := by unfold ind; rw [hmax, hdq, e]
    unfold binStep
    rw [hind, e]
    rfl
  have haan : (I.withField q').aan = I.aan := by unfold aan; rw [hbins]; rfl
  have hccn : (I.withField q').ccn = I.ccn := by unfold ccn; rw [hbins]; rfl
  have hqn : (I.withField q').qn = I.qn := by funext n; unfold qn; rw [hmax, hdq]
  have hp : (I.withField q').placed j = I.placed j := by
    unfold placed
    rw [haan, hccn, hqn]
    rfl
  unfold qref
  rw [hmax, hp]
  rfl

/-- Off the pole row the reference value is below the largest one, if that is positive. -/
theorem AreaIn.qref_lt_qmax {I : AreaIn} (h : I.Valid) {j : ℤ} (j1 : 1 ≤ j) (j2 : j < I.nd) (hpos : 0 < I.qmax) : I.qref j < I.qmax := by
  by_cases hs : (I.placed j).isSome = true
  · obtain ⟨n, n1, n2, n3, n4⟩ := qref_of_placed h (by omega) hs
    have hd : 0 < I.dq := h.dq_pos
    have hal : 0 < I.alat j := by
      have hnd : (1 : ℝ) < I.nd := by exact_mod_cast (by omega : 1 < I.nd)
      have hx : I.dphi * ((j - 1 : ℤ) : ℝ) < π / 2 := by
        rw [h.dphiEq, h.odd]
        push_cast
        have : (j : ℝ) - 1 < I.nd - 1 := by
          have : (j : ℝ) < I.nd := by exact_mod_cast j2
          linarith
        rw [show 2 * (I.nd : ℝ) - 1 - 1 = 2 * (I.nd - 1) by ring, div_mul_eq_mul_div, div_lt_iff₀ (by linarith)]
        nlinarith [pi_pos]
      have hx0 : 0 ≤ I.dphi * ((j - 1 : ℤ) : ℝ) := by
        rw [h.dphiEq]
        have h1 : (0 : ℝ) ≤ ((j - 1 : ℤ) : ℝ) := by exact_mod_cast (by omega : (0 : ℤ) ≤ j - 1)
        have h2 : (0 : ℝ) ≤ ((I.jmax - 1 : ℤ) : ℝ) := by exact_mod_cast (by have := h.jmax1; omega : (0 : ℤ) ≤ I.jmax - 1)
        exact mul_nonneg (div_nonneg pi_pos.le h2) h1
      have hsin : sin (I.dphi * ((j - 1 : ℤ) : ℝ)) < 1 := by
        rw [← sin_pi_div_two]
        exact sin_lt_sin_of_lt_of_le_pi_div_two (by linarith [pi_pos]) le_rfl hx
      unfold alat
      have := h.a0
      have := pi_pos
      have : 0 < 1 - sin (I.dphi * ((j - 1 : ℤ) : ℝ)) := by linarith
      positivity
    rw [n4]
    unfold value
    show I.qn n * (1 - (I.alat j - I.aan n) / (I.aan (n + 1) - I.aan n)) +
      I.qn (n + 1) * ((I.alat j - I.aan n) / (I.aan (n + 1) - I.aan n)) < I.qmax
    have hgap : 0 < I.aan (n + 1) - I.aan n := by have := n3.1; have := n3.2; linarith
    have hdd : 0 ≤ (I.alat j - I.aan n) / (I.aan (n + 1) - I.aan n) := div_nonneg (by linarith [n3.1]) hgap.le
    unfold qn
    push_cast
    rcases eq_or_lt_of_le n1 with e | e
    · have hpos : 0 < (I.alat j - I.aan n) / (I.aan (n + 1) - I.aan n) := by
        refine div_pos ?_ hgap
        rw [← e, h.aan_one]; linarith
      rw [← e] at hpos ⊢
      push_cast
      nlinarith
    · have : (2 : ℝ) ≤ n := by exact_mod_cast e
      nlinarith
  · have : I.placed j = none := by simpa using hs
    unfold qref
    rw [if_neg (by omega), this]
    exact hpos

namespace Atmos

/-- Input field made of the rows of a variable: longitude, row, level; zero outside. -/
def rowAt (rows : List (ℤ → ℤ → ℝ)) (i j l : ℤ) : ℝ :=
  if 1 ≤ j then (rows[(j - 1).toNat]?).elim 0 (fun r => r i l) else 0

/-- The input of the analysis is the globe that `hemisphere_to_globe` makes from the dataset `ds`. The number of latitudes is odd, so the
analysis is on the latitudes of the input. Vertical interpolation commutes with a change of sign. -/
structure OnGlobe (A : Atmos) (ds : Xr.LatDs (ℤ → ℤ → ℝ)) (user : Option (List (String × String))) : Prop where
  hemi : Xr.Hemispheric ds.lat
  asc : ds.lat.Pairwise (· < ·)
  len : ∀ p ∈ ds.vars, p.2.length = ds.lat.length
  data : ∃ out nv u v t, Xr.hemisphereToGlobe ds user = .ok out ∧ Xr.getName (ds.vars.map Prod.fst) "v" ["V"] user = .ok nv ∧
    (u.1 ≠ nv ∧ u ∈ out.vars ∧ A.uField = rowAt u.2) ∧ (v.1 = nv ∧ v ∈ out.vars ∧ A.vField = rowAt v.2) ∧
    (t.1 ≠ nv ∧ t ∈ out.vars ∧ A.tField = rowAt t.2) ∧ A.nlatIn = out.lat.length
  own : A.nlat = A.nlatIn
  latOwn : ∀ f g, A.latInterp f g = f g
  vertNeg : ∀ f k, A.vertInterp (fun l => -f l) k = -A.vertInterp f k
  nlon2 : 2 ≤ A.nlon
  global : A.nhOnly = false

theorem rowAt_flip {rows : List (ℤ → ℤ → ℝ)} {n : ℕ} {b : Prop} [Decidable b]
    (h : Xr.globeOf (fun x : ℤ → ℤ → ℝ => if b then -x else x) rows n) (i j l : ℤ) (hj : j ≠ n ∨ ¬ b) :
    rowAt rows i (2 * n - 1 + 1 - j) l = if b then -rowAt rows i j l else rowAt rows i j l := by
  have hn1 : 1 ≤ n := by obtain ⟨L, x0, _, hn⟩ := h; omega
  have hlen := h.length
  unfold rowAt
  by_cases hin : 1 ≤ j ∧ j ≤ 2 * n - 1
  · rw [if_pos (by omega), if_pos hin.1]
    by_cases hmid : j = n
    · have hb : ¬ b := by rcases hj with hj | hj; exacts [absurd hmid hj, hj]
      rw [if_neg hb, show (2 * (n : ℤ) - 1 + 1 - j - 1) = j - 1 by omega]
    · have e := h.row (fun x => by by_cases hb : b <;> simp [hb]) (m := (j - 1).toNat) (by omega) (by omega)
      rw [show 2 * n - 2 - (j - 1).toNat = (2 * (n : ℤ) - 1 + 1 - j - 1).toNat by omega] at e
      rw [e]
      cases rows[(j - 1).toNat]? with
      | none => by_cases hb : b <;> simp [hb]
      | some r => by_cases hb : b <;> simp [hb]
  · by_cases h1 : 1 ≤ j
    · rw [if_neg (by omega), if_pos h1, List.getElem?_eq_none (by omega)]
      by_cases hb : b <;> simp [hb]
    · rw [if_pos (by omega), if_neg h1, List.getElem?_eq_none (by omega)]
      by_cases hb : b <;> simp [hb]

variable {A : Atmos} {ds : Xr.LatDs (ℤ → ℤ → ℝ)} {user : Option (List (String × String))}

/-- What the globe is like: `u` and temperature are symmetric, `v` is antisymmetric except on the equator. -/
theorem OnGlobe.sym (h : A.OnGlobe ds user) (hr : A.Regular) : A.nd = ds.lat.length ∧ (∀ i j l,
    A.uField i (A.nlatIn + 1 - j) l = A.uField i j l ∧ A.tField i (A.nlatIn + 1 - j) l = A.tField i j l ∧
    (j ≠ A.nd → A.vField i (A.nlatIn + 1 - j) l = -A.vField i j l)) := by
  obtain ⟨out, nv, u, v, t, run, hnv, ⟨u1, u2, u3⟩, ⟨v1, v2, v3⟩, ⟨t1, t2, t3⟩, hn⟩ := h.data
  obtain ⟨out', run', hl, _⟩ := Xr.C64_mirror user h.hemi h.len
  rw [run] at run'
  rw [← Except.ok.inj run'] at hl
  have hU := Xr.globe_rows h.hemi h.len run hnv u2
  have hV := Xr.globe_rows h.hemi h.len run hnv v2
  have hT := Xr.globe_rows h.hemi h.len run hnv t2
  have hn1 : 1 ≤ ds.lat.length := by obtain ⟨L, x0, _, hn⟩ := hU; omega
  have e : A.nlatIn = 2 * (ds.lat.length : ℤ) - 1 := by omega
  have hnd : A.nd = ds.lat.length := by have := h.own; have := hr.odd; omega
  refine ⟨hnd, fun i j l => ⟨?_, ?_, fun hj => ?_⟩⟩
  · rw [u3, e, rowAt_flip hU i j l (Or.inr u1), if_neg u1]
  · rw [t3, e, rowAt_flip hT i j l (Or.inr t1), if_neg t1]
  · rw [v3, e, rowAt_flip hV i j l (Or.inl (by rw [← hnd]; exact hj)), if_pos v1]

theorem OnGlobe.mirrorOk (h : A.OnGlobe ds user) (hr : A.Regular) : A.MirrorOk where
  nlon2 := h.nlon2
  odd := hr.odd
  jb0 := hr.jb0
  jbnd := by have := hr.jd3; unfold jd at this; omega
  a0 := hr.a0.le
  global := h.global
  lat := fun f g => by rw [h.latOwn, h.latOwn, h.own]
  latNeg := fun f g => by rw [h.latOwn, h.latOwn]
  vertNeg := h.vertNeg

/-- The mirror image of the globe is the globe, but for `v` on the equator. -/
theorem OnGlobe.same (h : A.OnGlobe ds user) (hr : A.Regular) :
    QgpvIn.SameBut A.qgpvIn A.mirror.qgpvIn A.nd ∧ A.mirror.ts0 = A.ts0 ∧ A.mirror.tn0 = A.tn0 ∧
    A.mirror.statS = A.statS ∧ A.mirror.statN = A.statN := by
  obtain ⟨_, hs⟩ := h.sym hr
  have eu : A.mirror.uField = A.uField := by funext i j l; exact (hs i j l).1
  have et : A.mirror.tField = A.tField := by funext i j l; exact (hs i j l).2.1
  have ht0 : A.mirror.theta0 = A.theta0 := by
    funext i g l
    show A.latInterp (fun j => A.mirror.tField i j l * _) g = _
    rw [et]; rfl
  have hrm : A.mirror.rowMean = A.rowMean := by funext l g; unfold rowMean; rw [ht0]; rfl
  have hS : A.mirror.meanS = A.meanS := by funext l; unfold meanS; rw [hrm]; rfl
  have hN : A.mirror.meanN = A.meanN := by funext l; unfold meanN; rw [hrm]; rfl
  refine ⟨⟨rfl, rfl, rfl, ?_, ?_, rfl, rfl, rfl, rfl, ?_⟩, ?_, ?_, ?_, ?_⟩
  · show A.mirror.u = A.u
    funext i g k
    unfold u u0
    rw [eu]; rfl
  · show A.mirror.theta = A.theta
    funext i g k
    unfold theta
    rw [ht0]; rfl
  · intro i j k hj
    have hv : ∀ i, A.mirror.v i j k = A.v i j k := by
      intro i
      show A.vertInterp (fun l => A.latInterp (fun j => -A.vField i (A.nlatIn + 1 - j) l) j) k = A.vertInterp (fun l => A.latInterp (fun j => A.vField i j l) j) k
      congr 1
      funext l
      rw [h.latOwn, h.latOwn, (hs i j l).2.2 hj, neg_neg]
    unfold QgpvIn.dv
    show (if i = A.nlon then A.mirror.v 1 j k - A.mirror.v (A.nlon - 1) j k else
      if i = 1 then A.mirror.v 2 j k - A.mirror.v A.nlon j k else A.mirror.v (i + 1) j k - A.mirror.v (i - 1) j k) = _
    simp only [hv]
    rfl
  · unfold ts0; rw [hS]; rfl
  · unfold tn0; rw [hN]; rfl
  · unfold statS; rw [hS]; rfl
  · unfold statN; rw [hN]; rfl

/-- C156, QGPV: antisymmetric off the equator, in both classes. -/
theorem C156_qgpv (h : A.OnGlobe ds user) (hr : A.Regular) (c : Scheme) (i g k : ℤ) (hg : g ≠ A.nd) :
    A.qgpv c i (A.nlat + 1 - g) k = -A.qgpv c i g k := by
  obtain ⟨hs, e1, e2, e3, e4⟩ := h.same hr
  have hn := hr.nd3
  have ho := hr.odd
  have key : A.mirror.qgpv c i g k = A.qgpv c i g k := by
    cases c
    · show A.mirror.qgpvIn.pv18 A.mirror.t0 A.mirror.stat i g k = _
      rw [mirror_t0 (h.mirrorOk hr), mirror_stat (h.mirrorOk hr)]
      exact hs.pv18 (by omega) (by show A.nd ≠ A.nlat - 1; omega) _ _ i g k hg
    · show A.mirror.qgpvIn.pv22 A.nd A.mirror.ts0 A.mirror.tn0 A.mirror.statS A.mirror.statN i g k = _
      rw [e1, e2, e3, e4]
      exact hs.pv22 (by omega) (by show A.nd ≠ A.nlat - 1; omega) _ _ _ _ _ i g k hg
  have := (C48_qgpv (h.mirrorOk hr) c i g k).2
  rw [key] at this
  rw [this, neg_neg]

/-- C156, QGPV on the equator: the zonal gradient of `v`, which has the same sign for both hemispheres. -/
theorem C156_equator (h : A.OnGlobe ds user) (hr : A.Regular) (c : Scheme) {i k : ℤ} (hi : 1 ≤ i ∧ i ≤ A.nlon)
    (hk : 2 ≤ k ∧ k ≤ A.kmax - 1) :
    A.qgpv c i A.nd k = (A.v (rot A.nlon 1 i) A.nd k - A.v (rot A.nlon (-1) i) A.nd k) / (2 * A.a * A.dphi) := by
  have hn := hr.nd3
  have ho := hr.odd
  obtain ⟨hnd, hs⟩ := h.sym hr
  have hone : ((A.nlat - 1 : ℤ) : ℝ) = 2 * ((A.nd : ℝ) - 1) := by rw [ho]; push_cast; ring
  have hnd1 : (0 : ℝ) < (A.nd : ℝ) - 1 := by
    have : (3 : ℝ) ≤ A.nd := by exact_mod_cast hn
    linarith
  have hphi : ∀ d : ℤ, A.qgpvIn.phi (A.nd + d) = π * d / (2 * ((A.nd : ℝ) - 1)) := by
    intro d
    unfold QgpvIn.phi
    show -(0.5 * π) + π * ((A.nd + d - 1 : ℤ) : ℝ) / ((A.nlat - 1 : ℤ) : ℝ) = _
    rw [hone]
    push_cast
    field_simp
    ring
  have h0 : A.qgpvIn.phi A.nd = 0 := by
    have := hphi 0
    rw [add_zero] at this
    rw [this]; simp
  have hu : ∀ i, A.u i (A.nd + 1) k = A.u i (A.nd - 1) k := by
    intro i
    unfold u u0
    congr 1
    funext l
    rw [h.latOwn, h.latOwn, ← (hs i (A.nd - 1) l).1]
    congr 1
    have := h.own
    omega
  have hin : ∀ i, A.qgpvIn.inner i A.nd k = A.qgpvIn.dv i A.nd k / (2 * A.a * A.dphi) := by
    intro i
    unfold QgpvIn.inner QgpvIn.cor
    have e1 := hphi 1
    have e2 := hphi (-1)
    rw [← sub_eq_add_neg A.nd 1] at e2
    rw [h0, sin_zero, cos_zero, e1, e2]
    show 2 * A.om * 0 + A.qgpvIn.dv i A.nd k / (2 * A.a * 1 * A.dphi) +
      -(A.u i (A.nd + 1) k * cos _ - A.u i (A.nd - 1) k * cos _) / (2 * A.a * 1 * A.dphi) = _
    rw [hu, show π * ((-1 : ℤ) : ℝ) / (2 * ((A.nd : ℝ) - 1)) = -(π * ((1 : ℤ) : ℝ) / (2 * ((A.nd : ℝ) - 1))) by push_cast; ring, cos_neg]
    simp
  have hav : ∀ i, A.avort i A.nd k = A.qgpvIn.dv i A.nd k / (2 * A.a * A.dphi) := by
    intro i
    show A.qgpvIn.avort i A.nd k = _
    unfold QgpvIn.avort
    rw [if_neg (by show A.nd ≠ A.nlat; omega), if_neg (by omega), hin]
  have hdv : ∀ i, 1 ≤ i → i ≤ A.nlon → A.qgpvIn.dv i A.nd k = A.v (rot A.nlon 1 i) A.nd k - A.v (rot A.nlon (-1) i) A.nd k :=
    fun i i1 i2 => A.qgpvIn.dv_eq h.nlon2 i1 i2 A.nd k
  have hcor : A.qgpvIn.cor A.nd = 0 := by unfold QgpvIn.cor; rw [h0, sin_zero, mul_zero]
  have hz : A.qgpvIn.zmean A.qgpvIn.avort A.nd k = 0 := by
    unfold QgpvIn.zmean
    rw [dosum_eq]
    show ∑ i ∈ Icc 1 A.nlon, A.avort i A.nd k / (A.nlon : ℝ) = 0
    have : ∀ i ∈ Icc 1 A.nlon, A.avort i A.nd k / (A.nlon : ℝ) =
        A.v (rot A.nlon 1 i) A.nd k / (2 * A.a * A.dphi) / A.nlon - A.v (rot A.nlon (-1) i) A.nd k / (2 * A.a * A.dphi) / A.nlon := by
      intro i hi
      rw [mem_Icc] at hi
      rw [hav, hdv i hi.1 hi.2]
      ring
    rw [sum_congr rfl this, sum_sub_distrib, sum_rot 1 (fun i => A.v i A.nd k / (2 * A.a * A.dphi) / A.nlon),
      sum_rot (-1) (fun i => A.v i A.nd k / (2 * A.a * A.dphi) / A.nlon), sub_self]
  have hst : ∀ t0 st, A.qgpvIn.stretch t0 st 0 i A.nd k = 0 := by intro t0 st; unfold QgpvIn.stretch; simp
  rw [← hdv i hi.1 hi.2, ← hav i]
  cases c
  · show A.qgpvIn.pv18 A.t0 A.stat i A.nd k = _
    unfold QgpvIn.pv18
    rw [if_pos (show 2 ≤ k ∧ k ≤ A.qgpvIn.kmax - 1 from hk), hz, hst, add_zero]
    rfl
  · show A.qgpvIn.pv22 A.nd A.ts0 A.tn0 A.statS A.statN i A.nd k = _
    unfold QgpvIn.pv22
    rw [if_pos (show 2 ≤ k ∧ k ≤ A.qgpvIn.kmax - 1 from hk), hcor, hst, hst, ite_self, add_zero]
    rfl

/-! ### Wave activity -/

/-- Wave activity as a sum of positive parts. -/
theorem north_posParts (H : Finset ℤ) (q : ℤ → ℝ) (Q : ℝ) (w : ℤ → ℝ) (g : ℤ) :
    Spec.waveActivityNorth H q Q w g = ∑ r ∈ H, (if g ≤ r then max (Q - q r) 0 else max (q r - Q) 0) * w r := by
  unfold Spec.waveActivityNorth
  rw [sum_filter]
  refine sum_congr rfl fun r _ => ?_
  by_cases hgr : g ≤ r
  · rw [if_pos hgr]
    by_cases hq : q r < Q
    · rw [if_pos (show Spec.DisplacedNorth q Q g r from Or.inl ⟨hgr, hq⟩), abs_of_neg (by linarith), max_eq_left (by linarith)]; ring
    · rw [if_neg, max_eq_right (by linarith), zero_mul]
      rintro (⟨_, h⟩ | ⟨h, _⟩)
      · exact hq h
      · omega
  · rw [if_neg hgr]
    by_cases hq : Q < q r
    · rw [if_pos (show Spec.DisplacedNorth q Q g r from Or.inr ⟨by omega, hq⟩), abs_of_pos (by linarith), max_eq_left (by linarith)]
    · rw [if_neg, max_eq_right (by linarith), zero_mul]
      rintro (⟨h, _⟩ | ⟨_, h⟩)
      · exact hgr h
      · exact hq h

/-- The southern definition is the northern one for the mirror image with the sign changed. -/
theorem south_as_north {n nd : ℤ} (ho : n = 2 * nd - 1) (q : ℤ → ℝ) (Q : ℝ) (w : ℤ → ℝ) (hw : ∀ r, w (n + 1 - r) = w r) (g : ℤ) :
    Spec.waveActivitySouth (Icc 1 nd) q Q w (n + 1 - g) =
      Spec.waveActivityNorth (Icc nd n) (fun r => -q (n + 1 - r)) (-Q) w g := by
  unfold Spec.waveActivitySouth Spec.waveActivityNorth
  rw [sum_filter, sum_filter]
  refine sum_nbij' (fun r => n + 1 - r) (fun r => n + 1 - r) ?_ ?_ ?_ ?_ ?_ <;> intro r hr <;> simp only [mem_Icc] at *
  · omega
  · omega
  · omega
  · omega
  · rw [show n + 1 - (n + 1 - r) = r by ring, hw]
    have hiff : Spec.DisplacedSouth q Q (n + 1 - g) r ↔ Spec.DisplacedNorth (fun r => -q (n + 1 - r)) (-Q) g (n + 1 - r) := by
      unfold Spec.DisplacedSouth Spec.DisplacedNorth
      dsimp only
      rw [show n + 1 - (n + 1 - r) = r by ring, neg_lt_neg_iff, neg_lt_neg_iff]
      constructor
      · rintro (⟨a, b⟩ | ⟨a, b⟩)
        · exact Or.inl ⟨by omega, b⟩
        · exact Or.inr ⟨by omega, b⟩
      · rintro (⟨a, b⟩ | ⟨a, b⟩)
        · exact Or.inl ⟨by omega, b⟩
        · exact Or.inr ⟨by omega, b⟩
    by_cases hd : Spec.DisplacedSouth q Q (n + 1 - g) r
    · rw [if_pos hd, if_pos (hiff.1 hd), show -q r - -Q = -(q r - Q) by ring, abs_neg]
    · rw [if_neg hd, if_neg (fun h => hd (hiff.2 h))]

/-- Area weight of a row. -/
def weight (A : Atmos) (r : ℤ) : ℝ := A.a * cos (A.lat r) * A.dphi

/-- Both rows of a pair as northern wave activity: they differ in the sign of the QGPV on the equator, and in the reference value. -/
theorem OnGlobe.pair (h : A.OnGlobe ds user) (hr : A.Regular) (c : Scheme) {i g k : ℤ} (hi : 1 ≤ i ∧ i ≤ A.nlon)
    (hk : 2 ≤ k ∧ k ≤ A.kmax - 1) (g1 : A.nd < g) (g2 : A.nd + A.jb ≤ g) (g3 : g < A.nlat) :
    (A.analysis c).lwa i g k = ∑ r ∈ Icc A.nd A.nlat, (if g ≤ r then max (A.qref c g k - A.qgpv c i r k) 0
      else max (A.qgpv c i r k - A.qref c g k) 0) * A.weight r ∧
    (A.analysis c).lwa i (A.nlat + 1 - g) k = ∑ r ∈ Icc A.nd A.nlat, (if g ≤ r then max (-A.qref c (A.nlat + 1 - g) k - A.qgpv c i r k) 0
      else max ((if r = A.nd then -1 else 1) * A.qgpv c i r k - -A.qref c (A.nlat + 1 - g) k) 0) * A.weight r := by
  have hm := h.mirrorOk hr
  have ho := hr.odd
  have hv := analysis_valid hm c
  have hrow : (A.analysis c).outRow g = g := outRow_eq hm g
  constructor
  · have := QGAnalysis.C42_north hv i g k hi hk (by rw [hrow]; exact ⟨g2, g3⟩) (Or.inr g1)
    rw [this, north_posParts, hrow]
    rfl
  · have := QGAnalysis.C42_south hv h.global i (A.nlat + 1 - g) k hi hk ⟨by omega, by show A.nlat + 1 - g ≤ A.nd - A.jb; omega⟩
    rw [this]
    have e := south_as_north ho (fun r => A.qgpv c i r k) (A.qref c (A.nlat + 1 - g) k) A.weight (fun r => by
      unfold weight; rw [lat_flip hm, cos_neg]) g
    refine e.trans ?_
    rw [north_posParts]
    refine sum_congr rfl fun r hr' => ?_
    congr 1
    by_cases hgr : g ≤ r
    · rw [if_pos hgr, if_pos hgr, C156_qgpv h hr c i r k (by omega), neg_neg]
    · rw [if_neg hgr, if_neg hgr]
      by_cases hrn : r = A.nd
      · rw [if_pos hrn, hrn, show A.nlat + 1 - A.nd = A.nd by omega]
        congr 1
        ring
      · rw [if_neg hrn, C156_qgpv h hr c i r k hrn, neg_neg, one_mul]

theorem weight_nonneg (hr : A.Regular) {r : ℤ} (r1 : A.nd ≤ r) (r2 : r ≤ A.nlat) : 0 ≤ A.weight r := by
  have ho := hr.odd
  have hn := hr.nd3
  have hd : (0 : ℝ) < ((A.nlat - 1 : ℤ) : ℝ) := by exact_mod_cast (by omega : 0 < A.nlat - 1)
  have hp := pi_pos
  have hdp : 0 < A.dphi := div_pos hp hd
  have hc : 0 ≤ cos (A.lat r) := by
    have l0 : 0 ≤ A.lat r := mul_nonneg hdp.le (by exact_mod_cast (by omega : 0 ≤ r - A.nd))
    refine cos_nonneg_of_neg_pi_div_two_le_of_le (by linarith) ?_
    unfold lat dphi
    have : ((r - A.nd : ℤ) : ℝ) * 2 ≤ ((A.nlat - 1 : ℤ) : ℝ) := by exact_mod_cast (by omega : (r - A.nd) * 2 ≤ A.nlat - 1)
    rw [div_mul_eq_mul_div, div_le_iff₀ hd]
    nlinarith
  exact mul_nonneg (mul_nonneg hr.a0.le hc) hdp.le

theorem weight_equator : A.weight A.nd = A.a * A.dphi := by
  unfold weight lat
  simp

/-- C156, what holds always: the wave activities of the two rows of a pair differ by at most twice the QGPV on the equator times its row's
area weight, and by the failure of the reference QGPV to change sign. Missing for C156: equality. -/
theorem C156_bound_partial (h : A.OnGlobe ds user) (hr : A.Regular) (c : Scheme) {i g k : ℤ} (hi : 1 ≤ i ∧ i ≤ A.nlon)
    (hk : 2 ≤ k ∧ k ≤ A.kmax - 1) (g1 : A.nd < g) (g2 : A.nd + A.jb ≤ g) (g3 : g < A.nlat) :
    |(A.analysis c).lwa i g k - (A.analysis c).lwa i (A.nlat + 1 - g) k| ≤
      2 * |A.qgpv c i A.nd k| * (A.a * A.dphi) +
        |A.qref c g k + A.qref c (A.nlat + 1 - g) k| * ∑ r ∈ Icc A.nd A.nlat, A.a * cos (A.lat r) * A.dphi := by
  obtain ⟨e1, e2⟩ := h.pair hr c hi hk g1 g2 g3
  have ho := hr.odd
  have hn := hr.nd3
  rw [e1, e2, ← sum_sub_distrib]
  set Q := A.qref c g k
  set Q' := A.qref c (A.nlat + 1 - g) k
  have hmem : A.nd ∈ Icc A.nd A.nlat := by rw [mem_Icc]; omega
  have hsplit : 2 * |A.qgpv c i A.nd k| * (A.a * A.dphi) + |Q + Q'| * ∑ r ∈ Icc A.nd A.nlat, A.a * cos (A.lat r) * A.dphi =
      ∑ r ∈ Icc A.nd A.nlat, ((if r = A.nd then 2 * |A.qgpv c i A.nd k| else 0) + |Q + Q'|) * A.weight r := by
    simp only [add_mul, sum_add_distrib, ite_mul, zero_mul]
    rw [sum_ite_eq' (Icc A.nd A.nlat) A.nd, if_pos hmem, ← mul_sum, weight_equator]
    rfl
  rw [hsplit]
  refine (abs_sum_le_sum_abs _ _).trans (sum_le_sum fun r hr' => ?_)
  rw [mem_Icc] at hr'
  rw [← sub_mul, abs_mul, abs_of_nonneg (weight_nonneg hr hr'.1 hr'.2)]
  refine mul_le_mul_of_nonneg_right ?_ (weight_nonneg hr hr'.1 hr'.2)
  have hmax : ∀ x y : ℝ, |max x 0 - max y 0| ≤ |x - y| := fun x y => by
    have := abs_max_sub_max_le_max x 0 y 0
    rw [sub_zero, abs_zero, max_eq_left (abs_nonneg (x - y))] at this
    exact this
  by_cases hgr : g ≤ r
  · rw [if_pos hgr, if_pos hgr, if_neg (by omega), zero_add]
    refine (hmax _ _).trans (le_of_eq ?_)
    congr 1; ring
  · rw [if_neg hgr, if_neg hgr]
    refine (hmax _ _).trans ?_
    by_cases hrn : r = A.nd
    · rw [if_pos hrn, if_pos hrn, hrn]
      have : A.qgpv c i A.nd k - Q - (-1 * A.qgpv c i A.nd k - -Q') = 2 * A.qgpv c i A.nd k - (Q + Q') := by ring
      rw [this]
      refine (abs_sub _ _).trans (le_of_eq ?_)
      rw [abs_mul, abs_of_pos (by norm_num : (0 : ℝ) < 2)]
    · rw [if_neg hrn, if_neg hrn, zero_add]
      refine le_of_eq ?_
      rw [← abs_neg]
      congr 1; ring

/-- C156, the reference QGPV changes sign across the equator if `v` does not depend on longitude there. -/
theorem C156_reference_partial (h : A.OnGlobe ds user) (hr : A.Regular) (c : Scheme) {g k : ℤ} (hk : 2 ≤ k ∧ k ≤ A.kmax - 1)
    (hv : ∀ i i', 1 ≤ i → i ≤ A.nlon → 1 ≤ i' → i' ≤ A.nlon → A.v i A.nd k = A.v i' A.nd k) (g1 : A.nd < g) (g2 : g ≤ A.nlat) :
    A.qref c (A.nlat + 1 - g) k = -A.qref c g k := by
  have ho := hr.odd
  have hn := hr.nd3
  have hrows : A.rows = A.nlat := rows_eq (h.mirrorOk hr)
  have hq0 : ∀ i, 1 ≤ i → i ≤ A.nlon → A.qgpv c i A.nd k = 0 := by
    intro i i1 i2
    have hl := h.nlon2
    obtain ⟨a1, a2⟩ := rot_mem (n := A.nlon) (by omega) 1 i
    obtain ⟨b1, b2⟩ := rot_mem (n := A.nlon) (by omega) (-1) i
    rw [C156_equator h hr c ⟨i1, i2⟩ hk, hv _ _ a1 a2 b1 b2, sub_self, zero_div]
  have eN := qref_north hr c (j := g - A.nd + 1) (by omega) (by omega) hk
  have eS := qref_south hr h.global c (g := A.nlat + 1 - g) (by omega) (by omega) hk
  rw [hrows, show A.nlat - A.nd + (g - A.nd + 1) = g by omega] at eN
  rw [show A.nd + 1 - (A.nlat + 1 - g) = g - A.nd + 1 by omega] at eS
  rw [eN, eS]
  congr 1
  have hS : A.levelS c k = (A.levelN c k).withField (A.levelS c k).q := by cases c <;> rfl
  obtain ⟨d1, d2, d3⟩ := levelN_dims (A := A) c k
  rw [hS]
  refine AreaIn.qref_congr _ _ (by rw [d1]; exact hr.nlon1) (by rw [d2]; omega) (fun i r i1 i2 r1 r2 => ?_) _
  rw [d1] at i2
  rw [levelS_field, levelN_field]
  by_cases hrn : r = A.nd
  · rw [hrn, show A.nlat + 1 - A.nd = A.nd by omega, hq0 i i1 i2, neg_zero]
  · rw [C156_qgpv h hr c i r k hrn, neg_neg]

/-- C156 if `v` does not depend on longitude on the equator: the wave activity is the same on both hemispheres, on every row and level.
Missing: winds across the equator that depend on longitude, for which C156 is violated. -/
theorem C156_identical_partial (h : A.OnGlobe ds user) (hr : A.Regular) (c : Scheme) {i : ℤ} (hi : 1 ≤ i ∧ i ≤ A.nlon)
    (hv : ∀ k i i', 1 ≤ i → i ≤ A.nlon → 1 ≤ i' → i' ≤ A.nlon → A.v i A.nd k = A.v i' A.nd k) (g : ℤ) :
    (∀ k, (A.analysis c).lwa i (A.nlat + 1 - g) k = (A.analysis c).lwa i g k) ∧
      (A.analysis c).lwaBaro i (A.nlat + 1 - g) = (A.analysis c).lwaBaro i g := by
  have ho := hr.odd
  have hval := analysis_valid (h.mirrorOk hr) c
  have hrow : ∀ g, (A.analysis c).outRow g = g := outRow_eq (h.mirrorOk hr)
  have north : ∀ g k, A.nd < g → (A.analysis c).lwa i (A.nlat + 1 - g) k = (A.analysis c).lwa i g k := by
    intro g k g1
    by_cases hin : (2 ≤ k ∧ k ≤ A.kmax - 1) ∧ A.nd + A.jb ≤ g ∧ g < A.nlat
    · obtain ⟨hk, g2, g3⟩ := hin
      have hb := C156_bound_partial h hr c hi hk g1 g2 g3
      have hl := h.nlon2
      obtain ⟨a1, a2⟩ := rot_mem (n := A.nlon) (by omega) 1 i
      obtain ⟨b1, b2⟩ := rot_mem (n := A.nlon) (by omega) (-1) i
      rw [C156_equator h hr c hi hk, hv k _ _ a1 a2 b1 b2, sub_self, zero_div, abs_zero,
        C156_reference_partial h hr c hk (hv k) g1 g3.le, add_neg_cancel, abs_zero] at hb
      have : |(A.analysis c).lwa i g k - (A.analysis c).lwa i (A.nlat + 1 - g) k| = 0 :=
        le_antisymm (by linarith) (abs_nonneg _)
      have := sub_eq_zero.1 (abs_eq_zero.1 this)
      exact this.symm
    · have hz : ∀ g', (g' = g ∨ g' = A.nlat + 1 - g) → (A.analysis c).lwa i g' k = 0 := by
        intro g' hg'
        refine QGAnalysis.C42_zero hval i g' k ?_
        by_cases hk : 2 ≤ k ∧ k ≤ A.kmax - 1
        · right
          rw [hrow]
          show ¬ ((A.nd + A.jb ≤ g' ∧ g' < A.nlat) ∨ (1 < g' ∧ g' ≤ A.nd - A.jb))
          have := hr.jb0
          omega
        · exact Or.inl hk
      rw [hz g (Or.inl rfl), hz _ (Or.inr rfl)]
  have all : ∀ k, (A.analysis c).lwa i (A.nlat + 1 - g) k = (A.analysis c).lwa i g k := by
    intro k
    rcases lt_trichotomy g A.nd with hg | hg | hg
    · have := north (A.nlat + 1 - g) k (by omega)
      rw [show A.nlat + 1 - (A.nlat + 1 - g) = g by ring] at this
      exact this.symm
    · rw [hg, show A.nlat + 1 - A.nd = A.nd by omega]
    · exact north g k hg
  refine ⟨all, ?_⟩
  have e : ∀ g, (A.analysis c).lwaBaro i g = (A.analysis c).verticalAverage fun k => (A.analysis c).lwa i g k := fun g => by
    rw [← ((A.analysis c).C88_averages i g).2.2.2.1]
    congr 1
    funext k
    exact QGAnalysis.C88_lwa hval i g k
  rw [e, e]
  simp only [all]

/-! ### Violation -/

/-- C156 for one class: the wave activity is the same on both hemispheres. -/
def C156_Statement (c : Scheme) : Prop :=
  ∀ (A : Atmos) (ds : Xr.LatDs (ℤ → ℤ → ℝ)) (user : Option (List (String × String))), A.OnGlobe ds user → A.Regular →
    (c = .nh18 → A.jb = 0) → ∀ i g k, (1 ≤ i ∧ i ≤ A.nlon) → (1 ≤ g ∧ g ≤ A.nlat) → (1 ≤ k ∧ k ≤ A.kmax) →
      (A.analysis c).lwa i (A.nlat + 1 - g) k = (A.analysis c).lwa i g k

/-- `means_of_uniform` with the temperature given on the rows of the grid. -/
theorem means_of_uniform_rows {A : Atmos} (hr : A.Regular) (h : A.MirrorOk) (hc : A.csm ≠ 0) (τ : ℤ → ℝ)
    (ht : ∀ i g l, 1 ≤ g → g ≤ A.nlat → A.theta0 i g l = τ l) : A.meanS = τ ∧ A.meanN = τ := by
  have ho := hr.odd
  have hj : A.jd = A.nd - A.jb := rfl
  have hjb := hr.jb0
  have hj3 := hr.jd3
  have hn : (A.nlon : ℝ) ≠ 0 := by have := h.nlon2; exact_mod_cast (by omega : A.nlon ≠ 0)
  have hcard : ((Icc 1 A.nlon).card : ℝ) = (A.nlon : ℝ) := by
    rw [Int.card_Icc, add_sub_cancel_right]
    have := h.nlon2
    exact_mod_cast Int.toNat_of_nonneg (by omega : 0 ≤ A.nlon)
  have hrm : ∀ l g, 1 ≤ g → g ≤ A.nlat → A.rowMean l g = τ l * A.clat g := by
    intro l g g1 g2
    unfold rowMean
    simp only [ht _ g _ g1 g2, sum_const, nsmul_eq_mul, hcard]
    field_simp
  constructor <;> funext l
  · unfold meanS
    rw [sum_congr rfl fun g hg => hrm l g (by rw [mem_Icc] at hg; omega) (by rw [mem_Icc] at hg; omega), ← mul_sum]
    exact mul_div_cancel_right₀ _ hc
  · unfold meanN
    rw [sum_congr rfl fun g hg => hrm l g (by rw [mem_Icc] at hg; omega) (by rw [mem_Icc] at hg; omega), ← mul_sum]
    have : ∑ g ∈ Icc (A.nlat - A.jd + 1) A.nlat, A.clat g = A.csm := by
      unfold csm
      refine sum_nbij' (fun g => A.nlat + 1 - g) (fun g => A.nlat + 1 - g) ?_ ?_ ?_ ?_ ?_ <;> intro g hg <;> simp only [mem_Icc] at *
      · omega
      · omega
      · omega
      · omega
      · rw [clat_flip h]
    rw [this]
    exact mul_div_cancel_right₀ _ hc

/-- Wind across the equator at the second of four longitudes. -/
def gust (i _l : ℤ) : ℝ := if i = 2 then 6 * (π / 8) else 0

/-- A northern hemisphere at rest but for that, with a temperature that depends on height only. -/
def gustDs : Xr.LatDs (ℤ → ℤ → ℝ) :=
  ⟨[0, 22.5, 45, 67.5, 90], [("u", [0, 0, 0, 0, 0]), ("v", [gust, 0, 0, 0, 0]),
    ("t", [fun _ l => l, fun _ l => l, fun _ l => l, fun _ l => l, fun _ l => l])]⟩

/-- The analysis on its globe. -/
def gusty (c : Scheme) : Atmos :=
  { sample with
    jb := match c with | .nh18 => 0 | .nhn22 => 1
    uField := rowAt [0, 0, 0, 0, 0, 0, 0, 0, 0]
    vField := rowAt [-0, -0, -0, -0, gust, 0, 0, 0, 0]
    tField := rowAt [fun _ l => l, fun _ l => l, fun _ l => l, fun _ l => l, fun _ l => l, fun _ l => l, fun _ l => l, fun _ l => l,
      fun _ l => l] }

theorem gusty_regular (c : Scheme) : (gusty c).Regular where
  nlon1 := by show (1 : ℤ) ≤ 4; norm_num
  odd := by cases c <;> decide
  jb0 := by cases c <;> decide
  jd3 := by cases c <;> decide
  kmax3 := by show (3 : ℤ) ≤ 5; norm_num
  npart2 := by show (2 : ℤ) ≤ 9; norm_num
  a0 := by show (0 : ℝ) < 1; norm_num
  om0 := by show (1 : ℝ) ≠ 0; norm_num

theorem gust_hemi : Xr.Hemispheric gustDs.lat := by
  refine ⟨Or.inl ?_, 0, [22.5, 45, 67.5, 90], Or.inl rfl, ?_, ?_⟩
  · unfold gustDs; norm_num
  · unfold Xr.IsEquator; norm_num
  · intro y hy
    unfold Xr.IsEquator
    simp only [List.mem_cons, List.not_mem_nil, or_false] at hy
    rcases hy with rfl | rfl | rfl | rfl <;> norm_num

theorem gusty_globe (c : Scheme) : (gusty c).OnGlobe gustDs none where
  hemi := gust_hemi
  asc := by unfold gustDs; norm_num
  len := by unfold gustDs; simp
  data := by
    obtain ⟨out, h1, h2, h3⟩ := Xr.globe_north (vars := gustDs.vars) (e := 0) (rest := [22.5, 45, 67.5, 90]) none (by norm_num)
      (by unfold Xr.IsEquator; norm_num) (by unfold gustDs; simp)
    have hv : Xr.getName (gustDs.vars.map Prod.fst) "v" ["V"] none = .ok "v" := by decide
    have hu := h3 "u" [0, 0, 0, 0, 0] (by unfold gustDs; simp)
    have hw := h3 "v" [gust, 0, 0, 0, 0] (by unfold gustDs; simp)
    have ht := h3 "t" [fun _ l => l, fun _ l => l, fun _ l => l, fun _ l => l, fun _ l => l] (by unfold gustDs; simp)
    rw [hv] at hu hw ht
    refine ⟨out, "v", _, _, _, h1, hv, ⟨?_, hu, ?_⟩, ⟨?_, hw, ?_⟩, ⟨?_, ht, ?_⟩, ?_⟩
    · decide
    · simp [gusty]
    · rfl
    · simp [gusty]
    · decide
    · simp [gusty]
    · rw [h2]; rfl
  own := rfl
  latOwn := fun _ _ => rfl
  vertNeg := fun _ _ => rfl
  nlon2 := by show (2 : ℤ) ≤ 4; norm_num
  global := rfl

theorem gusty_dims (c : Scheme) : (gusty c).nd = 5 ∧ (gusty c).nlat = 9 ∧ (gusty c).nlon = 4 ∧ (gusty c).kmax = 5 := by
  refine ⟨?_, rfl, rfl, rfl⟩
  cases c <;> decide

theorem gusty_v (c : Scheme) (i j k : ℤ) : (gusty c).v i j k = if j = 5 then gust i k else 0 := by
  show rowAt [-0, -0, -0, -0, gust, 0, 0, 0, 0] i j k = _
  unfold rowAt
  by_cases h1 : 1 ≤ j
  · rw [if_pos h1]
    by_cases h2 : j ≤ 9
    · interval_cases j <;> simp
    · rw [List.getElem?_eq_none (by simp; omega), if_neg (by omega)]; rfl
  · rw [if_neg h1, if_neg (by omega)]

theorem gusty_u (c : Scheme) (i j k : ℤ) : (gusty c).u i j k = 0 := by
  show rowAt [0, 0, 0, 0, 0, 0, 0, 0, 0] i j k = _
  unfold rowAt
  by_cases h1 : 1 ≤ j
  · rw [if_pos h1]
    by_cases h2 : j ≤ 9
    · interval_cases j <;> simp
    · rw [List.getElem?_eq_none (by simp; omega)]; rfl
  · rw [if_neg h1]

theorem gusty_theta (c : Scheme) (i j l : ℤ) (j1 : 1 ≤ j) (j2 : j ≤ 9) : (gusty c).theta0 i j l = (l : ℝ) * exp (1 / 2 * l / 1) := by
  have : (gusty c).tField i j l = l := by
    show rowAt [fun _ l => (l : ℝ), fun _ l => l, fun _ l => l, fun _ l => l, fun _ l => l, fun _ l => l, fun _ l => l, fun _ l => l,
      fun _ l => l] i j l = _
    unfold rowAt
    rw [if_pos j1]
    interval_cases j <;> simp
  show (gusty c).tField i j l * _ = _
  rw [this]
  rfl

theorem gusty_csm (c : Scheme) : (gusty c).csm ≠ 0 := by
  obtain ⟨hnd, _, _, _⟩ := gusty_dims c
  have hj : 3 ≤ (gusty c).jd := (gusty_regular c).jd3
  have hp : 0 < (gusty c).clat 3 := by
    unfold clat lat dphi
    rw [hnd]
    show 0 < |cos (π / ((9 - 1 : ℤ) : ℝ) * ((3 - 5 : ℤ) : ℝ))|
    rw [show π / ((9 - 1 : ℤ) : ℝ) * ((3 - 5 : ℤ) : ℝ) = -(π / 4) by push_cast; ring, cos_neg]
    have := pi_pos
    exact abs_pos.2 (cos_pos_of_mem_Ioo ⟨by linarith, by linarith⟩).ne'
  have : (0 : ℝ) < (gusty c).csm := by
    unfold csm
    refine lt_of_lt_of_le hp (single_le_sum (f := (gusty c).clat) (fun g _ => abs_nonneg _) ?_)
    rw [mem_Icc]; omega
  exact this.ne'

/-- There is no stretching. -/
theorem gusty_pv (c : Scheme) (i j : ℤ) (j1 : 1 ≤ j) (j2 : j ≤ 9) : (gusty c).qgpv c i j 2 = (gusty c).avort i j 2 := by
  have hm := means_of_uniform_rows (gusty_regular c) ((gusty_globe c).mirrorOk (gusty_regular c)) (gusty_csm c)
    (fun l => (l : ℝ) * exp (1 / 2 * l / 1)) (fun i g l g1 g2 => gusty_theta c i g l g1 g2)
  have ht : ∀ k, (gusty c).theta i j k = (k : ℝ) * exp (1 / 2 * k / 1) := fun k => gusty_theta c i j k j1 j2
  have e1 : ∀ k : ℤ, (gusty c).ts0 k = (k : ℝ) * exp (1 / 2 * k / 1) := fun k => by unfold ts0; rw [hm.1]; rfl
  have e2 : ∀ k : ℤ, (gusty c).tn0 k = (k : ℝ) * exp (1 / 2 * k / 1) := fun k => by unfold tn0; rw [hm.2]; rfl
  have e3 : ∀ k : ℤ, (gusty c).t0 k = (k : ℝ) * exp (1 / 2 * k / 1) := fun k => by unfold t0; rw [e1, e2]; ring
  have ha : ∀ (T st : ℤ → ℝ) (x : ℝ), (∀ k : ℤ, T k = (k : ℝ) * exp (1 / 2 * k / 1)) → (gusty c).qgpvIn.stretch T st x i j 2 = 0 := by
    intro T st x hT
    have : ∀ k, (gusty c).qgpvIn.alt T st i j k = 0 := by
      intro k
      unfold QgpvIn.alt
      show exp _ * ((gusty c).theta i j k - T k) / _ = 0
      rw [ht, hT]; simp
    unfold QgpvIn.stretch
    rw [this, this]; simp
  have hk : 2 ≤ (2 : ℤ) ∧ 2 ≤ (gusty c).qgpvIn.kmax - 1 := ⟨le_rfl, by show (2 : ℤ) ≤ 5 - 1; norm_num⟩
  cases c
  · show (gusty .nh18).qgpvIn.pv18 _ _ i j 2 = _
    unfold QgpvIn.pv18
    rw [if_pos hk, ha _ _ _ e3, add_zero]; rfl
  · show (gusty .nhn22).qgpvIn.pv22 _ _ _ _ _ i j 2 = _
    unfold QgpvIn.pv22
    rw [if_pos hk, ha _ _ _ e1, ha _ _ _ e2, ite_self, add_zero]; rfl

/-- Off the equator the QGPV is the Coriolis parameter, or that of the next row at the poles. -/
theorem gusty_off (c : Scheme) (j : ℤ) (j1 : 1 ≤ j) (j2 : j ≤ 9) (j3 : j ≠ 5) :
    ∃ x : ℝ, |x| ≤ 2 ∧ ∀ i, (gusty c).qgpv c i j 2 = x := by
  have hin : ∀ i j, j ≠ 5 → (gusty c).qgpvIn.inner i j 2 = 2 * sin ((gusty c).qgpvIn.phi j) := by
    intro i j hj
    have hv : ∀ i, (gusty c).qgpvIn.v i j 2 = 0 := fun i => (gusty_v c i j 2).trans (if_neg hj)
    have hu : ∀ j, (gusty c).qgpvIn.u i j 2 = 0 := fun j => gusty_u c i j 2
    have hdv : (gusty c).qgpvIn.dv i j 2 = 0 := by
      unfold QgpvIn.dv
      simp only [hv]; simp
    unfold QgpvIn.inner QgpvIn.cor
    rw [hdv, hu, hu]
    show 2 * 1 * _ + 0 / _ + -(0 * _ - 0 * _) / _ = _
    simp
  have hz : ∀ j, j ≠ 5 → (gusty c).qgpvIn.zmean (gusty c).qgpvIn.inner j 2 = 2 * sin ((gusty c).qgpvIn.phi j) := by
    intro j hj
    unfold QgpvIn.zmean
    simp only [hin _ j hj]
    rw [dosum_eq]
    show ∑ _i ∈ Icc 1 (4 : ℤ), 2 * sin ((gusty c).qgpvIn.phi j) / ((4 : ℤ) : ℝ) = _
    rw [sum_const]
    simp
    ring
  have hs : ∀ x : ℝ, |2 * sin x| ≤ 2 := fun x => by
    rw [abs_mul, abs_of_pos (by norm_num : (0 : ℝ) < 2)]
    have := abs_sin_le_one x
    linarith
  have hav : ∀ i, (gusty c).qgpv c i j 2 = if j = 9 then (gusty c).qgpvIn.zmean (gusty c).qgpvIn.inner 8 2
      else if j = 1 then (gusty c).qgpvIn.zmean (gusty c).qgpvIn.inner 2 2 else (gusty c).qgpvIn.inner i j 2 := fun i =>
    gusty_pv c i j j1 j2
  by_cases h9 : j = 9
  · exact ⟨_, hs ((gusty c).qgpvIn.phi 8), fun i => by rw [hav, if_pos h9, hz 8 (by norm_num)]⟩
  · by_cases h1 : j = 1
    · exact ⟨_, hs ((gusty c).qgpvIn.phi 2), fun i => by rw [hav, if_neg h9, if_pos h1, hz 2 (by norm_num)]⟩
    · exact ⟨_, hs ((gusty c).qgpvIn.phi j), fun i => by rw [hav, if_neg h9, if_neg h1, hin i j j3]⟩

/-- On the equator it is 3, 0, -3, 0. -/
theorem gusty_equator (c : Scheme) (i : ℤ) (h1 : 1 ≤ i) (h2 : i ≤ 4) :
    (gusty c).qgpv c i 5 2 = if i = 1 then 3 else if i = 3 then -3 else 0 := by
  obtain ⟨hnd, _, _, _⟩ := gusty_dims c
  have := C156_equator (gusty_globe c) (gusty_regular c) c (i := i) (k := 2) ⟨h1, h2⟩ ⟨le_rfl, by show (2 : ℤ) ≤ 5 - 1; norm_num⟩
  rw [hnd, gusty_v, gusty_v, if_pos rfl, if_pos rfl] at this
  rw [this]
  show (gust (rot 4 1 i) 2 - gust (rot 4 (-1) i) 2) / (2 * 1 * (π / ((9 - 1 : ℤ) : ℝ))) = _
  have := pi_pos
  unfold gust rot
  interval_cases i <;> norm_num <;> field_simp <;> norm_num

theorem gusty_close (c : Scheme) : (gusty c).CloseToZonal c 2 (fun _ => 0) 3 := by
  refine ⟨fun _ _ _ _ _ => le_rfl, fun i r i1 i2 r1 r2 => ?_, 3, 5, 1, 5, ?_, ?_, ?_, ?_, ?_⟩
  · rw [sub_zero]
    by_cases hr : r = 5
    · rw [hr, gusty_equator c i i1 i2]
      split_ifs <;> norm_num
    · obtain ⟨x, hx, e⟩ := gusty_off c r r1 r2 hr
      rw [e]; linarith
  · exact ⟨by norm_num, by show (3 : ℤ) ≤ 4; norm_num⟩
  · exact ⟨by norm_num, by show (5 : ℤ) ≤ 9; norm_num⟩
  · exact ⟨by norm_num, by show (1 : ℤ) ≤ 4; norm_num⟩
  · exact ⟨by norm_num, by show (5 : ℤ) ≤ 9; norm_num⟩
  · rw [gusty_equator c 3 (by norm_num) (by norm_num), gusty_equator c 1 (by norm_num) (by norm_num)]; norm_num

/-- The reference values are below 3 on both hemispheres. -/
theorem gusty_qref (c : Scheme) : (gusty c).qref c 7 2 < 3 ∧ -(gusty c).qref c 3 2 < 3 := by
  obtain ⟨hnd, hnlat, hnlon, hkm⟩ := gusty_dims c
  have hr := gusty_regular c
  have hcl := gusty_close c
  have hk : 2 ≤ (2 : ℤ) ∧ 2 ≤ (gusty c).kmax - 1 := ⟨le_rfl, by rw [hkm]; norm_num⟩
  have hrows : (gusty c).rows = 9 := rows_eq ((gusty_globe c).mirrorOk hr)
  have eN := qref_north hr c (j := 3) (by norm_num) (by rw [hnd]; norm_num) hk
  have eS := qref_south hr rfl c (g := 3) (by norm_num) (by rw [hnd]; norm_num) hk
  rw [hrows, hnd] at eN
  rw [hnd] at eS
  have hle : ∀ i r, 1 ≤ i → i ≤ 4 → 1 ≤ r → r ≤ 9 → |(gusty c).qgpv c i r 2| ≤ 3 := fun i r i1 i2 r1 r2 => by
    have := hcl.close i r i1 i2 r1 r2
    rwa [sub_zero] at this
  obtain ⟨d1, d2, d3⟩ := levelN_dims (A := gusty c) c 2
  obtain ⟨f1, f2, f3⟩ := levelS_dims (A := gusty c) c 2
  have mN : ((gusty c).levelN c 2).qmax = 3 := by
    unfold AreaIn.qmax
    rw [d1, d2]
    refine maxval_eq (by rw [hnlon]; norm_num) (by rw [hnlat]; norm_num) (fun i j i1 i2 j1 j2 => ?_) 1 5 ⟨by norm_num, by rw [hnlon]; norm_num⟩
      ⟨by norm_num, by rw [hnlat]; norm_num⟩ ?_
    · rw [levelN_field]; exact (abs_le.1 (hle i j i1 i2 j1 j2)).2
    · rw [levelN_field, gusty_equator c 1 (by norm_num) (by norm_num), if_pos rfl]
  have mS : ((gusty c).levelS c 2).qmax = 3 := by
    unfold AreaIn.qmax
    rw [f1, f2]
    refine maxval_eq (by rw [hnlon]; norm_num) (by rw [hnlat]; norm_num) (fun i j i1 i2 j1 j2 => ?_) 3 5 ⟨by norm_num, by rw [hnlon]; norm_num⟩
      ⟨by norm_num, by rw [hnlat]; norm_num⟩ ?_
    · rw [levelS_field, hnlat]
      rw [hnlat] at j2
      linarith [(abs_le.1 (hle i (9 + 1 - j) i1 i2 (by omega) (by omega))).1]
    · rw [levelS_field, hnlat, show (9 + 1 - 5 : ℤ) = 5 by norm_num, gusty_equator c 3 (by norm_num) (by norm_num)]
      norm_num
  have lN := AreaIn.qref_lt_qmax (hcl.validN hr) (j := 3) (by norm_num) (by rw [d3, hnd]; norm_num) (by rw [mN]; norm_num)
  have lS := AreaIn.qref_lt_qmax (hcl.validS hr) (j := 3) (by norm_num) (by rw [f3, hnd]; norm_num) (by rw [mS]; norm_num)
  rw [mN] at lN
  rw [mS] at lS
  rw [show (9 - 5 + 3 : ℤ) = 7 by norm_num] at eN
  rw [show (5 + 1 - 3 : ℤ) = 3 by norm_num] at eS
  rw [eN, eS, neg_neg]
  exact ⟨lN, lS⟩

/-- C156 is violated for both classes: the wind across the equator has QGPV of the same sign for both hemispheres, so where it adds
wave activity in the north it takes some away in the south. -/
theorem C156_refuted (c : Scheme) : ¬ C156_Statement c := by
  intro H
  obtain ⟨hnd, hnlat, hnlon, hkm⟩ := gusty_dims c
  have hr := gusty_regular c
  have hg := gusty_globe c
  have hk : 2 ≤ (2 : ℤ) ∧ 2 ≤ (gusty c).kmax - 1 := ⟨le_rfl, by rw [hkm]; norm_num⟩
  have hjb : (gusty c).jb ≤ 1 := by cases c <;> decide
  have st := fun i (h1 : 1 ≤ i) (h2 : i ≤ 4) => H (gusty c) gustDs none hg hr (by rintro rfl; rfl) i 7 2 ⟨h1, by rw [hnlon]; exact h2⟩
    ⟨by norm_num, by rw [hnlat]; norm_num⟩ ⟨by norm_num, by rw [hkm]; norm_num⟩
  have pr := fun i (h1 : 1 ≤ i) (h2 : i ≤ 4) => hg.pair hr c (i := i) (g := 7) (k := 2) ⟨h1, by rw [hnlon]; exact h2⟩ hk
    (by rw [hnd]; norm_num) (by rw [hnd]; omega) (by rw [hnlat]; norm_num)
  obtain ⟨qN, qS⟩ := gusty_qref c
  have s1 := st 1 (by norm_num) (by norm_num)
  have s3 := st 3 (by norm_num) (by norm_num)
  rw [(pr 1 (by norm_num) (by norm_num)).1, (pr 1 (by norm_num) (by norm_num)).2] at s1
  rw [(pr 3 (by norm_num) (by norm_num)).1, (pr 3 (by norm_num) (by norm_num)).2] at s3
  rw [hnlat, show (9 + 1 - 7 : ℤ) = 3 by norm_num] at s1 s3
  set Q := (gusty c).qref c 7 2
  set Q' := -(gusty c).qref c 3 2
  have hw : 0 < (gusty c).weight 5 := by
    have := weight_equator (A := gusty c)
    rw [hnd] at this
    rw [this]
    show 0 < 1 * (π / ((9 - 1 : ℤ) : ℝ))
    have := pi_pos
    push_cast
    linarith
  have hmem : (5 : ℤ) ∈ Icc (gusty c).nd 9 := by rw [hnd]; decide
  have off : ∀ r ∈ (Icc (gusty c).nd 9).erase 5, (gusty c).qgpv c 1 r 2 = (gusty c).qgpv c 3 r 2 := by
    intro r hr'
    rw [mem_erase, mem_Icc, hnd] at hr'
    obtain ⟨x, _, e⟩ := gusty_off c r (by omega) hr'.2.2 hr'.1
    rw [e, e]
  have d := congrArg₂ (· - ·) s1 s3
  rw [← add_sum_erase _ _ hmem, ← add_sum_erase _ _ hmem, ← add_sum_erase _ _ hmem, ← add_sum_erase _ _ hmem] at d
  have c1 : ∀ f : ℝ → ℤ → ℝ, ∑ r ∈ (Icc (gusty c).nd 9).erase 5, f ((gusty c).qgpv c 1 r 2) r =
      ∑ r ∈ (Icc (gusty c).nd 9).erase 5, f ((gusty c).qgpv c 3 r 2) r := fun f => sum_congr rfl fun r hr' => by rw [off r hr']
  rw [c1 (fun q r => (if 7 ≤ r then max (Q' - q) 0 else max ((if r = (gusty c).nd then -1 else 1) * q - Q') 0) * (gusty c).weight r),
    c1 (fun q r => (if 7 ≤ r then max (Q - q) 0 else max (q - Q) 0) * (gusty c).weight r), add_sub_add_right_eq_sub,
    add_sub_add_right_eq_sub] at d
  have n75 : ¬ (7 : ℤ) ≤ 5 := by norm_num
  have n31 : ¬ (3 : ℤ) = 1 := by norm_num
  simp only [if_neg n75, if_pos hnd.symm, gusty_equator c 1 le_rfl (by norm_num), gusty_equator c 3 (by norm_num) (by norm_num), if_true,
    if_neg n31, ← sub_mul] at d
  have d' := mul_right_cancel₀ hw.ne' d
  have a1 : max (-1 * 3 - Q') 0 < max (-1 * -3 - Q') 0 := by
    rw [max_eq_left (by linarith : (0 : ℝ) ≤ -1 * -3 - Q')]
    exact max_lt (by linarith) (by linarith)
  have a2 : max (-3 - Q) 0 < max (3 - Q) 0 := by
    rw [max_eq_left (by linarith : (0 : ℝ) ≤ 3 - Q)]
    exact max_lt (by linarith) (by linarith)
  linarith

-- hypotheses of `C156_qgpv`, `C156_equator` and `C156_bound_partial`; the QGPV on the equator is not zero
example (c : Scheme) : (gusty c).OnGlobe gustDs none ∧ (gusty c).Regular ∧ (gusty c).nd + (gusty c).jb ≤ 7 ∧
    (gusty c).qgpv c 1 5 2 = 3 := by
  refine ⟨gusty_globe c, gusty_regular c, by cases c <;> decide, ?_⟩
  rw [gusty_equator c 1 le_rfl (by norm_num), if_pos rfl]

/-- A uniform wind across the equator and a wave next to it. -/
def waveDs : Xr.LatDs (ℤ → ℤ → ℝ) := ⟨gustDs.lat, [("u", [0, 0, 0, 0, 0]), ("v", [fun _ _ => 1, gust, 0, 0, 0]),
    ("t", [fun _ l => l, fun _ l => l, fun _ l => l, fun _ l => l, fun _ l => l])]⟩

/-- The analysis on its globe. -/
def wavy (c : Scheme) : Atmos := { gusty c with vField := rowAt [-0, -0, -0, -gust, fun _ _ => 1, gust, 0, 0, 0] }

-- hypotheses of `C156_reference_partial` and `C156_identical_partial`; the wind depends on longitude next to the equator
example (c : Scheme) : (wavy c).OnGlobe waveDs none ∧ (wavy c).Regular ∧
    (∀ k i i', 1 ≤ i → i ≤ (wavy c).nlon → 1 ≤ i' → i' ≤ (wavy c).nlon → (wavy c).v i (wavy c).nd k = (wavy c).v i' (wavy c).nd k) ∧
    (wavy c).v 1 6 2 ≠ (wavy c).v 2 6 2 := by
  have hg := gusty_globe c
  have hr := gusty_regular c
  refine ⟨⟨hg.hemi, hg.asc, ?_, ?_, hg.own, hg.latOwn, hg.vertNeg, hg.nlon2, hg.global⟩,
    ⟨hr.nlon1, hr.odd, hr.jb0, hr.jd3, hr.kmax3, hr.npart2, hr.a0, hr.om0⟩, ?_, ?_⟩
  · unfold waveDs gustDs; simp
  · obtain ⟨out, h1, h2, h3⟩ := Xr.globe_north (vars := waveDs.vars) (e := 0) (rest := [22.5, 45, 67.5, 90]) none (by norm_num)
      (by unfold Xr.IsEquator; norm_num) (by unfold waveDs; simp)
    have hv : Xr.getName (waveDs.vars.map Prod.fst) "v" ["V"] none = .ok "v" := by decide
    have hu := h3 "u" [0, 0, 0, 0, 0] (by unfold waveDs; simp)
    have hw := h3 "v" [fun _ _ => 1, gust, 0, 0, 0] (by unfold waveDs; simp)
    have ht := h3 "t" [fun _ l => l, fun _ l => l, fun _ l => l, fun _ l => l, fun _ l => l] (by unfold waveDs; simp)
    rw [hv] at hu hw ht
    refine ⟨out, "v", _, _, _, h1, hv, ⟨?_, hu, ?_⟩, ⟨?_, hw, ?_⟩, ⟨?_, ht, ?_⟩, ?_⟩
    · decide
    · simp [wavy, gusty]
    · rfl
    · simp [wavy]
    · decide
    · simp [wavy, gusty]
    · rw [h2]; rfl
  · intro k i i' _ _ _ _
    have hnd : (wavy c).nd = 5 := (gusty_dims c).1
    rw [hnd]
    rfl
  · have e : ∀ i, (wavy c).v i 6 2 = gust i 2 := fun _ => rfl
    rw [e, e]
    unfold gust
    have := pi_pos
    norm_num

end Atmos

end Falwa
