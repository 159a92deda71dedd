import Verif.Model.Eqvlat
import Verif.Model.Lwa
import Verif.Model.PyError

/-!
# Model of `wrapper.py`

Source: `/repo/src/falwa/wrapper.py`.

Simplifications: `nlat_s ≤ nlat` (a larger value makes numpy raise a shape error in `basis.lwa`).
The result of `np.zeros` rows that no hemisphere writes is 0, as in the code.
-/

noncomputable section

namespace Falwa

open Finset

/-- Combine the results of two analyses: an exception wins over NaN, NaN over a value. -/
def Outcome.map2 {α β γ : Type*} (f : α → β → γ) : Outcome α → Outcome β → Outcome γ
  | .valueError, _ => .valueError
  | _, .valueError => .valueError
  | .nan, _ => .nan
  | _, .nan => .nan
  | .ok a, .ok b => .ok (f a b)

/-- Arguments of the hemispheric wrappers after the defaults have been filled in. -/
structure HemInput where
  nlat : ℕ
  nlon : ℕ
  ylat : ℕ → ℝ
  vort : ℕ → ℕ → ℝ
  area : ℕ → ℕ → ℝ
  dmu : ℕ → ℝ
  nlatS : ℕ
  nPoints : ℕ
  radius : ℝ

/-- Defaults `nlat_s = nlat // 2`, `n_points = nlat_s`, wrapper.py lines 119-122, 240-244, 312-315, 391-394. -/
def hemDefaults (nlat : ℕ) (nlatS nPoints : Option ℕ) : ℕ × ℕ :=
  let s := nlatS.getD (nlat / 2)
  (s, nPoints.getD s)

namespace HemInput

variable (H : HemInput)

/-- Arguments of the southern call of `eqvlat_fawa`: `ylat[:nlat_s]`, `vort[:nlat_s]`, `area[:nlat_s]`,
wrapper.py lines 125-126, 250-251. -/
def southInput (field : ℕ → ℕ → ℝ) : EqvInput where
  nlat := H.nlatS
  nlon := H.nlon
  ylat := H.ylat
  vort := field
  area := H.area
  nPoints := H.nPoints
  radius := H.radius

/-- `-vort[::-1, :]`, wrapper.py lines 130, 258. -/
def flippedNeg (r c : ℕ) : ℝ := - H.vort (H.nlat - 1 - r) c

/-- `theta[::-1, :]`, wrapper.py line 563. -/
def flipped (r c : ℕ) : ℝ := H.vort (H.nlat - 1 - r) c

/-- `x[:nlat_s] = south; x[-nlat_s:] = north` on an array of zeros; the northern assignment comes last. -/
def assemble {α : Type*} [Zero α] (south north : ℕ → α) (j : ℕ) : α :=
  if H.nlat - H.nlatS ≤ j ∧ 0 < H.nlatS then north (j - (H.nlat - H.nlatS))
  else if j < H.nlatS then south j
  else 0

/-- `qref` of `qgpv_eqlat_lwa`, wrapper.py lines 246-262: north gets `-qref2[::-1]`. -/
def qref : Outcome (ℕ → ℝ) :=
  Outcome.map2 (fun q1 q2 => H.assemble q1 (fun r => - q2 (H.nlatS - 1 - r)))
    (H.southInput H.vort).qref (H.southInput H.flippedNeg).qref

/-- `eqvlat_hemispheric`, wrapper.py lines 116-135: north gets `qref2[::-1]` (line 133). -/
def eqvlatHemispheric : Outcome (ℕ → ℝ) :=
  Outcome.map2 (fun q1 q2 => H.assemble q1 (fun r => q2 (H.nlatS - 1 - r)))
    (H.southInput H.vort).qref (H.southInput H.flippedNeg).qref

/-- `theta_lwa`, the profile, wrapper.py lines 552-568: north gets `qref2[::-1]` of the flipped field
without a sign. Here `vort` is `theta`. -/
def thetaQref : Outcome (ℕ → ℝ) :=
  Outcome.map2 (fun q1 q2 => H.assemble q1 (fun r => q2 (H.nlatS - 1 - r)))
    (H.southInput H.vort).qref (H.southInput H.flipped).qref

/-- A slice `x[-nlat_s:]`. -/
def north {α : Type*} (x : ℕ → α) (r : ℕ) : α := x (H.nlat - H.nlatS + r)

/-- The two calls of `basis.lwa` with the profile `q1` in the south and `q` in the north,
wrapper.py lines 253-255 and 263-265. -/
def lwaBoth (q1 q : ℕ → ℝ) : ℕ → ℕ → ℝ :=
  H.assemble (lwaTotal H.nlatS H.vort q1 H.dmu)
    (lwaTotal H.nlatS (H.north H.vort) (H.north q) (H.north H.dmu))

/-- The forcing terms of the two calls, wrapper.py lines 326-329 and 337-340. -/
def capsigmaBoth (ncforce : ℕ → ℕ → ℝ) (q1 q : ℕ → ℝ) : ℕ → ℕ → ℝ :=
  H.assemble (lwaBigsigma H.nlatS H.vort q1 H.dmu ncforce)
    (lwaBigsigma H.nlatS (H.north H.vort) (H.north q) (H.north H.dmu) (H.north ncforce))

/-- `qgpv_eqlat_lwa`, wrapper.py lines 201-267: the pair (qref, lwa). -/
def qgpvEqlatLwa : Outcome ((ℕ → ℝ) × (ℕ → ℕ → ℝ)) :=
  Outcome.map2 (fun q1 q => (q, H.lwaBoth q1 q)) (H.southInput H.vort).qref H.qref

/-- `qgpv_eqlat_lwa_ncforce`, wrapper.py lines 270-341: (qref, lwa, capsigma). -/
def qgpvEqlatLwaNcforce (ncforce : ℕ → ℕ → ℝ) :
    Outcome ((ℕ → ℝ) × (ℕ → ℕ → ℝ) × (ℕ → ℕ → ℝ)) :=
  Outcome.map2 (fun q1 q => (q, H.lwaBoth q1 q, H.capsigmaBoth ncforce q1 q))
    (H.southInput H.vort).qref H.qref

/-- `qgpv_input_qref_to_compute_lwa`, wrapper.py lines 470-514. -/
def qgpvInputQref (q : ℕ → ℝ) : ℕ → ℕ → ℝ := H.lwaBoth q q

/-- `theta_lwa`, wrapper.py lines 517-574. The southern profile is `qref[:nlat_s]` before the northern
assignment, i.e. the result of the southern call. -/
def thetaLwa : Outcome ((ℕ → ℝ) × (ℕ → ℕ → ℝ)) :=
  Outcome.map2 (fun q1 q => (q, H.lwaBoth q1 q)) (H.southInput H.vort).qref H.thetaQref

end HemInput

/-! ### Keyword arguments -/

/-- Parameter names of `basis.eqvlat_fawa`, basis.py lines 11-13. -/
def eqvlatFawaParams : List String :=
  ["ylat", "vort", "area", "n_points", "planet_radius", "output_fawa"]

/-- A Python call with keyword arguments: `TypeError` if a keyword is not a parameter name. -/
def callWithKeywords {α : Type*} (params kwargs : List String) (body : α) : Except PyError α :=
  if kwargs.all (fun k => params.contains k) then .ok body else .error .typeError

/-- `basis.eqvlat_fawa(ylat, vort, area, n_points, planet_radius=..., <extra keywords>)`: the pair
(qref, fawa). The result is only meaningful if no extra keyword is present. -/
def eqvlatFawaCall (I : EqvInput) (extra : List String) :
    Except PyError (Outcome (ℕ → ℝ) × Outcome (ℕ → ℝ)) :=
  callWithKeywords eqvlatFawaParams ("planet_radius" :: extra) (I.qref, I.fawa)

/-- `eqvlat_bracket_hemispheric`, wrapper.py lines 138-198. Both calls pass `vgrad=vgrad` (lines 180-184
and 188-192), whatever its value. The returned pair is (qref, brac). -/
def eqvlatBracketHemispheric (H : HemInput) (_vgrad : Option (ℕ → ℕ → ℝ)) :
    Except PyError (Outcome (ℕ → ℝ) × Outcome (ℕ → ℝ)) := do
  let (q1, b1) ← eqvlatFawaCall (H.southInput H.vort) ["vgrad"]
  let (q2, b2) ← eqvlatFawaCall (H.southInput H.flippedNeg) ["vgrad"]
  pure (Outcome.map2 (fun a b => H.assemble a (fun r => b (H.nlatS - 1 - r))) q1 q2,
    Outcome.map2 (fun a b => H.assemble a (fun r => b (H.nlatS - 1 - r))) b1 b2)

/-- The dictionary returned by `qgpv_eqlat_lwa_options`, wrapper.py lines 457-467. -/
structure OptionsResult where
  qref : ℕ → ℝ
  lwa : ℕ → ℕ → ℝ
  brac : Option (ℕ → ℝ)
  capsigma : Option (ℕ → ℕ → ℝ)

/-- The dictionary without the entry for `vgrad`, wrapper.py lines 396-401, 418-426, 447-455. -/
def optionsResult (H : HemInput) (ncforce : Option (ℕ → ℕ → ℝ)) (q1 q : ℕ → ℝ) : OptionsResult where
  qref := q
  lwa := H.lwaBoth q1 q
  brac := none
  capsigma := ncforce.map (fun f => H.capsigmaBoth f q1 q)

/-- `qgpv_eqlat_lwa_options`, wrapper.py lines 344-467. The calls with `vgrad` pass the keyword `vgrad`
(lines 408-412, 438-441), those without do not. -/
def qgpvEqlatLwaOptions (H : HemInput) (vgrad ncforce : Option (ℕ → ℕ → ℝ)) :
    Except PyError (Outcome OptionsResult) := do
  let kw := if vgrad.isSome then ["vgrad"] else []
  let (q1, b1) ← eqvlatFawaCall (H.southInput H.vort) kw
  let (q2, b2) ← eqvlatFawaCall (H.southInput H.flippedNeg) kw
  let q := Outcome.map2 (fun a b => H.assemble a (fun r => - b (H.nlatS - 1 - r))) q1 q2
  let res := Outcome.map2 (optionsResult H ncforce) q1 q
  if vgrad.isSome then
    let brac := Outcome.map2 (fun a b => H.assemble a (fun r => - b (H.nlatS - 1 - r))) b1 b2
    pure (Outcome.map2 (fun d br => { d with brac := some br }) res brac)
  else pure res

/-! ### The barotropic wrappers -/

/-- A Python return value: an array, or the tuple that `basis.lwa` returns. -/
inductive PyReturn (α : Type*) where
  | array (a : α)
  | tuple (a : α) (second : Option α)

/-- `barotropic_eqlat_lwa`, wrapper.py lines 11-55, with default partitioning: (qref, lwa). -/
def barotropicEqlatLwa (I : EqvInput) (dmu : ℕ → ℝ) :
    Outcome ((ℕ → ℝ) × PyReturn (ℕ → ℕ → ℝ)) :=
  I.qref.map (fun q => (q, .array (lwaTotal I.nlat I.vort q dmu)))

/-- `barotropic_input_qref_to_compute_lwa`, wrapper.py lines 58-86: line 85 does not unpack the tuple that
`basis.lwa` returns. -/
def barotropicInputQref (nlat : ℕ) (vort : ℕ → ℕ → ℝ) (q dmu : ℕ → ℝ) : PyReturn (ℕ → ℕ → ℝ) :=
  match lwa nlat vort q dmu false none with
  | (.total f, s) => .tuple f s
  | (.partitioned a _, s) => .tuple a s

end Falwa

end
