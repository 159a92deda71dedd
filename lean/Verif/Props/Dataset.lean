import Verif.Model.Dataset
import Verif.Props.Shapes

/-!
# C126: results of a `QGDataset` carry matching coordinates
-/

namespace Falwa

/-! ## Specification -/

namespace Spec

/-- Latitudes that hemispheric results are reported on: all `n`, or the northern half including an equator. -/
def reportedRows (n : ℕ) (north : Bool) : ℕ := if north then (n + 1) / 2 else n

/-- Shape of one field's share of a variable on `lev` heights, `n` latitudes of the input and `lon` longitudes. -/
def resultShape (lev n lon : ℕ) (north : Bool) : DsVar → List ℕ
  | .qgpv | .interpolatedU | .interpolatedV | .interpolatedTheta => [lev, n, lon]
  | .staticStability | .staticStabilityN | .staticStabilityS => [lev]
  | .qref | .uref | .ptref => [lev, reportedRows n north]
  | .lwa | .ncforce | .ua1 | .ua2 | .ep1 | .ep2 | .ep3 | .stretchTerm => [lev, reportedRows n north, lon]
  | _ => [reportedRows n north, lon]

end Spec

namespace ShapeCfg

variable {c : ShapeCfg} {m : ℕ}

/-- The coordinates of a variable have the specified sizes once the latitudes do. -/
theorem registry_sizes (h : c.ylatRefStates = Spec.reportedRows c.nlat c.nh) (v : DsVar) :
    (registry v).map c.coordSize = Spec.resultShape c.kmax c.nlat c.nlon c.nh v := by
  cases v <;> simp [registry, coordSize, Spec.resultShape, h]

/-- One field's share of the right shape is labelled. -/
theorem labelled_ok (other : Shape) (v : DsVar) :
    c.labelled other v (other.prod :: (registry v).map c.coordSize) = .ok (other ++ (registry v).map c.coordSize) := by
  unfold labelled Xr.asDataArray
  split_ifs with h1 h2 h3
  · rfl
  · exact absurd rfl h2
  · exact absurd rfl h3
  · rfl

theorem reportedRows_middle (h : c.Middle m) : c.ylatRefStates = Spec.reportedRows c.nlat c.nh := by
  rw [ylatRefStates_middle h, latDim_eq h.centred, Spec.reportedRows, h.2.2.1]
  cases c.nh
  · simp
  · simp only [if_true]; omega

theorem reportedRows_even (h : c.Even m) : c.ylatRefStates = Spec.reportedRows c.nlat c.nh := by
  rw [ylatRefStates_even h, Spec.reportedRows, h.2.2.1]
  cases c.nh
  · simp
  · simp only [if_true]; omega

/-- Properties on grids with the equator in the middle. -/
theorem propShape_middle (h : c.Middle m) (v : DsVar) (hv : v ≠ .ncforce) :
    c.propShape (c.uniform c.latDim) v = .ok ((registry v).map c.coordSize) := by
  have hr := ylatRefStates_middle h
  have hn : c.nA = c.nlat := by rw [h.2.2.1, h.2.2.2.1]
  cases v <;> first
    | exact absurd rfl hv
    | simp [propShape, registry, coordSize, qgpvProp, qrefProp, urefProp, baroProp, layerProp, returnInterp_middle h, hr, uniform,
        swapOuter, field, hn, ylatAnalysis_eq h.centred, bcast_col, bind, Except.bind]

/-- Properties on even grids, except for the fields themselves in northern-only mode. -/
theorem propShape_even (h : c.Even m) (v : DsVar) (hv : v ≠ .ncforce) (hy : c.nh = false ∨ CoordName.ylat ∉ registry v) :
    c.propShape (c.uniform c.latDim) v = .ok ((registry v).map c.coordSize) := by
  have e : c.returnInterp [c.latDim, c.nlon] 0 = .ok [c.ylatRefStates, c.nlon] := returnInterp_even h _ _ rfl
  have q : CoordName.ylat ∈ registry v → c.qgpvProp = .ok [c.kmax, c.nlat, c.nlon] := fun hm =>
    qgpvProp_even_global h (hy.resolve_right (fun hc => hc hm))
  cases v <;> first
    | exact absurd rfl hv
    | exact q (by simp [registry])
    | simp [propShape, registry, coordSize, qrefProp_even h, urefProp_even h, baroProp_even h, layerProp_even h, uniform, e]

end ShapeCfg

open ShapeCfg

/-! ## C126 -/

section C126

/-- C126 for one configuration: each variable of each dataset, and the forcing made from a heating rate on the input grid, is
labelled with coordinates of the specified sizes. -/
def LabelsMatch (c : ShapeCfg) (n : ℕ) (other : List ℕ) : Prop :=
  (∃ f, c.computeFluxes none = .ok f ∧ ∀ ds ∈ datasets, ∀ v ∈ ds,
    c.collect other other.prod f v = .ok (other ++ Spec.resultShape c.kmax n c.nlon c.nh v)) ∧
  c.collectHeating other other.prod [c.nlev, n, c.nlon] = .ok (other ++ Spec.resultShape c.kmax n c.nlon c.nh .ncforce)

/-- C126: on every accepted grid symmetric about an equator, in both modes and for all further dimensions. -/
def C126_Statement : Prop :=
  ∀ (n : ℕ) (ylat : ℕ → ℚ) (g : LatGrid ℚ), checkYlat n ylat = .ok g → (∃ i < n, ylat i = 0) →
    (∀ i < n, ylat (n - 1 - i) = - ylat i) →
    ∀ (nlon nlev kmax jb : ℕ) (nh : Bool) (other : List ℕ), 3 ≤ nlon → 3 ≤ nlev → 3 ≤ kmax →
      LabelsMatch (ShapeCfg.ofGrid n g nlon nlev kmax jb nh) n other

/-- No method or accessor returns `ncforce`. -/
theorem ncforce_not_returned : ∀ ds ∈ datasets, ∀ v ∈ ds, v ≠ DsVar.ncforce := by decide

theorem collect_ok {c : ShapeCfg} {other : List ℕ} {f : FluxShapes} {v : DsVar}
    (h : c.propShape f v = .ok ((registry v).map c.coordSize)) :
    c.collect other other.prod f v = .ok (other ++ (registry v).map c.coordSize) := by
  simp only [collect, h, bind, Except.bind, labelled_ok]

theorem heatingRate_middle {c : ShapeCfg} {m : ℕ} (h : c.Middle m) :
    c.heatingRate [c.nlev, c.nlat, c.nlon] = .ok [c.kmax, c.nlat, c.nlon] := by
  have hn : c.nA = c.nlat := by rw [h.2.2.1, h.2.2.2.1]
  have hz := zDeriv_ok h.centred c.nlon
  rw [hn] at hz
  simp only [heatingRate, interpAxis, List.getD_cons_zero, if_true, List.set_cons_zero, bind, Except.bind, bcast_outer, hz]

/-- C126, proved part: every dataset in both modes; the forcing in global mode. The forcing in northern-only mode is missing. -/
theorem C126_middle_partial {K : Type*} [Field K] [LinearOrder K] [IsStrictOrderedRing K]
    (n : ℕ) (ylat : ℕ → K) (g : LatGrid K) (h : checkYlat n ylat = .ok g) (h0 : ∃ i < n, ylat i = 0)
    (hs : ∀ i < n, ylat (n - 1 - i) = - ylat i) (nlon nlev kmax jb : ℕ) (nh : Bool) (other : List ℕ) :
    let c := ShapeCfg.ofGrid n g nlon nlev kmax jb nh
    (∃ f, c.computeFluxes none = .ok f ∧ ∀ ds ∈ datasets, ∀ v ∈ ds,
      c.collect other other.prod f v = .ok (other ++ Spec.resultShape kmax n nlon nh v)) ∧
    (nh = false → c.collectHeating other other.prod [nlev, n, nlon] = .ok (other ++ Spec.resultShape kmax n nlon nh .ncforce)) := by
  intro c
  obtain ⟨m, hm, hc⟩ := middle_of_check n ylat g h h0 hs nlon nlev kmax jb nh
  change c.Middle m at hc
  have hz := registry_sizes (reportedRows_middle hc)
  refine ⟨⟨c.uniform c.latDim, computeFluxes_centred hc.centred _ (returnInterp_middle hc _ _) none (Or.inl rfl),
    fun ds hd v hv => ?_⟩, fun hn => ?_⟩
  · rw [collect_ok (propShape_middle hc v (ncforce_not_returned ds hd v hv)), hz]
    rfl
  · have e : c.heatingRate [nlev, n, nlon] = .ok [kmax, n, nlon] := heatingRate_middle hc
    have s : [kmax, n, nlon] = (registry .ncforce).map c.coordSize := by
      rw [hz]
      show _ = [kmax, Spec.reportedRows n nh, nlon]
      simp [Spec.reportedRows, hn]
    simp only [collectHeating, e, bind, Except.bind]
    rw [s, labelled_ok, hz]
    rfl

/-- In northern-only mode the forcing is computed for each field and then refused, for every heating rate on the input grid. -/
theorem C126_forcing_refused {K : Type*} [Field K] [LinearOrder K] [IsStrictOrderedRing K]
    (n : ℕ) (ylat : ℕ → K) (g : LatGrid K) (h : checkYlat n ylat = .ok g) (h0 : ∃ i < n, ylat i = 0)
    (hs : ∀ i < n, ylat (n - 1 - i) = - ylat i) (nlon nlev kmax jb : ℕ) (other : List ℕ) :
    let c := ShapeCfg.ofGrid n g nlon nlev kmax jb true
    c.heatingRate [nlev, n, nlon] = .ok [kmax, n, nlon] ∧
    c.collectHeating other other.prod [nlev, n, nlon] = .error .assertionError := by
  intro c
  obtain ⟨m, hm, hc⟩ := middle_of_check n ylat g h h0 hs nlon nlev kmax jb true
  change c.Middle m at hc
  have e : c.heatingRate [nlev, n, nlon] = .ok [kmax, n, nlon] := heatingRate_middle hc
  have z : (registry .ncforce).map c.coordSize = [kmax, Spec.reportedRows n true, nlon] := registry_sizes (reportedRows_middle hc) _
  have hm1 : 1 ≤ m := hc.2.1
  have d : Spec.reportedRows n true = m + 1 := by
    unfold Spec.reportedRows
    rw [if_pos rfl]
    omega
  refine ⟨e, ?_⟩
  simp only [collectHeating, e, bind, Except.bind, labelled, z, d]
  unfold Xr.asDataArray
  have h3 : other ++ [other.prod, kmax, n, nlon].tail ≠ other ++ [kmax, m + 1, nlon] := by
    intro hc
    have := List.append_cancel_left hc
    simp at this
    omega
  have h1 : [other.prod, kmax, n, nlon] ≠ other ++ [kmax, m + 1, nlon] := by
    intro hc
    have hl := congrArg List.length hc
    simp only [List.length_cons, List.length_nil, List.length_append] at hl
    obtain ⟨a, rfl⟩ : ∃ a, other = [a] := List.length_eq_one_iff.mp (by omega)
    simp at hc
    omega
  rw [if_neg h1, if_neg (by simp), if_pos h3]
  rfl

/-- C126 is false: for instance on five latitudes with two times. -/
theorem C126_refuted : ¬ C126_Statement := by
  intro h
  obtain ⟨g, hg, h0, hs⟩ := five_accepted
  have h1 := (h 5 _ g hg h0 hs 4 3 3 0 true [2] (by norm_num) (by norm_num) (by norm_num)).2
  have h2 := (C126_forcing_refused 5 _ g hg h0 hs 4 3 3 0 [2]).2
  exact absurd (h2.symm.trans h1) (by simp)

/-- C126 on grids without equator: every dataset in global mode, and all but the fields themselves in northern-only mode. -/
theorem C126_even_partial {K : Type*} [Field K] [LinearOrder K] [IsStrictOrderedRing K]
    (n : ℕ) (ylat : ℕ → K) (g : LatGrid K) (h : checkYlat n ylat = .ok g) (h0 : ∀ i < n, ylat i ≠ 0)
    (nlon nlev kmax jb : ℕ) (nh : Bool) (other : List ℕ) :
    let c := ShapeCfg.ofGrid n g nlon nlev kmax jb nh
    (nh = false → c.computeFluxes none = .ok (c.uniform c.latDim)) ∧
    ∀ ds ∈ datasets, ∀ v ∈ ds, (nh = false ∨ v ∉ [DsVar.qgpv, .interpolatedU, .interpolatedV, .interpolatedTheta]) →
      c.collect other other.prod (c.uniform c.latDim) v = .ok (other ++ Spec.resultShape kmax n nlon nh v) := by
  intro c
  obtain ⟨m, hm, hc⟩ := even_of_check n ylat g h h0 nlon nlev kmax jb nh
  change c.Even m at hc
  refine ⟨fun hn => computeFluxes_centred hc.centred _ (qgpvProp_even_global hc hn) none (Or.inl rfl), fun ds hd v hv hy => ?_⟩
  have hy' : c.nh = false ∨ CoordName.ylat ∉ registry v := by
    rcases hy with hy | hy
    · exact Or.inl hy
    · right
      cases v <;> first
        | exact (by decide)
        | exact absurd (by decide) hy
  rw [collect_ok (propShape_even hc v (ncforce_not_returned ds hd v hv) hy'), registry_sizes (reportedRows_even hc)]
  rfl

/-- Whatever is labelled has as many elements as were computed. -/
theorem C126_no_loss (c : ShapeCfg) (other : List ℕ) (v : DsVar) (s r : List ℕ)
    (h : c.labelled other v (other.prod :: s) = .ok r) : r.prod = other.prod * s.prod := by
  unfold labelled Xr.asDataArray at h
  split_ifs at h with h1 h2 h3
  · cases h
    show (other ++ _).prod = _
    rw [← h1, List.prod_cons]
  · cases h
  · cases h
  · cases h
    show (other ++ _).prod = _
    rw [← not_not.mp h3, List.prod_append, List.tail_cons]

/-- The hypotheses hold for five latitudes with an equator and for 180 latitudes without. -/
example : ∃ (ylat : ℕ → ℚ) (g : LatGrid ℚ), checkYlat 5 ylat = .ok g ∧ (∃ i < 5, ylat i = 0) ∧ ∀ i < 5, ylat (5 - 1 - i) = - ylat i := by
  obtain ⟨g, hg, h0, hs⟩ := five_accepted
  exact ⟨_, g, hg, h0, hs⟩
example : ∃ (ylat : ℕ → ℚ) (g : LatGrid ℚ), checkYlat 180 ylat = .ok g ∧ ∀ i < 180, ylat i ≠ 0 := by
  obtain ⟨g, h1, h2⟩ := even_accepted 90 (by norm_num)
  exact ⟨_, g, h1, h2⟩

end C126

end Falwa
