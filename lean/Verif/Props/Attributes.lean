import Verif.Model.Attributes

/-! # C204: attributes of variables converted from hybrid levels -/

namespace Falwa.Script

variable {β : Type} {var w : String} {val : β} {ds dsCopy : Variables β} {x : Variable β}

/-- The text that line 145 intends as description. -/
def descriptionOf (var : String) : String := var ++ " interpolated from model levels to pressure coords in hPa"

/-- The attributes `a` with the description set. -/
def withDescription (a : Attributes) (var : String) : Attributes := fun k => if k = "description" then some (descriptionOf var) else a k

/-- The converted variable has the attributes of the original and the description; the dataset of the model is not changed. -/
def C204_Statement : Prop :=
  ∀ (var : String) (val : ℕ) (ds dsCopy : Variables ℕ) (x : Variable ℕ), ds var = some x →
    ∃ out, updateNewVariable var val ds dsCopy none = .ok (ds, out) ∧ out var = some ⟨val, withDescription x.attrs var⟩

theorem update_describe (a : Attributes) (var : String) : (a.update (describe var)).1 = withDescription a var := by
  funext k
  show (describe var k).or (a k) = _
  unfold describe withDescription descriptionOf
  by_cases h : k = "description"
  · rw [if_pos h, if_pos h]
    rfl
  · rw [if_neg h, if_neg h]
    rfl

theorem updateNewVariable_none (h : ds var = some x) (val : β) (dsCopy : Variables β) :
    updateNewVariable var val ds dsCopy none =
      .ok (ds.set var ⟨x.val, withDescription x.attrs var⟩, dsCopy.set var ⟨val, fun _ => none⟩) := by
  unfold updateNewVariable
  rw [h]
  show Except.ok (ds.set var ⟨x.val, (x.attrs.update (describe var)).1⟩, dsCopy.set var ⟨val, fun _ => none⟩) = _
  rw [update_describe]

/-- **C204, what is written.** Every call that returns writes the given values without any attribute, whatever attributes were to be kept. -/
theorem C204_written_partial {d : Option Attributes} {r : Variables β × Variables β} (h : updateNewVariable var val ds dsCopy d = .ok r) :
    r.2 var = some ⟨val, fun _ => none⟩ ∧ ∀ w, w ≠ var → r.2 w = dsCopy w := by
  have key : ∀ w, w ≠ var → (dsCopy.set var ⟨val, fun _ => none⟩) w = dsCopy w := fun w hw => if_neg hw
  have here : (dsCopy.set var ⟨val, fun _ => none⟩) var = some ⟨val, fun _ => none⟩ := if_pos rfl
  cases d with
  | none =>
    cases hx : ds var with
    | none =>
      unfold updateNewVariable at h
      rw [hx] at h
      cases h
    | some x =>
      rw [updateNewVariable_none hx] at h
      cases h
      exact ⟨here, key⟩
  | some a =>
    cases h
    exact ⟨here, key⟩

/-- **C204, what is changed.** The description ends up in the dataset of the model: the call succeeds exactly if the variable exists, its values and
its other attributes stay, and no other variable changes. -/
theorem C204_changed_partial (val : β) (ds dsCopy : Variables β) (var : String) :
    (ds var = none → updateNewVariable var val ds dsCopy none = .error .keyError) ∧
      ∀ x, ds var = some x → ∃ r, updateNewVariable var val ds dsCopy none = .ok r ∧
        r.1 var = some ⟨x.val, withDescription x.attrs var⟩ ∧ ∀ w, w ≠ var → r.1 w = ds w := by
  refine ⟨fun h => ?_, fun x h => ⟨_, updateNewVariable_none h val dsCopy, if_pos rfl, fun w hw => if_neg hw⟩⟩
  unfold updateNewVariable
  rw [h]

/-- What the loop over variables leaves behind: in the converted dataset the variables of the list have the interpolated values and no attributes,
and so has `topo`, if any; in the dataset of the model, exactly these variables have got a description. -/
structure Converted (items : List (String × β × Option β)) (ds dsCopy : Variables β) (r : Variables β × Variables β) : Prop where
  written : ∀ i ∈ items, r.2 i.1 = some ⟨i.2.1, fun _ => none⟩
  topo : (∃ i ∈ items, i.2.2 ≠ none) → ∃ t, r.2 "topo" = some ⟨t, fun _ => none⟩
  kept : ∀ w, (∀ i ∈ items, i.1 ≠ w) → (w = "topo" → ∀ i ∈ items, i.2.2 = none) → r.2 w = dsCopy w
  described : ∀ i ∈ items, ∀ x, ds i.1 = some x → r.1 i.1 = some ⟨x.val, withDescription x.attrs i.1⟩
  others : ∀ w, (∀ i ∈ items, i.1 ≠ w) → r.1 w = ds w

/-- **C204, all variables of a run**, for every list of different names other than `topo`. -/
theorem C204_run_partial (items : List (String × β × Option β)) (hn : (items.map fun i => i.1).Nodup) (ht : ∀ i ∈ items, i.1 ≠ "topo") :
    ∀ ds dsCopy : Variables β, (∀ i ∈ items, ds i.1 ≠ none) → ∃ r, convertAll items ds dsCopy = .ok r ∧ Converted items ds dsCopy r := by
  induction items with
  | nil =>
    exact fun ds dsCopy _ => ⟨(ds, dsCopy), rfl, by simp, by simp, fun _ _ _ => rfl, by simp, fun _ _ => rfl⟩
  | cons i rest ih =>
    obtain ⟨var, val, topo⟩ := i
    intro ds dsCopy hd
    have hn' : (rest.map fun i => i.1).Nodup := (List.nodup_cons.1 hn).2
    have fresh : ∀ i ∈ rest, i.1 ≠ var := fun i hi e => (List.nodup_cons.1 hn).1 (List.mem_map.2 ⟨i, hi, e⟩)
    have ht' : ∀ i ∈ rest, i.1 ≠ "topo" := fun i hi => ht i (List.mem_cons_of_mem _ hi)
    have hv : var ≠ "topo" := ht _ List.mem_cons_self
    obtain ⟨x, hx⟩ := Option.ne_none_iff_exists'.1 (hd _ List.mem_cons_self)
    change ds var = some x at hx
    have hd1 : ∀ i ∈ rest, (ds.set var ⟨x.val, withDescription x.attrs var⟩) i.1 ≠ none := fun i hi => by
      show (if i.1 = var then _ else ds i.1) ≠ none
      rw [if_neg (fresh i hi)]
      exact hd i (List.mem_cons_of_mem _ hi)
    have e1 : convertAll ((var, val, topo) :: rest) ds dsCopy =
        match topo with
        | none => convertAll rest (ds.set var ⟨x.val, withDescription x.attrs var⟩) (dsCopy.set var ⟨val, fun _ => none⟩)
        | some t => convertAll rest (ds.set var ⟨x.val, withDescription x.attrs var⟩)
            ((dsCopy.set var ⟨val, fun _ => none⟩).set "topo" ⟨t, fun _ => none⟩) := by
      show (updateNewVariable var val ds dsCopy none).bind _ = _
      rw [updateNewVariable_none hx]
      cases topo <;> rfl
    have finish : ∀ (out : Variables β) (r : Variables β × Variables β), out var = some ⟨val, fun _ => none⟩ →
        (∀ w, w ≠ var → (w = "topo" → topo = none) → out w = dsCopy w) → (topo ≠ none → ∃ t, out "topo" = some ⟨t, fun _ => none⟩) →
        Converted rest (ds.set var ⟨x.val, withDescription x.attrs var⟩) out r → Converted ((var, val, topo) :: rest) ds dsCopy r := by
      intro out r h1 h2 h3 c
      refine ⟨fun i hi => ?_, fun h => ?_, fun w h h' => ?_, fun i hi y hy => ?_, fun w h => ?_⟩
      · rcases List.mem_cons.1 hi with rfl | hi
        · show r.2 var = _
          rw [c.kept var fresh fun e => absurd e hv, h1]
        · exact c.written i hi
      · by_cases hr : ∃ i ∈ rest, i.2.2 ≠ none
        · exact c.topo hr
        · have h0 : ∀ i ∈ rest, i.2.2 = none := fun i hi => by
            by_contra h
            exact hr ⟨i, hi, h⟩
          obtain ⟨i, hi, hi'⟩ := h
          rcases List.mem_cons.1 hi with rfl | hi
          · obtain ⟨t, ht⟩ := h3 hi'
            exact ⟨t, by rw [c.kept "topo" ht' fun _ => h0, ht]⟩
          · exact absurd (h0 i hi) hi'
      · rw [c.kept w (fun i hi => h i (List.mem_cons_of_mem _ hi)) fun e i hi => h' e i (List.mem_cons_of_mem _ hi)]
        exact h2 w (h _ List.mem_cons_self).symm fun e => h' e _ List.mem_cons_self
      · rcases List.mem_cons.1 hi with rfl | hi
        · show r.1 var = _
          change ds var = some y at hy
          rw [c.others var fresh]
          rw [hx] at hy
          cases hy
          exact if_pos rfl
        · refine c.described i hi y ?_
          show (if i.1 = var then _ else ds i.1) = _
          rw [if_neg (fresh i hi)]
          exact hy
      · rw [c.others w fun i hi => h i (List.mem_cons_of_mem _ hi)]
        exact if_neg (h _ List.mem_cons_self).symm
    rw [e1]
    cases topo with
    | none =>
      obtain ⟨r, hr, c⟩ := ih hn' ht' _ (dsCopy.set var ⟨val, fun _ => none⟩) hd1
      exact ⟨r, hr, finish _ r (if_pos rfl) (fun w hw _ => if_neg hw) (fun h => absurd rfl h) c⟩
    | some t =>
      obtain ⟨r, hr, c⟩ := ih hn' ht' _ ((dsCopy.set var ⟨val, fun _ => none⟩).set "topo" ⟨t, fun _ => none⟩) hd1
      refine ⟨r, hr, finish _ r ?_ (fun w hw h => ?_) (fun _ => ⟨t, if_pos rfl⟩) c⟩
      · show (if var = "topo" then _ else (dsCopy.set var ⟨val, fun _ => none⟩) var) = _
        rw [if_neg hv]
        exact if_pos rfl
      · show (if w = "topo" then _ else (dsCopy.set var ⟨val, fun _ => none⟩) w) = _
        rw [if_neg fun e => by cases h e]
        exact if_neg hw

/-- A wind with its units. -/
def windFile : Variables ℕ := fun w => if w = "U" then some ⟨5, fun k => if k = "units" then some "m/s" else none⟩ else none

/-- **C204 is violated**: the converted wind has lost its units. -/
theorem C204_refuted : ¬ C204_Statement := fun h => by
  obtain ⟨out, h1, h2⟩ := h "U" 7 windFile (fun _ => none) _ (if_pos rfl)
  have h3 := (C204_written_partial h1).1
  change out "U" = _ at h3
  rw [h2] at h3
  have h4 := congrFun (congrArg Variable.attrs (Option.some.inj h3)) "units"
  simp [withDescription] at h4

/-- Hypotheses of `C204_run_partial`: the wind with a topography. -/
example : ∃ r, convertAll [("U", 7, some 1)] windFile (fun _ => none) = .ok r ∧ r.2 "U" = some ⟨7, fun _ => none⟩ ∧
    ∃ x, r.1 "U" = some x ∧ x.attrs "units" = some "m/s" ∧ x.attrs "description" = some (descriptionOf "U") := by
  obtain ⟨r, hr, c⟩ := C204_run_partial [("U", 7, some 1)] (by simp) (by simp) windFile (fun _ => none) (by simp [windFile])
  refine ⟨r, hr, c.written _ List.mem_cons_self, _, c.described _ List.mem_cons_self _ (if_pos rfl), ?_, ?_⟩
  · simp [withDescription]
  · simp [withDescription]

/-- Hypotheses of `C204_written_partial` and `C204_changed_partial`. -/
example : ∃ r, updateNewVariable "U" 7 windFile (fun _ => none) none = .ok r ∧ r.2 "U" = some ⟨7, fun _ => none⟩ ∧ r.1 "V" = none := by
  obtain ⟨r, hr, _, ho⟩ := (C204_changed_partial 7 windFile (fun _ => none) "U").2 _ (if_pos rfl)
  refine ⟨r, hr, (C204_written_partial hr).1, ?_⟩
  rw [ho "V" (by decide)]
  exact if_neg (by decide)

end Falwa.Script
