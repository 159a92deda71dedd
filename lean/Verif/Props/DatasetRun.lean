import Verif.Model.DatasetRun
import Verif.Props.Protocol

/-! # C155: the fields of a `QGDataset` are independent, and its variables are complete -/

namespace Falwa

variable {D : Type*} {C : QGConfig} {data : ℕ → D}

/-! ### The loop -/

theorem dsLoop_length (f : ℕ → Option (QGOp D)) (i : ℕ) (ss : List (QGState D)) : (dsLoop C f i ss).1.length = ss.length := by
  induction ss generalizing i with
  | nil => rfl
  | cons s ss ih =>
    unfold dsLoop
    split
    · rfl
    · rw [List.length_cons, ih, List.length_cons]

theorem dsStep_fst (ss : List (QGState D)) (op : DsOp) (ret : Bool) :
    (dsStep C data ss op ret).1 = (dsLoop C (fun i => op.field data i) 0 ss).1 := by
  unfold dsStep
  split
  · rename_i h
    rw [h]
  · rename_i h
    rw [h]

theorem dsLoop_spec (f : ℕ → Option (QGOp D)) (j : ℕ) (ss : List (QGState D)) :
    ((dsLoop C f j ss).2 = .ok () ∧ ∀ i s, ss[i]? = some s → (fieldCall C s (f (j + i))).2 = .ok () ∧
        (dsLoop C f j ss).1[i]? = some (fieldCall C s (f (j + i))).1) ∨
    ∃ k s e, ss[k]? = some s ∧ (fieldCall C s (f (j + k))).2 = .error e ∧ (dsLoop C f j ss).2 = .error e ∧
      (∀ i t, ss[i]? = some t → i < k → (fieldCall C t (f (j + i))).2 = .ok ()) ∧
      (∀ i t, ss[i]? = some t → i ≤ k → (dsLoop C f j ss).1[i]? = some (fieldCall C t (f (j + i))).1) ∧
      ∀ i t, ss[i]? = some t → k < i → (dsLoop C f j ss).1[i]? = some t := by
  induction ss generalizing j with
  | nil => exact Or.inl ⟨rfl, fun i s h => absurd h (by simp)⟩
  | cons s ss ih =>
    cases hc : fieldCall C s (f j) with
    | mk s' r =>
      cases r with
      | error e =>
        have hu : dsLoop C f j (s :: ss) = (s' :: ss, .error e) := by
          simp only [dsLoop, hc]
        refine Or.inr ⟨0, s, e, rfl, by rw [Nat.add_zero j, hc], by rw [hu], fun i t _ h => absurd h (Nat.not_lt_zero _),
          fun i t ht h => ?_, fun i t ht h => ?_⟩
        · obtain rfl : i = 0 := Nat.le_zero.1 h
          obtain rfl : s = t := by simpa using ht
          rw [hu, Nat.add_zero j, hc]
          rfl
        · obtain ⟨i, rfl⟩ : ∃ k, i = k + 1 := ⟨i - 1, by omega⟩
          rw [hu]
          simpa using ht
      | ok u =>
        have hu : dsLoop C f j (s :: ss) = (s' :: (dsLoop C f (j + 1) ss).1, (dsLoop C f (j + 1) ss).2) := by
          simp only [dsLoop, hc]
        rcases ih (j + 1) with ⟨h1, h2⟩ | ⟨k, t, e, h1, h2, h3, h4, h5, h6⟩
        · refine Or.inl ⟨by rw [hu]; exact h1, fun i t ht => ?_⟩
          cases i with
          | zero =>
            obtain rfl : s = t := by simpa using ht
            rw [hu, Nat.add_zero j, hc]
            exact ⟨rfl, rfl⟩
          | succ i =>
            have := h2 i t (by simpa using ht)
            rw [show j + 1 + i = j + (i + 1) by omega] at this
            rw [hu]
            exact ⟨this.1, by simpa using this.2⟩
        · refine Or.inr ⟨k + 1, t, e, by simpa using h1, by rw [show j + (k + 1) = j + 1 + k by omega]; exact h2, by rw [hu]; exact h3,
            fun i x hx hi => ?_, fun i x hx hi => ?_, fun i x hx hi => ?_⟩
          · cases i with
            | zero =>
              obtain rfl : s = x := by simpa using hx
              rw [Nat.add_zero j, hc]
            | succ i =>
              rw [show j + (i + 1) = j + 1 + i by omega]
              exact h4 i x (by simpa using hx) (by omega)
          · cases i with
            | zero =>
              obtain rfl : s = x := by simpa using hx
              rw [hu, Nat.add_zero j, hc]
              rfl
            | succ i =>
              rw [hu, show j + (i + 1) = j + 1 + i by omega]
              simpa using h5 i x (by simpa using hx) (by omega)
          · cases i with
            | zero => omega
            | succ i =>
              rw [hu]
              simpa using h6 i x (by simpa using hx) (by omega)

theorem fieldCall_state (s : QGState D) (op : QGOp D) : (fieldCall C s (some op)).1 = (qgStep C s op).state := by
  cases op <;> rfl

/-- C155, effect of a call: either no field raises and every field has executed its own call, or exactly the fields up to the first
one that raises have executed theirs, the others are as before, and the exception of that field comes out. -/
theorem C155_call (ss : List (QGState D)) (op : DsOp) (ret : Bool) :
    (∀ i s, ss[i]? = some s → ∃ o, op.field data i = some o ∧ (fieldCall C s (some o)).2 = .ok () ∧
      (dsStep C data ss op ret).1[i]? = some (qgStep C s o).state) ∨
    ∃ k s e, ss[k]? = some s ∧ (fieldCall C s (op.field data k)).2 = .error e ∧ (dsStep C data ss op ret).2 = .error e ∧
      (∀ i t, ss[i]? = some t → i < k → ∃ o, op.field data i = some o ∧ (fieldCall C t (some o)).2 = .ok () ∧
        (dsStep C data ss op ret).1[i]? = some (qgStep C t o).state) ∧
      (dsStep C data ss op ret).1[k]? = some (fieldCall C s (op.field data k)).1 ∧
      ∀ i t, ss[i]? = some t → k < i → (dsStep C data ss op ret).1[i]? = some t := by
  have key : ∀ i s, (fieldCall C s (op.field data i)).2 = .ok () → ∃ o, op.field data i = some o ∧ (fieldCall C s (some o)).2 = .ok () ∧
      (fieldCall C s (op.field data i)).1 = (qgStep C s o).state := by
    intro i s h
    cases ho : op.field data i with
    | none => rw [ho] at h; exact absurd h (by simp [fieldCall])
    | some o => exact ⟨o, rfl, by rw [← ho]; exact h, fieldCall_state s o⟩
  rw [dsStep_fst]
  rcases dsLoop_spec (C := C) (fun i => op.field data i) 0 ss with ⟨_, h2⟩ | ⟨k, s, e, h1, h2, h3, h4, h5, h6⟩
  · refine Or.inl fun i s hs => ?_
    obtain ⟨a, b⟩ := h2 i s hs
    rw [Nat.zero_add] at a b
    obtain ⟨o, o1, o2, o3⟩ := key i s a
    exact ⟨o, o1, o2, by rw [b, o3]⟩
  · refine Or.inr ⟨k, s, e, h1, by rw [Nat.zero_add] at h2; exact h2, ?_, fun i t ht hi => ?_, ?_, h6⟩
    · unfold dsStep
      split
      · rename_i e' h
        rw [h] at h3
        exact h3
      · rename_i h
        rw [h] at h3
        exact absurd h3 (by simp)
    · have a := h4 i t ht hi
      have b := h5 i t ht hi.le
      rw [Nat.zero_add] at a b
      obtain ⟨o, o1, o2, o3⟩ := key i t a
      exact ⟨o, o1, o2, by rw [b, o3]⟩
    · have b := h5 k s h1 le_rfl
      rwa [Nat.zero_add] at b

/-! ### Sessions -/

theorem dsRun_snoc (ss : List (QGState D)) (ops : List (DsOp × Bool)) (o : DsOp × Bool) :
    dsRun C data ss (ops ++ [o]) = (dsStep C data (dsRun C data ss ops) o.1 o.2).1 := by
  unfold dsRun
  rw [List.foldl_append]
  rfl

theorem dsRun_length (n : ℕ) (ops : List (DsOp × Bool)) : (dsRun C data (dsFresh n) ops).length = n := by
  induction ops using List.reverseRecOn with
  | nil => exact List.length_replicate
  | append_singleton ops o ih => rw [dsRun_snoc, dsStep_fst, dsLoop_length, ih]

/-- The calls that field `i` would get on its own. -/
def callsOf (data : ℕ → D) (i : ℕ) (ops : List (DsOp × Bool)) : List (QGOp D) := ops.filterMap fun o => o.1.field data i

/-- C155, independence: after every session each field is in a state that a single field of the same input reaches with some of the
calls, in the same order. No field is influenced by data of another one. -/
theorem C155_independent (n : ℕ) (ops : List (DsOp × Bool)) {i : ℕ} {s : QGState D}
    (hs : (dsRun C data (dsFresh n) ops)[i]? = some s) :
    ∃ l, l.Sublist (callsOf data i ops) ∧ s = qgRun C QGState.fresh l := by
  induction ops using List.reverseRecOn generalizing s with
  | nil =>
    refine ⟨[], List.Sublist.refl _, ?_⟩
    have h : (List.replicate n (QGState.fresh : QGState D))[i]? = some s := hs
    rw [List.getElem?_replicate] at h
    split at h
    · exact (Option.some.inj h).symm
    · exact absurd h (by simp)
  | append_singleton ops o ih =>
    have hlt : i < (dsRun C data (dsFresh n) ops).length := by
      have a := lt_length_of_getElem? hs
      rwa [dsRun_length] at a ⊢
    obtain ⟨l, l1, l2⟩ := ih (List.getElem?_eq_getElem hlt)
    have grow : (callsOf data i ops).Sublist (callsOf data i (ops ++ [o])) := by
      unfold callsOf
      rw [List.filterMap_append]
      exact List.sublist_append_left _ _
    have same : ∀ t, (dsRun C data (dsFresh n) ops)[i]? = some t → s = t →
        ∃ l, l.Sublist (callsOf data i (ops ++ [o])) ∧ s = qgRun C QGState.fresh l := by
      intro t ht e
      refine ⟨l, l1.trans grow, ?_⟩
      rw [e, ← l2]
      rw [List.getElem?_eq_getElem hlt] at ht
      exact (Option.some.inj ht).symm
    have more : ∀ t q, (dsRun C data (dsFresh n) ops)[i]? = some t → o.1.field data i = some q → s = (qgStep C t q).state →
        ∃ l, l.Sublist (callsOf data i (ops ++ [o])) ∧ s = qgRun C QGState.fresh l := by
      intro t q ht hq e
      refine ⟨l ++ [q], ?_, ?_⟩
      · unfold callsOf
        rw [List.filterMap_append]
        refine List.Sublist.append l1 ?_
        simp only [List.filterMap_cons, hq, List.filterMap_nil]
        exact List.Sublist.refl _
      · rw [qgRun_snoc, e, ← l2]
        rw [List.getElem?_eq_getElem hlt] at ht
        rw [Option.some.inj ht]
    rw [dsRun_snoc] at hs
    have ht := List.getElem?_eq_getElem hlt
    rcases C155_call (C := C) (data := data) (dsRun C data (dsFresh n) ops) o.1 o.2 with h | ⟨k, u, e, h1, h2, _, h4, h5, h6⟩
    · obtain ⟨q, q1, _, q3⟩ := h i _ ht
      exact more _ q ht q1 (Option.some.inj (hs.symm.trans q3))
    · rcases Nat.lt_trichotomy i k with c | c | c
      · obtain ⟨q, q1, _, q3⟩ := h4 i _ ht c
        exact more _ q ht q1 (Option.some.inj (hs.symm.trans q3))
      · subst c
        have e1 := Option.some.inj (hs.symm.trans h5)
        cases hq : o.1.field data i with
        | none =>
          rw [hq] at e1
          exact same u h1 e1
        | some q =>
          rw [hq, fieldCall_state] at e1
          exact more u q h1 hq e1
      · exact same _ ht (Option.some.inj (hs.symm.trans (h6 i _ ht c)))

/-- The loop of a call raises in no field. -/
def NoRaise (C : QGConfig) (data : ℕ → D) (ss : List (QGState D)) (op : DsOp) : Prop :=
  ∀ i s, ss[i]? = some s → (fieldCall C s (op.field data i)).2 = .ok ()

/-- No call of the session raises in a field. -/
def Smooth (C : QGConfig) (data : ℕ → D) (n : ℕ) (ops : List (DsOp × Bool)) : Prop :=
  ∀ (pre : List (DsOp × Bool)) (o : DsOp × Bool) (post : List (DsOp × Bool)), ops = pre ++ o :: post →
    NoRaise C data (dsRun C data (dsFresh n) pre) o.1

theorem Smooth.init {n : ℕ} {ops : List (DsOp × Bool)} {o : DsOp × Bool} (h : Smooth C data n (ops ++ [o])) :
    Smooth C data n ops ∧ NoRaise C data (dsRun C data (dsFresh n) ops) o.1 :=
  ⟨fun pre o' post e => h pre o' (post ++ [o]) (by rw [e]; simp), h ops o [] rfl⟩

theorem NoRaise.call {ss : List (QGState D)} {op : DsOp} (h : NoRaise C data ss op) (ret : Bool) {i : ℕ} {s : QGState D}
    (hs : ss[i]? = some s) : ∃ o, op.field data i = some o ∧ (fieldCall C s (some o)).2 = .ok () ∧
      (dsStep C data ss op ret).1[i]? = some (qgStep C s o).state := by
  rcases C155_call (C := C) (data := data) ss op ret with c | ⟨k, u, e, h1, h2, _⟩
  · exact c i s hs
  · have := h k u h1
    rw [h2] at this
    exact absurd this (by simp)

/-- C155, sessions without exceptions: every field is in the state of a single field that gets all of the calls. -/
theorem C155_sessions {n : ℕ} {ops : List (DsOp × Bool)} (h : Smooth C data n ops) {i : ℕ} (hi : i < n) :
    (dsRun C data (dsFresh n) ops)[i]? = some (qgRun C QGState.fresh (callsOf data i ops)) := by
  induction ops using List.reverseRecOn with
  | nil =>
    show (List.replicate n (QGState.fresh : QGState D))[i]? = _
    rw [List.getElem?_replicate, if_pos hi]
    rfl
  | append_singleton ops o ih =>
    obtain ⟨h1, h2⟩ := h.init
    obtain ⟨q, q1, _, q3⟩ := h2.call o.2 (ih h1)
    rw [dsRun_snoc, q3]
    congr 1
    unfold callsOf
    rw [List.filterMap_append]
    simp only [List.filterMap_cons, q1, List.filterMap_nil]
    rw [qgRun_snoc]

/-- C155, own data: in sessions without exceptions the state of a field depends on its own input only. -/
theorem C155_own_data {data' : ℕ → D} {n m : ℕ} {ops : List (DsOp × Bool)} (h : Smooth C data n ops) (h' : Smooth C data' m ops) {i : ℕ}
    (hi : i < n) (hi' : i < m) (hd : data i = data' i) :
    (dsRun C data (dsFresh n) ops)[i]? = (dsRun C data' (dsFresh m) ops)[i]? := by
  rw [C155_sessions h hi, C155_sessions h' hi']
  congr 2
  unfold callsOf
  congr 1
  funext o
  cases o.1 <;> simp [DsOp.field, hd]

/-! ### Complete variables -/

/-- The group of results was computed by the field: it does not hold the initial contents. -/
def QGState.Holds (s : QGState D) : ResultName → Prop
  | .interpolated => s.fields.isSome
  | .refStates => s.refN.isSome
  | .barotropic => s.baroLwa.isSome
  | .lwa3d => s.lwa.isSome
  | .layerwise => s.layer.isSome

/-- C155: a variable of the dataset that can be read was computed in all fields or in none. -/
def C155_Statement : Prop :=
  ∀ (C : QGConfig) (data : ℕ → ℕ) (n : ℕ) (ops : List (DsOp × Bool)) (r : ResultName),
    collectAll C r (dsRun C data (dsFresh n) ops) = .ok () →
    (∀ s ∈ dsRun C data (dsFresh n) ops, s.Holds r) ∨ ∀ s ∈ dsRun C data (dsFresh n) ops, ¬ s.Holds r

theorem collectAll_ok {r : ResultName} {ss : List (QGState D)} : collectAll C r ss = .ok () ↔ ∀ s ∈ ss, doRead C s r = .ok () := by
  induction ss with
  | nil => exact ⟨fun _ s h => absurd h (by simp), fun _ => rfl⟩
  | cons s ss ih =>
    unfold collectAll
    cases h : doRead C s r with
    | error e =>
      simp only [bind, Except.bind]
      exact ⟨fun c => absurd c (by simp), fun c => by
        have := c s (by simp)
        rw [h] at this
        exact this⟩
    | ok u =>
      simp only [bind, Except.bind]
      rw [ih]
      constructor
      · intro c t ht
        rcases List.mem_cons.1 ht with rfl | ht
        · exact h
        · exact c t ht
      · exact fun c t ht => c t (List.mem_cons_of_mem _ ht)

theorem south_frame (s : QGState D) (d : D) (n : ℕ) :
    (refSouthNH18 C s d n).state.fields = s.fields ∧ (refSouthNH18 C s d n).state.baroLwa = s.baroLwa ∧
    (refSouthNH18 C s d n).state.lwa = s.lwa ∧ (refSouthNH18 C s d n).state.layer = s.layer ∧
    (refSouthNH18 C s d n).state.layerDone = s.layerDone ∧ (refSouthNH18 C s d n).state.refN = s.refN := by
  unfold refSouthNH18 notify
  split_ifs <;> exact ⟨rfl, rfl, rfl, rfl, rfl, rfl⟩

/-- `_compute_reference_states` leaves fields and results alone and stores a northern state. -/
theorem inner_frame (s : QGState D) (d : D) (n m : ℕ) :
    (refInner C s d n m).state.fields = s.fields ∧ (refInner C s d n m).state.baroLwa = s.baroLwa ∧
    (refInner C s d n m).state.lwa = s.lwa ∧ (refInner C s d n m).state.layer = s.layer ∧
    (refInner C s d n m).state.layerDone = s.layerDone ∧ (refInner C s d n m).state.refN.isSome := by
  unfold refInner
  cases C.kind with
  | nhn22 => exact ⟨rfl, rfl, rfl, rfl, rfl, rfl⟩
  | nh18 =>
    simp only
    split_ifs
    · unfold notify
      by_cases hr : C.raiseErr = true
      · simp [hr]
      · simp only [hr]
        obtain ⟨a, b, c, e, f, g⟩ := south_frame (C := C) { { s with refN := some (d, n) } with nonconv := true } d m
        exact ⟨a, b, c, e, f, congrArg Option.isSome g⟩
    · obtain ⟨a, b, c, e, f, g⟩ := south_frame (C := C) { s with refN := some (d, n) } d m
      exact ⟨a, b, c, e, f, congrArg Option.isSome g⟩

/-- `compute_reference_states` leaves fields and results alone and stores a northern state if it returns. -/
theorem ref_frame (s : QGState D) (n m : ℕ) :
    (doRefStates C s n m).state.fields = s.fields ∧ (doRefStates C s n m).state.baroLwa = s.baroLwa ∧
    (doRefStates C s n m).state.lwa = s.lwa ∧ (doRefStates C s n m).state.layer = s.layer ∧
    (doRefStates C s n m).state.layerDone = s.layerDone ∧
    ((doRefStates C s n m).result = .ok () → (doRefStates C s n m).state.refN.isSome) := by
  unfold doRefStates
  split
  · exact ⟨rfl, rfl, rfl, rfl, rfl, fun h => absurd h (by simp)⟩
  · exact ⟨rfl, rfl, rfl, rfl, rfl, fun h => absurd h (by simp)⟩
  · rename_i d _ _
    obtain ⟨a, b, c, e, f, g⟩ := inner_frame (C := C) s d n m
    simp only
    split
    · exact ⟨a, b, c, e, f, fun _ => g⟩
    · simp only
      split_ifs <;> exact ⟨a, b, c, e, f, fun _ => g⟩

/-- Layerwise terms are there if the flag is set. -/
theorem layer_of_done (l : List (QGOp D)) (h : (qgRun C QGState.fresh l).layerDone = true) :
    (qgRun C QGState.fresh l).layer.isSome := by
  induction l using List.reverseRecOn with
  | nil => exact absurd h (by simp [qgRun, QGState.fresh])
  | append_singleton l o ih =>
    rw [qgRun_snoc] at h ⊢
    generalize qgRun C QGState.fresh l = s at ih h ⊢
    cases o with
    | interpolate d => exact ih h
    | refStates n m =>
      have e : (qgStep C s (.refStates n m)).state.layerDone = s.layerDone ∧ (qgStep C s (.refStates n m)).state.layer = s.layer := by
        obtain ⟨_, _, _, e4, e5, _⟩ := ref_frame (C := C) s n m
        exact ⟨e5, e4⟩
      rw [e.1] at h
      rw [e.2]
      exact ih h
    | fluxes nc =>
      have e : (qgStep C s (.fluxes nc)).state.layerDone = s.layerDone ∧ (qgStep C s (.fluxes nc)).state.layer = s.layer := by
        simp only [qgStep, doFluxes]
        split
        · exact ⟨rfl, rfl⟩
        · split_ifs <;> exact ⟨rfl, rfl⟩
      rw [e.1] at h
      rw [e.2]
      exact ih h
    | lwaOnly =>
      have e : (qgStep C s .lwaOnly).state.layerDone = s.layerDone ∧ (qgStep C s .lwaOnly).state.layer = s.layer := by
        simp only [qgStep, doLwaOnly]
        split <;> exact ⟨rfl, rfl⟩
      rw [e.1] at h
      rw [e.2]
      exact ih h
    | layerwise nc =>
      cases hf : s.fields with
      | none =>
        simp only [qgStep, doLayerwise, hf] at h ⊢
        exact ih h
      | some d =>
        simp only [qgStep, doLayerwise, hf] at h ⊢
        cases nc with
        | wrongShape => exact ih h
        | absent =>
          by_cases hg : C.evenGrid = true
          · simp only [hg, if_true] at h ⊢
            exact ih h
          · simp [hg, currentProv, hf]
        | fits => simp [currentProv, hf]
    | read r => exact ih h

/-- C155, partial: interpolated fields and layerwise terms that can be read are complete, after every session. Missing: the other
groups (`C155_refuted`). -/
theorem C155_guarded_partial (n : ℕ) (ops : List (DsOp × Bool)) {r : ResultName} (hr : r = .interpolated ∨ r = .layerwise)
    (h : collectAll C r (dsRun C data (dsFresh n) ops) = .ok ()) : ∀ s ∈ dsRun C data (dsFresh n) ops, s.Holds r := by
  intro s hs
  have hd := collectAll_ok.1 h s hs
  obtain ⟨i, hi⟩ := List.mem_iff_getElem?.1 hs
  obtain ⟨l, _, rfl⟩ := C155_independent n ops hi
  rcases hr with rfl | rfl
  · obtain ⟨⟨d, hd⟩, _⟩ := (qgpvRead_ok C _).1 hd
    show (qgRun C QGState.fresh l).fields.isSome
    rw [hd]
    rfl
  · refine layer_of_done l ?_
    by_contra c
    have : doRead C (qgRun C QGState.fresh l) .layerwise = .error .valueError := by
      unfold doRead
      rw [if_neg c]
    rw [this] at hd
    exact absurd hd (by simp)

/-- The methods that compute a group. -/
def DsOp.Makes : DsOp → ResultName → Prop
  | interpolate, .interpolated => True
  | refStates _, .refStates => True
  | fluxes _, .barotropic => True
  | fluxes _, .lwa3d => True
  | lwaOnly, .barotropic => True
  | lwaOnly, .lwa3d => True
  | layerwise _, .lwa3d => True
  | layerwise _, .layerwise => True
  | _, _ => False

/-- A call without exception computes exactly its groups. -/
theorem holds_step {s : QGState D} {op : DsOp} {o : QGOp D} {i : ℕ} (ho : op.field data i = some o)
    (hk : (fieldCall C s (some o)).2 = .ok ()) (r : ResultName) : (qgStep C s o).state.Holds r ↔ s.Holds r ∨ op.Makes r := by
  cases op with
  | interpolate =>
    obtain rfl : QGOp.interpolate (data i) = o := Option.some.inj ho
    cases r <;> simp [qgStep, doInterpolate, QGState.Holds, DsOp.Makes]
  | refStates its =>
    obtain rfl : QGOp.refStates (its i).1 (its i).2 = o := Option.some.inj ho
    have hk' : (doRefStates C s (its i).1 (its i).2).result = .ok () := hk
    show (doRefStates C s (its i).1 (its i).2).state.Holds r ↔ _
    obtain ⟨e1, e2, e3, e4, _, e6⟩ := ref_frame (C := C) s (its i).1 (its i).2
    cases r with
    | interpolated => simp [QGState.Holds, DsOp.Makes, e1]
    | refStates => simp [QGState.Holds, DsOp.Makes, e6 hk']
    | barotropic => simp [QGState.Holds, DsOp.Makes, e2]
    | lwa3d => simp [QGState.Holds, DsOp.Makes, e3]
    | layerwise => simp [QGState.Holds, DsOp.Makes, e4]
  | fluxes nc =>
    obtain ⟨x, hx, rfl⟩ := Option.map_eq_some_iff.1 ho
    have hk' : (doFluxes C s x).result = .ok () := hk
    show (doFluxes C s x).state.Holds r ↔ _
    unfold doFluxes at hk' ⊢
    cases hq : qgpvRead C s with
    | error e => rw [hq] at hk'; exact absurd hk' (by simp)
    | ok u =>
      obtain ⟨⟨d, hd⟩, _⟩ := (qgpvRead_ok C s).1 hq
      rw [hq] at hk'
      simp only at hk' ⊢
      split_ifs at hk' ⊢
      cases r <;> simp [QGState.Holds, DsOp.Makes, currentProv, hd]
  | lwaOnly =>
    obtain rfl : QGOp.lwaOnly = o := Option.some.inj ho
    have hk' : (doLwaOnly s).result = .ok () := hk
    show (doLwaOnly s).state.Holds r ↔ _
    unfold doLwaOnly at hk' ⊢
    cases hd : s.fields with
    | none => rw [hd] at hk'; exact absurd hk' (by simp)
    | some d => cases r <;> simp [QGState.Holds, DsOp.Makes, currentProv, hd]
  | layerwise nc =>
    obtain ⟨x, hx, rfl⟩ := Option.map_eq_some_iff.1 ho
    have hk' : (doLayerwise C s x).result = .ok () := hk
    show (doLayerwise C s x).state.Holds r ↔ _
    unfold doLayerwise at hk' ⊢
    cases hd : s.fields with
    | none => rw [hd] at hk'; exact absurd hk' (by simp)
    | some d =>
      rw [hd] at hk'
      cases x with
      | wrongShape => exact absurd hk' (by simp)
      | absent =>
        simp only at hk' ⊢
        split_ifs at hk' ⊢
        cases r <;> simp [QGState.Holds, DsOp.Makes, currentProv, hd]
      | fits => cases r <;> simp [QGState.Holds, DsOp.Makes, currentProv, hd]

/-- C155, partial: after a session in which no field raised, a variable is complete in all fields if a call that computes it is in the
session, and in no field otherwise. Missing: sessions with exceptions (`C155_refuted`). -/
theorem C155_complete_partial {n : ℕ} {ops : List (DsOp × Bool)} (h : Smooth C data n ops) (r : ResultName) :
    ∀ s ∈ dsRun C data (dsFresh n) ops, (s.Holds r ↔ ∃ o ∈ ops, o.1.Makes r) := by
  induction ops using List.reverseRecOn with
  | nil =>
    intro s hs
    obtain rfl : s = QGState.fresh := List.eq_of_mem_replicate hs
    cases r <;> simp [QGState.Holds, QGState.fresh]
  | append_singleton ops o ih =>
    intro s hs
    obtain ⟨h1, h2⟩ := h.init
    obtain ⟨i, hi⟩ := List.mem_iff_getElem?.1 hs
    have hlt : i < (dsRun C data (dsFresh n) ops).length := by
      have a := lt_length_of_getElem? hi
      rwa [dsRun_length] at a ⊢
    obtain ⟨q, q1, q2, q3⟩ := h2.call o.2 (List.getElem?_eq_getElem hlt)
    rw [dsRun_snoc, q3] at hi
    obtain rfl := Option.some.inj hi
    rw [holds_step q1 q2 r, ih h1 _ (List.getElem_mem hlt)]
    constructor
    · rintro (⟨o', m, c⟩ | c)
      · exact ⟨o', List.mem_append_left _ m, c⟩
      · exact ⟨o, List.mem_append_right _ (by simp), c⟩
    · rintro ⟨o', m, c⟩
      rcases List.mem_append.1 m with m | m
      · exact Or.inl ⟨o', m, c⟩
      · obtain rfl : o' = o := by simpa using m
        exact Or.inr c

theorem collectEach_ok {rs : List ResultName} {ss : List (QGState D)} :
    collectEach C ss rs = .ok () ↔ ∀ r ∈ rs, ∀ s ∈ ss, doRead C s r = .ok () := by
  induction rs with
  | nil => exact ⟨fun _ r h => absurd h (by simp), fun _ => rfl⟩
  | cons r rs ih =>
    unfold collectEach
    rw [List.forall_mem_cons, ← collectAll_ok, ← ih]
    cases h : collectAll C r ss with
    | error e =>
      simp only [bind, Except.bind]
      exact ⟨fun c => absurd c (by simp), fun c => absurd c.1 (by simp)⟩
    | ok u =>
      simp only [bind, Except.bind]
      exact ⟨fun c => ⟨trivial, c⟩, fun c => c.2⟩

/-- C155, returned dataset: it consists of the groups that the call computes. If no field raised, it is returned if and only if these
can be read from the fields as the call has left them, and every field then holds them. -/
theorem C155_returned {ss : List (QGState D)} {op : DsOp} (h : NoRaise C data ss op) :
    (∀ r, r ∈ op.reads ↔ op.Makes r) ∧
    ((dsStep C data ss op true).2 = .ok () ↔ ∀ s ∈ (dsStep C data ss op true).1, ∀ r, op.Makes r → doRead C s r = .ok ()) ∧
    ∀ s ∈ (dsStep C data ss op true).1, ∀ r, op.Makes r → s.Holds r := by
  have hr : ∀ r, r ∈ op.reads ↔ op.Makes r := by
    intro r
    cases op <;> cases r <;> simp [DsOp.reads, DsOp.Makes]
  refine ⟨hr, ?_, fun s hs r hm => ?_⟩
  · have e : dsStep C data ss op true = ((dsStep C data ss op true).1, collectEach C (dsStep C data ss op true).1 op.reads) := by
      rcases dsLoop_spec (C := C) (fun i => op.field data i) 0 ss with ⟨h1, _⟩ | ⟨k, s, e, h1, h2, _⟩
      · unfold dsStep
        revert h1
        rcases dsLoop C (fun i => op.field data i) 0 ss with ⟨t, _ | u⟩
        · intro c; exact absurd c (by simp)
        · intro _; rfl
      · have := h k s h1
        rw [Nat.zero_add] at h2
        rw [h2] at this
        exact absurd this (by simp)
    rw [e]
    show collectEach C _ op.reads = .ok () ↔ _
    rw [collectEach_ok]
    exact ⟨fun c s hs r hm => c r ((hr r).2 hm) s hs, fun c r hm s hs => c s hs r ((hr r).1 hm)⟩
  · obtain ⟨i, hi⟩ := List.mem_iff_getElem?.1 hs
    have hlt : i < ss.length := by
      have := lt_length_of_getElem? hi
      rwa [dsStep_fst, dsLoop_length] at this
    obtain ⟨q, q1, q2, q3⟩ := h.call true (List.getElem?_eq_getElem hlt)
    obtain rfl := Option.some.inj (hi.symm.trans q3)
    exact (holds_step q1 q2 r).2 (Or.inr hm)

/-- C155, one bad field: once the solver has failed in one field of the dataset, the flux computation of the whole dataset raises, in
every later session and whatever the solver does afterwards. -/
theorem C155_one_failure (n : ℕ) (ops more : List (DsOp × Bool)) {k : ℕ} {s : QGState D}
    (hs : (dsRun C data (dsFresh n) ops)[k]? = some s) (hf : s.nonconv = true) (nc : ℕ → Option NcArg) (ret : Bool) :
    ∃ e, (dsStep C data (dsRun C data (dsFresh n) (ops ++ more)) (.fluxes nc) ret).2 = .error e := by
  have stay : ∃ t, (dsRun C data (dsFresh n) (ops ++ more))[k]? = some t ∧ ∃ l, t = qgRun C QGState.fresh l ∧ t.nonconv = true := by
    induction more using List.reverseRecOn with
    | nil =>
      rw [List.append_nil]
      obtain ⟨l, _, hl⟩ := C155_independent n ops hs
      exact ⟨s, hs, l, hl, hf⟩
    | append_singleton more o ih =>
      obtain ⟨t, ht, l, hl, hn⟩ := ih
      rw [← List.append_assoc, dsRun_snoc]
      have step : ∀ q, (qgStep C t q).state = qgRun C QGState.fresh (l ++ [q]) ∧ (qgStep C t q).state.nonconv = true := by
        intro q
        have e : (qgStep C t q).state = qgRun C QGState.fresh (l ++ [q]) := by rw [qgRun_snoc, ← hl]
        refine ⟨e, ?_⟩
        rw [e]
        exact (C38_failure_is_permanent C l [q] .absent (by rw [← hl]; exact hn)).1
      rcases C155_call (C := C) (data := data) (dsRun C data (dsFresh n) (ops ++ more)) o.1 o.2 with
        h | ⟨j, u, e, h1, h2, _, h4, h5, h6⟩
      · obtain ⟨q, _, _, q3⟩ := h k t ht
        exact ⟨_, q3, l ++ [q], (step q).1, (step q).2⟩
      · rcases Nat.lt_trichotomy k j with c | c | c
        · obtain ⟨q, _, _, q3⟩ := h4 k t ht c
          exact ⟨_, q3, l ++ [q], (step q).1, (step q).2⟩
        · subst c
          obtain rfl : t = u := Option.some.inj (ht.symm.trans h1)
          cases hq : o.1.field data k with
          | none =>
            rw [hq] at h5
            exact ⟨t, h5, l, hl, hn⟩
          | some q =>
            rw [hq, fieldCall_state] at h5
            exact ⟨_, h5, l ++ [q], (step q).1, (step q).2⟩
        · exact ⟨t, h6 k t ht c, l, hl, hn⟩
  obtain ⟨t, ht, l, hl, hn⟩ := stay
  rcases C155_call (C := C) (data := data) (dsRun C data (dsFresh n) (ops ++ more)) (.fluxes nc) ret with h | ⟨j, u, e, _, _, h3, _⟩
  · obtain ⟨q, q1, q2, _⟩ := h k t ht
    obtain ⟨x, _, rfl⟩ := Option.map_eq_some_iff.1 q1
    have := (C38_failure_is_permanent C l [] x (by rw [← hl]; exact hn)).2
    rw [List.append_nil, ← hl] at this
    have q2' : (qgStep C t (.fluxes x)).result = .ok () := q2
    rw [this] at q2'
    exact absurd q2' (by simp)
  · exact ⟨e, h3⟩

/-! ### Counterexample and examples -/

/-- The iterative solver with at most ten sweeps, warnings only. -/
def tenSweeps : QGConfig := ⟨.nh18, 10, false, true, false⟩

/-- Two fields; in the second one the solver does not converge. -/
def twoFields : List (DsOp × Bool) :=
  [(.interpolate, true), (.refStates fun i => if i = 0 then (5, 0) else (11, 0), true), (.fluxes fun _ => some .absent, true)]

/-- C155 fails: `lwa` of this dataset can be read, the first field holds its wave activity, the second one zeros. -/
theorem C155_refuted : ¬ C155_Statement := by
  intro h
  rcases h tenSweeps id 2 twoFields .lwa3d rfl with c | c
  · have := c (dsRun tenSweeps id (dsFresh 2) twoFields)[1] (List.getElem_mem _)
    exact Bool.noConfusion this
  · have := c (dsRun tenSweeps id (dsFresh 2) twoFields)[0] (List.getElem_mem _)
    exact this rfl

/-- The hypotheses of `C155_one_failure` are met by that session. -/
example : ∃ s, (dsRun tenSweeps id (dsFresh 2) twoFields)[1]? = some s ∧ s.nonconv = true := ⟨_, rfl, rfl⟩

/-- A session of two fields in which nothing raises, with results in both. -/
def goodSession : List (DsOp × Bool) := [(.interpolate, true), (.refStates fun i => (5 + i, 0), true)]

theorem good_smooth : Smooth tenSweeps (id : ℕ → ℕ) 2 goodSession := by
  intro pre o post e i s hs
  have hi : i < 2 := by
    have := lt_length_of_getElem? hs
    rwa [dsRun_length] at this
  match pre, e with
  | [], e =>
    obtain ⟨rfl, rfl⟩ : o = (.interpolate, true) ∧ post = [(.refStates fun i => (5 + i, 0), true)] := by
      have := List.cons.inj e
      exact ⟨this.1.symm, this.2.symm⟩
    rfl
  | [a], e =>
    obtain ⟨e1, e2⟩ := List.cons.inj e
    obtain ⟨e3, e4⟩ := List.cons.inj e2
    subst e1 e3
    have : i = 0 ∨ i = 1 := by omega
    rcases this with rfl | rfl
    · obtain rfl := Option.some.inj hs
      decide
    · obtain rfl := Option.some.inj hs
      decide
  | a :: b :: pre, e =>
    exfalso
    have := congrArg List.length e
    simp [goodSession] at this

example : ∀ s ∈ dsRun tenSweeps id (dsFresh 2) goodSession, s.Holds .refStates := fun s hs =>
  (C155_complete_partial good_smooth .refStates s hs).2 ⟨(.refStates fun i => (5 + i, 0), true), by simp [goodSession], trivial⟩

example : (dsRun tenSweeps id (dsFresh 2) goodSession)[1]? =
    some (qgRun tenSweeps QGState.fresh [.interpolate 1, .refStates 6 0]) := C155_sessions good_smooth (by decide)

example : collectAll tenSweeps .interpolated (dsRun tenSweeps id (dsFresh 2) goodSession) = .ok () := rfl

/-- Hypothesis of `C155_returned`: the first call on a new dataset of two fields. -/
example : NoRaise tenSweeps (id : ℕ → ℕ) (dsFresh 2) .interpolate := fun _ _ _ => rfl

end Falwa
