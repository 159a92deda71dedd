import Verif.Model.TimeSlice
import Verif.Props.DatasetRun

/-!
# C208: times extracted from a file
-/

namespace Falwa.Nc

variable {α : Type*} {F G : File α} {n : ℕ} {ts : List ℤ}

/-- Index `i` of an axis of length `n` means position `k`: counted from the start, or from the end if it is negative. -/
def Means (n : ℕ) (i : ℤ) (k : ℕ) : Prop := k < n ∧ (i = k ∨ i = (k : ℤ) - n)

/-- What a file holds at position `k` of the dimension `time`, variable by variable. -/
def File.at (F : File α) (k : ℕ) (name : String) : Option α :=
  (F.vars name).map fun
    | .fixed v => v
    | .series v => v k

theorem resolve_ok {i : ℤ} {k : ℕ} : resolve n i = .ok k ↔ Means n i k := by
  unfold resolve Means
  split_ifs with h1 h2
  · rw [Except.ok.injEq]
    omega
  · rw [Except.ok.injEq]
    omega
  · constructor
    · intro h; exact absurd h (by simp)
    · rintro ⟨h, h'⟩; omega

theorem resolveAll_ok {ks : List ℕ} : resolveAll n ts = .ok ks ↔ List.Forall₂ (Means n) ts ks := by
  induction ts generalizing ks with
  | nil =>
    unfold resolveAll
    rw [Except.ok.injEq, List.forall₂_nil_left_iff, eq_comm]
  | cons i is ih =>
    unfold resolveAll
    rw [List.forall₂_cons_left_iff]
    cases h : resolve n i with
    | error e =>
      simp only [bind, Except.bind]
      refine ⟨fun c => absurd c (by simp), ?_⟩
      rintro ⟨k, _, hk, _⟩
      rw [resolve_ok.2 hk] at h
      exact absurd h (by simp)
    | ok k =>
      have hk := resolve_ok.1 h
      have one : ∀ k', Means n i k' → k' = k := fun k' h' => by
        have := (resolve_ok.2 h').symm.trans h
        simpa using this
      cases h2 : resolveAll n is with
      | error e =>
        simp only [bind, Except.bind]
        refine ⟨fun c => absurd c (by simp), ?_⟩
        rintro ⟨k', u, _, hu, _⟩
        rw [ih.2 hu] at h2
        exact absurd h2 (by simp)
      | ok u =>
        simp only [bind, Except.bind, pure, Except.pure, Except.ok.injEq]
        constructor
        · rintro rfl
          exact ⟨k, u, hk, ih.1 h2, rfl⟩
        · rintro ⟨k', u', a, b, rfl⟩
          rw [one k' a]
          have := (ih.2 b).symm.trans h2
          rw [Except.ok.injEq] at this
          rw [this]

theorem resolveAll_total (h : ∀ i ∈ ts, -(n : ℤ) ≤ i ∧ i < n) : ∃ ks, resolveAll n ts = .ok ks := by
  induction ts with
  | nil => exact ⟨[], rfl⟩
  | cons i is ih =>
    obtain ⟨ks, hks⟩ := ih fun j hj => h j (List.mem_cons_of_mem _ hj)
    obtain ⟨k, hk⟩ : ∃ k, resolve n i = .ok k := by
      have := h i List.mem_cons_self
      unfold resolve
      split_ifs with h1 h2
      · exact ⟨_, rfl⟩
      · exact ⟨_, rfl⟩
      · omega
    refine ⟨k :: ks, ?_⟩
    unfold resolveAll
    rw [hk, hks]
    rfl

/-- **C208 (which calls write a file).** The file needs a dimension `time`, and every index must lie in it. -/
theorem C208_iff : (∃ G, extract F ts = .ok G) ↔ ∃ n : ℕ, F.times = some n ∧ ∀ i ∈ ts, -(n : ℤ) ≤ i ∧ i < n := by
  unfold extract
  cases hF : F.times with
  | none => simp
  | some n =>
    dsimp only
    constructor
    · rintro ⟨G, h⟩
      refine ⟨n, rfl, fun i hi => ?_⟩
      cases h2 : resolveAll n ts with
      | error e => rw [h2] at h; exact absurd h (by simp [Except.map])
      | ok ks =>
        obtain ⟨k, _, hk⟩ : ∃ k ∈ ks, Means n i k := by
          have := resolveAll_ok.1 h2
          clear h2 h
          induction this with
          | nil => exact absurd hi (by simp)
          | cons a _ ih =>
            rcases List.mem_cons.1 hi with rfl | hi
            · exact ⟨_, List.mem_cons_self, a⟩
            · obtain ⟨k, h1, h2⟩ := ih hi
              exact ⟨k, List.mem_cons_of_mem _ h1, h2⟩
        obtain ⟨h1, h2⟩ := hk
        omega
    · rintro ⟨m, hm, h⟩
      obtain rfl := Option.some.inj hm
      obtain ⟨ks, hks⟩ := resolveAll_total h
      rw [hks]
      exact ⟨_, rfl⟩

/-- **C208 (contents).** The new file has one time per index asked for, in the order asked for; there it holds what the given file holds at that
time, variable by variable, and variables without the dimension `time` are the same at all times. -/
theorem C208_contents (h : extract F ts = .ok G) : G.times = some ts.length ∧
    ∃ n, F.times = some n ∧ ∃ σ : ℕ → ℕ, (∀ k (hk : k < ts.length), Means n ts[k] (σ k)) ∧ ∀ k, G.at k = F.at (σ k) := by
  unfold extract at h
  cases hF : F.times with
  | none => rw [hF] at h; exact absurd h (by simp)
  | some n =>
    rw [hF] at h
    dsimp only at h
    cases h2 : resolveAll n ts with
    | error e => rw [h2] at h; exact absurd h (by simp [Except.map])
    | ok ks =>
      rw [h2] at h
      have e : G = { times := some ks.length, vars := fun name => (F.vars name).map (Var.pick ks) } := (Except.ok.inj h).symm
      have hall := resolveAll_ok.1 h2
      have hlen := hall.length_eq
      refine ⟨by rw [e, hlen], n, rfl, fun k => ks.getD k 0, fun k hk => ?_, fun k => funext fun name => ?_⟩
      · have := (List.forall₂_iff_get.1 hall).2 k hk (hlen ▸ hk)
        have e2 : ks.getD k 0 = ks[k]'(hlen ▸ hk) := by
          rw [List.getD_eq_getElem?_getD, List.getElem?_eq_getElem (hlen ▸ hk)]
          rfl
        beta_reduce
        rw [e2]
        exact this
      · rw [e]
        unfold File.at
        dsimp only
        cases F.vars name with
        | none => rfl
        | some v => cases v <;> rfl

/-- **C208 (fixed variables).** Variables without the dimension `time` are written unchanged, and no others lack it in the new file. -/
theorem C208_fixed (h : extract F ts = .ok G) (name : String) (v : α) : G.vars name = some (.fixed v) ↔ F.vars name = some (.fixed v) := by
  unfold extract at h
  cases hF : F.times with
  | none => rw [hF] at h; exact absurd h (by simp)
  | some n =>
    rw [hF] at h
    dsimp only at h
    cases h2 : resolveAll n ts with
    | error e => rw [h2] at h; exact absurd h (by simp [Except.map])
    | ok ks =>
      rw [h2] at h
      have e : G = { times := some ks.length, vars := fun name => (F.vars name).map (Var.pick ks) } := (Except.ok.inj h).symm
      rw [e]
      dsimp only
      cases F.vars name with
      | none => simp
      | some w => cases w <;> simp [Var.pick]

/-- **C208 (default).** Without a list of times, the first time of a file with at least one time is written. -/
theorem C208_default : ((∃ G, extractDefault F = .ok G) ↔ ∃ n, F.times = some n ∧ 1 ≤ n) ∧
    ∀ G, extractDefault F = .ok G → G.times = some 1 ∧ G.at 0 = F.at 0 := by
  refine ⟨C208_iff.trans ⟨?_, ?_⟩, fun G h => ?_⟩
  · rintro ⟨n, hn, h⟩
    have := h 0 List.mem_cons_self
    exact ⟨n, hn, by omega⟩
  · rintro ⟨n, hn, h⟩
    refine ⟨n, hn, fun i hi => ?_⟩
    rw [List.mem_singleton] at hi
    omega
  · obtain ⟨h1, n, hn, σ, hσ, e⟩ := C208_contents h
    refine ⟨h1, ?_⟩
    have := hσ 0 (by simp)
    unfold Means at this
    simp only [List.getElem_cons_zero] at this
    rw [e 0, show σ 0 = 0 by omega]

/-- **C208 (twice).** Extracting from an extracted file is one extraction from the given file. -/
theorem C208_twice {ss : List ℤ} {H : File α} (h1 : extract F ts = .ok G) (h2 : extract G ss = .ok H) :
    ∃ us : List ℤ, us.length = ss.length ∧ (∀ u ∈ us, u ∈ ts) ∧ ∃ H', extract F us = .ok H' ∧ H'.times = H.times ∧
      ∀ k < ss.length, ∀ name, H'.at k name = H.at k name := by
  obtain ⟨a1, n, hn, σ, hσ, eσ⟩ := C208_contents h1
  obtain ⟨a2, m, hm, τ, hτ, eτ⟩ := C208_contents h2
  obtain rfl : ts.length = m := Option.some.inj (a1.symm.trans hm)
  have hlt : ∀ k, k < ss.length → τ k < ts.length := fun k hk => (hτ k hk).1
  set us : List ℤ := List.ofFn fun k : Fin ss.length => ts[τ k]'(hlt k k.2) with hus
  have hul : us.length = ss.length := by rw [hus, List.length_ofFn]
  have hmem : ∀ u ∈ us, u ∈ ts := fun u hu => by
    obtain ⟨k, rfl⟩ := (List.mem_ofFn' _ _).1 hu
    exact List.getElem_mem _
  obtain ⟨H', hH⟩ := C208_iff.2 ⟨n, hn, fun u hu => by
    obtain ⟨n', hn', h⟩ := C208_iff.1 ⟨G, h1⟩
    obtain rfl := Option.some.inj (hn.symm.trans hn')
    exact h u (hmem u hu)⟩
  obtain ⟨a3, n', hn', ρ, hρ, eρ⟩ := C208_contents hH
  obtain rfl := Option.some.inj (hn.symm.trans hn')
  refine ⟨us, hul, hmem, H', hH, by rw [a3, a2, hul], fun k hk name => ?_⟩
  have hk' : k < us.length := hul ▸ hk
  rw [eρ, eτ, eσ]
  have e : us[k] = ts[τ k]'(hlt k hk) := by simp [hus]
  have m1 := hρ k hk'
  rw [e] at m1
  have m2 := hσ _ (hlt k hk)
  have := (resolve_ok.2 m1).symm.trans (resolve_ok.2 m2)
  rw [Except.ok.injEq] at this
  rw [this]

end Falwa.Nc

namespace Falwa

variable {D : Type*} {C : QGConfig} {data : ℕ → D}

/-- The same call on chosen fields: what the solver reports and the forcing follow the fields. -/
def DsOp.chosen (σ : ℕ → ℕ) : DsOp → DsOp
  | .interpolate => .interpolate
  | .refStates its => .refStates fun k => its (σ k)
  | .fluxes nc => .fluxes fun k => nc (σ k)
  | .lwaOnly => .lwaOnly
  | .layerwise nc => .layerwise fun k => nc (σ k)

theorem DsOp.chosen_field (σ : ℕ → ℕ) (op : DsOp) (k : ℕ) : (op.chosen σ).field (fun k => data (σ k)) k = op.field data (σ k) := by
  cases op <;> rfl

theorem Smooth.snoc {n : ℕ} {ops : List (DsOp × Bool)} {o : DsOp × Bool} (h : Smooth C data n ops)
    (ho : NoRaise C data (dsRun C data (dsFresh n) ops) o.1) : Smooth C data n (ops ++ [o]) := by
  intro pre q post e
  rcases List.eq_nil_or_concat post with rfl | ⟨post', x, rfl⟩
  · obtain ⟨e1, e2⟩ := List.append_inj' e rfl
    rw [← e1, ← (List.cons.inj e2).1]
    exact ho
  · have e' : ops ++ [o] = (pre ++ q :: post') ++ [x] := by rw [e]; simp
    exact h pre q post' (List.append_inj' e' rfl).1

/-- **C208 (analysis).** A session on a `QGDataset` in which no field raises, and the same session on chosen ones of its fields: nothing raises there either,
and every field ends up in the state that it has in the whole dataset. -/
theorem C208_analysis {n m : ℕ} {σ : ℕ → ℕ} (hσ : ∀ k < m, σ k < n) (ops : List (DsOp × Bool)) (h : Smooth C data n ops) :
    Smooth C (fun k => data (σ k)) m (ops.map fun o => (o.1.chosen σ, o.2)) ∧
      ∀ k < m, (dsRun C (fun k => data (σ k)) (dsFresh m) (ops.map fun o => (o.1.chosen σ, o.2)))[k]? = (dsRun C data (dsFresh n) ops)[σ k]? := by
  induction ops using List.reverseRecOn with
  | nil =>
    refine ⟨fun pre o post e => absurd e (by simp), fun k hk => ?_⟩
    show (List.replicate m _)[k]? = (List.replicate n _)[σ k]?
    rw [List.getElem?_replicate, List.getElem?_replicate, if_pos hk, if_pos (hσ k hk)]
  | append_singleton ops o ih =>
    obtain ⟨h1, h2⟩ := h.init
    obtain ⟨i1, i2⟩ := ih h1
    rw [List.map_append, List.map_singleton]
    have hk : ∀ {k s}, (dsRun C (fun k => data (σ k)) (dsFresh m) (ops.map fun o => (o.1.chosen σ, o.2)))[k]? = some s → k < m := fun {k s} hs => by
      have := lt_length_of_getElem? hs
      rwa [dsRun_length] at this
    have nr : NoRaise C (fun k => data (σ k)) (dsRun C (fun k => data (σ k)) (dsFresh m) (ops.map fun o => (o.1.chosen σ, o.2))) (o.1.chosen σ) :=
      fun k s hs => by
        rw [DsOp.chosen_field]
        refine h2 (σ k) s ?_
        rw [← i2 k (hk hs)]
        exact hs
    refine ⟨i1.snoc nr, fun k km => ?_⟩
    have hlen : k < (dsRun C (fun k => data (σ k)) (dsFresh m) (ops.map fun o => (o.1.chosen σ, o.2))).length := by rwa [dsRun_length]
    have hs := List.getElem?_eq_getElem hlen
    obtain ⟨q, q1, _, q3⟩ := nr.call o.2 hs
    have hs' := (i2 k km).symm.trans hs
    obtain ⟨q', q1', _, q3'⟩ := h2.call o.2 hs'
    rw [dsRun_snoc, dsRun_snoc, q3, q3']
    rw [DsOp.chosen_field] at q1
    rw [Option.some.inj (q1.symm.trans q1')]

/-- **C208 (files).** The times `ts` are extracted from a file, and both files are analysed time by time. If no field of the given file raises, the results for
the new file are those of the given one at the chosen times. -/
theorem C208_files {α : Type*} {F G : Nc.File α} {ts : List ℤ} (h : Nc.extract F ts = .ok G) (ops : List (DsOp × Bool)) {n : ℕ} (hn : F.times = some n)
    (hs : Smooth C F.at n ops) : ∃ σ : ℕ → ℕ, (∀ k (hk : k < ts.length), Nc.Means n ts[k] (σ k)) ∧
      ∀ k < ts.length, (dsRun C G.at (dsFresh ts.length) (ops.map fun o => (o.1.chosen σ, o.2)))[k]? =
        (dsRun C F.at (dsFresh n) ops)[σ k]? := by
  obtain ⟨_, n', hn', σ, hσ, eσ⟩ := Nc.C208_contents h
  obtain rfl := Option.some.inj (hn.symm.trans hn')
  rw [show G.at = fun k => F.at (σ k) from funext eσ]
  exact ⟨σ, hσ, (C208_analysis (fun k hk => (hσ k hk).1) ops hs).2⟩

/-- Three times of wind and a topography; the last and the first time are extracted, in this order. -/
def Nc.threeTimes : Nc.File ℕ where
  times := some 3
  vars name := if name = "u" then some (.series fun k => 10 + k) else if name = "topo" then some (.fixed 7) else none

example : ∃ G, Nc.extract Nc.threeTimes [-1, 0] = .ok G ∧ G.times = some 2 ∧ G.at 0 "u" = some 12 ∧ G.at 1 "u" = some 10 ∧ G.at 1 "topo" = some 7 ∧
    ∃ H, Nc.extract G [1, 1, -2] = .ok H ∧ H.at 2 "u" = some 12 := ⟨_, rfl, rfl, rfl, rfl, rfl, _, rfl, rfl⟩

/-- Hypotheses of `C208_fixed` and `C208_default`. -/
example : ∃ G, Nc.extractDefault Nc.threeTimes = .ok G ∧ G.at 0 "u" = some 10 ∧ G.vars "topo" = some (.fixed 7) := ⟨_, rfl, rfl, rfl⟩

/-- Without a dimension `time`, or with an index outside of it, nothing is written. -/
example : Nc.extract Nc.threeTimes [3] = .error .indexError ∧ Nc.extractDefault { Nc.threeTimes with times := none } = .error .valueError := ⟨rfl, rfl⟩

/-- Hypotheses of `C208_analysis` and `C208_files`: the first two fields exchanged. -/
example : Smooth tenSweeps (id : ℕ → ℕ) 2 goodSession ∧ ∀ k < 2, (fun k => 1 - k) k < 2 := ⟨good_smooth, fun k hk => by show 1 - k < 2; omega⟩

example : ∃ n, Nc.threeTimes.times = some n ∧ Smooth tenSweeps Nc.threeTimes.at n [(.interpolate, false)] :=
  ⟨3, rfl, Smooth.snoc (ops := []) (fun _ _ _ e => absurd e (by simp)) fun _ _ _ => rfl⟩

end Falwa
