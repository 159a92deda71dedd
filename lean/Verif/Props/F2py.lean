import Verif.Model.F2py

/-! # C152: calls of the compiled routines -/

namespace Falwa.F2py

variable {α : Type*}

theorem kws_names (ns : List String) (v : String → α) : (kws ns v).map Prod.fst = ns := by
  unfold kws
  rw [List.map_map]
  exact List.map_id ns

theorem lookup_kws {ns : List String} (v : String → α) {x : String} (hx : x ∈ ns) : (kws ns v).lookup x = some (v x) := by
  induction ns with
  | nil => exact absurd hx (by simp)
  | cons y ys ih =>
    unfold kws at *
    rw [List.map_cons, List.lookup_cons]
    by_cases e : x = y
    · rw [e]
      simp
    · rw [show (x == y) = false by simpa using e]
      exact ih (by simpa [e] using hx)

/-- A call with keywords only is in order: no keyword twice, all of them known, all required ones given, as many targets as results. -/
def Site.InOrder (c : Site) : Prop :=
  c.kw.Nodup ∧ (∀ x ∈ c.kw, x ∈ params c.sig) ∧ (∀ x ∈ names c.sig .need, x ∈ c.kw) ∧
    (c.targets = none ∨ c.targets = some (names c.sig .out).length)

/-- C152, keywords: a call with keywords succeeds if and only if it is in order. -/
theorem C152_keywords (c : Site) (v : String → α) :
    (∃ e, c.run v = .ok e) ↔ c.InOrder := by
  unfold Site.run call Site.InOrder given
  rw [List.zip_nil_right, List.nil_append, kws_names]
  have h0 : ¬ (params c.sig).length < ([] : List α).length := by simp
  rw [if_neg h0]
  constructor
  · rintro ⟨e, h⟩
    by_cases h1 : c.kw.Nodup
    · rw [if_neg (not_not.2 h1)] at h
      by_cases h2 : ∀ x ∈ c.kw, x ∈ params c.sig
      · rw [if_neg (not_not.2 h2)] at h
        by_cases h3 : ∀ x ∈ names c.sig .need, x ∈ c.kw
        · rw [if_neg (not_not.2 h3)] at h
          by_cases h4 : c.targets ≠ none ∧ c.targets ≠ some (names c.sig .out).length
          · rw [if_pos h4] at h
            exact absurd h (by simp)
          · refine ⟨h1, h2, h3, ?_⟩
            by_cases h5 : c.targets = none
            · exact Or.inl h5
            · exact Or.inr (by_contra fun h6 => h4 ⟨h5, h6⟩)
        · rw [if_pos h3] at h
          exact absurd h (by simp)
      · rw [if_pos h2] at h
        exact absurd h (by simp)
    · rw [if_pos h1] at h
      exact absurd h (by simp)
  · rintro ⟨h1, h2, h3, h4⟩
    refine ⟨fun x => (kws c.kw v).lookup x, ?_⟩
    rw [if_neg (not_not.2 h1), if_neg (not_not.2 h2), if_neg (not_not.2 h3), if_neg (fun h => h4.elim h.1 h.2)]

/-- C152, values: what an accepted keyword call hands over. -/
theorem C152_values {c : Site} {v : String → α} {e : String → Option α} (h : c.run v = .ok e) (x : String) :
    e x = if x ∈ c.kw then some (v x) else none := by
  have ho := (C152_keywords c v).1 ⟨e, h⟩
  unfold Site.run call given at h
  rw [List.zip_nil_right, List.nil_append, kws_names] at h
  have h0 : ¬ (params c.sig).length < ([] : List α).length := by simp
  rw [if_neg h0, if_neg (not_not.2 ho.1), if_neg (not_not.2 ho.2.1), if_neg (not_not.2 ho.2.2.1),
    if_neg (fun h => ho.2.2.2.elim h.1 h.2)] at h
  cases h
  by_cases hx : x ∈ c.kw
  · rw [if_pos hx]
    exact lookup_kws v hx
  · rw [if_neg hx]
    show (kws c.kw v).lookup x = none
    rw [List.lookup_eq_none_iff]
    intro p hp
    have : p.1 ∈ c.kw := by
      rw [← kws_names c.kw v]
      exact List.mem_map_of_mem hp
    simp only [bne_iff_ne, ne_eq]
    exact fun e => hx (e ▸ this)

instance (c : Site) : Decidable c.InOrder := by
  unfold Site.InOrder
  infer_instance

/-- C152: every keyword call of a compiled routine in the package is accepted, whatever the values. -/
def C152_Statement : Prop := ∀ c ∈ dirinvSite :: sites, ∀ v : String → ℕ, ∃ e, c.run v = .ok e

/-- C152, kinds of failure: a call that does not bind its arguments raises `TypeError`, one that binds them and unpacks another number of
results `ValueError`; nothing else is raised. -/
theorem C152_errors (c : Site) (v : String → α) :
    (c.run v = .error .typeError ↔ ¬ (c.kw.Nodup ∧ (∀ x ∈ c.kw, x ∈ params c.sig) ∧ ∀ x ∈ names c.sig .need, x ∈ c.kw)) ∧
    ∀ e, c.run v = .error e → e = .typeError ∨ e = .valueError := by
  unfold Site.run call given
  rw [List.zip_nil_right, List.nil_append, kws_names]
  have h0 : ¬ (params c.sig).length < ([] : List α).length := by simp
  rw [if_neg h0]
  by_cases h1 : c.kw.Nodup
  · rw [if_neg (not_not.2 h1)]
    by_cases h2 : ∀ x ∈ c.kw, x ∈ params c.sig
    · rw [if_neg (not_not.2 h2)]
      by_cases h3 : ∀ x ∈ names c.sig .need, x ∈ c.kw
      · rw [if_neg (not_not.2 h3)]
        by_cases h4 : c.targets ≠ none ∧ c.targets ≠ some (names c.sig .out).length
        · rw [if_pos h4]
          refine ⟨⟨fun h => absurd h (by simp), fun h => absurd ⟨h1, h2, h3⟩ h⟩, fun e he => ?_⟩
          injection he with he
          exact Or.inr he.symm
        · rw [if_neg h4]
          exact ⟨⟨fun h => absurd h (by simp), fun h => absurd ⟨h1, h2, h3⟩ h⟩, fun e he => absurd he (by simp)⟩
      · rw [if_pos h3]
        refine ⟨⟨fun _ h => h3 h.2.2, fun _ => rfl⟩, fun e he => ?_⟩
        injection he with he
        exact Or.inl he.symm
    · rw [if_pos h2]
      refine ⟨⟨fun _ h => h2 h.2.1, fun _ => rfl⟩, fun e he => ?_⟩
      injection he with he
      exact Or.inl he.symm
  · rw [if_pos h1]
    refine ⟨⟨fun _ h => h1 h.1, fun _ => rfl⟩, fun e he => ?_⟩
    injection he with he
    exact Or.inl he.symm

/-- C152, package: all calls but that of `_compute_lwa_flux_dirinv` are accepted, and every required argument arrives. -/
theorem C152_package_partial {c : Site} (hc : c ∈ sites) (v : String → α) :
    ∃ e, c.run v = .ok e ∧ ∀ x ∈ names c.sig .need, e x = some (v x) := by
  have ho : c.InOrder := by
    have : ∀ c ∈ sites, c.InOrder := by decide
    exact this c hc
  obtain ⟨e, he⟩ := (C152_keywords c v).2 ho
  refine ⟨e, he, fun x hx => ?_⟩
  rw [C152_values he, if_pos (ho.2.2.1 x hx)]

/-- C152, positional calls: the two QGPV routines are called by position; every dummy argument gets the value meant for it. -/
theorem C152_positional (jd u v t z t0 s0 tn st sn a om dz h r cp : α) :
    (∃ e, call qgpv [u, v, t, z, t0, st, a, om, dz, h, r, cp] [] (some 2) = .ok e ∧
      [e "ut", e "vt", e "theta", e "height", e "t0", e "stat", e "aa", e "omega", e "dz", e "hh", e "rr", e "cp", e "nlon"] =
        [some u, some v, some t, some z, some t0, some st, some a, some om, some dz, some h, some r, some cp, none]) ∧
    ∃ e, call qgpvDirect [jd, u, v, t, z, s0, tn, st, sn, a, om, dz, h, r, cp] [] (some 2) = .ok e ∧
      [e "jd", e "uq", e "vq", e "tq", e "height", e "ts0", e "tn0", e "stats", e "statn", e "aa", e "omega", e "dz", e "hh", e "rr",
        e "cp", e "nlon"] = [some jd, some u, some v, some t, some z, some s0, some tn, some st, some sn, some a, some om, some dz,
          some h, some r, some cp, none] :=
  ⟨⟨_, rfl, rfl⟩, ⟨_, rfl, rfl⟩⟩

/-- C152, failure: `_compute_lwa_flux_dirinv` raises `TypeError` for all values, as `ncforce` is missing. -/
theorem C152_dirinv (v : String → α) : dirinvSite.run v = .error .typeError := rfl

theorem C152_refuted : ¬ C152_Statement := by
  intro h
  obtain ⟨e, he⟩ := h dirinvSite (by simp) (fun _ => 0)
  rw [C152_dirinv] at he
  exact absurd he (by simp)

/-- C152, script: for a file with at least one slot the sample script of Neal et al. (2022) ends with an error and writes nothing. -/
theorem C152_script (prep : ℕ → Except PyError Unit) (v : ℕ → String → α) {n : ℕ} (hn : 1 ≤ n) :
    (∃ e, (sampleRun prep v 0 n).1 = .error e) ∧ (sampleRun prep v 0 n).2 = [] ∧
      ((prep 0 = .ok ()) → (sampleRun prep v 0 n).1 = .error .typeError) := by
  obtain ⟨k, rfl⟩ : ∃ k, n = k + 1 := ⟨n - 1, by omega⟩
  unfold sampleRun
  rw [C152_dirinv]
  cases h : prep 0 with
  | error e => exact ⟨⟨e, rfl⟩, rfl, fun h' => absurd h' (by simp)⟩
  | ok u => exact ⟨⟨_, rfl⟩, rfl, fun _ => rfl⟩

/-! ### The hypotheses can be met -/

example : fluxSite ∈ sites := by simp [sites]

example : ∃ e, fluxSite.run (fun x => x.length) = .ok e ∧ e "ncforce" = some 7 := by
  obtain ⟨e, he, hx⟩ := C152_package_partial (c := fluxSite) (by simp [sites]) (fun x => x.length)
  exact ⟨e, he, hx "ncforce" (by decide)⟩

example : (sampleRun (fun _ => .ok ()) (fun _ _ => 0) 0 120).1 = .error .typeError := (C152_script _ _ (by norm_num)).2.2 rfl

end Falwa.F2py
