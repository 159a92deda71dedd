import Verif.Model.Storage
import Mathlib.Data.List.Basic

/-!
# Properties of the result storages (C27-C31)
-/

namespace Falwa

open Storage

variable {α : Type*}

/-- Two arrays agree: same number of latitudes, same rows. -/
def LatArray.Same (a b : LatArray α) : Prop := a.len = b.len ∧ ∀ j < a.len, a.row j = b.row j

/-! ## C27 -/

/-- C27, the store: any array with between 1 and `nlat` latitudes lands in the last rows in the same order and no other
row changes. -/
theorem C27_store_north (S : Storage α) (v : LatArray α) (h1 : 1 ≤ v.len) (h2 : v.len ≤ S.nlat) :
    (S.setN v).2 = .ok () ∧
    (∀ j < v.len, (S.setN v).1.data (S.nlat - v.len + j) = v.row j) ∧
    (∀ j < S.nlat - v.len, (S.setN v).1.data j = S.data j) ∧
    (S.setN v).1.nlat = S.nlat ∧ (S.setN v).1.nhOnly = S.nhOnly := by
  have hc : ¬ (v.len = 0 ∨ S.nlat < v.len) := by omega
  unfold setN
  rw [if_neg hc]
  refine ⟨rfl, fun j hj => ?_, fun j hj => ?_, rfl, rfl⟩
  · show (if S.nlat - v.len ≤ S.nlat - v.len + j then _ else _) = _
    rw [if_pos (by omega)]; congr 1; omega
  · show (if S.nlat - v.len ≤ j then _ else _) = _
    rw [if_neg (by omega)]

/-- C27, round trip: an array that covers the northern hemisphere (`nlat//2+1` latitudes in global mode, all latitudes
of the storage in northern-only mode) is read back unchanged. -/
theorem C27_round_trip_north (S : Storage α) (v : LatArray α) (hn : 1 ≤ S.nlat)
    (hv : v.len = if S.nhOnly then S.nlat else S.nlat / 2 + 1) :
    (S.setN v).2 = .ok () ∧ ∃ w, (S.setN v).1.getN = .ok w ∧ w.Same v := by
  have h1 : 1 ≤ v.len := by rw [hv]; split_ifs <;> omega
  have h2 : v.len ≤ S.nlat := by rw [hv]; split_ifs <;> omega
  obtain ⟨a, b, _, d, e⟩ := C27_store_north S v h1 h2
  refine ⟨a, ?_⟩
  unfold getN
  rw [e, d]
  cases hm : S.nhOnly with
  | true =>
    rw [hm, if_pos rfl] at hv
    refine ⟨_, if_pos rfl, hv.symm, fun j hj => ?_⟩
    have := b j (by simpa [hv] using hj)
    rw [hv, Nat.sub_self, zero_add] at this
    exact this
  | false =>
    rw [hm] at hv
    simp only [Bool.false_eq_true, if_false] at hv
    refine ⟨_, if_neg (by simp), ?_, fun j hj => ?_⟩
    · show S.nlat - (S.nlat - (S.nlat / 2 + 1)) = v.len
      omega
    · have hj' : j < S.nlat - (S.nlat - (S.nlat / 2 + 1)) := hj
      have := b j (by omega)
      rw [hv] at this
      exact this

/-- Both modes are possible: 5 latitudes with a 3-row array, 3 latitudes with a 3-row array. -/
example : (3 : ℕ) = (if (false : Bool) then 5 else 5 / 2 + 1) ∧ (3 : ℕ) = (if (true : Bool) then 3 else 3 / 2 + 1) := by
  decide

/-! ## C28 -/

/-- C28, one southern store on a grid with `2m+1` latitudes: row `j` of the array (counted from the equator) is at
global row `m - j`, the strictly northern rows do not change, and the southern accessor reads it in global order. -/
theorem C28_store_south (S : Storage α) (m : ℕ) (hn : S.nlat = 2 * m + 1) (hm : S.nhOnly = false)
    (v : LatArray α) (hv : v.len = m + 1) :
    (S.setS v).2 = .ok () ∧
    (∀ j ≤ m, (S.setS v).1.data (S.nlat / 2 - j) = v.row j) ∧
    (∀ j, m < j → (S.setS v).1.data j = S.data j) ∧
    ∃ w, (S.setS v).1.getS = .ok w ∧ w.len = v.len ∧ ∀ j ≤ m, w.row j = v.row (m - j) := by
  have hc : ¬ S.nlat < v.len := by omega
  have hdata : (S.setS v) = ({ S with data := fun j => if j < v.len then v.row (v.len - 1 - j) else S.data j }, .ok ()) := by
    unfold setS
    rw [hm, if_neg (by simp), if_neg hc]
  rw [hdata]
  refine ⟨rfl, fun j hj => ?_, fun j hj => ?_, ?_⟩
  · show (if S.nlat / 2 - j < v.len then _ else _) = _
    rw [if_pos (by omega)]; congr 1; omega
  · show (if j < v.len then _ else _) = _
    rw [if_neg (by omega)]
  · refine ⟨⟨min (S.nlat / 2 + 1) S.nlat, fun j => if j < v.len then v.row (v.len - 1 - j) else S.data j⟩, ?_, ?_,
      fun j hj => ?_⟩
    · unfold getS
      rw [show ({ S with data := fun j => if j < v.len then v.row (v.len - 1 - j) else S.data j } : Storage α).nhOnly
        = false from hm, if_neg (by simp)]
    · show min (S.nlat / 2 + 1) S.nlat = v.len
      omega
    · show (if j < v.len then _ else _) = _
      rw [if_pos (by omega)]; congr 1; omega

/-- The last northern array in a history, the last southern one, and the last of both with its hemisphere. -/
def lastNorth : List (Op α) → Option (LatArray α)
  | [] => none
  | .setN v :: ops => (lastNorth ops).or (some v)
  | _ :: ops => lastNorth ops

def lastSouth : List (Op α) → Option (LatArray α)
  | [] => none
  | .setS v :: ops => (lastSouth ops).or (some v)
  | _ :: ops => lastSouth ops

def lastStore : List (Op α) → Option (LatArray α)
  | [] => none
  | .setN v :: ops => (lastStore ops).or (some v)
  | .setS v :: ops => (lastStore ops).or (some v)
  | _ :: ops => lastStore ops

/-- C28, all histories: on a global grid with `2m+1` latitudes, after any interleaving of reads and of stores of
hemispheric arrays, the rows north of the equator hold the last northern array, those south of it the last southern
array (mirrored), and the equator row holds row 0 of the array stored last. -/
theorem C28_history (S : Storage α) (m : ℕ) (hn : S.nlat = 2 * m + 1) (hm : S.nhOnly = false) (ops : List (Op α))
    (hops : ∀ op ∈ ops, ∀ v, (op = .setN v ∨ op = .setS v) → v.len = m + 1) :
    (∀ j, 1 ≤ j → j ≤ m → (S.run ops).data (m + j) = ((lastNorth ops).map (·.row j)).getD (S.data (m + j))) ∧
    (∀ j, 1 ≤ j → j ≤ m → (S.run ops).data (m - j) = ((lastSouth ops).map (·.row j)).getD (S.data (m - j))) ∧
    (S.run ops).data m = ((lastStore ops).map (·.row 0)).getD (S.data m) := by
  induction ops generalizing S with
  | nil => exact ⟨fun _ _ _ => rfl, fun _ _ _ => rfl, rfl⟩
  | cons op ops ih =>
    have hrest : ∀ op ∈ ops, ∀ v, (op = .setN v ∨ op = .setS v) → v.len = m + 1 :=
      fun o ho => hops o (List.mem_cons_of_mem _ ho)
    have hstep : S.run (op :: ops) = (S.step op).1.run ops := rfl
    rw [hstep]
    cases op with
    | getN => exact ih S hn hm hrest
    | getS => exact ih S hn hm hrest
    | setN v =>
      have hv := hops _ List.mem_cons_self v (Or.inl rfl)
      obtain ⟨_, b, c, d, e⟩ := C27_store_north S v (by omega) (by omega)
      obtain ⟨i1, i2, i3⟩ := ih (S.setN v).1 (by rw [d, hn]) (by rw [e, hm]) hrest
      refine ⟨fun j h1 h2 => ?_, fun j h1 h2 => ?_, ?_⟩
      · refine (i1 j h1 h2).trans ?_
        have := b j (by omega)
        rw [show S.nlat - v.len + j = m + j by omega] at this
        rw [this, lastNorth]
        cases lastNorth ops <;> rfl
      · refine (i2 j h1 h2).trans ?_
        rw [c (m - j) (by omega)]; rfl
      · refine i3.trans ?_
        have := b 0 (by omega)
        rw [show S.nlat - v.len + 0 = m by omega] at this
        rw [this, lastStore]
        cases lastStore ops <;> rfl
    | setS v =>
      have hv := hops _ List.mem_cons_self v (Or.inr rfl)
      obtain ⟨_, b, c, _⟩ := C28_store_south S m hn hm v hv
      have hd : (S.setS v).1.nlat = S.nlat ∧ (S.setS v).1.nhOnly = S.nhOnly := by
        unfold setS; split_ifs <;> exact ⟨rfl, rfl⟩
      obtain ⟨i1, i2, i3⟩ := ih (S.setS v).1 (by rw [hd.1, hn]) (by rw [hd.2, hm]) hrest
      have hhalf : S.nlat / 2 = m := by omega
      refine ⟨fun j h1 h2 => ?_, fun j h1 h2 => ?_, ?_⟩
      · refine (i1 j h1 h2).trans ?_
        rw [c (m + j) (by omega)]; rfl
      · refine (i2 j h1 h2).trans ?_
        have := b j h2
        rw [hhalf] at this
        rw [this, lastSouth]
        cases lastSouth ops <;> rfl
      · refine i3.trans ?_
        have := b 0 (by omega)
        rw [hhalf, Nat.sub_zero] at this
        rw [this, lastStore]
        cases lastStore ops <;> rfl

/-- A history that meets the hypotheses: a northern and a southern store on 5 latitudes. -/
example : ∀ op ∈ [Op.setN (⟨3, fun j => j⟩ : LatArray ℕ), .getS, .setS ⟨3, fun j => 10 * j⟩],
    ∀ v, (op = .setN v ∨ op = .setS v) → v.len = 2 + 1 := by
  intro op h v hv
  simp only [List.mem_cons, List.not_mem_nil, or_false] at h
  rcases h with rfl | rfl | rfl <;> rcases hv with hv | hv <;> simp at hv <;> subst hv <;> rfl

/-! ## C29 -/

/-- The accesses to the southern hemisphere. -/
def Storage.Op.isSouth : Op α → Bool
  | .getS => true
  | .setS _ => true
  | _ => false

/-- C29. In northern-only mode every southern access raises the documented exception and changes nothing. -/
theorem C29_south_refused (S : Storage α) (h : S.nhOnly = true) (op : Op α) (hop : op.isSouth = true) :
    S.step op = (S, .error .invalidCallOfSHem) := by
  cases op with
  | getN => cases hop
  | setN v => cases hop
  | getS =>
    show (S, S.getS.map some) = _
    unfold getS; rw [if_pos h]; rfl
  | setS v =>
    show ((S.setS v).1, (S.setS v).2.map fun _ => none) = _
    unfold setS; rw [if_pos h]; rfl

/-- C29, histories: in northern-only mode the southern accesses of a history can be removed without any effect on the
final contents. -/
theorem C29_south_has_no_effect (S : Storage α) (h : S.nhOnly = true) (ops : List (Op α)) :
    S.run ops = S.run (ops.filter fun op => !op.isSouth) := by
  induction ops generalizing S with
  | nil => rfl
  | cons op ops ih =>
    have hstep : S.run (op :: ops) = (S.step op).1.run ops := rfl
    rw [hstep, List.filter_cons]
    cases hs : op.isSouth with
    | true =>
      rw [C29_south_refused S h op hs]
      simpa using ih S h
    | false =>
      have hmode : (S.step op).1.nhOnly = true := by
        cases op with
        | getN => exact h
        | getS => cases hs
        | setS v => cases hs
        | setN v => show (S.setN v).1.nhOnly = true; unfold setN; split_ifs <;> exact h
      simp only [Bool.not_false, if_true]
      exact ih _ hmode

/-- C29, the converse: in global mode a southern array is never refused with that exception. -/
theorem C29_only_in_northern_mode (S : Storage α) (h : S.nhOnly = false) (op : Op α) :
    (S.step op).2 ≠ .error .invalidCallOfSHem := by
  cases op with
  | getN => show S.getN.map some ≠ _; unfold getN; rw [h]; simp [Except.map]
  | getS => show S.getS.map some ≠ _; unfold getS; rw [h]; simp [Except.map]
  | setN v => show (S.setN v).2.map _ ≠ _; unfold setN; split_ifs <;> simp [Except.map]
  | setS v => show (S.setS v).2.map _ ≠ _; unfold setS; rw [h]; split_ifs <;> simp [Except.map] at *

example : ∃ S : Storage ℕ, S.nhOnly = true ∧ (Op.setS ⟨1, fun _ => 0⟩ : Op ℕ).isSouth = true :=
  ⟨⟨3, true, fun j => j⟩, rfl, rfl⟩

/-! ## C30 -/

/-- All storage classes with hemispheric accessors. -/
def storageClasses : List StorageClass := [referenceStatesClass, layerwiseClass, barotropicFluxClass]

/-- C30, full statement: each declared accessor of each class can be read. -/
def C30_Statement : Prop := ∀ C ∈ storageClasses, ∀ d ∈ C.declared, C.read d.1 = .ok ()

/-- C30, partial: every declared accessor can be read except `ep4_nhem` and `ep4_shem` of the layerwise storage.
Missing: these two, which raise `AttributeError` (`C30_refuted`). -/
theorem C30_accessors_partial : ∀ C ∈ storageClasses, ∀ d ∈ C.declared, d.2 ≠ "ep4" → C.read d.1 = .ok () := by
  intro C hC d hd hne
  simp only [storageClasses, List.mem_cons, List.not_mem_nil, or_false] at hC
  rcases hC with rfl | rfl | rfl
  · fin_cases hd <;> rfl
  · fin_cases hd <;> first | rfl | exact absurd rfl hne
  · fin_cases hd <;> rfl

theorem C30_barotropic_all : ∀ d ∈ barotropicFluxClass.declared, barotropicFluxClass.read d.1 = .ok () := by
  intro d hd
  fin_cases hd <;> rfl

/-- C30 fails: `ep4_nhem` of the layerwise storage refers to an attribute that is never allocated. -/
theorem C30_refuted : ¬ C30_Statement := by
  intro h
  have h1 := h layerwiseClass (by simp [storageClasses]) ("ep4_nhem", "ep4") (by simp [layerwiseClass])
  have h2 : layerwiseClass.read "ep4_nhem" = .error .attributeError := rfl
  rw [h2] at h1
  cases h1

/-! ## C31 -/

theorem swapAxis_swap (i j a : ℕ) : swapAxis j i (swapAxis i j a) = a := by
  unfold swapAxis; split_ifs <;> omega

theorem swapAxis_swap' (i j a : ℕ) : swapAxis i j (swapAxis j i a) = a := swapAxis_swap j i a

/-- C31, lossless: whenever one conversion succeeds, the other undoes it. -/
theorem C31_inverse (ax1 ax2 : ℕ) (x : NdArray α) (h1 : ax1 < x.ndim) (h2 : ax2 < x.ndim) :
    (∃ y, fortranToPython ax1 ax2 x = .ok y ∧ pythonToFortran ax1 ax2 y = .ok x) ∧
    (∃ y, pythonToFortran ax1 ax2 x = .ok y ∧ fortranToPython ax1 ax2 y = .ok x) := by
  constructor
  · refine ⟨_, if_pos ⟨h1, h2⟩, ?_⟩
    unfold pythonToFortran npSwapaxes
    rw [if_pos (show ax2 < x.ndim ∧ ax1 < x.ndim from ⟨h2, h1⟩)]
    simp only [swapAxis_swap]
  · refine ⟨_, if_pos ⟨h2, h1⟩, ?_⟩
    unfold fortranToPython npSwapaxes
    rw [if_pos (show ax1 < x.ndim ∧ ax2 < x.ndim from ⟨h1, h2⟩)]
    simp only [swapAxis_swap']

/-- The multi-index of a three-dimensional array. -/
def idx3 (i j k : ℕ) (a : ℕ) : ℕ := if a = 0 then i else if a = 1 then j else if a = 2 then k else 0

/-- The multi-index of a two-dimensional array. -/
def idx2 (i j : ℕ) (a : ℕ) : ℕ := if a = 0 then i else if a = 1 then j else 0

/-- C31, position: with the axes 0 and 2 of the three-dimensional storages element (i, j, k) moves to (k, j, i) and the
shape is reversed; with the axes 0 and 1 of the two-dimensional ones (i, j) moves to (j, i). -/
theorem C31_position (x : NdArray α) :
    (x.ndim = 3 → ∃ y, fortranToPython 0 2 x = .ok y ∧ (∀ i j k, y.elem (idx3 k j i) = x.elem (idx3 i j k)) ∧
      y.shape 0 = x.shape 2 ∧ y.shape 1 = x.shape 1 ∧ y.shape 2 = x.shape 0) ∧
    (x.ndim = 2 → ∃ y, fortranToPython 0 1 x = .ok y ∧ (∀ i j, y.elem (idx2 j i) = x.elem (idx2 i j)) ∧
      y.shape 0 = x.shape 1 ∧ y.shape 1 = x.shape 0) := by
  constructor
  · intro h
    refine ⟨_, if_pos (by omega), fun i j k => ?_, rfl, rfl, rfl⟩
    show x.elem _ = _
    congr 1
    funext a
    rcases a with _ | _ | _ | a <;> simp [idx3, swapAxis]
  · intro h
    refine ⟨_, if_pos (by omega), fun i j => ?_, rfl, rfl⟩
    show x.elem _ = _
    congr 1
    funext a
    rcases a with _ | _ | a <;> simp [idx2, swapAxis]

example : ∃ x : NdArray ℕ, x.ndim = 3 ∧ x.elem (idx3 1 2 3) ≠ x.elem (idx3 3 2 1) :=
  ⟨⟨3, fun _ => 5, fun idx => idx 0⟩, rfl, by simp [idx3]⟩

end Falwa
