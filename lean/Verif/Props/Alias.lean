import Verif.Model.Alias
import Mathlib.Tactic.Linarith
import Mathlib.Tactic.NormNum

/-!
# Shared memory of a QGField (C135, C136, C137, C138)

C135: a result that was read does not change when further methods are called. C136: editing a result that was read does not change the
object. C137: the arrays passed by the user are never modified. C138: changing them after construction has no effect.
-/

namespace Falwa.Alias

variable {c : Cfg} {code : Code} {inp : ℕ → Arr}

/-! ### Classes of attributes -/

/-- Attributes whose arrays are written in place by some method. -/
def mutable : Attr → Bool
  | .qref | .uref | .ptref | .lwa | .astar1 | .astar2 | .ua1 | .ua2 | .ep1 | .ep2 | .ep3 | .stretch | .ncforce
  | .ua1baro | .ua2baro | .ep1baro | .ep2baro | .ep3baro | .ep4 | .ncforceBaro | .uBaro | .lwaBaro | .astar1Baro | .astar2Baro => true
  | _ => false

/-- Attributes that become views of arrays that are written in place. -/
def follower : Attr → Bool
  | .f1 | .f2 | .f3 | .heat | .ncforceOut => true
  | _ => false

/-- Attributes that are written in place and never bound to another array. -/
def fixed (c : Cfg) : Attr → Bool
  | .lwa => false
  | .stretch => c.northOnly
  | a => mutable a

/-- What the methods do with the classes. -/
def Stmt.Fits (c : Cfg) : Stmt → Prop
  | .fresh _ as => ∀ a ∈ as, fixed c a = false ∧ follower a = false
  | .view _ a b => mutable a = false ∧ (follower a = false → mutable b = false ∧ follower b = false)
  | .into _ as => ∀ a ∈ as, mutable a = true

instance (c : Cfg) : (x : Stmt) → Decidable (x.Fits c)
  | .fresh _ as => inferInstanceAs (Decidable (∀ a ∈ as, fixed c a = false ∧ follower a = false))
  | .view _ a b => inferInstanceAs (Decidable (mutable a = false ∧ (follower a = false → mutable b = false ∧ follower b = false)))
  | .into _ as => inferInstanceAs (Decidable (∀ a ∈ as, mutable a = true))

theorem body_fits (c : Cfg) (m : Method) : ∀ x ∈ body c m, x.Fits c := by
  obtain ⟨e, n, p, q⟩ := c
  cases m <;> cases e <;> cases n <;> cases p <;> cases q <;> decide

/-! ### Memory that no method touches -/

/-- A set of buffers in use, none of which is written in place. -/
structure Safe (s : State) (S : Set Buf) : Prop where
  out : ∀ a, mutable a = true → (s.env a).buf ∉ S
  newLt : ∀ n, Buf.new n ∈ S → n < s.next
  copyLt : ∀ n, Buf.copy n ∈ S → n < s.next

theorem bind_safe {s : State} {S : Set Buf} (h : Safe s S) (a : Attr) (x : Arr) :
    Safe (s.bind a x) S ∧ ∀ b ∈ S, (s.bind a x).heap b = s.heap b := by
  have hn : Buf.new s.next ∉ S := fun hm => lt_irrefl _ (h.newLt _ hm)
  refine ⟨⟨?_, fun n hm => Nat.lt_succ_of_lt (h.newLt n hm), fun n hm => Nat.lt_succ_of_lt (h.copyLt n hm)⟩, ?_⟩
  · intro a' ha'
    show (Function.update s.env a _ a').buf ∉ S
    by_cases e : a' = a
    · rw [e, Function.update_self]; exact hn
    · rw [Function.update_of_ne e]; exact h.out a' ha'
  · intro b hb
    have e : b ≠ .new s.next := fun e => hn (e ▸ hb)
    exact Function.update_of_ne e _ _

theorem write_safe {s : State} {S : Set Buf} (h : Safe s S) {a : Attr} (ha : mutable a = true) (x : Arr) :
    Safe (s.write (s.env a) x) S ∧ ∀ b ∈ S, (s.write (s.env a) x).heap b = s.heap b :=
  ⟨⟨h.out, h.newLt, h.copyLt⟩, fun b hb => by
    have e : b ≠ (s.env a).buf := fun e => h.out a ha (e ▸ hb)
    exact Function.update_of_ne e _ _⟩

theorem exec_safe {s : State} {S : Set Buf} (h : Safe s S) {x : Stmt} (hx : x.Fits c) (nc : Arr) :
    Safe (x.exec code nc s) S ∧ ∀ b ∈ S, (x.exec code nc s).heap b = s.heap b := by
  cases x with
  | fresh l as =>
    show Safe (as.foldl _ s) S ∧ _
    suffices H : ∀ (as : List Attr) (t : State), Safe t S →
        Safe (as.foldl (fun t a => t.bind a (code.line l a s.vals nc)) t) S ∧
        ∀ b ∈ S, (as.foldl (fun t a => t.bind a (code.line l a s.vals nc)) t).heap b = t.heap b from H as s h
    intro as
    induction as with
    | nil => exact fun t ht => ⟨ht, fun _ _ => rfl⟩
    | cons a as ih =>
      intro t ht
      have h1 := bind_safe ht a (code.line l a s.vals nc)
      have h2 := ih _ h1.1
      exact ⟨h2.1, fun b hb => (h2.2 b hb).trans (h1.2 b hb)⟩
  | view l a b =>
    refine ⟨⟨?_, h.newLt, h.copyLt⟩, fun _ _ => rfl⟩
    intro a' ha'
    show (Function.update s.env a _ a').buf ∉ S
    have e : a' ≠ a := by
      rintro rfl
      have := hx.1
      rw [ha'] at this
      exact absurd this (by decide)
    rw [Function.update_of_ne e]
    exact h.out a' ha'
  | into l as =>
    suffices H : ∀ (as : List Attr) (t : State), (∀ a ∈ as, mutable a = true) → Safe t S →
        Safe (as.foldl (fun t a => t.write (t.env a) (code.line l a s.vals nc)) t) S ∧
        ∀ b ∈ S, (as.foldl (fun t a => t.write (t.env a) (code.line l a s.vals nc)) t).heap b = t.heap b from H as s hx h
    intro as
    induction as with
    | nil => exact fun t _ ht => ⟨ht, fun _ _ => rfl⟩
    | cons a as ih =>
      intro t hm ht
      have h1 := write_safe ht (hm a (by simp)) (code.line l a s.vals nc)
      have h2 := ih _ (fun a' ha' => hm a' (by simp [ha'])) h1.1
      exact ⟨h2.1, fun b hb => (h2.2 b hb).trans (h1.2 b hb)⟩

theorem call_safe {s : State} {S : Set Buf} (h : Safe s S) (m : Method) (n : ℕ) (nc : Arr) :
    Safe ((Act.call m n nc).run c code s) S ∧ ∀ b ∈ S, ((Act.call m n nc).run c code s).heap b = s.heap b := by
  suffices H : ∀ (xs : List Stmt) (t : State), (∀ x ∈ xs, x.Fits c) → Safe t S →
      Safe (xs.foldl (fun t x => x.exec code nc t) t) S ∧ ∀ b ∈ S, (xs.foldl (fun t x => x.exec code nc t) t).heap b = t.heap b from
    H _ s (fun x hx => body_fits c m x (List.mem_of_mem_take hx)) h
  intro xs
  induction xs with
  | nil => exact fun t _ ht => ⟨ht, fun _ _ => rfl⟩
  | cons x xs ih =>
    intro t hm ht
    have h1 := exec_safe (code := code) ht (hm x (by simp)) nc
    have h2 := ih _ (fun y hy => hm y (by simp [hy])) h1.1
    exact ⟨h2.1, fun b hb => (h2.2 b hb).trans (h1.2 b hb)⟩

theorem giveCopy_safe {s : State} {S : Set Buf} (h : Safe s S) (x : Arr) :
    Safe (s.giveCopy x) S ∧ ∀ b ∈ S, (s.giveCopy x).heap b = s.heap b := by
  have hn : Buf.copy s.next ∉ S := fun hm => lt_irrefl _ (h.copyLt _ hm)
  exact ⟨⟨h.out, fun n hm => Nat.lt_succ_of_lt (h.newLt n hm), fun n hm => Nat.lt_succ_of_lt (h.copyLt n hm)⟩,
    fun b hb => by
      have e : b ≠ .copy s.next := fun e => hn (e ▸ hb)
      exact Function.update_of_ne e _ _⟩

theorem get_safe {s : State} {S : Set Buf} (h : Safe s S) (g : Getter) :
    Safe (s.get c code g) S ∧ ∀ b ∈ S, (s.get c code g).heap b = s.heap b := by
  cases g with
  | prop a =>
    unfold State.get
    dsimp only
    split_ifs
    · exact giveCopy_safe h _
    · exact ⟨⟨h.out, h.newLt, h.copyLt⟩, fun _ _ => rfl⟩
  | qref => exact giveCopy_safe h _
  | item a sw => exact ⟨⟨h.out, h.newLt, h.copyLt⟩, fun _ _ => rfl⟩

/-- Steps that are not edits by the user. -/
def Act.quiet : Act → Bool
  | .edit _ _ => false
  | _ => true

/-- Sessions without edits leave safe memory alone. -/
theorem quiet_safe {S : Set Buf} (acts : List Act) : ∀ s : State, (∀ x ∈ acts, x.quiet = true) → Safe s S →
    Safe (runAll c code acts s) S ∧ ∀ b ∈ S, (runAll c code acts s).heap b = s.heap b := by
  induction acts with
  | nil => exact fun s _ h => ⟨h, fun _ _ => rfl⟩
  | cons x xs ih =>
    intro s hq h
    have h1 : Safe (x.run c code s) S ∧ ∀ b ∈ S, (x.run c code s).heap b = s.heap b := by
      cases x with
      | call m n nc => exact call_safe h m n nc
      | get g => exact get_safe h g
      | edit k f => exact absurd (hq (.edit k f) (by simp)) Bool.false_ne_true
    have h2 := ih _ (fun y hy => hq y (by simp [hy])) h1.1
    exact ⟨h2.1, fun b hb => (h2.2 b hb).trans (h1.2 b hb)⟩

/-! ### What the attributes can be bound to -/

/-- Invariant of all sessions. -/
structure Inv (c : Cfg) (s : State) : Prop where
  newLt : ∀ a n, (s.env a).buf = .new n → n < s.next
  noCopy : ∀ a n, (s.env a).buf ≠ .copy n
  noInput : ∀ a, mutable a = true → ∀ n, (s.env a).buf ≠ .input n
  inputs : ∀ a n, (s.env a).buf = .input n → n ≠ 2 ∧ (c.even = true → n ≠ 0 ∧ n ≠ 1)
  apart : ∀ a b, mutable a = true → mutable b = false → follower b = false → (s.env a).buf ≠ (s.env b).buf
  fix : ∀ a, fixed c a = true → s.env a = ⟨.init a, false⟩

theorem start_inv (c : Cfg) (code : Code) (inp : ℕ → Arr) : Inv c (start c code inp) := by
  obtain ⟨e, n, p, q⟩ := c
  refine ⟨?_, ?_, ?_, ?_, ?_, ?_⟩
  · intro a k h; revert h; cases a <;> cases e <;> simp [start, env₀]
  · intro a k; cases a <;> cases e <;> simp [start, env₀]
  · intro a h k; revert h; cases a <;> cases e <;> simp [start, env₀, mutable]
  · intro a k h; revert h; cases a <;> cases e <;> simp [start, env₀] <;> (rintro rfl; simp)
  · intro a b h1 h2 h3
    have ha : (env₀ ⟨e, n, p, q⟩ a) = ⟨.init a, false⟩ := by revert h1; cases a <;> simp [mutable, env₀]
    have hab : a ≠ b := by rintro rfl; rw [h1] at h2; exact absurd h2 (by decide)
    show (env₀ _ a).buf ≠ (env₀ _ b).buf
    rw [ha]
    cases b <;> cases e <;> simp [env₀] <;> exact hab
  · intro a h
    have h1 : mutable a = true := by revert h; cases a <;> cases n <;> simp [fixed, mutable]
    show env₀ _ a = _
    revert h1; cases a <;> simp [mutable, env₀]

theorem fixed_mutable {a : Attr} (h : fixed c a = true) : mutable a = true := by
  revert h; obtain ⟨e, n, p, q⟩ := c; cases a <;> cases n <;> simp [fixed, mutable]

theorem bind_inv {s : State} (h : Inv c s) {a : Attr} (ha : fixed c a = false) (x : Arr) : Inv c (s.bind a x) := by
  have hself : (s.bind a x).env a = ⟨.new s.next, false⟩ := Function.update_self ..
  have hother : ∀ b, b ≠ a → (s.bind a x).env b = s.env b := fun b hb => Function.update_of_ne hb _ _
  refine ⟨?_, ?_, ?_, ?_, ?_, ?_⟩
  · intro b n hb
    by_cases e : b = a
    · rw [e, hself] at hb; injection hb with hb; rw [← hb]; exact Nat.lt_succ_self _
    · rw [hother b e] at hb; exact Nat.lt_succ_of_lt (h.newLt b n hb)
  · intro b n
    by_cases e : b = a
    · rw [e, hself]; simp
    · rw [hother b e]; exact h.noCopy b n
  · intro b hb n
    by_cases e : b = a
    · rw [e, hself]; simp
    · rw [hother b e]; exact h.noInput b hb n
  · intro b n hb
    by_cases e : b = a
    · rw [e, hself] at hb; simp at hb
    · rw [hother b e] at hb; exact h.inputs b n hb
  · intro b d h1 h2 h3
    by_cases e : b = a
    · by_cases e' : d = a
      · rw [← e] at e'; rw [e', h1] at h2; exact absurd h2 (by decide)
      · rw [e, hself, hother d e']
        exact fun he => lt_irrefl _ (h.newLt d _ he.symm)
    · by_cases e' : d = a
      · rw [e', hself, hother b e]
        exact fun he => lt_irrefl _ (h.newLt b _ he)
      · rw [hother b e, hother d e']; exact h.apart b d h1 h2 h3
  · intro b hb
    have e : b ≠ a := by rintro rfl; rw [ha] at hb; exact absurd hb (by decide)
    rw [hother b e]; exact h.fix b hb

theorem write_inv {s : State} (h : Inv c s) (v : View) (x : Arr) : Inv c (s.write v x) :=
  ⟨h.newLt, h.noCopy, h.noInput, h.inputs, h.apart, h.fix⟩

theorem exec_inv {s : State} (h : Inv c s) {x : Stmt} (hx : x.Fits c) (nc : Arr) : Inv c (x.exec code nc s) := by
  cases x with
  | fresh l as =>
    suffices H : ∀ (as : List Attr) (t : State), (∀ a ∈ as, fixed c a = false ∧ follower a = false) → Inv c t →
        Inv c (as.foldl (fun t a => t.bind a (code.line l a s.vals nc)) t) from H as s hx h
    intro as
    induction as with
    | nil => exact fun t _ ht => ht
    | cons a as ih => exact fun t hm ht => ih _ (fun b hb => hm b (by simp [hb])) (bind_inv ht (hm a (by simp)).1 _)
  | view l a b =>
    have hself : (Stmt.exec code nc (.view l a b) s).env a = ⟨(s.env b).buf, !(s.env b).swapped⟩ := Function.update_self ..
    have hother : ∀ d, d ≠ a → (Stmt.exec code nc (.view l a b) s).env d = s.env d := fun d hd => Function.update_of_ne hd _ _
    have hne : ∀ d, mutable d = true → d ≠ a := by
      rintro d hd rfl
      have := hx.1
      rw [hd] at this
      exact absurd this (by decide)
    refine ⟨?_, ?_, ?_, ?_, ?_, ?_⟩
    · intro d n hd
      by_cases e : d = a
      · rw [e, hself] at hd; exact h.newLt b n hd
      · rw [hother d e] at hd; exact h.newLt d n hd
    · intro d n
      by_cases e : d = a
      · rw [e, hself]; exact h.noCopy b n
      · rw [hother d e]; exact h.noCopy d n
    · intro d hd n
      rw [hother d (hne d hd)]; exact h.noInput d hd n
    · intro d n hd
      by_cases e : d = a
      · rw [e, hself] at hd; exact h.inputs b n hd
      · rw [hother d e] at hd; exact h.inputs d n hd
    · intro d d' h1 h2 h3
      rw [hother d (hne d h1)]
      by_cases e : d' = a
      · rw [e, hself]
        have := hx.2 (e ▸ h3)
        exact h.apart d b h1 this.1 this.2
      · rw [hother d' e]; exact h.apart d d' h1 h2 h3
    · intro d hd
      rw [hother d (hne d (fixed_mutable hd))]; exact h.fix d hd
  | into l as =>
    suffices H : ∀ (as : List Attr) (t : State), Inv c t →
        Inv c (as.foldl (fun t a => t.write (t.env a) (code.line l a s.vals nc)) t) from H as s h
    intro as
    induction as with
    | nil => exact fun t ht => ht
    | cons a as ih => exact fun t ht => ih _ (write_inv ht _ _)

theorem get_inv {s : State} (h : Inv c s) (g : Getter) : Inv c (s.get c code g) := by
  have hc : ∀ x, Inv c (s.giveCopy x) := fun x =>
    ⟨fun a n ha => Nat.lt_succ_of_lt (h.newLt a n ha), h.noCopy, h.noInput, h.inputs, h.apart, h.fix⟩
  have hg : ∀ v, Inv c (s.give v) := fun v => ⟨h.newLt, h.noCopy, h.noInput, h.inputs, h.apart, h.fix⟩
  cases g with
  | prop a =>
    show Inv c (if _ then _ else _)
    split_ifs
    · exact hc _
    · exact hg _
  | qref => exact hc _
  | item a sw => exact hg _

theorem edit_inv {s : State} (h : Inv c s) (k : ℕ) (f : Arr → Arr) : Inv c (s.edit k f) := by
  unfold State.edit
  split
  · exact write_inv h _ _
  · exact h

theorem act_inv {s : State} (h : Inv c s) (x : Act) : Inv c (x.run c code s) := by
  cases x with
  | call m n nc =>
    suffices H : ∀ (xs : List Stmt) (t : State), (∀ x ∈ xs, x.Fits c) → Inv c t → Inv c (xs.foldl (fun t x => x.exec code nc t) t) from
      H _ s (fun x hx => body_fits c m x (List.mem_of_mem_take hx)) h
    intro xs
    induction xs with
    | nil => exact fun t _ ht => ht
    | cons x xs ih => exact fun t hm ht => ih _ (fun y hy => hm y (by simp [hy])) (exec_inv ht (hm x (by simp)) nc)
  | get g => exact get_inv h g
  | edit k f => exact edit_inv h k f

theorem runAll_inv (acts : List Act) : ∀ s : State, Inv c s → Inv c (runAll c code acts s) := by
  induction acts with
  | nil => exact fun s h => h
  | cons x xs ih => exact fun s h => ih _ (act_inv h x)

/-- Every session keeps the invariant. -/
theorem session_inv (acts : List Act) : Inv c (runAll c code acts (start c code inp)) := runAll_inv acts _ (start_inv c code inp)

/-! ### C137: the arrays of the user -/

/-- No method writes to an array that the user passed, whatever is called, in whatever order, even if methods raise exceptions half-way. -/
theorem C137_inputs_unchanged (c : Cfg) (code : Code) (inp : ℕ → Arr) (acts : List Act) (hq : ∀ x ∈ acts, x.quiet = true) (n : ℕ) :
    (runAll c code acts (start c code inp)).heap (.input n) = inp n := by
  have hs : Safe (start c code inp) {b | ∃ n, b = .input n} :=
    ⟨fun a ha ⟨n, hn⟩ => (start_inv c code inp).noInput a ha n hn, fun n ⟨_, h⟩ => by simp at h, fun n ⟨_, h⟩ => by simp at h⟩
  exact (quiet_safe acts _ hq hs).2 _ ⟨n, rfl⟩

/-! ### C135: results that were read -/

/-- The view handed out by a getter: the last of the list. -/
def State.last (s : State) : View := s.handles.getLastD ⟨.input 0, false⟩

theorem last_give (s : State) (v : View) : (s.give v).last = v := by simp [State.last, State.give]

theorem last_giveCopy (s : State) (x : Arr) : (s.giveCopy x).last = ⟨.copy s.next, false⟩ := by simp [State.last, State.giveCopy]

/-- Documented ways to read a result: the properties. -/
def Getter.isProperty : Getter → Bool
  | .prop _ | .qref => true
  | .item _ _ => false

/-- The claim: an array read from a property keeps its values whatever is called later. -/
def C135_Statement : Prop := ∀ (c : Cfg) (code : Code) (inp : ℕ → Arr) (before after : List Act) (g : Getter), g.isProperty = true →
  (∀ x ∈ after, x.quiet = true) →
  (runAll c code after ((runAll c code before (start c code inp)).get c code g)).read
      ((runAll c code before (start c code inp)).get c code g).last =
    ((runAll c code before (start c code inp)).get c code g).read ((runAll c code before (start c code inp)).get c code g).last

theorem quiet_read {s : State} {v : View} (hs : Safe s {v.buf}) {acts : List Act} (hq : ∀ x ∈ acts, x.quiet = true) :
    (runAll c code acts s).read v = s.read v := by
  funext i
  show (runAll c code acts s).heap v.buf _ = s.heap v.buf _
  rw [(quiet_safe acts s hq hs).2 _ rfl]

theorem copy_safe {s : State} (h : Inv c s) (x : Arr) : Safe (s.giveCopy x) {(s.giveCopy x).last.buf} := by
  rw [last_giveCopy]
  refine ⟨fun a _ he => h.noCopy a _ he, fun n hn => ?_, fun n hn => ?_⟩
  · cases hn
  · cases hn; exact Nat.lt_succ_self _

/-- Even grids: every property returns an array of its own. -/
theorem C135_even_partial (he : c.even = true) (before after : List Act) {g : Getter} (hg : g.isProperty = true)
    (hq : ∀ x ∈ after, x.quiet = true) :
    (runAll c code after ((runAll c code before (start c code inp)).get c code g)).read
        ((runAll c code before (start c code inp)).get c code g).last =
      ((runAll c code before (start c code inp)).get c code g).read ((runAll c code before (start c code inp)).get c code g).last := by
  have hi := session_inv (c := c) (code := code) (inp := inp) before
  apply quiet_read _ hq
  cases g with
  | prop a =>
    show Safe (if c.even = true then _ else _) {(State.last (if c.even = true then _ else _)).buf}
    rw [if_pos he]
    exact copy_safe hi _
  | qref => exact copy_safe hi _
  | item a sw => exact absurd hg Bool.false_ne_true

/-- All grids: `qref`, and the properties whose arrays are replaced rather than overwritten: `qgpv`, the interpolated fields,
`convergence_zonal_advective_flux`, `divergence_eddy_momentum_flux` and the flux vectors. -/
theorem C135_replaced_partial (before after : List Act) {g : Getter}
    (hg : g = .qref ∨ ∃ a, g = .prop a ∧ mutable a = false ∧ follower a = false) (hq : ∀ x ∈ after, x.quiet = true) :
    (runAll c code after ((runAll c code before (start c code inp)).get c code g)).read
        ((runAll c code before (start c code inp)).get c code g).last =
      ((runAll c code before (start c code inp)).get c code g).read ((runAll c code before (start c code inp)).get c code g).last := by
  have hi := session_inv (c := c) (code := code) (inp := inp) before
  rcases hg with rfl | ⟨a, rfl, h1, h2⟩
  · exact quiet_read (copy_safe hi _) hq
  · by_cases he : c.even = true
    · exact C135_even_partial he before after rfl hq
    · apply quiet_read _ hq
      show Safe (if c.even = true then _ else _) {(State.last (if c.even = true then _ else _)).buf}
      rw [if_neg he, last_give]
      refine ⟨fun b hb hm => hi.apart b a hb h1 h2 hm, fun n hn => hi.newLt a n hn.symm, fun n hn => ?_⟩
      exact absurd hn.symm (hi.noCopy a n)

theorem viewOf_fixed {s t : State} (hs : Inv c s) (ht : Inv c t) {a : Attr} (ha : fixed c a = true) (sw : Bool) :
    s.viewOf a sw = t.viewOf a sw := by
  unfold State.viewOf
  rw [hs.fix a ha, ht.fix a ha]

/-- Grids with an equator: an array read from one of the properties that are overwritten in place (`uref`, `ptref`, `lwa_baro`, `u_baro`,
`ncforce_baro`, `ua1`, `ua2`, `ep1`, `ep2`, `ep3`) shows at any later time what the property returns at that time. -/
theorem C135_follows (he : c.even = false) (before after : List Act) {a : Attr} (ha : fixed c a = true) :
    (runAll c code after ((runAll c code before (start c code inp)).get c code (.prop a))).read
        ((runAll c code before (start c code inp)).get c code (.prop a)).last =
      (runAll c code after ((runAll c code before (start c code inp)).get c code (.prop a))).read
        ((runAll c code after ((runAll c code before (start c code inp)).get c code (.prop a))).get c code (.prop a)).last := by
  have hi := session_inv (c := c) (code := code) (inp := inp) before
  have hi2 := runAll_inv (c := c) (code := code) after _ (get_inv (code := code) hi (.prop a))
  have e1 : ∀ s : State, s.get c code (.prop a) = s.give (s.viewOf a (swaps a)) := by
    intro s
    show (if c.even = true then _ else _) = _
    rw [he]; rfl
  have v1 : ((runAll c code before (start c code inp)).get c code (.prop a)).last =
      ((runAll c code after ((runAll c code before (start c code inp)).get c code (.prop a))).get c code (.prop a)).last := by
    rw [e1 (runAll c code after _), last_give]
    exact (congrArg State.last (e1 _)).trans ((last_give _ _).trans (viewOf_fixed hi hi2 ha _))
  rw [v1]

/-- The same for elements of the tuple returned by `compute_lwa_and_barotropic_fluxes`, on every grid: `lwa_baro` and `u_baro` are
views of arrays that later calls overwrite. -/
theorem C135_tuple_follows (before after : List Act) {a : Attr} (ha : fixed c a = true) (sw : Bool) :
    (runAll c code after ((runAll c code before (start c code inp)).get c code (.item a sw))).read
        ((runAll c code before (start c code inp)).get c code (.item a sw)).last =
      (runAll c code after ((runAll c code before (start c code inp)).get c code (.item a sw))).read
        ((runAll c code after ((runAll c code before (start c code inp)).get c code (.item a sw))).get c code (.item a sw)).last := by
  have hi := session_inv (c := c) (code := code) (inp := inp) before
  have hi2 := runAll_inv (c := c) (code := code) after _ (get_inv (code := code) hi (.item a sw))
  have e1 : ∀ s : State, s.get c code (.item a sw) = s.give (s.viewOf a sw) := fun _ => rfl
  have v1 : ((runAll c code before (start c code inp)).get c code (.item a sw)).last =
      ((runAll c code after ((runAll c code before (start c code inp)).get c code (.item a sw))).get c code (.item a sw)).last := by
    rw [e1 (runAll c code after _), last_give]
    exact (congrArg State.last (e1 _)).trans ((last_give _ _).trans (viewOf_fixed hi hi2 ha _))
  rw [v1]

/-- Example code: `ncforce_baro` is the given forcing, `u` is the wind, everything else zero. -/
def sampleCode : Code where
  start a inp := if a = .uField then inp 0 else fun _ => 0
  line l a v nc := if l = 734 ∧ a = .ncforceBaro then nc else if l = 520 then v .uField else fun _ => 0
  back a v := v a
  qrefUnit v := v .qref

/-- Grids with an equator, results for the Northern Hemisphere. -/
def sampleCfg : Cfg := ⟨false, true, false, false⟩

/-- Two computations with different forcing: the result of the first becomes that of the second. -/
theorem C135_refuted : ¬ C135_Statement := by
  intro h
  have h1 := h sampleCfg sampleCode (fun _ _ => 0) [.call .interpolate 100 fun _ => 0, .call .references 100 fun _ => 0, .call .fluxes 100 fun _ => 1]
    [.call .fluxes 100 fun _ => 2] (.prop .ncforceBaro) rfl (by simp [Act.quiet])
  have h2 := congrFun h1 []
  simp [runAll, Act.run, body, interpolate, references, fluxes, sampleCfg, sampleCode, start, State.get, State.give, State.viewOf,
    State.last, State.read, Stmt.exec, State.bind, State.write, env₀, swaps, flip, Function.update, State.vals] at h2

/-! ### Two sessions that differ in memory the object does not use -/

/-- The sessions differ at most in the buffers `E`, which no attribute is bound to. -/
structure Rel (E : Set Buf) (s t : State) : Prop where
  env : s.env = t.env
  next : s.next = t.next
  handles : s.handles = t.handles
  heap : ∀ b, b ∉ E → s.heap b = t.heap b
  out : ∀ a, (s.env a).buf ∉ E

variable {E : Set Buf}

theorem Rel.read {s t : State} (h : Rel E s t) {v : View} (hv : v.buf ∉ E) : s.read v = t.read v := by
  funext i
  show s.heap v.buf _ = t.heap v.buf _
  rw [h.heap _ hv]

theorem Rel.vals {s t : State} (h : Rel E s t) : s.vals = t.vals := by
  funext a
  show s.read (s.env a) = t.read (t.env a)
  rw [← h.env]
  exact h.read (h.out a)

theorem update_agree {f g : Buf → Arr} (h : ∀ b, b ∉ E → f b = g b) (k : Buf) (x : Arr) :
    ∀ b, b ∉ E → Function.update f k x b = Function.update g k x b := by
  intro b hb
  by_cases e : b = k
  · rw [e, Function.update_self, Function.update_self]
  · rw [Function.update_of_ne e, Function.update_of_ne e, h b hb]

theorem Rel.bind {s t : State} (h : Rel E s t) (hE : ∀ n, Buf.new n ∉ E) (a : Attr) (x : Arr) : Rel E (s.bind a x) (t.bind a x) := by
  refine ⟨?_, ?_, h.handles, ?_, ?_⟩
  · show Function.update s.env a ⟨.new s.next, false⟩ = Function.update t.env a ⟨.new t.next, false⟩
    rw [h.env, h.next]
  · show s.next + 1 = t.next + 1
    rw [h.next]
  · show ∀ b, b ∉ E → Function.update s.heap (.new s.next) x b = Function.update t.heap (.new t.next) x b
    rw [h.next]
    exact update_agree h.heap _ _
  · intro b
    show (Function.update s.env a _ b).buf ∉ E
    by_cases e : b = a
    · rw [e, Function.update_self]; exact hE _
    · rw [Function.update_of_ne e]; exact h.out b

theorem Rel.write {s t : State} (h : Rel E s t) (v : View) (x : Arr) : Rel E (s.write v x) (t.write v x) :=
  ⟨h.env, h.next, h.handles, update_agree h.heap _ _, h.out⟩

theorem Rel.exec {s t : State} (h : Rel E s t) (hE : ∀ n, Buf.new n ∉ E) (x : Stmt) (nc : Arr) :
    Rel E (x.exec code nc s) (x.exec code nc t) := by
  cases x with
  | fresh l as =>
    have hv := h.vals
    suffices H : ∀ (as : List Attr) (s' t' : State), Rel E s' t' →
        Rel E (as.foldl (fun t a => t.bind a (code.line l a s.vals nc)) s') (as.foldl (fun u a => u.bind a (code.line l a t.vals nc)) t') from
      H as s t h
    rw [← hv]
    intro as
    induction as with
    | nil => exact fun s' t' h' => h'
    | cons a as ih => exact fun s' t' h' => ih _ _ (h'.bind hE a _)
  | view l a b =>
    refine ⟨?_, h.next, h.handles, h.heap, ?_⟩
    · show Function.update s.env a ⟨(s.env b).buf, !(s.env b).swapped⟩ = Function.update t.env a ⟨(t.env b).buf, !(t.env b).swapped⟩
      rw [h.env]
    · intro d
      show (Function.update s.env a _ d).buf ∉ E
      by_cases e : d = a
      · rw [e, Function.update_self]; exact h.out b
      · rw [Function.update_of_ne e]; exact h.out d
  | into l as =>
    have hv := h.vals
    suffices H : ∀ (as : List Attr) (s' t' : State), Rel E s' t' →
        Rel E (as.foldl (fun t a => t.write (t.env a) (code.line l a s.vals nc)) s')
          (as.foldl (fun u a => u.write (u.env a) (code.line l a t.vals nc)) t') from H as s t h
    rw [← hv]
    intro as
    induction as with
    | nil => exact fun s' t' h' => h'
    | cons a as ih =>
      intro s' t' h'
      refine ih _ _ ?_
      beta_reduce
      rw [← h'.env]
      exact h'.write _ _

theorem Rel.call {s t : State} (h : Rel E s t) (hE : ∀ n, Buf.new n ∉ E) (m : Method) (n : ℕ) (nc : Arr) :
    Rel E ((Act.call m n nc).run c code s) ((Act.call m n nc).run c code t) := by
  show Rel E (((body c m).take n).foldl (fun t x => x.exec code nc t) s) (((body c m).take n).foldl (fun t x => x.exec code nc t) t)
  generalize (body c m).take n = xs
  induction xs generalizing s t with
  | nil => exact h
  | cons x xs ih => exact ih (h.exec hE x nc)

theorem Rel.give {s t : State} (h : Rel E s t) (v : View) : Rel E (s.give v) (t.give v) :=
  ⟨h.env, h.next, by show s.handles ++ _ = t.handles ++ _; rw [h.handles], h.heap, h.out⟩

theorem Rel.giveCopy {s t : State} (h : Rel E s t) (x : Arr) : Rel E (s.giveCopy x) (t.giveCopy x) := by
  refine ⟨h.env, ?_, ?_, ?_, h.out⟩
  · show s.next + 1 = t.next + 1
    rw [h.next]
  · show s.handles ++ [⟨.copy s.next, false⟩] = t.handles ++ [⟨.copy t.next, false⟩]
    rw [h.handles, h.next]
  · show ∀ b, b ∉ E → Function.update s.heap (.copy s.next) x b = Function.update t.heap (.copy t.next) x b
    rw [h.next]
    exact update_agree h.heap _ _

theorem Rel.get {s t : State} (h : Rel E s t) (g : Getter) : Rel E (s.get c code g) (t.get c code g) := by
  have hw : ∀ a sw, s.viewOf a sw = t.viewOf a sw := by
    intro a sw
    unfold State.viewOf
    rw [h.env]
  cases g with
  | prop a =>
    unfold State.get
    dsimp only
    split_ifs
    · rw [h.vals]; exact h.giveCopy _
    · rw [hw]; exact h.give _
  | qref =>
    show Rel E (s.giveCopy _) (t.giveCopy _)
    rw [h.vals]; exact h.giveCopy _
  | item a sw =>
    show Rel E (s.give _) (t.give _)
    rw [hw]; exact h.give _

/-- What is read from related states is the same. -/
theorem Rel.result {s t : State} (h : Rel E s t) (g : Getter) :
    (s.get c code g).read (s.get c code g).last = (t.get c code g).read (t.get c code g).last := by
  have hc : ∀ (s : State) (x : Arr), (s.giveCopy x).read (s.giveCopy x).last = x := by
    intro s x
    rw [last_giveCopy]
    funext i
    show Function.update s.heap (.copy s.next) x (.copy s.next) i = x i
    rw [Function.update_self]
  have hv : ∀ a sw, (s.give (s.viewOf a sw)).read (s.give (s.viewOf a sw)).last = (t.give (t.viewOf a sw)).read (t.give (t.viewOf a sw)).last := by
    intro a sw
    rw [last_give, last_give]
    have e : s.viewOf a sw = t.viewOf a sw := by
      unfold State.viewOf
      rw [h.env]
    rw [← e]
    exact h.read (h.out a)
  cases g with
  | prop a =>
    unfold State.get
    dsimp only
    split_ifs
    · rw [hc, hc, h.vals]
    · exact hv _ _
  | qref =>
    show (s.giveCopy _).read (s.giveCopy _).last = (t.giveCopy _).read (t.giveCopy _).last
    rw [hc, hc, h.vals]
  | item a sw => exact hv _ _

/-- An edit in `E` on one side. -/
theorem Rel.edit {s t : State} (h : Rel E s t) {k : ℕ} (hk : ∀ v, s.handles[k]? = some v → v.buf ∈ E) (f : Arr → Arr) :
    Rel E (s.edit k f) t := by
  unfold State.edit
  split
  · rename_i v hv
    refine ⟨h.env, h.next, h.handles, ?_, h.out⟩
    intro b hb
    have e : b ≠ v.buf := fun e => hb (e ▸ hk v hv)
    exact (Function.update_of_ne e _ _).trans (h.heap b hb)
  · exact h

theorem runAll_cons (x : Act) (xs : List Act) (s : State) : runAll c code (x :: xs) s = runAll c code xs (x.run c code s) := rfl

/-- Noninterference: if every edit of the session is in `E`, the session and the same session without edits are related. `P` is an
invariant that says which arrays the user can hold. -/
theorem rel_session (hE : ∀ n, Buf.new n ∉ E) (P : State → Prop) (ok : Act → Prop) (hP : ∀ s x, P s → ok x → P (x.run c code s))
    (hk : ∀ s k f, P s → ok (.edit k f) → ∀ v, s.handles[k]? = some v → v.buf ∈ E) (acts : List Act) :
    ∀ s t : State, (∀ x ∈ acts, ok x) → P s → Rel E s t → Rel E (runAll c code acts s) (runAll c code (acts.filter Act.quiet) t) := by
  induction acts with
  | nil => exact fun s t _ _ h => h
  | cons x xs ih =>
    intro s t ho hp h
    have hx := ho x (by simp)
    have hp' := hP s x hp hx
    have ho' : ∀ y ∈ xs, ok y := fun y hy => ho y (by simp [hy])
    cases x with
    | call m n nc =>
      rw [List.filter_cons_of_pos (by rfl), runAll_cons, runAll_cons]
      exact ih _ _ ho' hp' (h.call hE m n nc)
    | get g =>
      rw [List.filter_cons_of_pos (by rfl), runAll_cons, runAll_cons]
      exact ih _ _ ho' hp' (h.get g)
    | edit k f =>
      rw [List.filter_cons_of_neg (by exact Bool.false_ne_true), runAll_cons]
      exact ih _ _ ho' hp' (h.edit (hk s k f hp hx) f)

theorem exec_handles (x : Stmt) (nc : Arr) (s : State) : (x.exec code nc s).handles = s.handles := by
  cases x with
  | fresh l as =>
    suffices H : ∀ (as : List Attr) (t : State), (as.foldl (fun t a => t.bind a (code.line l a s.vals nc)) t).handles = t.handles from H as s
    intro as
    induction as with
    | nil => exact fun _ => rfl
    | cons a as ih => exact fun t => ih _
  | view l a b => rfl
  | into l as =>
    suffices H : ∀ (as : List Attr) (t : State), (as.foldl (fun t a => t.write (t.env a) (code.line l a s.vals nc)) t).handles = t.handles from
      H as s
    intro as
    induction as with
    | nil => exact fun _ => rfl
    | cons a as ih => exact fun t => ih _

theorem call_handles (m : Method) (n : ℕ) (nc : Arr) (s : State) : ((Act.call m n nc).run c code s).handles = s.handles := by
  show (((body c m).take n).foldl (fun t x => x.exec code nc t) s).handles = s.handles
  generalize (body c m).take n = xs
  induction xs generalizing s with
  | nil => rfl
  | cons x xs ih => exact (ih _).trans (exec_handles x nc s)

theorem edit_handles (k : ℕ) (f : Arr → Arr) (s : State) : (s.edit k f).handles = s.handles := by
  unfold State.edit
  split <;> rfl

theorem get_handles (g : Getter) (s : State) : ∃ v, (s.get c code g).handles = s.handles ++ [v] := by
  cases g with
  | prop a =>
    unfold State.get
    dsimp only
    split_ifs
    · exact ⟨_, rfl⟩
    · exact ⟨_, rfl⟩
  | qref => exact ⟨_, rfl⟩
  | item a sw => exact ⟨_, rfl⟩

/-! ### C136: editing results -/

/-- Results are read from properties only, and only arrays read from the object are edited (the first six are those passed by the user). -/
def Act.editsResults : Act → Prop
  | .edit k _ => 6 ≤ k
  | .get g => g.isProperty = true
  | .call _ _ _ => True

/-- The claim: editing arrays read from properties has no effect on the object. -/
def C136_Statement : Prop := ∀ (c : Cfg) (code : Code) (inp : ℕ → Arr) (acts : List Act), (∀ x ∈ acts, x.editsResults) →
  (runAll c code acts (start c code inp)).vals = (runAll c code (acts.filter Act.quiet) (start c code inp)).vals

/-- All arrays read from the object are copies. -/
def Copies (s : State) : Prop := 6 ≤ s.handles.length ∧ ∀ k v, 6 ≤ k → s.handles[k]? = some v → ∃ n, v.buf = .copy n

theorem copies_append {s t : State} (h : Copies s) {n : ℕ} {b : Bool} (ht : t.handles = s.handles ++ [⟨.copy n, b⟩]) : Copies t := by
  refine ⟨by rw [ht, List.length_append]; exact h.1.trans (Nat.le_add_right _ _), ?_⟩
  intro k v hk hv
  rw [ht, List.getElem?_append] at hv
  split at hv
  · exact h.2 k v hk hv
  · rename_i hlt
    have hv' := List.mem_of_getElem? hv
    rw [List.mem_singleton] at hv'
    exact ⟨n, by rw [hv']⟩

theorem copies_run (he : c.even = true) (s : State) (x : Act) (h : Copies s) (hx : x.editsResults) : Copies (x.run c code s) := by
  cases x with
  | call m n nc =>
    unfold Copies
    rw [call_handles]
    exact h
  | get g =>
    cases g with
    | prop a =>
      show Copies (if c.even = true then _ else _)
      rw [if_pos he]
      exact copies_append h rfl
    | qref => exact copies_append h rfl
    | item a sw => exact absurd hx Bool.false_ne_true
  | edit k f =>
    show Copies (s.edit k f)
    unfold Copies
    rw [edit_handles]
    exact h

theorem start_copies : Copies (start c code inp) := by
  refine ⟨by simp [start], ?_⟩
  intro k v hk hv
  have h0 : (start c code inp).handles.length ≤ k := by simpa [start] using hk
  rw [List.getElem?_eq_none h0] at hv
  exact absurd hv (by simp)

theorem even_rel (he : c.even = true) (acts : List Act) (ho : ∀ x ∈ acts, x.editsResults) :
    Rel {b | ∃ n, b = .copy n} (runAll c code acts (start c code inp)) (runAll c code (acts.filter Act.quiet) (start c code inp)) := by
  refine rel_session (by rintro n ⟨k, h⟩; simp at h) Copies Act.editsResults (copies_run he) ?_ acts _ _ ho start_copies
    ⟨rfl, rfl, rfl, fun _ _ => rfl, fun a ⟨n, hn⟩ => (start_inv c code inp).noCopy a n hn⟩
  intro s k f hs hx v hv
  exact hs.2 k v hx hv

/-- Even grids: edits of results have no effect, neither on the object nor on anything read later. -/
theorem C136_even_partial (he : c.even = true) (acts : List Act) (ho : ∀ x ∈ acts, x.editsResults) :
    (runAll c code acts (start c code inp)).vals = (runAll c code (acts.filter Act.quiet) (start c code inp)).vals ∧
    ∀ g : Getter, ((runAll c code acts (start c code inp)).get c code g).read ((runAll c code acts (start c code inp)).get c code g).last =
      ((runAll c code (acts.filter Act.quiet) (start c code inp)).get c code g).read
        ((runAll c code (acts.filter Act.quiet) (start c code inp)).get c code g).last :=
  ⟨(even_rel he acts ho).vals, fun g => (even_rel he acts ho).result g⟩

theorem flip_flip (b : Bool) (i : List ℤ) : flip b (flip b i) = i := by
  cases b <;> simp [flip]

theorem read_write (s : State) (v : View) (x : Arr) : (s.write v x).read v = x := by
  funext i
  show Function.update s.heap v.buf (fun i => x (flip v.swapped i)) v.buf (flip v.swapped i) = x i
  rw [Function.update_self, flip_flip]

/-- Grids with an equator: an edit of the array just read from a property is what the property returns from then on. -/
theorem C136_leaks (he : c.even = false) (s : State) (a : Attr) (f : Arr → Arr) :
    (((s.get c code (.prop a)).edit s.handles.length f).get c code (.prop a)).read
        (((s.get c code (.prop a)).edit s.handles.length f).get c code (.prop a)).last =
      f ((s.get c code (.prop a)).read (s.get c code (.prop a)).last) := by
  have e1 : ∀ s : State, s.get c code (.prop a) = s.give (s.viewOf a (swaps a)) := by
    intro s
    show (if c.even = true then _ else _) = _
    rw [he]; rfl
  have e2 : (s.give (s.viewOf a (swaps a))).edit s.handles.length f =
      (s.give (s.viewOf a (swaps a))).write (s.viewOf a (swaps a)) (f ((s.give (s.viewOf a (swaps a))).read (s.viewOf a (swaps a)))) := by
    unfold State.edit
    have : (s.give (s.viewOf a (swaps a))).handles[s.handles.length]? = some (s.viewOf a (swaps a)) := by simp [State.give]
    rw [this]
  rw [e1 s, e2, e1, last_give, last_give]
  exact read_write _ _ _

/-- Editing the array read from `uref` changes the zonal wind of the reference state in the object. -/
theorem C136_refuted : ¬ C136_Statement := by
  intro h
  have h1 := h sampleCfg sampleCode (fun _ _ => 0) [.call .interpolate 100 fun _ => 0, .call .references 100 fun _ => 0, .get (.prop .uref), .edit 6 fun x i => x i + 1]
    (by simp [Act.editsResults, Getter.isProperty])
  change _ = (runAll sampleCfg sampleCode [.call .interpolate 100 fun _ => 0, .call .references 100 fun _ => 0, .get (.prop .uref)] _).vals at h1
  have h2 := congrFun (congrFun h1 .uref) []
  simp [runAll, Act.run, body, interpolate, references, sampleCfg, sampleCode, start, State.get, State.give, State.viewOf,
    State.edit, State.read, Stmt.exec, State.bind, State.write, env₀, swaps, flip, Function.update, State.vals, List.range, List.range.loop] at h2

/-! ### C138: editing the input -/

/-- The only edits are edits of the arrays passed as `u_field`, `v_field`, `t_field`. -/
def Act.editsFields : Act → Prop
  | .edit k _ => k < 3
  | _ => True

/-- The claim: changing these arrays after construction has no effect on the object. -/
def C138_Statement : Prop := ∀ (c : Cfg) (code : Code) (inp : ℕ → Arr) (acts : List Act), (∀ x ∈ acts, x.editsFields) →
  (runAll c code acts (start c code inp)).vals = (runAll c code (acts.filter Act.quiet) (start c code inp)).vals

/-- The first six arrays the user holds are those passed. -/
def Holds (s : State) : Prop := ∀ k, k < 6 → s.handles[k]? = some ⟨.input k, false⟩

theorem holds_run (s : State) (x : Act) (h : Holds s) : Holds (x.run c code s) := by
  cases x with
  | call m n nc =>
    unfold Holds
    rw [call_handles]
    exact h
  | get g =>
    obtain ⟨v, hv⟩ := get_handles (c := c) (code := code) g s
    intro k hk
    show (s.get c code g).handles[k]? = _
    rw [hv, List.getElem?_append_left, h k hk]
    by_contra hlt
    have := h k hk
    rw [List.getElem?_eq_none (by omega)] at this
    exact absurd this (by simp)
  | edit k f =>
    show Holds (s.edit k f)
    unfold Holds
    rw [edit_handles]
    exact h

theorem start_holds : Holds (start c code inp) := by
  intro k hk
  simp [start, hk]

/-- Sessions that edit some of the arrays passed, none of which the object uses. -/
theorem input_rel {K : Set ℕ} (h6 : ∀ k ∈ K, k < 6) (hK : ∀ a n, ((start c code inp).env a).buf = .input n → n ∉ K) (acts : List Act)
    (ho : ∀ k f, Act.edit k f ∈ acts → k ∈ K) :
    Rel {b | ∃ n ∈ K, b = .input n} (runAll c code acts (start c code inp)) (runAll c code (acts.filter Act.quiet) (start c code inp)) := by
  refine rel_session (by rintro n ⟨k, _, h⟩; simp at h) Holds (fun x => ∀ k f, x = .edit k f → k ∈ K) (fun s x h _ => holds_run s x h) ?_ acts _ _
    ?_ start_holds ⟨rfl, rfl, rfl, fun _ _ => rfl, fun a ⟨n, hn, he⟩ => hK a n he hn⟩
  · intro s k f hs hx v hv
    have hk := hx k f rfl
    rw [hs k (h6 k hk)] at hv
    injection hv with hv
    exact ⟨k, hk, by rw [← hv]⟩
  · intro x hx k f e
    exact ho k f (e ▸ hx)

/-- All grids: changing the temperature array after construction has no effect. Even grids: nor has changing the wind arrays. -/
theorem C138_copied_partial (acts : List Act) (ho : ∀ k f, Act.edit k f ∈ acts → k = 2 ∨ (c.even = true ∧ k < 3)) :
    (runAll c code acts (start c code inp)).vals = (runAll c code (acts.filter Act.quiet) (start c code inp)).vals ∧
    ∀ g : Getter, ((runAll c code acts (start c code inp)).get c code g).read ((runAll c code acts (start c code inp)).get c code g).last =
      ((runAll c code (acts.filter Act.quiet) (start c code inp)).get c code g).read
        ((runAll c code (acts.filter Act.quiet) (start c code inp)).get c code g).last := by
  have hr : Rel {b | ∃ n ∈ {k | k = 2 ∨ (c.even = true ∧ k < 3)}, b = .input n} (runAll c code acts (start c code inp))
      (runAll c code (acts.filter Act.quiet) (start c code inp)) := by
    refine input_rel ?_ ?_ acts ho
    · rintro k (rfl | ⟨_, h⟩) <;> omega
    · rintro a n hb hn
      have hi := (start_inv c code inp).inputs a n hb
      rcases hn with rfl | ⟨he, h⟩
      · exact hi.1 rfl
      · have := hi.2 he
        omega
  exact ⟨hr.vals, fun g => hr.result g⟩

/-- Grids with an equator: `u_field` of the object is the array of the user, whose later changes are seen by the methods called afterwards.
The same holds for `v_field`. On all grids it holds for the latitudes the user passed. -/
theorem C138_shared (c : Cfg) (code : Code) (inp : ℕ → Arr) (f : Arr → Arr) :
    (c.even = false → ((start c code inp).edit 0 f).vals .uField = f (inp 0)) ∧
    (c.even = false → ((start c code inp).edit 1 f).vals .vField = f (inp 1)) ∧
    ((start c code inp).edit 3 f).vals .ylatIn = f (inp 3) := by
  refine ⟨?_, ?_, ?_⟩
  · intro he
    have e : (start c code inp).edit 0 f = (start c code inp).write ⟨.input 0, false⟩ (f (inp 0)) := rfl
    have e2 : (start c code inp).env .uField = ⟨.input 0, false⟩ := by show (if c.even = true then _ else _) = _; rw [he]; rfl
    rw [e]
    show State.read _ ((start c code inp).env .uField) = _
    rw [e2, read_write]
  · intro he
    have e : (start c code inp).edit 1 f = (start c code inp).write ⟨.input 1, false⟩ (f (inp 1)) := rfl
    have e2 : (start c code inp).env .vField = ⟨.input 1, false⟩ := by show (if c.even = true then _ else _) = _; rw [he]; rfl
    rw [e]
    show State.read _ ((start c code inp).env .vField) = _
    rw [e2, read_write]
  · have e : (start c code inp).edit 3 f = (start c code inp).write ⟨.input 3, false⟩ (f (inp 3)) := rfl
    rw [e]
    exact read_write _ ⟨.input 3, false⟩ _

/-- Changing the wind array between construction and `interpolate_fields` changes the interpolated wind. -/
theorem C138_refuted : ¬ C138_Statement := by
  intro h
  have h1 := h sampleCfg sampleCode (fun _ _ => 0) [.edit 0 fun x i => x i + 1, .call .interpolate 100 fun _ => 0] (by simp [Act.editsFields])
  change _ = (runAll sampleCfg sampleCode [.call .interpolate 100 fun _ => 0] _).vals at h1
  have h2 := congrFun (congrFun h1 .u) []
  simp [runAll, Act.run, body, interpolate, sampleCfg, sampleCode, start,
    State.edit, State.read, Stmt.exec, State.bind, State.write, env₀, flip, Function.update, State.vals, List.range, List.range.loop] at h2

/-! ### The hypotheses can be met -/

/-- C135: a session on an even grid with two computations, and properties of each kind. -/
example : (⟨true, false, false, true⟩ : Cfg).even = true ∧ (Getter.prop .uref).isProperty = true ∧
    (∀ x ∈ [Act.call .fluxes 100 fun _ => 1, Act.get .qref, Act.call .layerwise 3 fun _ => 0], x.quiet = true) ∧
    mutable .qgpv = false ∧ follower .qgpv = false ∧ fixed sampleCfg .uref = true ∧ fixed sampleCfg .lwaBaro = true := by
  refine ⟨rfl, rfl, ?_, rfl, rfl, rfl, rfl⟩
  simp [Act.quiet]

/-- C136: a session that reads and edits two results. -/
example : ∀ x ∈ [Act.call .interpolate 100 fun _ => 1, .get (.prop .qgpv), .get .qref, .edit 6 fun _ _ => 0, .edit 7 fun x i => 2 * x i],
    x.editsResults := by simp [Act.editsResults, Getter.isProperty]

/-- C137: a session that has some effect: the forcing of the second computation is stored. -/
example : (runAll sampleCfg sampleCode [.call .fluxes 100 fun _ => 1, .call .fluxes 100 fun _ => 2] (start sampleCfg sampleCode fun _ _ => 0)).vals
    .ncforceBaro [] = 2 := by
  simp [runAll, Act.run, body, fluxes, sampleCfg, sampleCode, start,
    State.read, Stmt.exec, State.bind, State.write, env₀, flip, Function.update, State.vals]

/-- C138: a session that edits the temperature array twice. -/
example : ∀ k f, Act.edit k f ∈ [Act.edit 2 fun _ _ => 0, .call .interpolate 100 fun _ => 1, .edit 2 fun x i => x i + 1] →
    k = 2 ∨ (sampleCfg.even = true ∧ k < 3) := by
  intro k f h
  simp at h
  rcases h with h | h <;> exact Or.inl h.1

end Falwa.Alias
