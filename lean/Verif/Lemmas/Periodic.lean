import Mathlib.Algebra.BigOperators.Group.Finset.Basic
import Mathlib.Data.Nat.ModEq

/-! Sums and neighbours on a periodic axis of `n` points. -/

namespace Falwa

open Finset

/-- A sum over a full circle does not depend on where it starts. -/
theorem sum_rotate {M : Type*} [AddCommMonoid M] (n s : ℕ) (f : ℕ → M) :
    ∑ c ∈ range n, f ((c + s) % n) = ∑ c ∈ range n, f c := by
  rcases Nat.eq_zero_or_pos n with rfl | hn
  · simp
  refine sum_nbij' (fun c => (c + s) % n) (fun c => (c + (n - s % n)) % n) ?_ ?_ ?_ ?_ ?_
  · intro c _; exact mem_range.mpr (Nat.mod_lt _ hn)
  · intro c _; exact mem_range.mpr (Nat.mod_lt _ hn)
  · intro c hc
    have hc := mem_range.mp hc
    have hs : s % n < n := Nat.mod_lt _ hn
    show ((c + s) % n + (n - s % n)) % n = c
    rw [Nat.mod_add_mod, show c + s + (n - s % n) = c + (s + (n - s % n)) by omega]
    have : s + (n - s % n) = n * (s / n + 1) := by
      have := Nat.div_add_mod s n
      rw [mul_add, mul_one]; omega
    rw [this, Nat.add_mul_mod_self_left, Nat.mod_eq_of_lt hc]
  · intro c hc
    have hc := mem_range.mp hc
    have hs : s % n < n := Nat.mod_lt _ hn
    show ((c + (n - s % n)) % n + s) % n = c
    rw [Nat.mod_add_mod, show c + (n - s % n) + s = c + (s + (n - s % n)) by omega]
    have : s + (n - s % n) = n * (s / n + 1) := by
      have := Nat.div_add_mod s n
      rw [mul_add, mul_one]; omega
    rw [this, Nat.add_mul_mod_self_left, Nat.mod_eq_of_lt hc]
  · intro c _; rfl

/-- Eastern and western neighbour on a circle of `n` points. -/
def east (n c : ℕ) : ℕ := (c + 1) % n
def west (n c : ℕ) : ℕ := (c + (n - 1)) % n

theorem east_of_lt {n c : ℕ} (h : c + 1 < n) : east n c = c + 1 := Nat.mod_eq_of_lt h
theorem east_last {n : ℕ} (h : 0 < n) : east n (n - 1) = 0 := by
  unfold east; rw [show n - 1 + 1 = n by omega, Nat.mod_self]
theorem west_pos {n c : ℕ} (h0 : 0 < c) (h : c < n) : west n c = c - 1 := by
  unfold west
  rw [show c + (n - 1) = c - 1 + n by omega, Nat.add_mod_right, Nat.mod_eq_of_lt (by omega)]
theorem west_zero {n : ℕ} (h : 0 < n) : west n 0 = n - 1 := by
  unfold west; rw [zero_add, Nat.mod_eq_of_lt (by omega)]

theorem east_rotate (n s c : ℕ) : east n ((c + s) % n) = (east n c + s) % n := by
  unfold east; rw [Nat.mod_add_mod, Nat.mod_add_mod]; congr 1; omega
theorem west_rotate (n s c : ℕ) : west n ((c + s) % n) = (west n c + s) % n := by
  unfold west; rw [Nat.mod_add_mod, Nat.mod_add_mod]; congr 1; omega
theorem east_lt {n : ℕ} (h : 0 < n) (c : ℕ) : east n c < n := Nat.mod_lt _ h
theorem west_lt {n : ℕ} (h : 0 < n) (c : ℕ) : west n c < n := Nat.mod_lt _ h

theorem sum_east {M : Type*} [AddCommMonoid M] (n : ℕ) (f : ℕ → M) :
    ∑ c ∈ range n, f (east n c) = ∑ c ∈ range n, f c := sum_rotate n 1 f
theorem sum_west {M : Type*} [AddCommMonoid M] (n : ℕ) (f : ℕ → M) :
    ∑ c ∈ range n, f (west n c) = ∑ c ∈ range n, f c := sum_rotate n (n - 1) f

end Falwa
