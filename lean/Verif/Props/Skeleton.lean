import Verif.Model.Skeleton
import Mathlib.Data.Nat.Fib.Basic
import Mathlib.Tactic.Push

/-! # C59: fib -/

namespace Ellalgo

theorem fibLoop_eq : ∀ fuel k : ℕ, fibLoop fuel (Nat.fib (k + 1), Nat.fib (k + 2)) = ((Nat.fib (k + fuel + 1) : ℤ), (Nat.fib (k + fuel + 2) : ℤ))
  | 0, k => rfl
  | fuel + 1, k => by
    have h : fibLoop (fuel + 1) ((Nat.fib (k + 1) : ℤ), (Nat.fib (k + 2) : ℤ)) =
        fibLoop fuel ((Nat.fib (k + 1 + 1) : ℤ), (Nat.fib (k + 1 + 2) : ℤ)) := by
      rw [fibLoop]
      congr 2
      rw [Nat.fib_add_two (n := k + 1)]
      push_cast
      rfl
    rw [h, fibLoop_eq fuel (k + 1)]
    congr 3 <;> omega

/-- **C59.** `fib(n)` is the `n`-th Fibonacci number for `n ≥ 1` and an `AssertionError` otherwise. -/
theorem C59_fib (n : ℤ) :
    (∀ k : ℕ, n = k + 1 → pyFib n = .ok (Nat.fib (k + 1))) ∧ (n ≤ 0 → pyFib n = .error .assertion) := by
  refine ⟨?_, fun h => by simp [pyFib, not_lt.2 h]⟩
  rintro k rfl
  unfold pyFib
  rw [if_pos (by omega)]
  have h1 : ((k : ℤ) + 1 - 1).toNat = k := by omega
  have h2 := fibLoop_eq k 0
  simp only [Nat.fib_one, Nat.fib_two, Nat.zero_add, Nat.cast_one] at h2
  rw [h1, h2]

example : pyFib 10 = .ok 55 := (C59_fib 10).1 9 rfl

end Ellalgo
