import Mathlib.Algebra.BigOperators.Intervals
import Mathlib.Algebra.Order.BigOperators.Group.Finset
import Mathlib.Data.Matrix.Basic

/-!
# Python `for` loops over ranges, and numpy arrays as total functions

Arrays are total functions on indices; entries outside the allocated range are never relevant to the
results (all loops stay inside).
-/

namespace Ellalgo

variable {σ K : Type*}

/-- `for i in range(lo, lo + len): st = f(i, st)`. -/
def forUp (f : ℕ → σ → σ) : (len lo : ℕ) → σ → σ
  | 0, _, st => st
  | len + 1, lo, st => forUp f len (lo + 1) (f lo st)

/-- `for i in range(lo, hi): st = f(i, st)`. -/
def forRange (lo hi : ℕ) (f : ℕ → σ → σ) (st : σ) : σ := forUp f (hi - lo) lo st

/-- `for i in range(hi, lo, -1): st = f(i, st)`, i.e. `i = hi, hi-1, ..., lo+1`. -/
def forDown (lo : ℕ) (f : ℕ → σ → σ) : (hi : ℕ) → σ → σ
  | 0, st => st
  | hi + 1, st => if lo < hi + 1 then forDown lo f hi (f (hi + 1) st) else st

/-- `a[i] = v`. -/
def set1 (a : ℕ → K) (i : ℕ) (v : K) : ℕ → K := fun k => if k = i then v else a k

/-- `a[i, j] = v`. -/
def set2 (a : ℕ → ℕ → K) (i j : ℕ) (v : K) : ℕ → ℕ → K :=
  fun r c => if r = i ∧ c = j then v else a r c

/-- A numpy array of shape `(n, n)` as a total function. -/
def toArr2 [Zero K] {n : ℕ} (A : Matrix (Fin n) (Fin n) K) : ℕ → ℕ → K :=
  fun i j => if h : i < n ∧ j < n then A ⟨i, h.1⟩ ⟨j, h.2⟩ else 0

/-- A numpy array of shape `(n,)` as a total function. -/
def toArr1 [Zero K] {n : ℕ} (v : Fin n → K) : ℕ → K := fun i => if h : i < n then v ⟨i, h⟩ else 0

/-- The slice `a[s:p]` as a vector with zeros elsewhere. -/
def sliceVec [Zero K] (n : ℕ) (a : ℕ → K) (s p : ℕ) : Fin n → K := fun i => if s ≤ i ∧ (i : ℕ) < p then a i else 0

end Ellalgo
