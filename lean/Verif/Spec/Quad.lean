import Mathlib.Data.Matrix.Mul
import Mathlib.Algebra.Order.Field.Basic

/-!
# Specification vocabulary: symmetric matrices given by their lower triangle, definiteness

These definitions do not mention the model.
-/

namespace Ellalgo.Spec

open Matrix

variable {K : Type*} {n : ℕ}

/-- The symmetric matrix of order `n` whose lower triangle is given by `a`. -/
def symOf (n : ℕ) (a : ℕ → ℕ → K) : Matrix (Fin n) (Fin n) K :=
  fun i j => if (j : ℕ) ≤ i then a i j else a j i

variable [Field K] [LinearOrder K]

/-- Positive definite (as a quadratic form). -/
def QuadPos (A : Matrix (Fin n) (Fin n) K) : Prop := ∀ v : Fin n → K, v ≠ 0 → 0 < v ⬝ᵥ (A *ᵥ v)

/-- Positive semidefinite (as a quadratic form). -/
def QuadNonneg (A : Matrix (Fin n) (Fin n) K) : Prop := ∀ v : Fin n → K, 0 ≤ v ⬝ᵥ (A *ᵥ v)

end Ellalgo.Spec
