import Mathlib.Analysis.Real.Sqrt
import Mathlib.Data.Matrix.Mul
import Mathlib.LinearAlgebra.Matrix.Symmetric

/-! # Vocabulary of C124: approximate Cholesky factors -/

namespace Ellalgo.Spec

open Matrix

variable {n : ℕ}

/-- `R` is upper triangular with a positive diagonal, and `RᵀR` agrees with `M` in each entry up to `δ √(M_ii M_jj)`. -/
structure NearCholesky (M : Matrix (Fin n) (Fin n) ℝ) (δ : ℝ) (R : Matrix (Fin n) (Fin n) ℝ) : Prop where
  upper : ∀ i j, j < i → R i j = 0
  diag_pos : ∀ i, 0 < R i i
  product : ∀ i j, |(Rᵀ * R) i j - M i j| ≤ δ * (Real.sqrt (M i i) * Real.sqrt (M j j))

/-- `M` is positive definite by more than a relative change `δ` of its diagonal. -/
def DefiniteBy (M : Matrix (Fin n) (Fin n) ℝ) (δ : ℝ) : Prop := ∀ v : Fin n → ℝ, v ≠ 0 → δ * ∑ i, M i i * v i ^ 2 < v ⬝ᵥ (M *ᵥ v)

end Ellalgo.Spec
