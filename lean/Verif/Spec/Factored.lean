import Verif.Model.Basic
import Mathlib.Data.Matrix.Diagonal

/-! # Specification vocabulary: a matrix held by its `LDLᵀ` factors -/

namespace Ellalgo.Spec

open Matrix

/-- The unit lower triangular matrix stored below the diagonal of the array `S`. -/
def unitLower (n : ℕ) (S : ℕ → ℕ → ℝ) : Mat n :=
  Matrix.of fun i j => if i = j then 1 else if j < i then S i j else 0

/-- `L D Lᵀ`, when the diagonal of `S` stores the reciprocals of `D`. -/
noncomputable def ldlt (n : ℕ) (S : ℕ → ℕ → ℝ) : Mat n :=
  unitLower n S * diagonal (fun i : Fin n => (S i i)⁻¹) * (unitLower n S)ᵀ

/-- The array `S` stores (with positive diagonal) the factors of the inverse of `M`. -/
structure Represents (S : ℕ → ℕ → ℝ) {n : ℕ} (M : Mat n) : Prop where
  pos : ∀ i : Fin n, 0 < S i i
  inv : M * ldlt n S = 1

end Ellalgo.Spec
