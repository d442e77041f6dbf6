import Verif.Model.Basic
import Mathlib.LinearAlgebra.Span.Basic

/-!
# Specification vocabulary: linear systems and Krylov minimisers

Nothing here mentions search directions, step sizes or recurrences.
-/

namespace Ellalgo.Spec

open Matrix

variable {n : ℕ}

/-- Symmetric positive definite. -/
structure SPD (A : Mat n) : Prop where
  symm : ∀ i j, A i j = A j i
  pos : ∀ v : Vec n, v ≠ 0 → 0 < v ⬝ᵥ A *ᵥ v

/-- The Euclidean norm of the residual of `x`. -/
noncomputable def residualNorm (A : Mat n) (b x : Vec n) : ℝ :=
  Real.sqrt (∑ i, (b i - (A *ᵥ x) i) ^ 2)

/-- The quadratic `xᵀAx - 2bᵀx`, minimal exactly at the solution of `Ax = b`. -/
def energy (A : Mat n) (b x : Vec n) : ℝ := x ⬝ᵥ A *ᵥ x - 2 * (b ⬝ᵥ x)

/-- The Krylov space spanned by `v, Av, ..., A^(k-1)v`. -/
def krylov (A : Mat n) (v : Vec n) (k : ℕ) : Submodule ℝ (Vec n) :=
  Submodule.span ℝ {w | ∃ i < k, w = (A ^ i) *ᵥ v}

/-- `x` minimises the energy over `x0 + krylov`. -/
structure IsKrylovMin (A : Mat n) (b x0 : Vec n) (k : ℕ) (x : Vec n) : Prop where
  mem : x - x0 ∈ krylov A (b - A *ᵥ x0) k
  min : ∀ y, y - x0 ∈ krylov A (b - A *ᵥ x0) k → energy A b x ≤ energy A b y

end Ellalgo.Spec
