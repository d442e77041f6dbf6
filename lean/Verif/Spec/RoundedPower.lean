import Verif.Model.Basic

/-! # Vocabulary of C126 -/

namespace Ellalgo.Spec

open Matrix

variable {n : ℕ}

/-- `L` bounds the Euclidean norm of the matrix of absolute values, hence also that of the matrix. -/
def AbsBound (M : Mat n) (L : ℝ) : Prop := 0 ≤ L ∧ ∀ v : Vec n, Real.sqrt (∑ i, (∑ j, |M i j| * |v j|) ^ 2) ≤ L * Real.sqrt (∑ i, v i ^ 2)

/-- `x` has length one up to `δ`, and `M x` is `ld x` up to `ε`. -/
def NearEigenpair (M : Mat n) (x : Vec n) (ld δ ε : ℝ) : Prop :=
  |Real.sqrt (∑ i, x i ^ 2) - 1| ≤ δ ∧ Real.sqrt (∑ i, ((M *ᵥ x) i - ld * x i) ^ 2) ≤ ε

end Ellalgo.Spec
