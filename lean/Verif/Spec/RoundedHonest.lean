import Verif.Spec.RoundedLowpass
import Verif.Spec.Rounding

/-!
# What an accepted point satisfies on machine numbers

No model code is mentioned: the matrices and filters are mathematical objects.
-/

namespace Ellalgo.Spec

open Finset Matrix

variable {m q : ℕ}

/-- The matrix `B - Σ y_k F_k` is positive semidefinite up to `14 m (m+q+1) 2^-p` times the sizes of the data: for each `v`, the form is at least minus this number times `|v|ᵀ|B||v| + Σ |y_k| |v|ᵀ|F_k||v|`. -/
def NearLmi (p : ℕ) (matF : Fin q → Matrix (Fin m) (Fin m) ℝ) (matB : Matrix (Fin m) (Fin m) ℝ) (y : Fin q → ℝ) : Prop :=
  ∀ v : Fin m → ℝ, -(14 * m * ((m : ℝ) + q + 1) / 2 ^ p * ((∑ i, ∑ j, |v i| * |matB i j| * |v j|) + ∑ k, |y k| * ∑ i, ∑ j, |v i| * |matF k i j| * |v j|)) ≤
    v ⬝ᵥ ((matB - ∑ k, y k • matF k) *ᵥ v)

/-- A design whose band edges are found exactly by the rounded products, with `n` coefficients and `p` bits. -/
structure FloatSampling (d : LowpassDesign) (n p : ℕ) : Prop where
  dim : 2 ≤ n
  proper : d.Proper
  passEdge : ⌊roundBits p (d.wpass * roundBits p ((15 * n - 1 : ℤ) : ℝ))⌋₊ = ⌊d.wpass * (15 * n - 1)⌋₊
  stopEdge : ⌊roundBits p (d.wstop * roundBits p ((15 * n - 1 : ℤ) : ℝ))⌋₊ = ⌊d.wstop * (15 * n - 1)⌋₊
  bits : 328 * ((n : ℝ) + 1) ≤ 2 ^ p

end Ellalgo.Spec
