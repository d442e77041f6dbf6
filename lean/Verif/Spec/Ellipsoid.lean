import Mathlib.LinearAlgebra.Matrix.PosDef
import Mathlib.LinearAlgebra.Matrix.NonsingularInverse
import Mathlib.Data.Real.Basic
import Mathlib.Data.Real.Star

/-!
# Specification vocabulary: ellipsoids and cuts

These definitions do not mention the model.
-/

namespace Ellalgo.Spec

open Matrix

variable {n : ℕ}

/-- The closed ellipsoid `{x | (x-c)ᵀ M⁻¹ (x-c) ≤ κ}`. -/
def ellipsoid (M : Matrix (Fin n) (Fin n) ℝ) (κ : ℝ) (c : Fin n → ℝ) : Set (Fin n → ℝ) :=
  {x | (x - c) ⬝ᵥ (M⁻¹ *ᵥ (x - c)) ≤ κ}

/-- The same set by its support function: `|vᵀ(x-c)|² ≤ κ vᵀMv` for every direction `v`. Meaningful
for singular `M` as well (degenerate ellipsoids). -/
def supportSet (M : Matrix (Fin n) (Fin n) ℝ) (κ : ℝ) (c : Fin n → ℝ) : Set (Fin n → ℝ) :=
  {x | ∀ v : Fin n → ℝ, (v ⬝ᵥ (x - c)) ^ 2 ≤ κ * (v ⬝ᵥ (M *ᵥ v))}

/-- The half space kept by a single cut `(g, β)` at `c`: `gᵀ(x-c) + β ≤ 0`. -/
def halfSpace (g : Fin n → ℝ) (β : ℝ) (c : Fin n → ℝ) : Set (Fin n → ℝ) :=
  {x | g ⬝ᵥ (x - c) + β ≤ 0}

/-- The slab kept by a parallel cut `(g, (β0, β1))` at `c`: `gᵀ(x-c) + β0 ≤ 0 ≤ gᵀ(x-c) + β1`. -/
def slab (g : Fin n → ℝ) (β0 β1 : ℝ) (c : Fin n → ℝ) : Set (Fin n → ℝ) :=
  {x | g ⬝ᵥ (x - c) + β0 ≤ 0 ∧ 0 ≤ g ⬝ᵥ (x - c) + β1}

end Ellalgo.Spec
