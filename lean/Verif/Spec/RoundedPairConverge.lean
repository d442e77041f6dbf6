import Verif.Spec.RoundedConverge

/-! # Vocabulary of C113: loops in floating point with cuts of one or two offsets -/

namespace Ellalgo.Spec

open Matrix

variable {n : ℕ} {O G : Type*}

/-- As `InnerOracle`, and the cuts may also be pairs of parallel ones, `(g, (β0, β1))`. The ball has to lie in the whole slab. -/
structure InnerPairOracle (I : O → Prop) (F : Set (Vec n)) (c : Vec n) (r η X : ℝ) (omega : OracleFeas O (Vec n) (Cut n)) : Prop where
  inv : ∀ o x, I o → I (omega o x).1
  total : ∀ o x o' f, I o → omega o x ≠ (o', .error f)
  accept : ∀ o x o', I o → Real.sqrt (x ⬝ᵥ x) ≤ X → omega o x = (o', .ok none) → x ∈ F
  cut : ∀ o x o' cut, I o → Real.sqrt (x ⬝ᵥ x) ≤ X → omega o x = (o', .ok (some cut)) →
    ∃ β0, (cut.2 = .scalar β0 ∨ ∃ β1, cut.2 = .seq [some β0, some β1] ∧ ∀ y ∈ ball c r, 0 ≤ cut.1 ⬝ᵥ (y - x) + β1) ∧ 0 ≤ β0 ∧ (∀ y ∈ ball c r, cut.1 ⬝ᵥ (y - x) + β0 ≤ 0) ∧ cut.1 ≠ 0 ∧ η ≤ cut.1 ⬝ᵥ cut.1

/-- As `InnerLevelOracle`, with pairs. A cut with a value is used as a central cut: its first offset is not looked at. -/
structure InnerPairLevelOracle [Preorder G] (I : O → Prop) (γs : G) (c : Vec n) (r η X : ℝ) (omega : OracleOptim O (Vec n) (Cut n) G) : Prop where
  inv : ∀ o x γ, I o → I (omega o x γ).1
  total : ∀ o x γ o' f, I o → omega o x γ ≠ (o', .error f)
  cut : ∀ o x γ o' cut, I o → Real.sqrt (x ⬝ᵥ x) ≤ X → γ < γs → omega o x γ = (o', .ok (cut, none)) →
    ∃ β0, (cut.2 = .scalar β0 ∨ ∃ β1, cut.2 = .seq [some β0, some β1] ∧ ∀ y ∈ ball c r, 0 ≤ cut.1 ⬝ᵥ (y - x) + β1) ∧ 0 ≤ β0 ∧ (∀ y ∈ ball c r, cut.1 ⬝ᵥ (y - x) + β0 ≤ 0) ∧ cut.1 ≠ 0 ∧ η ≤ cut.1 ⬝ᵥ cut.1
  mono : ∀ o x γ o' cut γ1, I o → omega o x γ = (o', .ok (cut, some γ1)) → γ ≤ γ1
  value : ∀ o x γ o' cut γ1, I o → Real.sqrt (x ⬝ᵥ x) ≤ X → γ1 < γs → omega o x γ = (o', .ok (cut, some γ1)) →
    ∃ β0, (cut.2 = .scalar β0 ∨ ∃ β1, cut.2 = .seq [some β0, some β1] ∧ ∀ y ∈ ball c r, 0 ≤ cut.1 ⬝ᵥ (y - x) + β1) ∧ (∀ y ∈ ball c r, cut.1 ⬝ᵥ (y - x) ≤ 0) ∧ cut.1 ≠ 0 ∧ η ≤ cut.1 ⬝ᵥ cut.1

/-- The precision is sufficient for cuts of both kinds. Notation as in `FloatBudget`. `Λ` bounds the semi-axes during the run: a thin slab can stretch the ellipsoid along the slab by a factor up to √2 in one step, but not without losing volume, and `axes` says how far this can go before the volume is
below that of the ball. -/
structure PairBudget (n : ℕ) (u γ R r D Λ ε ξ a : ℝ) : Prop where
  a_pos : 0 < a
  a_le : a ≤ 1
  axes_pos : 0 < Λ
  axes : (R ^ 2) ^ (2 * n - 1) * Real.exp ((floatIters n R r + 1) / (10 * ((n : ℝ) + 1))) ≤ (Λ ^ 2) ^ (n - 1) * ((r / 2) ^ 2) ^ n
  cond : γ * Real.sqrt n * (2 * Λ / r) ^ 2 ≤ ε
  eps : 25000 * (n * (n + 1)) * ε ≤ a ^ 4
  centre : u * (D + Λ) * (2 / r) ≤ ξ
  xi : 1000 * ξ ≤ a
  width : a * Λ ≤ r
  drift : (floatIters n R r + 1) * ((1250 * (ε / a ^ 4) + 5 / 2 * (ξ / a)) * (2 * Λ)) ≤ r / 2

/-- The bound of the semi-axes, of the order `R (2R/r)^(n/(n-1))`. -/
noncomputable def pairAxes (n : ℕ) (R r : ℝ) : ℝ := R * Real.exp ((n * Real.log (2 * R / r) + (floatIters n R r + 1) / (20 * ((n : ℝ) + 1))) / ((n : ℝ) - 1))

end Ellalgo.Spec
