import Verif.Spec.Oracle
import Verif.Spec.RoundedRun
import Mathlib.Analysis.Real.Sqrt
import Mathlib.Analysis.SpecialFunctions.Log.Basic

/-! # Vocabulary of C106: loops in floating point that must succeed -/

namespace Ellalgo.Spec

open Matrix

variable {n : ℕ} {O G : Type*}

/-- A feasibility oracle, possibly a rounded one. What is said here is about points at most `X` from the origin. It accepts points of `F` only. Its cuts have a single nonnegative offset and keep the ball of radius `r` around `c`; nothing is said about what else they keep. It never raises, its gradients are not zero and
have squared length at least `η` (which may be 0). -/
structure InnerOracle (I : O → Prop) (F : Set (Vec n)) (c : Vec n) (r η X : ℝ) (omega : OracleFeas O (Vec n) (Cut n)) : Prop where
  inv : ∀ o x, I o → I (omega o x).1
  total : ∀ o x o' f, I o → omega o x ≠ (o', .error f)
  accept : ∀ o x o', I o → Real.sqrt (x ⬝ᵥ x) ≤ X → omega o x = (o', .ok none) → x ∈ F
  cut : ∀ o x o' cut, I o → Real.sqrt (x ⬝ᵥ x) ≤ X → omega o x = (o', .ok (some cut)) → ∃ β, cut.2 = .scalar β ∧ 0 ≤ β ∧ (∀ y ∈ ball c r, cut.1 ⬝ᵥ (y - x) + β ≤ 0) ∧ cut.1 ≠ 0 ∧ η ≤ cut.1 ⬝ᵥ cut.1

/-- An optimisation oracle, possibly a rounded one, that aims at a value better than or equal to `γs` (larger is better): until it has reported one, its cuts keep the ball of radius `r` around `c`. -/
structure InnerLevelOracle [Preorder G] (I : O → Prop) (γs : G) (c : Vec n) (r η X : ℝ) (omega : OracleOptim O (Vec n) (Cut n) G) : Prop where
  inv : ∀ o x γ, I o → I (omega o x γ).1
  total : ∀ o x γ o' f, I o → omega o x γ ≠ (o', .error f)
  cut : ∀ o x γ o' cut, I o → Real.sqrt (x ⬝ᵥ x) ≤ X → γ < γs → omega o x γ = (o', .ok (cut, none)) → ∃ β, cut.2 = .scalar β ∧ 0 ≤ β ∧ (∀ y ∈ ball c r, cut.1 ⬝ᵥ (y - x) + β ≤ 0) ∧ cut.1 ≠ 0 ∧ η ≤ cut.1 ⬝ᵥ cut.1
  mono : ∀ o x γ o' cut γ1, I o → omega o x γ = (o', .ok (cut, some γ1)) → γ ≤ γ1
  value : ∀ o x γ o' cut γ1, I o → Real.sqrt (x ⬝ᵥ x) ≤ X → γ1 < γs → omega o x γ = (o', .ok (cut, some γ1)) →
    ∃ β, cut.2 = .scalar β ∧ (∀ y ∈ ball c r, cut.1 ⬝ᵥ (y - x) ≤ 0) ∧ cut.1 ≠ 0 ∧ η ≤ cut.1 ⬝ᵥ cut.1

/-- The number of iterations, `(20/9) n (n+1) ln(2R/r)`. In exact arithmetic `2 n (n+1) ln(R/r)` are enough. -/
noncomputable def floatIters (n : ℕ) (R r : ℝ) : ℝ := 20 / 9 * n * (n + 1) * Real.log (2 * R / r)

/-- The precision is sufficient. `u` and `γ` are the relative errors of one operation and of a scalar product of length `n`; the start is a ball of radius `R`, the set to be found contains a ball of radius `r` with centre at most `D` from the origin. `Λ` bounds the
semi-axes during the run, `ε` and `ξ` bound the error of one update, `a` is the share of the width that a deep cut leaves. All of it holds with `ln(1/u)` of the order `ln(n R / r)`. -/
structure FloatBudget (n : ℕ) (u γ R r D Λ ε ξ a : ℝ) : Prop where
  a_pos : 0 < a
  a_le : a ≤ 1
  axes : R * Real.exp (5 * (floatIters n R r + 1) / (9 * ((n : ℝ) ^ 2 - 1))) ≤ Λ
  cond : γ * Real.sqrt n * (2 * Λ / r) ^ 2 ≤ ε
  eps : 3000 * (n * (n + 1)) * ε ≤ a
  centre : u * (D + Λ) * (2 / r) ≤ ξ
  xi : 1000 * ξ ≤ a
  drift : (floatIters n R r + 1) * ((250 * ε + 2 * ξ) / a * Λ) ≤ r / 2

end Ellalgo.Spec
