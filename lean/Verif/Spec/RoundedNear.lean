import Verif.Spec.RoundedConverge

/-! # Vocabulary of C120: an optimisation oracle whose values drop by rounding -/

namespace Ellalgo.Spec

open Matrix

variable {n : ℕ} {O : Type*}

/-- An optimisation oracle with real values, larger ones being better, that aims at `γs`. It need not improve on the value it is given: a value it reports may be smaller by `d`. As long as the value it is given is at least `gl` and has not reached `γs`, it does
not raise at points at most `X` from the origin, and its cuts keep the ball of radius `r` around `c`. An `InnerLevelOracle` is the case `d = 0`. -/
structure NearLevelOracle (I : O → Prop) (gl d γs : ℝ) (c : Vec n) (r η X : ℝ) (omega : OracleOptim O (Vec n) (Cut n) ℝ) : Prop where
  inv : ∀ o x γ, I o → I (omega o x γ).1
  total : ∀ o x γ o' f, I o → Real.sqrt (x ⬝ᵥ x) ≤ X → gl ≤ γ → γ < γs → omega o x γ ≠ (o', .error f)
  cut : ∀ o x γ o' cut, I o → Real.sqrt (x ⬝ᵥ x) ≤ X → gl ≤ γ → γ < γs → omega o x γ = (o', .ok (cut, none)) →
    ∃ β, cut.2 = .scalar β ∧ 0 ≤ β ∧ (∀ y ∈ ball c r, cut.1 ⬝ᵥ (y - x) + β ≤ 0) ∧ cut.1 ≠ 0 ∧ η ≤ cut.1 ⬝ᵥ cut.1
  drop : ∀ o x γ o' cut γ1, I o → gl ≤ γ → omega o x γ = (o', .ok (cut, some γ1)) → γ - d ≤ γ1
  value : ∀ o x γ o' cut γ1, I o → Real.sqrt (x ⬝ᵥ x) ≤ X → gl ≤ γ → γ < γs → γ1 < γs → omega o x γ = (o', .ok (cut, some γ1)) →
    ∃ β, cut.2 = .scalar β ∧ (∀ y ∈ ball c r, cut.1 ⬝ᵥ (y - x) ≤ 0) ∧ cut.1 ≠ 0 ∧ η ≤ cut.1 ⬝ᵥ cut.1

end Ellalgo.Spec
