import Verif.Spec.RoundedPairConverge

/-!
# Specification of bisection on machine numbers
-/

namespace Ellalgo.Spec

open CuttingPlane

variable {O : Type*} {n : ℕ}

/-- A number with at most `p` significant bits. -/
def IsFloat (p : ℕ) (x : ℝ) : Prop := ∃ k e : ℤ, x = k * 2 ^ e ∧ |(k : ℝ)| < 2 ^ p

/-- A feasibility oracle with a parameter `γ` (set by `update(gamma)`). `J γ` holds for its states while the parameter is `γ`. A point that is accepted is in `F γ`. Nothing is assumed about the cuts. -/
structure ParamFamily (I : O → Prop) (J : ℝ → O → Prop) (F : ℝ → Set (Vec n)) (omega : OracleFeas O (Vec n) (Cut n)) (upd : O → ℝ → O) : Prop where
  upd : ∀ o γ, I o → J γ (upd o γ)
  back : ∀ o γ, J γ o → I o
  inv : ∀ γ o x, J γ o → J γ (omega o x).1
  accept : ∀ γ o x o', J γ o → omega o x = (o', .ok none) → x ∈ F γ

end Ellalgo.Spec
