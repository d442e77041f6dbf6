import Verif.Spec.Oracle
import Mathlib.Order.OrderDual

/-!
# Specification vocabulary: convex minimisation

What a user-written oracle for "minimise `f` subject to `c ≤ 0`" has to answer.
-/

namespace Ellalgo

open Matrix

variable {n : ℕ} {O : Type*}

/-- `g` is a subgradient of `f` at `x`. -/
def IsSubgrad (f : Vec n → ℝ) (x g : Vec n) : Prop := ∀ y, f x + g ⬝ᵥ (y - x) ≤ f y

/-- A subgradient oracle for minimising `f` subject to `c ≤ 0`; `γ` is the best value so far (smaller is better, hence the order dual). It does not raise; at a point with `c x > 0` it cuts
with `c`; at a feasible point with `f x > γ` it cuts with `f x - γ`; at a feasible point with `f x ≤ γ` it reports `f x` and a central cut (it is free to choose if several apply). -/
structure SubgradOracle (I : O → Prop) (f c : Vec n → ℝ) (omega : OracleOptim O (Vec n) (Cut n) ℝᵒᵈ) : Prop where
  inv : ∀ o x γ, I o → I (omega o x γ).1
  total : ∀ o x γ o' e, I o → omega o x γ ≠ (o', .error e)
  cut : ∀ o x γ o' cut, I o → omega o x γ = (o', .ok (cut, none)) → ∃ g,
    (0 < c x ∧ IsSubgrad c x g ∧ cut = (g, .scalar (c x))) ∨
    (OrderDual.ofDual γ < f x ∧ IsSubgrad f x g ∧ cut = (g, .scalar (f x - OrderDual.ofDual γ)))
  value : ∀ o x γ o' cut γ1, I o → omega o x γ = (o', .ok (cut, some γ1)) →
    c x ≤ 0 ∧ f x ≤ OrderDual.ofDual γ ∧ OrderDual.ofDual γ1 = f x ∧ ∃ g, IsSubgrad f x g ∧ cut = (g, .scalar 0)

end Ellalgo
