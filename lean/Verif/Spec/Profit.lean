import Verif.Model.Basic
import Mathlib.Analysis.SpecialFunctions.Pow.Real

/-! # Specification vocabulary: Cobb-Douglas profit, in quantities `y` (the oracles work with `x = log y`) -/

namespace Ellalgo.Spec

/-- `max p A y₁^α y₂^β - v₁ y₁ - v₂ y₂` subject to `y₁ ≤ k` (`profit_oracle.py:5, 59-75, 254-255`). -/
structure ProfitProblem where
  price : ℝ
  scale : ℝ
  limit : ℝ
  alpha : Vec 2
  cost : Vec 2

namespace ProfitProblem

/-- The profit of producing with quantities `y`. -/
noncomputable def profit (P : ProfitProblem) (y : Vec 2) : ℝ :=
  P.price * (P.scale * y 0 ^ P.alpha 0 * y 1 ^ P.alpha 1) - P.cost 0 * y 0 - P.cost 1 * y 1

/-- The quantities of a point in log-space. -/
noncomputable def quant (x : Vec 2) : Vec 2 := fun i => Real.exp (x i)

/-- The points that respect the limit and have at least the profit `γ`. -/
def Level (P : ProfitProblem) (γ : ℝ) : Set (Vec 2) := {x | quant x 0 ≤ P.limit ∧ γ ≤ P.profit (quant x)}

/-- Positive revenue factor, limit and input prices. -/
structure Proper (P : ProfitProblem) : Prop where
  rev : 0 < P.price * P.scale
  limit : 0 < P.limit
  cost : ∀ i, 0 < P.cost i

/-- A scenario within the stated tolerances of the nominal problem: elasticities within `e1`, `e2`, price within `e3`, limit within `e4`, input prices within `e5`, the same scale. -/
structure Scenario (P : ProfitProblem) (e1 e2 e3 e4 e5 : ℝ) (S : ProfitProblem) : Prop where
  alpha0 : |S.alpha 0 - P.alpha 0| ≤ e1
  alpha1 : |S.alpha 1 - P.alpha 1| ≤ e2
  price : |S.price - P.price| ≤ e3
  scale : S.scale = P.scale
  limit : |S.limit - P.limit| ≤ e4
  cost : ∀ i, |S.cost i - P.cost i| ≤ e5

/-- The points that respect the limit and have at least the profit `γ` in every scenario. -/
def RobustLevel (P : ProfitProblem) (e1 e2 e3 e4 e5 γ : ℝ) : Set (Vec 2) :=
  {x | ∀ S, P.Scenario e1 e2 e3 e4 e5 S → x ∈ S.Level γ}

/-- Integer designs. -/
def IntegerPoint (x : Vec 2) : Prop := ∀ i, ∃ m : ℕ, 0 < m ∧ quant x i = m

end ProfitProblem

end Ellalgo.Spec
