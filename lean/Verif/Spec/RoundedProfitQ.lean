import Verif.Spec.RoundedProfit

/-! # Vocabulary of C122: integer designs in floating point -/

namespace Ellalgo.Spec

open Matrix

/-- The point of log-space of an integer design. -/
noncomputable def logDesign (m : Fin 2 → ℕ) : Vec 2 := fun i => Real.log (m i)

/-- A point `y` of log-space and a value `γ` that stand for the integer design `m` and its profit: the coordinates of `y` are the logarithms of positive integers up to the relative error `u`, the limit holds and `γ` is the profit of `m`, with the limit, the revenue and the costs
changed by factors close to 1. -/
structure NearDiscrete (P : ProfitProblem) (u : ℝ) (m : Fin 2 → ℕ) (y : Vec 2) (γ : ℝ) : Prop where
  pos : ∀ i, 0 < m i
  point : ∀ i, |y i - Real.log (m i)| ≤ u * Real.log (m i)
  limit : (m 0 : ℝ) ≤ P.limit * Real.exp (3 * u * |Real.log P.limit|)
  low : Real.exp (P.logRevenue (logDesign m) - 12 * u * P.magnitude (logDesign m)) - P.outlay (logDesign m) * Real.exp (10 * u + u * Real.log (max (m 0) (m 1))) ≤ γ
  high : γ ≤ Real.exp (P.logRevenue (logDesign m) + 12 * u * P.magnitude (logDesign m)) - P.outlay (logDesign m) * Real.exp (-(10 * u + u * Real.log (max (m 0) (m 1))))

end Ellalgo.Spec
