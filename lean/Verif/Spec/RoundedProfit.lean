import Verif.Spec.Profit
import Verif.Spec.RoundedNear

/-! # Vocabulary of C120: the profit problem in floating point -/

namespace Ellalgo.Spec

open Matrix

namespace ProfitProblem

/-- What the inputs cost at a point in log-space. -/
noncomputable def outlay (P : ProfitProblem) (x : Vec 2) : ℝ := P.cost 0 * Real.exp (x 0) + P.cost 1 * Real.exp (x 1)

/-- The logarithm of the revenue at a point in log-space. -/
noncomputable def logRevenue (P : ProfitProblem) (x : Vec 2) : ℝ := Real.log (P.price * P.scale) + P.alpha ⬝ᵥ x

/-- The size of the terms of the logarithm of the revenue, by which its rounding error is measured. -/
noncomputable def magnitude (P : ProfitProblem) (x : Vec 2) : ℝ := 1 + |Real.log (P.price * P.scale)| + |P.alpha 0 * x 0| + |P.alpha 1 * x 1|

/-- The design `x` respects the limit and has the profit `γ` with a factor `exp δ` to spare. -/
structure Spare (P : ProfitProblem) (γ δ : ℝ) (x : Vec 2) : Prop where
  limit : Real.exp δ * quant x 0 ≤ P.limit
  profit : Real.exp δ * (γ + P.outlay x) ≤ Real.exp (P.logRevenue x)

end ProfitProblem

/-- The precision is sufficient for the profit problem `P`. `u` is the relative error of one operation. The aim is the profit `γs`, which all designs of the ball of radius `r` around `c` have with a factor `exp δ` to spare. `X` bounds the points of the run until `γs` has been
reached, `B` bounds the logarithms that occur there; all designs that cost at most four times their revenue, the revenue being inflated a little, have a revenue of at most `W`. `τ` is how far below 0 the values may be. -/
structure FloatProfit (P : ProfitProblem) (u τ δ γs B W X : ℝ) (c : Vec 2) (r : ℝ) : Prop where
  proper : P.Proper
  prec : 2000 * u ≤ 1
  tau_nonneg : 0 ≤ τ
  tau_le : τ ≤ 1
  target : 0 ≤ γs
  radius : 0 ≤ r
  spare_pos : 0 < δ
  spare_le : δ ≤ 4 * X
  spare : ∀ y ∈ ball c r, P.Spare γs δ y
  within : ∀ y ∈ ball c r, Real.sqrt (y ⬝ᵥ y) ≤ X
  logRevenue : 1 + |Real.log (P.price * P.scale)| + (|P.alpha 0| + |P.alpha 1|) * X ≤ B
  logLimit : |Real.log P.limit| + X ≤ B
  low : Real.exp (X - B) ≤ P.cost 0 + P.cost 1
  high : γs + (P.cost 0 + P.cost 1) * Real.exp X ≤ Real.exp B
  bounded : ∀ x : Vec 2, x 0 ≤ Real.log P.limit + |Real.log P.limit| / 100 → P.outlay x ≤ 4 * max 1 (Real.exp (P.logRevenue x + P.magnitude x / 100)) → Real.exp (P.logRevenue x + P.magnitude x / 100) ≤ W
  one_le : 1 ≤ W
  budget : (8 * u + 8 * τ * Real.exp B) * (2 + 12 * X) + 12 * u * B ≤ δ / 2

/-- By how much a value that is reported may be below the one passed: `9 u W (1 + ln W)`. -/
noncomputable def profitDrop (u W : ℝ) : ℝ := 9 * u * (W * (1 + Real.log W))

/-- A run of `cutting_plane_optim` on machine numbers with `p` bits, from the ball of radius `R` around `x` and the value `g0`, that must reach `γs`; `N` bounds the number of iterations. -/
structure ProfitPlan (P : ProfitProblem) (p : ℕ) (R r D τ δ γs g0 B W N : ℝ) (x c : Vec 2) : Prop where
  profit : FloatProfit P (2⁻¹ ^ p) τ δ γs B W (D + R * Real.exp (5 * (floatIters 2 R r + 1) / (9 * (((2 : ℕ) : ℝ) ^ 2 - 1)))) c r
  outer_pos : 0 < R
  inner_pos : 0 < r
  centre : Real.sqrt (c ⬝ᵥ c) ≤ D
  start : ball c r ⊆ ball x R
  bits : 24000 * (((2 : ℕ) : ℝ) + 1) ^ 4 * (floatIters 2 R r + 1) * ((R * Real.exp (5 * (floatIters 2 R r + 1) / (9 * (((2 : ℕ) : ℝ) ^ 2 - 1))) + D) / r) ^ 4 ≤ 2 ^ p
  iters : floatIters 2 R r + 1 ≤ N
  first : (N + 1) * profitDrop (2⁻¹ ^ p) W ≤ g0 + τ
  below : g0 + N * profitDrop (2⁻¹ ^ p) W < γs

/-- A design `y` with the value `γ` that the oracle reports: the limit holds and the value is the profit, with the limit, the revenue and the costs changed by factors close to 1. -/
structure NearProfit (P : ProfitProblem) (u : ℝ) (y : Vec 2) (γ : ℝ) : Prop where
  limit : y 0 ≤ Real.log P.limit + u * |Real.log P.limit|
  low : Real.exp (P.logRevenue y - 10 * u * P.magnitude y) - P.outlay y * Real.exp (10 * u) ≤ γ
  high : γ ≤ Real.exp (P.logRevenue y + 10 * u * P.magnitude y) - P.outlay y * Real.exp (-(10 * u))

end Ellalgo.Spec
