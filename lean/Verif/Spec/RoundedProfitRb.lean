import Verif.Spec.RoundedProfit

/-! # Vocabulary of C121: the robust profit problem in floating point -/

namespace Ellalgo.Spec

open Matrix

namespace ProfitProblem

/-- The worst elasticities at the point `x` of log-space: smaller by `e` for inputs above 1, larger for the others. -/
noncomputable def worstAlpha (P : ProfitProblem) (e1 e2 : ℝ) (x : Vec 2) : Vec 2 :=
  ![P.alpha 0 + (if 0 < x 0 then -e1 else e1), P.alpha 1 + (if 0 < x 1 then -e2 else e2)]

/-- The worst scenario at `x`. -/
noncomputable def worst (P : ProfitProblem) (e1 e2 e3 e4 e5 : ℝ) (x : Vec 2) : ProfitProblem :=
  ⟨P.price - e3, P.scale, P.limit - e4, P.worstAlpha e1 e2 x, fun i => P.cost i + e5⟩

/-- `S` is the problem `T` with data changed by at most the relative error `u`; the scale is kept. -/
structure Perturbed (T : ProfitProblem) (u : ℝ) (S : ProfitProblem) : Prop where
  price : |S.price - T.price| ≤ u * |T.price|
  scale : S.scale = T.scale
  limit : |S.limit - T.limit| ≤ u * |T.limit|
  alpha : ∀ i, |S.alpha i - T.alpha i| ≤ u * |T.alpha i|
  cost : ∀ i, |S.cost i - T.cost i| ≤ u * |T.cost i|

end ProfitProblem

open ProfitProblem

/-- A run of `cutting_plane_optim` with the robust oracle on machine numbers with `p` bits. All four worst scenarios, with data changed by a relative error of `2^-p`, have the profit `γs` on the ball of radius `r` around `c` with a factor `exp δ` to spare. -/
structure RobustPlan (P : ProfitProblem) (e1 e2 e3 e4 e5 : ℝ) (p : ℕ) (R r D τ δ γs g0 B W N : ℝ) (x c : Vec 2) : Prop where
  tol1 : 0 ≤ e1
  tol2 : 0 ≤ e2
  tol3 : 0 ≤ e3
  tol4 : 0 ≤ e4
  tol5 : 0 ≤ e5
  price : 0 < P.price - e3
  scale : 0 < P.scale
  limit : 0 < P.limit - e4
  cost : ∀ i, 0 < P.cost i + e5
  plan : ∀ y S, (P.worst e1 e2 e3 e4 e5 y).Perturbed (2⁻¹ ^ p) S → ProfitPlan S p R r D τ δ γs g0 B W N x c

/-- A design `y` with the value `γ` that the robust oracle reports. In every scenario the limit holds and the profit is at least `γ`, and in one scenario the profit is at most `γ`; the limit, the revenues and the costs are changed by factors close to 1. -/
structure NearRobust (P : ProfitProblem) (e1 e2 e3 e4 e5 u : ℝ) (y : Vec 2) (γ : ℝ) : Prop where
  limit : ∀ T, P.Scenario e1 e2 e3 e4 e5 T → y 0 ≤ Real.log T.limit + u * (|Real.log T.limit| + 4)
  guaranteed : ∀ T, P.Scenario e1 e2 e3 e4 e5 T → γ ≤ Real.exp (T.logRevenue y + 14 * u * (P.worst e1 e2 e3 e4 e5 y).magnitude y) - T.outlay y * Real.exp (-(14 * u))
  attained : ∃ T, P.Scenario e1 e2 e3 e4 e5 T ∧ Real.exp (T.logRevenue y - 14 * u * (P.worst e1 e2 e3 e4 e5 y).magnitude y) - T.outlay y * Real.exp (14 * u) ≤ γ

end Ellalgo.Spec
