import Mathlib.Data.Real.Basic

/-!
# Intervals up to a drift

Written without reference to the model.
-/

namespace Ellalgo.Spec

/-- `x` is in `[xc - rd, xc + rd]`, up to `δ` at either end. -/
def WithinBy (δ xc rd x : ℝ) : Prop := xc - rd - δ ≤ x ∧ x ≤ xc + rd + δ

/-- How far the ends of an interval inside `[-B, B]` may have moved after `k` updates with rounding unit `u`. -/
def drift (u B : ℝ) (k : ℕ) : ℝ := B * ((1 + 10 * u) ^ (k + 1) - 1)

end Ellalgo.Spec
