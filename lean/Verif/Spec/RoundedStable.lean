import Verif.Model.RoundedStable
import Verif.Spec.Rounding

/-! # Specification: histories of `EllStable` in floating point -/

namespace Ellalgo

open Matrix

variable {n : ℕ}

/-- Call one of the three update methods of `EllStable`. -/
noncomputable def Arith.stableUpdate (A : Arith) (s : EllStable n) : Method → Cut n → EllStable n × Except Fault CutStatus
  | .bias, cut => A.stableBiasCut s cut
  | .central, cut => A.stableCentralCut s cut
  | .q, cut => A.stableQ s cut

/-- The cut strategy behind a method, in rounded arithmetic. -/
noncomputable def Arith.strategy (A : Arith) (c : EllCalc) : Method → Strategy
  | .bias => A.calcSingleOrParallel c
  | .central => A.calcSingleOrParallelCentralCut c
  | .q => A.calcSingleOrParallelQ c

/-- The object after a list of calls; exceptions are caught by the caller. -/
noncomputable def Arith.stableRun (A : Arith) : EllStable n → List (Method × Cut n) → EllStable n
  | s, [] => s
  | s, (m, cut) :: l => A.stableRun (A.stableUpdate s m cut).1 l

/-- What the calls return. -/
noncomputable def Arith.stableStatuses (A : Arith) : EllStable n → List (Method × Cut n) → List (Except Fault CutStatus)
  | _, [] => []
  | s, (m, cut) :: l => (A.stableUpdate s m cut).2 :: A.stableStatuses (A.stableUpdate s m cut).1 l

/-- Along the run the gradients are not zero and every cut is central or deep with an offset of at most `(1 - a) √tsq`, where `tsq` is the number that the object shows after the call. -/
def Arith.StableInRange (A : Arith) (a : ℝ) : EllStable n → List (Method × Vec n × ℝ) → Prop
  | _, [] => True
  | s, (mt, g, β) :: l => g ≠ 0 ∧ 0 ≤ mt.offset β ∧ mt.offset β ≤ (1 - a) * Real.sqrt (A.stableUpdate s mt (g, .scalar β)).1.tsq ∧
    A.StableInRange a (A.stableUpdate s mt (g, .scalar β)).1 l

end Ellalgo
