import Verif.Model.EllCalc

/-! # Model of `src/ellalgo/ell.py` -/

namespace Ellalgo

open Matrix

/-- The first constructor argument of `Ell`/`EllStable`: a scalar or a sequence (`ell.py:79-86`). -/
inductive InitVal (n : ℕ)
  | scalar (kappa : ℝ)
  | diag (d : Vec n)

/-- A cut: gradient and offset(s) (`ell.py:26`). -/
abbrev Cut (n : ℕ) := Vec n × CutChoice

/-- A cut strategy (`ell.py:194`, `cut_strategy: Callable`). -/
abbrev Strategy := CutChoice → ℝ → StrategyResult

/-- `ell.py:42-47`, instance variables of `Ell`, plus the class flag `no_defer_trick` (line 40).
The centre is a value here; its aliasing with the caller's array is modelled in `Model/Heap.lean`. -/
structure Ell (n : ℕ) where
  mq : Mat n
  xc : Vec n
  kappa : ℝ
  tsq : ℝ
  helper : EllCalc
  noDeferTrick : Bool

namespace Ell

variable {n : ℕ}

/-- `ell.py:49-86`, `Ell.__init__`; `ndim = len(x_center)`. -/
noncomputable def init (val : InitVal n) (xCenter : Vec n) : Except Fault (Ell n) := do
  let helper ← EllCalc.init (n : ℤ)
  match val with
  | .scalar kappa =>
    .ok { mq := 1, xc := xCenter, kappa, tsq := 0, helper, noDeferTrick := false }
  | .diag d =>
    .ok { mq := Matrix.diagonal d, xc := xCenter, kappa := 1, tsq := 0, helper, noDeferTrick := false }

/-- `ell.py:97-103`, `set_xc`. -/
def setXc (e : Ell n) (x : Vec n) : Ell n := { e with xc := x }

/-- `ell.py:194-266`, `_update_core`. Returns the object state after the call and the outcome
(status or exception). `omega ≠ 0` at the divisions because of the test on line 241. -/
noncomputable def updateCore (e : Ell n) (cut : Cut n) (strategy : Strategy) :
    Ell n × Except Fault CutStatus :=
  let grad := cut.1
  let beta := cut.2
  if ∀ i, grad i = 0 then (e, .error .valueError)
  else
    let gradT := e.mq *ᵥ grad
    let omega := grad ⬝ᵥ gradT
    if omega = 0 then (e, .ok .noEffect)
    else
      let e1 : Ell n := { e with tsq := e.kappa * omega }
      match strategy beta e1.tsq with
      | .error f => (e1, .error f)
      | .ok (status, none) => (e1, .ok status)
      | .ok (status, some p) =>
        let e2 : Ell n :=
          { e1 with
            xc := e1.xc - (p.rho / omega) • gradT
            mq := e1.mq - (p.sigma / omega) • vecMulVec gradT gradT
            kappa := e1.kappa * p.delta }
        let e3 : Ell n :=
          if e2.noDeferTrick then { e2 with mq := e2.kappa • e2.mq, kappa := 1 } else e2
        (e3, .ok status)

/-- `ell.py:118-141`, `update_bias_cut`. -/
noncomputable def updateBiasCut (e : Ell n) (cut : Cut n) : Ell n × Except Fault CutStatus :=
  e.updateCore cut e.helper.calcSingleOrParallel

/-- `ell.py:143-166`, `update_central_cut`. -/
noncomputable def updateCentralCut (e : Ell n) (cut : Cut n) : Ell n × Except Fault CutStatus :=
  e.updateCore cut e.helper.calcSingleOrParallelCentralCut

/-- `ell.py:168-190`, `update_q`. -/
noncomputable def updateQ (e : Ell n) (cut : Cut n) : Ell n × Except Fault CutStatus :=
  e.updateCore cut e.helper.calcSingleOrParallelQ

end Ell

end Ellalgo
