import Verif.Model.EllCalcCore

/-! # Model of `src/ellalgo/ell_calc.py` -/

namespace Ellalgo

/-- What a cut strategy returns: a status and, on success, the update parameters. -/
abbrev StrategyResult := Except Fault (CutStatus × Option Params)

/-- `ell_calc.py:44-46`, attributes of `EllCalc`. -/
structure EllCalc where
  useParallelCut : Bool
  nF : ℝ
  helper : EllCalcCore

namespace EllCalc

/-- `ell_calc.py:48-65`, `EllCalc.__init__` (`use_parallel_cut` is a class attribute that is `True` by default, line 44). -/
noncomputable def init (n : ℤ) : Except Fault EllCalc := do
  if n ≥ 2 then
    let helper ← EllCalcCore.init (n : ℝ)
    .ok { useParallelCut := true, nF := (n : ℝ), helper }
  else .error .assertion

variable (c : EllCalc)

/-- `ell_calc.py:166-208`, `calc_bias_cut`. -/
noncomputable def calcBiasCut (beta tsq : ℝ) : StrategyResult :=
  if beta ≥ 0 then
    let bsq := beta * beta
    if tsq < bsq then .ok (.noSoln, none)
    else do
      let tau ← psqrt tsq
      let r ← c.helper.calcBiasCut beta tau
      .ok (.success, some r)
  else .error .assertion

/-- `ell_calc.py:136-164`, `calc_parallel`. -/
noncomputable def calcParallel (beta0 beta1 tsq : ℝ) : StrategyResult :=
  if beta1 < beta0 then .ok (.noSoln, none)
  else
    let b1sq := beta1 * beta1
    if beta1 > 0 ∧ tsq ≤ b1sq then c.calcBiasCut beta0 tsq
    else do
      let r ← c.helper.calcParallelBiasCut beta0 beta1 tsq
      .ok (.success, some r)

/-- `ell_calc.py:263-303`, `calc_bias_cut_q`. -/
noncomputable def calcBiasCutQ (beta tsq : ℝ) : StrategyResult := do
  let tau ← psqrt tsq
  if tau < beta then .ok (.noSoln, none)
  else
    let eta := tau + c.nF * beta
    if eta ≤ 0 then .ok (.noEffect, none)
    else do
      let r ← c.helper.calcBiasCutFast beta tau eta
      .ok (.success, some r)

/-- `ell_calc.py:233-261`, `calc_parallel_q`. -/
noncomputable def calcParallelQ (beta0 beta1 tsq : ℝ) : StrategyResult :=
  if beta1 < beta0 then .ok (.noSoln, none)
  else
    let b1sq := beta1 * beta1
    if beta1 > 0 ∧ tsq ≤ b1sq then c.calcBiasCutQ beta0 tsq
    else
      let b0b1 := beta0 * beta1
      let eta := tsq + c.nF * b0b1
      if eta ≤ 0 then .ok (.noEffect, none)
      else do
        let r ← c.helper.calcParallelBiasCutFast beta0 beta1 tsq b0b1 eta
        .ok (.success, some r)

/-- `beta[0]` used as a number: `IndexError` on an empty sequence, `TypeError` if it is `None`. -/
def firstOffset : List (Option ℝ) → Except Fault ℝ
  | [] => .error .indexError
  | none :: _ => .error .typeError
  | some b :: _ => .ok b

/-- `ell_calc.py:67-97`, `calc_single_or_parallel`. -/
noncomputable def calcSingleOrParallel (beta : CutChoice) (tsq : ℝ) : StrategyResult :=
  match beta with
  | .scalar b => c.calcBiasCut b tsq
  | .seq bs =>
    if bs.length < 2 ∨ !c.useParallelCut then do
      let b0 ← firstOffset bs
      c.calcBiasCut b0 tsq
    else
      match bs[1]? with
      | some (some b1) => do
        let b0 ← firstOffset bs
        c.calcParallel b0 b1 tsq
      | _ => .error .assertion

/-- `ell_calc.py:99-134`, `calc_single_or_parallel_central_cut`. -/
noncomputable def calcSingleOrParallelCentralCut (beta : CutChoice) (tsq : ℝ) : StrategyResult :=
  let central : StrategyResult := do
    let tau ← psqrt tsq
    .ok (.success, some (c.helper.calcCentralCut tau))
  match beta with
  | .scalar _ => central
  | .seq bs =>
    if bs.length < 2 ∨ !c.useParallelCut then central
    else
      match bs[1]? with
      | some (some b1) =>
        if b1 < 0 then .ok (.noSoln, none)
        else
          let b1sq := b1 * b1
          if tsq ≤ b1sq then central
          else do
            let r ← c.helper.calcParallelCentralCut b1 tsq
            .ok (.success, some r)
      | _ => .error .assertion

/-- `ell_calc.py:210-231`, `calc_single_or_parallel_q`. -/
noncomputable def calcSingleOrParallelQ (beta : CutChoice) (tsq : ℝ) : StrategyResult :=
  match beta with
  | .scalar b => c.calcBiasCutQ b tsq
  | .seq bs =>
    if bs.length < 2 ∨ !c.useParallelCut then do
      let b0 ← firstOffset bs
      c.calcBiasCutQ b0 tsq
    else
      match bs[1]? with
      | some (some b1) => do
        let b0 ← firstOffset bs
        c.calcParallelQ b0 b1 tsq
      | _ => .error .assertion

end EllCalc

end Ellalgo
