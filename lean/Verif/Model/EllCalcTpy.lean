import Verif.Model.EllCalc

/-!
# Model of `src/ellalgo/ell_calc.tpy`

The earlier one-file version of `EllCalc`. Simplification: offsets are numbers; a `None` offset, which makes the comparison fail with `TypeError`, is the fault `typeError`. The old methods return a
flat tuple `(status, rho, sigma, delta)`; as for the shipped file this is a status with optional parameters, absent where the code fills in zeros.
The self-test under `__main__` (450-486) is not modelled.
-/

namespace Ellalgo

/-- `ell_calc.tpy:15-22`, the attributes. -/
structure EllCalcTpy where
  useParallelCut : Bool
  nF : ℝ
  halfN : ℝ
  cst0 : ℝ
  cst1 : ℝ
  cst2 : ℝ
  cst3 : ℝ

namespace EllCalcTpy

/-- `ell_calc.tpy:24-53`, `__init__`. -/
noncomputable def init (n : ℤ) : Except Fault EllCalcTpy := do
  let nF : ℝ := n
  let halfN ← pdiv nF 2
  let cst0 ← pdiv 1 (nF + 1)
  let cst1 ← pdiv (nF ^ 2) (nF ^ 2 - 1)
  .ok { useParallelCut := true, nF, halfN, cst0, cst1, cst2 := 2 * cst0, cst3 := nF * cst0 }

variable (c : EllCalcTpy)

/-- `ell_calc.tpy:308-337`, `calc_bias_cut_core`. -/
noncomputable def calcBiasCutCore (beta tau eta : ℝ) : StrategyResult := do
  let rho := c.cst0 * eta                                          -- 334
  let sigma ← pdiv (c.cst2 * eta) (tau + beta)                     -- 335
  let q ← pdiv beta tau
  let delta := c.cst1 * (1 - q ^ 2)                                -- 336
  .ok (.success, some { rho, sigma, delta })                       -- 337

/-- `ell_calc.tpy:270-290`, `calc_bias_cut`. -/
noncomputable def calcBiasCut (beta tsq : ℝ) : StrategyResult :=
  if beta ≥ 0 then                                                 -- 284
    let bsq := beta * beta                                         -- 285
    if tsq < bsq then .ok (.noSoln, none)                          -- 286-287
    else do
      let tau ← psqrt tsq                                          -- 288
      let eta := tau + c.nF * beta                                 -- 289
      c.calcBiasCutCore beta tau eta                               -- 290
  else .error .assertion

/-- `ell_calc.tpy:353-370`, `calc_central_cut`. -/
noncomputable def calcCentralCut (tsq : ℝ) : StrategyResult := do
  let tau ← psqrt tsq
  .ok (.success, some { rho := c.cst0 * tau, sigma := c.cst2, delta := c.cst1 })

/-- `ell_calc.tpy:165-193`, `calc_parallel_core`. -/
noncomputable def calcParallelCore (beta0 beta1 b1sq b0b1 tsq : ℝ) : StrategyResult := do
  let b0sq := beta0 * beta0                                        -- 185
  let t0 := tsq - b0sq                                             -- 186
  let t1 := tsq - b1sq                                             -- 187
  let xi ← psqrt (t0 * t1 + (c.halfN * (b1sq - b0sq)) ^ 2)         -- 188
  let bsumsq := b0sq + 2 * b0b1 + b1sq                             -- 189
  let q ← pdiv (c.cst2 * (tsq + b0b1 - xi)) bsumsq
  let sigma := c.cst3 + q                                          -- 190
  let rho := sigma * (beta0 + beta1) / 2                           -- 191
  let xn ← pdiv xi c.nF
  let delta ← pdiv (c.cst1 * ((t0 + t1) / 2 + xn)) tsq             -- 192
  .ok (.success, some { rho, sigma, delta })                       -- 193

/-- `ell_calc.tpy:104-131`, `calc_parallel`. -/
noncomputable def calcParallel (beta0 beta1 tsq : ℝ) : StrategyResult :=
  if beta1 < beta0 then .ok (.noSoln, none)                        -- 123-124
  else
    let b1sq := beta1 * beta1                                      -- 127
    if beta1 > 0 ∧ tsq < b1sq then c.calcBiasCut beta0 tsq         -- 128-129
    else
      let b0b1 := beta0 * beta1                                    -- 130
      c.calcParallelCore beta0 beta1 b1sq b0b1 tsq                 -- 131

/-- `ell_calc.tpy:225-252`, `calc_parallel_central_cut`. -/
noncomputable def calcParallelCentralCut (beta1 tsq : ℝ) : StrategyResult :=
  if beta1 < 0 then .ok (.noSoln, none)                            -- 240-241
  else
    let b1sq := beta1 * beta1                                      -- 242
    if tsq < b1sq ∨ !c.useParallelCut then c.calcCentralCut tsq    -- 243-244
    else do
      let a1sq ← pdiv b1sq tsq                                     -- 246
      let xi ← psqrt (1 - a1sq + (c.halfN * a1sq) ^ 2)             -- 247
      let q ← pdiv (c.cst2 * (1 - xi)) a1sq
      let sigma := c.cst3 + q                                      -- 248
      let rho := sigma * beta1 / 2                                 -- 249
      let xn ← pdiv xi c.nF
      let delta := c.cst1 * (1 - a1sq / 2 + xn)                    -- 251
      .ok (.success, some { rho, sigma, delta })                   -- 252

/-- `ell_calc.tpy:426-447`, `calc_bias_cut_q`. -/
noncomputable def calcBiasCutQ (beta tsq : ℝ) : StrategyResult := do
  let tau ← psqrt tsq                                              -- 441
  if tau < beta then .ok (.noSoln, none)                           -- 442-443
  else
    let eta := tau + c.nF * beta                                   -- 444
    if eta ≤ 0 then .ok (.noEffect, none)                          -- 445-446
    else c.calcBiasCutCore beta tau eta                            -- 447

/-- `ell_calc.tpy:397-424`, `calc_parallel_q`. -/
noncomputable def calcParallelQ (beta0 beta1 tsq : ℝ) : StrategyResult :=
  if beta1 < beta0 then .ok (.noSoln, none)                        -- 413-414
  else
    let b1sq := beta1 * beta1                                      -- 417
    if beta1 > 0 ∧ tsq < b1sq then c.calcBiasCutQ beta0 tsq        -- 418-419
    else
      let b0b1 := beta0 * beta1                                    -- 420
      if c.nF * b0b1 < -tsq then .ok (.noEffect, none)             -- 421-422
      else c.calcParallelCore beta0 beta1 b1sq b0b1 tsq            -- 424

/-- `beta[0]` and `beta[1]` used as numbers. -/
def twoOffsets : List (Option ℝ) → Except Fault (ℝ × ℝ)
  | some b0 :: some b1 :: _ => .ok (b0, b1)
  | _ => .error .typeError

/-- `ell_calc.tpy:55-77`, `calc_single_or_parallel`. -/
noncomputable def calcSingleOrParallel (beta : CutChoice) (tsq : ℝ) : StrategyResult :=
  match beta with
  | .scalar b => c.calcBiasCut b tsq                               -- 73-74
  | .seq bs =>
    if bs.length < 2 ∨ !c.useParallelCut then do                   -- 75
      let b0 ← EllCalc.firstOffset bs
      c.calcBiasCut b0 tsq                                         -- 76
    else do
      let b ← twoOffsets bs
      c.calcParallel b.1 b.2 tsq                                   -- 77

/-- `ell_calc.tpy:79-102`, `calc_single_or_parallel_central_cut`. -/
noncomputable def calcSingleOrParallelCentralCut (beta : CutChoice) (tsq : ℝ) : StrategyResult :=
  match beta with
  | .scalar _ => c.calcCentralCut tsq                              -- 100-101
  | .seq bs =>
    if bs.length < 2 ∨ !c.useParallelCut then c.calcCentralCut tsq -- 100-101
    else
      match bs[1]? with
      | some (some b1) => c.calcParallelCentralCut b1 tsq          -- 102
      | _ => .error .typeError

/-- `ell_calc.tpy:372-390`, `calc_single_or_parallel_q`. -/
noncomputable def calcSingleOrParallelQ (beta : CutChoice) (tsq : ℝ) : StrategyResult :=
  match beta with
  | .scalar b => c.calcBiasCutQ b tsq                              -- 386-387
  | .seq bs =>
    if bs.length < 2 ∨ !c.useParallelCut then do                   -- 388
      let b0 ← EllCalc.firstOffset bs
      c.calcBiasCutQ b0 tsq                                        -- 389
    else do
      let b ← twoOffsets bs
      c.calcParallelQ b.1 b.2 tsq                                  -- 390

end EllCalcTpy

end Ellalgo
