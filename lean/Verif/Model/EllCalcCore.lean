import Verif.Model.Basic

/-! # Model of `src/ellalgo/ell_calc_core.py` -/

namespace Ellalgo

/-- `ell_calc_core.py:41-47,77-85`, the instance attributes. -/
structure EllCalcCore where
  nF : ℝ
  halfN : ℝ
  nPlus1 : ℝ
  invN : ℝ
  nSq : ℝ
  cst0 : ℝ
  cst1 : ℝ
  cst2 : ℝ
  cst3 : ℝ

namespace EllCalcCore

/-- `ell_calc_core.py:49-85`, `EllCalcCore.__init__`. -/
noncomputable def init (n : ℝ) : Except Fault EllCalcCore := do
  let halfN ← pdiv n 2
  let nPlus1 := n + 1
  let invN ← pdiv 1 n
  let nSq := n * n
  let cst0 ← pdiv 1 nPlus1
  let cst1 ← pdiv nSq (nSq - 1)
  let cst2 := 2 * cst0
  let cst3 := n * cst0
  .ok { nF := n, halfN, nPlus1, invN, nSq, cst0, cst1, cst2, cst3 }

variable (c : EllCalcCore)

/-- `ell_calc_core.py:87-113`, `calc_central_cut`. -/
def calcCentralCut (tau : ℝ) : Params :=
  { rho := c.cst0 * tau, sigma := c.cst2, delta := c.cst1 }

/-- `ell_calc_core.py:115-165`, `calc_bias_cut_fast`. -/
noncomputable def calcBiasCutFast (beta tau eta : ℝ) : Except Fault Params := do
  let alpha ← pdiv beta tau
  let rho := c.cst0 * eta
  let sigma ← pdiv (c.cst2 * eta) (tau + beta)
  let delta := c.cst1 * (1 - alpha) * (1 + alpha)
  .ok { rho, sigma, delta }

/-- `ell_calc_core.py:167-209`, `calc_bias_cut`. -/
noncomputable def calcBiasCut (beta tau : ℝ) : Except Fault Params :=
  c.calcBiasCutFast beta tau (tau + c.nF * beta)

/-- `ell_calc_core.py:211-261`, `calc_parallel_central_cut`. -/
noncomputable def calcParallelCentralCut (beta1 tsq : ℝ) : Except Fault Params := do
  let a1sq ← pdiv (beta1 * beta1) tsq
  let k := c.halfN * a1sq
  let s ← psqrt (1 - a1sq + k * k)
  let r := k + s
  let rho ← pdiv beta1 (r + 1)
  let sigma ← pdiv 2 (r + 1)
  let delta ← pdiv r (r - c.invN)
  .ok { rho, sigma, delta }

/-- `ell_calc_core.py:263-315`, `calc_parallel_central_cut_old`. -/
noncomputable def calcParallelCentralCutOld (beta1 tsq : ℝ) : Except Fault Params := do
  let b1sq := beta1 * beta1
  let a1sq ← pdiv b1sq tsq
  let xi ← psqrt (1 - a1sq + (c.halfN * a1sq) ^ 2)
  let q ← pdiv (c.cst2 * (1 - xi)) a1sq
  let sigma := c.cst3 + q
  let rho := sigma * beta1 / 2
  let xn ← pdiv xi c.nF
  let delta := c.cst1 * (1 - a1sq / 2 + xn)
  .ok { rho, sigma, delta }

/-- `ell_calc_core.py:443-487`, `calc_parallel_bias_cut_fast`. -/
noncomputable def calcParallelBiasCutFast (beta0 beta1 tsq b0b1 eta : ℝ) : Except Fault Params := do
  let b0sq := beta0 * beta0
  let b1sq := beta1 * beta1
  let zeta0 := tsq - b0sq
  let zeta1 := tsq - b1sq
  let xi ← psqrt (zeta0 * zeta1 + (c.halfN * (b1sq - b0sq)) ^ 2)
  let bsumsq := (beta0 + beta1) ^ 2
  let sigma ← pdiv (2 * eta) (tsq + b0b1 + c.halfN * bsumsq + xi)
  let rho := sigma * (beta0 + beta1) / 2
  let xn ← pdiv xi c.nF
  let delta ← pdiv (c.cst1 * ((zeta0 + zeta1) / 2 + xn)) tsq
  .ok { rho, sigma, delta }

/-- `ell_calc_core.py:317-373`, `calc_parallel_bias_cut`. -/
noncomputable def calcParallelBiasCut (beta0 beta1 tsq : ℝ) : Except Fault Params :=
  let b0b1 := beta0 * beta1
  c.calcParallelBiasCutFast beta0 beta1 tsq b0b1 (tsq + c.nF * b0b1)

/-- `ell_calc_core.py:375-441`, `calc_parallel_bias_cut_fast_old`. -/
noncomputable def calcParallelBiasCutFastOld (beta0 beta1 tsq b0b1 eta : ℝ) : Except Fault Params := do
  let bavg := 0.5 * (beta0 + beta1)
  let bavgsq := bavg * bavg
  let h := 0.5 * (tsq + b0b1) + c.nF * bavgsq
  let gammaQ0 := h * h - c.nPlus1 * eta * bavgsq
  let gammaQ := if gammaQ0 < 0 then 0 else gammaQ0
  let s ← psqrt gammaQ
  let k := h + s
  if k ≤ eta then do
    let tau ← psqrt tsq
    .ok (c.calcCentralCut tau)
  else do
    let sigma ← pdiv eta k
    let invMu ← pdiv eta (k - eta)
    let rho := bavg * sigma
    let delta ← pdiv (tsq + invMu * (bavgsq * sigma - b0b1)) tsq
    .ok { rho, sigma, delta }

/-- `ell_calc_core.py:489-537`, `calc_parallel_bias_cut_fast2`. -/
noncomputable def calcParallelBiasCutFast2 (beta0 beta1 tsq b0b1 _eta : ℝ) : Except Fault Params := do
  let b0sq := beta0 * beta0
  let b1sq := beta1 * beta1
  let zeta0 := tsq - b0sq
  let zeta1 := tsq - b1sq
  let xi ← psqrt (zeta0 * zeta1 + (c.halfN * (b1sq - b0sq)) ^ 2)
  let bsumsq := (beta0 + beta1) ^ 2
  let q ← pdiv (c.cst2 * (tsq + b0b1 - xi)) bsumsq
  let sigma := c.cst3 + q
  let rho := sigma * (beta0 + beta1) / 2
  let xn ← pdiv xi c.nF
  let delta ← pdiv (c.cst1 * ((zeta0 + zeta1) / 2 + xn)) tsq
  .ok { rho, sigma, delta }

/-- `ell_calc_core.py:539-598`, `calc_parallel_bias_cut_old`. -/
noncomputable def calcParallelBiasCutOld (beta0 beta1 tsq : ℝ) : Except Fault Params := do
  let b0b1 := beta0 * beta1
  let b0sq := beta0 * beta0
  let b1sq := beta1 * beta1
  let zeta0 := tsq - b0sq
  let zeta1 := tsq - b1sq
  let xi ← psqrt (zeta0 * zeta1 + (c.halfN * (b1sq - b0sq)) ^ 2)
  let bsumsq := (beta0 + beta1) ^ 2
  let q ← pdiv (c.cst2 * (tsq + b0b1 - xi)) bsumsq
  let sigma := c.cst3 + q
  let rho := sigma * (beta0 + beta1) / 2
  let xn ← pdiv xi c.nF
  let delta ← pdiv (c.cst1 * ((zeta0 + zeta1) / 2 + xn)) tsq
  .ok { rho, sigma, delta }

end EllCalcCore

end Ellalgo
