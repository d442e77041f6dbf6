import Verif.Model.Ell
import Verif.Model.Ldlt

/-!
# `ell_calc_core.py`, `ell_calc.py`, `ell.py` and `ldlt_mgr.py` in rounded arithmetic

The same code as `Model/EllCalcCore`, `Model/EllCalc`, `Model/Ell` and `Model/Ldlt`, but every operation on numbers is followed by a rounding. `Arith` is the machine: `rnd` rounds the exact result of one
addition, subtraction, multiplication, division or square root; `dot` and `mv` are NumPy's `x.dot(y)` and `A @ x`, whose order of summation and use of fused operations is up to the BLAS library and therefore a
parameter. Nothing is assumed about these functions here. Numbers are reals: overflow, underflow, infinities and NaN are left out. `x ** 2` is the rounded product. The dimension is a number that is represented exactly.
The variants of `ell_calc_core.py` that `Ell` does not reach (`*_old`, `fast2`) are not repeated. With `Arith.exact` these definitions are the ones of the exact model (`C90_exact`).
-/

namespace Ellalgo

open Matrix

/-- A machine arithmetic. -/
structure Arith where
  rnd : ℝ → ℝ
  dot : {n : ℕ} → Vec n → Vec n → ℝ
  mv : {n : ℕ} → Mat n → Vec n → Vec n

namespace Arith

/-- Exact arithmetic. -/
def exact : Arith where
  rnd x := x
  dot x y := x ⬝ᵥ y
  mv M x := M *ᵥ x

variable (A : Arith)

/-- `x + y`. -/
def add (x y : ℝ) : ℝ := A.rnd (x + y)

/-- `x - y`. -/
def sub (x y : ℝ) : ℝ := A.rnd (x - y)

/-- `x * y`. -/
def mul (x y : ℝ) : ℝ := A.rnd (x * y)

/-- `x / y` for a divisor that is not zero. -/
noncomputable def div (x y : ℝ) : ℝ := A.rnd (x / y)

/-- `x / y`, an exception if `y` is zero. -/
noncomputable def pdiv (x y : ℝ) : Except Fault ℝ :=
  if y = 0 then .error .zeroDivision else .ok (A.div x y)

/-- `math.sqrt(x)`. -/
noncomputable def psqrt (x : ℝ) : Except Fault ℝ :=
  if x < 0 then .error .mathDomain else .ok (A.rnd (Real.sqrt x))

/-! ### `ell_calc_core.py` -/

/-- `ell_calc_core.py:49-85`, `EllCalcCore.__init__`. -/
noncomputable def coreInit (n : ℝ) : Except Fault EllCalcCore := do
  let halfN ← A.pdiv n 2
  let nPlus1 := A.add n 1
  let invN ← A.pdiv 1 n
  let nSq := A.mul n n
  let cst0 ← A.pdiv 1 nPlus1
  let cst1 ← A.pdiv nSq (A.sub nSq 1)
  let cst2 := A.mul 2 cst0
  let cst3 := A.mul n cst0
  .ok { nF := n, halfN, nPlus1, invN, nSq, cst0, cst1, cst2, cst3 }

/-- `ell_calc_core.py:87-113`, `calc_central_cut`. -/
def calcCentralCut (c : EllCalcCore) (tau : ℝ) : Params :=
  { rho := A.mul c.cst0 tau, sigma := c.cst2, delta := c.cst1 }

/-- `ell_calc_core.py:115-165`, `calc_bias_cut_fast`. -/
noncomputable def calcBiasCutFast (c : EllCalcCore) (beta tau eta : ℝ) : Except Fault Params := do
  let alpha ← A.pdiv beta tau
  let rho := A.mul c.cst0 eta
  let sigma ← A.pdiv (A.mul c.cst2 eta) (A.add tau beta)
  let delta := A.mul (A.mul c.cst1 (A.sub 1 alpha)) (A.add 1 alpha)
  .ok { rho, sigma, delta }

/-- `ell_calc_core.py:167-209`, `calc_bias_cut`. -/
noncomputable def coreBiasCut (c : EllCalcCore) (beta tau : ℝ) : Except Fault Params :=
  A.calcBiasCutFast c beta tau (A.add tau (A.mul c.nF beta))

/-- `ell_calc_core.py:211-261`, `calc_parallel_central_cut`. -/
noncomputable def calcParallelCentralCut (c : EllCalcCore) (beta1 tsq : ℝ) : Except Fault Params := do
  let a1sq ← A.pdiv (A.mul beta1 beta1) tsq
  let k := A.mul c.halfN a1sq
  let s ← A.psqrt (A.add (A.sub 1 a1sq) (A.mul k k))
  let r := A.add k s
  let rho ← A.pdiv beta1 (A.add r 1)
  let sigma ← A.pdiv 2 (A.add r 1)
  let delta ← A.pdiv r (A.sub r c.invN)
  .ok { rho, sigma, delta }

/-- `ell_calc_core.py:443-487`, `calc_parallel_bias_cut_fast`. -/
noncomputable def calcParallelBiasCutFast (c : EllCalcCore) (beta0 beta1 tsq b0b1 eta : ℝ) : Except Fault Params := do
  let b0sq := A.mul beta0 beta0
  let b1sq := A.mul beta1 beta1
  let zeta0 := A.sub tsq b0sq
  let zeta1 := A.sub tsq b1sq
  let h := A.mul c.halfN (A.sub b1sq b0sq)
  let xi ← A.psqrt (A.add (A.mul zeta0 zeta1) (A.mul h h))
  let bsumsq := A.mul (A.add beta0 beta1) (A.add beta0 beta1)
  let sigma ← A.pdiv (A.mul 2 eta) (A.add (A.add (A.add tsq b0b1) (A.mul c.halfN bsumsq)) xi)
  let rho := A.div (A.mul sigma (A.add beta0 beta1)) 2
  let xn ← A.pdiv xi c.nF
  let delta ← A.pdiv (A.mul c.cst1 (A.add (A.div (A.add zeta0 zeta1) 2) xn)) tsq
  .ok { rho, sigma, delta }

/-- `ell_calc_core.py:317-373`, `calc_parallel_bias_cut`. -/
noncomputable def calcParallelBiasCut (c : EllCalcCore) (beta0 beta1 tsq : ℝ) : Except Fault Params :=
  let b0b1 := A.mul beta0 beta1
  A.calcParallelBiasCutFast c beta0 beta1 tsq b0b1 (A.add tsq (A.mul c.nF b0b1))

/-! ### `ell_calc.py` -/

/-- `ell_calc.py:48-65`, `EllCalc.__init__`. -/
noncomputable def calcInit (n : ℤ) : Except Fault EllCalc := do
  if n ≥ 2 then
    let helper ← A.coreInit (n : ℝ)
    .ok { useParallelCut := true, nF := (n : ℝ), helper }
  else .error .assertion

/-- `ell_calc.py:166-208`, `calc_bias_cut`. -/
noncomputable def calcBiasCut (c : EllCalc) (beta tsq : ℝ) : StrategyResult :=
  if beta ≥ 0 then
    let bsq := A.mul beta beta
    if tsq < bsq then .ok (.noSoln, none)
    else do
      let tau ← A.psqrt tsq
      let r ← A.coreBiasCut c.helper beta tau
      .ok (.success, some r)
  else .error .assertion

/-- `ell_calc.py:136-164`, `calc_parallel`. -/
noncomputable def calcParallel (c : EllCalc) (beta0 beta1 tsq : ℝ) : StrategyResult :=
  if beta1 < beta0 then .ok (.noSoln, none)
  else
    let b1sq := A.mul beta1 beta1
    if beta1 > 0 ∧ tsq ≤ b1sq then A.calcBiasCut c beta0 tsq
    else do
      let r ← A.calcParallelBiasCut c.helper beta0 beta1 tsq
      .ok (.success, some r)

/-- `ell_calc.py:263-303`, `calc_bias_cut_q`. -/
noncomputable def calcBiasCutQ (c : EllCalc) (beta tsq : ℝ) : StrategyResult := do
  let tau ← A.psqrt tsq
  if tau < beta then .ok (.noSoln, none)
  else
    let eta := A.add tau (A.mul c.nF beta)
    if eta ≤ 0 then .ok (.noEffect, none)
    else do
      let r ← A.calcBiasCutFast c.helper beta tau eta
      .ok (.success, some r)

/-- `ell_calc.py:233-261`, `calc_parallel_q`. -/
noncomputable def calcParallelQ (c : EllCalc) (beta0 beta1 tsq : ℝ) : StrategyResult :=
  if beta1 < beta0 then .ok (.noSoln, none)
  else
    let b1sq := A.mul beta1 beta1
    if beta1 > 0 ∧ tsq ≤ b1sq then A.calcBiasCutQ c beta0 tsq
    else
      let b0b1 := A.mul beta0 beta1
      let eta := A.add tsq (A.mul c.nF b0b1)
      if eta ≤ 0 then .ok (.noEffect, none)
      else do
        let r ← A.calcParallelBiasCutFast c.helper beta0 beta1 tsq b0b1 eta
        .ok (.success, some r)

/-- `ell_calc.py:67-97`, `calc_single_or_parallel`. -/
noncomputable def calcSingleOrParallel (c : EllCalc) (beta : CutChoice) (tsq : ℝ) : StrategyResult :=
  match beta with
  | .scalar b => A.calcBiasCut c b tsq
  | .seq bs =>
    if bs.length < 2 ∨ !c.useParallelCut then do
      let b0 ← EllCalc.firstOffset bs
      A.calcBiasCut c b0 tsq
    else
      match bs[1]? with
      | some (some b1) => do
        let b0 ← EllCalc.firstOffset bs
        A.calcParallel c b0 b1 tsq
      | _ => .error .assertion

/-- `ell_calc.py:99-134`, `calc_single_or_parallel_central_cut`. -/
noncomputable def calcSingleOrParallelCentralCut (c : EllCalc) (beta : CutChoice) (tsq : ℝ) : StrategyResult :=
  let central : StrategyResult := do
    let tau ← A.psqrt tsq
    .ok (.success, some (A.calcCentralCut c.helper tau))
  match beta with
  | .scalar _ => central
  | .seq bs =>
    if bs.length < 2 ∨ !c.useParallelCut then central
    else
      match bs[1]? with
      | some (some b1) =>
        if b1 < 0 then .ok (.noSoln, none)
        else
          let b1sq := A.mul b1 b1
          if tsq ≤ b1sq then central
          else do
            let r ← A.calcParallelCentralCut c.helper b1 tsq
            .ok (.success, some r)
      | _ => .error .assertion

/-- `ell_calc.py:210-231`, `calc_single_or_parallel_q`. -/
noncomputable def calcSingleOrParallelQ (c : EllCalc) (beta : CutChoice) (tsq : ℝ) : StrategyResult :=
  match beta with
  | .scalar b => A.calcBiasCutQ c b tsq
  | .seq bs =>
    if bs.length < 2 ∨ !c.useParallelCut then do
      let b0 ← EllCalc.firstOffset bs
      A.calcBiasCutQ c b0 tsq
    else
      match bs[1]? with
      | some (some b1) => do
        let b0 ← EllCalc.firstOffset bs
        A.calcParallelQ c b0 b1 tsq
      | _ => .error .assertion

/-! ### `ell.py` -/

variable {n : ℕ}

/-- `ell.py:49-86`, `Ell.__init__`. -/
noncomputable def ellInit (val : InitVal n) (xCenter : Vec n) : Except Fault (Ell n) := do
  let helper ← A.calcInit (n : ℤ)
  match val with
  | .scalar kappa =>
    .ok { mq := 1, xc := xCenter, kappa, tsq := 0, helper, noDeferTrick := false }
  | .diag d =>
    .ok { mq := Matrix.diagonal d, xc := xCenter, kappa := 1, tsq := 0, helper, noDeferTrick := false }

/-- `ell.py:194-266`, `_update_core`. Array operations act entry by entry. -/
noncomputable def updateCore (e : Ell n) (cut : Cut n) (strategy : Strategy) : Ell n × Except Fault CutStatus :=
  let grad := cut.1
  let beta := cut.2
  if ∀ i, grad i = 0 then (e, .error .valueError)
  else
    let gradT := A.mv e.mq grad
    let omega := A.dot grad gradT
    if omega = 0 then (e, .ok .noEffect)
    else
      let e1 : Ell n := { e with tsq := A.mul e.kappa omega }
      match strategy beta e1.tsq with
      | .error f => (e1, .error f)
      | .ok (status, none) => (e1, .ok status)
      | .ok (status, some p) =>
        let e2 : Ell n :=
          { e1 with
            xc := fun i => A.sub (e1.xc i) (A.mul (A.div p.rho omega) (gradT i))
            mq := fun i j => A.sub (e1.mq i j) (A.mul (A.div p.sigma omega) (A.mul (gradT i) (gradT j)))
            kappa := A.mul e1.kappa p.delta }
        let e3 : Ell n :=
          if e2.noDeferTrick then { e2 with mq := fun i j => A.mul (e2.mq i j) e2.kappa, kappa := 1 } else e2
        (e3, .ok status)

/-- `ell.py:118-141`, `update_bias_cut`. -/
noncomputable def updateBiasCut (e : Ell n) (cut : Cut n) : Ell n × Except Fault CutStatus :=
  A.updateCore e cut (A.calcSingleOrParallel e.helper)

/-- `ell.py:143-166`, `update_central_cut`. -/
noncomputable def updateCentralCut (e : Ell n) (cut : Cut n) : Ell n × Except Fault CutStatus :=
  A.updateCore e cut (A.calcSingleOrParallelCentralCut e.helper)

/-- `ell.py:168-190`, `update_q`. -/
noncomputable def updateQ (e : Ell n) (cut : Cut n) : Ell n × Except Fault CutStatus :=
  A.updateCore e cut (A.calcSingleOrParallelQ e.helper)

/-! ### `ldlt_mgr.py` -/

/-- `x[lo:hi]` as a vector. -/
def slice (x : ℕ → ℝ) (lo hi : ℕ) : Vec (hi - lo) := fun k => x (lo + k)

open LDLTMgr in
/-- Body of the loop over `j` (`ldlt_mgr.py:113-118`). A division by a pivot that is zero does not occur in `factor`. -/
noncomputable def rowStep (getElem : ℕ → ℕ → ℝ) (start i j : ℕ) (st : RowState ℝ) : RowState ℝ :=
  let s1 := set2 st.storage j i st.diag                                  -- 113
  let s2 := set2 s1 i j (A.div st.diag (s1 j j))                         -- 114
  let stop := j + 1                                                      -- 115
  { storage := s2
    diag := A.sub (getElem i stop) (A.dot (slice (fun k => s2 i k) start stop) (slice (fun k => s2 k stop) start stop))   -- 116-118
    reads := st.reads ++ [(i, stop)] }

open LDLTMgr in
/-- One row (`ldlt_mgr.py:111-119`). -/
noncomputable def row (getElem : ℕ → ℕ → ℝ) (start i : ℕ) (storage : ℕ → ℕ → ℝ) (reads : List (ℕ × ℕ)) : RowState ℝ :=
  let st := forRange start i (A.rowStep getElem start i)
    { storage, diag := getElem i start, reads := reads ++ [(i, start)] }
  { st with storage := set2 st.storage i i st.diag }

/-- The outer loop of `factor` (`ldlt_mgr.py:110-122`). -/
noncomputable def factorLoop (getElem : ℕ → ℕ → ℝ) : (fuel i : ℕ) → (ℕ → ℕ → ℝ) → List (ℕ × ℕ) →
    (ℕ → ℕ → ℝ) × (ℕ × ℕ) × List (ℕ × ℕ)
  | 0, _, s, r => (s, (0, 0), r)
  | fuel + 1, i, s, r =>
    let st := A.row getElem 0 i s r
    if st.diag ≤ 0 then (st.storage, (0, i + 1), st.reads)               -- 120-122
    else factorLoop getElem fuel (i + 1) st.storage st.reads

/-- `ldlt_mgr.py:84-123`, `factor`. -/
noncomputable def factor (m : LDLTMgr ℝ) (getElem : ℕ → ℕ → ℝ) : LDLTMgr ℝ × Bool × List (ℕ × ℕ) :=
  let r := A.factorLoop getElem m.ndim 0 m.storage []
  let m1 := { m with storage := r.1, pos := r.2.1 }
  (m1, m1.isSpd, r.2.2)

open LDLTMgr in
/-- `ldlt_mgr.py:188-216`, `witness`. A change of sign is exact. -/
noncomputable def witness (m : LDLTMgr ℝ) : LDLTMgr ℝ × Except Fault ℝ :=
  if m.isSpd then (m, .error .assertion)                            -- 209-210
  else
    let start := m.pos.1                                                 -- 211
    let pos := m.pos.2
    let last := pos - 1                                                  -- 212
    let w0 := set1 m.wit last 1                                          -- 213
    let w := forDown start
      (fun i w => set1 w (i - 1) (-A.dot (slice (fun k => m.storage k (i - 1)) i pos) (slice w i pos))) last w0   -- 214-215
    ({ m with wit := w }, .ok (-m.storage last last))                    -- 216

/-- `ldlt_mgr.py:218-248`, `sym_quad`. -/
noncomputable def symQuad (m : LDLTMgr ℝ) (mat : ℕ → ℕ → ℝ) : ℝ :=
  let start := m.pos.1
  let ndim := m.pos.2
  let wit := slice m.wit start ndim
  A.dot wit (A.mv (fun i j => mat (start + i) (start + j)) wit)

end Arith

end Ellalgo
