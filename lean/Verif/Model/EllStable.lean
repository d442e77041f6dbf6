import Verif.Model.Ell
import Verif.Model.Loops

/-!
# Model of `src/ellalgo/ell_stable.py`

`_mq` is an `n × n` array with three uses: the strict lower triangle holds the subdiagonal of the unit lower triangular
`L`, the diagonal holds the reciprocals of `D`, the strict upper triangle is scratch space.

The three array loops are generic over the field of numbers.
-/

namespace Ellalgo

namespace EllStable

section loops

variable {K : Type*} [Field K]

/-- `ell_stable.py:202-204`, the body of the forward substitution on the pair (`_mq`, `inv_lower_g`). -/
def fwdStep (j i : ℕ) (st : (ℕ → ℕ → K) × (ℕ → K)) : (ℕ → ℕ → K) × (ℕ → K) :=
  let mq := set2 st.1 j i (st.1 i j * st.2 j)
  (mq, set1 st.2 i (st.2 i - mq j i))

/-- `ell_stable.py:198-204`, forward substitution. -/
def fwd (n : ℕ) (mq : ℕ → ℕ → K) (g : ℕ → K) : (ℕ → ℕ → K) × (ℕ → K) :=
  forRange 0 (n - 1) (fun j st => forRange (j + 1) n (fun i st => fwdStep j i st) st) (mq, g)

/-- `ell_stable.py:207-209`, multiplication by the inverse diagonal. -/
def invDiag (n : ℕ) (mq : ℕ → ℕ → K) (w : ℕ → K) : ℕ → K :=
  forRange 0 n (fun i z => set1 z i (z i * mq i i)) w

/-- `ell_stable.py:226-229`, backward substitution. -/
def bwd (n : ℕ) (mq : ℕ → ℕ → K) (z : ℕ → K) : ℕ → K :=
  forDown 0 (fun i gt => forRange i n (fun j gt => set1 gt (i - 1) (gt (i - 1) - mq j (i - 1) * gt j)) gt) (n - 1) z

/-- The variables of the rank-one loop; `failed` records a division by zero (the remaining iterations are then skipped, as the
exception leaves the loop). -/
structure RankState (K : Type*) where
  mq : ℕ → ℕ → K
  v : ℕ → K
  oldt : K
  failed : Bool

/-- `ell_stable.py:249-250`. -/
def rankInner (j : ℕ) (beta2 : K) (k : ℕ) (st : (ℕ → ℕ → K) × (ℕ → K)) : (ℕ → ℕ → K) × (ℕ → K) :=
  let v := set1 st.2 k (st.2 k - st.1 j k)
  (set2 st.1 k j (st.1 k j + beta2 * v k), v)

/-- `ell_stable.py:243-251`, the body of the rank-one loop. `temp / newt` (246) is evaluated before `oldt / newt` (247), so a
zero `newt` raises with the array still unchanged by this iteration. -/
def rankStep [DecidableEq K] (n : ℕ) (z : ℕ → K) (j : ℕ) (st : RankState K) : RankState K :=
  if st.failed then st
  else
    let p := st.v j
    let temp := z j
    let newt := st.oldt + p * temp
    if newt = 0 then { st with failed := true }
    else
      let beta2 := temp / newt
      let mq := set2 st.mq j j (st.mq j j * (st.oldt / newt))
      let r := forRange (j + 1) n (rankInner j beta2) (mq, st.v)
      { mq := r.1, v := r.2, oldt := newt, failed := false }

/-- `ell_stable.py:241-251`, the rank-one update. -/
def rankOne [DecidableEq K] (n : ℕ) (mq : ℕ → ℕ → K) (z g : ℕ → K) (oldt : K) : RankState K :=
  forRange 0 n (rankStep n z) { mq, v := g, oldt, failed := false }

end loops

end EllStable

/-- `ell_stable.py:43-53`, instance variables of `EllStable` and the class flag `no_defer_trick`. -/
structure EllStable (n : ℕ) where
  mq : ℕ → ℕ → ℝ
  xc : Vec n
  kappa : ℝ
  tsq : ℝ
  helper : EllCalc
  noDeferTrick : Bool

namespace EllStable

variable {n : ℕ}

/-- `ell_stable.py:69-79`, `__init__`. -/
noncomputable def init (val : InitVal n) (xCenter : Vec n) : Except Fault (EllStable n) := do
  let helper ← EllCalc.init (n : ℤ)
  match val with
  | .scalar kappa =>
    .ok { mq := toArr2 (1 : Mat n), xc := xCenter, kappa, tsq := 0, helper, noDeferTrick := false }
  | .diag d =>
    .ok { mq := toArr2 (Matrix.diagonal d), xc := xCenter, kappa := 1, tsq := 0, helper, noDeferTrick := false }

/-- `ell_stable.py:88-95`, `set_xc`. -/
def setXc (s : EllStable n) (x : Vec n) : EllStable n := { s with xc := x }

/-- `ell_stable.py:253-258`: the end of `_update_core` after the rank-one loop. -/
noncomputable def finish (s : EllStable n) (delta : ℝ) : EllStable n :=
  let s1 := { s with kappa := s.kappa * delta }
  if s1.noDeferTrick then { s1 with mq := fun i j => s1.kappa * s1.mq i j, kappa := 1 } else s1

/-- `ell_stable.py:195-258`, `_update_core`: the object after the call and the outcome. The object keeps what was written before an
exception (scratch entries, `_tsq`, `_xc`, partially updated factors). -/
noncomputable def updateCore (s : EllStable n) (cut : Cut n) (strategy : Strategy) :
    EllStable n × Except Fault CutStatus :=
  let g := toArr1 cut.1
  let beta := cut.2
  let f := fwd n s.mq g
  let z := invDiag n f.1 f.2
  let omega := ∑ i : Fin n, f.2 i * z i
  let s1 : EllStable n := { s with mq := f.1, tsq := s.kappa * omega }
  match strategy beta s1.tsq with
  | .error e => (s1, .error e)
  | .ok (status, none) => (s1, .ok status)
  | .ok (status, some p) =>
    let gt := bwd n s1.mq z
    if omega = 0 then (s1, .error .zeroDivision)
    else
      let s2 : EllStable n := { s1 with xc := fun i => s1.xc i - p.rho / omega * gt i }
      if 1 - p.sigma = 0 then (s2, .error .zeroDivision)
      else
        let mu := p.sigma / (1 - p.sigma)
        if mu = 0 then (s2, .ok status)
        else
          let r := rankOne n s2.mq z g (omega / mu)
          let s3 : EllStable n := { s2 with mq := r.mq }
          if r.failed then (s3, .error .zeroDivision)
          else (s3.finish p.delta, .ok status)

/-- `ell_stable.py:104-119`, `update_bias_cut`. -/
noncomputable def updateBiasCut (s : EllStable n) (cut : Cut n) : EllStable n × Except Fault CutStatus :=
  s.updateCore cut s.helper.calcSingleOrParallel

/-- `ell_stable.py:121-136`, `update_central_cut`. -/
noncomputable def updateCentralCut (s : EllStable n) (cut : Cut n) : EllStable n × Except Fault CutStatus :=
  s.updateCore cut s.helper.calcSingleOrParallelCentralCut

/-- `ell_stable.py:138-154`, `update_q`. -/
noncomputable def updateQ (s : EllStable n) (cut : Cut n) : EllStable n × Except Fault CutStatus :=
  s.updateCore cut s.helper.calcSingleOrParallelQ

end EllStable

end Ellalgo
