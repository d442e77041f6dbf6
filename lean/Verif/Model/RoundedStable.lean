import Verif.Model.Rounded
import Verif.Model.EllStable

/-!
# `ell_stable.py` in rounded arithmetic

The same code as `Model/EllStable`, with a rounding after every operation on numbers, in the order in which the source performs them. `sum(gg_t)` is Python's `sum`, which adds the entries from left to right. With
`Arith.exact` these definitions are the ones of the exact model (`C95_exact`).
-/

namespace Ellalgo

namespace Arith

variable (A : Arith)

/-- `ell_stable.py:202-204`, body of the forward substitution. -/
def fwdStep (j i : ℕ) (st : (ℕ → ℕ → ℝ) × (ℕ → ℝ)) : (ℕ → ℕ → ℝ) × (ℕ → ℝ) :=
  let mq := set2 st.1 j i (A.mul (st.1 i j) (st.2 j))
  (mq, set1 st.2 i (A.sub (st.2 i) (mq j i)))

/-- `ell_stable.py:198-204`, forward substitution. -/
def fwd (n : ℕ) (mq : ℕ → ℕ → ℝ) (g : ℕ → ℝ) : (ℕ → ℕ → ℝ) × (ℕ → ℝ) :=
  forRange 0 (n - 1) (fun j st => forRange (j + 1) n (fun i st => A.fwdStep j i st) st) (mq, g)

/-- `ell_stable.py:207-209`, multiplication by the inverse diagonal. -/
def invDiag (n : ℕ) (mq : ℕ → ℕ → ℝ) (w : ℕ → ℝ) : ℕ → ℝ :=
  forRange 0 n (fun i z => set1 z i (A.mul (z i) (mq i i))) w

/-- `ell_stable.py:213-214`, `gg_t = inv_lower_g * inv_diag_inv_lower_g; omega = sum(gg_t)`. -/
def omegaSum (n : ℕ) (w z : ℕ → ℝ) : ℝ :=
  forRange 0 n (fun i s => A.add s (A.mul (w i) (z i))) 0

/-- `ell_stable.py:226-229`, backward substitution. -/
def bwd (n : ℕ) (mq : ℕ → ℕ → ℝ) (z : ℕ → ℝ) : ℕ → ℝ :=
  forDown 0 (fun i gt => forRange i n (fun j gt => set1 gt (i - 1) (A.sub (gt (i - 1)) (A.mul (mq j (i - 1)) (gt j)))) gt) (n - 1) z

/-- `ell_stable.py:249-250`. -/
def rankInner (j : ℕ) (beta2 : ℝ) (k : ℕ) (st : (ℕ → ℕ → ℝ) × (ℕ → ℝ)) : (ℕ → ℕ → ℝ) × (ℕ → ℝ) :=
  let v := set1 st.2 k (A.sub (st.2 k) (st.1 j k))
  (set2 st.1 k j (A.add (st.1 k j) (A.mul beta2 (v k))), v)

/-- `ell_stable.py:243-251`, body of the rank-one loop. -/
noncomputable def rankStep (n : ℕ) (z : ℕ → ℝ) (j : ℕ) (st : EllStable.RankState ℝ) : EllStable.RankState ℝ :=
  if st.failed then st
  else
    let p := st.v j
    let temp := z j
    let newt := A.add st.oldt (A.mul p temp)
    if newt = 0 then { st with failed := true }
    else
      let beta2 := A.div temp newt
      let mq := set2 st.mq j j (A.mul (st.mq j j) (A.div st.oldt newt))
      let r := forRange (j + 1) n (A.rankInner j beta2) (mq, st.v)
      { mq := r.1, v := r.2, oldt := newt, failed := false }

/-- `ell_stable.py:241-251`, the rank-one update. -/
noncomputable def rankOne (n : ℕ) (mq : ℕ → ℕ → ℝ) (z g : ℕ → ℝ) (oldt : ℝ) : EllStable.RankState ℝ :=
  forRange 0 n (A.rankStep n z) { mq, v := g, oldt, failed := false }

variable {n : ℕ}

/-- `ell_stable.py:69-79`, `__init__`. -/
noncomputable def stableInit (val : InitVal n) (xCenter : Vec n) : Except Fault (EllStable n) := do
  let helper ← A.calcInit (n : ℤ)
  match val with
  | .scalar kappa =>
    .ok { mq := toArr2 (1 : Mat n), xc := xCenter, kappa, tsq := 0, helper, noDeferTrick := false }
  | .diag d =>
    .ok { mq := toArr2 (Matrix.diagonal d), xc := xCenter, kappa := 1, tsq := 0, helper, noDeferTrick := false }

/-- `ell_stable.py:253-258`: the end of `_update_core` after the rank-one loop. -/
noncomputable def stableFinish (s : EllStable n) (delta : ℝ) : EllStable n :=
  let s1 := { s with kappa := A.mul s.kappa delta }
  if s1.noDeferTrick then { s1 with mq := fun i j => A.mul (s1.mq i j) s1.kappa, kappa := 1 } else s1

/-- `ell_stable.py:195-258`, `_update_core`. -/
noncomputable def stableCore (s : EllStable n) (cut : Cut n) (strategy : Strategy) : EllStable n × Except Fault CutStatus :=
  let g := toArr1 cut.1
  let beta := cut.2
  let f := A.fwd n s.mq g
  let z := A.invDiag n f.1 f.2
  let omega := A.omegaSum n f.2 z
  let s1 : EllStable n := { s with mq := f.1, tsq := A.mul s.kappa omega }
  match strategy beta s1.tsq with
  | .error e => (s1, .error e)
  | .ok (status, none) => (s1, .ok status)
  | .ok (status, some p) =>
    let gt := A.bwd n s1.mq z
    if omega = 0 then (s1, .error .zeroDivision)
    else
      let s2 : EllStable n := { s1 with xc := fun i => A.sub (s1.xc i) (A.mul (A.div p.rho omega) (gt i)) }
      if A.sub 1 p.sigma = 0 then (s2, .error .zeroDivision)
      else
        let mu := A.div p.sigma (A.sub 1 p.sigma)
        if mu = 0 then (s2, .ok status)
        else
          let r := A.rankOne n s2.mq z g (A.div omega mu)
          let s3 : EllStable n := { s2 with mq := r.mq }
          if r.failed then (s3, .error .zeroDivision)
          else (A.stableFinish s3 p.delta, .ok status)

/-- `ell_stable.py:104-119`, `update_bias_cut`. -/
noncomputable def stableBiasCut (s : EllStable n) (cut : Cut n) : EllStable n × Except Fault CutStatus :=
  A.stableCore s cut (A.calcSingleOrParallel s.helper)

/-- `ell_stable.py:121-136`, `update_central_cut`. -/
noncomputable def stableCentralCut (s : EllStable n) (cut : Cut n) : EllStable n × Except Fault CutStatus :=
  A.stableCore s cut (A.calcSingleOrParallelCentralCut s.helper)

/-- `ell_stable.py:138-154`, `update_q`. -/
noncomputable def stableQ (s : EllStable n) (cut : Cut n) : EllStable n × Except Fault CutStatus :=
  A.stableCore s cut (A.calcSingleOrParallelQ s.helper)

end Arith

end Ellalgo
