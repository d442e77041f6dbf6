import Verif.Model.Ell
import Verif.Model.CuttingPlane
import Mathlib.Analysis.SpecialFunctions.Log.Basic

/-!
# Model of `src/ellalgo/oracles/profit_oracle.py`

Points, prices and elasticities have two entries (other lengths are not modelled). Every method returns the new object next to its outcome. Cuts are pairs `(g, beta)` with a number
`beta`, as in the source (`Cut = Tuple[Arr, float]`, line 27).
-/

namespace Ellalgo

open Matrix

/-- `math.log`. -/
noncomputable def plog (x : ℝ) : Except Fault ℝ := if x ≤ 0 then .error .mathDomain else .ok (Real.log x)

/-- The attributes that `fn2` assigns (`profit_oracle.py:110-112`). -/
structure ProfitEval where
  logCobb : ℝ
  q : Vec 2
  vy : ℝ

/-- `profit_oracle.py:30-57`, `class ProfitOracle`. `last` is `none` until `fn2` has been called. -/
structure ProfitOracle where
  idx : ℤ
  last : Option ProfitEval
  logPA : ℝ
  logK : ℝ
  priceOut : Vec 2
  elasticities : Vec 2

namespace ProfitOracle

/-- `profit_oracle.py:59-82`, `__init__`; `idx` is the class attribute of line 49. -/
noncomputable def init (unitPrice scale limit : ℝ) (elasticities priceOut : Vec 2) : Except Fault ProfitOracle := do
  let logPA ← plog (unitPrice * scale)                                       -- 77
  let logK ← plog limit                                                      -- 78
  return { idx := -1, last := none, logPA := logPA, logK := logK, priceOut := priceOut, elasticities := elasticities }

/-- `profit_oracle.py:84-94`, `fn1`. -/
def fn1 (o : ProfitOracle) (x : Vec 2) (_gamma : ℝ) : ProfitOracle × Except Fault ℝ := (o, .ok (x 0 - o.logK))

/-- `profit_oracle.py:110-112`: what `fn2` computes and stores. -/
noncomputable def eval (o : ProfitOracle) (x : Vec 2) : ProfitEval where
  logCobb := o.logPA + o.elasticities ⬝ᵥ x
  q := fun i => o.priceOut i * Real.exp (x i)
  vy := o.priceOut 0 * Real.exp (x 0) + o.priceOut 1 * Real.exp (x 1)

/-- `profit_oracle.py:96-113`, `fn2`. -/
noncomputable def fn2 (o : ProfitOracle) (x : Vec 2) (gamma : ℝ) : ProfitOracle × Except Fault ℝ :=
  ({ o with last := some (o.eval x) },
    (plog (gamma + (o.eval x).vy)).map fun l => l - (o.eval x).logCobb)      -- 113

/-- `profit_oracle.py:115-121`, `grad1`. -/
def grad1 (_o : ProfitOracle) (_gamma : ℝ) : Except Fault (Vec 2) := .ok ![1, 0]

/-- `profit_oracle.py:123-134`, `grad2`. -/
noncomputable def grad2 (o : ProfitOracle) (gamma : ℝ) : Except Fault (Vec 2) :=
  match o.last with
  | none => .error .attributeError
  | some e => if gamma + e.vy = 0 then .error .zeroDivision else .ok fun i => e.q i / (gamma + e.vy) - o.elasticities i

/-- `self.fns[self.idx](xc, gamma)` with `fns = (fn1, fn2)` (`profit_oracle.py:81, 155`). -/
noncomputable def fns (o : ProfitOracle) (x : Vec 2) (gamma : ℝ) : ProfitOracle × Except Fault ℝ :=
  if o.idx = 0 then o.fn1 x gamma else if o.idx = 1 then o.fn2 x gamma else (o, .error .indexError)

/-- `self.grads[self.idx](gamma)` with `grads = (grad1, grad2)` (`profit_oracle.py:82, 156`). -/
noncomputable def grads (o : ProfitOracle) (gamma : ℝ) : Except Fault (Vec 2) :=
  if o.idx = 0 then o.grad1 gamma else if o.idx = 1 then o.grad2 gamma else .error .indexError

/-- `profit_oracle.py:151-157`, the loop with `fuel` iterations left. -/
noncomputable def feasLoop (xc : Vec 2) (gamma : ℝ) :
    (fuel : ℕ) → ProfitOracle → ProfitOracle × Except Fault (Option (Vec 2 × ℝ))
  | 0, o => (o, .ok none)                                                    -- 157
  | fuel + 1, o =>
    let i := o.idx + 1                                                       -- 152
    let i := if i = 2 then 0 else i                                          -- 153-154
    let o := { o with idx := i }
    match o.fns xc gamma with                                                -- 155
    | (o, .error f) => (o, .error f)
    | (o, .ok fj) =>
      if fj > 0 then (o, (o.grads gamma).map fun g => some (g, fj))          -- 156
      else feasLoop xc gamma fuel o

/-- `profit_oracle.py:136-157`, `assess_feas`. -/
noncomputable def assessFeas (o : ProfitOracle) (xc : Vec 2) (gamma : ℝ) :
    ProfitOracle × Except Fault (Option (Vec 2 × ℝ)) := feasLoop xc gamma 2 o

/-- `profit_oracle.py:184-187`: the answer of `assess_optim` at a feasible point. -/
noncomputable def report (o : ProfitOracle) : ProfitOracle × Except Fault ((Vec 2 × ℝ) × Option ℝ) :=
  match o.last with
  | none => (o, .error .attributeError)
  | some e =>
    let gamma := Real.exp e.logCobb - e.vy                                   -- 185
    if gamma + e.vy = 0 then (o, .error .zeroDivision)
    else (o, .ok ((fun i => e.q i / (gamma + e.vy) - o.elasticities i, 0), some gamma))      -- 186-187

/-- `profit_oracle.py:159-187`, `assess_optim`. -/
noncomputable def assessOptim (o : ProfitOracle) (xc : Vec 2) (gamma : ℝ) :
    ProfitOracle × Except Fault ((Vec 2 × ℝ) × Option ℝ) :=
  match o.assessFeas xc gamma with                                           -- 181
  | (o, .error f) => (o, .error f)
  | (o, .ok (some cut)) => (o, .ok (cut, none))                              -- 182-183
  | (o, .ok none) => o.report

end ProfitOracle

/-- `profit_oracle.py:190-234`, `class ProfitRbOracle`. -/
structure ProfitRbOracle where
  elasticities : Vec 2
  uie : Vec 2
  omega : ProfitOracle

namespace ProfitRbOracle

/-- `profit_oracle.py:202-234`, `__init__`; `vparams = (e1, e2, e3, e4, e5)`. -/
noncomputable def init (unitPrice scale limit : ℝ) (elasticities priceOut : Vec 2) (e1 e2 e3 e4 e5 : ℝ) :
    Except Fault ProfitRbOracle := do
  let omega ← ProfitOracle.init (unitPrice - e3) scale (limit - e4) elasticities (priceOut + ![e5, e5])   -- 225-234
  return { elasticities := elasticities, uie := ![e1, e2], omega := omega }

/-- `profit_oracle.py:236-247`, `assess_optim`. -/
noncomputable def assessOptim (o : ProfitRbOracle) (xc : Vec 2) (gamma : ℝ) :
    ProfitRbOracle × Except Fault ((Vec 2 × ℝ) × Option ℝ) :=
  let aRb : Vec 2 := fun i => o.elasticities i + (if xc i > 0 then -o.uie i else o.uie i)    -- 243-245
  let r := { o.omega with elasticities := aRb }.assessOptim xc gamma                         -- 246-247
  ({ o with omega := r.1 }, r.2)

end ProfitRbOracle

/-- `np.round`: to the nearest integer, halves to the even one. -/
noncomputable def npRound (x : ℝ) : ℤ :=
  if x - ⌊x⌋ < 1 / 2 then ⌊x⌋ else if 1 / 2 < x - ⌊x⌋ then ⌊x⌋ + 1 else if ⌊x⌋ % 2 = 0 then ⌊x⌋ else ⌊x⌋ + 1

/-- `profit_oracle.py:250-268`, `class ProfitQOracle`. -/
structure ProfitQOracle where
  omega : ProfitOracle
  xd : Vec 2

namespace ProfitQOracle

/-- `profit_oracle.py:263-268`, `__init__`. -/
noncomputable def init (unitPrice scale limit : ℝ) (elasticities priceOut : Vec 2) : Except Fault ProfitQOracle := do
  let omega ← ProfitOracle.init unitPrice scale limit elasticities priceOut
  return { omega := omega, xd := ![0, 0] }

/-- `profit_oracle.py:294-296`: rounding in the original space, with 0 replaced by 1. -/
noncomputable def roundPoint (xc : Vec 2) : Vec 2 := fun i =>
  let yd : ℝ := npRound (Real.exp (xc i))
  Real.log (if yd = 0 then 1 else yd)

/-- `profit_oracle.py:298-301`: the optimality check of the discrete point. -/
noncomputable def discrete (o : ProfitQOracle) (xc : Vec 2) (gamma : ℝ) (retry : Bool) :
    ProfitQOracle × Except Fault (AnswerQ (Vec 2) (Vec 2 × ℝ) ℝ) :=
  let r := o.omega.assessOptim o.xd gamma                                    -- 299
  ({ o with omega := r.1 }, r.2.map fun a =>
    { cut := (a.1.1, a.1.2 + a.1.1 ⬝ᵥ (o.xd - xc))                           -- 300
      xq := o.xd, gamma1 := a.2, moreAlt := !retry })                        -- 301

/-- `profit_oracle.py:270-301`, `assess_optim_q`. -/
noncomputable def assessOptimQ (o : ProfitQOracle) (xc : Vec 2) (gamma : ℝ) (retry : Bool) :
    ProfitQOracle × Except Fault (AnswerQ (Vec 2) (Vec 2 × ℝ) ℝ) :=
  if retry then o.discrete xc gamma retry
  else
    match o.omega.assessFeas xc gamma with                                   -- 290
    | (om, .error f) => ({ o with omega := om }, .error f)
    | (om, .ok (some cut)) =>
      ({ o with omega := om }, .ok { cut := cut, xq := xc, gamma1 := none, moreAlt := true })   -- 291
    | (om, .ok none) => ({ o with omega := om, xd := roundPoint xc } : ProfitQOracle).discrete xc gamma retry   -- 294-301

end ProfitQOracle

end Ellalgo
