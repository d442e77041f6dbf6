import Verif.Model.Rounded
import Verif.Model.Profit

/-!
# `profit_oracle.py` in rounded arithmetic

The code of `Model/Profit` with a rounding after every operation; `math.log`, `np.exp`, `np.log` and `np.round` are the rounded functions. With `Arith.exact` these definitions are the ones of `Model/Profit`.
-/

namespace Ellalgo

namespace Arith

variable (A : Arith)

/-- `math.log`. -/
noncomputable def plog (x : ℝ) : Except Fault ℝ := if x ≤ 0 then .error .mathDomain else .ok (A.rnd (Real.log x))

/-- `np.exp`. -/
noncomputable def exp (x : ℝ) : ℝ := A.rnd (Real.exp x)

/-- `profit_oracle.py:59-82`, `ProfitOracle.__init__`. -/
noncomputable def profitInit (unitPrice scale limit : ℝ) (elasticities priceOut : Vec 2) : Except Fault ProfitOracle := do
  let logPA ← A.plog (A.mul unitPrice scale)                                 -- 77
  let logK ← A.plog limit                                                    -- 78
  return { idx := -1, last := none, logPA := logPA, logK := logK, priceOut := priceOut, elasticities := elasticities }

/-- `profit_oracle.py:110-112`: what `fn2` computes and stores. -/
noncomputable def profitEval (o : ProfitOracle) (x : Vec 2) : ProfitEval where
  logCobb := A.add o.logPA (A.dot o.elasticities x)
  q := fun i => A.mul (o.priceOut i) (A.exp (x i))
  vy := A.add (A.mul (o.priceOut 0) (A.exp (x 0))) (A.mul (o.priceOut 1) (A.exp (x 1)))

/-- `profit_oracle.py:84-94`, `fn1`. -/
def profitFn1 (o : ProfitOracle) (x : Vec 2) : ℝ := A.sub (x 0) o.logK

/-- `profit_oracle.py:96-113`, `fn2`. -/
noncomputable def profitFn2 (o : ProfitOracle) (x : Vec 2) (gamma : ℝ) : ProfitOracle × Except Fault ℝ :=
  ({ o with last := some (A.profitEval o x) },
    (A.plog (A.add gamma (A.profitEval o x).vy)).map fun l => A.sub l (A.profitEval o x).logCobb)      -- 113

/-- `profit_oracle.py:134` and `186`: `self.q / (gamma + self.vy) - self.elasticities`. -/
noncomputable def profitSlope (o : ProfitOracle) (e : ProfitEval) (gamma : ℝ) : Except Fault (Vec 2) :=
  if A.add gamma e.vy = 0 then .error .zeroDivision else .ok fun i => A.sub (A.div (e.q i) (A.add gamma e.vy)) (o.elasticities i)

/-- `profit_oracle.py:123-134`, `grad2`. -/
noncomputable def profitGrad2 (o : ProfitOracle) (gamma : ℝ) : Except Fault (Vec 2) :=
  match o.last with
  | none => .error .attributeError
  | some e => A.profitSlope o e gamma

/-- `self.fns[self.idx](xc, gamma)` with `fns = (fn1, fn2)` (`profit_oracle.py:81, 155`). -/
noncomputable def profitFns (o : ProfitOracle) (x : Vec 2) (gamma : ℝ) : ProfitOracle × Except Fault ℝ :=
  if o.idx = 0 then (o, .ok (A.profitFn1 o x)) else if o.idx = 1 then A.profitFn2 o x gamma else (o, .error .indexError)

/-- `self.grads[self.idx](gamma)` with `grads = (grad1, grad2)` (`profit_oracle.py:82, 156`). -/
noncomputable def profitGrads (o : ProfitOracle) (gamma : ℝ) : Except Fault (Vec 2) :=
  if o.idx = 0 then .ok ![1, 0] else if o.idx = 1 then A.profitGrad2 o gamma else .error .indexError

/-- `profit_oracle.py:152-154`: the next index. -/
def _root_.Ellalgo.ProfitOracle.turn (o : ProfitOracle) : ProfitOracle := { o with idx := if o.idx + 1 = 2 then 0 else o.idx + 1 }

/-- `profit_oracle.py:151-157`, the loop with `fuel` iterations left. -/
noncomputable def profitLoop (xc : Vec 2) (gamma : ℝ) : (fuel : ℕ) → ProfitOracle → ProfitOracle × Except Fault (Option (Vec 2 × ℝ))
  | 0, o => (o, .ok none)                                                    -- 157
  | fuel + 1, o =>
    match A.profitFns o.turn xc gamma with                                   -- 155
    | (o, .error f) => (o, .error f)
    | (o, .ok fj) =>
      if fj > 0 then (o, (A.profitGrads o gamma).map fun g => some (g, fj))  -- 156
      else profitLoop xc gamma fuel o

/-- `profit_oracle.py:136-157`, `assess_feas`. -/
noncomputable def profitFeas (o : ProfitOracle) (xc : Vec 2) (gamma : ℝ) : ProfitOracle × Except Fault (Option (Vec 2 × ℝ)) := A.profitLoop xc gamma 2 o

/-- `profit_oracle.py:184-187`: the answer of `assess_optim` at a feasible point. -/
noncomputable def profitReport (o : ProfitOracle) : ProfitOracle × Except Fault ((Vec 2 × ℝ) × Option ℝ) :=
  match o.last with
  | none => (o, .error .attributeError)
  | some e =>
    (o, (A.profitSlope o e (A.sub (A.exp e.logCobb) e.vy)).map fun g => ((g, 0), some (A.sub (A.exp e.logCobb) e.vy)))

/-- `profit_oracle.py:159-187`, `assess_optim`. -/
noncomputable def profitOptim (o : ProfitOracle) (xc : Vec 2) (gamma : ℝ) : ProfitOracle × Except Fault ((Vec 2 × ℝ) × Option ℝ) :=
  match A.profitFeas o xc gamma with                                         -- 181
  | (o, .error f) => (o, .error f)
  | (o, .ok (some cut)) => (o, .ok (cut, none))                              -- 182-183
  | (o, .ok none) => A.profitReport o

/-- `profit_oracle.py:202-234`, `ProfitRbOracle.__init__`; `vparams = (e1, e2, e3, e4, e5)`. -/
noncomputable def profitRbInit (unitPrice scale limit : ℝ) (elasticities priceOut : Vec 2) (e1 e2 e3 e4 e5 : ℝ) : Except Fault ProfitRbOracle := do
  let omega ← A.profitInit (A.sub unitPrice e3) scale (A.sub limit e4) elasticities (fun i => A.add (priceOut i) e5)   -- 225-234
  return { elasticities := elasticities, uie := ![e1, e2], omega := omega }

/-- `profit_oracle.py:243-245`: the worst elasticities at a point. -/
noncomputable def profitWorst (o : ProfitRbOracle) (xc : Vec 2) : Vec 2 := fun i => A.add (o.elasticities i) (if xc i > 0 then -o.uie i else o.uie i)

/-- `profit_oracle.py:236-247`, `assess_optim`. -/
noncomputable def profitRbOptim (o : ProfitRbOracle) (xc : Vec 2) (gamma : ℝ) : ProfitRbOracle × Except Fault ((Vec 2 × ℝ) × Option ℝ) :=
  let r := A.profitOptim { o.omega with elasticities := A.profitWorst o xc } xc gamma        -- 246-247
  ({ o with omega := r.1 }, r.2)

/-- `profit_oracle.py:263-268`, `ProfitQOracle.__init__`. -/
noncomputable def profitQInit (unitPrice scale limit : ℝ) (elasticities priceOut : Vec 2) : Except Fault ProfitQOracle := do
  let omega ← A.profitInit unitPrice scale limit elasticities priceOut
  return { omega := omega, xd := ![0, 0] }

/-- `profit_oracle.py:294-295`: rounding in the original space, with 0 replaced by 1. -/
noncomputable def profitRound (x : ℝ) : ℝ := if A.rnd (npRound (A.exp x)) = 0 then 1 else A.rnd (npRound (A.exp x))

/-- `profit_oracle.py:298-301`: the optimality check of the discrete point. -/
noncomputable def profitDiscrete (o : ProfitQOracle) (xc : Vec 2) (gamma : ℝ) (retry : Bool) : ProfitQOracle × Except Fault (AnswerQ (Vec 2) (Vec 2 × ℝ) ℝ) :=
  let r := A.profitOptim o.omega o.xd gamma                                  -- 299
  ({ o with omega := r.1 }, r.2.map fun a =>
    { cut := (a.1.1, A.add a.1.2 (A.dot a.1.1 fun i => A.sub (o.xd i) (xc i)))   -- 300
      xq := o.xd, gamma1 := a.2, moreAlt := !retry })                        -- 301

/-- `profit_oracle.py:270-301`, `assess_optim_q`. -/
noncomputable def profitQOptim (o : ProfitQOracle) (xc : Vec 2) (gamma : ℝ) (retry : Bool) : ProfitQOracle × Except Fault (AnswerQ (Vec 2) (Vec 2 × ℝ) ℝ) :=
  if retry then A.profitDiscrete o xc gamma retry
  else
    match A.profitFeas o.omega xc gamma with                                 -- 290
    | (om, .error f) => ({ o with omega := om }, .error f)
    | (om, .ok (some cut)) => ({ o with omega := om }, .ok { cut := cut, xq := xc, gamma1 := none, moreAlt := true })   -- 291
    | (om, .ok none) => A.profitDiscrete { omega := om, xd := fun i => A.rnd (Real.log (A.profitRound (xc i))) } xc gamma retry   -- 294-301

/-! ### In exact arithmetic -/

theorem exact_profitLoop (xc : Vec 2) (gamma : ℝ) (k : ℕ) (o : ProfitOracle) : exact.profitLoop xc gamma k o = ProfitOracle.feasLoop xc gamma k o := by
  induction k generalizing o with
  | zero => rfl
  | succ k ih =>
    have hf : ∀ o : ProfitOracle, exact.profitFns o xc gamma = o.fns xc gamma := fun _ => rfl
    have hg : ∀ o : ProfitOracle, exact.profitGrads o gamma = o.grads gamma := fun _ => rfl
    simp only [profitLoop, ProfitOracle.feasLoop, hf, hg, ih]
    rfl

theorem exact_profitFeas (o : ProfitOracle) (xc : Vec 2) (gamma : ℝ) : exact.profitFeas o xc gamma = o.assessFeas xc gamma := exact_profitLoop xc gamma 2 o

theorem exact_profitReport (o : ProfitOracle) : exact.profitReport o = o.report := by
  simp only [profitReport, ProfitOracle.report, profitSlope]
  cases o.last with
  | none => rfl
  | some e =>
    show (o, Except.map _ (if Real.exp e.logCobb - e.vy + e.vy = 0 then _ else _)) = if Real.exp e.logCobb - e.vy + e.vy = 0 then _ else _
    split <;> rfl

theorem exact_profitOptim (o : ProfitOracle) (xc : Vec 2) (gamma : ℝ) : exact.profitOptim o xc gamma = o.assessOptim xc gamma := by
  simp only [profitOptim, ProfitOracle.assessOptim, exact_profitFeas, exact_profitReport]
  rfl

theorem exact_profitRbOptim (o : ProfitRbOracle) (xc : Vec 2) (gamma : ℝ) : exact.profitRbOptim o xc gamma = o.assessOptim xc gamma := by
  simp only [profitRbOptim, ProfitRbOracle.assessOptim, exact_profitOptim]
  rfl

theorem exact_profitDiscrete (o : ProfitQOracle) (xc : Vec 2) (gamma : ℝ) (retry : Bool) : exact.profitDiscrete o xc gamma retry = o.discrete xc gamma retry := by
  simp only [profitDiscrete, ProfitQOracle.discrete, exact_profitOptim]
  rfl

theorem exact_profitQOptim (o : ProfitQOracle) (xc : Vec 2) (gamma : ℝ) (retry : Bool) : exact.profitQOptim o xc gamma retry = o.assessOptimQ xc gamma retry := by
  simp only [profitQOptim, ProfitQOracle.assessOptimQ, exact_profitDiscrete, exact_profitFeas]
  rfl

theorem exact_profitInit (p s k : ℝ) (a v : Vec 2) : exact.profitInit p s k a v = ProfitOracle.init p s k a v := rfl

theorem exact_profitRbInit (p s k : ℝ) (a v : Vec 2) (e1 e2 e3 e4 e5 : ℝ) : exact.profitRbInit p s k a v e1 e2 e3 e4 e5 = ProfitRbOracle.init p s k a v e1 e2 e3 e4 e5 := by
  have : (fun i => exact.add (v i) e5) = v + ![e5, e5] := by
    funext i; fin_cases i <;> rfl
  simp only [profitRbInit, ProfitRbOracle.init, this, exact_profitInit]
  rfl

theorem exact_profitQInit (p s k : ℝ) (a v : Vec 2) : exact.profitQInit p s k a v = ProfitQOracle.init p s k a v := rfl

end Arith

end Ellalgo
