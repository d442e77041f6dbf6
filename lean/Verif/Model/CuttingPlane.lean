import Verif.Model.Basic

/-!
# Model of `src/ellalgo/cutting_plane.py`

The loops are modelled over arbitrary types: `O` oracle states, `S` search-space states, `X` points, `C` cuts,
`G` objective values, `T` the type of `tsq()` and of the tolerance. The comparison `space.tsq() < options.tolerance` is a parameter
`lt : T → T → Bool`, so nothing is assumed about the number type (IEEE floats with NaN included).
Every call returns the state of the callee next to its outcome (a value or an exception).
-/

namespace Ellalgo

/-- `ell_typing.py:128-162`, the abstract class `SearchSpace`: the methods used by the loops. -/
structure SearchSpace (S X C T : Type*) where
  xc : S → X
  tsq : S → T
  setXc : S → X → S
  updateBiasCut : S → C → S × Except Fault CutStatus
  updateCentralCut : S → C → S × Except Fault CutStatus
  updateQ : S → C → S × Except Fault CutStatus

/-- `ell_typing.py:33-53`, `OracleFeas.assess_feas`: `none` means "feasible". -/
abbrev OracleFeas (O X C : Type*) := O → X → O × Except Fault (Option C)

/-- `ell_typing.py:56-77`, `OracleOptim.assess_optim`. -/
abbrev OracleOptim (O X C G : Type*) := O → X → G → O × Except Fault (C × Option G)

/-- The 4-tuple `(cut, x_q, gamma1, more_alt)` returned by `assess_optim_q` (`ell_typing.py:98-104`). -/
structure AnswerQ (X C G : Type*) where
  cut : C
  xq : X
  gamma1 : Option G
  moreAlt : Bool

/-- `ell_typing.py:80-105`, `OracleOptimQ.assess_optim_q`; the Boolean argument is `retry`. -/
abbrev OracleOptimQ (O X C G : Type*) := O → X → G → Bool → O × Except Fault (AnswerQ X C G)

/-- `ell_typing.py:108-125`, `OracleBS.assess_bs`. -/
abbrev OracleBS (O G : Type*) := O → G → O × Except Fault Bool

namespace CuttingPlane

variable {O S X C G T D : Type*}

/-- Body of `cutting_plane_feas` (`cutting_plane.py:116-125`) with `fuel` iterations left; `niter` is the loop
variable. The first components are the final states of the oracle and of the space. -/
def feasLoop (omega : OracleFeas O X C) (sp : SearchSpace S X C T) (lt : T → T → Bool) (tol : T) :
    (fuel niter : ℕ) → O → S → O × S × Except Fault (Option X × ℕ)
  | 0, niter, o, s => (o, s, .ok (none, niter))                           -- line 125
  | fuel + 1, niter, o, s =>
    match omega o (sp.xc s) with                                           -- line 118
    | (o1, .error f) => (o1, s, .error f)
    | (o1, .ok none) => (o1, s, .ok (some (sp.xc s), niter))               -- lines 119-120
    | (o1, .ok (some cut)) =>
      match sp.updateBiasCut s cut with                                    -- line 122
      | (s1, .error f) => (o1, s1, .error f)
      | (s1, .ok status) =>
        if status ≠ .success ∨ lt (sp.tsq s1) tol then (o1, s1, .ok (none, niter))   -- lines 123-124
        else feasLoop omega sp lt tol fuel (niter + 1) o1 s1

/-- `cutting_plane.py:37-125`, `cutting_plane_feas`. -/
def feas (omega : OracleFeas O X C) (sp : SearchSpace S X C T) (lt : T → T → Bool) (o : O) (s : S)
    (options : Options T) : O × S × Except Fault (Option X × ℕ) :=
  feasLoop omega sp lt options.tolerance options.maxIters 0 o s

/-- Body of `cutting_plane_optim` (`cutting_plane.py:186-197`); carries `gamma` and `x_best`. -/
def optimLoop (omega : OracleOptim O X C G) (sp : SearchSpace S X C T) (lt : T → T → Bool) (tol : T) :
    (fuel niter : ℕ) → O → S → G → Option X → O × S × Except Fault (Option X × G × ℕ)
  | 0, niter, o, s, gamma, xBest => (o, s, .ok (xBest, gamma, niter))      -- line 197
  | fuel + 1, niter, o, s, gamma, xBest =>
    match omega o (sp.xc s) gamma with                                     -- line 188
    | (o1, .error f) => (o1, s, .error f)
    | (o1, .ok (cut, some gamma1)) =>                                      -- lines 189-192
      match sp.updateCentralCut s cut with
      | (s1, .error f) => (o1, s1, .error f)
      | (s1, .ok status) =>
        if status ≠ .success ∨ lt (sp.tsq s1) tol then (o1, s1, .ok (some (sp.xc s), gamma1, niter))
        else optimLoop omega sp lt tol fuel (niter + 1) o1 s1 gamma1 (some (sp.xc s))
    | (o1, .ok (cut, none)) =>                                             -- lines 193-194
      match sp.updateBiasCut s cut with
      | (s1, .error f) => (o1, s1, .error f)
      | (s1, .ok status) =>
        if status ≠ .success ∨ lt (sp.tsq s1) tol then (o1, s1, .ok (xBest, gamma, niter))
        else optimLoop omega sp lt tol fuel (niter + 1) o1 s1 gamma xBest

/-- `cutting_plane.py:128-197`, `cutting_plane_optim`. The `copy.copy` of line 191 is a value here; aliasing is the
subject of `Model/Heap.lean`. -/
def optim (omega : OracleOptim O X C G) (sp : SearchSpace S X C T) (lt : T → T → Bool) (o : O) (s : S)
    (gamma : G) (options : Options T) : O × S × Except Fault (Option X × G × ℕ) :=
  optimLoop omega sp lt options.tolerance options.maxIters 0 o s gamma none

/-- Body of `cutting_plane_optim_q` (`cutting_plane.py:274-292`); carries `gamma`, `x_best`, `retry`. -/
def optimQLoop (omega : OracleOptimQ O X C G) (sp : SearchSpace S X C T) (lt : T → T → Bool) (tol : T) :
    (fuel niter : ℕ) → O → S → G → Option X → Bool → O × S × Except Fault (Option X × G × ℕ)
  | 0, niter, o, s, gamma, xBest, _ => (o, s, .ok (xBest, gamma, niter))   -- line 292
  | fuel + 1, niter, o, s, gamma, xBest, retry =>
    match omega o (sp.xc s) gamma retry with                               -- line 276
    | (o1, .error f) => (o1, s, .error f)
    | (o1, .ok a) =>
      let gammaN := a.gamma1.getD gamma                                    -- lines 277-279
      let xBestN := if a.gamma1.isSome then some a.xq else xBest
      match sp.updateQ s a.cut with                                        -- line 281
      | (s1, .error f) => (o1, s1, .error f)
      | (s1, .ok status) =>
        let next (retry' : Bool) :=                                        -- lines 290-291
          if lt (sp.tsq s1) tol then (o1, s1, Except.ok (xBestN, gammaN, niter))
          else optimQLoop omega sp lt tol fuel (niter + 1) o1 s1 gammaN xBestN retry'
        match status with
        | .success => next false                                           -- lines 282-283
        | .noSoln => (o1, s1, .ok (xBestN, gammaN, niter))                 -- lines 284-285
        | .noEffect =>                                                     -- lines 286-289
          if a.moreAlt = false then (o1, s1, .ok (xBestN, gammaN, niter)) else next true
        | .unknown => next retry

/-- `cutting_plane.py:244-292`, `cutting_plane_optim_q`. -/
def optimQ (omega : OracleOptimQ O X C G) (sp : SearchSpace S X C T) (lt : T → T → Bool) (o : O) (s : S)
    (gamma : G) (options : Options T) : O × S × Except Fault (Option X × G × ℕ) :=
  optimQLoop omega sp lt options.tolerance options.maxIters 0 o s gamma none false

/-- The arithmetic used by `bsearch`: `tau lower upper` is `(upper - lower) / 2` (line 327), `small tau` the test
`tau < options.tolerance` (line 328), `mid lower tau` is `T(lower + tau)` with `T = type(upper)` (lines 325, 330). -/
structure BSNum (G D : Type*) where
  tau : G → G → D
  small : D → Bool
  mid : G → D → G

/-- Body of `bsearch` (`cutting_plane.py:326-335`). Returns the oracle's final state, the final `lower` (a local
variable of the Python function, exposed for the specification) and the returned pair. -/
def bsearchLoop (omega : OracleBS O G) (num : BSNum G D) :
    (fuel niter : ℕ) → O → (lower upper : G) → O × G × Except Fault (G × ℕ)
  | 0, niter, o, lower, upper => (o, lower, .ok (upper, niter))            -- line 335
  | fuel + 1, niter, o, lower, upper =>
    let tau := num.tau lower upper                                         -- line 327
    if num.small tau then (o, lower, .ok (upper, niter))                   -- lines 328-329
    else
      let gamma := num.mid lower tau                                       -- line 330
      match omega o gamma with                                             -- line 331
      | (o1, .error f) => (o1, lower, .error f)
      | (o1, .ok true) => bsearchLoop omega num fuel (niter + 1) o1 lower gamma    -- line 332
      | (o1, .ok false) => bsearchLoop omega num fuel (niter + 1) o1 gamma upper   -- line 334

/-- `cutting_plane.py:295-335`, `bsearch`. -/
def bsearch (omega : OracleBS O G) (num : BSNum G D) (o : O) (intrvl : G × G) (maxIters : ℕ) :
    O × G × Except Fault (G × ℕ) :=
  bsearchLoop omega num maxIters 0 o intrvl.1 intrvl.2

/-- The arithmetic of `bsearch` on a field with exact arithmetic (`T = float`). -/
def BSNum.exact (K : Type*) [Field K] [LinearOrder K] (tol : K) : BSNum K K where
  tau lower upper := (upper - lower) / 2
  small tau := decide (tau < tol)
  mid lower tau := lower + tau

/-- The arithmetic of `bsearch` on Python integers (`T = int`): `/` is true division and `int(...)` truncates towards zero.
Simplification: the quotient and the sum are exact rationals (CPython rounds them to a float; exact below 2^53). -/
def BSNum.int (tol : ℚ) : BSNum ℤ ℚ where
  tau lower upper := ((upper : ℚ) - lower) / 2
  small tau := decide (tau < tol)
  mid lower tau :=
    let v : ℚ := lower + tau
    if 0 ≤ v then ⌊v⌋ else ⌈v⌉

/-- `cutting_plane.py:365-380`, `BSearchAdaptor.assess_bs`. The adaptor's state is the pair (oracle, main space); `deepcopy` is the
identity on values; `update` is the oracle's `update(gamma)` (`ell_typing.py:51-53`). The options are those given to the constructor
(lines 348-358). -/
def assessBS (omega : OracleFeas O X C) (update : O → G → O) (sp : SearchSpace S X C T)
    (lt : T → T → Bool) (options : Options T) : OracleBS (O × S) G := fun (o, space) gamma =>
  match feas omega sp lt (update o gamma) space options with               -- lines 374-376
  | (o1, _, .error f) => ((o1, space), .error f)
  | (o1, _, .ok (some x, _)) => ((o1, sp.setXc space x), .ok true)         -- lines 377-379
  | (o1, _, .ok (none, _)) => ((o1, space), .ok false)                     -- line 380

end CuttingPlane

end Ellalgo
