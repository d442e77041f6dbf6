import Mathlib.Analysis.Real.Sqrt
import Mathlib.Data.Matrix.Mul

/-!
# Basic vocabulary of the model

Exceptions are values, floats are exact reals.
-/

namespace Ellalgo

/-- Exceptional outcomes of the Python code.
* `assertion`    : `assert` failed / `raise AssertionError` (e.g. ell_calc.py:63,96,128,200,230; ldlt_mgr.py:210,274)
* `valueError`   : `raise ValueError` (ell.py:235-236 zero gradient; conjugate_gradient.py:97)
* `mathDomain`   : `math.sqrt` of a negative number, `math.log` of a nonpositive number (ValueError: math domain error)
* `zeroDivision` : division by zero. CPython floats raise `ZeroDivisionError`; NumPy scalars yield inf/nan with a warning. Both
                   leave the real numbers; the model maps both to this fault.
* `indexError`, `typeError` : subscripting an empty sequence, arithmetic on `None`
* `runtimeError` : `raise RuntimeError` (spectral_fact.py:86)
* `attributeError` : reading an attribute that has not been assigned (profit_oracle.py:50-52 only declares types)
* `oracle`       : an exception raised by user code (oracle), propagated unchanged. -/
inductive Fault
  | assertion | valueError | mathDomain | zeroDivision | indexError | typeError | runtimeError
  | attributeError | oracle
  deriving DecidableEq, Repr

/-- `ell_config.py:14-30`, `class CutStatus(Enum)`. -/
inductive CutStatus
  | success | noSoln | noEffect | unknown
  deriving DecidableEq, Repr

/-- `ell_config.py:33-44`, `class Options` (`verbose` is never read by the modelled code; `max_iters` is a natural number:
`range(max_iters)` with a negative bound behaves as `range(0)`). `T` is the type of `tsq`. -/
structure Options (T : Type*) where
  maxIters : ℕ
  tolerance : T

/-- `ell_typing.py:26-28`: `CutChoice = Union[float, ParallelCut]`, a scalar offset or a tuple/list of offsets, the entries of which may be `None`. -/
inductive CutChoice
  | scalar (b : ℝ)
  | seq (bs : List (Option ℝ))

/-- A pair of offsets `(b0, b1)` / `[b0, b1]`. -/
abbrev CutChoice.pair (b0 b1 : ℝ) : CutChoice := .seq [some b0, some b1]

/-- Float division; division by zero leaves the model's number domain. -/
noncomputable def pdiv (a b : ℝ) : Except Fault ℝ :=
  if b = 0 then .error .zeroDivision else .ok (a / b)

/-- `math.sqrt`. -/
noncomputable def psqrt (x : ℝ) : Except Fault ℝ :=
  if x < 0 then .error .mathDomain else .ok (Real.sqrt x)

/-- Column vectors. -/
abbrev Vec (n : ℕ) := Fin n → ℝ

/-- Square matrices. -/
abbrev Mat (n : ℕ) := Matrix (Fin n) (Fin n) ℝ

/-- The three update parameters `(rho, sigma, delta)`. -/
structure Params where
  rho : ℝ
  sigma : ℝ
  delta : ℝ

end Ellalgo
