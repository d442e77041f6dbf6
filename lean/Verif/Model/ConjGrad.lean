import Verif.Model.Basic

/-!
# Model of `src/ellalgo/conjugate_gradient.py`

Simplifications: arrays are real (the in-place updates of lines 79-80 would fail on integer arrays); the shapes agree (`A` is `n × n`, `b` and `x0` have
`n` entries); `max_iter` is a natural number; `x0.copy()` (61) makes the function independent of aliasing, so values suffice.
-/

namespace Ellalgo

open Matrix

variable {n : ℕ}

/-- The local variables of the loop (`conjugate_gradient.py:56-66`): `solution`, `residual`, `direction`, `residual_norm_sq`. -/
structure CGState (n : ℕ) where
  sol : Vec n
  res : Vec n
  dir : Vec n
  rr : ℝ

/-- `conjugate_gradient.py:55-66`, initialisation. -/
def CGState.init (A : Mat n) (b : Vec n) (x0 : Option (Vec n)) : CGState n :=
  let sol := x0.getD 0                                                       -- 56-61
  let res := b - A *ᵥ sol                                                    -- 64
  { sol := sol, res := res, dir := res, rr := res ⬝ᵥ res }                   -- 65-66

/-- `conjugate_gradient.py:69-95`: one pass through the loop body; `.inl` is the `return`, `.inr` the state for the next pass. -/
noncomputable def CGState.step (A : Mat n) (tol : ℝ) (s : CGState n) : Except Fault (Vec n ⊕ CGState n) :=
  let ad := A *ᵥ s.dir                                                       -- 69
  let dad := s.dir ⬝ᵥ ad                                                     -- 70
  if dad = 0 then .error .valueError                                         -- 73-74
  else
    let step := s.rr / dad                                                   -- 76-78
    let sol := s.sol + step • s.dir                                          -- 79
    let res := s.res - step • ad                                             -- 80
    let rrNew := res ⬝ᵥ res                                                  -- 81
    if Real.sqrt rrNew < tol then .ok (.inl sol)                             -- 84-85
    else
      match pdiv rrNew s.rr with                                             -- 87-89
      | .error f => .error f
      | .ok ratio => .ok (.inr { sol := sol, res := res, dir := res + ratio • s.dir, rr := rrNew })  -- 90-95

/-- The loop with `fuel` passes left, and the final `raise`. -/
noncomputable def CGState.loop (A : Mat n) (tol : ℝ) : ℕ → CGState n → Except Fault (Vec n)
  | 0, _ => .error .valueError                                               -- 97
  | fuel + 1, s =>
    match s.step A tol with
    | .error f => .error f
    | .ok (.inl x) => .ok x
    | .ok (.inr s') => s'.loop A tol fuel

/-- `conjugate_gradient.py:15-97`. -/
noncomputable def conjugateGradient (A : Mat n) (b : Vec n) (x0 : Option (Vec n)) (tol : ℝ) (maxIter : ℕ) :
    Except Fault (Vec n) :=
  (CGState.init A b x0).loop A tol maxIter

end Ellalgo
