import Verif.Model.RoundedPower

/-!
# `power_iteration2` of `experiment/power_iteration.py` with rounding after every operation

As in `Model/RoundedPower`. The loop stops when the Rayleigh quotient hardly changes.
-/

namespace Ellalgo.Arith

variable (A : Arith) {n : ℕ}

open Classical in
/-- `power_iteration.py:96-104`: the loop of `power_iteration2`; `new` and `ld` are the variables of these names. The array `x` is the caller's throughout (98). -/
noncomputable def powerLoop2 (m : Mat n) (o : PowerOptions) : ℕ → ℕ → Vec n → Vec n → ℝ → Except Fault (PowerResult n)
  | 0, _, x, _, ld => .ok ⟨x, ld, o.maxIters, x⟩                                         -- 104
  | left + 1, niter, _, new, ld1 =>                                                     -- 96-97
    match A.arrUnit new with                                                            -- 98-99
    | .error f => .error f
    | .ok x =>
      let new := A.mv m x                                                               -- 100
      let ld := A.dot x new                                                             -- 101
      if |A.sub ld1 ld| ≤ o.tolerance then .ok ⟨x, ld, niter, x⟩                         -- 102-103
      else powerLoop2 m o left (niter + 1) x new ld

/-- `power_iteration.py:76-104`, `power_iteration2`. -/
noncomputable def powerIteration2 (m : Mat n) (x : Vec n) (o : PowerOptions) : Except Fault (PowerResult n) :=
  match A.arrUnit x with                                                                -- 93
  | .error f => .error f
  | .ok x => A.powerLoop2 m o o.maxIters 0 x (A.mv m x) (A.dot x (A.mv m x))             -- 94-95

theorem exact_powerLoop2 (m : Mat n) (o : PowerOptions) (left niter : ℕ) (x new : Vec n) (ld : ℝ) : exact.powerLoop2 m o left niter x new ld = Ellalgo.powerLoop2 m o left niter x new ld := by
  induction left generalizing niter x new ld with
  | zero => rfl
  | succ left ih =>
    rw [powerLoop2, Ellalgo.powerLoop2, exact_arrUnit]
    rcases Ellalgo.arrUnit new with f | y
    · rfl
    · simp only [ih]
      rfl

/-- Without rounding it is the function of `Model/PowerIteration`. -/
theorem exact_powerIteration2 (m : Mat n) (x : Vec n) (o : PowerOptions) : exact.powerIteration2 m x o = Ellalgo.powerIteration2 m x o := by
  rw [powerIteration2, Ellalgo.powerIteration2, exact_arrUnit]
  rcases Ellalgo.arrUnit x with f | y
  · rfl
  · exact exact_powerLoop2 m o o.maxIters 0 y _ _

end Ellalgo.Arith
