import Verif.Model.RoundedPower

/-!
# `power_iteration3` of `experiment/power_iteration.py` with rounding after every operation

As in `Model/RoundedPower`. The vector is divided by its length only at the end and when `x @ x` reaches `1e150`, the constant taken as a real number.
-/

namespace Ellalgo.Arith

variable (A : Arith) {n : ℕ}

open Classical in
/-- `power_iteration.py:127-144`: the loop of `power_iteration3`; `new` and `ld` are the variables of these names. -/
noncomputable def powerLoop3 (m : Mat n) (o : PowerOptions) : ℕ → ℕ → Vec n → Vec n → ℝ → Except Fault (PowerResult n)
  | 0, _, x, _, ld =>
    match A.arrUnit x with                                                              -- 143
    | .error f => .error f
    | .ok x => .ok ⟨x, ld, o.maxIters, x⟩                                                -- 144
  | left + 1, niter, _, new, ld1 =>                                                     -- 127-128
    let x := new                                                                        -- 129
    let dot := A.dot x x                                                                -- 130
    if 1e150 ≤ dot then                                                                 -- 131
      match A.arrUnit x with                                                            -- 132
      | .error f => .error f
      | .ok x =>
        let new := A.mv m x                                                             -- 133
        let ld := A.dot x new                                                           -- 134
        if |A.sub ld1 ld| ≤ o.tolerance then .ok ⟨x, ld, niter, x⟩                       -- 135-136
        else powerLoop3 m o left (niter + 1) x new ld
    else
      let new := A.mv m x                                                               -- 138
      match A.pdiv (A.dot x new) dot with                                               -- 139
      | .error f => .error f
      | .ok ld =>
        if |A.sub ld1 ld| ≤ o.tolerance then                                            -- 140
          match A.arrUnit x with                                                        -- 141
          | .error f => .error f
          | .ok x => .ok ⟨x, ld, niter, x⟩                                               -- 142
        else powerLoop3 m o left (niter + 1) x new ld

/-- `power_iteration.py:107-144`, `power_iteration3`. -/
noncomputable def powerIteration3 (m : Mat n) (x : Vec n) (o : PowerOptions) : Except Fault (PowerResult n) :=
  let new := A.mv m x                                                                   -- 124
  let dot := A.dot x x                                                                  -- 125
  match A.pdiv (A.dot x new) dot with                                                   -- 126
  | .error f => .error f
  | .ok ld => A.powerLoop3 m o o.maxIters 0 x new ld

theorem exact_powerLoop3 (m : Mat n) (o : PowerOptions) (left niter : ℕ) (x new : Vec n) (ld : ℝ) : exact.powerLoop3 m o left niter x new ld = Ellalgo.powerLoop3 m o left niter x new ld := by
  induction left generalizing niter x new ld with
  | zero =>
    rw [powerLoop3, Ellalgo.powerLoop3, exact_arrUnit]
    rfl
  | succ left ih =>
    rw [powerLoop3, Ellalgo.powerLoop3]
    simp only [exact_arrUnit, ih]
    rfl

/-- Without rounding it is the function of `Model/PowerIteration`. -/
theorem exact_powerIteration3 (m : Mat n) (x : Vec n) (o : PowerOptions) : exact.powerIteration3 m x o = Ellalgo.powerIteration3 m x o := by
  unfold powerIteration3 Ellalgo.powerIteration3
  simp only [exact_powerLoop3]
  rfl

end Ellalgo.Arith
