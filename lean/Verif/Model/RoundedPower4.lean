import Verif.Model.RoundedPower

/-!
# `power_iteration4` of `experiment/power_iteration.py` with rounding after every operation

As in `Model/RoundedPower`. The vectors of the loop are divided by their sum of absolute values, the last one by its length.
-/

namespace Ellalgo.Arith

variable (A : Arith) {n : ℕ}

/-- `x / c` for an array `x`. -/
noncomputable def arrDiv (x : Vec n) (c : ℝ) : Except Fault (Vec n) := if c = 0 then .error .zeroDivision else .ok fun i => A.div (x i) c

open Classical in
/-- `power_iteration.py:65-73`: the loop of `power_iteration4`; `arg` is the caller's array. -/
noncomputable def powerLoop4 (m : Mat n) (o : PowerOptions) (arg : Vec n) : ℕ → ℕ → Vec n → Except Fault (PowerResult n)
  | 0, niter, x =>
    match A.arrUnit x with                                                              -- 72
    | .error f => .error f
    | .ok x => .ok ⟨x, A.dot x (A.mv m x), o.maxIters, if niter = 0 then x else arg⟩      -- 73
  | left + 1, niter, x1 =>                                                              -- 65-66
    match A.arrDiv (A.mv m x1) (A.normL1 (A.mv m x1)) with                              -- 67-68
    | .error f => .error f
    | .ok x =>
      if A.normL1 (fun i => A.sub (x i) (x1 i)) ≤ o.tolerance ∨ A.normL1 (fun i => A.add (x i) (x1 i)) ≤ o.tolerance then  -- 69
        match A.arrUnit x with                                                          -- 70
        | .error f => .error f
        | .ok x => .ok ⟨x, A.dot x (A.mv m x), niter, arg⟩                               -- 71
      else powerLoop4 m o arg left (niter + 1) x

/-- `power_iteration.py:47-73`, `power_iteration4`. -/
noncomputable def powerIteration4 (m : Mat n) (x : Vec n) (o : PowerOptions) : Except Fault (PowerResult n) :=
  match A.arrDiv x (A.normL1 x) with                                                    -- 64
  | .error f => .error f
  | .ok x => A.powerLoop4 m o x o.maxIters 0 x

theorem exact_arrDiv (x : Vec n) (c : ℝ) : exact.arrDiv x c = Ellalgo.arrDiv x c := rfl

theorem exact_powerLoop4 (m : Mat n) (o : PowerOptions) (arg : Vec n) (left niter : ℕ) (x : Vec n) : exact.powerLoop4 m o arg left niter x = Ellalgo.powerLoop4 m o arg left niter x := by
  induction left generalizing niter x with
  | zero =>
    rw [powerLoop4, Ellalgo.powerLoop4, exact_arrUnit]
    rcases Ellalgo.arrUnit x with f | y <;> rfl
  | succ left ih =>
    rw [powerLoop4, Ellalgo.powerLoop4, exact_arrDiv, exact_normL1]
    change (match Ellalgo.arrDiv (m.mulVec x) (Ellalgo.normL1 (m.mulVec x)) with | .error f => _ | .ok x => _) = _
    rcases Ellalgo.arrDiv (m.mulVec x) (Ellalgo.normL1 (m.mulVec x)) with f | y
    · rfl
    · simp only [exact_normL1, exact_arrUnit, ih]
      rfl

/-- Without rounding it is the function of `Model/PowerIteration`. -/
theorem exact_powerIteration4 (m : Mat n) (x : Vec n) (o : PowerOptions) : exact.powerIteration4 m x o = Ellalgo.powerIteration4 m x o := by
  rw [powerIteration4, Ellalgo.powerIteration4, exact_arrDiv, exact_normL1]
  rcases Ellalgo.arrDiv x (Ellalgo.normL1 x) with f | y
  · rfl
  · exact exact_powerLoop4 m o y o.maxIters 0 y

end Ellalgo.Arith
