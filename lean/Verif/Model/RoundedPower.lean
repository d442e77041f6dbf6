import Verif.Model.Rounded
import Verif.Model.PowerIteration

/-!
# `power_iteration` of `experiment/power_iteration.py` with rounding after every operation

As in `Model/Rounded`, sums of products are the parameters `A.dot` and `A.mv`: `np.sum(x**2)` is the sum of products of `x` with itself and `np.sum(np.abs(x))` that of the absolute values with ones, in an order of summation that is not
specified. The simplifications are those of `Model/PowerIteration`. The three variants are in `Model/RoundedPower2`, `Model/RoundedPower3` and `Model/RoundedPower4`.
-/

namespace Ellalgo.Arith

variable (A : Arith) {n : ℕ}

/-- `power_iteration.py:16-17`, `norm_l1`. -/
def normL1 (x : Vec n) : ℝ := A.dot (fun i => |x i|) fun _ => 1

/-- `x /= np.sqrt(np.sum(x**2))` (`power_iteration.py:37, 41`). -/
noncomputable def arrUnit (x : Vec n) : Except Fault (Vec n) :=
  let c := A.rnd (Real.sqrt (A.dot x x))
  if c = 0 then .error .zeroDivision else .ok fun i => A.div (x i) c

open Classical in
/-- `power_iteration.py:38-44`: the loop with `left` passes left, at pass number `niter`; `arg` is the caller's array. -/
noncomputable def powerLoop (m : Mat n) (o : PowerOptions) (arg : Vec n) : ℕ → ℕ → Vec n → Except Fault (PowerResult n)
  | 0, _, x => .ok ⟨x, A.dot x (A.mv m x), o.maxIters, arg⟩                              -- 44
  | left + 1, niter, x1 =>                                                              -- 38-39
    match A.arrUnit (A.mv m x1) with                                                    -- 40-41
    | .error f => .error f
    | .ok x =>
      if A.normL1 (fun i => A.sub (x i) (x1 i)) ≤ o.tolerance ∨ A.normL1 (fun i => A.add (x i) (x1 i)) ≤ o.tolerance then  -- 42
        .ok ⟨x, A.dot x (A.mv m x), niter, arg⟩                                          -- 43
      else powerLoop m o arg left (niter + 1) x

/-- `power_iteration.py:20-44`, `power_iteration`. -/
noncomputable def powerIteration (m : Mat n) (x : Vec n) (o : PowerOptions) : Except Fault (PowerResult n) :=
  match A.arrUnit x with                                                                -- 37
  | .error f => .error f
  | .ok x => A.powerLoop m o x o.maxIters 0 x

theorem exact_normL1 (x : Vec n) : exact.normL1 x = Ellalgo.normL1 x := by simp [normL1, Ellalgo.normL1, exact, dotProduct]

theorem exact_arrUnit (x : Vec n) : exact.arrUnit x = Ellalgo.arrUnit x := by
  have : exact.dot x x = ∑ i, x i ^ 2 := by simp only [exact, dotProduct, sq]
  simp only [arrUnit, this, Ellalgo.arrUnit, Ellalgo.arrDiv]
  rfl

theorem exact_powerLoop (m : Mat n) (o : PowerOptions) (arg : Vec n) (left niter : ℕ) (x : Vec n) : exact.powerLoop m o arg left niter x = Ellalgo.powerLoop m o arg left niter x := by
  induction left generalizing niter x with
  | zero => rfl
  | succ left ih =>
    rw [powerLoop, Ellalgo.powerLoop, exact_arrUnit]
    change (match Ellalgo.arrUnit (m.mulVec x) with | .error f => _ | .ok x => _) = _
    rcases Ellalgo.arrUnit (m.mulVec x) with f | y
    · rfl
    · simp only [exact_normL1, ih]
      rfl

theorem exact_powerIteration (m : Mat n) (x : Vec n) (o : PowerOptions) : exact.powerIteration m x o = Ellalgo.powerIteration m x o := by
  rw [powerIteration, Ellalgo.powerIteration, exact_arrUnit]
  rcases Ellalgo.arrUnit x with f | y
  · rfl
  · exact exact_powerLoop m o y o.maxIters 0 y

end Ellalgo.Arith
