import Verif.Model.Rounded
import Verif.Model.ConjGrad

/-!
# `conjugate_gradient.py` with rounding after every operation

As in `Model/Rounded`, sums of products are the parameters `A.dot` and `A.mv`. The simplifications are those of `Model/ConjGrad`.
-/

namespace Ellalgo.Arith

variable (A : Arith) {n : ℕ}

/-- `conjugate_gradient.py:55-66`, initialisation. -/
def cgInit (m : Mat n) (b : Vec n) (x0 : Option (Vec n)) : CGState n :=
  let sol := x0.getD 0                                                       -- 56-61
  let res : Vec n := fun i => A.sub (b i) (A.mv m sol i)                     -- 64
  { sol := sol, res := res, dir := res, rr := A.dot res res }                -- 65-66

/-- `conjugate_gradient.py:69-95`: one pass through the loop body; `.inl` is the `return`, `.inr` the state for the next pass. -/
noncomputable def cgStep (m : Mat n) (tol : ℝ) (s : CGState n) : Except Fault (Vec n ⊕ CGState n) :=
  let ad := A.mv m s.dir                                                     -- 69
  let dad := A.dot s.dir ad                                                  -- 70
  if dad = 0 then .error .valueError                                         -- 73-74
  else
    let step := A.div s.rr dad                                               -- 76-78
    let sol : Vec n := fun i => A.add (s.sol i) (A.mul step (s.dir i))       -- 79
    let res : Vec n := fun i => A.sub (s.res i) (A.mul step (ad i))          -- 80
    let rrNew := A.dot res res                                               -- 81
    match A.psqrt rrNew with                                                 -- 84
    | .error f => .error f
    | .ok root =>
      if root < tol then .ok (.inl sol)                                      -- 84-85
      else
        match A.pdiv rrNew s.rr with                                         -- 87-89
        | .error f => .error f
        | .ok ratio => .ok (.inr { sol := sol, res := res, dir := fun i => A.add (res i) (A.mul ratio (s.dir i)), rr := rrNew })  -- 90-95

/-- The loop with `fuel` passes left, and the final `raise`. -/
noncomputable def cgLoop (m : Mat n) (tol : ℝ) : ℕ → CGState n → Except Fault (Vec n)
  | 0, _ => .error .valueError                                               -- 97
  | fuel + 1, s =>
    match A.cgStep m tol s with
    | .error f => .error f
    | .ok (.inl x) => .ok x
    | .ok (.inr s') => cgLoop m tol fuel s'

/-- `conjugate_gradient.py:15-97`. -/
noncomputable def conjugateGradient (m : Mat n) (b : Vec n) (x0 : Option (Vec n)) (tol : ℝ) (maxIter : ℕ) : Except Fault (Vec n) :=
  A.cgLoop m tol maxIter (A.cgInit m b x0)

theorem exact_cgStep (m : Mat n) (tol : ℝ) (s : CGState n) : exact.cgStep m tol s = s.step m tol := by
  unfold cgStep CGState.step
  by_cases h : s.dir ⬝ᵥ m.mulVec s.dir = 0
  · rw [if_pos h, if_pos (show exact.dot s.dir (exact.mv m s.dir) = 0 from h)]
  · rw [if_neg h, if_neg (show ¬ exact.dot s.dir (exact.mv m s.dir) = 0 from h)]
    have hn : ∀ r : Vec n, ¬ exact.dot r r < 0 := fun r => not_lt.mpr (show 0 ≤ ∑ i, r i * r i from Finset.sum_nonneg fun i _ => mul_self_nonneg (r i))
    simp only [psqrt, hn, if_false]
    rfl

theorem exact_cgLoop (m : Mat n) (tol : ℝ) (k : ℕ) (s : CGState n) : exact.cgLoop m tol k s = s.loop m tol k := by
  induction k generalizing s with
  | zero => rfl
  | succ k ih =>
    simp only [cgLoop, CGState.loop, exact_cgStep, ih]
    rfl

theorem exact_conjugateGradient (m : Mat n) (b : Vec n) (x0 : Option (Vec n)) (tol : ℝ) (maxIter : ℕ) :
    exact.conjugateGradient m b x0 tol maxIter = Ellalgo.conjugateGradient m b x0 tol maxIter := exact_cgLoop _ _ _ _

end Ellalgo.Arith
