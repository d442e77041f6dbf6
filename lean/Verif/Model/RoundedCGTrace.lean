import Verif.Model.RoundedConjGrad

/-! # The values of `solution` in a run of `conjugate_gradient` -/

namespace Ellalgo.Arith

variable (A : Arith) {n : ℕ}

/-- `conjugate_gradient.py:68-97`: the values that the variable `solution` has at line 68 and after each execution of line 79, in order. -/
noncomputable def cgTrace (m : Mat n) (tol : ℝ) : ℕ → CGState n → List (Vec n)
  | 0, s => [s.sol]
  | fuel + 1, s => s.sol :: match A.cgStep m tol s with
    | .error _ => []
    | .ok (.inl x) => [x]
    | .ok (.inr s') => cgTrace m tol fuel s'

/-- The values of `solution` in the call, from the starting point on. -/
noncomputable def cgIterates (m : Mat n) (b : Vec n) (x0 : Option (Vec n)) (tol : ℝ) (maxIter : ℕ) : List (Vec n) := A.cgTrace m tol maxIter (A.cgInit m b x0)

end Ellalgo.Arith
