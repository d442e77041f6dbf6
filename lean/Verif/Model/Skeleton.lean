import Verif.Model.Basic

/-! # Model of `src/ellalgo/skeleton.py`, function `fib` (the command line wrapper is not modelled) -/

namespace Ellalgo

/-- `skeleton.py:55-56`: `fuel` passes of `a, b = b, a + b`. -/
def fibLoop : ℕ → ℤ × ℤ → ℤ × ℤ
  | 0, ab => ab
  | fuel + 1, ab => fibLoop fuel (ab.2, ab.1 + ab.2)

/-- `skeleton.py:44-57`. Python integers are unbounded. -/
def pyFib (n : ℤ) : Except Fault ℤ :=
  if n > 0 then .ok (fibLoop (n - 1).toNat (1, 1)).1                         -- 53-57
  else .error .assertion                                                     -- 53

end Ellalgo
