import Verif.Model.Rounded
import Verif.Spec.History
import Mathlib.Data.Int.Log
import Mathlib.Algebra.Order.Round
import Mathlib.Algebra.Ring.Parity

/-!
# Specification of machine arithmetics

`Accurate` is the standard model of floating-point arithmetic. `ieee p` is rounding to nearest, ties to even, with a significand of `p` bits and an exponent range without limits (`p = 53` for the
`double` of NumPy), with inner products summed from left to right.
-/

namespace Ellalgo

open Matrix

/-- Every operation has relative error at most `u`; inner products of vectors of length at most `N` have error at most `γ Σ|xᵢ||yᵢ|`. The latter holds for every order of summation, with or without fused
multiply-add, with `γ` about `N u`. -/
structure Arith.Accurate (A : Arith) (u γ : ℝ) (N : ℕ) : Prop where
  rnd : ∀ x, |A.rnd x - x| ≤ u * |x|
  dot : ∀ {n : ℕ} (x y : Vec n), n ≤ N → |A.dot x y - x ⬝ᵥ y| ≤ γ * ∑ i, |x i| * |y i|
  mv : ∀ {n : ℕ} (M : Mat n) (x : Vec n), n ≤ N → ∀ i, |A.mv M x i - (M *ᵥ x) i| ≤ γ * ∑ j, |M i j| * |x j|

open Classical in
/-- The integer nearest to `y`, the even one if there are two. -/
noncomputable def roundHalfEven (y : ℝ) : ℤ :=
  if y - ⌊y⌋ < 1 / 2 then ⌊y⌋ else if 1 / 2 < y - ⌊y⌋ then ⌊y⌋ + 1 else if Even ⌊y⌋ then ⌊y⌋ else ⌊y⌋ + 1

/-- The binary exponent: `2 ^ binExp x ≤ |x| < 2 ^ (binExp x + 1)` for `x ≠ 0`. -/
noncomputable def binExp (x : ℝ) : ℤ := Int.log 2 |x|

/-- Rounding to nearest with `p` significant bits. -/
noncomputable def roundBits (p : ℕ) (x : ℝ) : ℝ :=
  if x = 0 then 0 else roundHalfEven (x * 2 ^ ((p : ℤ) - 1 - binExp x)) * 2 ^ (binExp x + 1 - p)

/-- Sums of products from left to right: `s = 0; for i: s = s + x[i] * y[i]`, each operation rounded. -/
def seqDot (rnd : ℝ → ℝ) {n : ℕ} (x y : Vec n) : ℝ := Fin.foldl n (fun s i => rnd (s + rnd (x i * y i))) 0

/-- Binary floating-point arithmetic with `p` bits. -/
noncomputable def Arith.ieee (p : ℕ) : Arith where
  rnd := roundBits p
  dot x y := seqDot (roundBits p) x y
  mv M x := fun i => seqDot (roundBits p) (M i) x

/-- Call one of the three update methods. -/
noncomputable def Arith.update (A : Arith) {n : ℕ} (e : Ell n) : Method → Cut n → Ell n × Except Fault CutStatus
  | .bias, cut => A.updateBiasCut e cut
  | .central, cut => A.updateCentralCut e cut
  | .q, cut => A.updateQ e cut

/-- The offset at which a method cuts: `update_central_cut` ignores the offset. -/
def Method.offset (m : Method) (β : ℝ) : ℝ := match m with
  | .central => 0
  | _ => β

/-- The object after a list of calls; exceptions are caught by the caller. -/
noncomputable def Arith.run (A : Arith) {n : ℕ} : Ell n → List (Method × Cut n) → Ell n
  | e, [] => e
  | e, (m, cut) :: l => A.run (A.update e m cut).1 l

end Ellalgo
