import Verif.Model.Rounded
import Verif.Model.Ell1d

/-!
# `ell1d.tpy` with rounding after every operation

As in `Model/Rounded`: each operation is followed by `A.rnd`, and exponents have no limits. Comparisons, `abs` and the change of sign are exact.
-/

namespace Ellalgo.Arith

variable (A : Arith)

/-- `ell1d.tpy:11-24`, `__init__` with the interval `(l, u)`. -/
noncomputable def ell1dInit (l u : ℝ) : Ell1d :=
  let rd := A.div (A.sub u l) 2                                            -- line 22
  { rd, xc := A.add l rd, tsq := 0 }                                       -- lines 23-24

open Classical in
/-- `ell1d.tpy:62-107`, `update`. Returns the object afterwards and the status. -/
noncomputable def ell1dUpdate (e : Ell1d) (cut : ℝ × ℝ) (centralCut : Bool := false) : Ell1d × Except Fault CutStatus :=
  let grad := cut.1                                                        -- line 88
  let beta := cut.2
  let tau := |A.mul e.rd grad|                                             -- line 90
  let e1 := { e with tsq := A.mul tau tau }                                -- line 91
  if centralCut = true ∨ beta = 0 then                                     -- line 93
    let rd := A.div e.rd 2                                                 -- line 94
    ({ e1 with rd, xc := A.add e.xc (if grad > 0 then -rd else rd) }, .ok .success)   -- lines 95-96
  else if beta > tau then (e1, .ok .noSoln)                                -- lines 97-98
  else if beta < -tau then (e1, .ok .noEffect)                             -- lines 99-100
  else
    match A.pdiv beta grad with                                            -- line 102
    | .error f => (e1, .error f)
    | .ok q =>
      let bound := A.sub e.xc q
      let upper := if grad > 0 then bound else A.add e.xc e.rd             -- line 103
      let lower := if grad > 0 then A.sub e.xc e.rd else bound             -- line 104
      let rd := A.div (A.sub upper lower) 2                                -- line 105
      ({ e1 with rd, xc := A.add lower rd }, .ok .success)                 -- lines 106-107

/-- Without rounding it is the model of `Model/Ell1d`. -/
theorem exact_ell1dInit (l u : ℝ) : exact.ell1dInit l u = Ell1d.init l u := rfl

theorem exact_ell1dUpdate (e : Ell1d) (cut : ℝ × ℝ) (c : Bool) : exact.ell1dUpdate e cut c = e.update cut c := by
  have h : exact.pdiv cut.2 cut.1 = Ellalgo.pdiv cut.2 cut.1 := rfl
  have hm : exact.mul |exact.mul e.rd cut.1| |exact.mul e.rd cut.1| = |e.rd * cut.1| ^ 2 := (sq _).symm
  simp only [ell1dUpdate, Ell1d.update, h, hm]
  rfl

end Ellalgo.Arith
