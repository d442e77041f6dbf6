import Verif.Model.Basic

/-!
# Model of `src/ellalgo/ell1d.tpy`

The one-dimensional search space `ell1d`. (The file has the extension `.tpy` and is not imported by the package; it is modelled as if it were a module.)
-/

namespace Ellalgo

/-- `ell1d.tpy:8-9`, the slots `_rd`, `_xc`, `_tsq`. -/
structure Ell1d where
  rd : ℝ
  xc : ℝ
  tsq : ℝ

namespace Ell1d

/-- `ell1d.tpy:11-24`, `__init__` with the interval `(l, u)`. -/
noncomputable def init (l u : ℝ) : Ell1d :=
  let rd := (u - l) / 2                                                    -- line 22
  { rd, xc := l + rd, tsq := 0 }                                           -- lines 23-24

/-- `ell1d.tpy:44-52`, `set_xc`. -/
def setXc (e : Ell1d) (x : ℝ) : Ell1d := { e with xc := x }

open Classical in
/-- `ell1d.tpy:62-107`, `update`. Returns the object afterwards and the status. -/
noncomputable def update (e : Ell1d) (cut : ℝ × ℝ) (centralCut : Bool := false) : Ell1d × Except Fault CutStatus :=
  let grad := cut.1                                                        -- line 88
  let beta := cut.2
  let tau := |e.rd * grad|                                                 -- line 90
  let e1 := { e with tsq := tau ^ 2 }                                      -- line 91
  if centralCut = true ∨ beta = 0 then                                     -- line 93
    let rd := e.rd / 2                                                     -- line 94
    ({ e1 with rd, xc := e.xc + (if grad > 0 then -rd else rd) }, .ok .success)   -- lines 95-96
  else if beta > tau then (e1, .ok .noSoln)                                -- lines 97-98
  else if beta < -tau then (e1, .ok .noEffect)                             -- lines 99-100
  else
    match pdiv beta grad with                                              -- line 102
    | .error f => (e1, .error f)
    | .ok q =>
      let bound := e.xc - q
      let upper := if grad > 0 then bound else e.xc + e.rd                 -- line 103
      let lower := if grad > 0 then e.xc - e.rd else bound                 -- line 104
      let rd := (upper - lower) / 2                                        -- line 105
      ({ e1 with rd, xc := lower + rd }, .ok .success)                     -- lines 106-107

end Ell1d

end Ellalgo
