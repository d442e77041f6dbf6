import Verif.Spec.Cut
import Verif.Model.EllStable

/-! # Specification vocabulary: histories of update calls -/

namespace Ellalgo

open Matrix

/-- The three public update methods of a search space. -/
inductive Method
  | bias | central | q

namespace Ell

variable {n : ℕ}

/-- Call one of the three update methods. -/
noncomputable def update (e : Ell n) : Method → Cut n → Ell n × Except Fault CutStatus
  | .bias, cut => e.updateBiasCut cut
  | .central, cut => e.updateCentralCut cut
  | .q, cut => e.updateQ cut

/-- Run a list of calls; exceptions are assumed to be caught by the caller and the object used again. Returns the
final object and the list of (outcome, xc, tsq) observed after each call. -/
noncomputable def run (e : Ell n) :
    List (Method × Cut n) → Ell n × List (Except Fault CutStatus × Vec n × ℝ)
  | [] => (e, [])
  | (m, cut) :: l =>
    let r := e.update m cut
    let rest := r.1.run l
    (rest.1, (r.2, r.1.xc, r.1.tsq) :: rest.2)

end Ell

namespace EllStable

variable {n : ℕ}

/-- Call one of the three update methods. -/
noncomputable def update (s : EllStable n) : Method → Cut n → EllStable n × Except Fault CutStatus
  | .bias, cut => s.updateBiasCut cut
  | .central, cut => s.updateCentralCut cut
  | .q, cut => s.updateQ cut

/-- Run a list of calls, as `Ell.run`. -/
noncomputable def run (s : EllStable n) :
    List (Method × Cut n) → EllStable n × List (Except Fault CutStatus × Vec n × ℝ)
  | [] => (s, [])
  | (m, cut) :: l =>
    let r := s.update m cut
    let rest := r.1.run l
    (rest.1, (r.2, r.1.xc, r.1.tsq) :: rest.2)

end EllStable

/-- What the cut promises to keep, by method. -/
def Method.keeps : Method → CutChoice → ℝ → Prop
  | .central, c => c.keepsCentral
  | _, c => c.keeps

/-- The cut leaves a body of positive width: of the values `t ∈ [-τ, τ]` (`τ² = tsq`) that
`gᵀ(x-xc)` takes on the ellipsoid it keeps at least two. -/
def HasWidth (keeps : ℝ → Prop) (tsq : ℝ) : Prop :=
  ∃ t1 t2, t1 < t2 ∧ t1 ^ 2 ≤ tsq ∧ t2 ^ 2 ≤ tsq ∧ keeps t1 ∧ keeps t2

/-- Strict cuts in the sense of the API documentation. `τ² = κ gᵀMg`. -/
def StrictCut (tsq : ℝ) : Method → CutChoice → Prop
  | .bias, .scalar β => 0 ≤ β ∧ β * β < tsq
  | .bias, .seq [some β] => 0 ≤ β ∧ β * β < tsq
  | .bias, .seq (some β0 :: some β1 :: _) => 0 ≤ β0 ∧ β0 < β1 ∧ β0 * β0 < tsq
  | .central, .seq (_ :: some β1 :: _) => 0 < β1
  | .central, _ => True
  | .q, .scalar β => β < Real.sqrt tsq
  | .q, .seq [some β] => β < Real.sqrt tsq
  | .q, .seq (some β0 :: some β1 :: _) => β0 < β1 ∧ β0 < Real.sqrt tsq ∧ -Real.sqrt tsq < β1
  | _, _ => False

end Ellalgo
