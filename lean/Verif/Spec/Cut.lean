import Verif.Model.Ell
import Verif.Spec.Ellipsoid

/-! # Specification vocabulary: what a cut promises, and when an `Ell` object is legitimate -/

namespace Ellalgo

open Matrix

/-- The values of `t = gᵀ(x - xc)` that a cut keeps (`cutting_plane.py` docs: `gᵀ(x-xc) + β ≤ 0`, and
`gᵀ(x-xc) + β0 ≤ 0 ≤ gᵀ(x-xc) + β1` for a pair). Entries after the second are ignored by the library; `(β, None)` (allowed by the type
`ParallelCut`, `ell_typing.py:26`) has no upper bound; sequences without a first number promise nothing. -/
def CutChoice.keeps : CutChoice → ℝ → Prop
  | .scalar β, t => t + β ≤ 0
  | .seq [some β], t => t + β ≤ 0
  | .seq (some β :: none :: _), t => t + β ≤ 0
  | .seq (some β0 :: some β1 :: _), t => t + β0 ≤ 0 ∧ 0 ≤ t + β1
  | .seq _, _ => True

/-- The same for a central cut: the (first) offset is taken to be zero. -/
def CutChoice.keepsCentral : CutChoice → ℝ → Prop
  | .seq (_ :: some β1 :: _), t => t ≤ 0 ∧ 0 ≤ t + β1
  | _, t => t ≤ 0

/-- Points kept by a cut at centre `c`. -/
def keptSet {n : ℕ} (cut : Cut n) (c : Vec n) : Set (Vec n) :=
  {x | cut.2.keeps (cut.1 ⬝ᵥ (x - c))}

/-- Points kept by a central cut at centre `c`. -/
def keptSetCentral {n : ℕ} (cut : Cut n) (c : Vec n) : Set (Vec n) :=
  {x | cut.2.keepsCentral (cut.1 ⬝ᵥ (x - c))}

namespace Ell

variable {n : ℕ}

/-- The helper is the one the constructor builds; the public flag `use_parallel_cut` may have been
set to anything. -/
def Built (e : Ell n) : Prop :=
  ∃ c, EllCalc.init (n : ℤ) = .ok c ∧ e.helper = { c with useParallelCut := e.helper.useParallelCut }

/-- A legitimate search space: built by the constructor, positive definite matrix, positive scale. -/
structure WF (e : Ell n) : Prop where
  built : e.Built
  posDef : e.mq.PosDef
  kappa_pos : 0 < e.kappa

/-- The ellipsoid an `Ell` object stands for: `(x-xc)ᵀ (κM)⁻¹ (x-xc) ≤ 1`. -/
def region (e : Ell n) : Set (Vec n) := Spec.ellipsoid e.mq e.kappa e.xc

/-- The same set in support form, which stays meaningful when the object degenerates to a point. -/
def hull (e : Ell n) : Set (Vec n) := Spec.supportSet e.mq e.kappa e.xc

end Ell

end Ellalgo
