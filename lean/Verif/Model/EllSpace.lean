import Verif.Model.Ell
import Verif.Model.CuttingPlane

/-! # `Ell` as a `SearchSpace` -/

namespace Ellalgo

variable {n : ℕ}

/-- `ell.py:29` (`class Ell(SearchSpace[ArrayType])`) with its methods `xc` (88-95), `set_xc` (97-103), `tsq` (105-116),
`update_bias_cut`, `update_central_cut`, `update_q`. -/
noncomputable def Ell.space (n : ℕ) : SearchSpace (Ell n) (Vec n) (Cut n) ℝ where
  xc e := e.xc
  tsq e := e.tsq
  setXc := Ell.setXc
  updateBiasCut := Ell.updateBiasCut
  updateCentralCut := Ell.updateCentralCut
  updateQ := Ell.updateQ

/-- The comparison `a < b` of exact reals. -/
noncomputable def ltReal (a b : ℝ) : Bool := by classical exact decide (a < b)

end Ellalgo
