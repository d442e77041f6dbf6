import Verif.Model.EllStable
import Verif.Model.EllSpace

/-! # `EllStable` as a `SearchSpace` -/

namespace Ellalgo

/-- `ell_stable.py:28` (`class EllStable(SearchSpace[ArrayType])`) with its methods `xc` (81-86), `set_xc` (88-95), `tsq` (97-102),
`update_bias_cut`, `update_central_cut`, `update_q`. -/
noncomputable def EllStable.space (n : ℕ) : SearchSpace (EllStable n) (Vec n) (Cut n) ℝ where
  xc s := s.xc
  tsq s := s.tsq
  setXc := EllStable.setXc
  updateBiasCut := EllStable.updateBiasCut
  updateCentralCut := EllStable.updateCentralCut
  updateQ := EllStable.updateQ

end Ellalgo
