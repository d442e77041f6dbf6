import Verif.Model.Basic

/-! # Vocabulary of C125 -/

namespace Ellalgo.Spec

variable {n : ℕ}

/-- The vector `|b| + |M| X`, with absolute values entry by entry. -/
def reach (M : Mat n) (b X : Vec n) : Vec n := fun i => |b i| + ∑ j, |M i j| * X j

/-- The Euclidean length. -/
noncomputable def length2 (v : Vec n) : ℝ := Real.sqrt (∑ i, v i ^ 2)

end Ellalgo.Spec
