import Verif.Spec.Cut
import Verif.Model.CuttingPlane

/-!
# Specification vocabulary: what a correct oracle is

Oracles are stateful; `I` is an invariant of the oracle's state (`fun _ => True` for a stateless one).
-/

namespace Ellalgo

open Matrix

variable {n : ℕ} {O G : Type*}

/-- The first offset, if there is one, is nonnegative (`CuttingPlane` docs: deep cuts). -/
def CutChoice.FirstNonneg : CutChoice → Prop
  | .scalar b => 0 ≤ b
  | .seq bs => ∀ b, bs.head? = some (some b) → 0 ≤ b

/-- The well-formed shapes of a deep cut: `β`, `(β,)` or `(β0, β1, ...)` with nonnegative first offset. -/
def CutChoice.Deep : CutChoice → Prop
  | .scalar b => 0 ≤ b
  | .seq [some b] => 0 ≤ b
  | .seq (some b0 :: some _ :: _) => 0 ≤ b0
  | .seq _ => False

/-- The well-formed shapes of a central cut: everything except `(β, None)`. -/
def CutChoice.CentralShape : CutChoice → Prop
  | .seq (_ :: none :: _) => False
  | _ => True

/-- The cuts of the oracle are valid for a set `F`: whatever cut it answers at `x` has a nonnegative first offset and keeps all of `F`. -/
structure CuttingOracle (I : O → Prop) (F : Set (Vec n)) (omega : OracleFeas O (Vec n) (Cut n)) : Prop where
  inv : ∀ o x, I o → I (omega o x).1
  cut : ∀ o x o' cut, I o → omega o x = (o', .ok (some cut)) → cut.2.FirstNonneg ∧ F ⊆ keptSet cut x

/-- A separating oracle for a set `F`: its cuts are valid for `F`, and a point it accepts is in `F`. -/
structure SeparatingOracle (I : O → Prop) (F : Set (Vec n)) (omega : OracleFeas O (Vec n) (Cut n)) : Prop
    extends CuttingOracle I F omega where
  accept : ∀ o x o', I o → omega o x = (o', .ok none) → x ∈ F

/-- In addition: it never raises, the cuts are of a well-formed shape and the gradients are not short. -/
structure RegularOracle (I : O → Prop) (F : Set (Vec n)) (omega : OracleFeas O (Vec n) (Cut n)) : Prop
    extends SeparatingOracle I F omega where
  total : ∀ o x o' f, I o → omega o x ≠ (o', .error f)
  shape : ∀ o x o' cut, I o → omega o x = (o', .ok (some cut)) → cut.2.Deep ∧ 1 ≤ cut.1 ⬝ᵥ cut.1

/-- A correct optimisation oracle for a family of level sets: `L γ` is the set of points that are wanted when the best known value is `γ` (e.g.
the feasible points with value better than `γ`, or at least as good as `γ`), larger `γ` is better. A cut without a value keeps `L γ`; a cut with a new
value `γ1` improves the value and keeps `L γ1` when used as a central cut. -/
structure LevelOracle [Preorder G] (I : O → Prop) (L : G → Set (Vec n))
    (omega : OracleOptim O (Vec n) (Cut n) G) : Prop where
  inv : ∀ o x γ, I o → I (omega o x γ).1
  cut : ∀ o x γ o' cut, I o → omega o x γ = (o', .ok (cut, none)) → cut.2.FirstNonneg ∧ L γ ⊆ keptSet cut x
  value : ∀ o x γ o' cut γ1, I o → omega o x γ = (o', .ok (cut, some γ1)) → γ ≤ γ1 ∧ L γ1 ⊆ keptSetCentral cut x

/-- In addition: no exceptions, well-formed shapes, gradients not short. -/
structure RegularLevelOracle [Preorder G] (I : O → Prop) (L : G → Set (Vec n))
    (omega : OracleOptim O (Vec n) (Cut n) G) : Prop extends LevelOracle I L omega where
  total : ∀ o x γ o' f, I o → omega o x γ ≠ (o', .error f)
  shape : ∀ o x γ o' cut, I o → omega o x γ = (o', .ok (cut, none)) → cut.2.Deep ∧ 1 ≤ cut.1 ⬝ᵥ cut.1
  shapeCentral : ∀ o x γ o' cut γ1, I o → omega o x γ = (o', .ok (cut, some γ1)) →
    cut.2.CentralShape ∧ 1 ≤ cut.1 ⬝ᵥ cut.1

/-- The closed Euclidean ball. -/
def Spec.ball (c : Vec n) (r : ℝ) : Set (Vec n) := {x | (x - c) ⬝ᵥ (x - c) ≤ r ^ 2}

end Ellalgo
