import Verif.Spec.Rounding

/-! # Specification: histories of single cuts in floating point -/

namespace Ellalgo

open Matrix

variable {n : ℕ}

/-- Calls with scalar offsets: method, gradient, offset. -/
def singleCalls (l : List (Method × Vec n × ℝ)) : List (Method × Cut n) := l.map fun t => (t.1, (t.2.1, .scalar t.2.2))

/-- What the calls return. -/
noncomputable def Arith.statuses (A : Arith) : Ell n → List (Method × Cut n) → List (Except Fault CutStatus)
  | _, [] => []
  | e, (m, cut) :: l => (A.update e m cut).2 :: A.statuses (A.update e m cut).1 l

/-- Along the run the gradients are not zero and every cut is central or deep, and stays clear of the far end of the ellipsoid by the fraction `a` of the way. -/
def Arith.InRange (A : Arith) (a : ℝ) : Ell n → List (Method × Vec n × ℝ) → Prop
  | _, [] => True
  | e, (mt, g, β) :: l => g ≠ 0 ∧ 0 ≤ mt.offset β ∧ mt.offset β ≤ (1 - a) * Real.sqrt (e.kappa * (g ⬝ᵥ (e.mq *ᵥ g))) ∧ A.InRange a (A.update e mt (g, .scalar β)).1 l

/-- The shape has a condition number with `γ √n cond ≤ ε`, and the rounding error of the centre is at most `ξ` in units of the smallest semi-axis. -/
def Ell.WellConditioned (u γ ε ξ : ℝ) (e : Ell n) : Prop :=
  ∃ m L : ℝ, 0 < m ∧ (∀ v : Vec n, m * (v ⬝ᵥ v) ≤ v ⬝ᵥ (e.mq *ᵥ v)) ∧ (∀ v : Vec n, v ⬝ᵥ (e.mq *ᵥ v) ≤ L * (v ⬝ᵥ v)) ∧
    γ * Real.sqrt n * (L / m) ≤ ε ∧ u * Real.sqrt (e.xc ⬝ᵥ e.xc) / Real.sqrt (e.kappa * m) ≤ ξ

/-- Every state in which a cut is made is well conditioned. -/
def Arith.WellConditioned (A : Arith) (u γ ε ξ : ℝ) : Ell n → List (Method × Vec n × ℝ) → Prop
  | _, [] => True
  | e, (mt, g, β) :: l => e.WellConditioned u γ ε ξ ∧ A.WellConditioned u γ ε ξ (A.update e mt (g, .scalar β)).1 l

/-- The point satisfies every cut of the run up to the fraction `s` of the half width of the ellipsoid in the direction of the cut; `s = 0` for cuts that hold exactly. -/
def Arith.Satisfies (A : Arith) (s : ℝ) (z : Vec n) : Ell n → List (Method × Vec n × ℝ) → Prop
  | _, [] => True
  | e, (mt, g, β) :: l => g ⬝ᵥ (z - e.xc) + mt.offset β ≤ s * Real.sqrt (e.kappa * (g ⬝ᵥ (e.mq *ᵥ g))) ∧ A.Satisfies s z (A.update e mt (g, .scalar β)).1 l

/-- How one cut enlarges the inflation of the semi-axes that is needed: `c` is the rounding error of the step. -/
noncomputable def inflStep (n : ℕ) (a c s φ : ℝ) : ℝ := (1 + c) * (1 + (n + 1) / (n * a) * (φ - 1 + s))

end Ellalgo
