import Verif.Model.PowerIteration

/-! # Specification of power iteration: directions `A^k x`, Rayleigh quotients, and which pass a run stops in -/

namespace Ellalgo.Spec

open Matrix

variable {n : ℕ}

/-- `v / ‖v‖₂`. -/
noncomputable def unitVec (v : Vec n) : Vec n := (Real.sqrt (v ⬝ᵥ v))⁻¹ • v

/-- `v / ‖v‖₁`. -/
noncomputable def unitVec1 (v : Vec n) : Vec n := (∑ i, |v i|)⁻¹ • v

/-- The Rayleigh quotient `vᵀAv / vᵀv`. -/
noncomputable def rayleigh (A : Mat n) (v : Vec n) : ℝ := (v ⬝ᵥ (A *ᵥ v)) / (v ⬝ᵥ v)

/-- `A^k x`. -/
def powDir (A : Mat n) (x : Vec n) (k : ℕ) : Vec n := (A ^ k) *ᵥ x

/-- What a power iteration from `x` with at most `N` passes, which stops in pass `k` if `stop k`, has to return: after the first pass `k` that meets the criterion the unit vector in direction
`A^(k+1) x` with its Rayleigh quotient and the pass number; if no pass does, the unit vector in direction `A^N x` with its Rayleigh quotient and `N`; a division by zero
exactly if it meets an `A^k x = 0`. The three cases exclude one another. `arg x'` is what the caller's array holds afterwards if `x'` is returned. -/
def PowerSpec (A : Mat n) (x : Vec n) (N : ℕ) (stop : ℕ → Prop) (arg : Vec n → Vec n) (res : Except Fault (PowerResult n)) : Prop :=
  (∃ k < N, (∀ j ≤ k + 1, powDir A x j ≠ 0) ∧ stop k ∧ (∀ j < k, ¬ stop j) ∧
    res = .ok ⟨unitVec (powDir A x (k + 1)), rayleigh A (powDir A x (k + 1)), k, arg (unitVec (powDir A x (k + 1)))⟩) ∨
  ((∀ j ≤ N, powDir A x j ≠ 0) ∧ (∀ j < N, ¬ stop j) ∧
    res = .ok ⟨unitVec (powDir A x N), rayleigh A (powDir A x N), N, arg (unitVec (powDir A x N))⟩) ∨
  (∃ k ≤ N, powDir A x k = 0 ∧ (∀ j, j + 1 < k → ¬ stop j) ∧ res = .error .zeroDivision)

/-- The criterion of `power_iteration`: two successive unit vectors agree up to sign, within `tol` in the 1-norm. -/
def stopVec (A : Mat n) (x : Vec n) (tol : ℝ) (k : ℕ) : Prop :=
  (∑ i, |unitVec (powDir A x (k + 1)) i - unitVec (powDir A x k) i|) ≤ tol ∨
  (∑ i, |unitVec (powDir A x (k + 1)) i + unitVec (powDir A x k) i|) ≤ tol

/-- The criterion of `power_iteration4`: the same with vectors scaled to 1-norm one. -/
def stopVec1 (A : Mat n) (x : Vec n) (tol : ℝ) (k : ℕ) : Prop :=
  (∑ i, |unitVec1 (powDir A x (k + 1)) i - unitVec1 (powDir A x k) i|) ≤ tol ∨
  (∑ i, |unitVec1 (powDir A x (k + 1)) i + unitVec1 (powDir A x k) i|) ≤ tol

/-- The criterion of `power_iteration2` and `power_iteration3`: two successive Rayleigh quotients agree within `tol`. -/
def stopRay (A : Mat n) (x : Vec n) (tol : ℝ) (k : ℕ) : Prop :=
  |rayleigh A (powDir A x k) - rayleigh A (powDir A x (k + 1))| ≤ tol

end Ellalgo.Spec
