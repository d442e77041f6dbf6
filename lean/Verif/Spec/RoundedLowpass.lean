import Verif.Spec.RoundedPairConverge
import Verif.Spec.Lowpass
import Verif.Spec.Rounding

/-! # Vocabulary of C114: filter design in floating point -/

namespace Ellalgo.Spec

open Matrix

variable {n : ℕ}

/-- `r` meets the design with the stopband bound `γ` up to `δ` at every sampled frequency. -/
structure LowpassDesign.Near (d : LowpassDesign) (γ δ : ℝ) (r : Vec n) : Prop where
  pass : ∀ k < 15 * n, grid n k ≤ d.wpass * Real.pi → d.lpSq - δ ≤ powerSpectrum r (grid n k) ∧ powerSpectrum r (grid n k) ≤ d.upSq + δ
  stop : ∀ k < 15 * n, d.wstop * Real.pi < grid n k → -δ ≤ powerSpectrum r (grid n k) ∧ powerSpectrum r (grid n k) ≤ γ + δ
  trans : ∀ k < 15 * n, d.wpass * Real.pi < grid n k → grid n k ≤ d.wstop * Real.pi → -δ ≤ powerSpectrum r (grid n k)
  first : ∀ h : 0 < n, 0 ≤ r ⟨0, h⟩

/-- Some response in the stopband is `γ` up to `δ`. -/
def LowpassDesign.Attains (d : LowpassDesign) (γ δ : ℝ) (r : Vec n) : Prop :=
  ∃ k < 15 * n, d.wstop * Real.pi < grid n k ∧ |powerSpectrum r (grid n k) - γ| ≤ δ

/-- A run with `p` bits from the ball of radius `R` around `x`. The designs that are feasible for the level `γs` contain the ball of radius `2r` around `c`; half of it is in the initial ball. The band edges are not so close to a sampled frequency that
rounding moves them to the other side. `M` bounds the numbers of the specification, `D` the length of `c`. -/
structure FloatDesign (d : LowpassDesign) (n p : ℕ) (R r D M γs : ℝ) (x c : Vec n) : Prop where
  dim : 2 ≤ n
  proper : d.Proper
  passEdge : ⌊roundBits p (d.wpass * roundBits p ((15 * n - 1 : ℤ) : ℝ))⌋₊ = ⌊d.wpass * (15 * n - 1)⌋₊
  stopEdge : ⌊roundBits p (d.wstop * roundBits p ((15 * n - 1 : ℤ) : ℝ))⌋₊ = ⌊d.wstop * (15 * n - 1)⌋₊
  outer_pos : 0 < R
  inner_pos : 0 < r
  inner : ball c (2 * r) ⊆ d.Feasible n γs
  start : ball c r ⊆ ball x R
  centre : Real.sqrt (c ⬝ᵥ c) ≤ D
  lp_le : |d.lpSq| ≤ M
  up_le : |d.upSq| ≤ M
  level_le : |γs| ≤ M
  size : 2 * M ≤ r * 2 ^ p
  bits : 200000 * ((n : ℝ) + 1) ^ 4 * (floatIters n R r + 1) * ((pairAxes n R r + D) / r) ^ 7 ≤ 2 ^ p

/-- The error of the computed responses, relative to the length of the filter. -/
noncomputable def responseError (n p : ℕ) : ℝ := 340 * ((n : ℝ) + 1) * Real.sqrt n * 2⁻¹ ^ p

end Ellalgo.Spec
