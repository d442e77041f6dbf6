import Verif.Model.Basic
import Mathlib.Analysis.SpecialFunctions.Trigonometric.Basic

/-!
# Specification vocabulary: the sampled low-pass specification

Written in terms of frequencies only, without the index arithmetic of the oracle.
-/

namespace Ellalgo.Spec

open Finset

variable {n : ℕ}

/-- The power spectrum of autocorrelation coefficients: `R(w) = r_0 + 2 Σ_{t ≥ 1} r_t cos(t w)`. -/
noncomputable def powerSpectrum (r : Vec n) (w : ℝ) : ℝ :=
  ∑ t : Fin n, (if (t : ℕ) = 0 then 1 else 2) * r t * Real.cos (t * w)

/-- A low-pass design: band edges (in multiples of `π`) and bounds on the squared magnitude in the passband. -/
structure LowpassDesign where
  wpass : ℝ
  wstop : ℝ
  lpSq : ℝ
  upSq : ℝ

/-- The band edges are frequencies. -/
structure LowpassDesign.Proper (d : LowpassDesign) : Prop where
  wpass_nonneg : 0 ≤ d.wpass
  wpass_le : d.wpass ≤ 1
  wstop_nonneg : 0 ≤ d.wstop
  wstop_le : d.wstop ≤ 1

/-- The sampled frequencies: `15 n` equally spaced points from `0` to `π`. -/
noncomputable def grid (n : ℕ) (k : ℕ) : ℝ := k * (Real.pi / (15 * n - 1))

/-- `r` meets the constraints of the design that do not involve the stopband bound. -/
structure LowpassDesign.Base (d : LowpassDesign) (r : Vec n) : Prop where
  pass : ∀ k < 15 * n, grid n k ≤ d.wpass * Real.pi →
    d.lpSq ≤ powerSpectrum r (grid n k) ∧ powerSpectrum r (grid n k) ≤ d.upSq
  stop : ∀ k < 15 * n, d.wstop * Real.pi < grid n k → 0 ≤ powerSpectrum r (grid n k)
  trans : ∀ k < 15 * n, d.wpass * Real.pi < grid n k → grid n k ≤ d.wstop * Real.pi →
    0 ≤ powerSpectrum r (grid n k)
  first : ∀ h : 0 < n, 0 ≤ r ⟨0, h⟩

/-- The stopband bound. -/
def LowpassDesign.StopBound (d : LowpassDesign) (sp : ℝ) (r : Vec n) : Prop :=
  ∀ k < 15 * n, d.wstop * Real.pi < grid n k → powerSpectrum r (grid n k) ≤ sp

/-- The designs that meet the whole sampled specification with stopband bound `sp`. -/
def LowpassDesign.Feasible (n : ℕ) (d : LowpassDesign) (sp : ℝ) : Set (Vec n) :=
  {r | d.Base r ∧ d.StopBound sp r}

/-- `v` is the largest stopband response of `r`. -/
def LowpassDesign.IsStopMax (d : LowpassDesign) (r : Vec n) (v : ℝ) : Prop :=
  (∃ k < 15 * n, d.wstop * Real.pi < grid n k ∧ v = powerSpectrum r (grid n k)) ∧ d.StopBound v r

end Ellalgo.Spec
