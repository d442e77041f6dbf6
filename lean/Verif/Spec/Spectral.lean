import Verif.Spec.Lowpass
import Mathlib.Analysis.SpecialFunctions.Trigonometric.Basic
import Mathlib.Analysis.SpecialFunctions.Complex.Circle

/-! # Specification vocabulary: impulse responses -/

namespace Ellalgo.Spec

open Finset

variable {n : ℕ}

/-- The frequency response `H(w) = Σ_t h_t e^{-itw}` of an impulse response. -/
noncomputable def freqResponse (h : Vec n) (w : ℝ) : ℂ := ∑ t : Fin n, (h t : ℂ) * Complex.exp (-((t : ℕ) * w : ℝ) * Complex.I)

/-- The autocorrelation of `h` at lag `t`. -/
def autocorr (h : Vec n) (t : ℕ) : ℝ := ∑ i : Fin n, if hi : (i : ℕ) + t < n then h i * h ⟨i + t, hi⟩ else 0

end Ellalgo.Spec
