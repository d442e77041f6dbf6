import Verif.Model.Basic
import Mathlib.Analysis.SpecialFunctions.Trigonometric.Basic
import Mathlib.Analysis.SpecialFunctions.Log.Basic
import Mathlib.Analysis.SpecialFunctions.Complex.Log

/-!
# Model of `src/ellalgo/oracles/spectral_fact.py`

A one-dimensional array of length `m` that is local to the function is a function on indices, of which only the entries `0, ..., m-1` are ever read.
`np.fft.fft`, `np.fft.ifft` and `np.convolve` are their documented sums.

Simplifications: exact real and complex arithmetic; the non-finite check (55-56) cannot fail; the translation of unexpected exceptions (117-120) cannot
happen. The input of `spectralFact` is one-dimensional; `spectralFactColumn` is the same code on the column vector that the docstring asks for (31).
-/

namespace Ellalgo

open Finset

variable {n : ℕ}

/-- `np.fft.fft` on an array of length `m`. -/
noncomputable def npFft (m : ℕ) (a : ℕ → ℂ) (k : ℕ) : ℂ :=
  ∑ j ∈ range m, a j * Complex.exp (-((2 * Real.pi * j * k / m : ℝ) : ℂ) * Complex.I)

/-- `np.fft.ifft` on an array of length `m`. -/
noncomputable def npIfft (m : ℕ) (a : ℕ → ℂ) (k : ℕ) : ℂ :=
  (∑ j ∈ range m, a j * Complex.exp (((2 * Real.pi * j * k / m : ℝ) : ℂ) * Complex.I)) / m

/-- Entry `k` of `np.convolve(a, b)` (mode `full`). -/
def npConvolve (a b : Vec n) (k : ℕ) : ℝ := ∑ i : Fin n, ∑ j : Fin n, if (i : ℕ) + j = k then a i * b j else 0

/-- `spectral_fact.py:62-63`: the length of the oversampled arrays. -/
def sfLen (n : ℕ) : ℕ := 100 * n

/-- `spectral_fact.py:71-75`: entry `j` of `np.hstack((np.ones((m, 1)), An)) @ r`. -/
noncomputable def sfResponse (r : Vec n) (j : ℕ) : ℝ :=
  let w : ℝ := 2 * Real.pi * j / sfLen n                                     -- 71
  ∑ t : Fin n, (if (t : ℕ) = 0 then 1 else 2 * Real.cos (w * (t : ℕ))) * r t -- 73-75

/-- `spectral_fact.py:77-90`: reject a negative response, clamp a nearly nonpositive one. (`n = 0`: 52-53.) -/
noncomputable def sfChecked (r : Vec n) : Except Fault (ℕ → ℝ) :=
  if h : n = 0 then .error .valueError                                       -- 52-53
  else
    let minVal := (range (sfLen n)).inf' (nonempty_range_iff.2 (by unfold sfLen; omega)) (sfResponse r)      -- 79
    if minVal ≤ 0 then                                                       -- 80
      if minVal > -(1 / 10000) then .ok fun j => max (sfResponse r j) (1 / 10 ^ 10)                          -- 83-84
      else .error .runtimeError                                              -- 85-90
    else .ok (sfResponse r)

/-- `spectral_fact.py:93`. -/
noncomputable def sfAlpha (R : ℕ → ℝ) (j : ℕ) : ℝ := 1 / 2 * Real.log |R j|

/-- `spectral_fact.py:96-101`: the transform of `alpha` with the signs of the Hilbert transform. -/
noncomputable def sfHilbert (m : ℕ) (alpha : ℕ → ℝ) : ℕ → ℂ :=
  let ind := m / 2                                                           -- 98
  let a0 : ℕ → ℂ := npFft m fun j => (alpha j : ℂ)                           -- 96
  let a1 : ℕ → ℂ := fun k => if ind ≤ k ∧ k < m then -a0 k else a0 k         -- 99
  let a2 : ℕ → ℂ := fun k => if k = 0 then 0 else a1 k                       -- 100
  fun k => if k = ind then 0 else a2 k                                       -- 101

/-- `spectral_fact.py:102`. -/
noncomputable def sfPhi (m : ℕ) (alpha : ℕ → ℝ) (j : ℕ) : ℝ :=
  (npIfft m (fun k => Complex.I * sfHilbert m alpha k) j).re

/-- `spectral_fact.py:104-111`: the complex spectrum at the original sampling. -/
noncomputable def sfSpectrum (n : ℕ) (R : ℕ → ℝ) (k : ℕ) : ℂ :=
  let alpha := sfAlpha R
  let phi := sfPhi (sfLen n) alpha
  let index := 100 * k                                                       -- 106
  Complex.exp ((alpha index : ℂ) + Complex.I * (phi index : ℂ))              -- 107-111

/-- `spectral_fact.py:23-113`. -/
noncomputable def spectralFact (r : Vec n) : Except Fault (Vec n) :=
  match sfChecked r with
  | .error f => .error f
  | .ok R => .ok fun t => (npIfft n (sfSpectrum n R) t).re                   -- 111

/-- Zero padding of a one-entry row, as `np.fft.ifft(x, n)` does. -/
def pad1 (x : ℂ) (k : ℕ) : ℂ := if k = 0 then x else 0

/-- `spectral_fact.py:23-113` on a column vector (shape `(n, 1)`): the arrays of 71-109 have shape `(m, 1)`, subscripts select rows, and the transforms run over
the last axis, which has length 1 (96, 102) or is padded from 1 to `n` (111). The result has shape `(n, n)`. -/
noncomputable def spectralFactColumn (r : Vec n) : Except Fault (Matrix (Fin n) (Fin n) ℝ) :=
  match sfChecked r with
  | .error f => .error f
  | .ok R =>
    let m := sfLen n
    let alpha := sfAlpha R                                                   -- 93
    let ind := m / 2                                                         -- 98
    let a0 : ℕ → ℂ := fun k => npFft 1 (fun _ => (alpha k : ℂ)) 0            -- 96
    let a1 : ℕ → ℂ := fun k => if ind ≤ k ∧ k < m then -a0 k else a0 k       -- 99
    let a2 : ℕ → ℂ := fun k => if k = 0 then 0 else a1 k                     -- 100
    let a3 : ℕ → ℂ := fun k => if k = ind then 0 else a2 k                   -- 101
    let phi : ℕ → ℝ := fun k => (npIfft 1 (fun _ => Complex.I * a3 k) 0).re  -- 102
    .ok fun i j =>
      (npIfft n (pad1 (Complex.exp ((alpha (100 * i) : ℂ) + Complex.I * (phi (100 * i) : ℂ)))) j).re         -- 106-111

/-- `spectral_fact.py:123-143`. `np.convolve` rejects empty arrays (`ValueError`). -/
def inverseSpectralFact (h : Vec n) : Except Fault (Vec n) :=
  if n = 0 then .error .valueError
  else .ok fun t => npConvolve h (fun i => h i.rev) (n - 1 + t)              -- 143

end Ellalgo
