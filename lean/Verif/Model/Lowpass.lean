import Verif.Model.Ell
import Verif.Model.CuttingPlane
import Mathlib.Analysis.SpecialFunctions.Log.Base
import Mathlib.Analysis.SpecialFunctions.Trigonometric.Basic
import Mathlib.Algebra.Order.Floor.Semiring
import Mathlib.Order.WithBot

/-!
# Model of `src/ellalgo/oracles/lowpass_oracle.py`

The oracle object is a record; every method returns the new object next to its outcome. `ndim` is `n`.

Simplifications: the point passed to a method has `ndim` entries; row numbers are naturals, so negative band edges (`wpass < 0`, `wstop < 0`, for which Python
would produce negative indices) are not modelled; `float("-inf")` is `⊥ : WithBot ℝ`, and where `-inf` would have to be returned as an offset
(`assess_optim` on a design without stopband points) the model reports the fault `mathDomain` (outside the number domain).
-/

namespace Ellalgo

open Matrix

/-- The attributes of a `LowpassOracle` (`lowpass_oracle.py:111-129`); `mdim = spectrum.shape[0]`. -/
structure LowpassOracle (n : ℕ) where
  mdim : ℕ
  spectrum : ℕ → Vec n
  nwpass : ℕ
  nwstop : ℕ
  lpSq : ℝ
  upSq : ℝ
  spSq : ℝ
  idx1 : ℕ
  idx2 : ℕ
  idx3 : ℕ
  fmax : WithBot ℝ
  kmax : ℕ

namespace LowpassOracle

variable {n : ℕ}

/-- `lowpass_oracle.py:104`, entry `k` of `np.linspace(0, np.pi, mdim)`. -/
noncomputable def omega (mdim k : ℕ) : ℝ := Real.pi * k / (mdim - 1)

/-- `lowpass_oracle.py:110-111`: row `k` is `[1, 2cos(w), 2cos(2w), ..., 2cos((ndim-1)w)]`. -/
noncomputable def spectrumRow (n mdim k : ℕ) : Vec n := fun j =>
  if (j : ℕ) = 0 then 1 else 2 * Real.cos (omega mdim k * (j : ℕ))

/-- `lowpass_oracle.py:66-129`, `__init__`. -/
noncomputable def init (n : ℕ) (wpass wstop lpSq upSq spSq : ℝ) : LowpassOracle n :=
  let mdim := 15 * n                                                         -- 103
  let nwpass := ⌊wpass * ((mdim : ℝ) - 1)⌋₊ + 1                              -- 114
  let nwstop := ⌊wstop * ((mdim : ℝ) - 1)⌋₊ + 1                              -- 115
  { mdim := mdim, spectrum := spectrumRow n mdim, nwpass := nwpass, nwstop := nwstop
    lpSq := lpSq, upSq := upSq, spSq := spSq                                 -- 118-120
    idx1 := 0, idx2 := nwpass, idx3 := nwstop                                -- 123-125
    fmax := ⊥, kmax := 0 }                                                   -- 128-129

/-- Row access `self.spectrum[k, :]`. -/
def row (o : LowpassOracle n) (k : ℕ) : Except Fault (Vec n) :=
  if k < o.mdim then .ok (o.spectrum k) else .error .indexError

/-- `lowpass_oracle.py:157-173`, the passband loop with `fuel` iterations left. -/
noncomputable def passLoop (x : Vec n) :
    (fuel : ℕ) → LowpassOracle n → LowpassOracle n × Except Fault (Option (Cut n))
  | 0, o => (o, .ok none)
  | fuel + 1, o =>
    let i := o.idx1 + 1                                                      -- 158
    let i := if i = o.nwpass then 0 else i                                   -- 159-160
    let o := { o with idx1 := i }
    match o.row i with                                                       -- 162
    | .error f => (o, .error f)
    | .ok col =>
      let v := col ⬝ᵥ x                                                      -- 163
      if v > o.upSq then (o, .ok (some (col, .pair (v - o.upSq) (v - o.lpSq))))              -- 166-168
      else if v < o.lpSq then (o, .ok (some (-col, .pair (-v + o.lpSq) (-v + o.upSq))))      -- 171-173
      else passLoop x fuel o

/-- `lowpass_oracle.py:180-199`, the stopband loop. -/
noncomputable def stopLoop (x : Vec n) :
    (fuel : ℕ) → LowpassOracle n → LowpassOracle n × Except Fault (Option (Cut n))
  | 0, o => (o, .ok none)
  | fuel + 1, o =>
    let i := o.idx3 + 1                                                      -- 181
    let i := if i = o.mdim then o.nwstop else i                              -- 182-183
    let o := { o with idx3 := i }
    match o.row i with                                                       -- 185
    | .error f => (o, .error f)
    | .ok col =>
      let v := col ⬝ᵥ x                                                      -- 186
      if v > o.spSq then (o, .ok (some (col, .pair (v - o.spSq) v)))         -- 189-190
      else if v < 0 then (o, .ok (some (-col, .pair (-v) (-v + o.spSq))))    -- 193-194
      else if (v : WithBot ℝ) > o.fmax then stopLoop x fuel { o with fmax := v, kmax := i }  -- 197-199
      else stopLoop x fuel o

/-- `lowpass_oracle.py:203-213`, the transition band loop. -/
noncomputable def transLoop (x : Vec n) :
    (fuel : ℕ) → LowpassOracle n → LowpassOracle n × Except Fault (Option (Cut n))
  | 0, o => (o, .ok none)
  | fuel + 1, o =>
    let i := o.idx2 + 1                                                      -- 204
    let i := if i = o.nwstop then o.nwpass else i                            -- 205-206
    let o := { o with idx2 := i }
    match o.row i with                                                       -- 208
    | .error f => (o, .error f)
    | .ok col =>
      let v := col ⬝ᵥ x                                                      -- 209
      if v < 0 then (o, .ok (some (-col, .scalar (-v))))                     -- 212-213
      else transLoop x fuel o

/-- `lowpass_oracle.py:215-222`: the check of the first coefficient. -/
noncomputable def lastCheck (o : LowpassOracle n) (x : Vec n) :
    LowpassOracle n × Except Fault (Option (Cut n)) :=
  if h : 0 < n then
    if x ⟨0, h⟩ < 0 then
      (o, .ok (some (fun j => if (j : ℕ) = 0 then -1 else 0, .scalar (-x ⟨0, h⟩))))          -- 216-219
    else (o, .ok none)                                                       -- 222
  else (o, .error .indexError)

/-- `lowpass_oracle.py:131-222`, `assess_feas`. -/
noncomputable def assessFeas (o : LowpassOracle n) (x : Vec n) :
    LowpassOracle n × Except Fault (Option (Cut n)) :=
  match passLoop x o.nwpass o with                                           -- 157
  | (o, .error f) => (o, .error f)
  | (o, .ok (some cut)) => (o, .ok (some cut))
  | (o, .ok none) =>
    match stopLoop x (o.mdim - o.nwstop) { o with fmax := ⊥, kmax := 0 } with   -- 176-180
    | (o, .error f) => (o, .error f)
    | (o, .ok (some cut)) => (o, .ok (some cut))
    | (o, .ok none) =>
      match transLoop x (o.nwstop - o.nwpass) o with                         -- 203
      | (o, .error f) => (o, .error f)
      | (o, .ok (some cut)) => (o, .ok (some cut))
      | (o, .ok none) => lastCheck o x

/-- `lowpass_oracle.py:251`: the answer of `assess_optim` at a feasible point. -/
def report (o : LowpassOracle n) : LowpassOracle n × Except Fault (Cut n × Option ℝ) :=
  match o.row o.kmax, o.fmax with
  | .error f, _ => (o, .error f)
  | .ok _, ⊥ => (o, .error .mathDomain)
  | .ok col, (v : ℝ) => (o, .ok ((col, .pair 0 v), some v))

/-- `lowpass_oracle.py:224-251`, `assess_optim`. -/
noncomputable def assessOptim (o : LowpassOracle n) (xc : Vec n) (gamma : ℝ) :
    LowpassOracle n × Except Fault (Cut n × Option ℝ) :=
  match assessFeas { o with spSq := gamma } xc with                          -- 244-247
  | (o, .error f) => (o, .error f)
  | (o, .ok (some cut)) => (o, .ok (cut, none))                              -- 248
  | (o, .ok none) => report o                                                -- 251

/-- `lowpass_oracle.py:258-293`, `create_lowpass_case`. -/
noncomputable def createLowpassCase (ndim : ℕ) : LowpassOracle ndim :=
  let delta0Wpass : ℝ := 0.025
  let delta0Wstop : ℝ := 0.125
  let delta1 := 20 * Real.logb 10 (1 + delta0Wpass)
  let delta2 := 20 * Real.logb 10 delta0Wstop
  let lowPass : ℝ := 10 ^ (-delta1 / 20)
  let upPass : ℝ := 10 ^ (delta1 / 20)
  let stopPass : ℝ := 10 ^ (delta2 / 20)
  init ndim 0.12 0.20 (lowPass * lowPass) (upPass * upPass) (stopPass * stopPass)

end LowpassOracle

end Ellalgo
