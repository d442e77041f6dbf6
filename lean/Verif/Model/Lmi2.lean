import Verif.Model.Lmi

/-!
# Model of `src/ellalgo/oracles/lmi2_oracle.tpy` and `lmi3_oracle.tpy`

The files have the extension `.tpy`, import `LDLTMgr` from a module that no longer exists (`chol_ext`) and are not imported by the package; they are modelled with the `LDLTMgr` of
`ldlt_mgr.py`. The arrays `self.A` and `self.S`, which only record the elements that were read, are left out.
-/

namespace Ellalgo

open Finset

variable {K : Type*} [Field K] [LinearOrder K] {m q : ℕ}

namespace LMI2Oracle

/-- `lmi2_oracle.tpy:15-20`, `__init__`: `LDLTMgr(len(U))`. -/
def init (_U : Matrix (Fin m) (Fin m) K) : LDLTMgr K := LDLTMgr.init m

/-- `lmi2_oracle.tpy:27-29`, `getS`. -/
def getS (matF : Fin q → Matrix (Fin m) (Fin m) K) (x : Fin q → K) (i j : ℕ) : K :=
  ∑ k, toArr2 (matF k) i j * x k

/-- `lmi2_oracle.tpy:31-36`, `get_elem`. -/
def getElem (matF : Fin q → Matrix (Fin m) (Fin m) K) (U : Matrix (Fin m) (Fin m) K) (x : Fin q → K) (i j : ℕ) : K :=
  toArr2 U i j - ∑ k, toArr2 (matF k) i j * x k

/-- `lmi2_oracle.tpy:22-51`, `assess_feas`: the cut is `(g, (f, fj))`. -/
def assessFeas (matF : Fin q → Matrix (Fin m) (Fin m) K) (U : Matrix (Fin m) (Fin m) K) (mgr : LDLTMgr K)
    (x : Fin q → K) : LDLTMgr K × Except Fault (Option ((Fin q → K) × K × K)) :=
  let r := mgr.factor (getElem matF U x)                                     -- 38
  if r.2.1 = false then
    match r.1.witness with                                                   -- 39
    | (mgr2, .error f) => (mgr2, .error f)
    | (mgr2, .ok f) => (mgr2, .ok (some (fun k => mgr2.symQuad (toArr2 (matF k)), f, f + mgr2.symQuad (toArr2 U))))   -- 41-44
  else
    let r2 := r.1.factor (getS matF x)                                       -- 46
    if r2.2.1 = false then
      match r2.1.witness with                                                -- 47
      | (mgr2, .error f) => (mgr2, .error f)
      | (mgr2, .ok f) => (mgr2, .ok (some (fun k => -mgr2.symQuad (toArr2 (matF k)), f, f + mgr2.symQuad (toArr2 U))))   -- 49-51
    else (r2.1, .ok none)                                                    -- falls off the end: `None`

end LMI2Oracle

namespace LMI3Oracle

/-- `lmi3_oracle.tpy:16-20`, `__init__`: `LDLTMgr(len(mat_b))`. -/
def init (_matB : Matrix (Fin m) (Fin m) K) : LDLTMgr K := LDLTMgr.init m

/-- `lmi3_oracle.tpy:26-30`, `get_elem`, with `mat_f0 = -mat_b` (line 18). -/
def getElem (matF : Fin q → Matrix (Fin m) (Fin m) K) (matB : Matrix (Fin m) (Fin m) K) (x : Fin q → K) (i j : ℕ) : K :=
  toArr2 (-matB) i j + ∑ k, toArr2 (matF k) i j * x k

/-- `lmi3_oracle.tpy:22-40`, `assess_feas`. -/
def assessFeas (matF : Fin q → Matrix (Fin m) (Fin m) K) (matB : Matrix (Fin m) (Fin m) K) (mgr : LDLTMgr K)
    (x : Fin q → K) : LDLTMgr K × Except Fault (Option ((Fin q → K) × K)) :=
  let r := mgr.factor (getElem matF matB x)                                  -- 32
  if r.2.1 then (r.1, .ok none)                                              -- 33
  else
    match r.1.witness with                                                   -- 34
    | (mgr2, .error f) => (mgr2, .error f)
    | (mgr2, .ok f) => (mgr2, .ok (some (fun k => -mgr2.symQuad (toArr2 (matF k)), f)))   -- 38-40

end LMI3Oracle

end Ellalgo
