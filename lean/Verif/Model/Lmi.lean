import Verif.Model.Ldlt

/-!
# Model of `src/ellalgo/oracles/lmi_oracle.py`, `lmi0_oracle.py`, `lmi_old_oracle.py`

`q` matrices of order `m`; the point has `q` entries (other lengths are not modelled). The state of an oracle object
is its `LDLTMgr`; `mat_f` and `mat_b` are never changed.
-/

namespace Ellalgo

open Finset

variable {K : Type*} [Field K] [LinearOrder K] {m q : ℕ}

namespace LMIOracle

/-- `lmi_oracle.py:58-62`, `__init__`: `LDLTMgr(len(mat_b))`. -/
def init (_matB : Matrix (Fin m) (Fin m) K) : LDLTMgr K := LDLTMgr.init m

/-- `lmi_oracle.py:82-89`, `get_elem`. -/
def getElem (matF : Fin q → Matrix (Fin m) (Fin m) K) (matB : Matrix (Fin m) (Fin m) K) (xc : Fin q → K)
    (i j : ℕ) : K :=
  let s := ∑ k, toArr2 (matF k) i j * xc k
  toArr2 matB i j - s

/-- `lmi_oracle.py:64-98`, `assess_feas`. -/
def assessFeas (matF : Fin q → Matrix (Fin m) (Fin m) K) (matB : Matrix (Fin m) (Fin m) K) (mgr : LDLTMgr K)
    (xc : Fin q → K) : LDLTMgr K × Except Fault (Option ((Fin q → K) × K)) :=
  let r := mgr.factor (getElem matF matB xc)
  if r.2.1 then (r.1, .ok none)                                              -- 91-92
  else
    match r.1.witness with                                                   -- 95
    | (mgr2, .error f) => (mgr2, .error f)
    | (mgr2, .ok ep) => (mgr2, .ok (some (fun k => mgr2.symQuad (toArr2 (matF k)), ep)))   -- 97-98

end LMIOracle

namespace LMI0Oracle

/-- `lmi0_oracle.py:36-46`, `__init__`: `LDLTMgr(len(mat_f[0]))`; an empty list raises `IndexError`. -/
def init (_matF : Fin q → Matrix (Fin m) (Fin m) K) : Except Fault (LDLTMgr K) :=
  if q = 0 then .error .indexError else .ok (LDLTMgr.init m)

/-- `lmi0_oracle.py:68-75`, `get_elem`. -/
def getElem (matF : Fin q → Matrix (Fin m) (Fin m) K) (x : Fin q → K) (i j : ℕ) : K :=
  ∑ k, toArr2 (matF k) i j * x k

/-- `lmi0_oracle.py:48-84`, `assess_feas`. -/
def assessFeas (matF : Fin q → Matrix (Fin m) (Fin m) K) (mgr : LDLTMgr K)
    (x : Fin q → K) : LDLTMgr K × Except Fault (Option ((Fin q → K) × K)) :=
  let r := mgr.factor (getElem matF x)
  if r.2.1 = false then                                                      -- 78
    match r.1.witness with                                                   -- 80
    | (mgr2, .error f) => (mgr2, .error f)
    | (mgr2, .ok ep) => (mgr2, .ok (some (fun k => -mgr2.symQuad (toArr2 (matF k)), ep)))   -- 82-83
  else (r.1, .ok none)                                                       -- 84

end LMI0Oracle

namespace LMIOldOracle

/-- `lmi_old_oracle.py:52-54`, `__init__`. -/
def init (_matB : Matrix (Fin m) (Fin m) K) : LDLTMgr K := LDLTMgr.init m

/-- `lmi_old_oracle.py:56-85`, `assess_feas`: the whole matrix is built first (lines 78-80). -/
def assessFeas (matF : Fin q → Matrix (Fin m) (Fin m) K) (matB : Matrix (Fin m) (Fin m) K) (mgr : LDLTMgr K)
    (xc : Fin q → K) : LDLTMgr K × Except Fault (Option ((Fin q → K) × K)) :=
  let A := matB - ∑ k, xc k • matF k                                         -- 79-80
  let r := mgr.factorize A                                                   -- 81
  if r.2 = false then
    match r.1.witness with                                                   -- 82
    | (mgr2, .error f) => (mgr2, .error f)
    | (mgr2, .ok ep) => (mgr2, .ok (some (fun k => mgr2.symQuad (toArr2 (matF k)), ep)))   -- 83-84
  else (r.1, .ok none)                                                       -- 85

end LMIOldOracle

end Ellalgo
