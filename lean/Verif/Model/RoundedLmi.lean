import Verif.Model.Rounded
import Verif.Model.Lmi

/-!
# `lmi_oracle.py`, `lmi0_oracle.py` and `lmi_old_oracle.py` in rounded arithmetic

The code of `Model/Lmi` with a rounding after every operation. The entries of `mat_f`, `mat_b` and of the point are NumPy scalars, so the builtin `sum` adds one product after the other, starting with 0.
-/

namespace Ellalgo

namespace Arith

variable (A : Arith) {m q : ℕ}

/-- `sum(x[k] * y[k] for k in range(n))`. -/
def psum {n : ℕ} (x y : Fin n → ℝ) : ℝ := Fin.foldl n (fun s k => A.add s (A.mul (x k) (y k))) 0

/-- `lmi_oracle.py:82-89`, `get_elem`. -/
def lmiElem (matF : Fin q → Mat m) (matB : Mat m) (xc : Vec q) (i j : ℕ) : ℝ :=
  A.sub (toArr2 matB i j) (A.psum (fun k => toArr2 (matF k) i j) xc)

/-- `lmi_oracle.py:64-98`, `assess_feas`. -/
noncomputable def lmiAssess (matF : Fin q → Mat m) (matB : Mat m) (mgr : LDLTMgr ℝ) (xc : Vec q) : LDLTMgr ℝ × Except Fault (Option (Vec q × ℝ)) :=
  let r := A.factor mgr (A.lmiElem matF matB xc)
  if r.2.1 then (r.1, .ok none)                                              -- 91-92
  else
    match A.witness r.1 with                                                 -- 95
    | (mgr2, .error f) => (mgr2, .error f)
    | (mgr2, .ok ep) => (mgr2, .ok (some (fun k => A.symQuad mgr2 (toArr2 (matF k)), ep)))   -- 97-98

/-- `lmi0_oracle.py:68-75`, `get_elem`. -/
def lmi0Elem (matF : Fin q → Mat m) (x : Vec q) (i j : ℕ) : ℝ := A.psum (fun k => toArr2 (matF k) i j) x

/-- `lmi0_oracle.py:48-84`, `assess_feas`. A change of sign is exact. -/
noncomputable def lmi0Assess (matF : Fin q → Mat m) (mgr : LDLTMgr ℝ) (x : Vec q) : LDLTMgr ℝ × Except Fault (Option (Vec q × ℝ)) :=
  let r := A.factor mgr (A.lmi0Elem matF x)
  if r.2.1 = false then                                                      -- 78
    match A.witness r.1 with                                                 -- 80
    | (mgr2, .error f) => (mgr2, .error f)
    | (mgr2, .ok ep) => (mgr2, .ok (some (fun k => -A.symQuad mgr2 (toArr2 (matF k)), ep)))   -- 82-83
  else (r.1, .ok none)                                                       -- 84

/-- `lmi_old_oracle.py:56-85`, `assess_feas`: the whole matrix is built first; array operations act entry by entry. -/
noncomputable def lmiOldAssess (matF : Fin q → Mat m) (matB : Mat m) (mgr : LDLTMgr ℝ) (xc : Vec q) : LDLTMgr ℝ × Except Fault (Option (Vec q × ℝ)) :=
  let M : Mat m := fun i j => A.sub (matB i j) (A.psum (fun k => matF k i j) xc)   -- 79-80
  let r := A.factor mgr (toArr2 M)                                           -- 81
  if r.2.1 = false then
    match A.witness r.1 with                                                 -- 82
    | (mgr2, .error f) => (mgr2, .error f)
    | (mgr2, .ok ep) => (mgr2, .ok (some (fun k => A.symQuad mgr2 (toArr2 (matF k)), ep)))   -- 83-84
  else (r.1, .ok none)                                                       -- 85

end Arith

end Ellalgo
