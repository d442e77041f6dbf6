import Verif.Model.Rounded

/-!
# `factor_with_allow_semidefinite` and `sqrt` of `ldlt_mgr.py` in rounded arithmetic

The code of `Model/Ldlt` with a rounding after every operation, like `factor` and `witness` in `Model/Rounded`.
-/

namespace Ellalgo

namespace Arith

variable (A : Arith)

/-- The outer loop of `factor_with_allow_semidefinite` (`ldlt_mgr.py:151-165`). -/
noncomputable def factorSemiLoop (getElem : ℕ → ℕ → ℝ) : (fuel i start : ℕ) → (ℕ → ℕ → ℝ) → List (ℕ × ℕ) →
    (ℕ → ℕ → ℝ) × (ℕ × ℕ) × List (ℕ × ℕ)
  | 0, _, _, s, r => (s, (0, 0), r)
  | fuel + 1, i, start, s, r =>
    let st := A.row getElem start i s r
    if st.diag < 0 then (st.storage, (start, i + 1), st.reads)           -- 161-163
    else if st.diag = 0 then factorSemiLoop getElem fuel (i + 1) (i + 1) st.storage st.reads   -- 164-165
    else factorSemiLoop getElem fuel (i + 1) start st.storage st.reads

/-- `ldlt_mgr.py:125-166`, `factor_with_allow_semidefinite`. -/
noncomputable def factorSemi (m : LDLTMgr ℝ) (getElem : ℕ → ℕ → ℝ) : LDLTMgr ℝ × Bool × List (ℕ × ℕ) :=
  let r := A.factorSemiLoop getElem m.ndim 0 0 m.storage []
  let m1 := { m with storage := r.1, pos := r.2.1 }
  (m1, m1.isSpd, r.2.2)

/-- Body of the loop over `i` in `sqrt` (`ldlt_mgr.py:277-279`); `math.sqrt` of a negative number raises. -/
noncomputable def sqrtRow (storage : ℕ → ℕ → ℝ) (ndim i : ℕ) (R : ℕ → ℕ → ℝ) : Except Fault (ℕ → ℕ → ℝ) :=
  if storage i i < 0 then .error .valueError
  else .ok (forRange (i + 1) ndim (fun j R => set2 R i j (A.mul (storage j i) (R i i))) (set2 R i i (A.rnd (Real.sqrt (storage i i)))))

/-- The loop over `i` in `sqrt` (`ldlt_mgr.py:276-279`). -/
noncomputable def sqrtLoop (storage : ℕ → ℕ → ℝ) (ndim : ℕ) : (len i : ℕ) → (ℕ → ℕ → ℝ) → Except Fault (ℕ → ℕ → ℝ)
  | 0, _, R => .ok R
  | len + 1, i, R =>
    match A.sqrtRow storage ndim i R with
    | .error f => .error f
    | .ok R' => sqrtLoop storage ndim len (i + 1) R'

/-- `ldlt_mgr.py:250-280`, `sqrt`. -/
noncomputable def ldltSqrt (m : LDLTMgr ℝ) : Except Fault (ℕ → ℕ → ℝ) :=
  if m.isSpd then A.sqrtLoop m.storage m.ndim m.ndim 0 fun _ _ => 0 else .error .assertion

end Arith

end Ellalgo
