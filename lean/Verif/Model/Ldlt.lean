import Verif.Model.Basic
import Verif.Model.Loops

/-!
# Model of `src/ellalgo/oracles/ldlt_mgr.py`

Generic over an ordered field (exact arithmetic); `sqrt` over the reals. `get_elem` is a pure function of the indices; the
calls made to it are recorded in order (`reads`), which the Python code does not do. A `get_elem` that
raises is not modelled.
-/

namespace Ellalgo

open Finset

variable {K : Type*}

/-- `ldlt_mgr.py:49-66`: the attributes of `LDLTMgr`. -/
structure LDLTMgr (K : Type*) where
  pos : ℕ × ℕ
  wit : ℕ → K
  ndim : ℕ
  storage : ℕ → ℕ → K

namespace LDLTMgr

/-- `ldlt_mgr.py:51-66`, `__init__`. -/
def init [Zero K] (ndim : ℕ) : LDLTMgr K where
  pos := (0, 0)
  wit := fun _ => 0
  ndim
  storage := fun _ _ => 0

/-- Local variables of the loop over `j`: storage, `diag`, and the log of calls of `get_elem`. -/
structure RowState (K : Type*) where
  storage : ℕ → ℕ → K
  diag : K
  reads : List (ℕ × ℕ)

variable [Field K] [LinearOrder K]

/-- Body of the loop over `j` (`ldlt_mgr.py:113-118` and `154-159`). -/
def rowStep (getElem : ℕ → ℕ → K) (start i j : ℕ) (st : RowState K) : RowState K :=
  let s1 := set2 st.storage j i st.diag                                  -- 113
  let s2 := set2 s1 i j (st.diag / s1 j j)                               -- 114
  let stop := j + 1                                                      -- 115
  { storage := s2
    diag := getElem i stop - ∑ k ∈ Ico start stop, s2 i k * s2 k stop    -- 116-118
    reads := st.reads ++ [(i, stop)] }

/-- One row (`ldlt_mgr.py:111-119` and `152-160`): storage after line 119/160, `diag`, and the log. -/
def row (getElem : ℕ → ℕ → K) (start i : ℕ) (storage : ℕ → ℕ → K) (reads : List (ℕ × ℕ)) : RowState K :=
  let st := forRange start i (rowStep getElem start i)
    { storage, diag := getElem i start, reads := reads ++ [(i, start)] }
  { st with storage := set2 st.storage i i st.diag }

/-- The outer loop of `factor` (`ldlt_mgr.py:110-122`) with `fuel` rows left: storage, `pos`, log. -/
def factorLoop (getElem : ℕ → ℕ → K) : (fuel i : ℕ) → (ℕ → ℕ → K) → List (ℕ × ℕ) →
    (ℕ → ℕ → K) × (ℕ × ℕ) × List (ℕ × ℕ)
  | 0, _, s, r => (s, (0, 0), r)
  | fuel + 1, i, s, r =>
    let st := row getElem 0 i s r
    if st.diag ≤ 0 then (st.storage, (0, i + 1), st.reads)               -- 120-122
    else factorLoop getElem fuel (i + 1) st.storage st.reads

/-- `ldlt_mgr.py:186`, `is_spd`. -/
def isSpd (m : LDLTMgr K) : Bool := m.pos.2 == 0

/-- `ldlt_mgr.py:84-123`, `factor`. Returns the new state, the result and the calls made to `get_elem`. -/
def factor (m : LDLTMgr K) (getElem : ℕ → ℕ → K) : LDLTMgr K × Bool × List (ℕ × ℕ) :=
  let r := factorLoop getElem m.ndim 0 m.storage []
  let m1 := { m with storage := r.1, pos := r.2.1 }
  (m1, m1.isSpd, r.2.2)

/-- `ldlt_mgr.py:68-82`, `factorize`. -/
def factorize {n : ℕ} (m : LDLTMgr K) (mat : Matrix (Fin n) (Fin n) K) : LDLTMgr K × Bool :=
  let r := m.factor (toArr2 mat)
  (r.1, r.2.1)

/-- The outer loop of `factor_with_allow_semidefinite` (`ldlt_mgr.py:151-165`). -/
def factorSemiLoop (getElem : ℕ → ℕ → K) : (fuel i start : ℕ) → (ℕ → ℕ → K) → List (ℕ × ℕ) →
    (ℕ → ℕ → K) × (ℕ × ℕ) × List (ℕ × ℕ)
  | 0, _, _, s, r => (s, (0, 0), r)
  | fuel + 1, i, start, s, r =>
    let st := row getElem start i s r
    if st.diag < 0 then (st.storage, (start, i + 1), st.reads)           -- 161-163
    else if st.diag = 0 then factorSemiLoop getElem fuel (i + 1) (i + 1) st.storage st.reads   -- 164-165
    else factorSemiLoop getElem fuel (i + 1) start st.storage st.reads

/-- `ldlt_mgr.py:125-166`, `factor_with_allow_semidefinite`. -/
def factorSemi (m : LDLTMgr K) (getElem : ℕ → ℕ → K) : LDLTMgr K × Bool × List (ℕ × ℕ) :=
  let r := factorSemiLoop getElem m.ndim 0 0 m.storage []
  let m1 := { m with storage := r.1, pos := r.2.1 }
  (m1, m1.isSpd, r.2.2)

/-- `ldlt_mgr.py:188-216`, `witness`. -/
def witness (m : LDLTMgr K) : LDLTMgr K × Except Fault K :=
  if m.isSpd then (m, .error .assertion)                            -- 209-210
  else
    let start := m.pos.1                                                 -- 211
    let pos := m.pos.2
    let last := pos - 1                                                  -- 212
    let w0 := set1 m.wit last 1                                          -- 213
    let w := forDown start
      (fun i w => set1 w (i - 1) (-∑ k ∈ Ico i pos, m.storage k (i - 1) * w k)) last w0   -- 214-215
    ({ m with wit := w }, .ok (-m.storage last last))                    -- 216

/-- `ldlt_mgr.py:218-248`, `sym_quad`. -/
def symQuad (m : LDLTMgr K) (mat : ℕ → ℕ → K) : K :=
  ∑ i ∈ Ico m.pos.1 m.pos.2, m.wit i * ∑ j ∈ Ico m.pos.1 m.pos.2, mat i j * m.wit j

/-- Body of the loop over `i` in `sqrt` (`ldlt_mgr.py:277-279`). -/
noncomputable def sqrtRow (storage : ℕ → ℕ → ℝ) (ndim i : ℕ) (R : ℕ → ℕ → ℝ) : ℕ → ℕ → ℝ :=
  forRange (i + 1) ndim (fun j R => set2 R i j (storage j i * R i i)) (set2 R i i (Real.sqrt (storage i i)))

/-- `ldlt_mgr.py:250-280`, `sqrt`. `math.sqrt` of a negative number would raise; after a successful factorisation the diagonal is positive. -/
noncomputable def sqrt (m : LDLTMgr ℝ) : Except Fault (ℕ → ℕ → ℝ) :=
  if m.isSpd then
    .ok (forRange 0 m.ndim (sqrtRow m.storage m.ndim) fun _ _ => 0)
  else .error .assertion

end LDLTMgr

end Ellalgo
