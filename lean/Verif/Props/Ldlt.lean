import Verif.Lemmas.Ldlt
import Mathlib.LinearAlgebra.Matrix.Notation
import Mathlib.LinearAlgebra.Matrix.PosDef
import Mathlib.Data.Real.Star
import Mathlib.Tactic.NormNum

/-! # C37–C42: `LDLTMgr` -/

namespace Ellalgo

open Finset Spec Matrix LDLTMgr

variable {K : Type*} [Field K] [LinearOrder K] [IsStrictOrderedRing K]

/-- The documentation example (`ldlt_mgr.py:105`). -/
def docA : Matrix (Fin 3) (Fin 3) ℚ := !![1, 1/2, 1/2; 1/2, 5/4, 3/4; 1/2, 3/4, 3/2]

/-- The documentation example of a matrix that is not positive definite (`ldlt_mgr.py:202`). -/
def docB : Matrix (Fin 3) (Fin 3) ℚ := !![1, 2, 3; 2, 7/2, 5; 3, 5, 6]

omit [LinearOrder K] [IsStrictOrderedRing K] in
/-- A symmetric matrix is determined by its lower triangle. -/
theorem symOf_toArr2 {n : ℕ} {A : Matrix (Fin n) (Fin n) K} (hA : A.IsSymm) : symOf n (toArr2 A) = A := by
  ext i j
  unfold symOf
  split_ifs
  · exact toArr2_apply A i j
  · rw [toArr2_apply A j i]; exact hA.apply i j

omit [Field K] [LinearOrder K] [IsStrictOrderedRing K] in
theorem isSpd_iff (m : LDLTMgr K) : m.isSpd = true ↔ m.pos.2 = 0 := by simp [isSpd]

/-- If the factorisation failed there is a vector on which the form takes the value of the pivot. -/
theorem exists_witness {a : ℕ → ℕ → K} {n s i : ℕ} {S : ℕ → ℕ → K} (hi : i < n) (hs : s ≤ i)
    (h : Fac a s (i + 1) S) (hd : ∀ j, s ≤ j → j < i → 0 < S j j) :
    ∃ v : Fin n → K, v ≠ 0 ∧ v ⬝ᵥ (symOf n a *ᵥ v) = S i i := by
  obtain ⟨w, -, hw, hz⟩ := witness_spec ({ pos := (s, i + 1), wit := fun _ => 0, ndim := n, storage := S } : LDLTMgr K)
    rfl hs
  refine ⟨sliceVec n w s (i + 1), fun h0 => ?_, ?_⟩
  · have := congrFun h0 ⟨i, hi⟩
    simp [sliceVec, hs, hw] at this
  · rw [quad_symOf (by omega)]
    exact h.quad_witness hs (fun j h1 h2 => (hd j h1 h2).ne') hw hz

/-- **C37.** `factor` returns `True` iff the symmetric matrix with the given lower triangle is positive definite, whatever the state of the manager. -/
theorem C37_factor_decides_spd (m : LDLTMgr K) (a : ℕ → ℕ → K) :
    (m.factor a).2.1 = true ↔ QuadPos (symOf m.ndim a) := by
  have hb : (m.factor a).2.1 = (m.factor a).1.isSpd := rfl
  rw [hb, isSpd_iff]
  have hend := factor_spec m a
  generalize (m.factor a).2.2 = rd at hend
  rcases hx : (m.factor a).1.pos with ⟨p1, p2⟩
  rw [hx] at hend
  constructor
  · intro h0
    simp only at h0
    subst h0
    cases hend with
    | good h hp => exact h.quadPos hp
  · intro hq
    cases hend with
    | good => rfl
    | bad hi h hp hd =>
      obtain ⟨v, hv, hv2⟩ := exists_witness hi (Nat.zero_le _) h (fun j _ hj => hp j hj)
      exact absurd (hq v hv) (by rw [hv2]; exact not_lt.mpr hd)

/-- **C37 for `factorize`** on a symmetric real matrix: positive definite in the sense of Mathlib. -/
theorem C37_factorize_posDef {n : ℕ} (m : LDLTMgr ℝ) (hm : m.ndim = n) (A : Matrix (Fin n) (Fin n) ℝ)
    (hA : A.IsSymm) : (m.factorize A).2 = true ↔ A.PosDef := by
  subst hm
  have h := C37_factor_decides_spd m (toArr2 A)
  rw [symOf_toArr2 hA] at h
  refine h.trans ⟨fun hq => ?_, fun hp v hv => ?_⟩
  · refine Matrix.PosDef.of_dotProduct_mulVec_pos (by rwa [isHermitian_iff_isSymm]) fun v hv => ?_
    simpa using hq v hv
  · simpa using hp.dotProduct_mulVec_pos hv

/-- C37 on the documentation examples; the second manager has been used before. -/
example : ((init 3).factorize docA).2 = true ∧ (((init 3).factorize docB).1.factorize docA).2 = true ∧
    ((init 3).factorize docB).2 = false := by
  refine ⟨?_, ?_, ?_⟩ <;> decide +kernel

/-- The unit lower triangular factor as a matrix. -/
def lowerM (n : ℕ) (S : ℕ → ℕ → K) : Matrix (Fin n) (Fin n) K :=
  fun i j => if j = i then 1 else if j < i then S i j else 0

omit [IsStrictOrderedRing K] in
/-- **C38.** After `factor` returned `True` the stored numbers are the factors of the matrix: with `L` unit lower triangular from the entries below the diagonal and `D` the stored
diagonal, which is positive, `L D Lᵀ` is the matrix. -/
theorem C38_factors_reproduce (m : LDLTMgr K) (a : ℕ → ℕ → K) (h : (m.factor a).2.1 = true) :
    lowerM m.ndim (m.factor a).1.storage *
        Matrix.diagonal (fun k : Fin m.ndim => (m.factor a).1.storage k k) *
        (lowerM m.ndim (m.factor a).1.storage)ᵀ = symOf m.ndim a ∧
      ∀ k : Fin m.ndim, 0 < (m.factor a).1.storage k k := by
  have h0 : (m.factor a).1.pos.2 = 0 := (isSpd_iff _).mp h
  have hend := factor_spec m a
  generalize (m.factor a).2.2 = rd at hend
  rcases hx : (m.factor a).1.pos with ⟨p1, p2⟩
  rw [hx] at hend h0
  simp only at h0
  subst h0
  cases hend with
  | good hf hp =>
    refine ⟨?_, fun k => hp k k.2⟩
    ext i j
    have := hf.gram (fun k _ hk => (hp k (by omega)).ne') (Nat.zero_le (j : ℕ)) (Nat.zero_le (i : ℕ)) i.2 j.2
    rw [Matrix.mul_apply]
    simp only [Matrix.mul_diagonal, Matrix.transpose_apply]
    have hl : ∀ r k : Fin m.ndim, lowerM m.ndim (m.factor a).1.storage r k =
        lowerF (m.factor a).1.storage r k := by
      intro r k
      simp [lowerM, lowerF, Fin.ext_iff]
    simp only [hl]
    rw [Fin.sum_univ_eq_sum_range (fun k => lowerF (m.factor a).1.storage i k * (m.factor a).1.storage k k *
      lowerF (m.factor a).1.storage j k) m.ndim, range_eq_Ico, ← this]
    simp [symE, symOf]

/-- C38 on the documentation example. -/
example : ((init 3).factor (toArr2 docA)).2.1 = true := by decide +kernel

/-- **C39.** After `factor` returned `False`, `witness()` does not raise; it returns `ep ≥ 0` and leaves a vector `v` (the entries of `wit` in the range `pos`, zero elsewhere) with last entry 1,
`vᵀAv = -ep`, and `sym_quad(B) = vᵀBv` for every `B`. -/
theorem C39_witness_certifies (m : LDLTMgr K) (a : ℕ → ℕ → K) (h : (m.factor a).2.1 = false) :
    ∃ m2 ep, (m.factor a).1.witness = (m2, .ok ep) ∧ 0 ≤ ep ∧
      m2.pos = (m.factor a).1.pos ∧ m2.pos.1 < m2.pos.2 ∧ m2.pos.2 ≤ m.ndim ∧ m2.wit (m2.pos.2 - 1) = 1 ∧
      (let v := sliceVec m.ndim m2.wit m2.pos.1 m2.pos.2
       v ≠ 0 ∧ v ⬝ᵥ (symOf m.ndim a *ᵥ v) = -ep ∧
       ∀ B : Matrix (Fin m.ndim) (Fin m.ndim) K, m2.symQuad (toArr2 B) = v ⬝ᵥ (B *ᵥ v)) := by
  have h0 : (m.factor a).1.pos.2 ≠ 0 := fun h0 => by
    have : (m.factor a).2.1 = true := (isSpd_iff _).mpr h0
    rw [this] at h; cases h
  have hend := factor_spec m a
  generalize (m.factor a).2.2 = rd at hend
  rcases hx : (m.factor a).1.pos with ⟨p1, p2⟩
  rw [hx] at hend h0
  cases hend with
  | good => exact absurd rfl h0
  | @bad S i hi hf hp hd =>
    obtain ⟨w, h1, hw, hz⟩ := witness_spec (m.factor a).1 hx (Nat.zero_le i)
    refine ⟨_, _, h1, neg_nonneg.mpr hd, hx, ?_⟩
    rw [show (({ (m.factor a).1 with wit := w } : LDLTMgr K)).pos = (0, i + 1) from hx]
    refine ⟨Nat.succ_pos _, hi, hw, ?_, ?_, ?_⟩
    · intro hv
      have := congrFun hv ⟨i, hi⟩
      simp [sliceVec, hw] at this
    · rw [quad_symOf (by omega), hf.quad_witness (Nat.zero_le _) (fun j _ h2 => (hp j h2).ne') hw hz, neg_neg]
    · intro B
      rw [quad_mat (by omega)]
      simp only [symQuad]

/-- **C39 for `factor_with_allow_semidefinite`**: the same with `ep > 0`. -/
theorem C39_semi_witness_certifies (m : LDLTMgr K) (a : ℕ → ℕ → K) (h : (m.factorSemi a).2.1 = false) :
    ∃ m2 ep, (m.factorSemi a).1.witness = (m2, .ok ep) ∧ 0 < ep ∧
      m2.pos = (m.factorSemi a).1.pos ∧ m2.pos.1 < m2.pos.2 ∧ m2.pos.2 ≤ m.ndim ∧ m2.wit (m2.pos.2 - 1) = 1 ∧
      (let v := sliceVec m.ndim m2.wit m2.pos.1 m2.pos.2
       v ≠ 0 ∧ v ⬝ᵥ (symOf m.ndim a *ᵥ v) = -ep ∧
       ∀ B : Matrix (Fin m.ndim) (Fin m.ndim) K, m2.symQuad (toArr2 B) = v ⬝ᵥ (B *ᵥ v)) := by
  have h0 : (m.factorSemi a).1.pos.2 ≠ 0 := fun h0 => by
    have : (m.factorSemi a).2.1 = true := (isSpd_iff _).mpr h0
    rw [this] at h; cases h
  have hend := factorSemi_spec m a
  rcases hx : (m.factorSemi a).1.pos with ⟨p1, p2⟩
  rw [hx] at hend h0
  cases hend with
  | good => exact absurd rfl h0
  | @bad S i s r hi hs hf hp hd =>
    obtain ⟨w, h1, hw, hz⟩ := witness_spec (m.factorSemi a).1 hx hs
    refine ⟨_, _, h1, neg_pos.mpr hd, hx, ?_⟩
    rw [show (({ (m.factorSemi a).1 with wit := w } : LDLTMgr K)).pos = (p1, i + 1) from hx]
    refine ⟨Nat.lt_succ_of_le hs, hi, hw, ?_, ?_, ?_⟩
    · intro hv
      have := congrFun hv ⟨i, hi⟩
      simp [sliceVec, hw, hs] at this
    · rw [quad_symOf (by omega), hf.quad_witness hs (fun j h1 h2 => (hp j h1 h2).ne') hw hz, neg_neg]
    · intro B
      rw [quad_mat (by omega)]
      simp only [symQuad]

omit [IsStrictOrderedRing K] in
/-- `witness` on a positive definite matrix raises `AssertionError` and changes nothing. -/
theorem C39_witness_raises (m : LDLTMgr K) (a : ℕ → ℕ → K) (h : (m.factor a).2.1 = true) :
    (m.factor a).1.witness = ((m.factor a).1, .error .assertion) := by
  have h' : (m.factor a).1.isSpd = true := h
  unfold witness
  rw [if_pos h']

/-- C39 on the documentation example: `pos = (0, 2)`, `ep = 0.5`, `wit = [-2, 1, 0]`, `sym_quad = 3.25`. -/
example : ((init 3).factorize docB).2 = false ∧ ((init 3).factorize docB).1.pos = (0, 2) ∧
    ((init 3).factorize docB).1.witness.2.toOption = some (1 / 2) ∧
    ((init 3).factorize docB).1.witness.1.wit 0 = -2 ∧
    ((init 3).factorize docB).1.witness.1.symQuad (toArr2 docA) = 13 / 4 := by
  refine ⟨?_, ?_, ?_, ?_, ?_⟩ <;> decide +kernel

/-- A failure of the semidefinite variant in a later block. -/
example : ((init 3).factorSemi (toArr2 (!![0, 5, 5; 5, 1, 2; 5, 2, 1] : Matrix (Fin 3) (Fin 3) ℚ))).2.1 = false ∧
    ((init 3).factorSemi (toArr2 (!![0, 5, 5; 5, 1, 2; 5, 2, 1] : Matrix (Fin 3) (Fin 3) ℚ))).1.pos = (1, 3) := by
  constructor <;> decide +kernel

omit [IsStrictOrderedRing K] in
/-- **C40.** The calls `factor` makes to `get_elem`, in order: row by row the entries `(i, 0), ..., (i, i)`, for the first `r` rows, where `r` is the order of
the matrix if the result is `True` and the index of the failing row plus one otherwise. So nothing above the diagonal is read, nothing is read twice, no row after the failing one. -/
theorem C40_factor_lazy (m : LDLTMgr K) (a : ℕ → ℕ → K) :
    (m.factor a).2.2 =
      (List.range (if (m.factor a).2.1 then m.ndim else (m.factor a).1.pos.2)).flatMap fun i =>
        (List.range (i + 1)).map fun c => (i, c) := by
  have hend := factor_spec m a
  have hb : (m.factor a).2.1 = (m.factor a).1.isSpd := rfl
  rcases hx : (m.factor a).1.pos with ⟨p1, p2⟩
  have hspd : (m.factor a).1.isSpd = (p2 == 0) := by simp [isSpd, hx]
  rw [hb, hspd]
  rw [hx] at hend
  rcases hr : (m.factor a).2.2 with rd
  rw [hr] at hend
  cases hend with
  | good => simp
  | bad => simp

omit [IsStrictOrderedRing K] in
/-- In terms of single reads: only lower-triangle entries, none twice, none beyond the failing row. -/
theorem C40_factor_reads (m : LDLTMgr K) (a : ℕ → ℕ → K) :
    (∀ i j, (i, j) ∈ (m.factor a).2.2 → j ≤ i ∧ i < m.ndim ∧
      ((m.factor a).2.1 = false → i < (m.factor a).1.pos.2)) ∧ (m.factor a).2.2.Nodup := by
  have hle : (m.factor a).1.pos.2 ≤ m.ndim := by
    have hend := factor_spec m a
    generalize (m.factor a).2.2 = rd at hend
    rcases hx : (m.factor a).1.pos with ⟨p1, p2⟩
    rw [hx] at hend
    cases hend with
    | good => exact Nat.zero_le _
    | bad hi => exact hi
  rw [C40_factor_lazy]
  constructor
  · intro i j hij
    rw [List.mem_flatMap] at hij
    obtain ⟨i', h1, h2⟩ := hij
    simp only [List.mem_map, List.mem_range, Prod.mk.injEq] at h1 h2
    obtain ⟨j', h3, rfl, rfl⟩ := h2
    refine ⟨by omega, ?_, fun hf => ?_⟩
    · split_ifs at h1 <;> omega
    · rw [hf] at h1; exact h1
  · rw [List.nodup_flatMap]
    refine ⟨fun i _ => ?_, ?_⟩
    · exact List.Nodup.map (fun x y hxy => by simpa using hxy) List.nodup_range
    · refine List.Pairwise.imp ?_ List.nodup_range
      intro x y hxy
      simp only [Function.onFun, List.disjoint_left, List.mem_map, List.mem_range, not_exists, not_and]
      rintro ⟨p, q⟩ ⟨c, -, h1⟩ c' - h2
      rw [Prod.mk.injEq] at h1 h2
      exact hxy (h1.1.trans h2.1.symm)

omit [LinearOrder K] [IsStrictOrderedRing K] in
theorem rowStep_congr {a b : ℕ → ℕ → K} {s i j : ℕ} {st : RowState K} (h : a i (j + 1) = b i (j + 1)) :
    rowStep a s i j st = rowStep b s i j st := by
  simp only [rowStep, h]

omit [LinearOrder K] [IsStrictOrderedRing K] in
theorem row_congr {a b : ℕ → ℕ → K} {s i : ℕ} (hs : s ≤ i) {S : ℕ → ℕ → K} {rd : List (ℕ × ℕ)}
    (h : ∀ j ≤ i, a i j = b i j) : LDLTMgr.row a s i S rd = LDLTMgr.row b s i S rd := by
  unfold LDLTMgr.row
  rw [h s hs, forRange_congr (f := rowStep a s i) (g := rowStep b s i)
    (fun j st _ hj => rowStep_congr (h (j + 1) hj))]

omit [IsStrictOrderedRing K] in
/-- The result and the new state depend only on the lower triangle. -/
theorem C40_factor_depends_on_lower (m : LDLTMgr K) (a b : ℕ → ℕ → K) (h : ∀ i j, j ≤ i → i < m.ndim → a i j = b i j) :
    m.factor a = m.factor b := by
  have key : ∀ fuel i S rd, i + fuel = m.ndim → factorLoop a fuel i S rd = factorLoop b fuel i S rd := by
    intro fuel
    induction fuel with
    | zero => intros; rfl
    | succ fuel ih =>
      intro i S rd hi
      unfold factorLoop
      rw [row_congr (Nat.zero_le i) (fun j hj => h i j hj (by omega))]
      simp only
      split_ifs
      · rfl
      · exact ih _ _ _ (by omega)
  unfold factor
  rw [key _ _ _ _ (by omega)]

/-- C40 on the documentation example: the third row is never read. -/
example : ((init 3).factor (toArr2 docB)).2.2 = [(0, 0), (1, 0), (1, 1)] := by decide +kernel

/-! ### C41 -/

theorem sqrtRow_spec {S : ℕ → ℕ → ℝ} {n i : ℕ} (hi : i < n) (R : ℕ → ℕ → ℝ) :
    (∀ r c, r ≠ i → sqrtRow S n i R r c = R r c) ∧ (∀ c, c < i → sqrtRow S n i R i c = R i c) ∧
    sqrtRow S n i R i i = Real.sqrt (S i i) ∧
    ∀ c, i < c → c < n → sqrtRow S n i R i c = S c i * Real.sqrt (S i i) := by
  have := forRange_inv (lo := i + 1) (hi := n) (st := set2 R i i (Real.sqrt (S i i)))
    (f := fun j R => set2 R i j (S j i * R i i))
    (fun j R' => (∀ r c, r ≠ i → R' r c = R r c) ∧ (∀ c, c < i → R' i c = R i c) ∧ R' i i = Real.sqrt (S i i) ∧
      ∀ c, i < c → c < j → R' i c = S c i * Real.sqrt (S i i)) hi
    ⟨fun r c hr => set2_ne (.inl hr), fun c hc => set2_ne (.inr (by omega)), by simp, fun c h1 h2 => by omega⟩ (by
    rintro j R' h1 h2 ⟨h3, h4, h5, h6⟩
    refine ⟨fun r c hr => ?_, fun c hc => ?_, ?_, fun c h7 h8 => ?_⟩
    · rw [set2_ne (.inl hr)]; exact h3 r c hr
    · rw [set2_ne (.inr (by omega))]; exact h4 c hc
    · rw [set2_ne (.inr (by omega))]; exact h5
    · rcases Nat.lt_succ_iff_lt_or_eq.mp h8 with h9 | rfl
      · rw [set2_ne (.inr (by omega))]; exact h6 c h7 h9
      · rw [set2_self, h5])
  exact this

/-- **C41.** After `factor` returned `True`, `sqrt()` returns an upper triangular `R` with positive diagonal and `RᵀR = A`; after it returned `False`, `sqrt()` raises
`AssertionError`. -/
theorem C41_sqrt_is_cholesky (m : LDLTMgr ℝ) (a : ℕ → ℕ → ℝ) :
    ((m.factor a).2.1 = true → ∃ R, (m.factor a).1.sqrt = .ok R ∧
      (∀ i j : Fin m.ndim, j < i → R i j = 0) ∧ (∀ i : Fin m.ndim, 0 < R i i) ∧
      (let RM : Matrix (Fin m.ndim) (Fin m.ndim) ℝ := Matrix.of fun i j => R i j
       RMᵀ * RM = symOf m.ndim a)) ∧
    ((m.factor a).2.1 = false → (m.factor a).1.sqrt = .error .assertion) := by
  constructor
  · intro h
    have hspd : (m.factor a).1.isSpd = true := h
    obtain ⟨hL, hpos⟩ := C38_factors_reproduce m a h
    set S := (m.factor a).1.storage with hS
    have hn : (m.factor a).1.ndim = m.ndim := rfl
    have hR := forRange_inv (lo := 0) (hi := m.ndim) (f := sqrtRow S m.ndim) (st := fun _ _ => (0 : ℝ))
      (fun j R => (∀ r c, j ≤ r → R r c = 0) ∧ ∀ r, r < j →
        (∀ c, c < r → R r c = 0) ∧ R r r = Real.sqrt (S r r) ∧
        ∀ c, r < c → c < m.ndim → R r c = S c r * Real.sqrt (S r r)) (Nat.zero_le _)
      ⟨fun _ _ _ => rfl, fun _ h => absurd h (Nat.not_lt_zero _)⟩ (by
      rintro j R h1 h2 ⟨h3, h4⟩
      obtain ⟨s1, s2, s3, s4⟩ := sqrtRow_spec (S := S) h2 R
      refine ⟨fun r c hr => by rw [s1 r c (by omega)]; exact h3 r c (by omega), fun r hr => ?_⟩
      rcases Nat.lt_succ_iff_lt_or_eq.mp hr with hr | rfl
      · obtain ⟨a1, a2, a3⟩ := h4 r hr
        refine ⟨fun c hc => by rw [s1 r c (by omega)]; exact a1 c hc, by rw [s1 r r (by omega)]; exact a2,
          fun c hc hc2 => by rw [s1 r c (by omega)]; exact a3 c hc hc2⟩
      · exact ⟨fun c hc => by rw [s2 c hc]; exact h3 r c le_rfl, s3, s4⟩)
    refine ⟨_, by unfold LDLTMgr.sqrt; rw [if_pos hspd], ?_⟩
    rw [hn, ← hS]
    set R := forRange 0 m.ndim (sqrtRow S m.ndim) fun _ _ => (0 : ℝ)
    refine ⟨fun i j hji => (hR.2 i i.2).1 j hji, fun i => ?_, ?_⟩
    · rw [(hR.2 i i.2).2.1]; exact Real.sqrt_pos.mpr (hpos i)
    · intro RM
      rw [← hL]
      ext i j
      rw [Matrix.mul_apply, Matrix.mul_apply]
      refine Finset.sum_congr rfl fun k _ => ?_
      have hrow : ∀ c : Fin m.ndim, R k c = lowerM m.ndim S c k * Real.sqrt (S k k) := by
        intro c
        unfold lowerM
        rcases lt_trichotomy k c with hkc | rfl | hkc
        · rw [if_neg hkc.ne, if_pos hkc, (hR.2 k k.2).2.2 c hkc c.2]
        · rw [if_pos rfl, one_mul, (hR.2 k k.2).2.1]
        · rw [if_neg hkc.ne', if_neg (not_lt.mpr hkc.le), zero_mul, (hR.2 k k.2).1 c hkc]
      simp only [RM, Matrix.transpose_apply, Matrix.mul_diagonal, Matrix.of_apply]
      rw [hrow i, hrow j]
      have := Real.mul_self_sqrt (hpos k).le
      calc lowerM m.ndim S i k * Real.sqrt (S k k) * (lowerM m.ndim S j k * Real.sqrt (S k k))
          = lowerM m.ndim S i k * (Real.sqrt (S k k) * Real.sqrt (S k k)) * lowerM m.ndim S j k := by ring
        _ = _ := by rw [this]
  · intro h
    have hspd : (m.factor a).1.isSpd = false := h
    unfold LDLTMgr.sqrt
    rw [hspd]; simp

/-- C41 applies to the identity and, on the failing side, to its negative. -/
example : ((init 2 : LDLTMgr ℝ).factor (toArr2 (1 : Matrix (Fin 2) (Fin 2) ℝ))).2.1 = true ∧
    ((init 2 : LDLTMgr ℝ).factor (toArr2 (-1 : Matrix (Fin 2) (Fin 2) ℝ))).2.1 = false := by
  have h1 := C37_factor_decides_spd (init 2 : LDLTMgr ℝ) (toArr2 (1 : Matrix (Fin 2) (Fin 2) ℝ))
  have h2 := C37_factor_decides_spd (init 2 : LDLTMgr ℝ) (toArr2 (-1 : Matrix (Fin 2) (Fin 2) ℝ))
  rw [show (init 2 : LDLTMgr ℝ).ndim = 2 from rfl, symOf_toArr2 Matrix.isSymm_one] at h1
  rw [show (init 2 : LDLTMgr ℝ).ndim = 2 from rfl, symOf_toArr2 Matrix.isSymm_one.neg] at h2
  constructor
  · refine h1.mpr fun v hv => ?_
    rw [one_mulVec]
    exact lt_of_le_of_ne (Finset.sum_nonneg fun _ _ => mul_self_nonneg _)
      fun h => hv (dotProduct_self_eq_zero.mp h.symm)
  · rw [Bool.eq_false_iff]
    intro h
    have := h2.mp h ![1, 0] (fun h0 => by simpa using congrFun h0 0)
    simp [dotProduct, neg_mulVec] at this
    linarith

/-! ### C42 -/

/-- The full claim of C42: `factor_with_allow_semidefinite` returns `True` iff the matrix is positive semidefinite. -/
def C42_claim : Prop :=
  ∀ (m : LDLTMgr ℚ) (a : ℕ → ℕ → ℚ), (m.factorSemi a).2.1 = true ↔ QuadNonneg (symOf m.ndim a)

/-- The matrix `[[0, 1], [1, 0]]`. -/
def swap2 : Matrix (Fin 2) (Fin 2) ℚ := !![0, 1; 1, 0]

/-- **C42 is false of the code**: `[[0, 1], [1, 0]]` is accepted, although it is indefinite. -/
theorem C42_refuted : ¬ C42_claim := by
  intro h
  have h1 : ((init 2).factorSemi (toArr2 swap2)).2.1 = true := by decide +kernel
  have h2 := (h (init 2) (toArr2 swap2)).mp h1 ![1, -1]
  have hs : symOf 2 (toArr2 swap2) = swap2 := symOf_toArr2 (by unfold swap2; ext i j; fin_cases i <;> fin_cases j <;> rfl)
  change 0 ≤ ![1, -1] ⬝ᵥ (symOf 2 (toArr2 swap2) *ᵥ ![1, -1]) at h2
  rw [hs] at h2
  norm_num [swap2, dotProduct, mulVec, Fin.sum_univ_two] at h2

/-- **C42, what holds.** A positive semidefinite matrix is accepted (so a rejection is always right), and if it is accepted and no pivot was zero then the matrix is
positive definite. Missing for the full claim: with a zero pivot the code skips the row without checking that the rest of it is zero, and the answer `True` is then wrong in general (`C42_refuted`). -/
theorem C42_semidefinite_partial (m : LDLTMgr K) (a : ℕ → ℕ → K) :
    (QuadNonneg (symOf m.ndim a) → (m.factorSemi a).2.1 = true) ∧
    ((m.factorSemi a).2.1 = true → (∀ k, k < m.ndim → (m.factorSemi a).1.storage k k ≠ 0) →
      QuadPos (symOf m.ndim a)) := by
  have hb : (m.factorSemi a).2.1 = (m.factorSemi a).1.isSpd := rfl
  rw [hb, isSpd_iff]
  have hend := factorSemi_spec m a
  rcases hx : (m.factorSemi a).1.pos with ⟨p1, p2⟩
  rw [hx] at hend
  constructor
  · intro hq
    cases hend with
    | good => rfl
    | bad hi hs h hp hd =>
      obtain ⟨v, hv, hv2⟩ := exists_witness hi hs h hp
      exact absurd (hq v) (by rw [hv2]; exact not_le.mpr hd)
  · intro h0 hnz
    simp only at h0
    subst h0
    cases hend with
    | good h =>
      rcases h with ⟨h1, h2⟩ | ⟨k, hk, hk0⟩
      · exact h1.quadPos h2
      · exact absurd hk0 (hnz k hk)

/-- Both parts of `C42_semidefinite_partial` apply to the documentation example. -/
example : ((init 3).factorSemi (toArr2 docA)).2.1 = true ∧
    ∀ k, k < 3 → ((init 3).factorSemi (toArr2 docA)).1.storage k k ≠ 0 := by
  refine ⟨by decide +kernel, ?_⟩
  decide +kernel

end Ellalgo
