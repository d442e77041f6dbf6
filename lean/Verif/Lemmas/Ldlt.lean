import Verif.Model.Ldlt
import Verif.Lemmas.Loops
import Verif.Spec.Quad
import Mathlib.Tactic.Ring
import Mathlib.Tactic.Linarith

/-! # The LDLᵀ factorisation -/

namespace Ellalgo

open Finset Spec Matrix

variable {K : Type*} [Field K] [LinearOrder K]

namespace LDLTMgr

/-- Rows `s .. p-1` are factorised: the entries above the diagonal hold `L[r,j]·d[j]`, those below `L[r,j]`. -/
structure Fac (a : ℕ → ℕ → K) (s p : ℕ) (S : ℕ → ℕ → K) : Prop where
  eq : ∀ r j, s ≤ j → j ≤ r → r < p → a r j = ∑ k ∈ Ico s j, S r k * S k j + S j r
  low : ∀ r j, s ≤ j → j < r → r < p → S r j = S j r / S j j

theorem Fac.empty (a : ℕ → ℕ → K) (s : ℕ) (S : ℕ → ℕ → K) : Fac a s s S :=
  ⟨fun _ _ _ _ _ => by omega, fun _ _ _ _ _ => by omega⟩

/-- What holds inside row `i` before the iteration `j`. -/
structure RowInv (a : ℕ → ℕ → K) (s i : ℕ) (S : ℕ → ℕ → K) (rd : List (ℕ × ℕ)) (j : ℕ) (st : RowState K) : Prop where
  frame : ∀ r c, r < i → c < i → st.storage r c = S r c
  eq : ∀ j', s ≤ j' → j' < j → a i j' = ∑ k ∈ Ico s j', st.storage i k * st.storage k j' + st.storage j' i
  low : ∀ j', s ≤ j' → j' < j → st.storage i j' = st.storage j' i / st.storage j' j'
  diag : a i j = ∑ k ∈ Ico s j, st.storage i k * st.storage k j + st.diag
  reads : st.reads = rd ++ (List.range' s (j + 1 - s)).map fun c => (i, c)

omit [LinearOrder K] in
theorem rowStep_inv {a : ℕ → ℕ → K} {s i : ℕ} {S : ℕ → ℕ → K} {rd : List (ℕ × ℕ)} {j : ℕ} {st : RowState K}
    (hs : s ≤ j) (hj : j < i) (h : RowInv a s i S rd j st) :
    RowInv a s i S rd (j + 1) (rowStep a s i j st) := by
  have e1 : ∀ r c, r < i → c < i → (rowStep a s i j st).storage r c = st.storage r c := by
    intro r c hr hc
    simp only [rowStep]
    rw [set2_ne (by omega), set2_ne (by omega)]
  have e2 : ∀ c, c ≠ j → c ≠ i → (rowStep a s i j st).storage i c = st.storage i c := by
    intro c hc hci
    simp only [rowStep]
    rw [set2_ne (by omega), set2_ne (by omega)]
  have e3 : ∀ r, r ≠ j → r ≠ i → (rowStep a s i j st).storage r i = st.storage r i := by
    intro r hr hri
    simp only [rowStep]
    rw [set2_ne (by omega), set2_ne (by omega)]
  have e4 : (rowStep a s i j st).storage j i = st.diag := by
    simp only [rowStep]
    rw [set2_ne (by omega), set2_self]
  have e5 : (rowStep a s i j st).storage i j = st.diag / st.storage j j := by
    simp only [rowStep]
    rw [set2_self, set2_ne (by omega)]
  refine ⟨fun r c hr hc => (e1 r c hr hc).trans (h.frame r c hr hc), ?_, ?_, ?_, ?_⟩
  · intro j' h1 h2
    rcases Nat.lt_succ_iff_lt_or_eq.mp h2 with h3 | rfl
    · rw [h.eq j' h1 h3, e3 j' (by omega) (by omega)]
      congr 1
      refine sum_congr rfl fun k hk => ?_
      rw [mem_Ico] at hk
      rw [e2 k (by omega) (by omega), e1 k j' (by omega) (by omega)]
    · rw [h.diag, e4]
      congr 1
      refine sum_congr rfl fun k hk => ?_
      rw [mem_Ico] at hk
      rw [e2 k (by omega) (by omega), e1 k j' (by omega) (by omega)]
  · intro j' h1 h2
    rcases Nat.lt_succ_iff_lt_or_eq.mp h2 with h3 | rfl
    · rw [e2 j' (by omega) (by omega), e3 j' (by omega) (by omega), e1 j' j' (by omega) (by omega)]
      exact h.low j' h1 h3
    · rw [e5, e4, e1 j' j' hj hj]
  · simp only [rowStep]
    ring
  · simp only [rowStep]
    rw [h.reads, List.append_assoc, show j + 1 + 1 - s = (j + 1 - s) + 1 by omega, List.range'_concat]
    simp
    omega

theorem forRange_rowInv (a : ℕ → ℕ → K) {s i : ℕ} (hs : s ≤ i) (S : ℕ → ℕ → K) (rd : List (ℕ × ℕ)) :
    RowInv a s i S rd i (forRange s i (rowStep a s i)
      { storage := S, diag := a i s, reads := rd ++ [(i, s)] }) := by
  refine forRange_inv (RowInv a s i S rd) hs ⟨fun _ _ _ _ => rfl, ?_, ?_, ?_, ?_⟩
    (fun j st h1 h2 h3 => rowStep_inv h1 h2 h3)
  · intro j' h1 h2; omega
  · intro j' h1 h2; omega
  · simp
  · simp

/-- One row extends the factorisation. -/
theorem row_spec {a : ℕ → ℕ → K} {s i : ℕ} (hs : s ≤ i) {S : ℕ → ℕ → K} (h : Fac a s i S) (rd : List (ℕ × ℕ)) :
    Fac a s (i + 1) (row a s i S rd).storage ∧
    (row a s i S rd).storage i i = (row a s i S rd).diag ∧
    (∀ r c, r < i → c < i → (row a s i S rd).storage r c = S r c) ∧
    (row a s i S rd).reads = rd ++ (List.range' s (i + 1 - s)).map fun c => (i, c) := by
  have hinv := forRange_rowInv a hs S rd
  set st := forRange s i (rowStep a s i) { storage := S, diag := a i s, reads := rd ++ [(i, s)] } with hst
  have hrow : row a s i S rd = { st with storage := set2 st.storage i i st.diag } := rfl
  have e1 : ∀ r c, r ≠ i ∨ c ≠ i → (row a s i S rd).storage r c = st.storage r c := by
    intro r c hrc; rw [hrow]; exact set2_ne hrc
  have e2 : (row a s i S rd).storage i i = st.diag := by rw [hrow]; exact set2_self _ _ _ _
  have e3 : ∀ r c, r < i → c < i → (row a s i S rd).storage r c = S r c := by
    intro r c hr hc
    rw [e1 r c (by omega)]
    exact hinv.frame r c hr hc
  refine ⟨⟨?_, ?_⟩, by rw [e2, hrow], e3, by rw [hrow]; exact hinv.reads⟩
  · intro r j h1 h2 h3
    rcases Nat.lt_succ_iff_lt_or_eq.mp h3 with h4 | rfl
    · rw [h.eq r j h1 h2 h4, e3 j r (by omega) (by omega)]
      congr 1
      refine sum_congr rfl fun k hk => ?_
      rw [mem_Ico] at hk
      rw [e3 r k (by omega) (by omega), e3 k j (by omega) (by omega)]
    · have hsum : ∀ j ≤ r, ∑ k ∈ Ico s j, (row a s r S rd).storage r k * (row a s r S rd).storage k j =
          ∑ k ∈ Ico s j, st.storage r k * st.storage k j := by
        intro j hj
        refine sum_congr rfl fun k hk => ?_
        rw [mem_Ico] at hk
        rw [e1 r k (by omega), e1 k j (by omega)]
      rw [hsum j h2]
      rcases Nat.lt_or_eq_of_le h2 with h5 | rfl
      · rw [e1 j r (by omega)]; exact hinv.eq j h1 h5
      · rw [e2]; exact hinv.diag
  · intro r j h1 h2 h3
    rcases Nat.lt_succ_iff_lt_or_eq.mp h3 with h4 | rfl
    · rw [e3 r j h4 (by omega), e3 j r (by omega) h4, e3 j j (by omega) (by omega)]
      exact h.low r j h1 h2 h4
    · rw [e1 r j (by omega), e1 j r (by omega), e1 j j (by omega)]
      exact hinv.low j h1 h2

/-- The unit lower triangular factor stored in `S`. -/
def lowerF (S : ℕ → ℕ → K) (r k : ℕ) : K := if k = r then 1 else if k < r then S r k else 0

omit [LinearOrder K] in
theorem Fac.gram_le {a : ℕ → ℕ → K} {s p : ℕ} {S : ℕ → ℕ → K} (h : Fac a s p S)
    (hd : ∀ j, s ≤ j → j + 1 < p → S j j ≠ 0) {r j : ℕ} (h1 : s ≤ j) (h2 : j ≤ r) (h3 : r < p) :
    a r j = ∑ k ∈ Ico s p, lowerF S r k * S k k * lowerF S j k := by
  have hup : ∀ k r, s ≤ k → k < r → r < p → S k r = S r k * S k k := by
    intro k r a1 a2 a3
    rw [h.low r k a1 a2 a3, div_mul_cancel₀ _ (hd k a1 (by omega))]
  rw [h.eq r j h1 h2 h3]
  have hsplit : ∑ k ∈ Ico s p, lowerF S r k * S k k * lowerF S j k =
      ∑ k ∈ Ico s (j + 1), lowerF S r k * S k k * lowerF S j k := by
    symm
    refine sum_subset (Ico_subset_Ico le_rfl (by omega)) fun k hk hk2 => ?_
    rw [mem_Ico] at hk hk2
    have : lowerF S j k = 0 := by unfold lowerF; rw [if_neg (by omega), if_neg (by omega)]
    rw [this, mul_zero]
  rw [hsplit, sum_Ico_succ_top h1]
  congr 1
  · refine sum_congr rfl fun k hk => ?_
    rw [mem_Ico] at hk
    have e1 : lowerF S r k = S r k := by unfold lowerF; rw [if_neg (by omega), if_pos (by omega)]
    have e2 : lowerF S j k = S j k := by unfold lowerF; rw [if_neg (by omega), if_pos (by omega)]
    rw [e1, e2, hup k j hk.1 hk.2 (by omega)]
    ring
  · have e2 : lowerF S j j = 1 := by simp [lowerF]
    rw [e2, mul_one]
    rcases Nat.lt_or_eq_of_le h2 with h5 | rfl
    · have e1 : lowerF S r j = S r j := by unfold lowerF; rw [if_neg (by omega), if_pos h5]
      rw [e1, hup j r h1 h5 h3]
    · rw [e2, one_mul]

/-- The entry of the symmetric matrix. -/
def symE (a : ℕ → ℕ → K) (r j : ℕ) : K := if j ≤ r then a r j else a j r

omit [LinearOrder K] in
theorem Fac.gram {a : ℕ → ℕ → K} {s p : ℕ} {S : ℕ → ℕ → K} (h : Fac a s p S)
    (hd : ∀ j, s ≤ j → j + 1 < p → S j j ≠ 0) {r j : ℕ} (h1 : s ≤ j) (h2 : s ≤ r) (h3 : r < p) (h4 : j < p) :
    symE a r j = ∑ k ∈ Ico s p, lowerF S r k * S k k * lowerF S j k := by
  unfold symE
  split_ifs with hjr
  · exact h.gram_le hd h1 hjr h3
  · rw [h.gram_le hd h2 (by omega) h4]
    exact sum_congr rfl fun k _ => by ring

omit [LinearOrder K] in
/-- The quadratic form in terms of the factors. -/
theorem Fac.quad {a : ℕ → ℕ → K} {s p : ℕ} {S : ℕ → ℕ → K} (h : Fac a s p S)
    (hd : ∀ j, s ≤ j → j + 1 < p → S j j ≠ 0) (v : ℕ → K) :
    ∑ r ∈ Ico s p, v r * ∑ j ∈ Ico s p, symE a r j * v j =
      ∑ k ∈ Ico s p, S k k * (∑ r ∈ Ico s p, lowerF S r k * v r) ^ 2 := by
  have e1 : ∀ r ∈ Ico s p, v r * ∑ j ∈ Ico s p, symE a r j * v j =
      ∑ k ∈ Ico s p, ∑ j ∈ Ico s p, S k k * (lowerF S r k * v r) * (lowerF S j k * v j) := by
    intro r hr
    rw [mem_Ico] at hr
    rw [mul_sum, sum_comm]
    refine sum_congr rfl fun j hj => ?_
    rw [mem_Ico] at hj
    rw [h.gram hd hj.1 hr.1 hr.2 hj.2, sum_mul, mul_sum]
    exact sum_congr rfl fun k _ => by ring
  rw [sum_congr rfl e1, sum_comm]
  refine sum_congr rfl fun k _ => ?_
  rw [pow_two, sum_mul_sum, mul_sum]
  refine sum_congr rfl fun r _ => ?_
  rw [mul_sum]
  exact sum_congr rfl fun j _ => by ring

omit [LinearOrder K] in
/-- The quadratic form of the symmetric matrix on a vector supported on `[s, p)`. -/
theorem quad_symOf {n s p : ℕ} (hp : p ≤ n) (a : ℕ → ℕ → K) (w : ℕ → K) :
    sliceVec n w s p ⬝ᵥ (symOf n a *ᵥ sliceVec n w s p) =
      ∑ r ∈ Ico s p, w r * ∑ j ∈ Ico s p, symE a r j * w j := by
  rw [← sum_fin_slice hp (fun r => w r * ∑ j ∈ Ico s p, symE a r j * w j)]
  simp only [dotProduct, mulVec]
  refine sum_congr rfl fun r _ => ?_
  unfold sliceVec
  split_ifs with hr
  · congr 1
    rw [← sum_fin_slice hp (fun j => symE a r j * w j)]
    refine sum_congr rfl fun j _ => ?_
    split_ifs with hj
    · simp [symOf, symE]
    · simp
  · simp

omit [LinearOrder K] in
theorem quad_mat {n s p : ℕ} (hp : p ≤ n) (B : Matrix (Fin n) (Fin n) K) (w : ℕ → K) :
    sliceVec n w s p ⬝ᵥ (B *ᵥ sliceVec n w s p) =
      ∑ r ∈ Ico s p, w r * ∑ j ∈ Ico s p, toArr2 B r j * w j := by
  rw [← sum_fin_slice hp (fun r => w r * ∑ j ∈ Ico s p, toArr2 B r j * w j)]
  simp only [dotProduct, mulVec]
  refine sum_congr rfl fun r _ => ?_
  unfold sliceVec
  split_ifs with hr
  · congr 1
    rw [← sum_fin_slice hp (fun j => toArr2 B r j * w j)]
    refine sum_congr rfl fun j _ => ?_
    rw [toArr2_apply]
    split_ifs with hj <;> simp
  · simp

omit [LinearOrder K] in
theorem sliceVec_full {n : ℕ} (v : Fin n → K) : sliceVec n (toArr1 v) 0 n = v := by
  funext i; simp [sliceVec, toArr1]

/-! ### The outer loops -/

/-- How `factor` ends. -/
inductive FactorEnd (a : ℕ → ℕ → K) (n : ℕ) : (ℕ → ℕ → K) × (ℕ × ℕ) × List (ℕ × ℕ) → Prop
  | good {S} : Fac a 0 n S → (∀ k, k < n → 0 < S k k) →
      FactorEnd a n (S, (0, 0), (List.range n).flatMap fun i => (List.range (i + 1)).map fun c => (i, c))
  | bad {S i} : i < n → Fac a 0 (i + 1) S → (∀ k, k < i → 0 < S k k) → S i i ≤ 0 →
      FactorEnd a n (S, (0, i + 1), (List.range (i + 1)).flatMap fun i => (List.range (i + 1)).map fun c => (i, c))

theorem factorLoop_spec (a : ℕ → ℕ → K) (n : ℕ) : ∀ (fuel i : ℕ) (S : ℕ → ℕ → K), i + fuel = n → Fac a 0 i S →
    (∀ k, k < i → 0 < S k k) →
    FactorEnd a n (factorLoop a fuel i S ((List.range i).flatMap fun i => (List.range (i + 1)).map fun c => (i, c)))
  | 0, i, S, hn, h, hp => by
    obtain rfl : i = n := by omega
    exact .good h hp
  | fuel + 1, i, S, hn, h, hp => by
    obtain ⟨h1, h2, h3, h4⟩ := row_spec (Nat.zero_le i) h
      ((List.range i).flatMap fun i => (List.range (i + 1)).map fun c => (i, c))
    have hr : (row a 0 i S ((List.range i).flatMap fun i => (List.range (i + 1)).map fun c => (i, c))).reads =
        (List.range (i + 1)).flatMap fun i => (List.range (i + 1)).map fun c => (i, c) := by
      rw [h4, List.range_succ (n := i), List.flatMap_append]
      simp [List.range_eq_range']
    have hpos : ∀ k, k < i → 0 < (row a 0 i S _).storage k k := fun k hk => by rw [h3 k k hk hk]; exact hp k hk
    unfold factorLoop
    simp only
    split_ifs with hd
    · rw [hr]
      exact .bad (by omega) h1 hpos (by rw [h2]; exact hd)
    · rw [hr]
      refine factorLoop_spec a n fuel (i + 1) _ (by omega) h1 fun k hk => ?_
      rcases Nat.lt_succ_iff_lt_or_eq.mp hk with hk | rfl
      · exact hpos k hk
      · rw [h2]; exact not_le.mp hd

theorem factor_spec (m : LDLTMgr K) (a : ℕ → ℕ → K) :
    FactorEnd a m.ndim ((m.factor a).1.storage, (m.factor a).1.pos, (m.factor a).2.2) :=
  factorLoop_spec a m.ndim m.ndim 0 m.storage (by omega) (Fac.empty a 0 _) (fun _ h => absurd h (Nat.not_lt_zero _))

/-- How `factor_with_allow_semidefinite` ends. -/
inductive SemiEnd (a : ℕ → ℕ → K) (n : ℕ) : (ℕ → ℕ → K) × (ℕ × ℕ) × List (ℕ × ℕ) → Prop
  | good {S r} : (Fac a 0 n S ∧ ∀ k, k < n → 0 < S k k) ∨ (∃ k, k < n ∧ S k k = 0) → SemiEnd a n (S, (0, 0), r)
  | bad {S i s r} : i < n → s ≤ i → Fac a s (i + 1) S → (∀ k, s ≤ k → k < i → 0 < S k k) → S i i < 0 →
      SemiEnd a n (S, (s, i + 1), r)

theorem factorSemiLoop_spec (a : ℕ → ℕ → K) (n : ℕ) : ∀ (fuel i s : ℕ) (S : ℕ → ℕ → K) (rd : List (ℕ × ℕ)),
    i + fuel = n → s ≤ i → Fac a s i S → (∀ k, s ≤ k → k < i → 0 < S k k) →
    (s = 0 ∨ ∃ k, k < i ∧ S k k = 0) →
    SemiEnd a n (factorSemiLoop a fuel i s S rd)
  | 0, i, s, S, rd, hn, hs, h, hp, h0 => by
    obtain rfl : i = n := by omega
    refine .good (h0.imp ?_ id)
    rintro rfl
    exact ⟨h, fun k hk => hp k (Nat.zero_le _) hk⟩
  | fuel + 1, i, s, S, rd, hn, hs, h, hp, h0 => by
    obtain ⟨h1, h2, h3, -⟩ := row_spec hs h rd
    have hpos : ∀ k, s ≤ k → k < i → 0 < (row a s i S rd).storage k k :=
      fun k hk0 hk => by rw [h3 k k hk hk]; exact hp k hk0 hk
    unfold factorSemiLoop
    simp only
    split_ifs with hd hz
    · exact .bad (by omega) hs h1 hpos (by rw [h2]; exact hd)
    · exact factorSemiLoop_spec a n fuel (i + 1) (i + 1) _ _ (by omega) le_rfl (Fac.empty a _ _)
        (fun k h5 h6 => by omega) (.inr ⟨i, by omega, by rw [h2]; exact hz⟩)
    · refine factorSemiLoop_spec a n fuel (i + 1) s _ _ (by omega) (by omega) h1 (fun k hk0 hk => ?_)
        (h0.imp id ?_)
      · rcases Nat.lt_succ_iff_lt_or_eq.mp hk with hk | rfl
        · exact hpos k hk0 hk
        · rw [h2]; exact lt_of_le_of_ne (not_lt.mp hd) (Ne.symm hz)
      · rintro ⟨k, hk, hk0⟩
        exact ⟨k, by omega, by rw [h3 k k hk hk]; exact hk0⟩

theorem factorSemi_spec (m : LDLTMgr K) (a : ℕ → ℕ → K) :
    SemiEnd a m.ndim ((m.factorSemi a).1.storage, (m.factorSemi a).1.pos, (m.factorSemi a).2.2) :=
  factorSemiLoop_spec a m.ndim m.ndim 0 0 m.storage [] (by omega) le_rfl (Fac.empty a 0 _)
    (fun _ _ h => absurd h (Nat.not_lt_zero _)) (.inl rfl)

/-! ### The witness -/

/-- The witness solves `Lᵀ v = e_last` on the failing block. -/
theorem witness_spec (m : LDLTMgr K) {s i : ℕ} (hpos : m.pos = (s, i + 1)) (hs : s ≤ i) :
    ∃ w, m.witness = ({ m with wit := w }, .ok (-m.storage i i)) ∧ w i = 1 ∧
      ∀ k, s ≤ k → k < i → ∑ r ∈ Ico s (i + 1), lowerF m.storage r k * w r = 0 := by
  have hspd : m.isSpd = false := by simp [isSpd, hpos]
  refine ⟨_, by unfold witness; rw [hspd]; simp only [hpos]; rfl, ?_⟩
  simp only [Nat.add_sub_cancel]
  have := forDown_inv (lo := s) (hi := i) (st := set1 m.wit i 1)
    (f := fun i' w => set1 w (i' - 1) (-∑ k ∈ Ico i' (i + 1), m.storage k (i' - 1) * w k))
    (fun j w => w i = 1 ∧ ∀ k, j ≤ k → k < i →
      w k = -∑ r ∈ Ico (k + 1) (i + 1), m.storage r k * w r) hs ⟨by simp, fun k h1 h2 => by omega⟩ (by
    rintro j w h1 h2 ⟨h3, h4⟩
    refine ⟨by rw [set1_ne (by omega)]; exact h3, fun k h5 h6 => ?_⟩
    have hsum : ∀ c : K, ∑ r ∈ Ico (k + 1) (i + 1), m.storage r k * set1 w (j - 1) c r =
        ∑ r ∈ Ico (k + 1) (i + 1), m.storage r k * w r := by
      intro c
      refine sum_congr rfl fun r hr => ?_
      rw [mem_Ico] at hr
      rw [set1_ne (by omega)]
    rw [hsum]
    by_cases hk : k = j - 1
    · subst hk
      rw [set1_self, Nat.sub_add_cancel (by omega)]
    · rw [set1_ne hk]
      exact h4 k (by omega) h6)
  refine ⟨this.1, fun k h1 h2 => ?_⟩
  have hk := this.2 k h1 h2
  set w := forDown s (fun i' w => set1 w (i' - 1) (-∑ k ∈ Ico i' (i + 1), m.storage k (i' - 1) * w k)) i
    (set1 m.wit i 1)
  have hlow : ∑ r ∈ Ico s (i + 1), lowerF m.storage r k * w r =
      ∑ r ∈ Ico k (i + 1), lowerF m.storage r k * w r := by
    symm
    refine sum_subset (Ico_subset_Ico h1 le_rfl) fun r hr hr2 => ?_
    rw [mem_Ico] at hr hr2
    have : lowerF m.storage r k = 0 := by unfold lowerF; rw [if_neg (by omega), if_neg (by omega)]
    rw [this, zero_mul]
  rw [hlow, sum_eq_sum_Ico_succ_bot (by omega)]
  have e1 : lowerF m.storage k k = 1 := by simp [lowerF]
  have e2 : ∑ r ∈ Ico (k + 1) (i + 1), lowerF m.storage r k * w r =
      ∑ r ∈ Ico (k + 1) (i + 1), m.storage r k * w r := by
    refine sum_congr rfl fun r hr => ?_
    rw [mem_Ico] at hr
    have : lowerF m.storage r k = m.storage r k := by unfold lowerF; rw [if_neg (by omega), if_pos (by omega)]
    rw [this]
  rw [e1, e2, one_mul, hk, neg_add_cancel]

omit [LinearOrder K] in
/-- The value of the form at a solution of `Lᵀ v = e_last` is the last pivot. -/
theorem Fac.quad_witness {a : ℕ → ℕ → K} {s i : ℕ} {S : ℕ → ℕ → K} (hs : s ≤ i) (h : Fac a s (i + 1) S)
    (hd : ∀ j, s ≤ j → j < i → S j j ≠ 0) {w : ℕ → K} (hw : w i = 1)
    (hz : ∀ k, s ≤ k → k < i → ∑ r ∈ Ico s (i + 1), lowerF S r k * w r = 0) :
    ∑ r ∈ Ico s (i + 1), w r * ∑ j ∈ Ico s (i + 1), symE a r j * w j = S i i := by
  rw [h.quad (fun j h1 h2 => hd j h1 (by omega)), sum_Ico_succ_top hs]
  have e0 : ∑ k ∈ Ico s i, S k k * (∑ r ∈ Ico s (i + 1), lowerF S r k * w r) ^ 2 = 0 := by
    refine sum_eq_zero fun k hk => ?_
    rw [mem_Ico] at hk
    rw [hz k hk.1 hk.2]; ring
  have e1 : ∑ r ∈ Ico s (i + 1), lowerF S r i * w r = 1 := by
    rw [sum_Ico_succ_top hs, hw]
    have : ∑ k ∈ Ico s i, lowerF S k i * w k = 0 := by
      refine sum_eq_zero fun k hk => ?_
      rw [mem_Ico] at hk
      have : lowerF S k i = 0 := by unfold lowerF; rw [if_neg (by omega), if_neg (by omega)]
      rw [this, zero_mul]
    rw [this]; simp [lowerF]
  rw [e0, e1]; ring

/-- Positive pivots: the form is positive. -/
theorem Fac.quadPos [IsStrictOrderedRing K] {a : ℕ → ℕ → K} {n : ℕ} {S : ℕ → ℕ → K} (h : Fac a 0 n S)
    (hp : ∀ k, k < n → 0 < S k k) : QuadPos (symOf n a) := by
  intro v hv
  rw [← sliceVec_full v, quad_symOf le_rfl, h.quad (fun j _ hj => (hp j (by omega)).ne')]
  set w := toArr1 v with hw
  have hnn : ∀ k ∈ Ico 0 n, 0 ≤ S k k * (∑ r ∈ Ico 0 n, lowerF S r k * w r) ^ 2 := by
    intro k hk
    rw [mem_Ico] at hk
    exact mul_nonneg (hp k hk.2).le (sq_nonneg _)
  by_contra hc
  have hz := (sum_eq_zero_iff_of_nonneg hnn).mp (le_antisymm (not_lt.mp hc) (sum_nonneg hnn))
  -- all components of Lᵀ v vanish, hence v vanishes, from the last entry up
  have hzero : ∀ d k, k + d + 1 = n → ∀ k', k ≤ k' → k' < n → w k' = 0 := by
    intro d
    induction d with
    | zero =>
      intro k hk k' h1 h2
      obtain rfl : k' = k := by omega
      have := hz k' (by rw [mem_Ico]; omega)
      have h3 : ∑ r ∈ Ico 0 n, lowerF S r k' * w r = w k' := by
        rw [sum_eq_single k']
        · simp [lowerF]
        · intro r hr hne
          rw [mem_Ico] at hr
          have : lowerF S r k' = 0 := by unfold lowerF; rw [if_neg (by omega), if_neg (by omega)]
          rw [this, zero_mul]
        · intro hne; rw [mem_Ico] at hne; omega
      rw [h3] at this
      rcases mul_eq_zero.mp this with h4 | h4
      · exact absurd h4 (hp k' h2).ne'
      · exact pow_eq_zero_iff (two_ne_zero) |>.mp h4
    | succ d ih =>
      intro k hk k' h1 h2
      rcases Nat.lt_or_eq_of_le h1 with h3 | rfl
      · exact ih (k + 1) (by omega) k' h3 h2
      · have := hz k (by rw [mem_Ico]; omega)
        have h3 : ∑ r ∈ Ico 0 n, lowerF S r k * w r = w k := by
          rw [sum_eq_single k]
          · simp [lowerF]
          · intro r hr hne
            rw [mem_Ico] at hr
            by_cases hrk : k < r
            · rw [ih (k + 1) (by omega) r hrk hr.2, mul_zero]
            · have : lowerF S r k = 0 := by unfold lowerF; rw [if_neg (by omega), if_neg (by omega)]
              rw [this, zero_mul]
          · intro hne; rw [mem_Ico] at hne; omega
        rw [h3] at this
        rcases mul_eq_zero.mp this with h4 | h4
        · exact absurd h4 (hp k h2).ne'
        · exact pow_eq_zero_iff (two_ne_zero) |>.mp h4
  apply hv
  funext i
  have hi := i.2
  have := hzero (n - 1) 0 (by omega) i (Nat.zero_le _) hi
  rw [hw, toArr1_apply] at this
  exact this

end LDLTMgr

end Ellalgo
