import Verif.Props.Ldlt

/-!
# C76: exactly which matrices `factor_with_allow_semidefinite` accepts

C42 (it decides positive semidefiniteness) is false of the code; this is the exact answer.
-/

namespace Ellalgo

open Finset Spec Matrix LDLTMgr

variable {K : Type*} [Field K] [LinearOrder K]

namespace Spec

/-- The principal block of rows and columns `s, ..., s+l-1` of the symmetric matrix with lower triangle `a`. -/
def blockOf (a : ℕ → ℕ → K) (s l : ℕ) : Matrix (Fin l) (Fin l) K := symOf l fun i j => a (s + i) (s + j)

/-- The rows from `s` on of a matrix of order `n` can be cut into consecutive diagonal blocks, such that the last block is positive definite (or empty) and every
other block is positive semidefinite, not positive definite, and becomes positive definite by removing its last row and column. Nothing is said about entries outside the blocks. -/
inductive Staircase (a : ℕ → ℕ → K) (n : ℕ) : ℕ → Prop
  | last {s} : s ≤ n → QuadPos (blockOf a s (n - s)) → Staircase a n s
  | step {s l} : s + l < n → QuadPos (blockOf a s l) → QuadNonneg (blockOf a s (l + 1)) →
      ¬ QuadPos (blockOf a s (l + 1)) → Staircase a n (s + l + 1) → Staircase a n s

end Spec

/-- Extend a vector by zeros. -/
def padVec {l' : ℕ} (l : ℕ) (v : Fin l' → K) : Fin l → K := fun i => if h : (i : ℕ) < l' then v ⟨i, h⟩ else 0

omit [LinearOrder K] in
theorem quad_pad {l l' : ℕ} (h : l' ≤ l) (a : ℕ → ℕ → K) (v : Fin l' → K) :
    padVec l v ⬝ᵥ (symOf l a *ᵥ padVec l v) = v ⬝ᵥ (symOf l' a *ᵥ v) := by
  have e1 : padVec l v = sliceVec l (toArr1 v) 0 l' := by
    funext i
    simp only [padVec, sliceVec, toArr1, Nat.zero_le, true_and]
    split_ifs <;> rfl
  rw [e1, quad_symOf h, ← quad_symOf (n := l') le_rfl, sliceVec_full]

omit [LinearOrder K] in
theorem padVec_ne {l l' : ℕ} (h : l' ≤ l) {v : Fin l' → K} (hv : v ≠ 0) : padVec l v ≠ 0 := by
  intro h0
  apply hv
  funext i
  have := congrFun h0 ⟨i, by omega⟩
  simpa [padVec] using this

/-- Definiteness passes to smaller leading blocks. -/
theorem blockOf_pos_mono {a : ℕ → ℕ → K} {s l l' : ℕ} (h : l' ≤ l) (hq : QuadPos (blockOf a s l)) :
    QuadPos (blockOf a s l') := by
  intro v hv
  have := hq (padVec l v) (padVec_ne h hv)
  rwa [blockOf, quad_pad h] at this

theorem blockOf_nonneg_mono {a : ℕ → ℕ → K} {s l l' : ℕ} (h : l' ≤ l) (hq : QuadNonneg (blockOf a s l)) :
    QuadNonneg (blockOf a s l') := by
  intro v
  have := hq (padVec l v)
  rwa [blockOf, quad_pad h] at this

omit [LinearOrder K] in
theorem LDLTMgr.Fac.shift {a : ℕ → ℕ → K} {s l : ℕ} {S : ℕ → ℕ → K} (h : Fac a s (s + l) S) :
    Fac (fun i j => a (s + i) (s + j)) 0 l (fun i j => S (s + i) (s + j)) where
  eq r j _ h2 h3 := by
    rw [h.eq (s + r) (s + j) (by omega) (by omega) (by omega)]
    congr 1
    have := Finset.sum_Ico_add' (fun k => S (s + r) k * S k (s + j)) 0 j s
    rw [Nat.zero_add, Nat.add_comm j s] at this
    rw [← this]
    exact Finset.sum_congr rfl fun k _ => by rw [Nat.add_comm k s]
  low r j _ h2 h3 := h.low (s + r) (s + j) (by omega) (by omega) (by omega)

section
variable [IsStrictOrderedRing K]

theorem LDLTMgr.Fac.block_pos {a : ℕ → ℕ → K} {s l : ℕ} {S : ℕ → ℕ → K} (h : Fac a s (s + l) S)
    (hp : ∀ k, s ≤ k → k < s + l → 0 < S k k) : QuadPos (blockOf a s l) :=
  h.shift.quadPos fun k hk => hp (s + k) (by omega) (by omega)

theorem LDLTMgr.Fac.block_nonneg {a : ℕ → ℕ → K} {s l : ℕ} {S : ℕ → ℕ → K} (h : Fac a s (s + l + 1) S)
    (hp : ∀ k, s ≤ k → k < s + l → 0 < S k k) (h0 : 0 ≤ S (s + l) (s + l)) : QuadNonneg (blockOf a s (l + 1)) := by
  intro v
  have h' := Fac.shift (l := l + 1) h
  rw [← sliceVec_full v, blockOf, quad_symOf le_rfl, h'.quad (fun j _ hj => (hp (s + j) (by omega) (by omega)).ne')]
  refine Finset.sum_nonneg fun k hk => ?_
  rw [mem_Ico] at hk
  refine mul_nonneg ?_ (sq_nonneg _)
  rcases Nat.lt_succ_iff_lt_or_eq.mp hk.2 with hk | rfl
  · exact (hp (s + k) (by omega) (by omega)).le
  · exact h0

theorem LDLTMgr.Fac.block_value {a : ℕ → ℕ → K} {s l : ℕ} {S : ℕ → ℕ → K} (h : Fac a s (s + l + 1) S)
    (hp : ∀ k, s ≤ k → k < s + l → 0 < S k k) :
    ∃ v, v ≠ 0 ∧ v ⬝ᵥ (blockOf a s (l + 1) *ᵥ v) = S (s + l) (s + l) :=
  exists_witness (n := l + 1) (s := 0) (i := l) (S := fun i j => S (s + i) (s + j)) (by omega) (Nat.zero_le _) (Fac.shift (l := l + 1) h)
    fun j _ hj => hp (s + j) (by omega) (by omega)

omit [IsStrictOrderedRing K] in
/-- A block that is positive definite can be prolonged to the block on which a staircase first fails to be. -/
theorem Staircase.cases_at {a : ℕ → ℕ → K} {n s l : ℕ} (hl : s + l < n) (hp : QuadPos (blockOf a s l))
    (hn : ¬ QuadPos (blockOf a s (l + 1))) :
    Staircase a n s ↔ QuadNonneg (blockOf a s (l + 1)) ∧ Staircase a n (s + l + 1) := by
  constructor
  · intro h
    cases h with
    | last h1 h2 => exact absurd (blockOf_pos_mono (by omega) h2) hn
    | @step _ l' h1 h2 h3 h4 h5 =>
      rcases lt_trichotomy l l' with hlt | rfl | hlt
      · exact absurd (blockOf_pos_mono (by omega) h2) hn
      · exact ⟨h3, h5⟩
      · exact absurd (blockOf_pos_mono (by omega) hp) h4
  · rintro ⟨h1, h2⟩
    exact .step hl hp h1 hn h2

theorem factorSemiLoop_accepts (a : ℕ → ℕ → K) (n : ℕ) : ∀ (fuel i s : ℕ) (S : ℕ → ℕ → K) (rd : List (ℕ × ℕ)),
    i + fuel = n → s ≤ i → Fac a s i S → (∀ k, s ≤ k → k < i → 0 < S k k) →
    ((factorSemiLoop a fuel i s S rd).2.1.2 = 0 ↔ Staircase a n s)
  | 0, i, s, S, rd, hn, hs, h, hp => by
    obtain rfl : i = n := by omega
    obtain ⟨l, rfl⟩ := Nat.exists_eq_add_of_le hs
    refine ⟨fun _ => .last hs ?_, fun _ => rfl⟩
    rw [Nat.add_sub_cancel_left]
    exact Fac.block_pos h hp
  | fuel + 1, i, s, S, rd, hn, hs, h, hp => by
    obtain ⟨h1, h2, h3, -⟩ := row_spec hs h rd
    have hpos : ∀ k, s ≤ k → k < i → 0 < (row a s i S rd).storage k k :=
      fun k hk0 hk => by rw [h3 k k hk hk]; exact hp k hk0 hk
    obtain ⟨l, rfl⟩ := Nat.exists_eq_add_of_le hs
    have hblk := Fac.block_pos h hp
    obtain ⟨v, hv, hv2⟩ := Fac.block_value h1 hpos
    rw [h2] at hv2
    unfold factorSemiLoop
    simp only
    split_ifs with hd hz
    · refine ⟨fun h0 => absurd h0 (by simp), fun hst => ?_⟩
      have hnp : ¬ QuadPos (blockOf a s (l + 1)) := fun hq => by
        have := hq v hv; rw [hv2] at this; exact absurd this (not_lt.mpr hd.le)
      have := ((Staircase.cases_at (by omega) hblk hnp).mp hst).1 v
      rw [hv2] at this
      exact absurd this (not_le.mpr hd)
    · have hnp : ¬ QuadPos (blockOf a s (l + 1)) := fun hq => by
        have := hq v hv; rw [hv2, hz] at this; exact lt_irrefl _ this
      rw [Staircase.cases_at (by omega) hblk hnp, and_iff_right (Fac.block_nonneg h1 hpos (by rw [h2, hz]))]
      exact factorSemiLoop_accepts a n fuel _ _ _ _ (by omega) le_rfl (Fac.empty a _ _) (fun k h5 h6 => by omega)
    · refine factorSemiLoop_accepts a n fuel _ s _ _ (by omega) (by omega) h1 (fun k hk0 hk => ?_)
      rcases Nat.lt_succ_iff_lt_or_eq.mp hk with hk | rfl
      · exact hpos k hk0 hk
      · rw [h2]; exact lt_of_le_of_ne (not_lt.mp hd) (Ne.symm hz)

/-- **C76.** `factor_with_allow_semidefinite` returns `True` exactly for the staircase matrices: consecutive diagonal blocks, the last one positive definite or empty, every other one positive
semidefinite and just losing definiteness with its last row. Entries outside the blocks are not looked at for the verdict. -/
theorem C76_semidefinite_accepts_iff (m : LDLTMgr K) (a : ℕ → ℕ → K) :
    (m.factorSemi a).2.1 = true ↔ Staircase a m.ndim 0 := by
  have hb : (m.factorSemi a).2.1 = (m.factorSemi a).1.isSpd := rfl
  rw [hb, isSpd_iff]
  exact factorSemiLoop_accepts a m.ndim m.ndim 0 0 m.storage [] (by omega) le_rfl (Fac.empty a 0 _)
    (fun _ _ h => absurd h (Nat.not_lt_zero _))

/-- The verdict for a matrix with a zero in the corner: only the trailing block is looked at, whatever stands in the first row and column. -/
theorem C76_zero_corner (m m' : LDLTMgr K) {n : ℕ} (hm : m.ndim = n + 1) (hm' : m'.ndim = n) (a : ℕ → ℕ → K)
    (h0 : a 0 0 = 0) :
    (m.factorSemi a).2.1 = (m'.factorSemi fun i j => a (i + 1) (j + 1)).2.1 := by
  rw [Bool.eq_iff_iff, C76_semidefinite_accepts_iff, C76_semidefinite_accepts_iff, hm, hm']
  have hq : ∀ v : Fin 1 → K, v ⬝ᵥ (blockOf a 0 1 *ᵥ v) = 0 := by
    intro v
    simp [blockOf, symOf, dotProduct, mulVec, h0]
  rw [Staircase.cases_at (l := 0) (by omega) (fun v hv => absurd (Subsingleton.elim v 0) hv)
    (fun h => by
      have := h (fun _ => 1) (fun h0 => one_ne_zero (congrFun h0 0))
      rw [hq] at this; exact lt_irrefl _ this), and_iff_right (show QuadNonneg (blockOf a 0 (0 + 1)) from fun v => (hq v).ge)]
  have hsh : ∀ s l, blockOf (fun i j => a (i + 1) (j + 1)) s l = blockOf a (s + 1) l := by
    intro s l
    unfold blockOf
    congr 1
    funext i j
    rw [Nat.add_right_comm, Nat.add_right_comm s 1 j]
  constructor
  · have : ∀ t, Staircase a (n + 1) t → ∀ s, t = s + 1 → Staircase (fun i j => a (i + 1) (j + 1)) n s := by
      intro t ht
      induction ht with
      | last h1 h2 =>
        rintro s rfl
        refine .last (by omega) ?_
        rw [hsh]
        rwa [Nat.add_sub_add_right] at h2
      | @step t l h1 h2 h3 h4 _ ih =>
        rintro s rfl
        refine .step (l := l) (by omega) ?_ ?_ ?_ (ih _ (by omega)) <;> rw [hsh] <;> assumption
    exact fun h => this _ h 0 rfl
  · intro h
    have : ∀ s, Staircase (fun i j => a (i + 1) (j + 1)) n s → Staircase a (n + 1) (s + 1) := by
      intro s hs
      induction hs with
      | last h1 h2 =>
        refine .last (by omega) ?_
        rw [hsh] at h2
        rwa [Nat.add_sub_add_right]
      | @step s l h1 h2 h3 h4 _ ih =>
        rw [hsh] at h2 h3 h4
        exact .step (l := l) (by omega) h2 h3 h4 (by convert ih using 1; omega)
    exact this 0 h

end

/-- A staircase with two blocks that is not positive semidefinite, and one that fails in the second block. -/
example : ((init 3).factorSemi (toArr2 (!![0, 5, 5; 5, 1, 2; 5, 2, 5] : Matrix (Fin 3) (Fin 3) ℚ))).2.1 = true ∧
    ((init 3).factorSemi (toArr2 (!![0, 5, 5; 5, 1, 2; 5, 2, 1] : Matrix (Fin 3) (Fin 3) ℚ))).2.1 = false := by
  constructor <;> decide +kernel

end Ellalgo
