import Verif.Model.Loops

/-! # Invariant rules for the loops -/

namespace Ellalgo

variable {σ K : Type*}

theorem forUp_inv (P : ℕ → σ → Prop) (f : ℕ → σ → σ) : ∀ (len lo : ℕ) (st : σ), P lo st →
    (∀ j st, lo ≤ j → j < lo + len → P j st → P (j + 1) (f j st)) → P (lo + len) (forUp f len lo st)
  | 0, _, _, h, _ => h
  | len + 1, lo, st, h, hs => by
    have := forUp_inv P f len (lo + 1) (f lo st) (hs lo st le_rfl (by omega) h)
      (fun j st' h1 h2 h3 => hs j st' (by omega) (by omega) h3)
    rw [show lo + (len + 1) = lo + 1 + len by omega]
    exact this

/-- Invariant rule for `for i in range(lo, hi)`. -/
theorem forRange_inv (P : ℕ → σ → Prop) {f : ℕ → σ → σ} {lo hi : ℕ} {st : σ} (hle : lo ≤ hi) (h : P lo st)
    (hs : ∀ j st, lo ≤ j → j < hi → P j st → P (j + 1) (f j st)) : P hi (forRange lo hi f st) := by
  have := forUp_inv P f (hi - lo) lo st h (fun j st h1 h2 h3 => hs j st h1 (by omega) h3)
  rwa [Nat.add_sub_cancel' hle] at this

/-- Invariant rule for `for i in range(hi, lo, -1)`; `P i` holds before the iteration with index `i`. -/
theorem forDown_inv (P : ℕ → σ → Prop) {f : ℕ → σ → σ} {lo : ℕ} : ∀ {hi : ℕ} {st : σ}, lo ≤ hi → P hi st →
    (∀ i st, lo < i → i ≤ hi → P i st → P (i - 1) (f i st)) → P lo (forDown lo f hi st)
  | 0, st, hle, h, _ => by rw [Nat.le_zero.mp hle]; exact h
  | hi + 1, st, hle, h, hs => by
    unfold forDown
    split_ifs with hlt
    · exact forDown_inv P (by omega) (hs (hi + 1) st hlt le_rfl h) (fun i st h1 h2 h3 => hs i st h1 (by omega) h3)
    · rw [show lo = hi + 1 by omega]; exact h

/-- The loop body only matters on the range. -/
theorem forUp_congr {f g : ℕ → σ → σ} : ∀ (len lo : ℕ) (st : σ),
    (∀ j st, lo ≤ j → j < lo + len → f j st = g j st) → forUp f len lo st = forUp g len lo st
  | 0, _, _, _ => rfl
  | len + 1, lo, st, h => by
    unfold forUp
    rw [h lo st le_rfl (by omega)]
    exact forUp_congr len (lo + 1) _ (fun j st h1 h2 => h j st (by omega) (by omega))

theorem forRange_congr {f g : ℕ → σ → σ} {lo hi : ℕ} {st : σ}
    (h : ∀ j st, lo ≤ j → j < hi → f j st = g j st) : forRange lo hi f st = forRange lo hi g st :=
  forUp_congr _ _ _ (fun j st h1 h2 => h j st h1 (by omega))

@[simp] theorem set1_self (a : ℕ → K) (i : ℕ) (v : K) : set1 a i v i = v := by simp [set1]

theorem set1_ne {a : ℕ → K} {i k : ℕ} {v : K} (h : k ≠ i) : set1 a i v k = a k := by simp [set1, h]

@[simp] theorem set2_self (a : ℕ → ℕ → K) (i j : ℕ) (v : K) : set2 a i j v i j = v := by simp [set2]

theorem set2_ne {a : ℕ → ℕ → K} {i j r c : ℕ} {v : K} (h : r ≠ i ∨ c ≠ j) : set2 a i j v r c = a r c := by
  unfold set2; rw [if_neg]; tauto

theorem toArr2_apply [Zero K] {n : ℕ} (A : Matrix (Fin n) (Fin n) K) (i j : Fin n) : toArr2 A i j = A i j := by
  simp [toArr2]

theorem toArr1_apply [Zero K] {n : ℕ} (v : Fin n → K) (i : Fin n) : toArr1 v i = v i := by
  simp [toArr1]

open Finset

/-- Sums over a slice. -/
theorem sum_fin_slice [AddCommMonoid K] {n s p : ℕ} (hp : p ≤ n) (f : ℕ → K) :
    ∑ i : Fin n, (if s ≤ (i : ℕ) ∧ (i : ℕ) < p then f i else 0) = ∑ i ∈ Ico s p, f i := by
  rw [Fin.sum_univ_eq_sum_range (fun i => if s ≤ i ∧ i < p then f i else 0) n, ← sum_filter]
  congr 1
  ext i
  simp only [mem_filter, mem_range, mem_Ico]
  omega

end Ellalgo
