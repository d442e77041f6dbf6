import Verif.Model.EllStable
import Verif.Spec.Factored
import Verif.Lemmas.Loops
import Verif.Lemmas.EllUpdate
import Mathlib.Tactic.Ring
import Mathlib.Tactic.Linarith
import Mathlib.Tactic.FieldSimp

/-! # The array loops of `EllStable` -/

namespace Ellalgo

open Finset Spec Matrix

namespace EllStable

section loops

variable {K : Type*} [Field K]

/-- Before the outer iteration `j`. -/
structure FwdInv (n : ℕ) (S : ℕ → ℕ → K) (g : ℕ → K) (j : ℕ) (st : (ℕ → ℕ → K) × (ℕ → K)) : Prop where
  low : ∀ r c, c ≤ r → st.1 r c = S r c
  up : ∀ k i, k < j → k < i → i < n → st.1 k i = S i k * st.2 k
  eq : ∀ i, i < n → g i = st.2 i + ∑ k ∈ range (min i j), S i k * st.2 k

/-- Before the inner iteration `i` of the outer iteration `j`. -/
structure FwdInner (n : ℕ) (S : ℕ → ℕ → K) (g : ℕ → K) (j i : ℕ) (st : (ℕ → ℕ → K) × (ℕ → K)) : Prop where
  low : ∀ r c, c ≤ r → st.1 r c = S r c
  up : ∀ k i, k < j → k < i → i < n → st.1 k i = S i k * st.2 k
  up' : ∀ i', j < i' → i' < i → st.1 j i' = S i' j * st.2 j
  eq : ∀ i', i' < n → (i ≤ i' ∨ i' ≤ j) → g i' = st.2 i' + ∑ k ∈ range (min i' j), S i' k * st.2 k
  eq' : ∀ i', j < i' → i' < i → g i' = st.2 i' + ∑ k ∈ range (j + 1), S i' k * st.2 k

theorem sum_set1 {w : ℕ → K} {i : ℕ} {v : K} {m : ℕ} (h : m ≤ i) (a : ℕ → K) :
    ∑ k ∈ range m, a k * set1 w i v k = ∑ k ∈ range m, a k * w k := by
  refine sum_congr rfl fun k hk => ?_
  rw [mem_range] at hk
  rw [set1_ne (by omega)]

theorem fwdStep_inv {n : ℕ} {S : ℕ → ℕ → K} {g : ℕ → K} {j i : ℕ} {st : (ℕ → ℕ → K) × (ℕ → K)}
    (hj : j < i) (hi : i < n) (h : FwdInner n S g j i st) : FwdInner n S g j (i + 1) (fwdStep j i st) := by
  have e1 : ∀ r c, ¬ (r = j ∧ c = i) → (fwdStep j i st).1 r c = st.1 r c := by
    intro r c h
    simp only [fwdStep]
    rw [set2_ne (by tauto)]
  have e2 : (fwdStep j i st).1 j i = S i j * st.2 j := by
    simp only [fwdStep, set2_self]
    rw [h.low i j hj.le]
  have e3 : ∀ k, k ≠ i → (fwdStep j i st).2 k = st.2 k := by
    intro k hk
    simp only [fwdStep]
    rw [set1_ne hk]
  have e4 : (fwdStep j i st).2 i = st.2 i - S i j * st.2 j := by
    simp only [fwdStep, set2_self, set1_self]
    rw [h.low i j hj.le]
  have e5 : ∀ (a : ℕ → K) m, m ≤ i → ∑ k ∈ range m, a k * (fwdStep j i st).2 k = ∑ k ∈ range m, a k * st.2 k :=
    fun a m hm => sum_set1 hm a
  refine ⟨?_, ?_, ?_, ?_, ?_⟩
  · intro r c hc
    rw [e1 r c (by omega), h.low r c hc]
  · intro k i' hk hk' hi'
    rw [e1 k i' (by omega), e3 k (by omega), h.up k i' hk hk' hi']
  · intro i' h1 h2
    rcases Nat.lt_succ_iff_lt_or_eq.mp h2 with h3 | rfl
    · rw [e1 j i' (by omega), e3 j (by omega), h.up' i' h1 h3]
    · rw [e2, e3 j (by omega)]
  · intro i' h1 h2
    rw [e3 i' (by omega), e5 _ _ (by omega)]
    exact h.eq i' h1 (by omega)
  · intro i' h1 h2
    rcases Nat.lt_succ_iff_lt_or_eq.mp h2 with h3 | rfl
    · rw [e3 i' (by omega), e5 _ _ (by omega)]
      exact h.eq' i' h1 h3
    · rw [e4, e5 _ _ (by omega), sum_range_succ]
      have := h.eq i' hi (Or.inl le_rfl)
      rw [min_eq_right h1.le] at this
      rw [this]; ring

theorem fwd_inv (n : ℕ) (S : ℕ → ℕ → K) (g : ℕ → K) : FwdInv n S g (n - 1) (fwd n S g) := by
  unfold fwd
  refine forRange_inv (P := fun j st => FwdInv n S g j st) (Nat.zero_le _)
    ⟨fun _ _ _ => rfl, fun _ _ h => by omega, fun i _ => by simp⟩ ?_
  intro j st _ hj h
  have := forRange_inv (P := fun i st => FwdInner n S g j i st) (lo := j + 1) (hi := n)
    (f := fun i st => fwdStep j i st) (st := st) (by omega)
    ⟨h.low, h.up, fun i' h1 h2 => by omega, fun i' h1 _ => h.eq i' h1, fun i' h1 h2 => by omega⟩
    (fun i st h1 h2 h3 => fwdStep_inv (by omega) h2 h3)
  refine ⟨this.low, ?_, ?_⟩
  · intro k i hk hki hi
    rcases Nat.lt_succ_iff_lt_or_eq.mp hk with h3 | rfl
    · exact this.up k i h3 hki hi
    · exact this.up' i hki hi
  · intro i hi
    rcases le_or_gt i j with h1 | h1
    · rw [this.eq i hi (Or.inr h1), min_eq_left h1, min_eq_left (by omega)]
    · rw [this.eq' i h1 hi, min_eq_right (by omega)]

/-- Forward substitution solves `L w = g`, saves the products in the upper triangle and leaves the rest alone. -/
theorem fwd_spec (n : ℕ) (S : ℕ → ℕ → K) (g : ℕ → K) :
    (∀ r c, c ≤ r → (fwd n S g).1 r c = S r c) ∧
    (∀ k i, k < i → i < n → (fwd n S g).1 k i = S i k * (fwd n S g).2 k) ∧
    (∀ i, i < n → g i = (fwd n S g).2 i + ∑ k ∈ range i, S i k * (fwd n S g).2 k) := by
  have h := fwd_inv n S g
  refine ⟨h.low, fun k i h1 h2 => h.up k i (by omega) h1 h2, fun i hi => ?_⟩
  rw [h.eq i hi, min_eq_left (by omega)]

theorem invDiag_spec (n : ℕ) (S : ℕ → ℕ → K) (w : ℕ → K) {i : ℕ} (hi : i < n) : invDiag n S w i = w i * S i i := by
  have := forRange_inv (P := fun j z => (∀ i, i < j → z i = w i * S i i) ∧ ∀ i, j ≤ i → z i = w i) (lo := 0) (hi := n)
    (f := fun i z => set1 z i (z i * S i i)) (st := w) (Nat.zero_le _) ⟨fun _ h => by omega, fun _ _ => rfl⟩ (by
      rintro j z - hj ⟨h1, h2⟩
      refine ⟨fun i hi => ?_, fun i hi => ?_⟩
      · rcases Nat.lt_succ_iff_lt_or_eq.mp hi with h3 | rfl
        · rw [set1_ne (by omega), h1 i h3]
        · rw [set1_self, h2 i le_rfl]
      · rw [set1_ne (by omega), h2 i (by omega)])
  exact this.1 i hi

/-- Backward substitution solves `Lᵀ q = z`. -/
theorem bwd_spec (n : ℕ) (S : ℕ → ℕ → K) (z : ℕ → K) {i : ℕ} (hi : i < n) :
    z i = bwd n S z i + ∑ k ∈ Ico (i + 1) n, S k i * bwd n S z k := by
  have key := forDown_inv (P := fun i gt => (∀ r, r < i → gt r = z r) ∧
      ∀ r, i ≤ r → r < n → z r = gt r + ∑ k ∈ Ico (r + 1) n, S k r * gt k) (lo := 0) (hi := n - 1)
    (f := fun i gt => forRange i n (fun j gt => set1 gt (i - 1) (gt (i - 1) - S j (i - 1) * gt j)) gt) (st := z)
    (Nat.zero_le _) ⟨fun _ _ => rfl, fun r h1 h2 => by
      rw [Ico_eq_empty (by omega)]; simp⟩ (by
      rintro i gt h0 hi ⟨h1, h2⟩
      have inner := forRange_inv (P := fun j q => (∀ r, r ≠ i - 1 → q r = gt r) ∧
          z (i - 1) = q (i - 1) + ∑ k ∈ Ico i j, S k (i - 1) * gt k) (lo := i) (hi := n)
        (f := fun j gt => set1 gt (i - 1) (gt (i - 1) - S j (i - 1) * gt j)) (st := gt) (by omega)
        ⟨fun _ _ => rfl, by simp [h1 (i - 1) (by omega)]⟩ (by
          rintro j q hj hjn ⟨h3, h4⟩
          refine ⟨fun r hr => ?_, ?_⟩
          · rw [set1_ne hr, h3 r hr]
          · rw [sum_Ico_succ_top hj, h4, set1_self, h3 j (by omega)]; ring)
      obtain ⟨h3, h4⟩ := inner
      refine ⟨fun r hr => ?_, fun r hr hrn => ?_⟩
      · rw [h3 r (by omega), h1 r (by omega)]
      · have hs : ∀ a : ℕ → K, ∑ k ∈ Ico (r + 1) n, a k *
            forRange i n (fun j gt => set1 gt (i - 1) (gt (i - 1) - S j (i - 1) * gt j)) gt k =
            ∑ k ∈ Ico (r + 1) n, a k * gt k := by
          intro a
          refine sum_congr rfl fun k hk => ?_
          rw [mem_Ico] at hk
          rw [h3 k (by omega)]
        rw [hs]
        rcases Nat.lt_or_ge r i with h5 | h5
        · obtain rfl : r = i - 1 := by omega
          rw [h4, Nat.sub_add_cancel h0]
        · rw [h3 r (by omega)]
          exact h2 r h5 hrn)
  exact key.2 i (Nat.zero_le _) hi

/-- Residual of the forward substitution after `j` columns. -/
def resid (S : ℕ → ℕ → K) (g w : ℕ → K) (j k : ℕ) : K := g k - ∑ c ∈ range j, S k c * w c

/-- The pivots of the rank-one update. -/
def pivot (S : ℕ → ℕ → K) (w : ℕ → K) (t0 : K) (j : ℕ) : K := t0 + ∑ c ∈ range j, w c * (w c * S c c)

theorem pivot_succ (S : ℕ → ℕ → K) (w : ℕ → K) (t0 : K) (j : ℕ) :
    pivot S w t0 (j + 1) = pivot S w t0 j + w j * (w j * S j j) := by
  unfold pivot; rw [sum_range_succ]; ring

theorem resid_succ (S : ℕ → ℕ → K) (g w : ℕ → K) (j k : ℕ) :
    resid S g w (j + 1) k = resid S g w j k - S k j * w j := by
  unfold resid; rw [sum_range_succ]; ring

/-- Before iteration `j` of the rank-one loop. -/
structure RankInv (n : ℕ) (S T : ℕ → ℕ → K) (g w : ℕ → K) (t0 : K) (j : ℕ) (st : RankState K) : Prop where
  ok : st.failed = false
  oldt : st.oldt = pivot S w t0 j
  v : ∀ k, j ≤ k → k < n → st.v k = resid S g w j k
  up : ∀ r c, r < c → st.mq r c = T r c
  diag : ∀ c, c < j → st.mq c c = S c c * (pivot S w t0 c / pivot S w t0 (c + 1))
  diag' : ∀ c, j ≤ c → st.mq c c = S c c
  low : ∀ k c, c < j → c < k → k < n →
    st.mq k c = S k c + w c * S c c / pivot S w t0 (c + 1) * resid S g w (c + 1) k
  low' : ∀ k c, j ≤ c → c < k → st.mq k c = S k c

variable [DecidableEq K]

theorem rankStep_inv {n : ℕ} {S T : ℕ → ℕ → K} {g w z : ℕ → K} {t0 : K} {j : ℕ} {st : RankState K} (hj : j < n)
    (hz : z j = w j * S j j) (hT : ∀ k i, k < i → i < n → T k i = S i k * w k)
    (hw : g j = w j + ∑ k ∈ range j, S j k * w k) (hp : pivot S w t0 (j + 1) ≠ 0)
    (h : RankInv n S T g w t0 j st) : RankInv n S T g w t0 (j + 1) (rankStep n z j st) := by
  have hvj : st.v j = w j := by
    rw [h.v j le_rfl hj, resid, hw]; ring
  have hnew : st.oldt + st.v j * z j = pivot S w t0 (j + 1) := by
    rw [h.oldt, hvj, hz, pivot_succ]
  unfold rankStep
  simp only [h.ok, Bool.false_eq_true, if_false, hnew, if_neg hp]
  set mq0 := set2 st.mq j j (st.mq j j * (st.oldt / pivot S w t0 (j + 1))) with hmq0
  set b := z j / pivot S w t0 (j + 1) with hb
  obtain ⟨i1, i2, i3, i4⟩ := forRange_inv (P := fun i q => (∀ r c, (c ≠ j ∨ r ≤ j ∨ i ≤ r) → q.1 r c = mq0 r c) ∧
      (∀ k, (k ≤ j ∨ i ≤ k) → q.2 k = st.v k) ∧
      (∀ k, j < k → k < i → q.2 k = resid S g w (j + 1) k) ∧
      (∀ k, j < k → k < i → q.1 k j = S k j + b * resid S g w (j + 1) k))
    (lo := j + 1) (hi := n) (f := rankInner j b) (st := (mq0, st.v)) (by omega)
    ⟨fun _ _ _ => rfl, fun _ _ => rfl, fun k h1 h2 => by omega, fun k h1 h2 => by omega⟩ (by
      rintro i q hji hin ⟨h1, h2, h3, h4⟩
      have hjk : q.1 j i = S i j * w j := by
        rw [h1 j i (Or.inr (Or.inl le_rfl)), hmq0, set2_ne (by omega), h.up j i (by omega), hT j i (by omega) hin]
      have hv : q.2 i - q.1 j i = resid S g w (j + 1) i := by
        rw [h2 i (Or.inr le_rfl), hjk, h.v i (by omega) hin, resid_succ]
      have hq : q.1 i j = S i j := by
        rw [h1 i j (by omega), hmq0, set2_ne (by omega), h.low' i j le_rfl (by omega)]
      simp only [rankInner]
      refine ⟨fun r c hrc => ?_, fun k hk => ?_, fun k hk1 hk2 => ?_, fun k hk1 hk2 => ?_⟩
      · rw [set2_ne (by omega), h1 r c (by omega)]
      · rw [set1_ne (by omega), h2 k (by omega)]
      · rcases Nat.lt_succ_iff_lt_or_eq.mp hk2 with hk3 | rfl
        · rw [set1_ne (by omega), h3 k hk1 hk3]
        · rw [set1_self, hv]
      · rcases Nat.lt_succ_iff_lt_or_eq.mp hk2 with hk3 | rfl
        · rw [set2_ne (by omega), h4 k hk1 hk3]
        · rw [set2_self, set1_self, hv, hq])
  refine ⟨rfl, rfl, fun k hk hkn => i3 k (by omega) hkn, fun r c hrc => ?_, fun c hc => ?_, fun c hc => ?_,
    fun k c hc hck hkn => ?_, fun k c hc hck => ?_⟩
  · show (forRange (j + 1) n (rankInner j b) (mq0, st.v)).1 r c = T r c
    rcases Nat.lt_or_ge j r with hr | hr
    · rw [i1 r c (Or.inl (by omega)), hmq0, set2_ne (by omega), h.up r c hrc]
    · rw [i1 r c (Or.inr (Or.inl hr)), hmq0, set2_ne (by omega), h.up r c hrc]
  · show (forRange (j + 1) n (rankInner j b) (mq0, st.v)).1 c c = _
    rw [i1 c c (by omega)]
    rcases Nat.lt_succ_iff_lt_or_eq.mp hc with h3 | rfl
    · rw [hmq0, set2_ne (by omega), h.diag c h3]
    · rw [hmq0, set2_self, h.diag' c le_rfl, h.oldt]
  · show (forRange (j + 1) n (rankInner j b) (mq0, st.v)).1 c c = _
    rw [i1 c c (by omega), hmq0, set2_ne (by omega), h.diag' c (by omega)]
  · show (forRange (j + 1) n (rankInner j b) (mq0, st.v)).1 k c = _
    rcases Nat.lt_succ_iff_lt_or_eq.mp hc with h3 | rfl
    · rw [i1 k c (by omega), hmq0, set2_ne (by omega), h.low k c h3 hck hkn]
    · rw [i4 k hck hkn, hb, hz]
  · show (forRange (j + 1) n (rankInner j b) (mq0, st.v)).1 k c = _
    rw [i1 k c (by omega), hmq0, set2_ne (by omega), h.low' k c (by omega) hck]

theorem rankOne_spec {n : ℕ} {S T : ℕ → ℕ → K} {g w z : ℕ → K} {t0 : K}
    (hz : ∀ j, j < n → z j = w j * S j j) (hT : ∀ k i, k < i → i < n → T k i = S i k * w k)
    (hTS : ∀ r c, c ≤ r → T r c = S r c)
    (hw : ∀ j, j < n → g j = w j + ∑ k ∈ range j, S j k * w k) (hp : ∀ j, j < n → pivot S w t0 (j + 1) ≠ 0) :
    RankInv n S T g w t0 n (rankOne n T z g t0) := by
  unfold rankOne
  refine forRange_inv (P := fun j st => RankInv n S T g w t0 j st) (Nat.zero_le _) ?_ ?_
  · refine ⟨rfl, ?_, fun k _ _ => ?_, fun _ _ _ => rfl, fun c hc => by omega, fun c _ => hTS c c le_rfl,
      fun k c hc => by omega, fun k c _ h => hTS k c h.le⟩
    · simp [pivot]
    · simp [resid]
  · intro j st _ hj h
    exact rankStep_inv hj (hz j hj) hT (hw j hj) (hp j hj) h

end loops

/-! ### Matrix form -/

/-- Entries of the unit lower triangular matrix, indices in `ℕ`. -/
def lowN (S : ℕ → ℕ → ℝ) (i j : ℕ) : ℝ := if i = j then 1 else if j < i then S i j else 0

theorem unitLower_apply (S : ℕ → ℕ → ℝ) {n : ℕ} (i j : Fin n) : unitLower n S i j = lowN S i j := by
  unfold unitLower lowN
  simp only [Matrix.of_apply, Fin.ext_iff, Fin.lt_def]

theorem sum_lowN (S : ℕ → ℕ → ℝ) (x : ℕ → ℝ) {n i : ℕ} (hi : i < n) :
    ∑ j ∈ range n, lowN S i j * x j = x i + ∑ j ∈ range i, S i j * x j := by
  have h1 : ∀ j ∈ range n, lowN S i j * x j = (if i = j then x j else 0) + (if j < i then S i j * x j else 0) := by
    intro j _
    unfold lowN
    by_cases h1 : i = j
    · subst h1; simp
    · simp only [if_neg h1]; split_ifs <;> ring
  rw [sum_congr rfl h1, sum_add_distrib, sum_ite_eq, if_pos (mem_range.mpr hi), ← sum_filter]
  congr 2
  ext j; simp only [mem_filter, mem_range]; omega

theorem sum_lowN' (S : ℕ → ℕ → ℝ) (x : ℕ → ℝ) {n i : ℕ} (hi : i < n) :
    ∑ j ∈ range n, lowN S j i * x j = x i + ∑ j ∈ Ico (i + 1) n, S j i * x j := by
  have h1 : ∀ j ∈ range n, lowN S j i * x j = (if i = j then x j else 0) + (if i < j then S j i * x j else 0) := by
    intro j _
    unfold lowN
    by_cases h1 : i = j
    · subst h1; simp
    · rw [if_neg (Ne.symm h1), if_neg h1]; split_ifs <;> ring
  rw [sum_congr rfl h1, sum_add_distrib, sum_ite_eq, if_pos (mem_range.mpr hi), ← sum_filter]
  congr 2
  ext j; simp only [mem_filter, mem_range, mem_Ico]; omega

theorem unitLower_mulVec (S : ℕ → ℕ → ℝ) (x : ℕ → ℝ) {n : ℕ} (i : Fin n) :
    (unitLower n S *ᵥ fun j : Fin n => x j) i = x i + ∑ j ∈ range i, S i j * x j := by
  rw [← sum_lowN S x i.isLt, ← Fin.sum_univ_eq_sum_range (fun j => lowN S i j * x j) n]
  simp only [mulVec, dotProduct, unitLower_apply]

theorem unitLower_transpose_mulVec (S : ℕ → ℕ → ℝ) (x : ℕ → ℝ) {n : ℕ} (i : Fin n) :
    ((unitLower n S)ᵀ *ᵥ fun j : Fin n => x j) i = x i + ∑ j ∈ Ico ((i : ℕ) + 1) n, S j i * x j := by
  rw [← sum_lowN' S x i.isLt, ← Fin.sum_univ_eq_sum_range (fun j => lowN S j i * x j) n]
  simp only [mulVec, dotProduct, transpose_apply, unitLower_apply]

theorem ldlt_apply (S : ℕ → ℕ → ℝ) {n : ℕ} (i k : Fin n) :
    ldlt n S i k = ∑ c ∈ range n, lowN S i c * (S c c)⁻¹ * lowN S k c := by
  rw [← Fin.sum_univ_eq_sum_range (fun c => lowN S i c * (S c c)⁻¹ * lowN S k c) n]
  unfold ldlt
  rw [mul_apply]
  refine sum_congr rfl fun c _ => ?_
  rw [mul_diagonal, transpose_apply, unitLower_apply, unitLower_apply]

/-- The intermediate vectors of one call. -/
noncomputable def wOf (S : ℕ → ℕ → ℝ) {n : ℕ} (g : Vec n) : ℕ → ℝ := (fwd n S (toArr1 g)).2

noncomputable def zOf (S : ℕ → ℕ → ℝ) {n : ℕ} (g : Vec n) : ℕ → ℝ :=
  invDiag n (fwd n S (toArr1 g)).1 (fwd n S (toArr1 g)).2

noncomputable def qOf (S : ℕ → ℕ → ℝ) {n : ℕ} (g : Vec n) : ℕ → ℝ :=
  bwd n (fwd n S (toArr1 g)).1 (zOf S g)

theorem zOf_eq (S : ℕ → ℕ → ℝ) {n : ℕ} (g : Vec n) {i : ℕ} (hi : i < n) : zOf S g i = wOf S g i * S i i := by
  unfold zOf wOf
  rw [invDiag_spec n _ _ hi, (fwd_spec n S (toArr1 g)).1 i i le_rfl]

theorem lower_wOf (S : ℕ → ℕ → ℝ) {n : ℕ} (g : Vec n) : unitLower n S *ᵥ (fun j : Fin n => wOf S g j) = g := by
  funext i
  rw [unitLower_mulVec]
  unfold wOf
  rw [← (fwd_spec n S (toArr1 g)).2.2 i i.isLt, toArr1_apply]

theorem upper_qOf (S : ℕ → ℕ → ℝ) {n : ℕ} (g : Vec n) :
    (unitLower n S)ᵀ *ᵥ (fun j : Fin n => qOf S g j) = fun j : Fin n => zOf S g j := by
  funext i
  rw [unitLower_transpose_mulVec, bwd_spec n (fwd n S (toArr1 g)).1 (zOf S g) i.isLt]
  unfold qOf
  congr 1
  refine sum_congr rfl fun k hk => ?_
  rw [mem_Ico] at hk
  rw [(fwd_spec n S (toArr1 g)).1 k i (by omega)]

theorem ldlt_qOf {S : ℕ → ℕ → ℝ} {n : ℕ} (hS : ∀ i : Fin n, 0 < S i i) (g : Vec n) :
    ldlt n S *ᵥ (fun j : Fin n => qOf S g j) = g := by
  unfold ldlt
  rw [← mulVec_mulVec, upper_qOf, ← mulVec_mulVec]
  conv_rhs => rw [← lower_wOf S g]
  congr 1
  funext i
  rw [mulVec_diagonal, zOf_eq S g i.isLt]
  field_simp [(hS i).ne']

theorem mulVec_qOf {S : ℕ → ℕ → ℝ} {n : ℕ} {M : Mat n} (h : Represents S M) (g : Vec n) :
    M *ᵥ g = fun j : Fin n => qOf S g j := by
  conv_lhs => rw [← ldlt_qOf h.pos g]
  rw [mulVec_mulVec, h.inv, one_mulVec]

theorem omega_eq {S : ℕ → ℕ → ℝ} {n : ℕ} {M : Mat n} (h : Represents S M) (g : Vec n) :
    g ⬝ᵥ (M *ᵥ g) = ∑ i : Fin n, wOf S g i * zOf S g i := by
  rw [mulVec_qOf h]
  have h1 : ∀ q : Vec n, g ⬝ᵥ q = (fun j : Fin n => wOf S g j) ⬝ᵥ ((unitLower n S)ᵀ *ᵥ q) := by
    intro q
    rw [dotProduct_mulVec, vecMul_transpose, lower_wOf]
  rw [h1, upper_qOf]
  rfl

/-- Residual with the full unit lower triangular matrix. -/
def residL (S : ℕ → ℕ → ℝ) (g w : ℕ → ℝ) (j k : ℕ) : ℝ := g k - ∑ c ∈ range j, lowN S k c * w c

theorem residL_succ (S : ℕ → ℕ → ℝ) (g w : ℕ → ℝ) (j k : ℕ) :
    residL S g w j k = residL S g w (j + 1) k + lowN S k j * w j := by
  unfold residL; rw [sum_range_succ]; ring

theorem residL_eq {S : ℕ → ℕ → ℝ} {g w : ℕ → ℝ} {j k : ℕ} (h : j ≤ k) : residL S g w j k = resid S g w j k := by
  unfold residL resid
  congr 1
  refine sum_congr rfl fun c hc => ?_
  rw [mem_range] at hc
  unfold lowN
  rw [if_neg (by omega), if_pos (by omega)]

theorem residL_zero {S : ℕ → ℕ → ℝ} {g w : ℕ → ℝ} {j k : ℕ} (h : k < j)
    (hw : g k = w k + ∑ c ∈ range k, S k c * w c) : residL S g w j k = 0 := by
  unfold residL
  rw [sum_lowN S w h, hw]; ring

/-- One column of the rank-one update. -/
theorem column_identity {d t w li lk ri rk : ℝ} (hd : d ≠ 0) (ht : t ≠ 0) (ht' : t + w * (w * d) ≠ 0) :
    (li + w * d / (t + w * (w * d)) * ri) * (d * (t / (t + w * (w * d))))⁻¹ * (lk + w * d / (t + w * (w * d)) * rk) +
      (t + w * (w * d))⁻¹ * (ri * rk) = li * d⁻¹ * lk + t⁻¹ * ((ri + li * w) * (rk + lk * w)) := by
  generalize hT : t + w * (w * d) = T at *
  have : t = T - w * (w * d) := by linarith
  field_simp
  rw [this]; ring

/-- The rank-one update of the factors adds `t0⁻¹ g gᵀ`. -/
theorem rankInv_ldlt {n : ℕ} {S T : ℕ → ℕ → ℝ} {g w : ℕ → ℝ} {t0 : ℝ} {st : RankState ℝ}
    (h : RankInv n S T g w t0 n st) (hd : ∀ j, j < n → S j j ≠ 0)
    (hw : ∀ j, j < n → g j = w j + ∑ k ∈ range j, S j k * w k) (ht0 : t0 ≠ 0)
    (hp : ∀ j, j < n → pivot S w t0 (j + 1) ≠ 0) :
    ldlt n st.mq = ldlt n S + t0⁻¹ • vecMulVec (fun i : Fin n => g i) (fun i : Fin n => g i) := by
  have hp' : ∀ j, j ≤ n → pivot S w t0 j ≠ 0 := by
    intro j hj
    cases j with
    | zero => simpa [pivot] using ht0
    | succ j => exact hp j (by omega)
  have hlow : ∀ k c, k < n → c < n →
      lowN st.mq k c = lowN S k c + w c * S c c / pivot S w t0 (c + 1) * residL S g w (c + 1) k := by
    intro k c hk hc
    rcases lt_trichotomy k c with h1 | h1 | h1
    · rw [residL_zero (by omega) (hw k hk)]
      unfold lowN
      rw [if_neg (by omega), if_neg (by omega), if_neg (by omega), if_neg (by omega)]; ring
    · rw [residL_zero (by omega) (hw k hk)]
      unfold lowN
      rw [if_pos h1, if_pos h1]; ring
    · rw [residL_eq (by omega)]
      unfold lowN
      rw [if_neg (by omega), if_pos h1, if_neg (by omega), if_pos h1, h.low k c hc h1 hk]
  ext i k
  have tele : ∀ m, m ≤ n → ∑ c ∈ range m, lowN st.mq i c * (st.mq c c)⁻¹ * lowN st.mq k c +
      (pivot S w t0 m)⁻¹ * (residL S g w m i * residL S g w m k) =
      ∑ c ∈ range m, lowN S i c * (S c c)⁻¹ * lowN S k c +
        (pivot S w t0 0)⁻¹ * (residL S g w 0 i * residL S g w 0 k) := by
    intro m
    induction m with
    | zero => intro _; simp
    | succ m ih =>
      intro hm
      have ihm := ih (by omega)
      rw [sum_range_succ, sum_range_succ, hlow i m i.isLt (by omega), hlow k m k.isLt (by omega), h.diag m (by omega)]
      have hc := column_identity (w := w m) (li := lowN S i m) (lk := lowN S k m) (ri := residL S g w (m + 1) i)
        (rk := residL S g w (m + 1) k) (hd m (by omega)) (hp' m (by omega))
        (by rw [← pivot_succ]; exact hp' (m + 1) hm)
      rw [← pivot_succ, ← residL_succ, ← residL_succ] at hc
      linarith
  have := tele n le_rfl
  rw [residL_zero i.isLt (hw i i.isLt), ← ldlt_apply, ← ldlt_apply] at this
  simp only [zero_mul, mul_zero, add_zero, pivot, range_zero, sum_empty, residL, sub_zero] at this
  rw [this]
  simp only [Matrix.add_apply, Matrix.smul_apply, vecMulVec_apply, smul_eq_mul]

theorem mul_rankOne_inv {n : ℕ} {M N : Mat n} {g : Vec n} (hMN : M * N = 1) (hM : M.IsSymm) {σ ω : ℝ}
    (hω : g ⬝ᵥ (M *ᵥ g) = ω) (hω0 : ω ≠ 0) (hσ : 1 - σ ≠ 0) :
    (M - (σ / ω) • vecMulVec (M *ᵥ g) (M *ᵥ g)) *
      (N + (ω / (σ / (1 - σ)))⁻¹ • vecMulVec g g) = 1 := by
  have hq : vecMulVec (M *ᵥ g) (M *ᵥ g) * N = vecMulVec (M *ᵥ g) g := by
    rw [vecMulVec_mul, ← mulVec_transpose, mulVec_mulVec]
    congr 1
    have hNM : N * M = 1 := mul_eq_one_comm.mp hMN
    have : Nᵀ * M = 1 := by
      have h2 := congrArg transpose hMN
      rw [transpose_mul, transpose_one, hM.eq] at h2
      exact h2
    rw [this, one_mulVec]
  rw [sub_mul, mul_add, mul_add, hMN, Matrix.mul_smul, mul_vecMulVec, Matrix.smul_mul, hq, Matrix.smul_mul,
    Matrix.mul_smul, vecMulVec_mul_vecMulVec, dotProduct_comm, hω, smul_smul]
  have key : (ω / (σ / (1 - σ)))⁻¹ - σ / ω - σ / ω * (ω / (σ / (1 - σ)))⁻¹ * ω = 0 := by
    by_cases h0 : σ = 0
    · subst h0; simp
    · field_simp; ring
  ext i k
  simp only [Matrix.add_apply, Matrix.sub_apply, Matrix.smul_apply, smul_eq_mul, vecMulVec_apply, Pi.smul_apply]
  linear_combination ((M *ᵥ g) i * g k) * key

/-! ### One call -/

theorem _root_.Ellalgo.Spec.Represents.congr {S T : ℕ → ℕ → ℝ} {n : ℕ} {M : Mat n} (h : Represents S M)
    (hST : ∀ r c, c ≤ r → T r c = S r c) : Represents T M := by
  have hl : ∀ i j : ℕ, lowN T i j = lowN S i j := by
    intro i j
    unfold lowN
    split_ifs
    · rfl
    · exact hST _ _ (by omega)
    · rfl
  have : ldlt n T = ldlt n S := by
    ext i k
    rw [ldlt_apply, ldlt_apply]
    refine sum_congr rfl fun c _ => ?_
    rw [hl, hl, hST c c le_rfl]
  exact ⟨fun i => by rw [hST i i le_rfl]; exact h.pos i, by rw [this]; exact h.inv⟩

/-- The two objects stand for the same ellipsoid and show the same attributes. -/
structure Refines {n : ℕ} (s : EllStable n) (e : Ell n) : Prop where
  rep : Represents s.mq e.mq
  xc : s.xc = e.xc
  kappa : s.kappa = e.kappa
  tsq : s.tsq = e.tsq
  helper : s.helper = e.helper
  noDefer : s.noDeferTrick = e.noDeferTrick

theorem toArr1_fun {n : ℕ} (g : Vec n) : (fun i : Fin n => toArr1 g i) = g := by
  funext i; exact toArr1_apply g i

/-- The pivots never vanish and keep their sign when `σ < 1`. -/
theorem pivot_ratio_pos {n : ℕ} {S : ℕ → ℕ → ℝ} {w : ℕ → ℝ} {ω σ : ℝ} (hS : ∀ i, i < n → 0 < S i i) (hω : 0 < ω)
    (hsum : ∑ c ∈ range n, w c * (w c * S c c) = ω) (h1 : σ < 1) (h0 : σ ≠ 0) {j : ℕ} (hj : j < n) :
    pivot S w (ω / (σ / (1 - σ))) (j + 1) ≠ 0 ∧
    0 < pivot S w (ω / (σ / (1 - σ))) j / pivot S w (ω / (σ / (1 - σ))) (j + 1) := by
  have hnn : ∀ c ∈ range n, 0 ≤ w c * (w c * S c c) := by
    intro c hc
    rw [← mul_assoc]
    exact mul_nonneg (mul_self_nonneg _) (hS c (mem_range.mp hc)).le
  have hpart : ∀ m, m ≤ n → 0 ≤ ∑ c ∈ range m, w c * (w c * S c c) ∧ ∑ c ∈ range m, w c * (w c * S c c) ≤ ω := by
    intro m hm
    have hsub : range m ⊆ range n := range_subset_range.mpr hm
    refine ⟨sum_nonneg fun c hc => hnn c (hsub hc), ?_⟩
    rw [← hsum]
    exact sum_le_sum_of_subset_of_nonneg hsub fun c hc _ => hnn c hc
  have h1σ : 0 < 1 - σ := by linarith
  rcases lt_or_gt_of_ne h0 with hneg | hpos
  · have ht : ω / (σ / (1 - σ)) < -ω := by
      have e : ω / (σ / (1 - σ)) = ω / σ - ω := by
        rw [div_div_eq_mul_div, mul_sub, mul_one, sub_div, mul_div_assoc, div_self h0, mul_one]
      have : ω / σ < 0 := div_neg_of_pos_of_neg hω hneg
      rw [e]; linarith
    have hlt : ∀ m, m ≤ n → pivot S w (ω / (σ / (1 - σ))) m < 0 := by
      intro m hm
      unfold pivot
      have := (hpart m hm).2
      linarith
    exact ⟨(hlt _ hj).ne, div_pos_of_neg_of_neg (hlt _ hj.le) (hlt _ hj)⟩
  · have ht : 0 < ω / (σ / (1 - σ)) := by positivity
    have hlt : ∀ m, m ≤ n → 0 < pivot S w (ω / (σ / (1 - σ))) m := by
      intro m hm
      unfold pivot
      have := (hpart m hm).1
      linarith
    exact ⟨(hlt _ hj).ne', div_pos (hlt _ hj.le) (hlt _ hj)⟩

/-- The arrays after the rank-one loop represent the updated matrix. -/
theorem rankOne_represents {n : ℕ} {S : ℕ → ℕ → ℝ} {M : Mat n} (h : Represents S M) (hM : M.IsSymm) {g : Vec n}
    {ω σ : ℝ} (hω : g ⬝ᵥ (M *ᵥ g) = ω) (hω0 : 0 < ω) (h1 : σ < 1) (h0 : σ ≠ 0) :
    RankInv n S (fwd n S (toArr1 g)).1 (toArr1 g) (wOf S g) (ω / (σ / (1 - σ))) n
      (rankOne n (fwd n S (toArr1 g)).1 (zOf S g) (toArr1 g) (ω / (σ / (1 - σ)))) ∧
    Represents (rankOne n (fwd n S (toArr1 g)).1 (zOf S g) (toArr1 g) (ω / (σ / (1 - σ)))).mq
      (M - (σ / ω) • vecMulVec (M *ᵥ g) (M *ᵥ g)) := by
  have hS : ∀ i, i < n → 0 < S i i := fun i hi => h.pos ⟨i, hi⟩
  have hsum : ∑ c ∈ range n, wOf S g c * (wOf S g c * S c c) = ω := by
    rw [← hω, omega_eq h, Fin.sum_univ_eq_sum_range (fun i => wOf S g i * zOf S g i) n]
    refine sum_congr rfl fun c hc => ?_
    rw [zOf_eq S g (mem_range.mp hc)]
  have hp := fun j hj => pivot_ratio_pos (j := j) hS hω0 hsum h1 h0 hj
  obtain ⟨f1, f2, f3⟩ := fwd_spec n S (toArr1 g)
  have hR := rankOne_spec (n := n) (S := S) (T := (fwd n S (toArr1 g)).1) (g := toArr1 g) (w := wOf S g)
    (z := zOf S g) (t0 := ω / (σ / (1 - σ))) (fun j hj => zOf_eq S g hj) f2 f1 f3 (fun j hj => (hp j hj).1)
  refine ⟨hR, ?_, ?_⟩
  · intro i
    rw [hR.diag i i.isLt]
    exact mul_pos (h.pos i) (hp i i.isLt).2
  · have h1σ : (1 - σ) ≠ 0 := by linarith
    have ht0 : ω / (σ / (1 - σ)) ≠ 0 := div_ne_zero hω0.ne' (div_ne_zero h0 h1σ)
    rw [rankInv_ldlt hR (fun j hj => (hS j hj).ne') f3 ht0 (fun j hj => (hp j hj).1), toArr1_fun]
    exact mul_rankOne_inv h.inv hM hω hω0.ne' h1σ

/-- A closed form of `_update_core` on an object that represents a positive definite matrix. -/
theorem updateCore_eq {n : ℕ} {s : EllStable n} {M : Mat n} (h : Represents s.mq M) {g : Vec n} {ω : ℝ}
    (hω : g ⬝ᵥ (M *ᵥ g) = ω) (hω0 : 0 < ω) (β : CutChoice) (strat : Strategy)
    (hσ : ∀ st p, strat β (s.kappa * ω) = .ok (st, some p) → p.sigma ≤ 1) (hM : M.IsSymm) :
    s.updateCore (g, β) strat =
      match strat β (s.kappa * ω) with
      | .error f => ({ s with mq := (fwd n s.mq (toArr1 g)).1, tsq := s.kappa * ω }, .error f)
      | .ok (st, none) => ({ s with mq := (fwd n s.mq (toArr1 g)).1, tsq := s.kappa * ω }, .ok st)
      | .ok (st, some p) =>
        let s2 : EllStable n := { s with mq := (fwd n s.mq (toArr1 g)).1, tsq := s.kappa * ω,
                                         xc := s.xc - (p.rho / ω) • (M *ᵥ g) }
        if p.sigma = 1 then (s2, .error .zeroDivision)
        else if p.sigma = 0 then (s2, .ok st)
        else (EllStable.finish { s2 with mq := (rankOne n (fwd n s.mq (toArr1 g)).1 (zOf s.mq g) (toArr1 g)
          (ω / (p.sigma / (1 - p.sigma)))).mq } p.delta, .ok st) := by
  have hsum : ∑ i : Fin n, (fwd n s.mq (toArr1 g)).2 i *
      invDiag n (fwd n s.mq (toArr1 g)).1 (fwd n s.mq (toArr1 g)).2 i = ω := by
    rw [← hω, omega_eq h]; rfl
  unfold updateCore
  simp only [hsum]
  rcases hs : strat β (s.kappa * ω) with f | ⟨st, _ | p⟩
  · rfl
  · rfl
  · have hxc : (fun i : Fin n => s.xc i - p.rho / ω * bwd n (fwd n s.mq (toArr1 g)).1
        (invDiag n (fwd n s.mq (toArr1 g)).1 (fwd n s.mq (toArr1 g)).2) i) = s.xc - (p.rho / ω) • (M *ᵥ g) := by
      rw [mulVec_qOf h]; rfl
    simp only [if_neg hω0.ne', hxc]
    by_cases h1 : p.sigma = 1
    · rw [if_pos (by rw [h1, sub_self]), if_pos h1]
    have hlt : p.sigma < 1 := lt_of_le_of_ne (hσ st p hs) h1
    have h1σ : 1 - p.sigma ≠ 0 := by linarith
    rw [if_neg h1σ, if_neg h1]
    by_cases h0 : p.sigma = 0
    · rw [if_pos (by rw [h0]; simp), if_pos h0]
    · have hr := (rankOne_represents h hM hω hω0 hlt h0).1.ok
      rw [if_neg (div_ne_zero h0 h1σ), if_neg h0]
      change (if (rankOne n (fwd n s.mq (toArr1 g)).1 (zOf s.mq g) (toArr1 g)
          (ω / (p.sigma / (1 - p.sigma)))).failed = true then _ else _) = _
      rw [if_neg (by rw [hr]; simp)]
      rfl

/-- No entries below the diagonal. -/
def DiagOnly (n : ℕ) (S : ℕ → ℕ → ℝ) : Prop := ∀ r c, c < r → r < n → S r c = 0

/-- Scaling the whole array scales the represented matrix when there is nothing below the diagonal. -/
theorem _root_.Ellalgo.Spec.Represents.smul {S : ℕ → ℕ → ℝ} {n : ℕ} {M : Mat n} (h : Represents S M) (hd : DiagOnly n S) {k : ℝ}
    (hk : 0 < k) : Represents (fun i j => k * S i j) (k • M) ∧ DiagOnly n (fun i j => k * S i j) := by
  refine ⟨⟨fun i => mul_pos hk (h.pos i), ?_⟩, fun r c h1 h2 => by simp [hd r c h1 h2]⟩
  have : ldlt n (fun i j => k * S i j) = k⁻¹ • ldlt n S := by
    ext i j
    rw [Matrix.smul_apply, ldlt_apply, ldlt_apply, smul_eq_mul, mul_sum]
    refine sum_congr rfl fun c hc => ?_
    have hl : ∀ i : Fin n, lowN (fun i j => k * S i j) i c = lowN S i c := by
      intro i
      unfold lowN
      split_ifs with h1 h2
      · rfl
      · show k * S i c = S i c
        rw [hd i c h2 i.isLt, mul_zero]
      · rfl
    rw [hl, hl, mul_inv]; ring
  rw [this, Matrix.smul_mul, Matrix.mul_smul, smul_smul, mul_inv_cancel₀ hk.ne', one_smul, h.inv]

/-- One call of `_update_core` keeps the two objects in step. For `no_defer_trick` the new factors must be diagonal. -/
theorem refines_step {n : ℕ} {s : EllStable n} {e : Ell n} (h : Refines s e) (he : e.WF) {g : Vec n} (hg : g ≠ 0)
    (β : CutChoice) (strat : Strategy)
    (hσδ : ∀ st p, strat β (e.kappa * e.omega g) = .ok (st, some p) → p.sigma < 1 ∧ 0 < p.delta)
    (hδ : ∀ st p, strat β (e.kappa * e.omega g) = .ok (st, some p) → p.sigma = 0 → p.delta = 1)
    (hnd : e.noDeferTrick = true → e.kappa = 1 ∧ ∀ st p, strat β (e.kappa * e.omega g) = .ok (st, some p) →
      p.sigma ≠ 0 → DiagOnly n (rankOne n (fwd n s.mq (toArr1 g)).1 (zOf s.mq g) (toArr1 g)
          (e.omega g / (p.sigma / (1 - p.sigma)))).mq) :
    (s.updateCore (g, β) strat).2 = (e.updateCore (g, β) strat).2 ∧
    Refines (s.updateCore (g, β) strat).1 (e.updateCore (g, β) strat).1 := by
  have hω := he.omega_pos hg
  have hM : e.mq.IsSymm := isHermitian_iff_isSymm.mp he.posDef.isHermitian
  have hfwd := (fwd_spec n s.mq (toArr1 g)).1
  rw [updateCore_eq h.rep rfl hω β strat (fun st p hp => (hσδ st p (by rw [← h.kappa]; exact hp)).1.le) hM,
    Ell.updateCore_eq hg hω.ne']
  change (match strat β (s.kappa * e.omega g) with
    | .error f => _ | .ok (st, none) => _ | .ok (st, some p) => _ : EllStable n × Except Fault CutStatus).2 = _ ∧
    Refines (match strat β (s.kappa * e.omega g) with
    | .error f => _ | .ok (st, none) => _ | .ok (st, some p) => _ : EllStable n × Except Fault CutStatus).1 _
  rw [h.kappa]
  rcases hs : strat β (e.kappa * e.omega g) with f | ⟨st, _ | p⟩
  · exact ⟨rfl, h.rep.congr hfwd, h.xc, rfl, rfl, h.helper, h.noDefer⟩
  · exact ⟨rfl, h.rep.congr hfwd, h.xc, rfl, rfl, h.helper, h.noDefer⟩
  · obtain ⟨h1, hδpos⟩ := hσδ st p hs
    simp only [if_neg h1.ne]
    by_cases h0 : p.sigma = 0
    · have hδ1 := hδ st p hs h0
      simp only [if_pos h0]
      refine ⟨trivial, ?_, ?_, ?_, rfl, h.helper, h.noDefer⟩
      · simp only [Ell.applied, h0, zero_div, zero_smul, sub_zero]
        split_ifs with hd
        · rw [(hnd hd).1, hδ1, one_mul, one_smul]
          exact h.rep.congr hfwd
        · exact h.rep.congr hfwd
      · simp only [Ell.applied, h.xc]; rfl
      · simp only [Ell.applied, hδ1, mul_one]
        split_ifs with hd
        · exact (hnd hd).1
        · rfl
    · simp only [if_neg h0]
      have hrep := (rankOne_represents h.rep hM (g := g) rfl hω h1 h0).2
      refine ⟨trivial, ?_⟩
      unfold finish
      simp only
      by_cases hd : e.noDeferTrick = true
      · rw [if_pos (h.noDefer.trans hd)]
        refine ⟨?_, ?_, ?_, ?_, h.helper, h.noDefer⟩
        · simp only [Ell.applied, if_pos hd]
          exact (hrep.smul ((hnd hd).2 st p hs h0) (mul_pos he.kappa_pos hδpos)).1
        · simp only [Ell.applied, h.xc]; rfl
        · simp only [Ell.applied, if_pos hd]
        · rfl
      · rw [if_neg (by rw [h.noDefer]; exact hd)]
        refine ⟨?_, ?_, ?_, ?_, h.helper, h.noDefer⟩
        · simp only [Ell.applied, if_neg hd]
          exact hrep
        · simp only [Ell.applied, h.xc]; rfl
        · simp only [Ell.applied, if_neg hd]
        · rfl

end EllStable

end Ellalgo
