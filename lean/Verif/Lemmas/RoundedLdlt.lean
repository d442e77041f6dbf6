import Verif.Lemmas.Rounding
import Verif.Lemmas.Ldlt
import Mathlib.Algebra.BigOperators.Intervals
import Mathlib.Analysis.SpecialFunctions.Pow.Real
import Mathlib.Algebra.Order.Chebyshev

/-! # The LDLᵀ factorisation in rounded arithmetic -/

namespace Ellalgo

open Finset Matrix Spec LDLTMgr

theorem sum_slice_fin (f : ℕ → ℝ) (lo hi : ℕ) : ∑ i : Fin (hi - lo), f (lo + i) = ∑ k ∈ Ico lo hi, f k := by
  rw [Finset.sum_Ico_eq_sum_range, ← Fin.sum_univ_eq_sum_range (fun k => f (lo + k))]

theorem Arith.Accurate.dot_slice {A : Arith} {u γ : ℝ} {N : ℕ} (hA : A.Accurate u γ N) (x y : ℕ → ℝ) {lo hi : ℕ} (h : hi ≤ N) :
    |A.dot (Arith.slice x lo hi) (Arith.slice y lo hi) - ∑ k ∈ Ico lo hi, x k * y k| ≤ γ * ∑ k ∈ Ico lo hi, |x k| * |y k| := by
  have := hA.dot (Arith.slice x lo hi) (Arith.slice y lo hi) (by omega)
  rw [← sum_slice_fin (fun k => x k * y k), ← sum_slice_fin (fun k => |x k| * |y k|)]
  exact this

namespace Arith

variable (A : Arith)

/-- The value `diag` computed for column `j` of row `r`. -/
noncomputable def entryVal (a S : ℕ → ℕ → ℝ) (r j : ℕ) : ℝ :=
  if j = 0 then a r 0 else A.sub (a r j) (A.dot (slice (fun k => S r k) 0 j) (slice (fun k => S k j) 0 j))

theorem entryVal_congr {a S S' : ℕ → ℕ → ℝ} {r j : ℕ} (h1 : ∀ k, k < j → S r k = S' r k) (h2 : ∀ k, k < j → S k j = S' k j) : A.entryVal a S r j = A.entryVal a S' r j := by
  have e1 : slice (fun k => S r k) 0 j = slice (fun k => S' r k) 0 j := funext fun k => h1 _ (by have := k.2; omega)
  have e2 : slice (fun k => S k j) 0 j = slice (fun k => S' k j) 0 j := funext fun k => h2 _ (by have := k.2; omega)
  unfold entryVal
  rw [e1, e2]

/-- Rows `0 .. p-1` are factorised. -/
structure RFac (a : ℕ → ℕ → ℝ) (p : ℕ) (S : ℕ → ℕ → ℝ) : Prop where
  eq : ∀ r j, j ≤ r → r < p → S j r = A.entryVal a S r j
  low : ∀ r j, j < r → r < p → S r j = A.div (S j r) (S j j)

theorem RFac.empty (a S : ℕ → ℕ → ℝ) : A.RFac a 0 S := ⟨fun _ _ _ _ => by omega, fun _ _ _ _ => by omega⟩

/-- What holds inside row `i` before the iteration `j`. -/
structure RRowInv (a : ℕ → ℕ → ℝ) (i : ℕ) (S : ℕ → ℕ → ℝ) (j : ℕ) (st : RowState ℝ) : Prop where
  frame : ∀ r c, r < i → c < i → st.storage r c = S r c
  eq : ∀ j', j' < j → st.storage j' i = A.entryVal a st.storage i j'
  low : ∀ j', j' < j → st.storage i j' = A.div (st.storage j' i) (st.storage j' j')
  diag : st.diag = A.entryVal a st.storage i j

theorem rowStep_rinv {a : ℕ → ℕ → ℝ} {i : ℕ} {S : ℕ → ℕ → ℝ} {j : ℕ} {st : RowState ℝ} (hj : j < i) (h : A.RRowInv a i S j st) : A.RRowInv a i S (j + 1) (A.rowStep a 0 i j st) := by
  have e1 : ∀ r c, r < i → c < i → (A.rowStep a 0 i j st).storage r c = st.storage r c := by
    intro r c hr hc
    simp only [rowStep]
    rw [set2_ne (by omega), set2_ne (by omega)]
  have e2 : ∀ c, c ≠ j → c ≠ i → (A.rowStep a 0 i j st).storage i c = st.storage i c := by
    intro c hc hci
    simp only [rowStep]
    rw [set2_ne (by omega), set2_ne (by omega)]
  have e3 : ∀ r, r ≠ j → r ≠ i → (A.rowStep a 0 i j st).storage r i = st.storage r i := by
    intro r hr hri
    simp only [rowStep]
    rw [set2_ne (by omega), set2_ne (by omega)]
  have e4 : (A.rowStep a 0 i j st).storage j i = st.diag := by
    simp only [rowStep]
    rw [set2_ne (by omega), set2_self]
  have e5 : (A.rowStep a 0 i j st).storage i j = A.div st.diag (st.storage j j) := by
    simp only [rowStep]
    rw [set2_self, set2_ne (by omega)]
  have ev : ∀ j', j' ≤ j → A.entryVal a (A.rowStep a 0 i j st).storage i j' = A.entryVal a st.storage i j' := fun j' hj' =>
    A.entryVal_congr (fun k hk => e2 k (by omega) (by omega)) (fun k hk => e1 k j' (by omega) (by omega))
  refine ⟨fun r c hr hc => (e1 r c hr hc).trans (h.frame r c hr hc), ?_, ?_, ?_⟩
  · intro j' h2
    rw [ev j' (by omega)]
    rcases Nat.lt_succ_iff_lt_or_eq.mp h2 with h3 | rfl
    · rw [e3 j' (by omega) (by omega)]; exact h.eq j' h3
    · rw [e4]; exact h.diag
  · intro j' h2
    rcases Nat.lt_succ_iff_lt_or_eq.mp h2 with h3 | rfl
    · rw [e2 j' (by omega) (by omega), e3 j' (by omega) (by omega), e1 j' j' (by omega) (by omega)]
      exact h.low j' h3
    · rw [e5, e4, e1 j' j' hj hj]
  · unfold entryVal
    rw [if_neg (by omega)]
    rfl

theorem row_rspec {a : ℕ → ℕ → ℝ} {i : ℕ} {S : ℕ → ℕ → ℝ} (h : A.RFac a i S) (rd : List (ℕ × ℕ)) :
    A.RFac a (i + 1) (A.row a 0 i S rd).storage ∧ (A.row a 0 i S rd).storage i i = (A.row a 0 i S rd).diag ∧
    (∀ r c, r < i → c < i → (A.row a 0 i S rd).storage r c = S r c) := by
  have hinv : A.RRowInv a i S i (forRange 0 i (A.rowStep a 0 i) { storage := S, diag := a i 0, reads := rd ++ [(i, 0)] }) :=
    forRange_inv (A.RRowInv a i S) (Nat.zero_le i) ⟨fun _ _ _ _ => rfl, fun _ _ => by omega, fun _ _ => by omega, rfl⟩ (fun j st _ h2 h3 => A.rowStep_rinv h2 h3)
  set st := forRange 0 i (A.rowStep a 0 i) { storage := S, diag := a i 0, reads := rd ++ [(i, 0)] } with hst
  have hrow : A.row a 0 i S rd = { st with storage := set2 st.storage i i st.diag } := rfl
  have e1 : ∀ r c, r ≠ i ∨ c ≠ i → (A.row a 0 i S rd).storage r c = st.storage r c := by
    intro r c hrc; rw [hrow]; exact set2_ne hrc
  have e2 : (A.row a 0 i S rd).storage i i = st.diag := by rw [hrow]; exact set2_self _ _ _ _
  have e3 : ∀ r c, r < i → c < i → (A.row a 0 i S rd).storage r c = S r c := by
    intro r c hr hc
    rw [e1 r c (by omega)]
    exact hinv.frame r c hr hc
  refine ⟨⟨?_, ?_⟩, by rw [e2, hrow], e3⟩
  · intro r j h2 h3
    rcases Nat.lt_succ_iff_lt_or_eq.mp h3 with h4 | rfl
    · rw [e3 j r (by omega) (by omega), h.eq r j h2 h4]
      exact A.entryVal_congr (fun k hk => (e3 r k (by omega) (by omega)).symm) (fun k hk => (e3 k j (by omega) (by omega)).symm)
    · rw [A.entryVal_congr (S := (A.row a 0 r S rd).storage) (S' := st.storage) (fun k hk => e1 r k (by omega)) (fun k hk => e1 k j (by omega))]
      rcases Nat.lt_or_eq_of_le h2 with h5 | rfl
      · rw [e1 j r (by omega)]; exact hinv.eq j h5
      · rw [e2]; exact hinv.diag
  · intro r j h2 h3
    rcases Nat.lt_succ_iff_lt_or_eq.mp h3 with h4 | rfl
    · rw [e3 r j h4 (by omega), e3 j r (by omega) h4, e3 j j (by omega) (by omega)]
      exact h.low r j h2 h4
    · rw [e1 r j (by omega), e1 j r (by omega), e1 j j (by omega)]
      exact hinv.low j h2

/-- How `factor` ends. -/
inductive RFactorEnd (a : ℕ → ℕ → ℝ) (n : ℕ) : (ℕ → ℕ → ℝ) × (ℕ × ℕ) → Prop
  | good {S} : A.RFac a n S → (∀ k, k < n → 0 < S k k) → RFactorEnd a n (S, (0, 0))
  | bad {S i} : i < n → A.RFac a (i + 1) S → (∀ k, k < i → 0 < S k k) → S i i ≤ 0 → RFactorEnd a n (S, (0, i + 1))

theorem factorLoop_rspec (a : ℕ → ℕ → ℝ) (n : ℕ) : ∀ (fuel i : ℕ) (S : ℕ → ℕ → ℝ) (rd : List (ℕ × ℕ)), i + fuel = n → A.RFac a i S → (∀ k, k < i → 0 < S k k) →
    A.RFactorEnd a n ((A.factorLoop a fuel i S rd).1, (A.factorLoop a fuel i S rd).2.1)
  | 0, i, S, rd, hn, h, hp => by
    obtain rfl : i = n := by omega
    exact .good h hp
  | fuel + 1, i, S, rd, hn, h, hp => by
    obtain ⟨h1, h2, h3⟩ := A.row_rspec h rd
    have hpos : ∀ k, k < i → 0 < (A.row a 0 i S rd).storage k k := fun k hk => by rw [h3 k k hk hk]; exact hp k hk
    unfold factorLoop
    simp only
    by_cases hd : (A.row a 0 i S rd).diag ≤ 0
    · rw [if_pos hd]
      exact .bad (by omega) h1 hpos (h2.le.trans hd)
    · rw [if_neg hd]
      refine factorLoop_rspec a n fuel (i + 1) _ _ (by omega) h1 fun k hk => ?_
      rcases Nat.lt_succ_iff_lt_or_eq.mp hk with hk | rfl
      · exact hpos k hk
      · rw [h2]; exact not_le.mp hd

theorem factor_rspec (m : LDLTMgr ℝ) (a : ℕ → ℕ → ℝ) : A.RFactorEnd a m.ndim ((A.factor m a).1.storage, (A.factor m a).1.pos) :=
  A.factorLoop_rspec a m.ndim m.ndim 0 m.storage [] (by omega) (RFac.empty A a _) (fun _ h => absurd h (Nat.not_lt_zero _))

end Arith

/-! ### Error of one entry -/

theorem approx_div {u U D L : ℝ} (hu : 0 ≤ u) (hu1 : u ≤ 1 / 10) (hD : 0 < D) (h : |L - U / D| ≤ u * |U / D|) : |U - D * L| ≤ 10 / 9 * u * (D * |L|) ∧ |U| ≤ 10 / 9 * (D * |L|) := by
  have h1 : |U - D * L| ≤ u * |U| := by
    have e : U - D * L = -(D * (L - U / D)) := by field_simp; ring
    rw [e, abs_neg, abs_mul, abs_of_pos hD]
    calc D * |L - U / D| ≤ D * (u * |U / D|) := mul_le_mul_of_nonneg_left h hD.le
      _ = u * |U| := by rw [abs_div, abs_of_pos hD]; field_simp
  have h2 : |U| ≤ 10 / 9 * (D * |L|) := by
    have h3 : |U| ≤ |U - D * L| + |D * L| := by
      have := abs_add_le (U - D * L) (D * L); rwa [sub_add_cancel] at this
    rw [abs_mul, abs_of_pos hD] at h3
    nlinarith [abs_nonneg U]
  refine ⟨h1.trans ?_, h2⟩
  nlinarith

theorem approx_sub {u x U : ℝ} (hu : 0 ≤ u) (hu1 : u ≤ 1 / 10) (h : |U - x| ≤ u * |x|) : |x - U| ≤ 10 / 9 * u * |U| := by
  have h1 : |x| ≤ |x - U| + |U| := by
    have := abs_add_le (x - U) U; rwa [sub_add_cancel] at this
  rw [abs_sub_comm] at h
  have h2 : |x| ≤ 10 / 9 * |U| := by nlinarith [abs_nonneg x]
  have h3 := mul_le_mul_of_nonneg_left h2 hu
  linarith

/-- `Σ d l l` and its absolute version. -/
noncomputable def gramF (p : ℕ) (D : ℕ → ℝ) (l : ℕ → ℕ → ℝ) (r j : ℕ) : ℝ := ∑ k ∈ range p, D k * l r k * l j k

noncomputable def gramAbs (p : ℕ) (D : ℕ → ℝ) (l : ℕ → ℕ → ℝ) (r j : ℕ) : ℝ := ∑ k ∈ range p, D k * |l r k| * |l j k|

theorem gramF_lower {p j r : ℕ} (hj : j < p) (hjr : j ≤ r) (S : ℕ → ℕ → ℝ) (D : ℕ → ℝ) :
    gramF p D (lowerF S) r j = ∑ k ∈ range j, D k * S r k * S j k + D j * lowerF S r j ∧
    gramAbs p D (lowerF S) r j = ∑ k ∈ range j, D k * |S r k| * |S j k| + D j * |lowerF S r j| := by
  have key : ∀ f : ℕ → ℝ, (∀ k, j < k → f k = 0) → ∑ k ∈ range p, f k = ∑ k ∈ range j, f k + f j := fun f hf => by
    rw [← sum_range_succ]
    symm
    refine sum_subset (range_subset_range.mpr (by omega)) fun k _ hk => hf k ?_
    rw [mem_range] at hk; omega
  have l0 : ∀ k, j < k → lowerF S j k = 0 := fun k hk => by unfold lowerF; rw [if_neg (by omega), if_neg (by omega)]
  have l1 : lowerF S j j = 1 := by simp [lowerF]
  have l2 : ∀ r' k, k < r' → lowerF S r' k = S r' k := fun r' k hk => by unfold lowerF; rw [if_neg (by omega), if_pos hk]
  constructor
  · unfold gramF
    rw [key _ fun k hk => by rw [l0 k hk, mul_zero], l1, mul_one]
    congr 1
    refine sum_congr rfl fun k hk => ?_
    rw [mem_range] at hk
    rw [l2 r k (by omega), l2 j k hk]
  · unfold gramAbs
    rw [key _ fun k hk => by rw [l0 k hk, abs_zero, mul_zero], l1, abs_one, mul_one]
    congr 1
    refine sum_congr rfl fun k hk => ?_
    rw [mem_range] at hk
    rw [l2 r k (by omega), l2 j k hk]

section

variable {A : Arith} {u γ : ℝ} {N : ℕ} (hA : A.Accurate u γ N) (hu : 0 ≤ u) (huγ : u ≤ γ) (hγ : γ ≤ 1 / 10)
include hA hu huγ hγ

/-- The inner product in row `r`, column `j`. -/
theorem dot_approx {a S : ℕ → ℕ → ℝ} {q r j : ℕ} (h : A.RFac a q S) (hq : q ≤ N) (hr : r < q) (hjr : j ≤ r) (hD : ∀ k, k < j → 0 < S k k) :
    |A.dot (Arith.slice (fun k => S r k) 0 j) (Arith.slice (fun k => S k j) 0 j) - ∑ k ∈ range j, S k k * S r k * S j k| ≤ 20 / 9 * γ * ∑ k ∈ range j, S k k * |S r k| * |S j k| := by
  have hγ0 : 0 ≤ γ := hu.trans huγ
  have h1 := hA.dot_slice (fun k => S r k) (fun k => S k j) (lo := 0) (hi := j) (by omega)
  rw [Nat.Ico_zero_eq_range] at h1
  have hd : ∀ k ∈ range j, |S k j - S k k * S j k| ≤ 10 / 9 * u * (S k k * |S j k|) ∧ |S k j| ≤ 10 / 9 * (S k k * |S j k|) := fun k hk => by
    rw [mem_range] at hk
    refine approx_div hu (by linarith) (hD k hk) ?_
    rw [h.low j k hk (by omega)]
    exact hA.rnd _
  have h2 : |∑ k ∈ range j, S r k * S k j - ∑ k ∈ range j, S k k * S r k * S j k| ≤ 10 / 9 * u * ∑ k ∈ range j, S k k * |S r k| * |S j k| := by
    rw [← sum_sub_distrib, mul_sum]
    refine (abs_sum_le_sum_abs _ _).trans (sum_le_sum fun k hk => ?_)
    rw [show S r k * S k j - S k k * S r k * S j k = S r k * (S k j - S k k * S j k) by ring, abs_mul]
    calc |S r k| * |S k j - S k k * S j k| ≤ |S r k| * (10 / 9 * u * (S k k * |S j k|)) := mul_le_mul_of_nonneg_left (hd k hk).1 (abs_nonneg _)
      _ = _ := by ring
  have h3 : ∑ k ∈ range j, |S r k| * |S k j| ≤ 10 / 9 * ∑ k ∈ range j, S k k * |S r k| * |S j k| := by
    rw [mul_sum]
    refine sum_le_sum fun k hk => ?_
    calc |S r k| * |S k j| ≤ |S r k| * (10 / 9 * (S k k * |S j k|)) := mul_le_mul_of_nonneg_left (hd k hk).2 (abs_nonneg _)
      _ = _ := by ring
  have h4 : 0 ≤ ∑ k ∈ range j, S k k * |S r k| * |S j k| := sum_nonneg fun k hk => by
    have := hD k (mem_range.mp hk); positivity
  have h5 := abs_sub_le (A.dot (Arith.slice (fun k => S r k) 0 j) (Arith.slice (fun k => S k j) 0 j)) (∑ k ∈ range j, S r k * S k j) (∑ k ∈ range j, S k k * S r k * S j k)
  have h6 := mul_le_mul_of_nonneg_left h3 hγ0
  have h7 := mul_le_mul_of_nonneg_right huγ h4
  linarith

/-- One entry of the matrix against the product of the computed factors. -/
theorem entry_approx {a S : ℕ → ℕ → ℝ} {q p r j : ℕ} (h : A.RFac a q S) (hq : q ≤ N) (hr : r < q) (hjr : j ≤ r) (hj : j < p) (hD : ∀ k, k < p → 0 < S k k) :
    |a r j - gramF p (fun k => S k k) (lowerF S) r j| ≤ 5 / 2 * γ * gramAbs p (fun k => S k k) (lowerF S) r j := by
  have hγ0 : 0 ≤ γ := hu.trans huγ
  obtain ⟨e1, e2⟩ := gramF_lower hj hjr S (fun k => S k k)
  rw [e1, e2]
  have hdot := dot_approx hA hu huγ hγ h hq hr hjr (fun k hk => hD k (by omega))
  set d := A.dot (Arith.slice (fun k => S r k) 0 j) (Arith.slice (fun k => S k j) 0 j) with hd
  set T := ∑ k ∈ range j, S k k * S r k * S j k with hT
  set TA := ∑ k ∈ range j, S k k * |S r k| * |S j k| with hTA
  have hTA0 : 0 ≤ TA := sum_nonneg fun k hk => by
    have := hD k ((mem_range.mp hk).trans hj); positivity
  -- the stored value against the exact remainder
  have hx : |a r j - d - S j r| ≤ 10 / 9 * u * |S j r| ∨ (a r j - S j r = 0 ∧ j = 0) := by
    by_cases h0 : j = 0
    · right
      refine ⟨?_, h0⟩
      rw [h.eq r j hjr hr]; unfold Arith.entryVal; rw [if_pos h0, h0, sub_self]
    · left
      refine approx_sub hu (by linarith) ?_
      rw [h.eq r j hjr hr]; unfold Arith.entryVal; rw [if_neg h0]
      exact hA.rnd _
  -- the stored value against pivot times multiplier
  have hU : |S j r - S j j * lowerF S r j| ≤ 10 / 9 * u * (S j j * |lowerF S r j|) ∧ |S j r| ≤ 10 / 9 * (S j j * |lowerF S r j|) := by
    rcases Nat.lt_or_eq_of_le hjr with h5 | h5
    · have : lowerF S r j = S r j := by unfold lowerF; rw [if_neg (by omega), if_pos h5]
      rw [this]
      refine approx_div hu (by linarith) (hD j hj) ?_
      rw [h.low r j h5 hr]
      exact hA.rnd _
    · have : lowerF S r j = 1 := by unfold lowerF; rw [if_pos h5]
      have hp := hD j hj
      rw [this, ← h5, abs_one, mul_one, sub_self, abs_zero, abs_of_pos hp]
      exact ⟨by positivity, by linarith⟩
  set V := S j j * |lowerF S r j| with hV
  have hV0 : 0 ≤ V := mul_nonneg (hD j hj).le (abs_nonneg _)
  have hx2 : |a r j - S j r - T| ≤ 10 / 9 * u * |S j r| + 20 / 9 * γ * TA := by
    rcases hx with hx | ⟨hx, h0⟩
    · have : a r j - S j r - T = (a r j - d - S j r) + (d - T) := by ring
      rw [this]
      exact (abs_add_le _ _).trans (add_le_add hx hdot)
    · rw [hx, hT, h0]
      simp only [range_zero, sum_empty, sub_zero, abs_zero]
      positivity
  have h8 : a r j - (T + S j j * lowerF S r j) = (a r j - S j r - T) + (S j r - S j j * lowerF S r j) := by ring
  rw [h8]
  refine (abs_add_le _ _).trans ((add_le_add hx2 hU.1).trans ?_)
  have h9 : 10 / 9 * u * |S j r| ≤ 10 / 9 * u * (10 / 9 * V) := mul_le_mul_of_nonneg_left hU.2 (by positivity)
  have h10 : u * V ≤ γ * V := mul_le_mul_of_nonneg_right huγ hV0
  have h11 : 0 ≤ γ * TA := by positivity
  have h12 : 0 ≤ γ * V := by positivity
  nlinarith

/-- The row at which the factorisation fails. -/
theorem fail_approx {a S : ℕ → ℕ → ℝ} {i : ℕ} (h : A.RFac a (i + 1) S) (hq : i + 1 ≤ N) (hD : ∀ k, k < i → 0 < S k k) (hi : S i i ≤ 0) :
    a i i ≤ (1 + 5 / 2 * γ) * gramF i (fun k => S k k) (lowerF S) i i := by
  have hγ0 : 0 ≤ γ := hu.trans huγ
  have e : gramF i (fun k => S k k) (lowerF S) i i = ∑ k ∈ range i, S k k * S i k * S i k := sum_congr rfl fun k hk => by
    rw [mem_range] at hk
    have : lowerF S i k = S i k := by unfold lowerF; rw [if_neg (by omega), if_pos hk]
    rw [this]
  have e2 : ∑ k ∈ range i, S k k * |S i k| * |S i k| = ∑ k ∈ range i, S k k * S i k * S i k := sum_congr rfl fun k _ => by
    rw [mul_assoc, abs_mul_abs_self, mul_assoc]
  have h0 : 0 ≤ ∑ k ∈ range i, S k k * S i k * S i k := sum_nonneg fun k hk => by
    have := hD k (mem_range.mp hk); rw [mul_assoc]; exact mul_nonneg this.le (mul_self_nonneg _)
  rw [e]
  have hdot := dot_approx hA hu huγ hγ h hq (Nat.lt_succ_self i) le_rfl hD
  rw [e2] at hdot
  have hle : a i i ≤ A.dot (Arith.slice (fun k => S i k) 0 i) (Arith.slice (fun k => S k i) 0 i) ∨ (i = 0 ∧ a i i ≤ 0) := by
    rw [h.eq i i le_rfl (Nat.lt_succ_self i)] at hi
    unfold Arith.entryVal at hi
    by_cases hi0 : i = 0
    · rw [if_pos hi0] at hi
      exact .inr ⟨hi0, by rw [hi0] at hi ⊢; exact hi⟩
    · rw [if_neg hi0] at hi
      left
      by_contra hc
      push Not at hc
      have h1 := hA.rnd (a i i - A.dot (Arith.slice (fun k => S i k) 0 i) (Arith.slice (fun k => S k i) 0 i))
      rw [abs_of_pos (sub_pos.mpr hc)] at h1
      have h2 := (abs_le.mp h1).1
      have h3 : A.rnd (a i i - A.dot (Arith.slice (fun k => S i k) 0 i) (Arith.slice (fun k => S k i) 0 i)) ≤ 0 := hi
      nlinarith
  have h5 : 0 ≤ γ * ∑ k ∈ range i, S k k * S i k * S i k := by positivity
  rcases hle with h1 | ⟨_, h1⟩
  · have h2 := (abs_le.mp hdot).2
    linarith
  · linarith

/-- The failing pivot. -/
theorem fail_pivot {a S : ℕ → ℕ → ℝ} {i : ℕ} (h : A.RFac a (i + 1) S) (hq : i + 1 ≤ N) (hD : ∀ k, k < i → 0 < S k k) (hi : S i i ≤ 0) :
    |a i i - gramF i (fun k => S k k) (lowerF S) i i + -S i i| ≤ 20 / 9 * γ * gramF i (fun k => S k k) (lowerF S) i i + 10 / 9 * γ * -S i i := by
  have hγ0 : 0 ≤ γ := hu.trans huγ
  have e : gramF i (fun k => S k k) (lowerF S) i i = ∑ k ∈ range i, S k k * S i k * S i k := sum_congr rfl fun k hk => by
    rw [mem_range] at hk
    have : lowerF S i k = S i k := by unfold lowerF; rw [if_neg (by omega), if_pos hk]
    rw [this]
  have e2 : ∑ k ∈ range i, S k k * |S i k| * |S i k| = ∑ k ∈ range i, S k k * S i k * S i k := sum_congr rfl fun k _ => by
    rw [mul_assoc, abs_mul_abs_self, mul_assoc]
  rw [e]
  have hdot := dot_approx hA hu huγ hγ h hq (Nat.lt_succ_self i) le_rfl hD
  rw [e2] at hdot
  have hv := h.eq i i le_rfl (Nat.lt_succ_self i)
  unfold Arith.entryVal at hv
  by_cases hi0 : i = 0
  · subst hi0
    rw [if_pos rfl] at hv
    have h1 : 0 ≤ 10 / 9 * γ * -S 0 0 := mul_nonneg (by positivity) (by linarith)
    rw [show a 0 0 = S 0 0 from hv.symm]
    simpa using h1
  · rw [if_neg hi0] at hv
    set d := A.dot (Arith.slice (fun k => S i k) 0 i) (Arith.slice (fun k => S k i) 0 i) with hd
    have h1 : |a i i - d - S i i| ≤ 10 / 9 * u * |S i i| := approx_sub hu (by linarith) (by rw [hv]; exact hA.rnd _)
    rw [abs_of_nonpos hi] at h1
    have h2 : 10 / 9 * u * -S i i ≤ 10 / 9 * γ * -S i i := mul_le_mul_of_nonneg_right (by linarith) (by linarith)
    have h3 : a i i - ∑ k ∈ range i, S k k * S i k * S i k + -S i i = (d - ∑ k ∈ range i, S k k * S i k * S i k) + (a i i - d - S i i) := by ring
    rw [h3]
    exact (abs_add_le _ _).trans (by linarith)

end

theorem last_row_arith {b s γ P : ℝ} (hγ0 : 0 ≤ γ) (hP : 1 ≤ P) (hPγ : 10 * P * γ ≤ 1) (hs0 : 0 ≤ s) (hi : b ≤ (1 + 5 / 2 * γ) * s) : b - (1 - 27 / 10 * γ) * s ≤ 7 * P * γ * b := by
  have hγ : γ ≤ 1 / 10 := by nlinarith
  rcases le_total b 0 with hb | hb
  · have h1 : b * (1 - 7 * P * γ) ≤ 0 := mul_nonpos_of_nonpos_of_nonneg hb (by nlinarith)
    have h2 : 0 ≤ (1 - 27 / 10 * γ) * s := mul_nonneg (by linarith) hs0
    linarith
  · have h1 : b * (1 - 5 / 2 * γ) ≤ s := by
      have h2 := mul_le_mul_of_nonneg_right hi (by linarith : 0 ≤ 1 - 5 / 2 * γ)
      have h3 : 0 ≤ γ ^ 2 * s := by positivity
      linarith
    have h4 := mul_le_mul_of_nonneg_left h1 (by linarith : 0 ≤ 1 - 27 / 10 * γ)
    have h5 : 0 ≤ γ ^ 2 * b := by positivity
    have h6 : 52 / 10 * (γ * b) ≤ 7 * P * (γ * b) := mul_le_mul_of_nonneg_right (by linarith) (by positivity)
    linarith

theorem form_arith {γ P t y s Q b E1 E2 G : ℝ} (hγ0 : 0 ≤ γ) (hP : 1 ≤ P) (hPγ : 10 * P * γ ≤ 1) (hs0 : 0 ≤ s) (hy : y ^ 2 = s) (hQ : 0 ≤ Q) (hT : t ^ 2 ≤ (P - 1) * (4 / 3 * Q))
    (hi : b ≤ (1 + 5 / 2 * γ) * s) (hG : G ≤ γ ^ 2 * (t + y) ^ 2) (hE1 : E1 ≤ 5 / 2 * γ * t ^ 2) (hE2 : E2 ≤ 5 / 2 * γ * (t * y)) : E1 + 2 * E2 + (b - s) + G ≤ 7 * P * γ * (Q + b) := by
  have hγ : γ ≤ 1 / 10 := by nlinarith
  have h1 : 2 * (t * y) ≤ t ^ 2 + s := by nlinarith [sq_nonneg (t - y)]
  have h2 : (t + y) ^ 2 ≤ 2 * t ^ 2 + 2 * s := by nlinarith [sq_nonneg (t - y)]
  have hγ2 : γ ^ 2 ≤ 1 / 10 * γ := by nlinarith
  have h3 : γ ^ 2 * (t + y) ^ 2 ≤ 1 / 10 * γ * (2 * t ^ 2 + 2 * s) := mul_le_mul hγ2 h2 (sq_nonneg _) (by positivity)
  have h4 : γ * (2 * (t * y)) ≤ γ * (t ^ 2 + s) := mul_le_mul_of_nonneg_left h1 hγ0
  have h5 : γ * t ^ 2 ≤ γ * ((P - 1) * (4 / 3 * Q)) := mul_le_mul_of_nonneg_left hT hγ0
  have h6 : 0 ≤ γ * ((P - 1) * Q) := mul_nonneg hγ0 (mul_nonneg (by linarith) hQ)
  have h7 : 0 ≤ γ * Q := by positivity
  have h8 := last_row_arith hγ0 hP hPγ hs0 hi
  linarith

theorem pivot_arith {γ P t y s Q b E1 E2 G ep : ℝ} (hγ0 : 0 ≤ γ) (hP : 1 ≤ P) (hγ : γ ≤ 1 / 10) (hs0 : 0 ≤ s) (hy : y ^ 2 = s) (hQ : 0 ≤ Q) (hT : t ^ 2 ≤ (P - 1) * (4 / 3 * Q)) (hep : 0 ≤ ep)
    (hi : |b - s + ep| ≤ 20 / 9 * γ * s + 10 / 9 * γ * ep) (hG0 : 0 ≤ G) (hG : G ≤ γ ^ 2 * (t + y) ^ 2) (hE1 : |E1| ≤ 5 / 2 * γ * t ^ 2) (hE2 : |E2| ≤ 5 / 2 * γ * (t * y)) :
    |E1 + 2 * E2 + (b - s) + G + ep| ≤ 9 * P * γ * (Q + |b| + ep) := by
  have h1 : 2 * (t * y) ≤ t ^ 2 + s := by nlinarith [sq_nonneg (t - y)]
  have h2 : (t + y) ^ 2 ≤ 2 * t ^ 2 + 2 * s := by nlinarith [sq_nonneg (t - y)]
  have hγ2 : γ ^ 2 ≤ 1 / 10 * γ := by nlinarith
  have h3 : γ ^ 2 * (t + y) ^ 2 ≤ 1 / 10 * γ * (2 * t ^ 2 + 2 * s) := mul_le_mul hγ2 h2 (sq_nonneg _) (by positivity)
  have h4 : γ * (2 * (t * y)) ≤ γ * (t ^ 2 + s) := mul_le_mul_of_nonneg_left h1 hγ0
  have h5 : γ * t ^ 2 ≤ γ * ((P - 1) * (4 / 3 * Q)) := mul_le_mul_of_nonneg_left hT hγ0
  have h6 : 0 ≤ γ * ((P - 1) * Q) := mul_nonneg hγ0 (mul_nonneg (by linarith) hQ)
  have h7 : 0 ≤ γ * Q := by positivity
  have hb := neg_abs_le b
  have hb' := le_abs_self b
  have hs : s ≤ 9 / 7 * |b| + 10 / 7 * ep := by
    have := (abs_le.mp hi).1
    have h8 : γ * s ≤ 1 / 10 * s := mul_le_mul_of_nonneg_right hγ hs0
    have h9 : γ * ep ≤ 1 / 10 * ep := mul_le_mul_of_nonneg_right hγ hep
    linarith
  have h10 := mul_le_mul_of_nonneg_left hs hγ0
  have h11 : γ * |b| ≤ P * (γ * |b|) := by nlinarith [mul_nonneg hγ0 (abs_nonneg b)]
  have h12 : γ * ep ≤ P * (γ * ep) := by nlinarith [mul_nonneg hγ0 hep]
  have h13 : 0 ≤ γ * |b| := by positivity
  have h14 : 0 ≤ γ * ep := by positivity
  have e1 := abs_le.mp hE1
  have e2 := abs_le.mp hE2
  have e3 := abs_le.mp hi
  rw [abs_le]
  constructor <;> nlinarith

/-! ### Quadratic forms -/

section

variable {p : ℕ} {D : ℕ → ℝ} {l : ℕ → ℕ → ℝ} (hD : ∀ k, k < p → 0 < D k)
include hD

theorem gramF_self_nonneg (r : ℕ) : 0 ≤ gramF p D l r r := sum_nonneg fun k hk => by
  rw [mul_assoc]; exact mul_nonneg (hD k (mem_range.mp hk)).le (mul_self_nonneg _)

theorem gramAbs_le (r j : ℕ) : gramAbs p D l r j ≤ Real.sqrt (gramF p D l r r) * Real.sqrt (gramF p D l j j) := by
  have h := Real.sum_mul_le_sqrt_mul_sqrt (range p) (fun k => Real.sqrt (D k) * |l r k|) (fun k => Real.sqrt (D k) * |l j k|)
  have e : ∀ r, ∑ k ∈ range p, (Real.sqrt (D k) * |l r k|) ^ 2 = gramF p D l r r := fun r => sum_congr rfl fun k hk => by
    rw [mul_pow, Real.sq_sqrt (hD k (mem_range.mp hk)).le, sq_abs]; ring
  rw [e r, e j] at h
  refine le_trans (le_of_eq (sum_congr rfl fun k hk => ?_)) h
  have := Real.mul_self_sqrt (hD k (mem_range.mp hk)).le
  calc D k * |l r k| * |l j k| = (Real.sqrt (D k) * Real.sqrt (D k)) * |l r k| * |l j k| := by rw [this]
    _ = _ := by ring

omit hD in
theorem gramF_quad (q : ℕ) (w : ℕ → ℝ) : ∑ r ∈ range q, w r * ∑ j ∈ range q, gramF p D l r j * w j = ∑ k ∈ range p, D k * (∑ r ∈ range q, l r k * w r) ^ 2 := by
  have e1 : ∀ r ∈ range q, w r * ∑ j ∈ range q, gramF p D l r j * w j = ∑ k ∈ range p, ∑ j ∈ range q, D k * (l r k * w r) * (l j k * w j) := by
    intro r _
    rw [mul_sum, sum_comm]
    refine sum_congr rfl fun j _ => ?_
    unfold gramF
    rw [sum_mul, mul_sum]
    exact sum_congr rfl fun k _ => by ring
  rw [sum_congr rfl e1, sum_comm]
  refine sum_congr rfl fun k _ => ?_
  rw [pow_two, sum_mul_sum, mul_sum]
  refine sum_congr rfl fun r _ => ?_
  rw [mul_sum]
  exact sum_congr rfl fun j _ => by ring

/-- The form of the absolute values. -/
theorem gramAbs_quad (q : ℕ) (w : ℕ → ℝ) : ∑ k ∈ range p, D k * (∑ r ∈ range q, |l r k| * |w r|) ^ 2 ≤ (∑ r ∈ range q, |w r| * Real.sqrt (gramF p D l r r)) ^ 2 := by
  have h := gramF_quad (p := p) (D := D) (l := fun r k => |l r k|) q (fun r => |w r|)
  rw [← h, pow_two, sum_mul_sum]
  refine sum_le_sum fun r _ => ?_
  rw [mul_sum]
  refine sum_le_sum fun j _ => ?_
  have h1 : gramF p D (fun r k => |l r k|) r j ≤ Real.sqrt (gramF p D l r r) * Real.sqrt (gramF p D l j j) := gramAbs_le hD r j
  calc |w r| * (gramF p D (fun r k => |l r k|) r j * |w j|) ≤ |w r| * ((Real.sqrt (gramF p D l r r) * Real.sqrt (gramF p D l j j)) * |w j|) := by gcongr
    _ = _ := by ring

/-- `B` is close to the Gram matrix on the rows below `q`. -/
theorem err_quad {B : ℕ → ℕ → ℝ} {c : ℝ} (hc : 0 ≤ c) {q : ℕ} (hB : ∀ r j, r < q → j < q → |B r j - gramF p D l r j| ≤ c * gramAbs p D l r j) (w : ℕ → ℝ) :
    |∑ r ∈ range q, w r * ∑ j ∈ range q, (B r j - gramF p D l r j) * w j| ≤ c * (∑ r ∈ range q, |w r| * Real.sqrt (gramF p D l r r)) ^ 2 := by
  rw [pow_two, sum_mul_sum, mul_sum]
  refine (abs_sum_le_sum_abs _ _).trans (sum_le_sum fun r hr => ?_)
  rw [abs_mul, mul_sum]
  refine (mul_le_mul_of_nonneg_left (abs_sum_le_sum_abs _ _) (abs_nonneg _)).trans ?_
  rw [mul_sum]
  refine sum_le_sum fun j hj => ?_
  rw [abs_mul]
  have h1 := (hB r j (mem_range.mp hr) (mem_range.mp hj)).trans (mul_le_mul_of_nonneg_left (gramAbs_le hD r j) hc)
  calc |w r| * (|B r j - gramF p D l r j| * |w j|) ≤ |w r| * (c * (Real.sqrt (gramF p D l r r) * Real.sqrt (gramF p D l j j)) * |w j|) := by gcongr
    _ = _ := by ring

/-- `t² ≤ q/(1-c) Σ B_rr w_r²`. -/
theorem t_sq_le {B : ℕ → ℕ → ℝ} {c : ℝ} (hc1 : c ≤ 1 / 4) {q : ℕ} (hB : ∀ r, r < q → |B r r - gramF p D l r r| ≤ c * gramAbs p D l r r) (w : ℕ → ℝ) :
    (∑ r ∈ range q, |w r| * Real.sqrt (gramF p D l r r)) ^ 2 ≤ q * (4 / 3 * ∑ r ∈ range q, B r r * w r ^ 2) := by
  have h1 := sq_sum_le_card_mul_sum_sq (s := range q) (f := fun r => |w r| * Real.sqrt (gramF p D l r r))
  rw [card_range] at h1
  refine h1.trans (mul_le_mul_of_nonneg_left ?_ (Nat.cast_nonneg q))
  rw [mul_sum]
  refine sum_le_sum fun r hr => ?_
  have h0 := gramF_self_nonneg (l := l) hD r
  rw [mul_pow, sq_abs, Real.sq_sqrt h0]
  have e : gramAbs p D l r r = gramF p D l r r := sum_congr rfl fun k _ => by rw [mul_assoc, abs_mul_abs_self, mul_assoc]
  have h2 := (abs_le.mp (hB r (mem_range.mp hr))).1
  rw [e] at h2
  have h3 : gramF p D l r r ≤ 4 / 3 * B r r := by nlinarith
  nlinarith [sq_nonneg (w r)]

/-- The form is not far below zero. -/
theorem form_lower {B : ℕ → ℕ → ℝ} {c : ℝ} (hc : 0 ≤ c) (hc1 : c ≤ 1 / 4) {q : ℕ} (hB : ∀ r j, r < q → j < q → |B r j - gramF p D l r j| ≤ c * gramAbs p D l r j) (w : ℕ → ℝ) :
    -(4 / 3 * c * q * ∑ r ∈ range q, B r r * w r ^ 2) ≤ ∑ r ∈ range q, w r * ∑ j ∈ range q, B r j * w j := by
  have h1 := (abs_le.mp (err_quad hD hc hB w)).1
  have h2 := gramF_quad (p := p) (D := D) (l := l) q w
  have h3 : 0 ≤ ∑ k ∈ range p, D k * (∑ r ∈ range q, l r k * w r) ^ 2 := sum_nonneg fun k hk => mul_nonneg (hD k (mem_range.mp hk)).le (sq_nonneg _)
  have h4 := mul_le_mul_of_nonneg_left (t_sq_le hD hc1 (fun r hr => hB r r hr hr) w) hc
  have h5 : ∑ r ∈ range q, w r * ∑ j ∈ range q, B r j * w j =
      ∑ r ∈ range q, w r * ∑ j ∈ range q, (B r j - gramF p D l r j) * w j + ∑ r ∈ range q, w r * ∑ j ∈ range q, gramF p D l r j * w j := by
    rw [← sum_add_distrib]
    refine sum_congr rfl fun r _ => ?_
    rw [← mul_add, ← sum_add_distrib]
    congr 1
    exact sum_congr rfl fun j _ => by ring
  rw [h5, h2]
  linarith

/-- The form at a vector with `Lᵀ w ≈ 0`, taken apart. -/
theorem form_split {B : ℕ → ℕ → ℝ} {γ : ℝ} (hγ0 : 0 ≤ γ) (hγ : γ ≤ 1 / 10) (hsymm : ∀ r j, B r j = B j r)
    (hB : ∀ r j, j ≤ r → r < p + 1 → j < p → |B r j - gramF p D l r j| ≤ 5 / 2 * γ * gramAbs p D l r j) {w : ℕ → ℝ} (hw : w p = 1)
    (hres : ∀ k, k < p → |∑ r ∈ range (p + 1), l r k * w r| ≤ γ * ∑ r ∈ range (p + 1), |l r k| * |w r|) :
    ∃ t y Q E1 E2 G : ℝ, y ^ 2 = gramF p D l p p ∧ 0 ≤ Q ∧ t ^ 2 ≤ p * (4 / 3 * Q) ∧ Q = ∑ r ∈ range p, B r r * w r ^ 2 ∧ |E1| ≤ 5 / 2 * γ * t ^ 2 ∧ |E2| ≤ 5 / 2 * γ * (t * y) ∧ 0 ≤ G ∧ G ≤ γ ^ 2 * (t + y) ^ 2 ∧
      ∑ r ∈ range (p + 1), w r * ∑ j ∈ range (p + 1), B r j * w j = E1 + 2 * E2 + (B p p - gramF p D l p p) + G := by
  have hgs : ∀ r j, gramF p D l r j = gramF p D l j r := fun r j => sum_congr rfl fun k _ => by ring
  have has : ∀ r j, gramAbs p D l r j = gramAbs p D l j r := fun r j => sum_congr rfl fun k _ => by ring
  have hB' : ∀ r j, r < p → j < p → |B r j - gramF p D l r j| ≤ 5 / 2 * γ * gramAbs p D l r j := fun r j hr hj => by
    rcases le_total j r with h | h
    · exact hB r j h (by omega) hj
    · rw [hsymm, hgs, has]; exact hB j r h (by omega) hr
  set s := gramF p D l p p with hs
  have hs0 : 0 ≤ s := gramF_self_nonneg hD p
  set t := ∑ r ∈ range p, |w r| * Real.sqrt (gramF p D l r r) with ht
  have hss := Real.sq_sqrt hs0
  have hG0 : 0 ≤ ∑ r ∈ range (p + 1), w r * ∑ j ∈ range (p + 1), gramF p D l r j * w j := by
    rw [gramF_quad]
    exact sum_nonneg fun k hk => mul_nonneg (hD k (mem_range.mp hk)).le (sq_nonneg _)
  -- the Gram part
  have hG : ∑ r ∈ range (p + 1), w r * ∑ j ∈ range (p + 1), gramF p D l r j * w j ≤ γ ^ 2 * (t + Real.sqrt s) ^ 2 := by
    rw [gramF_quad]
    have h1 := gramAbs_quad (l := l) hD (p + 1) w
    rw [sum_range_succ _ p, hw, abs_one, one_mul] at h1
    refine le_trans ?_ (mul_le_mul_of_nonneg_left h1 (sq_nonneg γ))
    rw [mul_sum]
    refine sum_le_sum fun k hk => ?_
    have h2 := hres k (mem_range.mp hk)
    have h3 : (∑ r ∈ range (p + 1), l r k * w r) ^ 2 ≤ (γ * ∑ r ∈ range (p + 1), |l r k| * |w r|) ^ 2 := by
      rw [← sq_abs]; exact pow_le_pow_left₀ (abs_nonneg _) h2 2
    calc _ ≤ D k * (γ * ∑ r ∈ range (p + 1), |l r k| * |w r|) ^ 2 := mul_le_mul_of_nonneg_left h3 (hD k (mem_range.mp hk)).le
      _ = _ := by ring
  -- the error part
  have hE1 := err_quad hD (by positivity : 0 ≤ 5 / 2 * γ) hB' w
  have hE2 : |∑ j ∈ range p, (B p j - gramF p D l p j) * w j| ≤ 5 / 2 * γ * (t * Real.sqrt s) := by
    rw [ht, sum_mul, mul_sum]
    refine (abs_sum_le_sum_abs _ _).trans (sum_le_sum fun j hj => ?_)
    have hj' := mem_range.mp hj
    have h1 := (hB p j hj'.le (by omega) hj').trans (mul_le_mul_of_nonneg_left (gramAbs_le hD p j) (by positivity))
    calc |(B p j - gramF p D l p j) * w j| = |B p j - gramF p D l p j| * |w j| := abs_mul _ _
      _ ≤ 5 / 2 * γ * (Real.sqrt (gramF p D l p p) * Real.sqrt (gramF p D l j j)) * |w j| := by gcongr
      _ = _ := by ring
  have hsplit : ∑ r ∈ range (p + 1), w r * ∑ j ∈ range (p + 1), (B r j - gramF p D l r j) * w j =
      ∑ r ∈ range p, w r * ∑ j ∈ range p, (B r j - gramF p D l r j) * w j + 2 * ∑ j ∈ range p, (B p j - gramF p D l p j) * w j + (B p p - s) := by
    rw [sum_range_succ, hw, one_mul]
    have h1 : ∀ r ∈ range p, w r * ∑ j ∈ range (p + 1), (B r j - gramF p D l r j) * w j = w r * ∑ j ∈ range p, (B r j - gramF p D l r j) * w j + (B p r - gramF p D l p r) * w r := fun r _ => by
      rw [sum_range_succ, hw, hsymm r p, hgs r p]; ring
    rw [sum_congr rfl h1, sum_add_distrib, sum_range_succ, hw, mul_one]
    ring
  have htot : ∑ r ∈ range (p + 1), w r * ∑ j ∈ range (p + 1), B r j * w j =
      ∑ r ∈ range (p + 1), w r * ∑ j ∈ range (p + 1), (B r j - gramF p D l r j) * w j + ∑ r ∈ range (p + 1), w r * ∑ j ∈ range (p + 1), gramF p D l r j * w j := by
    rw [← sum_add_distrib]
    refine sum_congr rfl fun r _ => ?_
    rw [← mul_add, ← sum_add_distrib]
    congr 1
    exact sum_congr rfl fun j _ => by ring
  have hT := t_sq_le (B := B) hD (by linarith : 5 / 2 * γ ≤ 1 / 4) (fun r hr => hB r r le_rfl (by omega) hr) w
  have hQ0 : 0 ≤ ∑ r ∈ range p, B r r * w r ^ 2 := sum_nonneg fun r hr => by
    have h0 := gramF_self_nonneg (l := l) hD r
    have h2 := (abs_le.mp (hB r r le_rfl (by have := mem_range.mp hr; omega) (mem_range.mp hr))).1
    have e : gramAbs p D l r r = gramF p D l r r := sum_congr rfl fun k _ => by rw [mul_assoc, abs_mul_abs_self, mul_assoc]
    rw [e] at h2
    have : 0 ≤ B r r := by nlinarith
    positivity
  exact ⟨t, Real.sqrt s, _, _, _, _, hss, hQ0, hT, rfl, hE1, hE2, hG0, hG, by rw [htot, hsplit]⟩

end

end Ellalgo
