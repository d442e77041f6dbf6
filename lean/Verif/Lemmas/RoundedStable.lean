import Verif.Spec.RoundedStable
import Verif.Lemmas.EllStable
import Verif.Lemmas.RoundedParams

/-! # The array loops of `EllStable` in rounded arithmetic -/

namespace Ellalgo

open Finset

namespace Arith

variable {A : Arith}

/-- Rounding with a relative error below 1 keeps signs. -/
structure SignSafe (A : Arith) : Prop where
  zero : A.rnd 0 = 0
  pos : ∀ x, 0 < x → 0 < A.rnd x
  neg : ∀ x, x < 0 → A.rnd x < 0

theorem signSafe_of {u : ℝ} (hr : ∀ x, |A.rnd x - x| ≤ u * |x|) (hu : u < 1) : A.SignSafe := by
  refine ⟨?_, fun x hx => ?_, fun x hx => ?_⟩
  · have := hr 0
    rw [abs_zero, mul_zero, sub_zero] at this
    exact abs_eq_zero.mp (le_antisymm this (abs_nonneg _))
  · have h1 := (abs_le.mp (hr x)).1
    rw [abs_of_pos hx] at h1
    nlinarith
  · have h1 := (abs_le.mp (hr x)).2
    rw [abs_of_neg hx] at h1
    nlinarith

namespace SignSafe

variable (h : A.SignSafe)
include h

theorem nonneg {x : ℝ} (hx : 0 ≤ x) : 0 ≤ A.rnd x := by
  rcases hx.lt_or_eq with hx | hx
  · exact (h.pos x hx).le
  · rw [← hx, h.zero]

theorem ne {x : ℝ} (hx : x ≠ 0) : A.rnd x ≠ 0 := by
  rcases lt_or_gt_of_ne hx with hx | hx
  · exact (h.neg x hx).ne
  · exact (h.pos x hx).ne'

/-- `w * (w * d)` is not negative, whatever the rounding, if `d` is positive. -/
theorem sq_nonneg {w d : ℝ} (hd : 0 < d) : 0 ≤ A.mul w (A.mul w d) := by
  unfold mul
  rcases lt_trichotomy w 0 with hw | hw | hw
  · exact h.nonneg (mul_nonneg_of_nonpos_of_nonpos hw.le (h.neg _ (mul_neg_of_neg_of_pos hw hd)).le)
  · rw [hw, zero_mul, h.zero]
  · exact h.nonneg (mul_nonneg hw.le (h.nonneg (mul_nonneg hw.le hd.le)))

theorem sq_pos {w d : ℝ} (hd : 0 < d) (hw0 : w ≠ 0) : 0 < A.mul w (A.mul w d) := by
  unfold mul
  rcases lt_or_gt_of_ne hw0 with hw | hw
  · exact h.pos _ (mul_pos_of_neg_of_neg hw (h.neg _ (mul_neg_of_neg_of_pos hw hd)))
  · exact h.pos _ (mul_pos hw (h.pos _ (mul_pos hw hd)))

end SignSafe

/-- The residual of the forward substitution after `j` columns, with the rounded products `T` that it stores. -/
def fresid (A : Arith) (T : ℕ → ℕ → ℝ) (g : ℕ → ℝ) : ℕ → ℕ → ℝ
  | 0, i => g i
  | j + 1, i => A.sub (fresid A T g j i) (T j i)

theorem fresid_congr {T T' : ℕ → ℕ → ℝ} {g : ℕ → ℝ} {m i : ℕ} (h : ∀ k, k < m → T k i = T' k i) : A.fresid T g m i = A.fresid T' g m i := by
  induction m with
  | zero => rfl
  | succ m ih =>
    unfold fresid
    rw [ih fun k hk => h k (by omega), h m (by omega)]

/-- Before the outer iteration `j`. -/
structure FwdInv (A : Arith) (n : ℕ) (S : ℕ → ℕ → ℝ) (g : ℕ → ℝ) (j : ℕ) (st : (ℕ → ℕ → ℝ) × (ℕ → ℝ)) : Prop where
  low : ∀ r c, c ≤ r → st.1 r c = S r c
  up : ∀ k i, k < j → k < i → i < n → st.1 k i = A.mul (S i k) (st.2 k)
  eq : ∀ i, i < n → st.2 i = A.fresid st.1 g (min i j) i

/-- Before the inner iteration `i` of the outer iteration `j`. -/
structure FwdInner (A : Arith) (n : ℕ) (S : ℕ → ℕ → ℝ) (g : ℕ → ℝ) (j i : ℕ) (st : (ℕ → ℕ → ℝ) × (ℕ → ℝ)) : Prop where
  low : ∀ r c, c ≤ r → st.1 r c = S r c
  up : ∀ k i, k < j → k < i → i < n → st.1 k i = A.mul (S i k) (st.2 k)
  up' : ∀ i', j < i' → i' < i → st.1 j i' = A.mul (S i' j) (st.2 j)
  eq : ∀ i', i' < n → (i ≤ i' ∨ i' ≤ j) → st.2 i' = A.fresid st.1 g (min i' j) i'
  eq' : ∀ i', j < i' → i' < i → st.2 i' = A.fresid st.1 g (j + 1) i'

theorem fwdStep_inv {n : ℕ} {S : ℕ → ℕ → ℝ} {g : ℕ → ℝ} {j i : ℕ} {st : (ℕ → ℕ → ℝ) × (ℕ → ℝ)}
    (hj : j < i) (hi : i < n) (h : FwdInner A n S g j i st) : FwdInner A n S g j (i + 1) (A.fwdStep j i st) := by
  have e1 : ∀ r c, ¬ (r = j ∧ c = i) → (A.fwdStep j i st).1 r c = st.1 r c := by
    intro r c h
    simp only [fwdStep]
    rw [set2_ne (by tauto)]
  have e2 : (A.fwdStep j i st).1 j i = A.mul (S i j) (st.2 j) := by
    simp only [fwdStep, set2_self]
    rw [h.low i j hj.le]
  have e3 : ∀ k, k ≠ i → (A.fwdStep j i st).2 k = st.2 k := by
    intro k hk
    simp only [fwdStep]
    rw [set1_ne hk]
  have e4 : (A.fwdStep j i st).2 i = A.sub (st.2 i) ((A.fwdStep j i st).1 j i) := by
    simp only [fwdStep, set1_self]
  have e5 : ∀ m i', (i' ≠ i ∨ m ≤ j) → A.fresid (A.fwdStep j i st).1 g m i' = A.fresid st.1 g m i' :=
    fun m i' hm => fresid_congr fun k hk => e1 k i' (by omega)
  refine ⟨?_, ?_, ?_, ?_, ?_⟩
  · intro r c hc
    rw [e1 r c (by omega), h.low r c hc]
  · intro k i' hk hk' hi'
    rw [e1 k i' (by omega), e3 k (by omega), h.up k i' hk hk' hi']
  · intro i' h1 h2
    rcases Nat.lt_succ_iff_lt_or_eq.mp h2 with h3 | rfl
    · rw [e1 j i' (by omega), e3 j (by omega), h.up' i' h1 h3]
    · rw [e2, e3 j (by omega)]
  · intro i' h1 h2
    rw [e3 i' (by omega), e5 _ _ (by omega)]
    exact h.eq i' h1 (by omega)
  · intro i' h1 h2
    rcases Nat.lt_succ_iff_lt_or_eq.mp h2 with h3 | rfl
    · rw [e3 i' (by omega), e5 _ _ (by omega)]
      exact h.eq' i' h1 h3
    · have := h.eq i' hi (Or.inl le_rfl)
      rw [min_eq_right h1.le] at this
      rw [e4, this]
      conv_rhs => unfold fresid
      rw [e5 _ _ (by omega)]

theorem fwd_inv (A : Arith) (n : ℕ) (S : ℕ → ℕ → ℝ) (g : ℕ → ℝ) : FwdInv A n S g (n - 1) (A.fwd n S g) := by
  unfold fwd
  refine forRange_inv (P := fun j st => FwdInv A n S g j st) (Nat.zero_le _)
    ⟨fun _ _ _ => rfl, fun _ _ h => by omega, fun i _ => by simp [fresid]⟩ ?_
  intro j st _ hj h
  have := forRange_inv (P := fun i st => FwdInner A n S g j i st) (lo := j + 1) (hi := n)
    (f := fun i st => A.fwdStep j i st) (st := st) (by omega)
    ⟨h.low, h.up, fun i' h1 h2 => by omega, fun i' h1 _ => h.eq i' h1, fun i' h1 h2 => by omega⟩
    (fun i st h1 h2 h3 => fwdStep_inv (by omega) h2 h3)
  refine ⟨this.low, ?_, ?_⟩
  · intro k i hk hki hi
    rcases Nat.lt_succ_iff_lt_or_eq.mp hk with h3 | rfl
    · exact this.up k i h3 hki hi
    · exact this.up' i hki hi
  · intro i hi
    rcases le_or_gt i j with h1 | h1
    · rw [this.eq i hi (Or.inr h1), min_eq_left h1, min_eq_left (by omega)]
    · rw [this.eq' i h1 hi, min_eq_right (by omega)]

/-- Rounded forward substitution: the lower triangle is untouched, the upper triangle gets the rounded products, and the result is the running residual. -/
theorem fwd_spec (A : Arith) (n : ℕ) (S : ℕ → ℕ → ℝ) (g : ℕ → ℝ) :
    (∀ r c, c ≤ r → (A.fwd n S g).1 r c = S r c) ∧
    (∀ k i, k < i → i < n → (A.fwd n S g).1 k i = A.mul (S i k) ((A.fwd n S g).2 k)) ∧
    (∀ i, i < n → (A.fwd n S g).2 i = A.fresid (A.fwd n S g).1 g i i) := by
  have h := fwd_inv A n S g
  refine ⟨h.low, fun k i h1 h2 => h.up k i (by omega) h1 h2, fun i hi => ?_⟩
  have := h.eq i hi
  rwa [min_eq_left (by omega)] at this

theorem invDiag_spec (A : Arith) (n : ℕ) (S : ℕ → ℕ → ℝ) (w : ℕ → ℝ) {i : ℕ} (hi : i < n) : A.invDiag n S w i = A.mul (w i) (S i i) := by
  have := forRange_inv (P := fun j z => (∀ i, i < j → z i = A.mul (w i) (S i i)) ∧ ∀ i, j ≤ i → z i = w i) (lo := 0) (hi := n)
    (f := fun i z => set1 z i (A.mul (z i) (S i i))) (st := w) (Nat.zero_le _) ⟨fun _ h => by omega, fun _ _ => rfl⟩ (by
      rintro j z - hj ⟨h1, h2⟩
      refine ⟨fun i hi => ?_, fun i hi => ?_⟩
      · rcases Nat.lt_succ_iff_lt_or_eq.mp hi with h3 | rfl
        · rw [set1_ne (by omega), h1 i h3]
        · rw [set1_self, h2 i le_rfl]
      · rw [set1_ne (by omega), h2 i (by omega)])
  exact this.1 i hi

/-- A gradient that is not zero leaves a residual that is not zero. -/
theorem fwd_ne_zero (hA : A.SignSafe) {n : ℕ} {S : ℕ → ℕ → ℝ} {g : ℕ → ℝ} (hg : ∃ i, i < n ∧ g i ≠ 0) : ∃ i, i < n ∧ (A.fwd n S g).2 i ≠ 0 := by
  obtain ⟨i, hi, hgi⟩ := hg
  obtain ⟨-, h2, h3⟩ := fwd_spec A n S g
  by_contra hc
  push Not at hc
  have key : ∀ m, m ≤ i → A.fresid (A.fwd n S g).1 g m i ≠ 0 := by
    intro m
    induction m with
    | zero => exact fun _ => hgi
    | succ m ih =>
      intro hm
      unfold fresid
      rw [h2 m i (by omega) hi, hc m (by omega)]
      have : A.mul (S i m) 0 = 0 := by unfold mul; rw [mul_zero, hA.zero]
      rw [this]
      unfold sub
      rw [sub_zero]
      exact hA.ne (ih (by omega))
  exact key i le_rfl (by rw [← h3 i hi]; exact hc i hi)

theorem omegaSum_pos (hA : A.SignSafe) {n : ℕ} {S : ℕ → ℕ → ℝ} {w z : ℕ → ℝ} (hS : ∀ i, i < n → 0 < S i i) (hz : ∀ i, i < n → z i = A.mul (w i) (S i i)) :
    0 ≤ A.omegaSum n w z ∧ ((∃ i, i < n ∧ w i ≠ 0) → 0 < A.omegaSum n w z) := by
  have := forRange_inv (P := fun j s => 0 ≤ s ∧ ((∃ i, i < j ∧ w i ≠ 0) → 0 < s)) (lo := 0) (hi := n)
    (f := fun i s => A.add s (A.mul (w i) (z i))) (st := (0 : ℝ)) (Nat.zero_le _) ⟨le_rfl, fun ⟨i, hi, _⟩ => by omega⟩ (by
      rintro j s - hj ⟨h1, h2⟩
      rw [hz j hj]
      have h3 := hA.sq_nonneg (w := w j) (hS j hj)
      refine ⟨hA.nonneg (by linarith), ?_⟩
      rintro ⟨i, hi, hw⟩
      rcases Nat.lt_succ_iff_lt_or_eq.mp hi with h4 | rfl
      · have := h2 ⟨i, h4, hw⟩
        exact hA.pos _ (by linarith)
      · have := hA.sq_pos (hS i hj) hw
        exact hA.pos _ (by linarith))
  exact this

/-- Before iteration `j` of the rank-one loop. -/
structure RankPos (A : Arith) (n : ℕ) (S T : ℕ → ℕ → ℝ) (g : ℕ → ℝ) (j : ℕ) (st : EllStable.RankState ℝ) : Prop where
  ok : st.failed = false
  oldt : 0 < st.oldt
  v : ∀ k, j ≤ k → k < n → st.v k = A.fresid T g j k
  up : ∀ r c, r < c → st.mq r c = T r c
  diag : ∀ c, c < n → 0 < st.mq c c

theorem rankStep_pos (hA : A.SignSafe) {n : ℕ} {S T : ℕ → ℕ → ℝ} {g w z : ℕ → ℝ} {j : ℕ} {st : EllStable.RankState ℝ} (hj : j < n) (hS : 0 < S j j)
    (hz : z j = A.mul (w j) (S j j)) (hw : w j = A.fresid T g j j) (h : RankPos A n S T g j st) : RankPos A n S T g (j + 1) (A.rankStep n z j st) := by
  have hvj : st.v j = w j := by rw [h.v j le_rfl hj, hw]
  have hnew : 0 < A.add st.oldt (A.mul (st.v j) (z j)) := by
    have h1 := hA.sq_nonneg (w := w j) hS
    have := h.oldt
    rw [hvj, hz]
    exact hA.pos _ (by linarith)
  unfold rankStep
  simp only [h.ok, Bool.false_eq_true, if_false, if_neg hnew.ne']
  generalize A.add st.oldt (A.mul (st.v j) (z j)) = newt at hnew
  set mq0 := set2 st.mq j j (A.mul (st.mq j j) (A.div st.oldt newt)) with hmq0
  set b := A.div (z j) newt with hb
  obtain ⟨i1, i2, i3⟩ := forRange_inv (P := fun i q => (∀ r c, (c ≠ j ∨ r ≤ j) → q.1 r c = mq0 r c) ∧
      (∀ k, i ≤ k → q.2 k = st.v k) ∧ (∀ k, j < k → k < i → q.2 k = A.fresid T g (j + 1) k))
    (lo := j + 1) (hi := n) (f := A.rankInner j b) (st := (mq0, st.v)) (by omega)
    ⟨fun _ _ _ => rfl, fun _ _ => rfl, fun k h1 h2 => by omega⟩ (by
      rintro i q hji hin ⟨h1, h2, h3⟩
      simp only [rankInner]
      refine ⟨fun r c hrc => ?_, fun k hk => ?_, fun k hk1 hk2 => ?_⟩
      · rw [set2_ne (by omega), h1 r c (by omega)]
      · rw [set1_ne (by omega), h2 k (by omega)]
      · rcases Nat.lt_succ_iff_lt_or_eq.mp hk2 with hk3 | rfl
        · rw [set1_ne (by omega), h3 k hk1 hk3]
        · rw [set1_self, h2 k le_rfl, h1 j k (Or.inr le_rfl), hmq0, set2_ne (by omega), h.up j k (by omega), h.v k (by omega) hin]
          rfl)
  refine ⟨rfl, hnew, fun k hk hkn => i3 k (by omega) hkn, fun r c hrc => ?_, fun c hc => ?_⟩
  · show (forRange (j + 1) n (A.rankInner j b) (mq0, st.v)).1 r c = T r c
    rw [i1 r c (by omega), hmq0, set2_ne (by omega), h.up r c hrc]
  · show 0 < (forRange (j + 1) n (A.rankInner j b) (mq0, st.v)).1 c c
    rw [i1 c c (by omega)]
    by_cases hcj : c = j
    · subst hcj
      rw [hmq0, set2_self]
      exact hA.pos _ (mul_pos (h.diag c hc) (hA.pos _ (div_pos h.oldt hnew)))
    · rw [hmq0, set2_ne (by omega)]
      exact h.diag c hc

theorem rankOne_pos (hA : A.SignSafe) {n : ℕ} {S T : ℕ → ℕ → ℝ} {g w z : ℕ → ℝ} {t0 : ℝ} (ht : 0 < t0) (hS : ∀ i, i < n → 0 < S i i) (hT : ∀ i, i < n → T i i = S i i)
    (hz : ∀ j, j < n → z j = A.mul (w j) (S j j)) (hw : ∀ j, j < n → w j = A.fresid T g j j) : RankPos A n S T g n (A.rankOne n T z g t0) := by
  unfold rankOne
  refine forRange_inv (P := fun j st => RankPos A n S T g j st) (Nat.zero_le _) ?_ ?_
  · exact ⟨rfl, ht, fun k _ _ => rfl, fun _ _ _ => rfl, fun c hc => (hS c hc).trans_eq (hT c hc).symm⟩
  · intro j st _ hj h
    exact rankStep_pos hA hj (hS j hj) (hz j hj) (hw j hj) h

variable {n : ℕ}

/-- One update in any arithmetic that keeps signs: if the strategy asks for `0 ≤ sigma < 1`, `delta > 0`, the diagonal stays positive and no division by zero occurs. -/
theorem stableCore_pos (hA : A.SignSafe) (s : EllStable n) (hS : ∀ i : Fin n, 0 < s.mq i i) (hκ : 0 < s.kappa) {g : Vec n} (hg : g ≠ 0) (b : CutChoice) (strat : Strategy)
    (hp : ∀ st p, strat b (A.stableCore s (g, b) strat).1.tsq = .ok (st, some p) → 0 ≤ p.sigma ∧ 0 < A.sub 1 p.sigma ∧ 0 < p.delta) :
    (∀ i : Fin n, 0 < (A.stableCore s (g, b) strat).1.mq i i) ∧ 0 < (A.stableCore s (g, b) strat).1.kappa ∧ 0 < (A.stableCore s (g, b) strat).1.tsq ∧
    (A.stableCore s (g, b) strat).1.helper = s.helper ∧ (A.stableCore s (g, b) strat).1.noDeferTrick = s.noDeferTrick ∧
    (A.stableCore s (g, b) strat).2 = (strat b (A.stableCore s (g, b) strat).1.tsq).map Prod.fst := by
  obtain ⟨f1, f2, f3⟩ := fwd_spec A n s.mq (toArr1 g)
  have hS' : ∀ i, i < n → 0 < s.mq i i := fun i hi => hS ⟨i, hi⟩
  have hz : ∀ i, i < n → A.invDiag n (A.fwd n s.mq (toArr1 g)).1 (A.fwd n s.mq (toArr1 g)).2 i = A.mul ((A.fwd n s.mq (toArr1 g)).2 i) (s.mq i i) := fun i hi => by
    rw [invDiag_spec A n _ _ hi, f1 i i le_rfl]
  have hg' : ∃ i, i < n ∧ toArr1 g i ≠ 0 := by
    by_contra hc
    push Not at hc
    refine hg (funext fun i => ?_)
    have := hc i i.isLt
    rwa [toArr1_apply] at this
  have hω : 0 < A.omegaSum n (A.fwd n s.mq (toArr1 g)).2 (A.invDiag n (A.fwd n s.mq (toArr1 g)).1 (A.fwd n s.mq (toArr1 g)).2) :=
    (omegaSum_pos hA hS' hz).2 (fwd_ne_zero hA hg')
  have hR := fun t0 (ht : 0 < t0) => rankOne_pos hA (t0 := t0) ht hS' (fun i _ => f1 i i le_rfl) hz f3
  have hd : ∀ i : Fin n, 0 < (A.fwd n s.mq (toArr1 g)).1 i i := fun i => by rw [f1 i i le_rfl]; exact hS i
  unfold stableCore at hp ⊢
  simp only at hp ⊢
  generalize A.fwd n s.mq (toArr1 g) = f at *
  generalize A.invDiag n f.1 f.2 = z at *
  generalize A.omegaSum n f.2 z = ω at *
  have ht : 0 < A.mul s.kappa ω := hA.pos _ (mul_pos hκ hω)
  rcases hs : strat b (A.mul s.kappa ω) with e | ⟨st, _ | p⟩
  · exact ⟨hd, hκ, ht, rfl, rfl, by simp only [hs]; rfl⟩
  · exact ⟨hd, hκ, ht, rfl, rfl, by simp only [hs]; rfl⟩
  · simp only [hs, if_neg hω.ne'] at hp ⊢
    have hp' : 0 ≤ p.sigma ∧ 0 < A.sub 1 p.sigma ∧ 0 < p.delta := by
      refine hp st p ?_
      split_ifs
      · exact hs
      · exact hs
      · exact hs
      · unfold stableFinish; simp only; split_ifs <;> exact hs
    obtain ⟨p1, p2, p3⟩ := hp'
    simp only [if_neg p2.ne']
    by_cases hmu : A.div p.sigma (A.sub 1 p.sigma) = 0
    · simp only [if_pos hmu]
      exact ⟨hd, hκ, ht, trivial, trivial, by simp only [hs]; rfl⟩
    · simp only [if_neg hmu]
      have hmu0 : 0 < A.div p.sigma (A.sub 1 p.sigma) := lt_of_le_of_ne (hA.nonneg (div_nonneg p1 p2.le)) (Ne.symm hmu)
      have R := hR (A.div ω (A.div p.sigma (A.sub 1 p.sigma))) (hA.pos _ (div_pos hω hmu0))
      simp only [R.ok, Bool.false_eq_true, if_false]
      have hk' : 0 < A.mul s.kappa p.delta := hA.pos _ (mul_pos hκ p3)
      unfold stableFinish
      simp only
      split_ifs with hnd
      · exact ⟨fun i => hA.pos _ (mul_pos (R.diag i i.isLt) hk'), one_pos, ht, rfl, rfl, by simp only [hs]; rfl⟩
      · exact ⟨fun i => R.diag i i.isLt, hk', ht, rfl, rfl, by simp only [hs]; rfl⟩

end Arith

end Ellalgo
