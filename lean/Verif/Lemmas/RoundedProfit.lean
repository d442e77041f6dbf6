import Verif.Spec.RoundedProfit
import Verif.Model.RoundedProfit
import Verif.Lemmas.Profit
import Verif.Lemmas.Rel
import Verif.Lemmas.RoundedParallel
import Verif.Lemmas.RoundedSpectrum

/-! # Rounding errors of the profit oracle -/

namespace Ellalgo

open Matrix Spec Spec.ProfitProblem

variable {A : Arith} {u ν : ℝ} {P : ProfitProblem} {o : ProfitOracle}

/-- The attributes of a profit oracle that has been constructed in rounded arithmetic, whatever has been asked so far. -/
structure Arith.ProfitGood (u : ℝ) (P : ProfitProblem) (o : ProfitOracle) : Prop where
  logPA : |o.logPA - Real.log (P.price * P.scale)| ≤ 3 * u * (1 + |Real.log (P.price * P.scale)|)
  logK : |o.logK - Real.log P.limit| ≤ u * |Real.log P.limit|
  priceOut : o.priceOut = P.cost
  elasticities : o.elasticities = P.alpha
  idx : o.idx = -1 ∨ o.idx = 0 ∨ o.idx = 1

theorem Rel.log_sub {e a b : ℝ} (h : Rel e a b) (hb : 0 < b) : |Real.log a - Real.log b| ≤ e := by
  obtain ⟨t, h1, h2⟩ := h
  rw [h2, Real.log_mul hb.ne' (Real.exp_pos t).ne', Real.log_exp]
  simpa using h1

theorem Spec.ProfitProblem.outlay_pos (hP : P.Proper) (x : Vec 2) : 0 < P.outlay x :=
  add_pos (mul_pos (hP.cost 0) (Real.exp_pos _)) (mul_pos (hP.cost 1) (Real.exp_pos _))

theorem h2_eq (P : ProfitProblem) (γ : ℝ) (x : Vec 2) : ProfitOracle.h2 P γ x = Real.log (γ + P.outlay x) - P.logRevenue x := rfl

theorem Spec.ProfitProblem.magnitude_pos (P : ProfitProblem) (x : Vec 2) : 1 ≤ P.magnitude x := by
  unfold magnitude
  linarith [abs_nonneg (Real.log (P.price * P.scale)), abs_nonneg (P.alpha 0 * x 0), abs_nonneg (P.alpha 1 * x 1)]

theorem Spec.ProfitProblem.logRevenue_le (P : ProfitProblem) (x : Vec 2) : |P.logRevenue x| + 1 ≤ P.magnitude x := by
  unfold magnitude logRevenue
  rw [dotProduct, Fin.sum_univ_two]
  have := abs_add_le (Real.log (P.price * P.scale)) (P.alpha 0 * x 0 + P.alpha 1 * x 1)
  have := abs_add_le (P.alpha 0 * x 0) (P.alpha 1 * x 1)
  linarith

section

variable (hA : A.Accurate u ν 2) (hu : 0 ≤ u) (hu2 : 2000 * u ≤ 1) (hν : ν ≤ 4 * u) (hP : P.Proper) (ho : Arith.ProfitGood u P o)

include hA hu hu2 hP

theorem profitInit_good : ∃ o, A.profitInit P.price P.scale P.limit P.alpha P.cost = .ok o ∧ Arith.ProfitGood u P o := by
  have h1 : Rel (2 * u) (A.mul P.price P.scale) (P.price * P.scale) := hA.rel hu (by linarith) _
  refine ⟨_, by simp only [Arith.profitInit, Arith.plog, not_le.mpr (h1.pos hP.rev), not_le.mpr hP.limit, if_false]; rfl, ?_, hA.rnd _, rfl, rfl, .inl rfl⟩
  have h2 := h1.log_sub hP.rev
  have h3 := hA.rnd_err hu le_rfl h2 le_rfl
  simp only
  nlinarith [abs_nonneg (Real.log (P.price * P.scale))]

include ho

theorem profit_q (x : Vec 2) (i : Fin 2) : Rel (4 * u) ((A.profitEval o x).q i) (P.cost i * Real.exp (x i)) := by
  have h1 : Rel (2 * u) (A.exp (x i)) (Real.exp (x i)) := hA.rel hu (by linarith) _
  have h2 : Rel (2 * u) ((A.profitEval o x).q i) (o.priceOut i * A.exp (x i)) := hA.rel hu (by linarith) _
  rw [ho.priceOut] at h2
  exact (h2.trans (h1.const_mul _)).mono (by linarith)

theorem profit_vy (x : Vec 2) : Rel (6 * u) (A.profitEval o x).vy (P.outlay x) := by
  have h0 := profit_q hA hu hu2 hP ho x 0
  have h1 := profit_q hA hu hu2 hP ho x 1
  have h2 := h0.add h1 (mul_pos (hP.cost 0) (Real.exp_pos _)) (mul_pos (hP.cost 1) (Real.exp_pos _)).le
  have h3 : Rel (2 * u) (A.profitEval o x).vy ((A.profitEval o x).q 0 + (A.profitEval o x).q 1) := hA.rel hu (by linarith) _
  exact (h3.trans h2).mono (by linarith)

include hν

theorem profit_logCobb (x : Vec 2) : |(A.profitEval o x).logCobb - P.logRevenue x| ≤ 6 * u * P.magnitude x := by
  have h1 := ho.logPA
  have h2 := hA.dot P.alpha x le_rfl
  rw [Fin.sum_univ_two, ← abs_mul, ← abs_mul] at h2
  have h3 : |o.logPA + A.dot o.elasticities x - P.logRevenue x| ≤ 4 * u * P.magnitude x := by
    rw [ho.elasticities, show o.logPA + A.dot P.alpha x - P.logRevenue x = (o.logPA - Real.log (P.price * P.scale)) + (A.dot P.alpha x - P.alpha ⬝ᵥ x) by unfold logRevenue; ring]
    have := abs_add_le (o.logPA - Real.log (P.price * P.scale)) (A.dot P.alpha x - P.alpha ⬝ᵥ x)
    have := mul_le_mul_of_nonneg_right hν (add_nonneg (abs_nonneg (P.alpha 0 * x 0)) (abs_nonneg (P.alpha 1 * x 1)))
    have := mul_nonneg hu (add_nonneg zero_le_one (abs_nonneg (Real.log (P.price * P.scale))))
    unfold magnitude
    linarith
  have h4 := hA.rnd_err hu le_rfl h3 (show |P.logRevenue x| ≤ P.magnitude x by linarith [P.logRevenue_le x])
  have h5 : u * (P.magnitude x + 4 * u * P.magnitude x) ≤ 2 * u * P.magnitude x := by nlinarith [P.magnitude_pos x, mul_nonneg hu (show 0 ≤ P.magnitude x by linarith [P.magnitude_pos x])]
  exact h4.trans (by linarith)

end

/-! ### What `assess_optim` answers -/

namespace Arith

variable (A)

/-- The argument of the logarithm. -/
noncomputable def profitArg (o : ProfitOracle) (x : Vec 2) (γ : ℝ) : ℝ := A.add γ (A.profitEval o x).vy

/-- The value of the second constraint. -/
noncomputable def profitVal2 (o : ProfitOracle) (x : Vec 2) (γ : ℝ) : ℝ := A.sub (A.rnd (Real.log (A.profitArg o x γ))) (A.profitEval o x).logCobb

/-- The gradient of the second constraint. -/
noncomputable def profitDir (o : ProfitOracle) (x : Vec 2) (γ : ℝ) : Vec 2 := fun i => A.sub (A.div ((A.profitEval o x).q i) (A.profitArg o x γ)) (o.elasticities i)

/-- The profit that is reported. -/
noncomputable def profitRep (o : ProfitOracle) (x : Vec 2) : ℝ := A.sub (A.exp (A.profitEval o x).logCobb) (A.profitEval o x).vy

variable {A}

theorem ProfitGood.next (ho : ProfitGood u P o) {i : ℤ} (hi : i = 0 ∨ i = 1) (e : Option ProfitEval) : ProfitGood u P { o with idx := i, last := e } :=
  ⟨ho.logPA, ho.logK, ho.priceOut, ho.elasticities, .inr hi⟩

theorem profit_step1 (hi : o.idx = -1 ∨ o.idx = 1) (x : Vec 2) (γ : ℝ) (fuel : ℕ) : A.profitLoop x γ (fuel + 1) o =
    if A.profitFn1 o x > 0 then ({ o with idx := 0 }, .ok (some (![1, 0], A.profitFn1 o x))) else A.profitLoop x γ fuel { o with idx := 0 } := by
  have h0 : o.turn = { o with idx := 0 } := by unfold ProfitOracle.turn; rcases hi with h | h <;> rw [h] <;> rfl
  rw [profitLoop]
  simp only [h0, profitFns, if_true]
  have h1 : A.profitFn1 { o with idx := 0 } x = A.profitFn1 o x := rfl
  simp only [h1]
  split_ifs
  · simp [profitGrads, Except.map]
  · rfl

theorem profit_step2 (hi : o.idx = 0) (x : Vec 2) (γ : ℝ) (fuel : ℕ) : A.profitLoop x γ (fuel + 1) o =
    if A.profitArg o x γ ≤ 0 then ({ o with idx := 1, last := some (A.profitEval o x) }, .error .mathDomain)
    else if A.profitVal2 o x γ > 0 then ({ o with idx := 1, last := some (A.profitEval o x) }, .ok (some (A.profitDir o x γ, A.profitVal2 o x γ)))
    else A.profitLoop x γ fuel { o with idx := 1, last := some (A.profitEval o x) } := by
  have h0 : o.turn = { o with idx := 1 } := by unfold ProfitOracle.turn; rw [hi]; rfl
  have he : A.profitEval { o with idx := 1 } x = A.profitEval o x := rfl
  rw [profitLoop]
  simp only [h0, profitFns, one_ne_zero, if_false, if_true, profitFn2, he, plog]
  change (match ({ o with idx := 1, last := some (A.profitEval o x) }, (if A.profitArg o x γ ≤ 0 then Except.error Fault.mathDomain else .ok (A.rnd (Real.log (A.profitArg o x γ)))).map fun l => A.sub l (A.profitEval o x).logCobb) with | (o, .error f) => _ | (o, .ok fj) => _) = _
  by_cases hw : A.profitArg o x γ ≤ 0
  · simp only [hw, if_true, Except.map]
  · simp only [hw, if_false, Except.map]
    change (if A.profitVal2 o x γ > 0 then _ else _) = _
    by_cases hf : A.profitVal2 o x γ > 0
    · simp only [hf, if_true]
      have hne : A.add γ (A.profitEval o x).vy ≠ 0 := (not_le.mp hw).ne'
      simp only [profitGrads, one_ne_zero, if_false, if_true, profitGrad2, profitSlope, hne, Except.map]
      rfl
    · simp only [hf, if_false]

/-- `assess_optim`, for every state of the object. -/
theorem profitOptim_cases (ho : ProfitGood u P o) (x : Vec 2) (γ : ℝ) : ∃ o', ProfitGood u P o' ∧
    ((0 < A.profitFn1 o x ∧ A.profitOptim o x γ = (o', .ok ((![1, 0], A.profitFn1 o x), none))) ∨
     (A.profitArg o x γ ≤ 0 ∧ A.profitOptim o x γ = (o', .error .mathDomain)) ∨
     (0 < A.profitArg o x γ ∧ 0 < A.profitVal2 o x γ ∧ A.profitOptim o x γ = (o', .ok ((A.profitDir o x γ, A.profitVal2 o x γ), none))) ∨
     (A.profitFn1 o x ≤ 0 ∧ 0 < A.profitArg o x γ ∧ A.profitVal2 o x γ ≤ 0 ∧
        ((A.profitArg o x (A.profitRep o x) = 0 ∧ A.profitOptim o x γ = (o', .error .zeroDivision)) ∨
         (A.profitArg o x (A.profitRep o x) ≠ 0 ∧ A.profitOptim o x γ = (o', .ok ((A.profitDir o x (A.profitRep o x), 0), some (A.profitRep o x))))))) := by
  have hrep : ∀ o' : ProfitOracle, o'.last = some (A.profitEval o x) → o'.elasticities = o.elasticities →
      (A.profitArg o x (A.profitRep o x) = 0 ∧ A.profitReport o' = (o', .error .zeroDivision)) ∨
      (A.profitArg o x (A.profitRep o x) ≠ 0 ∧ A.profitReport o' = (o', .ok ((A.profitDir o x (A.profitRep o x), 0), some (A.profitRep o x)))) := by
    intro o' h1 h2
    unfold profitReport
    rw [h1]
    by_cases h : A.profitArg o x (A.profitRep o x) = 0
    · left
      refine ⟨h, ?_⟩
      have h' : A.add (A.sub (A.exp (A.profitEval o x).logCobb) (A.profitEval o x).vy) (A.profitEval o x).vy = 0 := h
      simp only [profitSlope, h', if_true, Except.map]
    · right
      refine ⟨h, ?_⟩
      have h' : A.add (A.sub (A.exp (A.profitEval o x).logCobb) (A.profitEval o x).vy) (A.profitEval o x).vy ≠ 0 := h
      simp only [profitSlope, h', if_false, Except.map, h2]
      rfl
  unfold profitOptim profitFeas
  have hsplit : (o.idx = -1 ∨ o.idx = 1) ∨ o.idx = 0 := by rcases ho.idx with h | h | h <;> simp [h]
  rcases hsplit with hi | hi
  · have g1 : ProfitGood u P { o with idx := 0 } := ho.next (.inl rfl) o.last
    have g3 := ho.next (i := 1) (.inr rfl) (some (A.profitEval o x))
    rw [profit_step1 hi, profit_step2 (o := { o with idx := 0 }) rfl x γ]
    have e1 : A.profitArg { o with idx := 0 } x γ = A.profitArg o x γ := rfl
    have e2 : A.profitVal2 { o with idx := 0 } x γ = A.profitVal2 o x γ := rfl
    have e3 : A.profitEval { o with idx := 0 } x = A.profitEval o x := rfl
    have e4 : A.profitDir { o with idx := 0 } x γ = A.profitDir o x γ := rfl
    simp only [e1, e2, e3, e4]
    by_cases c1 : A.profitFn1 o x > 0
    · exact ⟨_, g1, .inl ⟨c1, by simp only [c1, if_true]⟩⟩
    by_cases c2 : A.profitArg o x γ ≤ 0
    · exact ⟨_, g3, .inr (.inl ⟨c2, by simp only [c1, c2, if_true, if_false]⟩)⟩
    by_cases c3 : A.profitVal2 o x γ > 0
    · exact ⟨_, g3, .inr (.inr (.inl ⟨not_le.mp c2, c3, by simp only [c1, c2, c3, if_true, if_false]⟩))⟩
    · refine ⟨_, g3, .inr (.inr (.inr ⟨not_lt.mp c1, not_le.mp c2, not_lt.mp c3, ?_⟩))⟩
      simp only [c1, c2, c3, if_false, profitLoop]
      exact hrep _ rfl rfl
  · have g1 := ho.next (i := 1) (.inr rfl) (some (A.profitEval o x))
    have g3 := ho.next (i := 0) (.inl rfl) (some (A.profitEval o x))
    rw [profit_step2 hi x γ, profit_step1 (o := { o with idx := 1, last := some (A.profitEval o x) }) (.inr rfl)]
    have e1 : A.profitFn1 { o with idx := 1, last := some (A.profitEval o x) } x = A.profitFn1 o x := rfl
    simp only [e1]
    by_cases c2 : A.profitArg o x γ ≤ 0
    · exact ⟨_, g1, .inr (.inl ⟨c2, by simp only [c2, if_true]⟩)⟩
    by_cases c3 : A.profitVal2 o x γ > 0
    · exact ⟨_, g1, .inr (.inr (.inl ⟨not_le.mp c2, c3, by simp only [c2, c3, if_true, if_false]⟩))⟩
    by_cases c1 : A.profitFn1 o x > 0
    · exact ⟨_, g3, .inl ⟨c1, by simp only [c1, c2, c3, if_true, if_false]⟩⟩
    · refine ⟨_, g3, .inr (.inr (.inr ⟨not_lt.mp c1, not_le.mp c2, not_lt.mp c3, ?_⟩))⟩
      simp only [c1, c2, c3, if_false, profitLoop]
      exact hrep _ rfl rfl

end Arith

end Ellalgo
