import Verif.Lemmas.Loops
import Verif.Lemmas.Rounding
import Verif.Lemmas.EllUpdate
import Mathlib.Algebra.BigOperators.Intervals

/-! # C90: what holds in every machine arithmetic -/

namespace Ellalgo

open Matrix

variable {n : ℕ}

namespace Arith

/-! ### With exact arithmetic the rounded model is the exact model -/

@[simp] theorem exact_add (x y : ℝ) : exact.add x y = x + y := rfl
@[simp] theorem exact_sub (x y : ℝ) : exact.sub x y = x - y := rfl
@[simp] theorem exact_mul (x y : ℝ) : exact.mul x y = x * y := rfl
@[simp] theorem exact_div (x y : ℝ) : exact.div x y = x / y := rfl
@[simp] theorem exact_pdiv (x y : ℝ) : exact.pdiv x y = Ellalgo.pdiv x y := rfl
@[simp] theorem exact_psqrt (x : ℝ) : exact.psqrt x = Ellalgo.psqrt x := rfl

/-- Rounded multiplication is commutative. -/
theorem mul_comm' (A : Arith) (x y : ℝ) : A.mul x y = A.mul y x := by unfold mul; rw [_root_.mul_comm]

theorem exact_coreInit (x : ℝ) : exact.coreInit x = EllCalcCore.init x := rfl

theorem exact_calcInit (k : ℤ) : exact.calcInit k = EllCalc.init k := rfl

theorem exact_parallelBias (c : EllCalcCore) (β0 β1 tsq b0b1 η : ℝ) :
    exact.calcParallelBiasCutFast c β0 β1 tsq b0b1 η = c.calcParallelBiasCutFast β0 β1 tsq b0b1 η := by
  simp only [calcParallelBiasCutFast, EllCalcCore.calcParallelBiasCutFast, exact_add, exact_sub, exact_mul, exact_div, exact_pdiv, exact_psqrt, sq]

theorem exact_parallel (c : EllCalc) (β0 β1 tsq : ℝ) : exact.calcParallel c β0 β1 tsq = c.calcParallel β0 β1 tsq := by
  unfold calcParallel EllCalc.calcParallel calcParallelBiasCut EllCalcCore.calcParallelBiasCut
  simp only [exact_add, exact_mul, exact_parallelBias]
  rfl

theorem exact_parallelQ (c : EllCalc) (β0 β1 tsq : ℝ) : exact.calcParallelQ c β0 β1 tsq = c.calcParallelQ β0 β1 tsq := by
  unfold calcParallelQ EllCalc.calcParallelQ
  simp only [exact_add, exact_mul, exact_parallelBias]
  rfl

theorem exact_single (c : EllCalc) : exact.calcSingleOrParallel c = c.calcSingleOrParallel := by
  funext b tsq
  unfold calcSingleOrParallel EllCalc.calcSingleOrParallel
  simp only [exact_parallel]
  rfl

theorem exact_singleQ (c : EllCalc) : exact.calcSingleOrParallelQ c = c.calcSingleOrParallelQ := by
  funext b tsq
  unfold calcSingleOrParallelQ EllCalc.calcSingleOrParallelQ
  simp only [exact_parallelQ]
  rfl

theorem exact_central (c : EllCalc) : exact.calcSingleOrParallelCentralCut c = c.calcSingleOrParallelCentralCut := rfl

theorem exact_updateCore (e : Ell n) (cut : Cut n) (s : Strategy) : exact.updateCore e cut s = e.updateCore cut s := by
  unfold updateCore Ell.updateCore
  by_cases h0 : ∀ i, cut.1 i = 0
  · simp only [if_pos h0]
  simp only [if_neg h0]
  change (if cut.1 ⬝ᵥ (e.mq *ᵥ cut.1) = 0 then _ else _) = _
  by_cases h1 : cut.1 ⬝ᵥ (e.mq *ᵥ cut.1) = 0
  · simp only [if_pos h1]
  simp only [if_neg h1]
  change (match s cut.2 (e.kappa * (cut.1 ⬝ᵥ (e.mq *ᵥ cut.1))) with | .error f => _ | .ok (status, none) => _ | .ok (status, some p) => _) = _
  rcases s cut.2 (e.kappa * (cut.1 ⬝ᵥ (e.mq *ᵥ cut.1))) with f | ⟨st, _ | p⟩
  · rfl
  · rfl
  · rcases hd : e.noDeferTrick with _ | _
    · simp only [Bool.false_eq_true, if_false]; rfl
    · simp only [if_true, Prod.mk.injEq, and_true]
      refine Ell.mk.injEq .. |>.mpr ⟨?_, rfl, rfl, rfl, rfl, rfl⟩
      ext i j
      exact mul_comm _ _

theorem slice_dot (x y : ℕ → ℝ) (lo hi : ℕ) : exact.dot (slice x lo hi) (slice y lo hi) = ∑ k ∈ Finset.Ico lo hi, x k * y k := by
  rw [Finset.sum_Ico_eq_sum_range, ← Fin.sum_univ_eq_sum_range (fun k => x (lo + k) * y (lo + k))]
  rfl

theorem exact_rowStep (a : ℕ → ℕ → ℝ) {s i j : ℕ} (st : LDLTMgr.RowState ℝ) : exact.rowStep a s i j st = LDLTMgr.rowStep a s i j st := by
  unfold rowStep LDLTMgr.rowStep
  simp only [slice_dot _ _ s (j + 1)]
  rfl

theorem exact_row (a : ℕ → ℕ → ℝ) (s i : ℕ) (S : ℕ → ℕ → ℝ) (rd : List (ℕ × ℕ)) : exact.row a s i S rd = LDLTMgr.row a s i S rd := by
  unfold row LDLTMgr.row
  rw [forRange_congr (g := LDLTMgr.rowStep a s i) (fun j st _ _ => exact_rowStep a st)]

theorem exact_factorLoop (a : ℕ → ℕ → ℝ) : ∀ (fuel i : ℕ) (S : ℕ → ℕ → ℝ) (rd : List (ℕ × ℕ)), exact.factorLoop a fuel i S rd = LDLTMgr.factorLoop a fuel i S rd
  | 0, _, _, _ => rfl
  | fuel + 1, i, S, rd => by
    unfold factorLoop LDLTMgr.factorLoop
    rw [exact_row]
    simp only [exact_factorLoop a fuel]

theorem exact_witness (m : LDLTMgr ℝ) : exact.witness m = m.witness := by
  unfold witness LDLTMgr.witness
  have : ∀ (i : ℕ) (w : ℕ → ℝ), exact.dot (slice (fun k => m.storage k (i - 1)) i m.pos.2) (slice w i m.pos.2) = ∑ k ∈ Finset.Ico i m.pos.2, m.storage k (i - 1) * w k := fun i w => slice_dot _ _ i m.pos.2
  simp only [this]

theorem exact_symQuad (m : LDLTMgr ℝ) (B : ℕ → ℕ → ℝ) : exact.symQuad m B = m.symQuad B := by
  unfold symQuad LDLTMgr.symQuad
  simp only
  have h1 : exact.mv (fun i j => B (m.pos.1 + i) (m.pos.1 + j)) (slice m.wit m.pos.1 m.pos.2) =
      slice (fun r => ∑ j ∈ Finset.Ico m.pos.1 m.pos.2, B r j * m.wit j) m.pos.1 m.pos.2 := by
    funext i
    exact slice_dot (fun k => B (m.pos.1 + i) k) m.wit m.pos.1 m.pos.2
  rw [h1, slice_dot]

end Arith

open Arith

/-- **C90.** In exact arithmetic the rounded model of `Ell` and of `LDLTMgr` (`factor`, `witness`, `sym_quad`) is the exact one. -/
theorem C90_exact : (∀ (v : InitVal n) (x : Vec n), exact.ellInit v x = Ell.init v x) ∧
    (∀ (e : Ell n) (m : Method) (cut : Cut n), exact.update e m cut = e.update m cut) ∧
    (∀ (m : LDLTMgr ℝ) (a : ℕ → ℕ → ℝ), exact.factor m a = m.factor a) ∧ (∀ m : LDLTMgr ℝ, exact.witness m = m.witness) ∧
    (∀ (m : LDLTMgr ℝ) (B : ℕ → ℕ → ℝ), exact.symQuad m B = m.symQuad B) := by
  refine ⟨fun v x => rfl, fun e m cut => ?_, fun m a => ?_, exact_witness, exact_symQuad⟩
  · cases m
    · simp only [Arith.update, updateBiasCut, Ell.update, Ell.updateBiasCut, exact_updateCore, exact_single]
    · simp only [Arith.update, updateCentralCut, Ell.update, Ell.updateCentralCut, exact_updateCore, exact_central]
    · simp only [Arith.update, updateQ, Ell.update, Ell.updateQ, exact_updateCore, exact_singleQ]
  · unfold factor LDLTMgr.factor
    rw [exact_factorLoop]

variable (A : Arith)

theorem Arith.updateCore_cases (e : Ell n) (cut : Cut n) (s : Strategy) :
    let r := A.updateCore e cut s
    r.1.helper = e.helper ∧ r.1.noDeferTrick = e.noDeferTrick ∧ (e.mq.IsSymm → r.1.mq.IsSymm) ∧
    ((r.1.xc = e.xc ∧ r.1.mq = e.mq ∧ r.1.kappa = e.kappa) ∨ ∃ st p, s cut.2 r.1.tsq = .ok (st, some p) ∧ r.2 = .ok st) := by
  simp only
  unfold Arith.updateCore
  by_cases h0 : ∀ i, cut.1 i = 0
  · simp only [if_pos h0]; tauto
  simp only [if_neg h0]
  by_cases h1 : A.dot cut.1 (A.mv e.mq cut.1) = 0
  · simp only [if_pos h1]; tauto
  simp only [if_neg h1]
  rcases hs : s cut.2 (A.mul e.kappa (A.dot cut.1 (A.mv e.mq cut.1))) with f | ⟨st, _ | p⟩
  · exact ⟨rfl, rfl, id, .inl ⟨rfl, rfl, rfl⟩⟩
  · exact ⟨rfl, rfl, id, .inl ⟨rfl, rfl, rfl⟩⟩
  · simp only
    have key : e.mq.IsSymm → ∀ i j, A.sub (e.mq j i) (A.mul (A.div p.sigma (A.dot cut.1 (A.mv e.mq cut.1))) (A.mul (A.mv e.mq cut.1 j) (A.mv e.mq cut.1 i))) =
        A.sub (e.mq i j) (A.mul (A.div p.sigma (A.dot cut.1 (A.mv e.mq cut.1))) (A.mul (A.mv e.mq cut.1 i) (A.mv e.mq cut.1 j))) := fun h i j => by
      rw [h.apply i j, A.mul_comm' (A.mv e.mq cut.1 j)]
    rcases hd : e.noDeferTrick with _ | _
    · refine ⟨rfl, rfl, fun h => ?_, .inr ⟨st, p, hs, rfl⟩⟩
      ext i j
      exact key h i j
    · refine ⟨rfl, rfl, fun h => ?_, .inr ⟨st, p, hs, rfl⟩⟩
      ext i j
      exact congrArg (A.mul · _) (key h i j)

/-- **C90.** Whatever the arithmetic: along every history of calls the shape matrix stays exactly symmetric and the settings are untouched. -/
theorem C90_symmetric (e : Ell n) (he : e.mq.IsSymm) (l : List (Method × Cut n)) :
    (A.run e l).mq.IsSymm ∧ (A.run e l).helper = e.helper ∧ (A.run e l).noDeferTrick = e.noDeferTrick := by
  induction l generalizing e with
  | nil => exact ⟨he, rfl, rfl⟩
  | cons c l ih =>
    obtain ⟨m, cut⟩ := c
    have h : (A.update e m cut).1.helper = e.helper ∧ (A.update e m cut).1.noDeferTrick = e.noDeferTrick ∧ (e.mq.IsSymm → (A.update e m cut).1.mq.IsSymm) := by
      cases m
      · have := A.updateCore_cases e cut (A.calcSingleOrParallel e.helper); exact ⟨this.1, this.2.1, this.2.2.1⟩
      · have := A.updateCore_cases e cut (A.calcSingleOrParallelCentralCut e.helper); exact ⟨this.1, this.2.1, this.2.2.1⟩
      · have := A.updateCore_cases e cut (A.calcSingleOrParallelQ e.helper); exact ⟨this.1, this.2.1, this.2.2.1⟩
    obtain ⟨h1, h2, h3⟩ := ih (A.update e m cut).1 (h.2.2 he)
    exact ⟨h1, h2.trans h.1, h3.trans h.2.1⟩

/-- **C90.** The objects made by the constructor are symmetric. -/
theorem C90_init_symmetric (v : InitVal n) (x : Vec n) (e : Ell n) (h : A.ellInit v x = .ok e) : e.mq.IsSymm := by
  unfold Arith.ellInit at h
  rcases hc : A.calcInit (n : ℤ) with f | c
  · rw [hc] at h; cases h
  · rw [hc] at h
    cases v
    · cases h; exact Matrix.isSymm_one
    · cases h; exact Matrix.isSymm_diagonal _

theorem Arith.bind_ok_success {x : Except Fault Params} {st : CutStatus} {p : Params}
    (h : (do let r ← x; Except.ok (CutStatus.success, some r) : StrategyResult) = .ok (st, some p)) : st = .success := by
  rcases x with f | r
  · cases h
  · cases h; rfl

theorem Arith.calcBiasCut_some {c : EllCalc} {β tsq : ℝ} {st : CutStatus} {p : Params} (h : A.calcBiasCut c β tsq = .ok (st, some p)) : st = .success := by
  unfold Arith.calcBiasCut at h
  by_cases h0 : β ≥ 0
  · rw [if_pos h0] at h
    simp only at h
    by_cases h1 : tsq < A.mul β β
    · rw [if_pos h1] at h; cases h
    · rw [if_neg h1] at h
      rcases hq : A.psqrt tsq with f | t
      · rw [hq] at h; cases h
      · rw [hq] at h; exact Arith.bind_ok_success h
  · rw [if_neg h0] at h; cases h

theorem Arith.calcBiasCutQ_some {c : EllCalc} {β tsq : ℝ} {st : CutStatus} {p : Params} (h : A.calcBiasCutQ c β tsq = .ok (st, some p)) : st = .success := by
  unfold Arith.calcBiasCutQ at h
  rcases hq : A.psqrt tsq with f | t
  · rw [hq] at h; cases h
  · rw [hq] at h
    simp only [except_ok_bind] at h
    by_cases h1 : t < β
    · rw [if_pos h1] at h; cases h
    · rw [if_neg h1] at h
      by_cases h2 : A.add t (A.mul c.nF β) ≤ 0
      · rw [if_pos h2] at h; cases h
      · rw [if_neg h2] at h; exact Arith.bind_ok_success h

/-- In every arithmetic parameters come with the status `Success`. -/
theorem Arith.strategy_some (c : EllCalc) (cut : CutChoice) (tsq : ℝ) (st : CutStatus) (p : Params) :
    (A.calcSingleOrParallel c cut tsq = .ok (st, some p) → st = .success) ∧
    (A.calcSingleOrParallelCentralCut c cut tsq = .ok (st, some p) → st = .success) ∧
    (A.calcSingleOrParallelQ c cut tsq = .ok (st, some p) → st = .success) := by
  have hpar : ∀ β0 β1, A.calcParallel c β0 β1 tsq = .ok (st, some p) → st = .success := fun β0 β1 h => by
    unfold Arith.calcParallel at h
    by_cases h1 : β1 < β0
    · rw [if_pos h1] at h; cases h
    · rw [if_neg h1] at h
      simp only at h
      by_cases h2 : β1 > 0 ∧ tsq ≤ A.mul β1 β1
      · rw [if_pos h2] at h; exact A.calcBiasCut_some h
      · rw [if_neg h2] at h; exact Arith.bind_ok_success h
  have hparQ : ∀ β0 β1, A.calcParallelQ c β0 β1 tsq = .ok (st, some p) → st = .success := fun β0 β1 h => by
    unfold Arith.calcParallelQ at h
    by_cases h1 : β1 < β0
    · rw [if_pos h1] at h; cases h
    · rw [if_neg h1] at h
      simp only at h
      by_cases h2 : β1 > 0 ∧ tsq ≤ A.mul β1 β1
      · rw [if_pos h2] at h; exact A.calcBiasCutQ_some h
      · rw [if_neg h2] at h
        by_cases h3 : A.add tsq (A.mul c.nF (A.mul β0 β1)) ≤ 0
        · rw [if_pos h3] at h; cases h
        · rw [if_neg h3] at h; exact Arith.bind_ok_success h
  have hcen : (do let tau ← A.psqrt tsq; Except.ok (CutStatus.success, some (A.calcCentralCut c.helper tau)) : StrategyResult) = .ok (st, some p) → st = .success := fun h => by
    rcases hq : A.psqrt tsq with f | t
    · rw [hq] at h; cases h
    · rw [hq] at h; cases h; rfl
  rcases cut with b | bs
  · exact ⟨A.calcBiasCut_some, hcen, A.calcBiasCutQ_some⟩
  · refine ⟨fun h => ?_, fun h => ?_, fun h => ?_⟩
    · unfold Arith.calcSingleOrParallel at h
      simp only at h
      by_cases h1 : bs.length < 2 ∨ (!c.useParallelCut) = true
      · rw [if_pos h1] at h
        rcases hf : EllCalc.firstOffset bs with f | b0
        · rw [hf] at h; cases h
        · rw [hf] at h; exact A.calcBiasCut_some h
      · rw [if_neg h1] at h
        rcases hb : bs[1]? with _ | (_ | b1)
        · rw [hb] at h; cases h
        · rw [hb] at h; cases h
        · rw [hb] at h
          rcases hf : EllCalc.firstOffset bs with f | b0
          · rw [hf] at h; cases h
          · rw [hf] at h; exact hpar _ _ h
    · unfold Arith.calcSingleOrParallelCentralCut at h
      simp only at h
      by_cases h1 : bs.length < 2 ∨ (!c.useParallelCut) = true
      · rw [if_pos h1] at h; exact hcen h
      · rw [if_neg h1] at h
        rcases hb : bs[1]? with _ | (_ | b1)
        · rw [hb] at h; cases h
        · rw [hb] at h; cases h
        · rw [hb] at h
          simp only at h
          by_cases h2 : b1 < 0
          · rw [if_pos h2] at h; cases h
          · rw [if_neg h2] at h
            by_cases h3 : tsq ≤ A.mul b1 b1
            · rw [if_pos h3] at h; exact hcen h
            · rw [if_neg h3] at h; exact Arith.bind_ok_success h
    · unfold Arith.calcSingleOrParallelQ at h
      simp only at h
      by_cases h1 : bs.length < 2 ∨ (!c.useParallelCut) = true
      · rw [if_pos h1] at h
        rcases hf : EllCalc.firstOffset bs with f | b0
        · rw [hf] at h; cases h
        · rw [hf] at h; exact A.calcBiasCutQ_some h
      · rw [if_neg h1] at h
        rcases hb : bs[1]? with _ | (_ | b1)
        · rw [hb] at h; cases h
        · rw [hb] at h; cases h
        · rw [hb] at h
          rcases hf : EllCalc.firstOffset bs with f | b0
          · rw [hf] at h; cases h
          · rw [hf] at h; exact hparQ _ _ h

/-- **C90.** Whatever the arithmetic: an update that does not report `Success` (a failed cut or an exception) leaves centre, shape matrix and scale as they were. -/
theorem C90_failed_cut_changes_nothing (e : Ell n) (m : Method) (cut : Cut n) (h : (A.update e m cut).2 ≠ .ok .success) :
    (A.update e m cut).1.xc = e.xc ∧ (A.update e m cut).1.mq = e.mq ∧ (A.update e m cut).1.kappa = e.kappa := by
  cases m
  · rcases (A.updateCore_cases e cut (A.calcSingleOrParallel e.helper)).2.2.2 with h1 | ⟨st, p, h1, h2⟩
    · exact h1
    · rw [(A.strategy_some _ _ _ _ _).1 h1] at h2; exact absurd h2 h
  · rcases (A.updateCore_cases e cut (A.calcSingleOrParallelCentralCut e.helper)).2.2.2 with h1 | ⟨st, p, h1, h2⟩
    · exact h1
    · rw [(A.strategy_some _ _ _ _ _).2.1 h1] at h2; exact absurd h2 h
  · rcases (A.updateCore_cases e cut (A.calcSingleOrParallelQ e.helper)).2.2.2 with h1 | ⟨st, p, h1, h2⟩
    · exact h1
    · rw [(A.strategy_some _ _ _ _ _).2.2 h1] at h2; exact absurd h2 h

/-- C90 applies to double precision on the unit disc, with a cut that fails: `beta = -1` raises AssertionError. -/
example : ((1 : Mat 2).IsSymm) ∧ ((Arith.ieee 53).update (n := 2) { mq := 1, xc := 0, kappa := 1, tsq := 0, helper := EllCalc.std 2 true, noDeferTrick := false } .bias (0, .scalar (-1))).2 ≠ .ok .success := by
  refine ⟨Matrix.isSymm_one, ?_⟩
  simp [Arith.update, Arith.updateBiasCut, Arith.updateCore]

end Ellalgo
