import Verif.Model.EllCalcTpy
import Verif.Props.Formulas

/-! # C89: `ell_calc.tpy`, the earlier version of `EllCalc`, against the shipped one -/

namespace Ellalgo

open EllCalcCore

namespace EllCalcTpy

/-- What the constructor builds, with `use_parallel_cut` set to `u`. -/
noncomputable def std (n : ℕ) (u : Bool) : EllCalcTpy :=
  { useParallelCut := u, nF := n, halfN := n / 2, cst0 := 1 / (n + 1), cst1 := (n : ℝ) ^ 2 / ((n : ℝ) ^ 2 - 1), cst2 := 2 * (1 / (n + 1)), cst3 := n * (1 / (n + 1)) }

theorem init_eq {n : ℕ} (hn : 2 ≤ n) {t : EllCalcTpy} (h : init n = .ok t) : t = std n true := by
  have hn2 : (2 : ℝ) ≤ n := by exact_mod_cast hn
  unfold init at h
  simp only [Int.cast_natCast] at h
  rw [pdiv_ok two_ne_zero, pdiv_ok (by linarith), pdiv_ok (by nlinarith)] at h
  simp only [except_ok_bind, Except.ok.injEq] at h
  exact h.symm

variable {n : ℕ} {u : Bool}

theorem biasCore_eq {β τ : ℝ} (hτ : τ ≠ 0) (hβ : τ + β ≠ 0) :
    (std n u).calcBiasCutCore β τ (τ + n * β) = .ok (.success, some (biasParams n β τ)) := by
  unfold calcBiasCutCore
  simp only [std, pdiv_ok hτ, pdiv_ok hβ, except_ok_bind, biasParams, Except.ok.injEq, Prod.mk.injEq, Option.some.injEq, Params.mk.injEq, true_and]
  refine ⟨by ring, ?_, by rw [div_pow]⟩
  rw [div_mul_eq_div_div]; ring

theorem bias_eq {β tsq : ℝ} (ht : 0 < tsq) : (std n u).calcBiasCut β tsq = (EllCalc.std n u).calcBiasCut β tsq := by
  rcases lt_or_ge β 0 with h0 | h0
  · rw [EllCalc.calcBiasCut_neg h0]; unfold calcBiasCut; rw [if_neg (not_le.mpr h0)]
  rcases lt_or_ge tsq (β * β) with h1 | h1
  · rw [EllCalc.calcBiasCut_noSoln h0 h1]; unfold calcBiasCut; rw [if_pos h0]; simp only; rw [if_pos h1]
  · rw [EllCalc.calcBiasCut_success h0 ht h1]
    have hs := Real.sqrt_pos.mpr ht
    unfold calcBiasCut; rw [if_pos h0]; simp only; rw [if_neg (not_lt.mpr h1), psqrt_ok ht.le]
    simp only [except_ok_bind]
    exact biasCore_eq hs.ne' (by linarith)

theorem biasQ_eq (hn : 2 ≤ n) {β tsq : ℝ} (ht : 0 < tsq) : (std n u).calcBiasCutQ β tsq = (EllCalc.std n u).calcBiasCutQ β tsq := by
  have hn2 : (2 : ℝ) ≤ n := by exact_mod_cast hn
  have hs := Real.sqrt_pos.mpr ht
  unfold calcBiasCutQ EllCalc.calcBiasCutQ
  rw [psqrt_ok ht.le]
  simp only [except_ok_bind]
  by_cases h0 : Real.sqrt tsq < β
  · rw [if_pos h0, if_pos h0]
  rw [if_neg h0, if_neg h0]
  change (if Real.sqrt tsq + n * β ≤ 0 then _ else _) = if Real.sqrt tsq + n * β ≤ 0 then _ else _
  by_cases h1 : Real.sqrt tsq + n * β ≤ 0
  · rw [if_pos h1, if_pos h1]
  · rw [if_neg h1, if_neg h1]
    have hb : Real.sqrt tsq + β ≠ 0 := by
      intro h; have : β = -Real.sqrt tsq := by linarith
      rw [this] at h1; nlinarith
    change (std n u).calcBiasCutCore β _ (Real.sqrt tsq + n * β) = (do let r ← (EllCalcCore.std n).calcBiasCutFast β (Real.sqrt tsq) (Real.sqrt tsq + n * β); _)
    rw [biasCore_eq hs.ne' hb, calcBiasCutFast_std hs.ne' hb]
    rfl

theorem central_eq {tsq : ℝ} (ht : 0 < tsq) : (std n u).calcCentralCut tsq = .ok (.success, some ((EllCalcCore.std n).calcCentralCut (Real.sqrt tsq))) := by
  unfold calcCentralCut EllCalcCore.calcCentralCut
  rw [psqrt_ok ht.le]
  simp only [except_ok_bind, std, EllCalcCore.std]
  rw [sq]

theorem parCore_eq (hn : 2 ≤ n) {β0 β1 tsq : ℝ} (ht : 0 < tsq) (hs : β0 + β1 ≠ 0) (hK : parDen n β0 β1 tsq ≠ 0) :
    (std n u).calcParallelCore β0 β1 (β1 * β1) (β0 * β1) tsq = .ok (.success, some (parParams n β0 β1 tsq)) := by
  have hn2 : (2 : ℝ) ≤ n := by exact_mod_cast hn
  have hn0 : (n : ℝ) ≠ 0 := by linarith
  have h := calcParallelBiasCutOld_std hn2 ht.ne' hs hK
  have hx := psqrt_ok (parXi_arg_nonneg hn2 β0 β1 tsq)
  have hs2 : (β0 + β1) ^ 2 ≠ 0 := pow_ne_zero _ hs
  unfold calcParallelCore
  unfold calcParallelBiasCutOld at h
  simp only [std, EllCalcCore.std, hx, except_ok_bind, pdiv_ok hs2, pdiv_ok ht.ne', pdiv_ok hn0] at h ⊢
  rw [show β0 * β0 + 2 * (β0 * β1) + β1 * β1 = (β0 + β1) ^ 2 by ring, pdiv_ok hs2]
  simp only [except_ok_bind, Except.ok.injEq, Prod.mk.injEq, Option.some.injEq, true_and] at h ⊢
  rw [← h, sq (n : ℝ)]

theorem parCore_zero (hn : 2 ≤ n) {β tsq : ℝ} : (std n u).calcParallelCore (-β) β (β * β) (-β * β) tsq = .error .zeroDivision := by
  have hn2 : (2 : ℝ) ≤ n := by exact_mod_cast hn
  unfold calcParallelCore
  have hx := psqrt_ok (parXi_arg_nonneg hn2 (-β) β tsq)
  simp only [std, hx, except_ok_bind]
  rw [show -β * -β + 2 * (-β * β) + β * β = 0 by ring]
  simp [pdiv]

/-- At the boundary `tsq = beta1²` the parallel formula gives the single cut. -/
theorem parParams_boundary (hn : 2 ≤ n) {β0 β1 : ℝ} (h1 : 0 < β1) (h0 : -β1 < β0) (hle : β0 ≤ β1) :
    parDen n β0 β1 (β1 * β1) ≠ 0 ∧ parParams n β0 β1 (β1 * β1) = biasParams n β0 β1 := by
  have hn2 : (2 : ℝ) ≤ n := by exact_mod_cast hn
  have hK : parDen n β0 β1 (β1 * β1) ≠ 0 := by
    have h2 : 0 ≤ (n : ℝ) / 2 * (β0 + β1) ^ 2 := by positivity
    have h3 := parXi_nonneg n β0 β1 (β1 * β1)
    have h4 : 0 < β1 * β1 + β0 * β1 := by nlinarith
    unfold parDen; linarith
  refine ⟨hK, ?_⟩
  have h := C16_parallel_tau_is_bias n hn2 _ (init_ok hn2) β0 β1 h1 h0 hle
  rw [calcParallelBiasCut_std hn2 (by positivity) hK, EllCalcCore.calcBiasCut_std h1.ne' (by linarith)] at h
  exact Except.ok.inj h

end EllCalcTpy

open EllCalcTpy

variable {n : ℕ}

/-- **C89.** Single cuts (a number, a one-element sequence, or any nonempty sequence of numbers with `use_parallel_cut = False`): both versions of `EllCalc` return the same in all three methods. -/
theorem C89_single (hn : 2 ≤ n) (t : EllCalcTpy) (ht : EllCalcTpy.init n = .ok t) (c : EllCalc) (hc : EllCalc.init n = .ok c) (u : Bool) (β tsq : ℝ) (htsq : 0 < tsq)
    (cut : CutChoice) (hcut : cut = .scalar β ∨ cut = .seq [some β] ∨ u = false ∧ ∃ l, cut = .seq (some β :: l)) :
    ({ t with useParallelCut := u } : EllCalcTpy).calcSingleOrParallel cut tsq = ({ c with useParallelCut := u } : EllCalc).calcSingleOrParallel cut tsq ∧
    ({ t with useParallelCut := u } : EllCalcTpy).calcSingleOrParallelCentralCut cut tsq = ({ c with useParallelCut := u } : EllCalc).calcSingleOrParallelCentralCut cut tsq ∧
    ({ t with useParallelCut := u } : EllCalcTpy).calcSingleOrParallelQ cut tsq = ({ c with useParallelCut := u } : EllCalc).calcSingleOrParallelQ cut tsq := by
  have e1 := EllCalcTpy.init_eq hn ht
  obtain ⟨-, e2⟩ := EllCalc.init_eq hc
  subst e1; subst e2
  change (EllCalcTpy.std n u).calcSingleOrParallel cut tsq = (EllCalc.std n u).calcSingleOrParallel cut tsq ∧
    (EllCalcTpy.std n u).calcSingleOrParallelCentralCut cut tsq = (EllCalc.std n u).calcSingleOrParallelCentralCut cut tsq ∧
    (EllCalcTpy.std n u).calcSingleOrParallelQ cut tsq = (EllCalc.std n u).calcSingleOrParallelQ cut tsq
  have hp : psqrt tsq = .ok (Real.sqrt tsq) := psqrt_ok htsq.le
  rcases hcut with rfl | rfl | ⟨rfl, l, rfl⟩
  · refine ⟨bias_eq htsq, ?_, biasQ_eq hn htsq⟩
    simp only [EllCalcTpy.calcSingleOrParallelCentralCut, EllCalc.calcSingleOrParallelCentralCut, hp, except_ok_bind]
    exact central_eq htsq
  · refine ⟨?_, ?_, ?_⟩
    · simp only [EllCalcTpy.calcSingleOrParallel, EllCalc.calcSingleOrParallel, EllCalc.firstOffset, except_ok_bind, List.length_singleton, Nat.one_lt_two, true_or, if_true]
      exact bias_eq htsq
    · simp only [EllCalcTpy.calcSingleOrParallelCentralCut, EllCalc.calcSingleOrParallelCentralCut, hp, except_ok_bind, List.length_singleton, Nat.one_lt_two, true_or, if_true]
      exact central_eq htsq
    · simp only [EllCalcTpy.calcSingleOrParallelQ, EllCalc.calcSingleOrParallelQ, EllCalc.firstOffset, except_ok_bind, List.length_singleton, Nat.one_lt_two, true_or, if_true]
      exact biasQ_eq hn htsq
  · have h1 : (!(EllCalcTpy.std n false).useParallelCut) = true := rfl
    have h2 : (!(EllCalc.std n false).useParallelCut) = true := rfl
    refine ⟨?_, ?_, ?_⟩
    · simp only [EllCalcTpy.calcSingleOrParallel, EllCalc.calcSingleOrParallel, EllCalc.firstOffset, except_ok_bind, h1, h2, or_true, if_true]
      exact bias_eq htsq
    · simp only [EllCalcTpy.calcSingleOrParallelCentralCut, EllCalc.calcSingleOrParallelCentralCut, hp, except_ok_bind, h1, h2, or_true, if_true]
      exact central_eq htsq
    · simp only [EllCalcTpy.calcSingleOrParallelQ, EllCalc.calcSingleOrParallelQ, EllCalc.firstOffset, except_ok_bind, h1, h2, or_true, if_true]
      exact biasQ_eq hn htsq

/-- The dispatch on a pair of numbers. -/
theorem pair_dispatch (n : ℕ) (β0 β1 tsq : ℝ) (l : List (Option ℝ)) :
    (EllCalcTpy.std n true).calcSingleOrParallel (.seq (some β0 :: some β1 :: l)) tsq = (EllCalcTpy.std n true).calcParallel β0 β1 tsq ∧
    (EllCalcTpy.std n true).calcSingleOrParallelQ (.seq (some β0 :: some β1 :: l)) tsq = (EllCalcTpy.std n true).calcParallelQ β0 β1 tsq ∧
    (EllCalcTpy.std n true).calcSingleOrParallelCentralCut (.seq (some β0 :: some β1 :: l)) tsq = (EllCalcTpy.std n true).calcParallelCentralCut β1 tsq := by
  simp [EllCalcTpy.calcSingleOrParallel, EllCalcTpy.calcSingleOrParallelQ, EllCalcTpy.calcSingleOrParallelCentralCut, EllCalcTpy.twoOffsets, EllCalcTpy.std]

/-- **C89.** Parallel cuts, `update_bias_cut`: the two versions agree except where `beta0 + beta1 = 0` (the old one divides by zero) and where `beta0 < 0` and the second plane touches the ellipsoid (the
shipped one raises AssertionError, as it does beyond). -/
theorem C89_parallel (hn : 2 ≤ n) (t : EllCalcTpy) (ht : EllCalcTpy.init n = .ok t) (c : EllCalc) (hc : EllCalc.init n = .ok c) (β0 β1 tsq : ℝ) (htsq : 0 < tsq)
    (l : List (Option ℝ)) :
    (β0 + β1 ≠ 0 → (0 ≤ β0 ∨ β1 ≤ 0 ∨ tsq ≠ β1 * β1) →
      t.calcSingleOrParallel (.seq (some β0 :: some β1 :: l)) tsq = c.calcSingleOrParallel (.seq (some β0 :: some β1 :: l)) tsq) ∧
    (β0 + β1 = 0 → β0 ≤ β1 → β1 * β1 ≤ tsq → t.calcSingleOrParallel (.seq (some β0 :: some β1 :: l)) tsq = .error .zeroDivision) ∧
    (β0 < 0 → 0 < β1 → tsq = β1 * β1 → c.calcSingleOrParallel (.seq (some β0 :: some β1 :: l)) tsq = .error .assertion) := by
  have hn2 : (2 : ℝ) ≤ n := by exact_mod_cast hn
  have e1 := EllCalcTpy.init_eq hn ht
  obtain ⟨-, e2⟩ := EllCalc.init_eq hc
  subst e1; subst e2
  have hS := (C17_parallel (EllCalc.std n true) rfl tsq β0 β1 l).1
  have hT := (pair_dispatch n β0 β1 tsq l).1
  rw [hT]
  change (_ → _ → _ = (EllCalc.std n true).calcSingleOrParallel _ tsq) ∧ _ ∧ (_ → _ → _ → (EllCalc.std n true).calcSingleOrParallel _ tsq = _)
  rw [hS]
  refine ⟨fun hs hb => ?_, fun hs hle hb => ?_, fun h0 h1 hb => ?_⟩
  · unfold EllCalcTpy.calcParallel EllCalc.calcParallel
    by_cases h0 : β1 < β0
    · rw [if_pos h0, if_pos h0]
    rw [if_neg h0, if_neg h0]
    simp only
    by_cases h1 : β1 > 0 ∧ tsq ≤ β1 * β1
    · rw [if_pos h1]
      rcases h1.2.lt_or_eq with h2 | h2
      · rw [if_pos ⟨h1.1, h2⟩]; exact bias_eq htsq
      · rw [if_neg (fun h => h.2.ne h2)]
        have hβ0 : 0 ≤ β0 := by
          rcases hb with h | h | h
          · exact h
          · exact absurd h1.1 (not_lt.mpr h)
          · exact absurd h2 h
        obtain ⟨hK, hp⟩ := parParams_boundary hn h1.1 (by linarith) (not_lt.mp h0)
        rw [h2, parCore_eq hn (by nlinarith [h1.1]) hs hK, hp, EllCalc.calcBiasCut_success hβ0 (by nlinarith [h1.1]) (by nlinarith [not_lt.mp h0]),
          Real.sqrt_mul_self h1.1.le]
    · rw [if_neg h1, if_neg (fun h => h1 ⟨h.1, h.2.le⟩)]
      have hK := parDen_pos' hn2 htsq (not_lt.mp h0) h1
      rw [parCore_eq hn htsq hs hK.ne']
      change _ = (do let r ← (EllCalcCore.std n).calcParallelBiasCut β0 β1 tsq; _)
      rw [calcParallelBiasCut_std hn2 htsq.ne' hK.ne']
      rfl
  · have : β0 = -β1 := by linarith
    subst this
    unfold EllCalcTpy.calcParallel
    rw [if_neg (not_lt.mpr hle)]
    simp only
    rw [if_neg (fun h => absurd hb (not_le.mpr h.2))]
    exact parCore_zero hn
  · unfold EllCalc.calcParallel
    rw [if_neg (by linarith)]
    simp only
    rw [if_pos ⟨h1, hb.le⟩, EllCalc.calcBiasCut_neg h0]

/-- **C89.** Parallel cuts, `update_q`: the two versions agree except where `beta0 + beta1 = 0` and where `n beta0 beta1 = -tsq`; there the shipped one answers NoEffect and the old one Success with the parameters
`(0, 0, 1)` that change nothing. -/
theorem C89_parallel_q (hn : 2 ≤ n) (t : EllCalcTpy) (ht : EllCalcTpy.init n = .ok t) (c : EllCalc) (hc : EllCalc.init n = .ok c) (β0 β1 tsq : ℝ) (htsq : 0 < tsq)
    (l : List (Option ℝ)) (hs : β0 + β1 ≠ 0) :
    (tsq + n * (β0 * β1) ≠ 0 → t.calcSingleOrParallelQ (.seq (some β0 :: some β1 :: l)) tsq = c.calcSingleOrParallelQ (.seq (some β0 :: some β1 :: l)) tsq) ∧
    (tsq + n * (β0 * β1) = 0 → β0 ≤ β1 → β1 * β1 ≤ tsq →
      t.calcSingleOrParallelQ (.seq (some β0 :: some β1 :: l)) tsq = .ok (.success, some ⟨0, 0, 1⟩) ∧
      c.calcSingleOrParallelQ (.seq (some β0 :: some β1 :: l)) tsq = .ok (.noEffect, none)) := by
  have hn2 : (2 : ℝ) ≤ n := by exact_mod_cast hn
  have e1 := EllCalcTpy.init_eq hn ht
  obtain ⟨-, e2⟩ := EllCalc.init_eq hc
  subst e1; subst e2
  have hS := (C17_parallel (EllCalc.std n true) rfl tsq β0 β1 l).2.1
  have hT := (pair_dispatch n β0 β1 tsq l).2.1
  rw [hT]
  change (_ → _ = (EllCalc.std n true).calcSingleOrParallelQ _ tsq) ∧ (_ → _ → _ → _ ∧ (EllCalc.std n true).calcSingleOrParallelQ _ tsq = _)
  rw [hS]
  constructor
  · intro hη
    unfold EllCalcTpy.calcParallelQ EllCalc.calcParallelQ
    by_cases h0 : β1 < β0
    · rw [if_pos h0, if_pos h0]
    rw [if_neg h0, if_neg h0]
    simp only
    have hnF : (EllCalcTpy.std n true).nF = n := rfl
    have hnF' : (EllCalc.std n true).nF = n := rfl
    rw [hnF, hnF']
    by_cases h1 : β1 > 0 ∧ tsq ≤ β1 * β1
    · rw [if_pos h1]
      rcases h1.2.lt_or_eq with h2 | h2
      · rw [if_pos ⟨h1.1, h2⟩]; exact biasQ_eq hn htsq
      · rw [if_neg (fun h => h.2.ne h2)]
        have hsq : Real.sqrt tsq = β1 := by rw [h2, Real.sqrt_mul_self h1.1.le]
        unfold EllCalc.calcBiasCutQ
        rw [psqrt_ok htsq.le, hsq]
        simp only [except_ok_bind]
        rw [if_neg h0, hnF']
        have hfac : tsq + n * (β0 * β1) = β1 * (β1 + n * β0) := by rw [h2]; ring
        by_cases h3 : β1 + n * β0 ≤ 0
        · have h4 : n * (β0 * β1) < -tsq := by
            rcases h3.lt_or_eq with h5 | h5
            · nlinarith [mul_neg_of_pos_of_neg h1.1 h5]
            · rw [hfac, h5, mul_zero] at hη; exact absurd rfl hη
          rw [if_pos h4, if_pos h3]
        · have h4 : ¬ n * (β0 * β1) < -tsq := by nlinarith [mul_pos h1.1 (not_le.mp h3)]
          rw [if_neg h4, if_neg h3]
          have hb : -β1 < β0 := by nlinarith [not_le.mp h3, h1.1]
          obtain ⟨hK, hp⟩ := parParams_boundary hn h1.1 hb (not_lt.mp h0)
          rw [h2, parCore_eq hn (by nlinarith [h1.1]) hs hK, hp]
          change _ = (do let r ← (EllCalcCore.std n).calcBiasCutFast β0 β1 (β1 + n * β0); _)
          rw [calcBiasCutFast_std h1.1.ne' (by linarith)]
          rfl
    · rw [if_neg h1, if_neg (fun h => h1 ⟨h.1, h.2.le⟩)]
      by_cases h2 : tsq + n * (β0 * β1) ≤ 0
      · rw [if_pos h2, if_pos (by have := h2.lt_of_ne hη; linarith)]
      · rw [if_neg h2, if_neg (by linarith)]
        have hK := parDen_pos hn2 htsq (not_le.mp h2).le
        rw [parCore_eq hn htsq hs hK.ne']
        change _ = (do let r ← (EllCalcCore.std n).calcParallelBiasCutFast β0 β1 tsq (β0 * β1) (tsq + n * (β0 * β1)); _)
        rw [calcParallelBiasCutFast_std hn2 htsq.ne' hK.ne']
        rfl
  · intro hη hle hb
    have hb1 : β1 > 0 := by
      by_contra h
      have : 0 ≤ β0 * β1 := mul_nonneg_of_nonpos_of_nonpos (hle.trans (not_lt.mp h)) (not_lt.mp h)
      nlinarith [mul_nonneg (show (0 : ℝ) ≤ n by linarith) this]
    have hp : β0 * β1 = -tsq / n := by field_simp; linarith
    have hK := parDen_pos hn2 htsq hη.ge
    have hxi : parXi n β0 β1 tsq = n / 2 * (β0 * β0 + β1 * β1) - tsq / n := by
      unfold parXi
      have hn0 : (n : ℝ) ≠ 0 := by linarith
      have e : (tsq - β0 * β0) * (tsq - β1 * β1) + (n / 2 * (β1 * β1 - β0 * β0)) ^ 2 = (n / 2 * (β0 * β0 + β1 * β1) - tsq / n) ^ 2 := by
        have h3 : (β0 * β1) ^ 2 = tsq ^ 2 / (n : ℝ) ^ 2 := by rw [hp, div_pow, neg_sq]
        have h4 : (n : ℝ) ^ 2 * (β0 * β1) ^ 2 = tsq ^ 2 := by rw [h3]; field_simp
        have h5 : (n / 2 * (β0 * β0 + β1 * β1) - tsq / n) ^ 2 = (n / 2 * (β0 * β0 + β1 * β1)) ^ 2 - (β0 * β0 + β1 * β1) * tsq + tsq ^ 2 / (n : ℝ) ^ 2 := by
          field_simp; ring
        rw [h5, ← h3]
        nlinarith
      rw [e, Real.sqrt_sq]
      rw [sub_nonneg, div_le_iff₀ (by linarith)]
      have h6 : 2 * (-(β0 * β1)) ≤ β0 * β0 + β1 * β1 := by nlinarith [sq_nonneg (β0 + β1)]
      have h7 : n * (-(β0 * β1)) = tsq := by linarith
      have h8 : tsq ≤ n / 2 * (β0 * β0 + β1 * β1) := by nlinarith
      nlinarith
    constructor
    · unfold EllCalcTpy.calcParallelQ
      rw [if_neg (not_lt.mpr hle)]
      simp only
      rw [if_neg (fun h => absurd hb (not_le.mpr h.2)), if_neg (by change ¬ (n : ℝ) * (β0 * β1) < -tsq; linarith), parCore_eq hn htsq hs hK.ne']
      unfold parParams
      simp only [hη, mul_zero, zero_div, zero_mul, hxi]
      congr 3
      rw [Params.mk.injEq]
      refine ⟨rfl, rfl, ?_⟩
      have h1 : (n : ℝ) ^ 2 - 1 ≠ 0 := by nlinarith
      have h2 : (n : ℝ) * n - 1 ≠ 0 := by nlinarith
      have h3 : (-1 + (n : ℝ) ^ 2) ≠ 0 := by nlinarith
      field_simp
      ring
    · unfold EllCalc.calcParallelQ
      rw [if_neg (not_lt.mpr hle)]
      simp only
      have hnF' : (EllCalc.std n true).nF = n := rfl
      rw [hnF']
      by_cases h1 : β1 > 0 ∧ tsq ≤ β1 * β1
      · rw [if_pos h1]
        have h2 := le_antisymm h1.2 hb
        have hsq : Real.sqrt tsq = β1 := by rw [h2, Real.sqrt_mul_self h1.1.le]
        unfold EllCalc.calcBiasCutQ
        rw [psqrt_ok htsq.le, hsq]
        simp only [except_ok_bind]
        rw [if_neg (not_lt.mpr hle), hnF', if_pos]
        have hfac : tsq + n * (β0 * β1) = β1 * (β1 + n * β0) := by rw [h2]; ring
        rw [hfac] at hη
        rcases mul_eq_zero.mp hη with h | h
        · exact absurd h hb1.ne'
        · exact h.le
      · rw [if_neg h1, if_pos hη.le]

/-- **C89.** Parallel cuts, `update_central_cut`: the two versions agree except where `beta1 = 0`; there the old one divides by zero. -/
theorem C89_parallel_central (hn : 2 ≤ n) (t : EllCalcTpy) (ht : EllCalcTpy.init n = .ok t) (c : EllCalc) (hc : EllCalc.init n = .ok c) (β0 β1 tsq : ℝ) (htsq : 0 < tsq)
    (l : List (Option ℝ)) :
    (β1 ≠ 0 → t.calcSingleOrParallelCentralCut (.seq (some β0 :: some β1 :: l)) tsq = c.calcSingleOrParallelCentralCut (.seq (some β0 :: some β1 :: l)) tsq) ∧
    (β1 = 0 → t.calcSingleOrParallelCentralCut (.seq (some β0 :: some β1 :: l)) tsq = .error .zeroDivision) := by
  have hn2 : (2 : ℝ) ≤ n := by exact_mod_cast hn
  have hn0 : (n : ℝ) ≠ 0 := by linarith
  have e1 := EllCalcTpy.init_eq hn ht
  obtain ⟨-, e2⟩ := EllCalc.init_eq hc
  subst e1; subst e2
  rw [(pair_dispatch n β0 β1 tsq l).2.2]
  have hp : psqrt tsq = .ok (Real.sqrt tsq) := psqrt_ok htsq.le
  have core : ∀ (hb : β1 ≠ 0) (_ : β1 * β1 ≤ tsq), 0 ≤ β1 →
      (EllCalcTpy.std n true).calcParallelCentralCut β1 tsq = .ok (.success, some (parParams n 0 β1 tsq)) := fun hb hb1 hb0 => by
    have h := calcParallelCentralCutOld_std hn2 htsq hb hb1
    unfold EllCalcTpy.calcParallelCentralCut
    rw [if_neg (not_lt.mpr hb0)]
    simp only
    rw [if_neg (by simp [EllCalcTpy.std, hb1])]
    unfold EllCalcCore.calcParallelCentralCutOld at h
    simp only [EllCalcTpy.std, EllCalcCore.std, pdiv_ok htsq.ne', except_ok_bind] at h ⊢
    rcases hq : psqrt (1 - β1 * β1 / tsq + (n / 2 * (β1 * β1 / tsq)) ^ 2) with f | xi
    · rw [hq] at h; cases h
    · rw [hq] at h
      have ha : β1 * β1 / tsq ≠ 0 := by positivity
      simp only [except_ok_bind, pdiv_ok ha, pdiv_ok hn0, Except.ok.injEq, Prod.mk.injEq, Option.some.injEq, true_and] at h ⊢
      rw [← h, sq (n : ℝ)]
  constructor
  · intro hb
    change _ = (EllCalc.std n true).calcSingleOrParallelCentralCut _ tsq
    unfold EllCalc.calcSingleOrParallelCentralCut
    simp only [EllCalc.std, List.length_cons, Bool.not_true, Bool.false_eq_true, or_false, List.getElem?_cons_succ, List.getElem?_cons_zero, hp, except_ok_bind]
    rw [if_neg (by omega)]
    by_cases h0 : β1 < 0
    · rw [if_pos h0]; unfold EllCalcTpy.calcParallelCentralCut; rw [if_pos h0]
    rw [if_neg h0]
    have hpos : 0 < β1 := lt_of_le_of_ne (not_lt.mp h0) (Ne.symm hb)
    by_cases h1 : tsq ≤ β1 * β1
    · rw [if_pos h1]
      rcases h1.lt_or_eq with h2 | h2
      · unfold EllCalcTpy.calcParallelCentralCut
        rw [if_neg h0]; simp only
        rw [if_pos (.inl h2)]
        exact central_eq htsq
      · rw [core hb h2.ge hpos.le, h2, (parParams_boundary hn hpos (by linarith) hpos.le).2, Real.sqrt_mul_self hpos.le, calcCentralCut_std hpos.ne']
    · rw [if_neg h1, core hb (not_le.mp h1).le hpos.le, calcParallelCentralCut_std hn2 htsq (not_le.mp h1).le]
      rfl
  · rintro rfl
    unfold EllCalcTpy.calcParallelCentralCut
    rw [if_neg (lt_irrefl _)]
    simp only
    rw [if_neg (by simp [EllCalcTpy.std, htsq.le])]
    simp [pdiv, htsq.ne', psqrt_ok, except_ok_bind]

/-- C89 applies: both constructors succeed for `n = 3`, and `(1/10, 3/10)` with `tsq = 1` satisfies the side conditions. -/
example : (∃ t, EllCalcTpy.init (3 : ℕ) = .ok t) ∧ (∃ c, EllCalc.init (3 : ℕ) = .ok c) ∧ (1 / 10 : ℝ) + 3 / 10 ≠ 0 ∧ (1 : ℝ) + (3 : ℕ) * (1 / 10 * (3 / 10)) ≠ 0 := by
  refine ⟨?_, ⟨_, EllCalc.init_two_le (by norm_num)⟩, by norm_num, by norm_num⟩
  unfold EllCalcTpy.init
  simp only [Nat.cast_ofNat, Int.cast_ofNat]
  rw [pdiv_ok two_ne_zero, pdiv_ok (by norm_num), pdiv_ok (by norm_num)]
  exact ⟨_, rfl⟩

end Ellalgo
