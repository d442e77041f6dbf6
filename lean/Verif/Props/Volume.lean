import Verif.Props.EllHistory
import Verif.Lemmas.Volume
import Verif.Spec.Oracle
import Mathlib.Analysis.Matrix.PosDef

/-! # C07: volume reduction -/

namespace Ellalgo

open Matrix Spec EllCalcCore

variable {n : ℕ}

namespace EllCalc

variable {u : Bool}

theorem calcBiasCut_vol {β tsq : ℝ} (hn : 2 ≤ n) (ht : 0 < tsq) {st : CutStatus} {p : Params}
    (h : (std n u).calcBiasCut β tsq = .ok (st, some p)) : volFactor n p ≤ centralFactor n := by
  rcases lt_or_ge β 0 with h0 | h0
  · rw [calcBiasCut_neg h0] at h; cases h
  rcases lt_or_ge tsq (β * β) with h1 | h1
  · rw [calcBiasCut_noSoln h0 h1] at h; cases h
  rw [calcBiasCut_success h0 ht h1] at h
  cases h
  exact bias_vol_le hn (Real.sqrt_pos.mpr ht) h0 (le_sqrt_of_sq h1)

theorem calcParallel_vol {β0 β1 tsq : ℝ} (hn : 2 ≤ n) (ht : 0 < tsq) (h0 : 0 ≤ β0) {st : CutStatus}
    {p : Params} (h : (std n u).calcParallel β0 β1 tsq = .ok (st, some p)) :
    volFactor n p ≤ centralFactor n := by
  by_cases h01 : β1 < β0
  · unfold calcParallel at h; rw [if_pos h01] at h; cases h
  have h01' := not_lt.mp h01
  have hβ1 : 0 ≤ β1 := h0.trans h01'
  by_cases h1 : β1 > 0 ∧ tsq ≤ β1 * β1
  · unfold calcParallel at h; rw [if_neg h01] at h; simp only at h; rw [if_pos h1] at h
    exact calcBiasCut_vol hn ht h
  · rw [calcParallel_success hn h01' h1 ht (by positivity)] at h
    cases h
    refine par_vol_le_central hn ht h0 h01' ?_
    rcases hβ1.eq_or_lt with h2 | h2
    · rw [← h2]; simpa using ht
    · by_contra hc; exact h1 ⟨h2, not_lt.mp hc⟩

theorem central_vol {tsq : ℝ} (hn : 2 ≤ n) (ht : 0 < tsq) :
    volFactor n ((EllCalcCore.std n).calcCentralCut (Real.sqrt tsq)) ≤ centralFactor n := by
  have hs := Real.sqrt_pos.mpr ht
  rw [calcCentralCut_std hs.ne']
  exact bias_vol_le hn hs le_rfl hs.le

theorem calcCentral_vol {cut : CutChoice} {tsq : ℝ} (hn : 2 ≤ n) (ht : 0 < tsq)
    {st : CutStatus} {p : Params}
    (h : (std n u).calcSingleOrParallelCentralCut cut tsq = .ok (st, some p)) :
    volFactor n p ≤ centralFactor n := by
  have hn2 : (2 : ℝ) ≤ n := by exact_mod_cast hn
  have hc : ∀ (hh : (do
      let tau ← psqrt tsq
      Except.ok (CutStatus.success, some ((std n u).helper.calcCentralCut tau)) : StrategyResult) =
        .ok (st, some p)), volFactor n p ≤ centralFactor n := by
    intro hh
    rw [psqrt_ok ht.le] at hh
    cases hh
    exact central_vol hn ht
  match cut with
  | .scalar β => exact hc h
  | .seq bs =>
    simp only [calcSingleOrParallelCentralCut] at h
    split_ifs at h
    · exact hc h
    · split at h
      · rename_i b1 hb
        split_ifs at h with h1 h2
        · cases h
        · exact hc h
        · have ht2 : b1 * b1 < tsq := not_le.mp h2
          have e := calcParallelCentralCut_std (n := (n : ℝ)) hn2 ht ht2.le
          simp only [std] at h
          rw [e] at h
          cases h
          exact par_vol_le_central hn ht le_rfl (not_lt.mp h1) ht2
      · cases h

end EllCalc

theorem calcSingleOrParallel_vol {u : Bool} {cut : CutChoice} {tsq : ℝ} (hn : 2 ≤ n) (ht : 0 < tsq)
    (h0 : cut.FirstNonneg) {st : CutStatus} {p : Params}
    (h : (EllCalc.std n u).calcSingleOrParallel cut tsq = .ok (st, some p)) :
    volFactor n p ≤ centralFactor n := by
  match cut with
  | .scalar β => exact EllCalc.calcBiasCut_vol hn ht h
  | .seq [] => simp [EllCalc.calcSingleOrParallel, EllCalc.firstOffset] at h
  | .seq [none] => simp [EllCalc.calcSingleOrParallel, EllCalc.firstOffset] at h
  | .seq [some β] =>
    simp only [EllCalc.calcSingleOrParallel, List.length_singleton, Nat.one_lt_ofNat, true_or,
      if_true, EllCalc.firstOffset, except_ok_bind] at h
    exact EllCalc.calcBiasCut_vol hn ht h
  | .seq (none :: b1 :: l) =>
    simp [EllCalc.calcSingleOrParallel, EllCalc.firstOffset] at h
    split_ifs at h
    split at h <;> cases h
  | .seq (some β0 :: none :: l) =>
    simp [EllCalc.calcSingleOrParallel, EllCalc.firstOffset] at h
    split_ifs at h
    exact EllCalc.calcBiasCut_vol hn ht h
  | .seq (some β0 :: some β1 :: l) =>
    simp [EllCalc.calcSingleOrParallel, EllCalc.firstOffset] at h
    split_ifs at h
    · exact EllCalc.calcBiasCut_vol hn ht h
    · exact EllCalc.calcParallel_vol hn ht (h0 β0 rfl) h

theorem WF.det_pos {e : Ell n} (he : e.WF) : 0 < (e.kappa • e.mq).det :=
  (he.posDef.smul he.kappa_pos).det_pos

/-- **C07.** A successful deep or central cut (single or parallel, first offset `≥ 0` for
`update_bias_cut`, anything for `update_central_cut`) multiplies `det (κM)`, the squared volume up to a
constant, by at most `exp(-1/(n+1))`. -/
theorem C07_volume_reduction (e : Ell n) (he : e.WF) (m : Method) (cut : Cut n) (e' : Ell n)
    (hm : match m with | .bias => cut.2.FirstNonneg | .central => True | .q => False)
    (h : e.update m cut = (e', .ok .success)) :
    (e'.kappa • e'.mq).det ≤ Real.exp (-1 / ((n : ℝ) + 1)) * (e.kappa • e.mq).det := by
  obtain ⟨hn, hh⟩ := he.built.helper_eq
  have fin : ∀ p : Params, cut.1 ≠ 0 → volFactor n p ≤ centralFactor n →
      ((e.applied cut.1 p).kappa • (e.applied cut.1 p).mq).det ≤
        Real.exp (-1 / ((n : ℝ) + 1)) * (e.kappa • e.mq).det := by
    intro p hg hp
    rw [applied_det he hg, mul_comm]
    exact mul_le_mul_of_nonneg_right (hp.trans (centralFactor_le hn)) (WF.det_pos he).le
  match m, hm, h with
  | .bias, hm, h =>
    obtain ⟨hg, ht, ⟨p, hp, rfl⟩ | hr⟩ := Ell.updateCore_inv he h
    · rw [hh] at hp
      exact fin p hg (calcSingleOrParallel_vol hn ht hm hp)
    · exact absurd (EllCalc.calcSingleOrParallel_none hr.1).1 (by simp)
  | .central, _, h =>
    obtain ⟨hg, ht, ⟨p, hp, rfl⟩ | hr⟩ := Ell.updateCore_inv he h
    · rw [hh] at hp
      exact fin p hg (EllCalc.calcCentral_vol hn ht hp)
    · exact absurd (EllCalc.calcCentral_none hr.1).1 (by simp)

example : (CutChoice.pair (1 / 4) (3 / 4)).FirstNonneg ∧
    ∃ e', unitDisc.update .bias (![1, 0], .pair (1 / 4) (3 / 4)) = (e', .ok .success) := by
  refine ⟨fun b hb => ?_, _, Ell.updateCore_some e1_ne_zero unitDisc_omega_ne (by
      rw [unitDisc_tsq]
      exact EllCalc.calcParallel_success (u := true) le_rfl (by norm_num) (by norm_num) (by norm_num)
        (by norm_num))⟩
  simp at hb; rw [← hb]; norm_num

/-! ### `update_q` never increases the volume -/

theorem parParams_tau {n β τ : ℝ} (hn : 2 ≤ n) (hτ : 0 < τ) (h1 : 0 < τ + β) (h2 : β ≤ τ) :
    parParams n β τ (τ * τ) = biasParams n β τ := by
  have hxi : parXi n β τ (τ * τ) = n / 2 * (τ * τ - β * β) := by
    unfold parXi
    rw [sub_self, mul_zero, zero_add, Real.sqrt_sq]
    have : 0 ≤ (τ - β) * (τ + β) := mul_nonneg (by linarith) h1.le
    have : 0 ≤ τ * τ - β * β := by nlinarith
    positivity
  have hK : parDen n β τ (τ * τ) = τ * (τ + β) * (n + 1) := by
    unfold parDen; rw [hxi]; ring
  have hn1 : n + 1 ≠ 0 := by linarith
  have hn0 : n ≠ 0 := by linarith
  have hn2 : n ^ 2 - 1 ≠ 0 := by nlinarith
  simp only [parParams, biasParams, hK, hxi, Params.mk.injEq]
  have hb' := h1.ne'
  refine ⟨?_, ?_, ?_⟩
  · rw [add_comm β τ]; field_simp
  · field_simp
  · rw [show n * n - 1 = n ^ 2 - 1 by ring]; field_simp; ring

theorem calcBiasCutQ_vol {u : Bool} {β tsq : ℝ} (hn : 2 ≤ n) (ht : 0 < tsq) {st : CutStatus}
    {p : Params} (h : (EllCalc.std n u).calcBiasCutQ β tsq = .ok (st, some p)) (hσ : p.sigma < 1)
    (hδ : 0 < p.delta) : volFactor n p ≤ 1 := by
  have hn2 : (2 : ℝ) ≤ n := by exact_mod_cast hn
  by_cases h0 : Real.sqrt tsq < β
  · unfold EllCalc.calcBiasCutQ at h; rw [psqrt_ok ht.le] at h; simp only [except_ok_bind] at h
    rw [if_pos h0] at h; cases h
  by_cases h1 : Real.sqrt tsq + n * β ≤ 0
  · unfold EllCalc.calcBiasCutQ at h; rw [psqrt_ok ht.le] at h; simp only [except_ok_bind] at h
    rw [if_neg h0] at h
    rw [if_pos (show Real.sqrt tsq + (EllCalc.std n u).nF * β ≤ 0 from h1)] at h; cases h
  rw [EllCalc.calcBiasCutQ_eq ht (not_le.mp h1) hn (not_lt.mp h0)] at h
  cases h
  have hs := Real.sqrt_pos.mpr ht
  have hη := not_le.mp h1
  have hb : 0 < Real.sqrt tsq + β := by
    by_contra hc
    have : (n : ℝ) * (Real.sqrt tsq + β) ≤ 0 :=
      mul_nonpos_of_nonneg_of_nonpos (by linarith) (by linarith)
    nlinarith
  rw [← parParams_tau hn2 hs hb (not_lt.mp h0)] at hσ hδ ⊢
  refine par_vol_le_one hn (mul_pos hs hs) ?_ hσ hδ
  have : Real.sqrt tsq * Real.sqrt tsq + n * (β * Real.sqrt tsq) =
      Real.sqrt tsq * (Real.sqrt tsq + n * β) := by ring
  rw [this]; positivity

theorem calcParallelQ_vol {u : Bool} {β0 β1 tsq : ℝ} (hn : 2 ≤ n) (ht : 0 < tsq) {st : CutStatus}
    {p : Params} (h : (EllCalc.std n u).calcParallelQ β0 β1 tsq = .ok (st, some p))
    (hσ : p.sigma < 1) (hδ : 0 < p.delta) : volFactor n p ≤ 1 := by
  by_cases h0 : β1 < β0
  · unfold EllCalc.calcParallelQ at h; rw [if_pos h0] at h; cases h
  by_cases h1 : β1 > 0 ∧ tsq ≤ β1 * β1
  · unfold EllCalc.calcParallelQ at h; rw [if_neg h0] at h; simp only at h; rw [if_pos h1] at h
    exact calcBiasCutQ_vol hn ht h hσ hδ
  by_cases h2 : tsq + n * (β0 * β1) ≤ 0
  · unfold EllCalc.calcParallelQ at h; rw [if_neg h0] at h; simp only at h; rw [if_neg h1] at h
    rw [if_pos (show tsq + (EllCalc.std n u).nF * (β0 * β1) ≤ 0 from h2)] at h; cases h
  · rw [EllCalc.calcParallelQ_eq hn (not_lt.mp h0) h1 ht (not_le.mp h2)] at h
    cases h
    exact par_vol_le_one hn ht (not_le.mp h2).le hσ hδ

theorem calcSingleOrParallelQ_vol {u : Bool} {cut : CutChoice} {tsq : ℝ} (hn : 2 ≤ n) (ht : 0 < tsq)
    {st : CutStatus} {p : Params}
    (h : (EllCalc.std n u).calcSingleOrParallelQ cut tsq = .ok (st, some p)) (hσ : p.sigma < 1)
    (hδ : 0 < p.delta) : volFactor n p ≤ 1 := by
  match cut with
  | .scalar β => exact calcBiasCutQ_vol hn ht h hσ hδ
  | .seq [] => simp [EllCalc.calcSingleOrParallelQ, EllCalc.firstOffset] at h
  | .seq [none] => simp [EllCalc.calcSingleOrParallelQ, EllCalc.firstOffset] at h
  | .seq [some β] =>
    simp only [EllCalc.calcSingleOrParallelQ, List.length_singleton, Nat.one_lt_ofNat, true_or,
      if_true, EllCalc.firstOffset, except_ok_bind] at h
    exact calcBiasCutQ_vol hn ht h hσ hδ
  | .seq (none :: b1 :: l) =>
    simp [EllCalc.calcSingleOrParallelQ, EllCalc.firstOffset] at h
    split_ifs at h
    split at h <;> cases h
  | .seq (some β0 :: none :: l) =>
    simp [EllCalc.calcSingleOrParallelQ, EllCalc.firstOffset] at h
    split_ifs at h
    exact calcBiasCutQ_vol hn ht h hσ hδ
  | .seq (some β0 :: some β1 :: l) =>
    simp [EllCalc.calcSingleOrParallelQ, EllCalc.firstOffset] at h
    split_ifs at h
    · exact calcBiasCutQ_vol hn ht h hσ hδ
    · exact calcParallelQ_vol hn ht h hσ hδ

/-- **C07, `update_q`.** A successful `update_q` (deep or shallow, single or parallel) whose cut leaves
something of positive width never increases the volume. -/
theorem C07_update_q_volume (e : Ell n) (he : e.WF) (cut : Cut n) (e' : Ell n)
    (hw : HasWidth cut.2.keeps (e.kappa * (cut.1 ⬝ᵥ (e.mq *ᵥ cut.1))))
    (h : e.updateQ cut = (e', .ok .success)) :
    (e'.kappa • e'.mq).det ≤ (e.kappa • e.mq).det := by
  obtain ⟨hn, hh⟩ := he.built.helper_eq
  obtain ⟨hg, ht, ⟨p, hp, rfl⟩ | hr⟩ := Ell.updateCore_inv he h
  · rw [hh] at hp
    obtain ⟨h1, h2⟩ := (EllCalc.calcSingleOrParallelQ_sound hn ht hp).2.strict_of_width hw
    rw [applied_det he hg]
    have := calcSingleOrParallelQ_vol hn ht hp h1 h2
    nlinarith [WF.det_pos he]
  · rcases EllCalc.calcSingleOrParallelQ_none hr.1 with h1 | h1 <;> simp at h1

example : HasWidth (CutChoice.scalar (-1 / 4)).keeps 1 ∧
    ∃ e', unitDisc.updateQ (![1, 0], .scalar (-1 / 4)) = (e', .ok .success) :=
  ⟨⟨-1, 0, by norm_num, by norm_num, by norm_num, by norm_num [CutChoice.keeps],
      by norm_num [CutChoice.keeps]⟩,
    _, Ell.updateCore_some e1_ne_zero unitDisc_omega_ne (by
      rw [unitDisc_tsq]
      exact EllCalc.calcBiasCutQ_eq (u := true) one_pos (by rw [Real.sqrt_one]; norm_num) le_rfl
        (by rw [Real.sqrt_one]; norm_num))⟩

end Ellalgo
