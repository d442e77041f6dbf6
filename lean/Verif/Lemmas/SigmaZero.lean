import Verif.Lemmas.EllUpdate

/-! # When a strategy returns `σ = 0` it returns `δ = 1` (so skipping the update loses nothing) -/

namespace Ellalgo

open EllCalcCore

/-- The property. -/
def Params.Idle (p : Params) : Prop := p.sigma = 0 → p.delta = 1

theorem idle_of_ne {p : Params} (h : p.sigma ≠ 0) : p.Idle := fun h0 => absurd h0 h

theorem biasParams_idle {n β τ : ℝ} (hn : 2 ≤ n) (hη : 0 < τ + n * β) (hβ : 0 < τ + β) : (biasParams n β τ).Idle := by
  apply idle_of_ne
  have : 0 < n + 1 := by linarith
  simp only [biasParams]
  positivity

theorem parParams_idle {n β0 β1 tsq : ℝ} (hn : 2 ≤ n) (ht : 0 < tsq) (hd : parDen n β0 β1 tsq ≠ 0) :
    (parParams n β0 β1 tsq).Idle := by
  intro h0
  have h1 : 2 * (tsq + n * (β0 * β1)) / parDen n β0 β1 tsq = 0 := h0
  have h2 : tsq + n * (β0 * β1) = 0 := by
    rcases div_eq_zero_iff.mp h1 with h | h
    · linarith
    · exact absurd h hd
  have hn0 : 0 < n := by linarith
  set S := β0 * β0 + β1 * β1 with hS
  have hb : β0 * β1 = -tsq / n := by field_simp; linarith
  have hxi : parXi n β0 β1 tsq = n * S / 2 - tsq / n := by
    have harg : (tsq - β0 * β0) * (tsq - β1 * β1) + (n / 2 * (β1 * β1 - β0 * β0)) ^ 2 =
        (n * S / 2 - tsq / n) ^ 2 := by
      have e1 : (β1 * β1 - β0 * β0) ^ 2 = S ^ 2 - 4 * (β0 * β1) ^ 2 := by rw [hS]; ring
      have e2 : (tsq - β0 * β0) * (tsq - β1 * β1) = tsq ^ 2 - tsq * S + (β0 * β1) ^ 2 := by rw [hS]; ring
      rw [mul_pow, e1, e2, hb]
      field_simp
      ring
    have hnn : 0 ≤ n * S / 2 - tsq / n := by
      have e3 : 2 * (tsq / n) ≤ S := by
        have : S = (β0 + β1) ^ 2 - 2 * (β0 * β1) := by rw [hS]; ring
        rw [this, hb]
        have := sq_nonneg (β0 + β1)
        rw [neg_div]; linarith
      have e4 : 0 < tsq / n := by positivity
      nlinarith
    unfold parXi
    rw [harg, Real.sqrt_sq hnn]
  have hn1 : n * n - 1 ≠ 0 := by nlinarith
  show n * n / (n * n - 1) * ((tsq - β0 * β0 + (tsq - β1 * β1)) / 2 + parXi n β0 β1 tsq / n) / tsq = 1
  rw [hxi, show tsq - β0 * β0 + (tsq - β1 * β1) = 2 * tsq - S by rw [hS]; ring,
    show (2 * tsq - S) / 2 + (n * S / 2 - tsq / n) / n = tsq * (n * n - 1) / (n * n) by field_simp; ring]
  generalize n * n - 1 = m at hn1
  field_simp

namespace EllCalc

variable {n : ℕ} {u : Bool}

theorem calcBiasCut_idle (hn : 2 ≤ n) {β tsq : ℝ} (ht : 0 < tsq) {st : CutStatus} {p : Params}
    (h : (std n u).calcBiasCut β tsq = .ok (st, some p)) : p.Idle := by
  have hn2 : (2 : ℝ) ≤ n := by exact_mod_cast hn
  rcases lt_or_ge β 0 with h0 | h0
  · rw [calcBiasCut_neg h0] at h; cases h
  rcases lt_or_ge tsq (β * β) with h1 | h1
  · rw [calcBiasCut_noSoln h0 h1] at h; cases h
  rw [calcBiasCut_success h0 ht h1] at h
  cases h
  have := Real.sqrt_pos.mpr ht
  exact biasParams_idle hn2 (by positivity) (by positivity)

theorem parFast_idle (hn : 2 ≤ n) {β0 β1 tsq : ℝ} (ht : 0 < tsq) {s0 st : CutStatus} {p : Params}
    (h : ((EllCalcCore.std n).calcParallelBiasCutFast β0 β1 tsq (β0 * β1) (tsq + n * (β0 * β1)) >>= fun r =>
      (Except.ok (s0, some r) : StrategyResult)) = .ok (st, some p)) : p.Idle := by
  have hn2 : (2 : ℝ) ≤ n := by exact_mod_cast hn
  by_cases hd : parDen n β0 β1 tsq = 0
  · have hx := psqrt_ok (parXi_arg_nonneg hn2 β0 β1 tsq)
    simp only [calcParallelBiasCutFast, EllCalcCore.std, hx, except_ok_bind] at h
    have hd' : tsq + β0 * β1 + (n : ℝ) / 2 * (β0 + β1) ^ 2 +
      Real.sqrt ((tsq - β0 * β0) * (tsq - β1 * β1) + ((n : ℝ) / 2 * (β1 * β1 - β0 * β0)) ^ 2) = 0 := hd
    rw [hd', pdiv_zero] at h
    cases h
  · rw [calcParallelBiasCutFast_std hn2 ht.ne' hd] at h
    cases h
    exact parParams_idle hn2 ht hd

theorem calcBiasCutQ_idle (hn : 2 ≤ n) {β tsq : ℝ} (ht : 0 < tsq) {st : CutStatus} {p : Params}
    (h : (std n u).calcBiasCutQ β tsq = .ok (st, some p)) : p.Idle := by
  have hn2 : (2 : ℝ) ≤ n := by exact_mod_cast hn
  have hs := Real.sqrt_pos.mpr ht
  unfold calcBiasCutQ at h
  rw [psqrt_ok ht.le] at h
  simp only [except_ok_bind] at h
  by_cases h1 : Real.sqrt tsq < β
  · rw [if_pos h1] at h; cases h
  rw [if_neg h1] at h
  change (if Real.sqrt tsq + n * β ≤ 0 then _ else _) = _ at h
  by_cases h2 : Real.sqrt tsq + n * β ≤ 0
  · rw [if_pos h2] at h; cases h
  · rw [if_neg h2] at h
    have hη : 0 < Real.sqrt tsq + n * β := not_le.mp h2
    have hb : 0 < Real.sqrt tsq + β := by
      rcases le_or_gt 0 β with hb | hb
      · linarith
      · nlinarith
    simp only [std] at h
    rw [calcBiasCutFast_std hs.ne' hb.ne'] at h
    cases h
    exact biasParams_idle hn2 hη hb

/-- `calc_single_or_parallel`. -/
theorem calcSingleOrParallel_idle (hn : 2 ≤ n) {cut : CutChoice} {tsq : ℝ} (ht : 0 < tsq) {st : CutStatus} {p : Params}
    (h : (std n u).calcSingleOrParallel cut tsq = .ok (st, some p)) : p.Idle := by
  match cut with
  | .scalar β => exact calcBiasCut_idle hn ht h
  | .seq bs =>
    simp only [calcSingleOrParallel] at h
    split_ifs at h
    · rcases hx : firstOffset bs with f | b
      · rw [hx] at h; cases h
      · rw [hx] at h; exact calcBiasCut_idle hn ht h
    · split at h
      · rcases hx : firstOffset bs with f | b
        · rw [hx] at h; cases h
        · rw [hx] at h
          simp only [except_ok_bind, calcParallel] at h
          split_ifs at h
          · cases h
          · exact calcBiasCut_idle hn ht h
          · exact parFast_idle hn ht h
      · cases h

/-- `calc_single_or_parallel_q`. -/
theorem calcSingleOrParallelQ_idle (hn : 2 ≤ n) {cut : CutChoice} {tsq : ℝ} (ht : 0 < tsq) {st : CutStatus} {p : Params}
    (h : (std n u).calcSingleOrParallelQ cut tsq = .ok (st, some p)) : p.Idle := by
  match cut with
  | .scalar β => exact calcBiasCutQ_idle hn ht h
  | .seq bs =>
    simp only [calcSingleOrParallelQ] at h
    split_ifs at h
    · rcases hx : firstOffset bs with f | b
      · rw [hx] at h; cases h
      · rw [hx] at h; exact calcBiasCutQ_idle hn ht h
    · split at h
      · rcases hx : firstOffset bs with f | b
        · rw [hx] at h; cases h
        · rw [hx] at h
          simp only [except_ok_bind, calcParallelQ] at h
          split_ifs at h
          · cases h
          · exact calcBiasCutQ_idle hn ht h
          · cases h
          · exact parFast_idle hn ht h
      · cases h

theorem central_idle (hn : 2 ≤ n) {tsq : ℝ} (ht : 0 < tsq) {s0 st : CutStatus} {p : Params}
    (h : (psqrt tsq >>= fun tau => (Except.ok (s0, some ((EllCalcCore.std n).calcCentralCut tau)) : StrategyResult)) =
      .ok (st, some p)) : p.Idle := by
  have hn2 : (2 : ℝ) ≤ n := by exact_mod_cast hn
  have hs := Real.sqrt_pos.mpr ht
  rw [psqrt_ok ht.le] at h
  cases h
  rw [calcCentralCut_std hs.ne']
  exact biasParams_idle hn2 (by rw [mul_zero, add_zero]; exact hs) (by rw [add_zero]; exact hs)

/-- `calc_single_or_parallel_central_cut`. -/
theorem calcCentral_idle (hn : 2 ≤ n) {cut : CutChoice} {tsq : ℝ} (ht : 0 < tsq) {st : CutStatus} {p : Params}
    (h : (std n u).calcSingleOrParallelCentralCut cut tsq = .ok (st, some p)) : p.Idle := by
  have hn2 : (2 : ℝ) ≤ n := by exact_mod_cast hn
  match cut with
  | .scalar β => exact central_idle hn ht h
  | .seq bs =>
    simp only [calcSingleOrParallelCentralCut] at h
    split_ifs at h
    · exact central_idle hn ht h
    · split at h
      · split_ifs at h with h1 h2
        · cases h
        · exact central_idle hn ht h
        · simp only [std] at h
          rw [calcParallelCentralCut_std hn2 ht (not_le.mp h2).le] at h
          cases h
          refine parParams_idle hn2 ht (parDen_pos hn2 ht ?_).ne'
          rw [zero_mul, mul_zero, add_zero]; exact ht.le
      · cases h

end EllCalc

end Ellalgo
