import Verif.Lemmas.RoundedProfit
import Mathlib.Analysis.Complex.ExponentialBounds

/-! # The cuts and values of the profit oracle in floating point -/

namespace Ellalgo

open Matrix Spec Spec.ProfitProblem

variable {A : Arith} {u ν : ℝ} {P : ProfitProblem} {o : ProfitOracle} {τ δ γs B W X r : ℝ} {c : Vec 2}

theorem abs_coord_sqrt_le (x : Vec 2) (i : Fin 2) : |x i| ≤ Real.sqrt (x ⬝ᵥ x) := by
  rw [dotProduct, Fin.sum_univ_two]
  apply Real.abs_le_sqrt
  fin_cases i <;> simp <;> nlinarith [sq_nonneg (x 0), sq_nonneg (x 1)]

theorem h2_mono (hP : P.Proper) {γ γ' : ℝ} (h0 : 0 ≤ γ) (h : γ ≤ γ') (x : Vec 2) : ProfitOracle.h2 P γ x ≤ ProfitOracle.h2 P γ' x := by
  rw [h2_eq, h2_eq]
  have := Real.log_le_log (by linarith [outlay_pos hP x]) (show γ + P.outlay x ≤ γ' + P.outlay x by linarith)
  linarith

section

variable (hA : A.Accurate u ν 2) (hu : 0 ≤ u) (hν : ν ≤ 4 * u) (H : FloatProfit P u τ δ γs B W X c r) (ho : Arith.ProfitGood u P o)

include H

theorem Spec.FloatProfit.X_pos : 0 < X := by linarith [H.spare_pos, H.spare_le]

theorem Spec.FloatProfit.mag {x : Vec 2} (hx : Real.sqrt (x ⬝ᵥ x) ≤ X) : P.magnitude x ≤ B := by
  have h0 := mul_le_mul_of_nonneg_left ((abs_coord_sqrt_le x 0).trans hx) (abs_nonneg (P.alpha 0))
  have h1 := mul_le_mul_of_nonneg_left ((abs_coord_sqrt_le x 1).trans hx) (abs_nonneg (P.alpha 1))
  have := H.logRevenue
  unfold magnitude
  rw [abs_mul, abs_mul]
  linarith

theorem Spec.FloatProfit.outlay_low {x : Vec 2} (hx : Real.sqrt (x ⬝ᵥ x) ≤ X) : Real.exp (-B) ≤ P.outlay x := by
  have h0 : Real.exp (-X) ≤ Real.exp (x 0) := Real.exp_le_exp.mpr (by linarith [(abs_le.mp ((abs_coord_sqrt_le x 0).trans hx)).1])
  have h1 : Real.exp (-X) ≤ Real.exp (x 1) := Real.exp_le_exp.mpr (by linarith [(abs_le.mp ((abs_coord_sqrt_le x 1).trans hx)).1])
  have h2 := mul_le_mul_of_nonneg_left h0 (H.proper.cost 0).le
  have h3 := mul_le_mul_of_nonneg_left h1 (H.proper.cost 1).le
  have h4 := mul_le_mul_of_nonneg_right H.low (Real.exp_pos (-X)).le
  rw [← Real.exp_add, show X - B + -X = -B by ring] at h4
  unfold outlay
  linarith

theorem Spec.FloatProfit.outlay_high {x : Vec 2} (hx : Real.sqrt (x ⬝ᵥ x) ≤ X) : γs + P.outlay x ≤ Real.exp B := by
  have h0 : Real.exp (x 0) ≤ Real.exp X := Real.exp_le_exp.mpr ((le_abs_self _).trans ((abs_coord_sqrt_le x 0).trans hx))
  have h1 : Real.exp (x 1) ≤ Real.exp X := Real.exp_le_exp.mpr ((le_abs_self _).trans ((abs_coord_sqrt_le x 1).trans hx))
  have h2 := mul_le_mul_of_nonneg_left h0 (H.proper.cost 0).le
  have h3 := mul_le_mul_of_nonneg_left h1 (H.proper.cost 1).le
  have := H.high
  unfold outlay
  linarith

theorem Spec.FloatProfit.one_le_B : 1 ≤ B := by
  have := H.logRevenue
  have := mul_nonneg (add_nonneg (abs_nonneg (P.alpha 0)) (abs_nonneg (P.alpha 1))) H.X_pos.le
  linarith [abs_nonneg (Real.log (P.price * P.scale))]

theorem Spec.FloatProfit.log_abs {x : Vec 2} (hx : Real.sqrt (x ⬝ᵥ x) ≤ X) {γ : ℝ} (h0 : 0 ≤ γ) (hγ : γ ≤ γs) : |Real.log (γ + P.outlay x)| ≤ B := by
  have h1 := H.outlay_low hx
  have h2 := H.outlay_high hx
  have h3 := outlay_pos H.proper x
  rw [abs_le]
  constructor
  · rw [Real.le_log_iff_exp_le (by linarith)]; linarith
  · rw [Real.log_le_iff_le_exp (by linarith)]; linarith

/-- Designs of the ball satisfy the constraints with slack `δ`, for all values up to the target. -/
theorem Spec.FloatProfit.slack {y : Vec 2} (hy : y ∈ ball c r) {γ : ℝ} (h0 : 0 ≤ γ) (hγ : γ ≤ γs) : y 0 ≤ Real.log P.limit - δ ∧ ProfitOracle.h2 P γ y ≤ -δ := by
  have h := H.spare y hy
  have hpos := outlay_pos H.proper y
  constructor
  · have := h.limit
    unfold quant at this
    rw [← Real.exp_add, ← Real.le_log_iff_exp_le H.proper.limit] at this
    linarith
  · refine (h2_mono H.proper h0 hγ y).trans ?_
    rw [h2_eq]
    have h1 : 0 < γs + P.outlay y := by linarith [H.target]
    have := (Real.log_le_log (mul_pos (Real.exp_pos δ) h1) h.profit)
    rw [Real.log_mul (Real.exp_pos δ).ne' h1.ne', Real.log_exp, Real.log_exp] at this
    linarith

theorem Spec.FloatProfit.centre_mem : c ∈ ball c r := by
  have : (c - c) ⬝ᵥ (c - c) ≤ r ^ 2 := by simp [sq_nonneg]
  simpa [ball] using this

theorem Spec.FloatProfit.dist {x y : Vec 2} (hx : Real.sqrt (x ⬝ᵥ x) ≤ X) (hy : y ∈ ball c r) (i : Fin 2) : |(y - x) i| ≤ 2 * X := by
  have h1 := (abs_coord_sqrt_le x i).trans hx
  have h2 := (abs_coord_sqrt_le y i).trans (H.within y hy)
  have := abs_sub (y i) (x i)
  rw [Pi.sub_apply]
  linarith

include hu

theorem Spec.FloatProfit.kappa : 0 ≤ 8 * u + 8 * τ * Real.exp B ∧ 6 * (8 * u + 8 * τ * Real.exp B) ≤ 1 := by
  have h0 := H.X_pos
  have h1 := H.budget
  have h2 : 0 ≤ 8 * u + 8 * τ * Real.exp B := by have := mul_nonneg H.tau_nonneg (Real.exp_pos B).le; linarith
  have h3 := H.spare_le
  have h4 := mul_nonneg hu (show 0 ≤ B by linarith [H.one_le_B])
  refine ⟨h2, ?_⟩
  by_contra hc
  nlinarith

include hA ho

/-- The argument of the logarithm. -/
theorem profit_arg {x : Vec 2} (hx : Real.sqrt (x ⬝ᵥ x) ≤ X) {γ : ℝ} (hγ : -(2 * τ) ≤ γ) : Rel (8 * u + 8 * τ * Real.exp B) (A.profitArg o x γ) (max γ 0 + P.outlay x) := by
  have hu2 := H.prec
  have h1 : Rel (2 * u) (A.profitArg o x γ) (γ + (A.profitEval o x).vy) := hA.rel hu (by linarith) _
  have h2 := profit_vy hA hu hu2 H.proper ho x
  have hpos := outlay_pos H.proper x
  have ht := mul_nonneg H.tau_nonneg (Real.exp_pos B).le
  obtain ⟨k1, k2⟩ := H.kappa hu
  rcases le_or_gt 0 γ with h | h
  · rw [max_eq_left h]
    have h3 := h2.add (Rel.refl h2.nonneg γ) hpos h
    rw [add_comm, add_comm (P.outlay x)] at h3
    exact (h1.trans h3).mono (by linarith)
  · rw [max_eq_right h.le, zero_add]
    have hv := h2.pos hpos
    have h3 : |γ + (A.profitEval o x).vy - (A.profitEval o x).vy| ≤ 4 * τ * Real.exp B * |(A.profitEval o x).vy| := by
      rw [add_sub_cancel_right, abs_of_neg h, abs_of_pos hv]
      have h4 := h2.symm.upper hv.le
      have h5 : Real.exp (6 * u) ≤ 2 := by
        have := Real.exp_one_lt_d9
        have h6 : Real.exp (6 * u) ≤ Real.exp (1 / 2) := Real.exp_le_exp.mpr (by linarith)
        have h7 : Real.exp (1 / 2) ^ 2 = Real.exp 1 := by rw [← Real.exp_nat_mul]; norm_num
        nlinarith [Real.exp_pos (1 / 2 : ℝ)]
      have h6 : Real.exp (-B) ≤ 2 * (A.profitEval o x).vy := (H.outlay_low hx).trans (h4.trans (by nlinarith))
      have h7 : 1 ≤ 2 * Real.exp B * (A.profitEval o x).vy := by
        have := mul_le_mul_of_nonneg_left h6 (Real.exp_pos B).le
        rw [← Real.exp_add, add_neg_cancel, Real.exp_zero] at this
        linarith
      nlinarith [mul_le_mul_of_nonneg_left h7 H.tau_nonneg]
    have h4 := Rel.of_abs h3 (by linarith) (by linarith)
    exact ((h1.trans h4).trans h2).mono (by linarith)

include hν

/-- The value of the second constraint. -/
theorem profit_val2 {x : Vec 2} (hx : Real.sqrt (x ⬝ᵥ x) ≤ X) {γ : ℝ} (hγ : -(2 * τ) ≤ γ) (hγs : γ ≤ γs) :
    |A.profitVal2 o x γ - ProfitOracle.h2 P (max γ 0) x| ≤ 2 * (8 * u + 8 * τ * Real.exp B) + 10 * u * B := by
  have hu2 := H.prec
  obtain ⟨k1, k2⟩ := H.kappa hu
  have hB := H.one_le_B
  have hpos : 0 < max γ 0 + P.outlay x := by linarith [outlay_pos H.proper x, le_max_right γ 0]
  have hlog := H.log_abs hx (le_max_right γ 0) (max_le hγs H.target)
  have h1 := (profit_arg hA hu H ho hx hγ).log_sub hpos
  have h2 := hA.rnd_err hu le_rfl h1 hlog
  have h3 := (profit_logCobb hA hu hu2 hν H.proper ho x).trans (mul_le_mul_of_nonneg_left (H.mag hx) (by linarith))
  rw [h2_eq]
  generalize 8 * u + 8 * τ * Real.exp B = κ at *
  have h4 : |A.rnd (Real.log (A.profitArg o x γ)) - (A.profitEval o x).logCobb - (Real.log (max γ 0 + P.outlay x) - P.logRevenue x)| ≤ (κ + u * (B + κ)) + 6 * u * B := by
    rw [show A.rnd (Real.log (A.profitArg o x γ)) - (A.profitEval o x).logCobb - (Real.log (max γ 0 + P.outlay x) - P.logRevenue x) = (A.rnd (Real.log (A.profitArg o x γ)) - Real.log (max γ 0 + P.outlay x)) - ((A.profitEval o x).logCobb - P.logRevenue x) by ring]
    exact (abs_sub _ _).trans (add_le_add h2 h3)
  have h5 : |Real.log (max γ 0 + P.outlay x) - P.logRevenue x| ≤ 2 * B := (abs_sub _ _).trans (by linarith [P.logRevenue_le x, H.mag hx])
  have h6 := hA.rnd_err hu le_rfl h4 h5
  refine h6.trans ?_
  have m1 : u * κ ≤ κ / 100 := by nlinarith
  have m2 : u * (u * κ) ≤ κ / 100 := by nlinarith [mul_nonneg hu k1]
  have m3 : u * (u * B) ≤ u * B / 100 := by nlinarith [mul_nonneg hu (show 0 ≤ B by linarith)]
  have m4 : 0 ≤ u * B := mul_nonneg hu (by linarith)
  nlinarith

omit hν

/-- The gradient of the second constraint. -/
theorem profit_dir {x : Vec 2} (hx : Real.sqrt (x ⬝ᵥ x) ≤ X) {γ : ℝ} (hγ : -(2 * τ) ≤ γ) (i : Fin 2) :
    |A.profitDir o x γ i - ProfitOracle.g2 P (max γ 0) x i| ≤ 3 * (8 * u + 8 * τ * Real.exp B) + u * |P.alpha i| := by
  have hu2 := H.prec
  have hw := profit_arg hA hu H ho hx hγ
  obtain ⟨k1, k2⟩ := H.kappa hu
  have ht := mul_nonneg H.tau_nonneg (Real.exp_pos B).le
  have huκ : 8 * u ≤ 8 * u + 8 * τ * Real.exp B := by linarith
  have hpos : 0 < max γ 0 + P.outlay x := by linarith [outlay_pos H.proper x, le_max_right γ 0]
  have hqi : 0 < P.cost i * Real.exp (x i) := mul_pos (H.proper.cost i) (Real.exp_pos _)
  have hle : P.cost i * Real.exp (x i) ≤ max γ 0 + P.outlay x := by
    have h0 := mul_pos (H.proper.cost 0) (Real.exp_pos (x 0))
    have h1 := mul_pos (H.proper.cost 1) (Real.exp_pos (x 1))
    have := le_max_right γ 0
    unfold outlay
    fin_cases i <;> simp <;> linarith
  have h1 : Rel (2 * u) (A.div ((A.profitEval o x).q i) (A.profitArg o x γ)) ((A.profitEval o x).q i / A.profitArg o x γ) := hA.rel hu (by linarith) _
  have h2 := h1.trans ((profit_q hA hu hu2 H.proper ho x i).div hw)
  generalize 8 * u + 8 * τ * Real.exp B = κ at *
  have h3 := h2.abs_sub_le (div_nonneg hqi.le hpos.le) (by linarith)
  have h4 : P.cost i * Real.exp (x i) / (max γ 0 + P.outlay x) ≤ 1 := (div_le_one hpos).mpr hle
  have h5 : 0 ≤ P.cost i * Real.exp (x i) / (max γ 0 + P.outlay x) := div_nonneg hqi.le hpos.le
  set ρ := P.cost i * Real.exp (x i) / (max γ 0 + P.outlay x) with hρ
  have he : 2 * u + (4 * u + κ) ≤ 7 / 4 * κ := by linarith
  have he0 : 0 ≤ 2 * u + (4 * u + κ) := by linarith
  have h6 : |A.div ((A.profitEval o x).q i) (A.profitArg o x γ) - ρ| ≤ 23 / 10 * κ := by
    refine h3.trans ?_
    have : (2 * u + (4 * u + κ)) ^ 2 ≤ 7 / 24 * (7 / 4 * κ) := by nlinarith
    nlinarith
  have h7 : |A.div ((A.profitEval o x).q i) (A.profitArg o x γ) - P.alpha i - (ρ - P.alpha i)| ≤ 23 / 10 * κ := by rwa [sub_sub_sub_cancel_right]
  have h8 : |ρ - P.alpha i| ≤ 1 + |P.alpha i| := (abs_sub _ _).trans (by rw [abs_of_nonneg h5]; linarith)
  have h9 := hA.rnd_err hu le_rfl h7 h8
  have h10 : A.profitDir o x γ i = A.rnd (A.div ((A.profitEval o x).q i) (A.profitArg o x γ) - P.alpha i) := by
    unfold Arith.profitDir; rw [ho.elasticities]; rfl
  rw [h10]
  change |_ - (ρ - P.alpha i)| ≤ _
  refine h9.trans ?_
  nlinarith [mul_nonneg hu k1]

/-- The inner products with the gradient. -/
theorem profit_dir_dot {x y : Vec 2} (hx : Real.sqrt (x ⬝ᵥ x) ≤ X) {γ : ℝ} (hγ : -(2 * τ) ≤ γ) (hy : y ∈ ball c r) :
    A.profitDir o x γ ⬝ᵥ (y - x) ≤ ProfitOracle.g2 P (max γ 0) x ⬝ᵥ (y - x) + (12 * (8 * u + 8 * τ * Real.exp B) * X + 2 * u * B) := by
  obtain ⟨k1, -⟩ := H.kappa hu
  have h0 := profit_dir hA hu H ho hx hγ 0
  have h1 := profit_dir hA hu H ho hx hγ 1
  have d0 := H.dist hx hy 0
  have d1 := H.dist hx hy 1
  have hX := H.X_pos
  have hB := H.logRevenue
  have hab := abs_nonneg (Real.log (P.price * P.scale))
  rw [dotProduct, dotProduct, Fin.sum_univ_two, Fin.sum_univ_two]
  generalize 8 * u + 8 * τ * Real.exp B = κ at *
  have e : ∀ {a b t s : ℝ}, |a - b| ≤ s → |t| ≤ 2 * X → a * t ≤ b * t + s * (2 * X) := by
    intro a b t s h1 h2
    have h3 := le_abs_self ((a - b) * t)
    rw [abs_mul] at h3
    have := mul_le_mul h1 h2 (abs_nonneg _) ((abs_nonneg _).trans h1)
    linarith
  have e0 := e h0 d0
  have e1 := e h1 d1
  have : u * ((|P.alpha 0| + |P.alpha 1|) * X) ≤ u * B := mul_le_mul_of_nonneg_left (by linarith) hu
  nlinarith

end

end Ellalgo
