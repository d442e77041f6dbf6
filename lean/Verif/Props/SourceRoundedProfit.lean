import Verif.Props.RoundedProfit
import Verif.Props.SourceProfit
import Verif.Props.SourceConverge

/-! # C120: the profit maximisation in floating point, from the text -/

namespace Ellalgo

open Matrix Spec Spec.ProfitProblem CuttingPlane

namespace Py

variable {W' : Type} {st : St W'} {la lp lx : ℕ} {vopt : Val} {opts : Options ℝ} {ext : ℕ → String → List Val → M W' Val} {fuel : ℕ} {P : ProfitProblem} {p : ℕ} {R r D τ δ γs g0 B W N : ℝ} {x c : Vec 2}

/-- What `cutting_plane_optim` gives for a profit problem in floating point: an exception, or an array that is not the one of the centre with a design `y`, and a value `γ`, not below `γs` by more than the drop of `N` iterations; `γ` is the profit of `y` and `y` respects the limit, up to factors close to 1. -/
def MaximisedFloat (P : ProfitProblem) (p : ℕ) (γs W N : ℝ) (lx : ℕ) (res : Res W' Val) : Prop :=
  (∃ f s2, res = .exc f s2) ∨
  ∃ s2 lb y vg γ k, res = .ok (.tuple [.ref lb, vg, .int (k : ℕ)]) s2 ∧ lb ≠ lx ∧ s2.heap lb = some (.vec 2 y) ∧ vg.toFloat (Arith.ieee p) = some γ ∧ γs - N * profitDrop (2⁻¹ ^ p) W ≤ γ ∧ NearProfit P (2⁻¹ ^ p) y γ

/-- **C120.** The profit maximisation in floating point, from the text. `ProfitOracle((price, scale, limit), elasticities, price_out)`, `Ell(R ** 2, x)` and `cutting_plane_optim` from the value `g0`; the designs of a ball of radius `r` in the ball of radius `R` around `x` have
the profit `γs` with a factor `exp δ` to spare. With sufficiently many bits, a tolerance below `r² δ² / (256 X²)` and `max_iters` between `(40/3) ln(2R/r)` and `N`, the value returned is at least `γs - N 9 2^-p W (1 + ln W)` and is the profit of the design returned up to factors close to 1. -/
theorem C120_text (H : ProfitPlan P p R r D τ δ γs g0 B W N x c) (K : Desk (Arith.ieee p) st la lp lx P.alpha P.cost x vopt opts) {vg : Val} (hg : vg.toFloat (Arith.ieee p) = some g0)
    (htol : 8 * opts.tolerance ≤ r ^ 2 * (δ ^ 2 / (32 * (D + floatAxes 2 R r) ^ 2))) (hmax : floatIters 2 R r < opts.maxIters) (hN : (opts.maxIters : ℝ) ≤ N) :
    ∃ s0 s1, call (mach (Arith.ieee p) ext) (fuel + 3) (.glob "ProfitOracle") [.tuple [.num P.price, .num P.scale, .num P.limit], .ref la, .ref lp] st = .ok (.ref st.next) s0 ∧
      call (mach (Arith.ieee p) ext) (fuel + 3) (.glob "Ell") [.num (R ^ 2), .ref lx] s0 = .ok (.ref s0.next) s1 ∧
      MaximisedFloat P p γs W N lx (call (mach (Arith.ieee p) ext) (fuel + 8) (.glob "cutting_plane_optim") [.ref st.next, .ref s0.next, vg, vopt] s1) := by
  obtain ⟨-, hb, hp2⟩ := bits_large (n := 2) le_rfl H.inner_pos (radius_le (by norm_num) H.outer_pos H.start) ((nrm_nonneg c).trans H.centre) H.bits
  have hup : (2⁻¹ : ℝ) ^ p * 2 ^ p = 1 := by rw [← mul_pow]; norm_num
  have hu0 : (0 : ℝ) < 2⁻¹ ^ p := by positivity
  have hd2 : (Arith.ieee p).rnd 2 = 2 := by
    have := dimension_ieee (p := p) (n := 2) (by push_cast at hb ⊢; linarith)
    exact_mod_cast this
  obtain ⟨h, hh, -⟩ := Arith.core_facts (n := 2) (Arith.ieee_accurate p 2) hu0.le (by push_cast at hb ⊢; nlinarith) le_rfl
  obtain ⟨e, he⟩ : ∃ e, (Arith.ieee p).ellInit (.scalar (R ^ 2)) x = .ok e := ⟨_, by unfold Arith.ellInit; rw [hh]; rfl⟩
  obtain ⟨o, ho, -⟩ := profitInit_good (Arith.ieee_accurate p 2) hu0.le H.profit.prec H.profit.proper
  have h1 := C103_profit (ext := ext) (fuel := fuel) (literals_ieee hp2) hd2 K P.price P.scale P.limit (.num (R ^ 2)) (show IsTarget (Arith.ieee p) g0 vg from hg)
  rw [ho] at h1
  obtain ⟨s0, k0, k1, -⟩ := h1
  obtain ⟨s1, k2, k3⟩ := k1 e he
  refine ⟨s0, s1, k0, k2, ?_⟩
  have hrun := (C120_profit H ho he opts htol).2 hmax hN
  rcases hres : optim (Arith.ieee p).profitOracle ((Arith.ieee p).space 2) ltReal o e g0 opts with ⟨o', e', f | ⟨xb, γ, k⟩⟩ <;> rw [hres] at k3 <;> obtain ⟨s2, -, k4⟩ := k3
  · exact .inl ⟨_, s2, k4⟩
  · obtain ⟨y, rfl, h5, h6⟩ := hrun _ _ _ _ _ hres
    obtain ⟨lb, vg', k5, k6, k7, k8⟩ := k4
    exact .inr ⟨s2, lb, y, vg', γ, k, k5, k7, k8, k6, h5, h6⟩

end Py

/-! ### The hypotheses can be met -/

/-- Revenue `100 √√(y₁ y₂)`, at most 10 of the first input, unit prices 1. -/
noncomputable def richProfit : ProfitProblem := ⟨50, 2, 10, ![1 / 4, 1 / 4], ![1, 1]⟩

theorem exp_three_half : (4 : ℝ) ≤ Real.exp (3 / 2) := by
  have h1 : Real.exp (3 / 2) ^ 2 = Real.exp 1 ^ 3 := by rw [← Real.exp_nat_mul, ← Real.exp_nat_mul]; norm_num
  have h2 : (2.7182818283 : ℝ) ^ 3 ≤ Real.exp 1 ^ 3 := pow_le_pow_left₀ (by norm_num) Real.exp_one_gt_d9.le 3
  have h3 : (16 : ℝ) ≤ 2.7182818283 ^ 3 := by norm_num
  nlinarith [Real.exp_pos (3 / 2 : ℝ)]

theorem log_hundred : 0 ≤ Real.log (50 * 2) ∧ Real.log (50 * 2) ≤ 5 ∧ 0 ≤ Real.log 10 ∧ Real.log 10 ≤ 3 := by
  have h2 : (2.7182818283 : ℝ) ^ 5 ≤ Real.exp 1 ^ 5 := pow_le_pow_left₀ (by norm_num) Real.exp_one_gt_d9.le 5
  have h3 : (2.7182818283 : ℝ) ^ 3 ≤ Real.exp 1 ^ 3 := pow_le_pow_left₀ (by norm_num) Real.exp_one_gt_d9.le 3
  have e5 : Real.exp 5 = Real.exp 1 ^ 5 := by rw [← Real.exp_nat_mul]; norm_num
  have e3 : Real.exp 3 = Real.exp 1 ^ 3 := by rw [← Real.exp_nat_mul]; norm_num
  refine ⟨Real.log_nonneg (by norm_num), ?_, Real.log_nonneg (by norm_num), ?_⟩
  · rw [Real.log_le_iff_le_exp (by norm_num), e5]
    have : (50 * 2 : ℝ) ≤ 2.7182818283 ^ 5 := by norm_num
    linarith
  · rw [Real.log_le_iff_le_exp (by norm_num), e3]
    have : (10 : ℝ) ≤ 2.7182818283 ^ 3 := by norm_num
    linarith

theorem rich_bounded (x : Vec 2) (h1 : x 0 ≤ Real.log 10 + |Real.log 10| / 100) (h2 : richProfit.outlay x ≤ 4 * max 1 (Real.exp (richProfit.logRevenue x + richProfit.magnitude x / 100))) :
    richProfit.logRevenue x + richProfit.magnitude x / 100 ≤ 9 := by
  obtain ⟨a1, a2, a3, a4⟩ := log_hundred
  have hl : richProfit.logRevenue x + richProfit.magnitude x / 100 = Real.log (50 * 2) + (1 / 4 * x 0 + 1 / 4 * x 1) + (1 + Real.log (50 * 2) + |1 / 4 * x 0| + |1 / 4 * x 1|) / 100 := by
    simp [logRevenue, magnitude, richProfit, dotProduct, Fin.sum_univ_two, abs_of_nonneg a1]
  rw [abs_of_nonneg a3] at h1
  have hx0 : 1 / 4 * x 0 + |1 / 4 * x 0| / 100 ≤ 77 / 100 := by
    rcases abs_cases (1 / 4 * x 0) with ⟨h, -⟩ | ⟨h, -⟩ <;> rw [h] <;> linarith
  generalize Real.log (50 * 2) = L at a1 a2 hl
  generalize hq : richProfit.logRevenue x + richProfit.magnitude x / 100 = q at *
  rcases le_or_gt (x 1) 0 with h3 | h3
  · have : |1 / 4 * x 1| = -(1 / 4 * x 1) := abs_of_nonpos (by linarith)
    rw [this] at hl
    linarith
  · have : |1 / 4 * x 1| = 1 / 4 * x 1 := abs_of_pos (by linarith)
    rw [this] at hl
    have hq1 : q ≤ 6 + 101 / 400 * x 1 := by linarith
    have h4 : Real.exp (x 1) ≤ 4 * max 1 (Real.exp q) := by
      refine le_trans ?_ h2
      have := Real.exp_pos (x 0)
      simp [outlay, richProfit]
      linarith
    have h5 : max 1 (Real.exp q) ≤ Real.exp (6 + 101 / 400 * x 1) := max_le (by rw [← Real.exp_zero]; exact Real.exp_le_exp.mpr (by linarith)) (Real.exp_le_exp.mpr hq1)
    have h6 : Real.exp (x 1) ≤ Real.exp (3 / 2 + (6 + 101 / 400 * x 1)) := by
      rw [Real.exp_add (3 / 2)]
      exact h4.trans (mul_le_mul exp_three_half h5 (by positivity) (Real.exp_pos _).le)
    have h7 := Real.exp_le_exp.mp h6
    linarith

theorem double_axes : floatIters 2 1 (1 / 2) ≤ 185 / 10 ∧ 0 ≤ floatIters 2 1 (1 / 2) ∧ 1 ≤ floatAxes 2 1 (1 / 2) ∧ floatAxes 2 1 (1 / 2) ≤ 546 / 10 := by
  have hT : floatIters 2 1 (1 / 2) ≤ 185 / 10 := by
    unfold floatIters
    have h1 : Real.log (2 * 1 / (1 / 2)) = 2 * Real.log 2 := by
      rw [show (2 : ℝ) * 1 / (1 / 2) = 2 ^ 2 by norm_num, Real.log_pow]; norm_num
    have h2 := Real.log_two_lt_d9
    rw [h1]
    push_cast
    linarith
  have hT0 : 0 ≤ floatIters 2 1 (1 / 2) := floatIters_nonneg (by norm_num) (by norm_num)
  refine ⟨hT, hT0, ?_, ?_⟩
  · unfold floatAxes
    rw [one_mul]
    exact Real.one_le_exp (div_nonneg (by linarith) (by norm_num))
  · unfold floatAxes
    have h1 : Real.exp (5 * (floatIters 2 1 (1 / 2) + 1) / (9 * (((2 : ℕ) : ℝ) ^ 2 - 1))) ≤ Real.exp 4 := by
      refine Real.exp_le_exp.mpr ?_
      rw [div_le_iff₀ (by norm_num)]
      push_cast
      linarith
    have h2 : Real.exp 4 = Real.exp 1 ^ 4 := by rw [← Real.exp_nat_mul]; norm_num
    have h3 : Real.exp 1 ^ 4 ≤ 2.7182818286 ^ 4 := pow_le_pow_left₀ (Real.exp_pos _).le Real.exp_one_lt_d9.le 4
    have h4 : (2.7182818286 : ℝ) ^ 4 ≤ 546 / 10 := by norm_num
    linarith

theorem rich_drop : profitDrop (2⁻¹ ^ 53) (Real.exp 9) ≤ 1 / 10 ^ 9 ∧ 0 ≤ profitDrop (2⁻¹ ^ 53) (Real.exp 9) := by
  refine ⟨?_, profitDrop_nonneg (by positivity) (by rw [← Real.exp_zero]; exact Real.exp_le_exp.mpr (by norm_num))⟩
  have e9 : Real.exp 9 = Real.exp 1 ^ 9 := by rw [← Real.exp_nat_mul]; norm_num
  have h3 : Real.exp 1 ^ 9 ≤ 2.7182818286 ^ 9 := pow_le_pow_left₀ (Real.exp_pos _).le Real.exp_one_lt_d9.le 9
  have h4 : (2.7182818286 : ℝ) ^ 9 ≤ 8200 := by norm_num
  unfold profitDrop
  rw [Real.log_exp]
  have h5 : Real.exp 9 ≤ 8200 := by linarith
  calc 9 * (2⁻¹ : ℝ) ^ 53 * (Real.exp 9 * (1 + 9)) ≤ 9 * (2⁻¹ : ℝ) ^ 53 * (8200 * (1 + 9)) := by gcongr
    _ ≤ _ := by norm_num

theorem rich_spare {y : Vec 2} (hy : y ∈ ball (![1 / 2, 0] : Vec 2) (1 / 2)) : richProfit.Spare 20 1 y := by
  have hb : (y 0 - 1 / 2) ^ 2 + y 1 ^ 2 ≤ 1 / 4 := by
    simp [ball, dotProduct, Fin.sum_univ_two] at hy
    nlinarith
  have h0 : 0 ≤ y 0 ∧ y 0 ≤ 1 := by constructor <;> nlinarith [sq_nonneg (y 1)]
  have h1 : -(1 / 2) ≤ y 1 ∧ y 1 ≤ 1 / 2 := by constructor <;> nlinarith [sq_nonneg (y 0 - 1 / 2)]
  have he := Real.exp_one_lt_d9
  have hg := Real.exp_one_gt_d9
  have e0 : Real.exp (y 0) ≤ Real.exp 1 := Real.exp_le_exp.mpr h0.2
  have e1 : Real.exp (y 1) ≤ 2 := by
    have h6 : Real.exp (y 1) ≤ Real.exp (1 / 2) := Real.exp_le_exp.mpr h1.2
    have h7 : Real.exp (1 / 2) ^ 2 = Real.exp 1 := by rw [← Real.exp_nat_mul]; norm_num
    nlinarith [Real.exp_pos (1 / 2 : ℝ)]
  have p0 := Real.exp_pos (y 0)
  have p1 := Real.exp_pos (y 1)
  constructor
  · simp only [quant, richProfit]
    nlinarith
  · have hr : 100 * (1 + (1 / 4 * y 0 + 1 / 4 * y 1)) ≤ Real.exp (richProfit.logRevenue y) := by
      have : Real.exp (richProfit.logRevenue y) = 100 * Real.exp (1 / 4 * y 0 + 1 / 4 * y 1) := by
        simp only [logRevenue, richProfit, dotProduct, Fin.sum_univ_two, cons_val_zero, cons_val_one]
        rw [Real.exp_add, Real.exp_log (by norm_num)]
        norm_num
      rw [this]
      have := Real.add_one_le_exp (1 / 4 * y 0 + 1 / 4 * y 1)
      linarith
    have ho : richProfit.outlay y = Real.exp (y 0) + Real.exp (y 1) := by simp [outlay, richProfit]
    rw [ho]
    nlinarith

/-- Doubles are sufficient for `richProfit`, the profit 20 and 2000 iterations from the unit disc and the value 1. -/
theorem rich_plan : ProfitPlan richProfit 53 1 (1 / 2) (1 / 2) 0 1 20 1 60 (Real.exp 9) 2000 ![0, 0] ![1 / 2, 0] := by
  obtain ⟨a1, a2, a3, a4⟩ := log_hundred
  obtain ⟨t1, t2, t3, t4⟩ := double_axes
  obtain ⟨d1, d2⟩ := rich_drop
  refine ⟨⟨?_, by norm_num, le_rfl, by norm_num, by norm_num, by norm_num, by norm_num, ?_, fun y hy => rich_spare hy, ?_, ?_, ?_, ?_, ?_, ?_, ?_, ?_⟩, by norm_num, by norm_num, half_disc.2, half_disc.1, (double_bits (by norm_num) le_rfl).2, by linarith, by linarith, by linarith⟩
  · exact ⟨by norm_num [richProfit], by norm_num [richProfit], fun i => by fin_cases i <;> norm_num [richProfit]⟩
  · change 1 ≤ 4 * (1 / 2 + floatAxes 2 1 (1 / 2))
    linarith
  · intro y hy
    change _ ≤ 1 / 2 + floatAxes 2 1 (1 / 2)
    have h1 := half_disc.1 hy
    have h2 : y ⬝ᵥ y ≤ 1 := by
      simp [ball, dotProduct, Fin.sum_univ_two] at h1 ⊢
      linarith
    have := Real.sqrt_le_sqrt h2
    rw [Real.sqrt_one] at this
    linarith
  · change 1 + |Real.log (50 * 2)| + (|(1 / 4 : ℝ)| + |(1 / 4 : ℝ)|) * (1 / 2 + floatAxes 2 1 (1 / 2)) ≤ 60
    rw [abs_of_nonneg a1, abs_of_nonneg (by norm_num : (0 : ℝ) ≤ 1 / 4)]
    generalize Real.log (50 * 2) = L at a1 a2 ⊢
    linarith
  · change |Real.log 10| + (1 / 2 + floatAxes 2 1 (1 / 2)) ≤ 60
    rw [abs_of_nonneg a3]
    linarith
  · change Real.exp (1 / 2 + floatAxes 2 1 (1 / 2) - 60) ≤ 1 + 1
    have : Real.exp (1 / 2 + floatAxes 2 1 (1 / 2) - 60) ≤ Real.exp 0 := Real.exp_le_exp.mpr (by linarith)
    rw [Real.exp_zero] at this
    linarith
  · change 20 + (1 + 1) * Real.exp (1 / 2 + floatAxes 2 1 (1 / 2)) ≤ Real.exp 60
    have h1 : Real.exp (1 / 2 + floatAxes 2 1 (1 / 2)) ≤ Real.exp 56 := Real.exp_le_exp.mpr (by linarith)
    have h2 : Real.exp 60 = Real.exp 56 * Real.exp 1 ^ 4 := by rw [← Real.exp_nat_mul, ← Real.exp_add]; norm_num
    have h3 : (2.7182818283 : ℝ) ^ 4 ≤ Real.exp 1 ^ 4 := pow_le_pow_left₀ (by norm_num) Real.exp_one_gt_d9.le 4
    have h4 : (22 : ℝ) ≤ 2.7182818283 ^ 4 := by norm_num
    have h5 : (1 : ℝ) ≤ Real.exp 56 := Real.one_le_exp (by norm_num)
    nlinarith
  · intro x h1 h2
    exact Real.exp_le_exp.mpr (rich_bounded x h1 h2)
  · exact Real.one_le_exp (by norm_num)
  · change (8 * 2⁻¹ ^ 53 + 8 * 0 * Real.exp 60) * (2 + 12 * (1 / 2 + floatAxes 2 1 (1 / 2))) + 12 * 2⁻¹ ^ 53 * 60 ≤ 1 / 2
    norm_num
    linarith

namespace Py

theorem desk_ieee (p : ℕ) (a v x : Vec 2) (N : ℕ) (tol : ℝ) : Desk (Arith.ieee p) (desk a v x N tol) 0 1 2 a v x (.ref 3) ⟨N, tol⟩ where
  elasticities := rfl
  prices := rfl
  point := rfl
  lta := show 0 < 4 by decide
  ltp := show 1 < 4 by decide
  ltx := show 2 < 4 by decide
  nea := by decide
  nep := by decide
  options := ⟨3, _, rfl, rfl, .inl rfl, .inl ⟨_, rfl, rfl⟩⟩
  optlt := by rintro k ⟨⟩; exact (show 3 < 4 by decide)

theorem rich_tol : 8 * (1 / 10 ^ 20 : ℝ) ≤ (1 / 2) ^ 2 * (1 ^ 2 / (32 * (1 / 2 + floatAxes 2 1 (1 / 2)) ^ 2)) := by
  obtain ⟨-, -, t3, t4⟩ := double_axes
  have h1 : (1 / 2 + floatAxes 2 1 (1 / 2)) ^ 2 ≤ (56 : ℝ) ^ 2 := pow_le_pow_left₀ (by linarith) (by linarith) 2
  have h2 : 1 ^ 2 / (32 * (56 : ℝ) ^ 2) ≤ 1 ^ 2 / (32 * (1 / 2 + floatAxes 2 1 (1 / 2)) ^ 2) := by gcongr
  have h3 : 8 * (1 / 10 ^ 20 : ℝ) ≤ (1 / 2) ^ 2 * (1 ^ 2 / (32 * (56 : ℝ) ^ 2)) := by norm_num
  linarith

/-- C120 in doubles: `richProfit` with the default options (2000 iterations, tolerance `1e-20`); a profit of 20 is reached, up to `2000 * 10⁻⁹`. -/
example (ext : ℕ → String → List Val → M Unit Val) : ∃ s0 s1,
    call (mach (Arith.ieee 53) ext) 3 (.glob "ProfitOracle") [.tuple [.num 50, .num 2, .num 10], .ref 0, .ref 1] (desk ![1 / 4, 1 / 4] ![1, 1] ![0, 0] 2000 (1 / 10 ^ 20)) = .ok (.ref 4) s0 ∧
      call (mach (Arith.ieee 53) ext) 3 (.glob "Ell") [.num (1 ^ 2), .ref 2] s0 = .ok (.ref s0.next) s1 ∧
      MaximisedFloat richProfit 53 20 (Real.exp 9) 2000 2 (call (mach (Arith.ieee 53) ext) 8 (.glob "cutting_plane_optim") [.ref 4, .ref s0.next, .num 1, .ref 3] s1) :=
  C120_text (fuel := 0) rich_plan (desk_ieee 53 ![1 / 4, 1 / 4] ![1, 1] ![0, 0] 2000 (1 / 10 ^ 20)) rfl rich_tol (double_bits (by norm_num) le_rfl).1 (by norm_num)

end Py

end Ellalgo
