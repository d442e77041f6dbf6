import Verif.Props.RoundedProfitRb
import Verif.Props.SourceRoundedProfit

/-! # C121: the robust profit maximisation in floating point, from the text -/

namespace Ellalgo

open Matrix Spec Spec.ProfitProblem CuttingPlane

namespace Py

variable {W' : Type} {st : St W'} {la lp lx : ℕ} {vopt : Val} {opts : Options ℝ} {ext : ℕ → String → List Val → M W' Val} {fuel : ℕ} {P : ProfitProblem} {e1 e2 e3 e4 e5 : ℝ} {p : ℕ} {R r D τ δ γs g0 B W N : ℝ} {x c : Vec 2}

/-- What `cutting_plane_optim` gives for a robust profit problem in floating point: an exception, or an array that is not the one of the centre with a design `y`, and a value `γ`, not below `γs` by more than the drop of `N` iterations; every scenario guarantees `γ` for `y` and
one attains it, up to factors close to 1. -/
def MaximisedRobust (P : ProfitProblem) (e1 e2 e3 e4 e5 : ℝ) (p : ℕ) (γs W N : ℝ) (lx : ℕ) (res : Res W' Val) : Prop :=
  (∃ f s2, res = .exc f s2) ∨
  ∃ s2 lb y vg γ k, res = .ok (.tuple [.ref lb, vg, .int (k : ℕ)]) s2 ∧ lb ≠ lx ∧ s2.heap lb = some (.vec 2 y) ∧ vg.toFloat (Arith.ieee p) = some γ ∧ γs - N * profitDrop (2⁻¹ ^ p) W ≤ γ ∧ NearRobust P e1 e2 e3 e4 e5 (2⁻¹ ^ p) y γ

/-- **C121.** The robust profit maximisation in floating point, from the text: `ProfitRbOracle((price, scale, limit), elasticities, price_out, (e1, e2, e3, e4, e5))`, `Ell(R ** 2, x)` and `cutting_plane_optim` from the value `g0`. -/
theorem C121_text (H : RobustPlan P e1 e2 e3 e4 e5 p R r D τ δ γs g0 B W N x c) (K : Desk (Arith.ieee p) st la lp lx P.alpha P.cost x vopt opts) {vg : Val} (hg : vg.toFloat (Arith.ieee p) = some g0)
    (htol : 8 * opts.tolerance ≤ r ^ 2 * (δ ^ 2 / (32 * (D + floatAxes 2 R r) ^ 2))) (hmax : floatIters 2 R r < opts.maxIters) (hN : (opts.maxIters : ℝ) ≤ N) :
    ∃ s0 s1, call (mach (Arith.ieee p) ext) (fuel + 3) (.glob "ProfitRbOracle") [.tuple [.num P.price, .num P.scale, .num P.limit], .ref la, .ref lp, .tuple [.num e1, .num e2, .num e3, .num e4, .num e5]] st = .ok (.ref st.next) s0 ∧
      call (mach (Arith.ieee p) ext) (fuel + 3) (.glob "Ell") [.num (R ^ 2), .ref lx] s0 = .ok (.ref s0.next) s1 ∧
      MaximisedRobust P e1 e2 e3 e4 e5 p γs W N lx (call (mach (Arith.ieee p) ext) (fuel + 8) (.glob "cutting_plane_optim") [.ref st.next, .ref s0.next, vg, vopt] s1) := by
  have H0 := H.plan 0 _ (worst_perturbed (Arith.ieee_accurate p 2) 0)
  obtain ⟨-, hb, hp2⟩ := bits_large (n := 2) le_rfl H0.inner_pos (radius_le (by norm_num) H0.outer_pos H0.start) ((nrm_nonneg c).trans H0.centre) H0.bits
  have hup : (2⁻¹ : ℝ) ^ p * 2 ^ p = 1 := by rw [← mul_pow]; norm_num
  have hu0 : (0 : ℝ) < 2⁻¹ ^ p := by positivity
  have hd2 : (Arith.ieee p).rnd 2 = 2 := by
    have := dimension_ieee (p := p) (n := 2) (by push_cast at hb ⊢; linarith)
    exact_mod_cast this
  obtain ⟨h, hh, -⟩ := Arith.core_facts (n := 2) (Arith.ieee_accurate p 2) hu0.le (by push_cast at hb ⊢; nlinarith) le_rfl
  obtain ⟨e, he⟩ : ∃ e, (Arith.ieee p).ellInit (.scalar (R ^ 2)) x = .ok e := ⟨_, by unfold Arith.ellInit; rw [hh]; rfl⟩
  obtain ⟨o, ho, -⟩ := robustInit_good H
  have h1 := C103_robust (ext := ext) (fuel := fuel) (literals_ieee hp2) hd2 K P.price P.scale P.limit e1 e2 e3 e4 e5 (.num (R ^ 2)) (show IsTarget (Arith.ieee p) g0 vg from hg)
  rw [ho] at h1
  obtain ⟨s0, k0, k1, -⟩ := h1
  obtain ⟨s1, k2, k3⟩ := k1 e he
  refine ⟨s0, s1, k0, k2, ?_⟩
  have hrun := (C121_robust H ho he opts htol).2 hmax hN
  rcases hres : optim (Arith.ieee p).profitRbOracle ((Arith.ieee p).space 2) ltReal o e g0 opts with ⟨o', e', f | ⟨xb, γ, k⟩⟩ <;> rw [hres] at k3 <;> obtain ⟨s2, -, k4⟩ := k3
  · exact .inl ⟨_, s2, k4⟩
  · obtain ⟨y, rfl, h5, h6⟩ := hrun _ _ _ _ _ hres
    obtain ⟨lb, vg', k5, k6, k7, k8⟩ := k4
    exact .inr ⟨s2, lb, y, vg', γ, k, k5, k7, k8, k6, h5, h6⟩

end Py

/-! ### The hypotheses can be met -/

/-- Problems close to `richProfit`. -/
structure RichBand (S : ProfitProblem) : Prop where
  rev_lo : 97 ≤ S.price * S.scale
  rev_hi : S.price * S.scale ≤ 100
  lim_lo : 9 ≤ S.limit
  lim_hi : S.limit ≤ 10
  alpha_lo : ∀ i, 23 / 100 ≤ S.alpha i
  alpha_hi : ∀ i, S.alpha i ≤ 27 / 100
  cost_lo : ∀ i, 1 ≤ S.cost i
  cost_hi : ∀ i, S.cost i ≤ 102 / 100

section band

variable {S : ProfitProblem} (h : RichBand S)

include h

theorem band_log : 0 ≤ Real.log (S.price * S.scale) ∧ Real.log (S.price * S.scale) ≤ 5 ∧ 0 ≤ Real.log S.limit ∧ Real.log S.limit ≤ 3 := by
  obtain ⟨-, a2, -, a4⟩ := log_hundred
  have h1 := h.rev_lo
  have h2 := h.lim_lo
  have h3 := Real.log_le_log (by linarith) (show S.price * S.scale ≤ 50 * 2 by linarith [h.rev_hi])
  have h4 := Real.log_le_log (by linarith) h.lim_hi
  exact ⟨Real.log_nonneg (by linarith), h3.trans a2, Real.log_nonneg (by linarith), h4.trans a4⟩

theorem band_bounded (x : Vec 2) (h1 : x 0 ≤ Real.log S.limit + |Real.log S.limit| / 100) (h2 : S.outlay x ≤ 4 * max 1 (Real.exp (S.logRevenue x + S.magnitude x / 100))) : S.logRevenue x + S.magnitude x / 100 ≤ 9 := by
  obtain ⟨a1, a2, a3, a4⟩ := band_log h
  have hl : S.logRevenue x + S.magnitude x / 100 = Real.log (S.price * S.scale) + (S.alpha 0 * x 0 + S.alpha 1 * x 1) + (1 + Real.log (S.price * S.scale) + |S.alpha 0 * x 0| + |S.alpha 1 * x 1|) / 100 := by
    simp [logRevenue, magnitude, dotProduct, Fin.sum_univ_two, abs_of_nonneg a1]
  rw [abs_of_nonneg a3] at h1
  have l0 := h.alpha_lo 0
  have l1 := h.alpha_lo 1
  have u0 := h.alpha_hi 0
  have u1 := h.alpha_hi 1
  have hx0 : S.alpha 0 * x 0 + |S.alpha 0 * x 0| / 100 ≤ 83 / 100 := by
    rcases le_or_gt (x 0) 0 with h0 | h0
    · have := mul_nonpos_of_nonneg_of_nonpos (show 0 ≤ S.alpha 0 by linarith) h0
      rw [abs_of_nonpos this]; linarith
    · have k : S.alpha 0 * x 0 ≤ 27 / 100 * x 0 := mul_le_mul_of_nonneg_right u0 h0.le
      rw [abs_of_nonneg (mul_nonneg (show 0 ≤ S.alpha 0 by linarith) h0.le)]; linarith
  generalize Real.log (S.price * S.scale) = L at a1 a2 hl
  generalize hq : S.logRevenue x + S.magnitude x / 100 = q at *
  rcases le_or_gt (x 1) 0 with h3 | h3
  · have := mul_nonpos_of_nonneg_of_nonpos (show 0 ≤ S.alpha 1 by linarith) h3
    rw [abs_of_nonpos this] at hl
    linarith
  · have k : S.alpha 1 * x 1 ≤ 27 / 100 * x 1 := mul_le_mul_of_nonneg_right u1 h3.le
    rw [abs_of_nonneg (mul_nonneg (show 0 ≤ S.alpha 1 by linarith) h3.le)] at hl
    have hq1 : q ≤ 59 / 10 + 273 / 1000 * x 1 := by linarith
    have h4 : Real.exp (x 1) ≤ 4 * max 1 (Real.exp q) := by
      refine le_trans ?_ h2
      have p0 := Real.exp_pos (x 0)
      have p1 := Real.exp_pos (x 1)
      have c0 := h.cost_lo 0
      have c1 := h.cost_lo 1
      unfold outlay
      nlinarith
    have h5 : max 1 (Real.exp q) ≤ Real.exp (59 / 10 + 273 / 1000 * x 1) := max_le (Real.one_le_exp (by linarith)) (Real.exp_le_exp.mpr hq1)
    have h6 : Real.exp (x 1) ≤ Real.exp (3 / 2 + (59 / 10 + 273 / 1000 * x 1)) := by
      rw [Real.exp_add (3 / 2)]
      exact h4.trans (mul_le_mul exp_three_half h5 (by positivity) (Real.exp_pos _).le)
    have h7 := Real.exp_le_exp.mp h6
    linarith

theorem band_spare {y : Vec 2} (hy : y ∈ ball (![1 / 2, 0] : Vec 2) (1 / 2)) : S.Spare 20 1 y := by
  have hb : (y 0 - 1 / 2) ^ 2 + y 1 ^ 2 ≤ 1 / 4 := by
    simp [ball, dotProduct, Fin.sum_univ_two] at hy
    nlinarith
  have h0 : 0 ≤ y 0 ∧ y 0 ≤ 1 := by constructor <;> nlinarith [sq_nonneg (y 1)]
  have h1 : -(1 / 2) ≤ y 1 ∧ y 1 ≤ 1 / 2 := by constructor <;> nlinarith [sq_nonneg (y 0 - 1 / 2)]
  have he := Real.exp_one_lt_d9
  have hg := Real.exp_one_gt_d9
  have e0 : Real.exp (y 0) ≤ Real.exp 1 := Real.exp_le_exp.mpr h0.2
  have e1 : Real.exp (y 1) ≤ 2 := by
    have h6 : Real.exp (y 1) ≤ Real.exp (1 / 2) := Real.exp_le_exp.mpr h1.2
    have h7 : Real.exp (1 / 2) ^ 2 = Real.exp 1 := by rw [← Real.exp_nat_mul]; norm_num
    nlinarith [Real.exp_pos (1 / 2 : ℝ)]
  have p0 := Real.exp_pos (y 0)
  have p1 := Real.exp_pos (y 1)
  constructor
  · simp only [quant]
    nlinarith [h.lim_lo]
  · have l0 := h.alpha_lo 0
    have u1 := h.alpha_hi 1
    have l1 := h.alpha_lo 1
    have m0 : 0 ≤ S.alpha 0 * y 0 := mul_nonneg (by linarith) h0.1
    have m1 : -(135 / 1000) ≤ S.alpha 1 * y 1 := by nlinarith [h1.1]
    have hr : 83 ≤ Real.exp (S.logRevenue y) := by
      have : Real.exp (S.logRevenue y) = S.price * S.scale * Real.exp (S.alpha 0 * y 0 + S.alpha 1 * y 1) := by
        simp only [logRevenue, dotProduct, Fin.sum_univ_two]
        rw [Real.exp_add, Real.exp_log (by linarith [h.rev_lo])]
      rw [this]
      have k := Real.add_one_le_exp (S.alpha 0 * y 0 + S.alpha 1 * y 1)
      nlinarith [h.rev_lo]
    have ho : S.outlay y ≤ 102 / 100 * (Real.exp (y 0) + Real.exp (y 1)) := by
      have c0 := mul_le_mul_of_nonneg_right (h.cost_hi 0) p0.le
      have c1 := mul_le_mul_of_nonneg_right (h.cost_hi 1) p1.le
      unfold outlay
      linarith
    have ho2 : 20 + S.outlay y ≤ 25 := by linarith
    nlinarith

/-- Doubles are sufficient for all these problems. -/
theorem band_plan : ProfitPlan S 53 1 (1 / 2) (1 / 2) 0 1 20 1 60 (Real.exp 9) 2000 ![0, 0] ![1 / 2, 0] := by
  obtain ⟨a1, a2, a3, a4⟩ := band_log h
  obtain ⟨t1, t2, t3, t4⟩ := double_axes
  obtain ⟨d1, d2⟩ := rich_drop
  have c0 := h.cost_lo 0
  have c1 := h.cost_lo 1
  have b0 := h.cost_hi 0
  have b1 := h.cost_hi 1
  refine ⟨⟨?_, by norm_num, le_rfl, by norm_num, by norm_num, by norm_num, by norm_num, ?_, fun y hy => band_spare h hy, ?_, ?_, ?_, ?_, ?_, ?_, ?_, ?_⟩, by norm_num, by norm_num, half_disc.2, half_disc.1, (double_bits (by norm_num) le_rfl).2, by linarith, by linarith, by linarith⟩
  · exact ⟨by linarith [h.rev_lo], by linarith [h.lim_lo], fun i => by linarith [h.cost_lo i]⟩
  · change 1 ≤ 4 * (1 / 2 + floatAxes 2 1 (1 / 2))
    linarith
  · intro y hy
    change _ ≤ 1 / 2 + floatAxes 2 1 (1 / 2)
    have h1 := half_disc.1 hy
    have h2 : y ⬝ᵥ y ≤ 1 := by
      simp [ball, dotProduct, Fin.sum_univ_two] at h1 ⊢
      linarith
    have := Real.sqrt_le_sqrt h2
    rw [Real.sqrt_one] at this
    linarith
  · change 1 + |Real.log (S.price * S.scale)| + (|S.alpha 0| + |S.alpha 1|) * (1 / 2 + floatAxes 2 1 (1 / 2)) ≤ 60
    have k0 := h.alpha_lo 0
    have k1 := h.alpha_lo 1
    have k2 := h.alpha_hi 0
    have k3 := h.alpha_hi 1
    rw [abs_of_nonneg a1, abs_of_nonneg (show 0 ≤ S.alpha 0 by linarith), abs_of_nonneg (show 0 ≤ S.alpha 1 by linarith)]
    have : (S.alpha 0 + S.alpha 1) * (1 / 2 + floatAxes 2 1 (1 / 2)) ≤ 54 / 100 * 56 := mul_le_mul (by linarith) (by linarith) (by linarith) (by norm_num)
    linarith
  · change |Real.log S.limit| + (1 / 2 + floatAxes 2 1 (1 / 2)) ≤ 60
    rw [abs_of_nonneg a3]
    linarith
  · change Real.exp (1 / 2 + floatAxes 2 1 (1 / 2) - 60) ≤ S.cost 0 + S.cost 1
    have : Real.exp (1 / 2 + floatAxes 2 1 (1 / 2) - 60) ≤ Real.exp 0 := Real.exp_le_exp.mpr (by linarith)
    rw [Real.exp_zero] at this
    linarith
  · change 20 + (S.cost 0 + S.cost 1) * Real.exp (1 / 2 + floatAxes 2 1 (1 / 2)) ≤ Real.exp 60
    have h1 : Real.exp (1 / 2 + floatAxes 2 1 (1 / 2)) ≤ Real.exp 56 := Real.exp_le_exp.mpr (by linarith)
    have h2 : Real.exp 60 = Real.exp 56 * Real.exp 1 ^ 4 := by rw [← Real.exp_nat_mul, ← Real.exp_add]; norm_num
    have h3 : (2.7182818283 : ℝ) ^ 4 ≤ Real.exp 1 ^ 4 := pow_le_pow_left₀ (by norm_num) Real.exp_one_gt_d9.le 4
    have h4 : (23 : ℝ) ≤ 2.7182818283 ^ 4 := by norm_num
    have h5 : (1 : ℝ) ≤ Real.exp 56 := Real.one_le_exp (by norm_num)
    have h6 : (S.cost 0 + S.cost 1) * Real.exp (1 / 2 + floatAxes 2 1 (1 / 2)) ≤ 3 * Real.exp 56 := mul_le_mul (by linarith) h1 (Real.exp_pos _).le (by norm_num)
    nlinarith
  · intro x h1 h2
    exact Real.exp_le_exp.mpr (band_bounded h x h1 h2)
  · exact Real.one_le_exp (by norm_num)
  · change (8 * 2⁻¹ ^ 53 + 8 * 0 * Real.exp 60) * (2 + 12 * (1 / 2 + floatAxes 2 1 (1 / 2))) + 12 * 2⁻¹ ^ 53 * 60 ≤ 1 / 2
    norm_num
    linarith

end band

theorem rich_band {y : Vec 2} {S : ProfitProblem} (h : (richProfit.worst (1 / 100) (1 / 100) 1 (1 / 10) (1 / 100) y).Perturbed (2⁻¹ ^ 53) S) : RichBand S := by
  have hu : (2⁻¹ : ℝ) ^ 53 ≤ 1 / 10 ^ 6 := by norm_num
  have hu0 : (0 : ℝ) ≤ 2⁻¹ ^ 53 := by positivity
  obtain ⟨h1, h2, h3, h4, h5⟩ := h
  generalize (2⁻¹ : ℝ) ^ 53 = u at *
  have ha : ∀ i, 24 / 100 ≤ (richProfit.worst (1 / 100) (1 / 100) 1 (1 / 10) (1 / 100) y).alpha i ∧ (richProfit.worst (1 / 100) (1 / 100) 1 (1 / 10) (1 / 100) y).alpha i ≤ 26 / 100 := by
    intro i
    fin_cases i <;> simp [worst, worstAlpha, richProfit] <;> split_ifs <;> norm_num
  have hc : ∀ i, (richProfit.worst (1 / 100) (1 / 100) 1 (1 / 10) (1 / 100) y).cost i = 101 / 100 := by
    intro i
    fin_cases i <;> simp [worst, richProfit] <;> norm_num
  have hp : (richProfit.worst (1 / 100) (1 / 100) 1 (1 / 10) (1 / 100) y).price = 49 := by norm_num [worst, richProfit]
  have hs : (richProfit.worst (1 / 100) (1 / 100) 1 (1 / 10) (1 / 100) y).scale = 2 := rfl
  have hl : (richProfit.worst (1 / 100) (1 / 100) 1 (1 / 10) (1 / 100) y).limit = 99 / 10 := by norm_num [worst, richProfit]
  rw [hp, abs_of_pos (by norm_num : (0 : ℝ) < 49)] at h1
  rw [hs] at h2
  rw [hl, abs_of_pos (by norm_num : (0 : ℝ) < 99 / 10)] at h3
  have k1 := abs_le.mp h1
  have k3 := abs_le.mp h3
  have k4 : ∀ i, 23 / 100 ≤ S.alpha i ∧ S.alpha i ≤ 27 / 100 := by
    intro i
    obtain ⟨j1, j2⟩ := ha i
    have j3 := h4 i
    rw [abs_of_nonneg (show 0 ≤ (richProfit.worst (1 / 100) (1 / 100) 1 (1 / 10) (1 / 100) y).alpha i by linarith)] at j3
    have j4 := abs_le.mp j3
    constructor <;> nlinarith
  have k5 : ∀ i, 1 ≤ S.cost i ∧ S.cost i ≤ 102 / 100 := by
    intro i
    have j3 := h5 i
    rw [hc i, abs_of_pos (by norm_num : (0 : ℝ) < 101 / 100)] at j3
    have j4 := abs_le.mp j3
    constructor <;> linarith
  exact ⟨by rw [h2]; linarith, by rw [h2]; linarith, by linarith, by linarith, fun i => (k4 i).1, fun i => (k4 i).2, fun i => (k5 i).1, fun i => (k5 i).2⟩

/-- Doubles are sufficient for `richProfit` with elasticities and input prices within 0.01, price within 1 and limit within 0.1. -/
theorem rich_robust : RobustPlan richProfit (1 / 100) (1 / 100) 1 (1 / 10) (1 / 100) 53 1 (1 / 2) (1 / 2) 0 1 20 1 60 (Real.exp 9) 2000 ![0, 0] ![1 / 2, 0] where
  tol1 := by norm_num
  tol2 := by norm_num
  tol3 := by norm_num
  tol4 := by norm_num
  tol5 := by norm_num
  price := by norm_num [richProfit]
  scale := by norm_num [richProfit]
  limit := by norm_num [richProfit]
  cost i := by fin_cases i <;> norm_num [richProfit]
  plan _ _ h := band_plan (rich_band h)

namespace Py

/-- C121 in doubles, with the default options. -/
example (ext : ℕ → String → List Val → M Unit Val) : ∃ s0 s1,
    call (mach (Arith.ieee 53) ext) 3 (.glob "ProfitRbOracle") [.tuple [.num 50, .num 2, .num 10], .ref 0, .ref 1, .tuple [.num (1 / 100), .num (1 / 100), .num 1, .num (1 / 10), .num (1 / 100)]] (desk ![1 / 4, 1 / 4] ![1, 1] ![0, 0] 2000 (1 / 10 ^ 20)) = .ok (.ref 4) s0 ∧
      call (mach (Arith.ieee 53) ext) 3 (.glob "Ell") [.num (1 ^ 2), .ref 2] s0 = .ok (.ref s0.next) s1 ∧
      MaximisedRobust richProfit (1 / 100) (1 / 100) 1 (1 / 10) (1 / 100) 53 20 (Real.exp 9) 2000 2 (call (mach (Arith.ieee 53) ext) 8 (.glob "cutting_plane_optim") [.ref 4, .ref s0.next, .num 1, .ref 3] s1) :=
  C121_text (fuel := 0) rich_robust (desk_ieee 53 ![1 / 4, 1 / 4] ![1, 1] ![0, 0] 2000 (1 / 10 ^ 20)) rfl rich_tol (double_bits (by norm_num) le_rfl).1 (by norm_num)

end Py

end Ellalgo
