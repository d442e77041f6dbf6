import Verif.Lemmas.RoundedProfitReport
import Verif.Props.RoundedNear
import Verif.Py.Refine.Profit

/-! # C120: the profit oracle in floating point -/

namespace Ellalgo

open Matrix Spec Spec.ProfitProblem CuttingPlane

variable {A : Arith} {u ν : ℝ} {P : ProfitProblem} {o : ProfitOracle} {τ δ γs B W X r : ℝ} {c : Vec 2}

/-- The answers of the oracle as the loops see them. -/
theorem profitOracle_cases (ho : Arith.ProfitGood u P o) (x : Vec 2) (γ : ℝ) : ∃ o', Arith.ProfitGood u P o' ∧
    ((0 < A.profitFn1 o x ∧ A.profitOracle o x γ = (o', .ok ((![1, 0], .scalar (A.profitFn1 o x)), none))) ∨
     (A.profitArg o x γ ≤ 0 ∧ A.profitOracle o x γ = (o', .error .mathDomain)) ∨
     (0 < A.profitArg o x γ ∧ 0 < A.profitVal2 o x γ ∧ A.profitOracle o x γ = (o', .ok ((A.profitDir o x γ, .scalar (A.profitVal2 o x γ)), none))) ∨
     (A.profitFn1 o x ≤ 0 ∧ 0 < A.profitArg o x γ ∧ A.profitVal2 o x γ ≤ 0 ∧
        ((A.profitArg o x (A.profitRep o x) = 0 ∧ A.profitOracle o x γ = (o', .error .zeroDivision)) ∨
         (A.profitArg o x (A.profitRep o x) ≠ 0 ∧ A.profitOracle o x γ = (o', .ok ((A.profitDir o x (A.profitRep o x), .scalar 0), some (A.profitRep o x))))))) := by
  obtain ⟨o', hg, h⟩ := Arith.profitOptim_cases (A := A) ho x γ
  refine ⟨o', hg, ?_⟩
  unfold Arith.profitOracle
  rcases h with ⟨h1, h2⟩ | ⟨h1, h2⟩ | ⟨h1, h2, h3⟩ | ⟨h1, h2, h3, ⟨h4, h5⟩ | ⟨h4, h5⟩⟩
  · exact .inl ⟨h1, by rw [h2]; rfl⟩
  · exact .inr (.inl ⟨h1, by rw [h2]; rfl⟩)
  · exact .inr (.inr (.inl ⟨h1, h2, by rw [h3]; rfl⟩))
  · exact .inr (.inr (.inr ⟨h1, h2, h3, .inl ⟨h4, by rw [h5]; rfl⟩⟩))
  · exact .inr (.inr (.inr ⟨h1, h2, h3, .inr ⟨h4, by rw [h5]; rfl⟩⟩))

theorem dir_length {v z : Vec 2} (hX : 0 < X) (hδ : 0 < δ) (hz : ∀ i, |z i| ≤ 2 * X) (h : v ⬝ᵥ z ≤ -(δ / 2)) : v ≠ 0 ∧ δ ^ 2 / (32 * X ^ 2) ≤ v ⬝ᵥ v := by
  have h0 := abs_le.mp (hz 0)
  have h1 := abs_le.mp (hz 1)
  have hz2 : z ⬝ᵥ z ≤ 8 * X ^ 2 := by
    rw [dotProduct, Fin.sum_univ_two]; nlinarith
  have hcs : (v ⬝ᵥ z) ^ 2 ≤ (v ⬝ᵥ v) * (z ⬝ᵥ z) := by
    simp only [dotProduct, Fin.sum_univ_two]
    nlinarith [sq_nonneg (v 0 * z 1 - v 1 * z 0)]
  have hvv : 0 ≤ v ⬝ᵥ v := by simp only [dotProduct, Fin.sum_univ_two]; nlinarith [sq_nonneg (v 0), sq_nonneg (v 1)]
  have h2 : (δ / 2) ^ 2 ≤ (v ⬝ᵥ v) * (8 * X ^ 2) := by nlinarith
  refine ⟨?_, ?_⟩
  · rintro rfl
    rw [zero_dotProduct] at h
    linarith
  · rw [div_le_iff₀ (by positivity)]; nlinarith

section

variable (hA : A.Accurate u ν 2) (hu : 0 ≤ u) (hν : ν ≤ 4 * u) (H : FloatProfit P u τ δ γs B W X c r) (ho : Arith.ProfitGood u P o)

include hA hu hν H ho

/-- The cut at a point where the second constraint is violated. -/
theorem profit_cut2 {x : Vec 2} (hx : Real.sqrt (x ⬝ᵥ x) ≤ X) {γ : ℝ} (hγ : -τ ≤ γ) (hγs : γ < γs) {y : Vec 2} (hy : y ∈ ball c r) : A.profitDir o x γ ⬝ᵥ (y - x) + A.profitVal2 o x γ ≤ -(δ / 2) := by
  have hτ := H.tau_nonneg
  have h1 := profit_dir_dot hA hu H ho hx (by linarith) hy (γ := γ)
  have h2 := (abs_le.mp (profit_val2 hA hu hν H ho hx (by linarith) hγs.le (γ := γ))).2
  have h3 := ProfitOracle.h2_grad H.proper (le_max_right γ 0) x y
  have h4 := (H.slack hy (le_max_right γ 0) (max_le hγs.le H.target)).2
  have := H.budget
  linarith

/-- The cut of the first constraint. -/
theorem profit_cut1 {x : Vec 2} (hx : Real.sqrt (x ⬝ᵥ x) ≤ X) {y : Vec 2} (hy : y ∈ ball c r) : (![1, 0] : Vec 2) ⬝ᵥ (y - x) + A.profitFn1 o x ≤ 0 := by
  have h1 := (abs_le.mp (profit_fn1 hA hu H.prec ho x)).2
  have h2 := (H.slack hy le_rfl H.target).1
  have h3 := (abs_coord_sqrt_le x 0).trans hx
  have h4 := H.logLimit
  have h5 : 3 * u * (|x 0| + |Real.log P.limit|) ≤ 3 * u * B := mul_le_mul_of_nonneg_left (by linarith) (by linarith)
  have h6 := H.budget
  have h7 := (H.kappa hu).1
  have h8 := mul_nonneg h7 (show 0 ≤ 2 + 12 * X by linarith [H.X_pos])
  have h9 := mul_nonneg hu (show 0 ≤ B by linarith [H.one_le_B])
  have h10 := H.spare_pos
  simp only [dotProduct, Fin.sum_univ_two, Pi.sub_apply, cons_val_zero, cons_val_one]
  linarith

/-- The cut at a point whose profit is reported. -/
theorem profit_cut3 {x : Vec 2} (hx : Real.sqrt (x ⬝ᵥ x) ≤ X) (hγ : -(2 * τ) ≤ A.profitRep o x) (hγs : A.profitRep o x < γs) {y : Vec 2} (hy : y ∈ ball c r) : A.profitDir o x (A.profitRep o x) ⬝ᵥ (y - x) ≤ -(δ / 2) := by
  have h1 := profit_dir_dot hA hu H ho hx hγ hy
  have h2 := profit_rep_low hA hu H.prec ho H.proper x
  have h3 := ProfitOracle.h2_grad H.proper (le_max_right (A.profitRep o x) 0) x y
  have h4 := (H.slack hy (le_max_right (A.profitRep o x) 0) (max_le hγs.le H.target)).2
  have h5 := (abs_le.mp (profit_logCobb hA hu H.prec hν H.proper ho x)).1
  have h6 : 6 * u * P.magnitude x ≤ 6 * u * B := mul_le_mul_of_nonneg_left (H.mag hx) (by linarith)
  have h7 : ProfitOracle.h2 P (max (A.profitRep o x) 0) x = Real.log (max (A.profitRep o x) 0 + P.outlay x) - P.logRevenue x := rfl
  have h8 := H.budget
  have h9 := mul_nonneg hu (show 0 ≤ B by linarith [H.one_le_B])
  have h10 := mul_nonneg H.tau_nonneg (Real.exp_pos B).le
  linarith

end

theorem profitDrop_nonneg (hu : 0 ≤ u) (hW : 1 ≤ W) : 0 ≤ profitDrop u W := by
  have := Real.log_nonneg hW
  unfold profitDrop
  positivity

/-- The profit oracle of the code in floating point. -/
theorem profit_nearLevel (hA : A.Accurate u ν 2) (hu : 0 ≤ u) (hν : ν ≤ 4 * u) (H : FloatProfit P u τ δ γs B W X c r) :
    NearLevelOracle (Arith.ProfitGood u P) (profitDrop u W - τ) (profitDrop u W) γs c r (δ ^ 2 / (32 * X ^ 2)) X A.profitOracle where
  inv o x γ ho := by
    obtain ⟨o', hg, h⟩ := profitOracle_cases (A := A) ho x γ
    rcases h with ⟨-, h⟩ | ⟨-, h⟩ | ⟨-, -, h⟩ | ⟨-, -, -, ⟨-, h⟩ | ⟨-, h⟩⟩ <;> rw [h] <;> exact hg
  total o x γ o'' f ho hx hγ hγs ha := by
    obtain ⟨o', hg, h⟩ := profitOracle_cases (A := A) ho x γ
    have hτ := H.tau_nonneg
    have hd := profitDrop_nonneg hu H.one_le
    have hγ0 : -τ ≤ γ := by linarith
    have hpos : ∀ g, 0 < max g 0 + P.outlay x := fun g => by linarith [outlay_pos H.proper x, le_max_right g 0]
    rcases h with ⟨-, h⟩ | ⟨h1, -⟩ | ⟨-, -, h⟩ | ⟨h1, h2, h3, ⟨h4, -⟩ | ⟨-, h⟩⟩
    · rw [h] at ha; simp at ha
    · exact absurd h1 (not_le.mpr ((profit_arg hA hu H ho hx (by linarith)).pos (hpos γ)))
    · rw [h] at ha; simp at ha
    · have hdr := profit_drop hA hu hν H ho hγ0 h1 h2 h3
      unfold profitDrop at hγ hd
      exact ((profit_arg hA hu H ho hx (γ := A.profitRep o x) (by linarith)).pos (hpos _)).ne' h4
    · rw [h] at ha; simp at ha
  cut o x γ o'' cut ho hx hγ hγs ha := by
    obtain ⟨o', hg, h⟩ := profitOracle_cases (A := A) ho x γ
    have hX := H.X_pos
    have hγ0 : -τ ≤ γ := by linarith [profitDrop_nonneg hu H.one_le]
    rcases h with ⟨h1, h⟩ | ⟨-, h⟩ | ⟨-, h1, h⟩ | ⟨-, -, -, ⟨-, h⟩ | ⟨-, h⟩⟩ <;> rw [h] at ha
    · simp only [Prod.mk.injEq, Except.ok.injEq, and_true] at ha
      obtain ⟨-, rfl⟩ := ha
      refine ⟨_, rfl, h1.le, fun y hy => profit_cut1 hA hu hν H ho hx hy, fun h0 => ?_, ?_⟩
      · have := congrFun h0 0; simp at this
      · have hle := H.spare_le
        have : (![1, 0] : Vec 2) ⬝ᵥ ![1, 0] = 1 := by simp [dotProduct]
        rw [this, div_le_one (by positivity)]
        nlinarith [H.spare_pos]
    · simp at ha
    · simp only [Prod.mk.injEq, Except.ok.injEq, and_true] at ha
      obtain ⟨-, rfl⟩ := ha
      have hk : ∀ y ∈ ball c r, _ := fun y hy => profit_cut2 hA hu hν H ho hx hγ0 hγs hy
      have hδ := H.spare_pos
      refine ⟨_, rfl, h1.le, fun y hy => (hk y hy).trans (by linarith), dir_length hX hδ (H.dist hx H.centre_mem) (by linarith [hk c H.centre_mem])⟩
    · simp at ha
    · simp at ha
  drop o x γ o'' cut γ1 ho hγ ha := by
    have hγ0 : -τ ≤ γ := by linarith [profitDrop_nonneg hu H.one_le]
    obtain ⟨o', hg, h⟩ := profitOracle_cases (A := A) ho x γ
    rcases h with ⟨h1, h⟩ | ⟨-, h⟩ | ⟨-, h1, h⟩ | ⟨h1, h2, h3, ⟨-, h⟩ | ⟨-, h⟩⟩ <;> rw [h] at ha
    · simp at ha
    · simp at ha
    · simp at ha
    · simp at ha
    · simp only [Prod.mk.injEq, Except.ok.injEq, Option.some.injEq] at ha
      rw [← ha.2.2]
      exact profit_drop hA hu hν H ho hγ0 h1 h2 h3
  value o x γ o'' cut γ1 ho hx hγ hγs hγ1 ha := by
    have hτ := H.tau_nonneg
    have hγ0 : -τ ≤ γ := by linarith [profitDrop_nonneg hu H.one_le]
    obtain ⟨o', hg, h⟩ := profitOracle_cases (A := A) ho x γ
    rcases h with ⟨h1, h⟩ | ⟨-, h⟩ | ⟨-, h1, h⟩ | ⟨h1, h2, h3, ⟨-, h⟩ | ⟨-, h⟩⟩ <;> rw [h] at ha
    · simp at ha
    · simp at ha
    · simp at ha
    · simp at ha
    · simp only [Prod.mk.injEq, Except.ok.injEq, Option.some.injEq] at ha
      obtain ⟨-, rfl, rfl⟩ := ha
      have hd := profit_drop hA hu hν H ho hγ0 h1 h2 h3
      unfold profitDrop at hγ
      have hk : ∀ y ∈ ball c r, _ := fun y hy => profit_cut3 hA hu hν H ho hx (by linarith) hγ1 hy
      have hδ := H.spare_pos
      exact ⟨_, rfl, fun y hy => (hk y hy).trans (by linarith), dir_length H.X_pos hδ (H.dist hx H.centre_mem) (hk c H.centre_mem)⟩

/-- What is reported. -/
theorem profit_reported (hA : A.Accurate u ν 2) (hu : 0 ≤ u) (hu2 : 2000 * u ≤ 1) (hν : ν ≤ 4 * u) (hP : P.Proper) (ho : Arith.ProfitGood u P o) {x : Vec 2} {γ : ℝ} {o'' : ProfitOracle} {cut : Cut 2} {γ1 : ℝ}
    (ha : A.profitOracle o x γ = (o'', .ok (cut, some γ1))) : NearProfit P u x γ1 := by
  obtain ⟨o', hg, h⟩ := profitOracle_cases (A := A) ho x γ
  rcases h with ⟨h1, h⟩ | ⟨-, h⟩ | ⟨-, h1, h⟩ | ⟨h1, h2, h3, ⟨-, h⟩ | ⟨-, h⟩⟩ <;> rw [h] at ha
  · simp at ha
  · simp at ha
  · simp at ha
  · simp at ha
  · simp only [Prod.mk.injEq, Except.ok.injEq, Option.some.injEq] at ha
    obtain ⟨-, -, rfl⟩ := ha
    obtain ⟨k1, k2⟩ := profit_rep_near hA hu hu2 hν ho hP x
    exact ⟨profit_limit hA hu hu2 ho h1, k1, k2⟩

theorem ieee_dot_le {p : ℕ} (h : 2000 * (2⁻¹ : ℝ) ^ p ≤ 1) : ((1 : ℝ) + 2⁻¹ ^ p) ^ (2 + 1) - 1 ≤ 4 * 2⁻¹ ^ p := by
  have h0 : (0 : ℝ) ≤ 2⁻¹ ^ p := by positivity
  generalize (2⁻¹ : ℝ) ^ p = u at *
  have h1 : u * u ≤ u / 2000 := by nlinarith
  have h2 : u * (u * u) ≤ u / 2000 := by nlinarith
  have h3 : (1 + u) ^ (2 + 1) - 1 = 3 * u + 3 * (u * u) + u * (u * u) := by ring
  linarith

section plan

variable {p : ℕ} {R D g0 N : ℝ} {x : Vec 2} (H : ProfitPlan P p R r D τ δ γs g0 B W N x c)

include H

/-- **C120.** `ProfitOracle(params, elasticities, price_out)`, `Ell(R ** 2, x)` and `cutting_plane_optim` from the value `g0`, on machine numbers with `p` bits. The designs of a ball of radius `r` inside the first ball have the profit `γs` with a factor `exp δ` to spare.
* A value of at least `γs` is reported after at most `(40/3) ln(2R/r)` completed iterations.
* With `max_iters` above this number and at most `N`, what is returned is a design `y` and a value `γ ≥ γs - N 9 2^-p W (1 + ln W)`, unless the call raises. The limit holds for `y` up to a factor, and `γ` is the profit of `y` with revenue and costs changed by factors close to 1. -/
theorem C120_profit {o : ProfitOracle} (ho : (Arith.ieee p).profitInit P.price P.scale P.limit P.alpha P.cost = .ok o) {e : Ell 2} (he : (Arith.ieee p).ellInit (.scalar (R ^ 2)) x = .ok e) (opts : Options ℝ)
    (htol : 8 * opts.tolerance ≤ r ^ 2 * (δ ^ 2 / (32 * (D + floatAxes 2 R r) ^ 2))) :
    (∃ l o1 e1, ∃ ev : OptimEvent (Vec 2) (Cut 2) ℝ, ∃ o2, OptimTrace (Arith.ieee p).profitOracle ((Arith.ieee p).space 2) ltReal opts.tolerance o e g0 l o1 e1 ∧
      (l.length : ℝ) ≤ floatIters 2 R r ∧ ev.x = e1.xc ∧ ev.gamma = (bestOf g0 l).2 ∧
      (Arith.ieee p).profitOracle o1 ev.x ev.gamma = (o2, .ok (ev.cut, ev.gamma1)) ∧ ∃ γ1, ev.gamma1 = some γ1 ∧ γs ≤ γ1 ∧ NearProfit P (2⁻¹ ^ p) ev.x γ1) ∧
    (floatIters 2 R r < opts.maxIters → (opts.maxIters : ℝ) ≤ N → ∀ o' e' xb γ k,
      optim (Arith.ieee p).profitOracle ((Arith.ieee p).space 2) ltReal o e g0 opts = (o', e', .ok (xb, γ, k)) →
      ∃ y, xb = some y ∧ γs - N * profitDrop (2⁻¹ ^ p) W ≤ γ ∧ NearProfit P (2⁻¹ ^ p) y γ) := by
  have hu0 : (0 : ℝ) ≤ 2⁻¹ ^ p := by positivity
  have hν := ieee_dot_le H.profit.prec
  have hA := Arith.ieee_accurate p 2
  have hd := profitDrop_nonneg hu0 H.profit.one_le
  have hω := profit_nearLevel hA hu0 hν H.profit
  obtain ⟨o2, h1, hgood⟩ := profitInit_good hA hu0 H.profit.prec H.profit.proper
  obtain rfl : o2 = o := by rw [h1] at ho; simpa using ho
  have hN : 0 ≤ N := by
    have := floatIters_nonneg H.inner_pos (radius_le (by norm_num) H.outer_pos H.start) (n := 2)
    linarith [H.iters]
  have hlt : g0 < γs := by linarith [H.below, mul_nonneg hN hd]
  obtain ⟨ε, ξ, a, Bu, ha⟩ := C106_bits le_rfl H.inner_pos (radius_le (by norm_num) H.outer_pos H.start) ((nrm_nonneg c).trans H.centre) H.bits
  obtain ⟨k1, k2⟩ := C120_optim hA hu0 (Arith.ieee_le_gamma p 2) le_rfl H.outer_pos H.inner_pos Bu H.centre (by positivity) hω hd le_rfl ha hgood H.start he hlt (N := N) (by linarith [H.first]) H.iters opts htol
  have hinv : ∀ {l o1 e1}, OptimTrace (Arith.ieee p).profitOracle ((Arith.ieee p).space 2) ltReal opts.tolerance o2 e g0 l o1 e1 → Arith.ProfitGood (2⁻¹ ^ p) P o1 := fun h => h.near_inv hω hgood
  refine ⟨?_, fun hmax hmaxN o' e' xb γ k hres => ?_⟩
  · obtain ⟨l, o1, e1, ev, o3, t1, t2, t3, t4, t5, γ1, t6, t7⟩ := k1
    refine ⟨l, o1, e1, ev, o3, t1, t2, t3, t4, t5, γ1, t6, t7, ?_⟩
    rw [t6] at t5
    exact profit_reported hA hu0 H.profit.prec hν H.profit.proper (hinv t1) t5
  · have hge := k2 hmax hmaxN o' e' xb γ k hres
    rcases optim_best_spec (P := fun y γ => NearProfit P (2⁻¹ ^ p) y γ) hω.inv (fun o y g o3 cut g1 ho ha => profit_reported hA hu0 H.profit.prec hν H.profit.proper ho ha) hgood hres with ⟨-, rfl⟩ | ⟨y, rfl, h5⟩
    · linarith [H.below]
    · exact ⟨y, rfl, hge, h5⟩

end plan

end Ellalgo
