import Verif.Model.Profit
import Verif.Spec.Profit
import Mathlib.Tactic.Linarith
import Mathlib.Tactic.Ring
import Mathlib.Tactic.FieldSimp
import Mathlib.Tactic.Positivity
import Mathlib.Tactic.LinearCombination
import Mathlib.Data.Fin.VecNotation

/-! # The profit oracle: convexity in log-space and the round-robin loop -/

namespace Ellalgo

open Matrix Spec Spec.ProfitProblem

/-- The gradient inequality of `log(γ + v₁ e^{x₁} + v₂ e^{x₂})` for `γ ≥ 0`. -/
theorem log_sum_exp_grad {γ v0 v1 : ℝ} (hγ : 0 ≤ γ) (h0 : 0 < v0) (h1 : 0 < v1) (x y : Vec 2) :
    Real.log (γ + (v0 * Real.exp (x 0) + v1 * Real.exp (x 1))) +
      (v0 * Real.exp (x 0) / (γ + (v0 * Real.exp (x 0) + v1 * Real.exp (x 1))) * (y 0 - x 0) +
       v1 * Real.exp (x 1) / (γ + (v0 * Real.exp (x 0) + v1 * Real.exp (x 1))) * (y 1 - x 1)) ≤
    Real.log (γ + (v0 * Real.exp (y 0) + v1 * Real.exp (y 1))) := by
  set q0 := v0 * Real.exp (x 0) with hq0
  set q1 := v1 * Real.exp (x 1) with hq1
  have p0 : 0 < q0 := mul_pos h0 (Real.exp_pos _)
  have p1 : 0 < q1 := mul_pos h1 (Real.exp_pos _)
  set D := γ + (q0 + q1) with hD
  have pD : 0 < D := by positivity
  set s := q0 / D * (y 0 - x 0) + q1 / D * (y 1 - x 1) with hs
  have e0 : v0 * Real.exp (y 0) = q0 * Real.exp (y 0 - x 0) := by
    rw [hq0, mul_assoc, ← Real.exp_add]; ring_nf
  have e1 : v1 * Real.exp (y 1) = q1 * Real.exp (y 1 - x 1) := by
    rw [hq1, mul_assoc, ← Real.exp_add]; ring_nf
  have key : D * Real.exp s ≤ γ + (v0 * Real.exp (y 0) + v1 * Real.exp (y 1)) := by
    rw [e0, e1]
    have a0 := Real.add_one_le_exp (y 0 - x 0 - s)
    have a1 := Real.add_one_le_exp (y 1 - x 1 - s)
    have a2 := Real.add_one_le_exp (-s)
    have b : D ≤ γ * Real.exp (-s) + (q0 * Real.exp (y 0 - x 0 - s) + q1 * Real.exp (y 1 - x 1 - s)) := by
      have c0 := mul_le_mul_of_nonneg_left a0 p0.le
      have c1 := mul_le_mul_of_nonneg_left a1 p1.le
      have c2 := mul_le_mul_of_nonneg_left a2 hγ
      have hsD : s * D = q0 * (y 0 - x 0) + q1 * (y 1 - x 1) := by
        rw [hs]; field_simp
      nlinarith
    have hes := Real.exp_pos s
    have := mul_le_mul_of_nonneg_right b hes.le
    refine this.trans (le_of_eq ?_)
    have t : ∀ u, Real.exp (u - s) * Real.exp s = Real.exp u := fun u => by rw [← Real.exp_add]; ring_nf
    have t0 : Real.exp (-s) * Real.exp s = 1 := by rw [← Real.exp_add]; simp
    linear_combination γ * t0 + q0 * t (y 0 - x 0) + q1 * t (y 1 - x 1)
  calc Real.log D + s = Real.log (D * Real.exp s) := by
        rw [Real.log_mul pD.ne' (Real.exp_pos _).ne', Real.log_exp]
    _ ≤ _ := Real.log_le_log (by positivity) key

namespace ProfitOracle

/-- The object belongs to the problem `P`, and its index is one it can have. -/
structure Good (P : ProfitProblem) (o : ProfitOracle) : Prop where
  logPA : o.logPA = Real.log (P.price * P.scale)
  logK : o.logK = Real.log P.limit
  priceOut : o.priceOut = P.cost
  elasticities : o.elasticities = P.alpha
  idx : o.idx = -1 ∨ o.idx = 0 ∨ o.idx = 1

/-- The two constraint functions. -/
noncomputable def h2 (P : ProfitProblem) (γ : ℝ) (x : Vec 2) : ℝ :=
  Real.log (γ + (P.cost 0 * Real.exp (x 0) + P.cost 1 * Real.exp (x 1))) -
    (Real.log (P.price * P.scale) + P.alpha ⬝ᵥ x)

/-- The gradient of the second one. -/
noncomputable def g2 (P : ProfitProblem) (γ : ℝ) (x : Vec 2) : Vec 2 := fun i =>
  P.cost i * Real.exp (x i) / (γ + (P.cost 0 * Real.exp (x 0) + P.cost 1 * Real.exp (x 1))) - P.alpha i

theorem cost_pos {P : ProfitProblem} (hP : P.Proper) {γ : ℝ} (hγ : 0 ≤ γ) (x : Vec 2) :
    0 < γ + (P.cost 0 * Real.exp (x 0) + P.cost 1 * Real.exp (x 1)) := by
  have := mul_pos (hP.cost 0) (Real.exp_pos (x 0))
  have := mul_pos (hP.cost 1) (Real.exp_pos (x 1))
  linarith

theorem h2_grad {P : ProfitProblem} (hP : P.Proper) {γ : ℝ} (hγ : 0 ≤ γ) (x y : Vec 2) :
    h2 P γ x + g2 P γ x ⬝ᵥ (y - x) ≤ h2 P γ y := by
  have := log_sum_exp_grad hγ (hP.cost 0) (hP.cost 1) x y
  simp only [h2, g2, dotProduct, Fin.sum_univ_two, Pi.sub_apply]
  linarith

theorem profit_eq {P : ProfitProblem} (hP : P.Proper) (x : Vec 2) :
    P.profit (quant x) = Real.exp (Real.log (P.price * P.scale) + P.alpha ⬝ᵥ x) -
      (P.cost 0 * Real.exp (x 0) + P.cost 1 * Real.exp (x 1)) := by
  simp only [profit, quant, Real.exp_add, Real.exp_log hP.rev, dotProduct, Fin.sum_univ_two, ← Real.exp_mul]
  rw [mul_comm (x 0), mul_comm (x 1)]
  ring

/-- The level sets are described by the two functions. -/
theorem mem_level_iff {P : ProfitProblem} (hP : P.Proper) {γ : ℝ} (hγ : 0 ≤ γ) (x : Vec 2) :
    x ∈ P.Level γ ↔ x 0 - Real.log P.limit ≤ 0 ∧ h2 P γ x ≤ 0 := by
  have h := cost_pos hP hγ x
  simp only [Level, Set.mem_ofPred_eq, profit_eq hP]
  refine and_congr ?_ ?_
  · rw [sub_nonpos, Real.le_log_iff_exp_le hP.limit]; rfl
  · rw [h2, sub_nonpos, Real.log_le_iff_le_exp h]
    constructor <;> intro <;> linarith

theorem eval_vy {P : ProfitProblem} {o : ProfitOracle} (ho : Good P o) (x : Vec 2) :
    (o.eval x).vy = P.cost 0 * Real.exp (x 0) + P.cost 1 * Real.exp (x 1) := by
  simp [eval, ho.priceOut]

theorem Good.next {P : ProfitProblem} {o : ProfitOracle} (ho : Good P o) {i : ℤ} (hi : i = 0 ∨ i = 1) (e : Option ProfitEval) :
    Good P { o with idx := i, last := e } :=
  ⟨ho.logPA, ho.logK, ho.priceOut, ho.elasticities, .inr hi⟩

theorem step1 {P : ProfitProblem} {o : ProfitOracle} (ho : Good P o) (hi : o.idx = -1 ∨ o.idx = 1) (x : Vec 2) (γ : ℝ)
    (fuel : ℕ) :
    feasLoop x γ (fuel + 1) o =
      if x 0 - Real.log P.limit > 0 then ({ o with idx := 0 }, .ok (some (![1, 0], x 0 - Real.log P.limit)))
      else feasLoop x γ fuel { o with idx := 0 } := by
  have h0 : (if o.idx + 1 = 2 then 0 else o.idx + 1) = 0 := by rcases hi with h | h <;> rw [h] <;> rfl
  rw [feasLoop]
  simp only [h0]
  rw [← ho.logK]
  simp only [fns, if_true, fn1]
  split_ifs
  · simp [grads, grad1, Except.map]
  · rfl

theorem step2 {P : ProfitProblem} (hP : P.Proper) {o : ProfitOracle} (ho : Good P o) (hi : o.idx = 0) (x : Vec 2) {γ : ℝ}
    (hγ : 0 ≤ γ) (fuel : ℕ) :
    feasLoop x γ (fuel + 1) o =
      if h2 P γ x > 0 then ({ o with idx := 1, last := some (o.eval x) }, .ok (some (g2 P γ x, h2 P γ x)))
      else feasLoop x γ fuel { o with idx := 1, last := some (o.eval x) } := by
  have hpos := cost_pos hP hγ x
  have h0 : (if o.idx + 1 = 2 then 0 else o.idx + 1) = 1 := by rw [hi]; rfl
  have hvy : ({ o with idx := 1 } : ProfitOracle).eval x = o.eval x := rfl
  have hlog : plog (γ + (o.eval x).vy) = .ok (Real.log (γ + (P.cost 0 * Real.exp (x 0) + P.cost 1 * Real.exp (x 1)))) := by
    rw [plog, eval_vy ho, if_neg (not_le.mpr hpos)]
  have hcobb : (o.eval x).logCobb = Real.log (P.price * P.scale) + P.alpha ⬝ᵥ x := by
    simp [eval, ho.logPA, ho.elasticities]
  rw [feasLoop]
  simp only [h0]
  have hf : ({ o with idx := 1 } : ProfitOracle).fns x γ = ({ o with idx := 1, last := some (o.eval x) }, .ok (h2 P γ x)) := by
    simp only [fns, one_ne_zero, if_false, if_true, fn2, hvy, hlog, hcobb, Except.map, h2]
  rw [hf]
  simp only
  split_ifs with h
  · have hg : ({ o with idx := 1, last := some (o.eval x) } : ProfitOracle).grads γ = .ok (g2 P γ x) := by
      simp only [grads, one_ne_zero, if_false, if_true, grad2]
      rw [eval_vy ho, if_neg hpos.ne']
      congr 1
      funext i
      simp [g2, eval, ho.priceOut, ho.elasticities]
    rw [hg]; rfl
  · rfl

/-- `assess_feas`, for every state of the round-robin index. -/
theorem assessFeas_spec {P : ProfitProblem} (hP : P.Proper) {o : ProfitOracle} (ho : Good P o) (x : Vec 2) {γ : ℝ}
    (hγ : 0 ≤ γ) :
    ∃ o', Good P o' ∧
      ((o.assessFeas x γ = (o', .ok none) ∧ x ∈ P.Level γ ∧ o'.last = some (o.eval x)) ∨
       (o.assessFeas x γ = (o', .ok (some (![1, 0], x 0 - Real.log P.limit))) ∧ 0 < x 0 - Real.log P.limit) ∨
       (o.assessFeas x γ = (o', .ok (some (g2 P γ x, h2 P γ x))) ∧ 0 < h2 P γ x)) := by
  unfold assessFeas
  have hsplit : (o.idx = -1 ∨ o.idx = 1) ∨ o.idx = 0 := by rcases ho.idx with h | h | h <;> simp [h]
  rcases hsplit with hi | hi
  · have g1 : Good P { o with idx := 0 } := ho.next (.inl rfl) o.last
    have g3 := ho.next (i := 1) (.inr rfl) (some (o.eval x))
    rw [step1 ho hi, step2 hP g1 rfl x hγ]
    split_ifs with c1 c2
    · exact ⟨_, g1, .inr (.inl ⟨rfl, c1⟩)⟩
    · exact ⟨_, g3, .inr (.inr ⟨rfl, c2⟩)⟩
    · exact ⟨_, g3, .inl ⟨rfl, (mem_level_iff hP hγ x).mpr ⟨not_lt.mp c1, not_lt.mp c2⟩, rfl⟩⟩
  · have g1 := ho.next (i := 1) (.inr rfl) (some (o.eval x))
    have g3 := ho.next (i := 0) (.inl rfl) (some (o.eval x))
    rw [step2 hP ho hi x hγ, step1 g1 (.inr rfl)]
    split_ifs with c1 c2
    · exact ⟨_, g1, .inr (.inr ⟨rfl, c1⟩)⟩
    · exact ⟨_, g3, .inr (.inl ⟨rfl, c2⟩)⟩
    · exact ⟨_, g3, .inl ⟨rfl, (mem_level_iff hP hγ x).mpr ⟨not_lt.mp c2, not_lt.mp c1⟩, rfl⟩⟩

/-- Both cuts are violated at the point and hold on the level set. -/
theorem cut_valid {P : ProfitProblem} (hP : P.Proper) (x : Vec 2) {γ : ℝ} (hγ : 0 ≤ γ) {y : Vec 2} (hy : y ∈ P.Level γ) :
    (![1, 0] : Vec 2) ⬝ᵥ (y - x) + (x 0 - Real.log P.limit) ≤ 0 ∧ g2 P γ x ⬝ᵥ (y - x) + h2 P γ x ≤ 0 := by
  obtain ⟨a, b⟩ := (mem_level_iff hP hγ y).mp hy
  constructor
  · simp [dotProduct, Fin.sum_univ_two]; linarith
  · linarith [h2_grad hP hγ x y]

/-- `assess_optim`, for every state of the object. -/
theorem assessOptim_spec {P : ProfitProblem} (hP : P.Proper) {o : ProfitOracle} (ho : Good P o) (x : Vec 2) {γ : ℝ}
    (hγ : 0 ≤ γ) :
    ∃ o', Good P o' ∧
      ((o.assessOptim x γ = (o', .ok ((g2 P (P.profit (quant x)) x, 0), some (P.profit (quant x)))) ∧ x ∈ P.Level γ) ∨
       (∃ g b, o.assessOptim x γ = (o', .ok ((g, b), none)) ∧ x ∉ P.Level γ ∧ 0 < b ∧
          ∀ y ∈ P.Level γ, g ⬝ᵥ (y - x) + b ≤ 0)) := by
  obtain ⟨o', hg, h⟩ := assessFeas_spec hP ho x hγ
  refine ⟨o', hg, ?_⟩
  unfold assessOptim
  rcases h with ⟨h, hx, hl⟩ | ⟨h, hpos⟩ | ⟨h, hpos⟩
  · left
    refine ⟨?_, hx⟩
    rw [h]
    simp only
    have hvy := eval_vy ho x
    have hcobb : (o.eval x).logCobb = Real.log (P.price * P.scale) + P.alpha ⬝ᵥ x := by
      simp [eval, ho.logPA, ho.elasticities]
    have hp : Real.exp (o.eval x).logCobb - (o.eval x).vy = P.profit (quant x) := by
      rw [profit_eq hP, hvy, hcobb]
    have hne : P.profit (quant x) + (o.eval x).vy ≠ 0 := by
      rw [← hp, sub_add_cancel]; exact (Real.exp_pos _).ne'
    unfold report
    rw [hl]
    simp only
    rw [hp, if_neg hne]
    congr 4
    funext i
    simp only [g2, hg.elasticities, eval_vy ho]
    simp [eval, ho.priceOut]
  · right
    refine ⟨_, _, by rw [h], fun hx => ?_, hpos, fun y hy => (cut_valid hP x hγ hy).1⟩
    have := ((mem_level_iff hP hγ x).mp hx).1
    linarith
  · right
    refine ⟨_, _, by rw [h], fun hx => ?_, hpos, fun y hy => (cut_valid hP x hγ hy).2⟩
    have := ((mem_level_iff hP hγ x).mp hx).2
    linarith

/-- Which cut it is. -/
theorem assessOptim_cases {P : ProfitProblem} (hP : P.Proper) {o : ProfitOracle} (ho : Good P o) (x : Vec 2) {γ : ℝ}
    (hγ : 0 ≤ γ) :
    ∃ o', Good P o' ∧
      ((o.assessOptim x γ = (o', .ok ((g2 P (P.profit (quant x)) x, 0), some (P.profit (quant x)))) ∧ x ∈ P.Level γ) ∨
       (o.assessOptim x γ = (o', .ok ((![1, 0], x 0 - Real.log P.limit), none)) ∧ 0 < x 0 - Real.log P.limit) ∨
       (o.assessOptim x γ = (o', .ok ((g2 P γ x, h2 P γ x), none)) ∧ 0 < h2 P γ x)) := by
  obtain ⟨o', hg, h⟩ := assessOptim_spec hP ho x hγ
  rcases h with h | ⟨g, b, h, hx, -⟩
  · exact ⟨o', hg, .inl h⟩
  · obtain ⟨o2, hg2, h2⟩ := assessFeas_spec hP ho x hγ
    rcases h2 with ⟨-, hc, -⟩ | ⟨h2, hpos⟩ | ⟨h2, hpos⟩
    · exact absurd hc hx
    · exact ⟨o2, hg2, .inr (.inl ⟨by unfold assessOptim; rw [h2], hpos⟩)⟩
    · exact ⟨o2, hg2, .inr (.inr ⟨by unfold assessOptim; rw [h2], hpos⟩)⟩

/-- At its own level the second function vanishes. -/
theorem h2_profit {P : ProfitProblem} (hP : P.Proper) (x : Vec 2) : h2 P (P.profit (quant x)) x = 0 := by
  rw [h2, profit_eq hP, sub_add_cancel, Real.log_exp, sub_self]

/-- The optimality cut holds for every design at least as good. -/
theorem optimal_cut_valid {P : ProfitProblem} (hP : P.Proper) (x : Vec 2) (hγ : 0 ≤ P.profit (quant x)) {y : Vec 2}
    (hy : y ∈ P.Level (P.profit (quant x))) : g2 P (P.profit (quant x)) x ⬝ᵥ (y - x) ≤ 0 := by
  have := (cut_valid hP x hγ hy).2
  rw [h2_profit hP] at this
  linarith

theorem init_good {P : ProfitProblem} (hP : P.Proper) :
    ∃ o, init P.price P.scale P.limit P.alpha P.cost = .ok o ∧ Good P o := by
  refine ⟨⟨-1, none, Real.log (P.price * P.scale), Real.log P.limit, P.cost, P.alpha⟩, ?_, ⟨rfl, rfl, rfl, rfl, .inl rfl⟩⟩
  simp [init, plog, not_le.mpr hP.rev, not_le.mpr hP.limit, bind, Except.bind, pure, Except.pure]

end ProfitOracle

end Ellalgo
