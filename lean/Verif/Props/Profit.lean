import Verif.Lemmas.Profit
import Verif.Props.Soundness
import Mathlib.Analysis.Complex.ExponentialBounds

/-! # The profit oracles (C50, C51, C52, C53) -/

namespace Ellalgo

open Matrix Spec Spec.ProfitProblem CuttingPlane

/-- A call of one of the two public methods of `ProfitOracle`. -/
inductive ProfitCall
  | feas (x : Vec 2) (gamma : ℝ)
  | optim (x : Vec 2) (gamma : ℝ)

namespace ProfitOracle

/-- The object after a history of calls; exceptions are assumed to be caught. -/
noncomputable def after (o : ProfitOracle) : List ProfitCall → ProfitOracle
  | [] => o
  | .feas x γ :: l => (o.assessFeas x γ).1.after l
  | .optim x γ :: l => (o.assessOptim x γ).1.after l

variable {P : ProfitProblem} {o : ProfitOracle}

/-- Whatever the level is (even if the logarithm raises), the object stays one of the problem. -/
theorem feasLoop_good (ho : Good P o) (x : Vec 2) (γ : ℝ) (fuel : ℕ) : Good P (feasLoop x γ fuel o).1 := by
  induction fuel generalizing o with
  | zero => exact ho
  | succ fuel ih =>
    set i := if o.idx + 1 = 2 then 0 else o.idx + 1 with hi
    have hi2 : i = 0 ∨ i = 1 := by
      rcases ho.idx with h | h | h <;> rw [hi, h] <;> simp
    have hf : ∃ e r, ({ o with idx := i } : ProfitOracle).fns x γ = ({ o with idx := i, last := e }, r) := by
      unfold fns fn1 fn2
      split_ifs
      · exact ⟨o.last, _, rfl⟩
      · exact ⟨_, _, rfl⟩
      · exact ⟨o.last, _, rfl⟩
    obtain ⟨e, r, hf⟩ := hf
    have e1 : feasLoop x γ (fuel + 1) o = (match ({ o with idx := i } : ProfitOracle).fns x γ with
      | (o, .error f) => (o, .error f)
      | (o, .ok fj) => if fj > 0 then (o, (o.grads γ).map fun g => some (g, fj)) else feasLoop x γ fuel o) := rfl
    rw [e1, hf]
    have g := ho.next hi2 e
    rcases r with f | fj
    · exact g
    · simp only
      split_ifs
      · exact g
      · exact ih g

theorem assessFeas_good (ho : Good P o) (x : Vec 2) (γ : ℝ) : Good P (o.assessFeas x γ).1 := feasLoop_good ho x γ 2

theorem report_state (o : ProfitOracle) : o.report.1 = o := by
  unfold report
  rcases o.last with _ | e
  · rfl
  · simp only; split_ifs <;> rfl

theorem assessOptim_state (o : ProfitOracle) (x : Vec 2) (γ : ℝ) : (o.assessOptim x γ).1 = (o.assessFeas x γ).1 := by
  unfold assessOptim
  rcases o.assessFeas x γ with ⟨o1, f | _ | cut⟩
  · rfl
  · exact report_state o1
  · rfl

theorem assessOptim_good (ho : Good P o) (x : Vec 2) (γ : ℝ) : Good P (o.assessOptim x γ).1 := by
  rw [assessOptim_state]; exact assessFeas_good ho x γ

theorem after_good (ho : Good P o) (l : List ProfitCall) : Good P (o.after l) := by
  induction l generalizing o with
  | nil => exact ho
  | cons c l ih =>
    cases c with
    | feas x γ => exact ih (assessFeas_good ho x γ)
    | optim x γ => exact ih (assessOptim_good ho x γ)

end ProfitOracle

open ProfitOracle in
/-- **C50.** For a problem with positive revenue factor, limit and input prices, after any history of calls and for every level `γ ≥ 0`:
* `assess_feas(x, γ)` returns `None` exactly if `x` respects the limit and has profit at least `γ`, and otherwise a cut that is violated at `x` and holds at every design that does;
* if `assess_optim(x, γ)` reports a value, it is the profit at `x`, at least `γ`, `x` respects the limit, and the cut (with offset 0) holds at every design that respects the limit
and is at least as good; otherwise its cut is violated at `x` and holds at every design that respects the limit and has profit at least `γ`;
* neither raises. -/
theorem C50_profit_cuts_valid (P : ProfitProblem) (hP : P.Proper) (o : ProfitOracle)
    (ho : ProfitOracle.init P.price P.scale P.limit P.alpha P.cost = .ok o) (l : List ProfitCall) (x : Vec 2) (γ : ℝ)
    (hγ : 0 ≤ γ) :
    ((x ∈ P.Level γ ∧ ∃ o', (o.after l).assessFeas x γ = (o', .ok none)) ∨
     (x ∉ P.Level γ ∧ ∃ o' g b, (o.after l).assessFeas x γ = (o', .ok (some (g, b))) ∧ 0 < b ∧
        ∀ y ∈ P.Level γ, g ⬝ᵥ (y - x) + b ≤ 0)) ∧
    ((x ∈ P.Level γ ∧ ∃ o' g, (o.after l).assessOptim x γ = (o', .ok ((g, 0), some (P.profit (quant x)))) ∧
        γ ≤ P.profit (quant x) ∧ quant x 0 ≤ P.limit ∧ ∀ y ∈ P.Level (P.profit (quant x)), g ⬝ᵥ (y - x) ≤ 0) ∨
     (x ∉ P.Level γ ∧ ∃ o' g b, (o.after l).assessOptim x γ = (o', .ok ((g, b), none)) ∧ 0 < b ∧
        ∀ y ∈ P.Level γ, g ⬝ᵥ (y - x) + b ≤ 0)) := by
  obtain ⟨o2, h2, hg⟩ := init_good hP
  rw [ho] at h2
  cases h2
  have g := after_good hg l
  constructor
  · obtain ⟨o', -, h⟩ := assessFeas_spec hP g x hγ
    rcases h with ⟨h, hx, -⟩ | ⟨h, hpos⟩ | ⟨h, hpos⟩
    · exact .inl ⟨hx, o', h⟩
    · refine .inr ⟨fun hx => ?_, o', _, _, h, hpos, fun y hy => (cut_valid hP x hγ hy).1⟩
      have := ((mem_level_iff hP hγ x).mp hx).1
      linarith
    · refine .inr ⟨fun hx => ?_, o', _, _, h, hpos, fun y hy => (cut_valid hP x hγ hy).2⟩
      have := ((mem_level_iff hP hγ x).mp hx).2
      linarith
  · obtain ⟨o', -, h⟩ := assessOptim_spec hP g x hγ
    rcases h with ⟨h, hx⟩ | ⟨g, b, h, hx, hb, hv⟩
    · exact .inl ⟨hx, o', _, h, hx.2, hx.1, fun y hy => optimal_cut_valid hP x (hγ.trans hx.2) hy⟩
    · exact .inr ⟨hx, o', g, b, h, hb, hv⟩

/-- `p A = 10`, limit 10, elasticities `1/2`, input prices 1. -/
noncomputable def sampleProfit : ProfitProblem := ⟨5, 2, 10, ![1 / 2, 1 / 2], ![1, 1]⟩

theorem sampleProfit_proper : sampleProfit.Proper :=
  ⟨by norm_num [sampleProfit], by norm_num [sampleProfit], fun i => by fin_cases i <;> norm_num [sampleProfit]⟩

theorem sampleProfit_at (y : Vec 2) : sampleProfit.profit y = 5 * (2 * y 0 ^ (1 / 2 : ℝ) * y 1 ^ (1 / 2 : ℝ)) - y 0 - y 1 := by
  simp [profit, sampleProfit]

/-- C50 applies, in both cases: `y = (1, 1)` has profit 8; `y₁ = e³` exceeds the limit. -/
example : (0 : Vec 2) ∈ sampleProfit.Level 8 ∧ (![3, 0] : Vec 2) ∉ sampleProfit.Level 0 := by
  constructor
  · refine ⟨?_, ?_⟩
    · simp [quant, sampleProfit]
    · rw [sampleProfit_at]; simp [quant]; norm_num
  · rintro ⟨h, -⟩
    have h1 : Real.exp 3 ≤ 10 := by simpa [quant, sampleProfit] using h
    have h2 : (2.7 : ℝ) < Real.exp 1 := by have := Real.exp_one_gt_d9; linarith
    have h3 : Real.exp 3 = Real.exp 1 ^ 3 := by rw [← Real.exp_nat_mul]; norm_num
    rw [h3] at h1
    have : (2.7 : ℝ) ^ 3 < Real.exp 1 ^ 3 := by gcongr
    norm_num at this
    linarith

/-! ### C51 -/

/-- The nominal problem together with the tolerances: nonnegative, and the worst case is proper. -/
structure RobustProper (P : ProfitProblem) (e1 e2 e3 e4 e5 : ℝ) : Prop where
  tol1 : 0 ≤ e1
  tol2 : 0 ≤ e2
  tol3 : 0 ≤ e3
  tol4 : 0 ≤ e4
  tol5 : 0 ≤ e5
  price : 0 < P.price - e3
  scale : 0 < P.scale
  limit : 0 < P.limit - e4
  cost : ∀ i, 0 < P.cost i + e5

/-- The scenario the oracle uses at the point `x`. -/
noncomputable def worstAt (P : ProfitProblem) (e1 e2 e3 e4 e5 : ℝ) (x : Vec 2) : ProfitProblem where
  price := P.price - e3
  scale := P.scale
  limit := P.limit - e4
  alpha := fun i => P.alpha i + (if x i > 0 then -(![e1, e2] : Vec 2) i else (![e1, e2] : Vec 2) i)
  cost := P.cost + ![e5, e5]

variable {P : ProfitProblem} {e1 e2 e3 e4 e5 : ℝ}

theorem worstAt_cost (x : Vec 2) (i : Fin 2) : (worstAt P e1 e2 e3 e4 e5 x).cost i = P.cost i + e5 := by
  fin_cases i <;> rfl

theorem worstAt_proper (h : RobustProper P e1 e2 e3 e4 e5) (x : Vec 2) : (worstAt P e1 e2 e3 e4 e5 x).Proper := by
  refine ⟨mul_pos h.price h.scale, h.limit, fun i => ?_⟩
  rw [worstAt_cost]; exact h.cost i

theorem worstAt_scenario (h : RobustProper P e1 e2 e3 e4 e5) (x : Vec 2) :
    P.Scenario e1 e2 e3 e4 e5 (worstAt P e1 e2 e3 e4 e5 x) where
  alpha0 := by
    have := h.tol1
    simp only [worstAt, add_sub_cancel_left]
    split_ifs <;> simp [abs_of_nonneg this]
  alpha1 := by
    have := h.tol2
    simp only [worstAt, add_sub_cancel_left]
    split_ifs <;> simp [abs_of_nonneg this]
  price := by simp [worstAt, abs_of_nonneg h.tol3]
  scale := rfl
  limit := by simp [worstAt, abs_of_nonneg h.tol4]
  cost i := by
    rw [worstAt_cost, add_sub_cancel_left, abs_of_nonneg h.tol5]

/-- The scenario used at `x` is the worst one at `x`. -/
theorem worstAt_worst (h : RobustProper P e1 e2 e3 e4 e5) (x : Vec 2) {S : ProfitProblem}
    (hS : P.Scenario e1 e2 e3 e4 e5 S) :
    (worstAt P e1 e2 e3 e4 e5 x).limit ≤ S.limit ∧
    (worstAt P e1 e2 e3 e4 e5 x).profit (quant x) ≤ S.profit (quant x) := by
  have hp := abs_le.mp hS.price
  have hl := abs_le.mp hS.limit
  have h0 := abs_le.mp hS.alpha0
  have h1 := abs_le.mp hS.alpha1
  have c0 := abs_le.mp (hS.cost 0)
  have c1 := abs_le.mp (hS.cost 1)
  refine ⟨by simp only [worstAt]; linarith, ?_⟩
  have key : ∀ (a t s e : ℝ), -e ≤ s - a → s - a ≤ e → (a + if t > 0 then -e else e) * t ≤ s * t := by
    intro a t s e h1 h2
    split_ifs with ht
    · nlinarith
    · nlinarith [not_lt.mp ht]
  have hSp : 0 < S.price * S.scale := by
    rw [hS.scale]; exact mul_pos (by linarith [h.price]) h.scale
  have pw : ∀ (a t : ℝ), Real.exp t ^ a = Real.exp (a * t) := fun a t => by rw [← Real.exp_mul, mul_comm]
  have ha0 : (quant x 0) ^ (worstAt P e1 e2 e3 e4 e5 x).alpha 0 ≤ (quant x 0) ^ S.alpha 0 := by
    simp only [quant, pw]
    exact Real.exp_le_exp.mpr (key _ _ _ _ h0.1 h0.2)
  have ha1 : (quant x 1) ^ (worstAt P e1 e2 e3 e4 e5 x).alpha 1 ≤ (quant x 1) ^ S.alpha 1 := by
    simp only [quant, pw]
    exact Real.exp_le_exp.mpr (key _ _ _ _ h1.1 h1.2)
  have q0 : 0 < quant x 0 := Real.exp_pos _
  have q1 : 0 < quant x 1 := Real.exp_pos _
  unfold profit
  have t1 : (worstAt P e1 e2 e3 e4 e5 x).price * ((worstAt P e1 e2 e3 e4 e5 x).scale *
      quant x 0 ^ (worstAt P e1 e2 e3 e4 e5 x).alpha 0 * quant x 1 ^ (worstAt P e1 e2 e3 e4 e5 x).alpha 1) ≤
      S.price * (S.scale * quant x 0 ^ S.alpha 0 * quant x 1 ^ S.alpha 1) := by
    have hw : (worstAt P e1 e2 e3 e4 e5 x).price ≤ S.price := by simp only [worstAt]; linarith
    have hs : (worstAt P e1 e2 e3 e4 e5 x).scale = S.scale := hS.scale.symm
    have hspos : 0 < S.scale := by rw [hS.scale]; exact h.scale
    have hwp : 0 < (worstAt P e1 e2 e3 e4 e5 x).price := h.price
    have hSprice : 0 < S.price := by linarith
    rw [hs]
    gcongr
  have t2 : S.cost 0 * quant x 0 ≤ (worstAt P e1 e2 e3 e4 e5 x).cost 0 * quant x 0 := by
    refine mul_le_mul_of_nonneg_right ?_ q0.le
    rw [worstAt_cost]; linarith
  have t3 : S.cost 1 * quant x 1 ≤ (worstAt P e1 e2 e3 e4 e5 x).cost 1 * quant x 1 := by
    refine mul_le_mul_of_nonneg_right ?_ q1.le
    rw [worstAt_cost]; linarith
  linarith

/-- Being at level `γ` in the scenario used at `x` is being there in all scenarios. -/
theorem mem_robust_iff (h : RobustProper P e1 e2 e3 e4 e5) (x : Vec 2) (γ : ℝ) :
    x ∈ P.RobustLevel e1 e2 e3 e4 e5 γ ↔ x ∈ (worstAt P e1 e2 e3 e4 e5 x).Level γ := by
  constructor
  · intro hx; exact hx _ (worstAt_scenario h x)
  · rintro ⟨h1, h2⟩ S hS
    obtain ⟨a, b⟩ := worstAt_worst h x hS
    exact ⟨h1.trans a, h2.trans b⟩

/-- At any other point, the scenario used at `x` is still one of the scenarios. -/
theorem robust_subset (h : RobustProper P e1 e2 e3 e4 e5) (x : Vec 2) (γ : ℝ) :
    P.RobustLevel e1 e2 e3 e4 e5 γ ⊆ (worstAt P e1 e2 e3 e4 e5 x).Level γ :=
  fun _ hy => hy _ (worstAt_scenario h x)

namespace ProfitRbOracle

/-- The object after a list of calls of `assess_optim`. -/
noncomputable def after (o : ProfitRbOracle) : List (Vec 2 × ℝ) → ProfitRbOracle
  | [] => o
  | (x, γ) :: l => (o.assessOptim x γ).1.after l

/-- The object belongs to the problem and the tolerances. -/
structure Good (P : ProfitProblem) (e1 e2 e3 e4 e5 : ℝ) (o : ProfitRbOracle) : Prop where
  elasticities : o.elasticities = P.alpha
  uie : o.uie = ![e1, e2]
  omega : ∃ a, ProfitOracle.Good ⟨P.price - e3, P.scale, P.limit - e4, a, P.cost + ![e5, e5]⟩ o.omega

theorem Good.inner {o : ProfitRbOracle} (ho : Good P e1 e2 e3 e4 e5 o) (x : Vec 2) :
    ProfitOracle.Good (worstAt P e1 e2 e3 e4 e5 x)
      { o.omega with elasticities := fun i => o.elasticities i + (if x i > 0 then -o.uie i else o.uie i) } := by
  obtain ⟨a, g⟩ := ho.omega
  exact ⟨g.logPA, g.logK, g.priceOut, by rw [ho.elasticities, ho.uie]; rfl, g.idx⟩

theorem assessOptim_good {o : ProfitRbOracle} (ho : Good P e1 e2 e3 e4 e5 o) (x : Vec 2) (γ : ℝ) :
    Good P e1 e2 e3 e4 e5 (o.assessOptim x γ).1 :=
  ⟨ho.elasticities, ho.uie, (worstAt P e1 e2 e3 e4 e5 x).alpha, ProfitOracle.assessOptim_good (ho.inner x) x γ⟩

theorem after_good {o : ProfitRbOracle} (ho : Good P e1 e2 e3 e4 e5 o) (l : List (Vec 2 × ℝ)) :
    Good P e1 e2 e3 e4 e5 (o.after l) := by
  induction l generalizing o with
  | nil => exact ho
  | cons c l ih => exact ih (assessOptim_good ho c.1 c.2)

theorem init_good (h : RobustProper P e1 e2 e3 e4 e5) :
    ∃ o, init P.price P.scale P.limit P.alpha P.cost e1 e2 e3 e4 e5 = .ok o ∧ Good P e1 e2 e3 e4 e5 o := by
  have hp : (⟨P.price - e3, P.scale, P.limit - e4, P.alpha, P.cost + ![e5, e5]⟩ : ProfitProblem).Proper := by
    have := worstAt_proper h 0
    exact ⟨this.rev, this.limit, this.cost⟩
  obtain ⟨om, h1, h2⟩ := ProfitOracle.init_good hp
  refine ⟨⟨P.alpha, ![e1, e2], om⟩, ?_, rfl, rfl, P.alpha, h2⟩
  unfold init
  rw [show ProfitOracle.init (P.price - e3) P.scale (P.limit - e4) P.alpha (P.cost + ![e5, e5]) = .ok om from h1]
  rfl

end ProfitRbOracle

open ProfitOracle in
/-- **C51.** For nonnegative tolerances under which the worst case is proper, after any history of calls and for every `γ ≥ 0`: `assess_optim(x, γ)` reports a value exactly if `x` respects the limit with profit at least
`γ` in every scenario; the value `γ'` is at least `γ`, every scenario gives at least the profit `γ'` at `x` (and one of them exactly `γ'`) and respects the limit, and the cut holds at every `y` that does at least as well in all scenarios. Otherwise the
cut is violated at `x` and holds at every `y` whose worst case is at least `γ`. -/
theorem C51_robust (h : RobustProper P e1 e2 e3 e4 e5) (o : ProfitRbOracle)
    (ho : ProfitRbOracle.init P.price P.scale P.limit P.alpha P.cost e1 e2 e3 e4 e5 = .ok o)
    (l : List (Vec 2 × ℝ)) (x : Vec 2) (γ : ℝ) (hγ : 0 ≤ γ) :
    (x ∈ P.RobustLevel e1 e2 e3 e4 e5 γ ∧ ∃ o' g γ1, (o.after l).assessOptim x γ = (o', .ok ((g, 0), some γ1)) ∧ γ ≤ γ1 ∧
      (∀ S, P.Scenario e1 e2 e3 e4 e5 S → quant x 0 ≤ S.limit ∧ γ1 ≤ S.profit (quant x)) ∧
      (∃ S, P.Scenario e1 e2 e3 e4 e5 S ∧ γ1 = S.profit (quant x)) ∧
      ∀ y ∈ P.RobustLevel e1 e2 e3 e4 e5 γ1, g ⬝ᵥ (y - x) ≤ 0) ∨
    (x ∉ P.RobustLevel e1 e2 e3 e4 e5 γ ∧ ∃ o' g b, (o.after l).assessOptim x γ = (o', .ok ((g, b), none)) ∧ 0 < b ∧
      ∀ y ∈ P.RobustLevel e1 e2 e3 e4 e5 γ, g ⬝ᵥ (y - x) + b ≤ 0) := by
  obtain ⟨o2, h2, hg⟩ := ProfitRbOracle.init_good h
  rw [ho] at h2
  cases h2
  have g := (ProfitRbOracle.after_good hg l).inner x
  have hw := worstAt_proper h x
  obtain ⟨o', -, hc⟩ := assessOptim_spec hw g x hγ
  have wrap : ∀ {r}, (_ : ProfitOracle × Except Fault ((Vec 2 × ℝ) × Option ℝ)) = (o', r) →
      (o.after l).assessOptim x γ = ({ o.after l with omega := o' }, r) := fun h =>
    congrArg (fun r => (({ o.after l with omega := r.1 } : ProfitRbOracle), r.2)) h
  rw [mem_robust_iff h]
  rcases hc with ⟨hc, hx⟩ | ⟨g, b, hc, hx, hb, hv⟩
  · refine .inl ⟨hx, _, _, _, wrap hc, hx.2, fun S hS => ?_, ⟨_, worstAt_scenario h x, rfl⟩, fun y hy => ?_⟩
    · obtain ⟨a, b⟩ := worstAt_worst h x hS
      exact ⟨hx.1.trans a, b⟩
    · exact optimal_cut_valid hw x (hγ.trans hx.2) (robust_subset h x _ hy)
  · exact .inr ⟨hx, _, g, b, wrap hc, hb, fun y hy => hv y (robust_subset h x _ hy)⟩

/-- Tolerances under which C51 applies to the sample problem: elasticities within 1/10, price within 1, limit within 2, input prices within 1/2. -/
theorem sampleProfit_robust : RobustProper sampleProfit (1 / 10) (1 / 10) 1 2 (1 / 2) :=
  ⟨by norm_num, by norm_num, by norm_num, by norm_num, by norm_num, by norm_num [sampleProfit], by norm_num [sampleProfit],
    by norm_num [sampleProfit], fun i => by fin_cases i <;> norm_num [sampleProfit]⟩

/-- In the worst case `y = (1, 1)` has profit `(5 - 1) · 2 - 3 = 5`, and there are infinitely many scenarios; the nominal one gives 8. -/
example : (0 : Vec 2) ∈ sampleProfit.RobustLevel (1 / 10) (1 / 10) 1 2 (1 / 2) 5 ∧
    sampleProfit.Scenario (1 / 10) (1 / 10) 1 2 (1 / 2) sampleProfit := by
  constructor
  · rw [mem_robust_iff sampleProfit_robust]
    refine ⟨?_, ?_⟩
    · simp [quant, worstAt, sampleProfit]; norm_num
    · simp [profit, quant, worstAt, sampleProfit]; norm_num
  · constructor <;> norm_num

/-! ### C52, C53 -/

theorem npRound_nonneg {x : ℝ} (hx : 0 ≤ x) : 0 ≤ npRound x := by
  have := Int.floor_nonneg.mpr hx
  unfold npRound
  split_ifs <;> omega

/-- `np.round` goes to a nearest integer. -/
theorem npRound_near (x : ℝ) : |(npRound x : ℝ) - x| ≤ 1 / 2 := by
  have h1 := Int.floor_le x
  have h2 := Int.lt_floor_add_one x
  rw [abs_le]
  unfold npRound
  split_ifs <;> push_cast <;> constructor <;> linarith

theorem quant_roundPoint (xc : Vec 2) (i : Fin 2) :
    ∃ m : ℕ, 0 < m ∧ quant (ProfitQOracle.roundPoint xc) i = m ∧
      (|(m : ℝ) - quant xc i| ≤ 1 / 2 ∨ (m = 1 ∧ quant xc i ≤ 1 / 2)) := by
  have h := npRound_nonneg (Real.exp_pos (xc i)).le
  have hn := npRound_near (Real.exp (xc i))
  obtain ⟨m, hm⟩ := Int.eq_ofNat_of_zero_le h
  simp only [quant, ProfitQOracle.roundPoint]
  rw [hm] at hn ⊢
  simp only [Int.cast_natCast] at hn ⊢
  rcases Nat.eq_zero_or_pos m with rfl | hpos
  · refine ⟨1, one_pos, by simp, .inr ⟨rfl, ?_⟩⟩
    have := (abs_le.mp hn).1
    simp only [Nat.cast_zero] at this
    linarith
  · have h0 : (m : ℝ) ≠ 0 := by exact_mod_cast hpos.ne'
    refine ⟨m, hpos, ?_, .inl hn⟩
    rw [if_neg h0, Real.exp_log (by exact_mod_cast hpos)]

namespace ProfitQOracle

/-- The object after a list of calls `assess_optim_q(xc, gamma, retry)`. -/
noncomputable def after (o : ProfitQOracle) : List (Vec 2 × ℝ × Bool) → ProfitQOracle
  | [] => o
  | (x, γ, r) :: l => (o.assessOptimQ x γ r).1.after l

/-- The object belongs to the problem and remembers an integer design. -/
structure Good (P : ProfitProblem) (o : ProfitQOracle) : Prop where
  omega : ProfitOracle.Good P o.omega
  xd : IntegerPoint o.xd

theorem roundPoint_integer (xc : Vec 2) : IntegerPoint (roundPoint xc) := fun i => by
  obtain ⟨m, h1, h2, -⟩ := quant_roundPoint xc i
  exact ⟨m, h1, h2⟩

theorem init_good (hP : P.Proper) : ∃ o, init P.price P.scale P.limit P.alpha P.cost = .ok o ∧ Good P o := by
  obtain ⟨om, h1, h2⟩ := ProfitOracle.init_good hP
  refine ⟨⟨om, ![0, 0]⟩, ?_, h2, fun i => ⟨1, one_pos, by fin_cases i <;> simp [quant]⟩⟩
  unfold init
  rw [h1]
  rfl

theorem discrete_good {o : ProfitQOracle} (ho : Good P o) (xc : Vec 2) (γ : ℝ) (r : Bool) :
    Good P (o.discrete xc γ r).1 :=
  ⟨ProfitOracle.assessOptim_good ho.omega o.xd γ, ho.xd⟩

theorem assessOptimQ_good {o : ProfitQOracle} (ho : Good P o) (xc : Vec 2) (γ : ℝ) (r : Bool) :
    Good P (o.assessOptimQ xc γ r).1 := by
  have hg := ProfitOracle.assessFeas_good ho.omega xc γ
  unfold assessOptimQ
  split_ifs
  · exact discrete_good ho xc γ r
  · rcases hf : o.omega.assessFeas xc γ with ⟨om, f | _ | cut⟩ <;> rw [hf] at hg
    · exact ⟨hg, ho.xd⟩
    · exact discrete_good ⟨hg, roundPoint_integer xc⟩ xc γ r
    · exact ⟨hg, ho.xd⟩

theorem after_good {o : ProfitQOracle} (ho : Good P o) (l : List (Vec 2 × ℝ × Bool)) : Good P (o.after l) := by
  induction l generalizing o with
  | nil => exact ho
  | cons c l ih => exact ih (assessOptimQ_good ho c.1 c.2.1 c.2.2)

/-- What the optimality check of the remembered design answers. -/
theorem discrete_spec (hP : P.Proper) {o : ProfitQOracle} (ho : Good P o) (xc : Vec 2) {γ : ℝ} (hγ : 0 ≤ γ) (r : Bool) :
    ∃ o' a b, o.discrete xc γ r = (o', .ok a) ∧ a.xq = o.xd ∧ a.moreAlt = !r ∧
      a.cut.2 = b + a.cut.1 ⬝ᵥ (a.xq - xc) ∧
      ((a.gamma1 = none ∧ o.xd ∉ P.Level γ) ∨
       (a.gamma1 = some (P.profit (quant o.xd)) ∧ o.xd ∈ P.Level γ ∧ b = 0 ∧
        a.cut.1 = ProfitOracle.g2 P (P.profit (quant o.xd)) o.xd)) ∧
      ∀ y ∈ P.Level (a.gamma1.getD γ), a.cut.1 ⬝ᵥ (y - a.xq) + b ≤ 0 := by
  obtain ⟨o', -, h⟩ := ProfitOracle.assessOptim_spec hP ho.omega o.xd hγ
  have wrap : ∀ {r'}, o.omega.assessOptim o.xd γ = (o', r') → o.discrete xc γ r = ({ o with omega := o' }, r'.map fun a =>
    { cut := (a.1.1, a.1.2 + a.1.1 ⬝ᵥ (o.xd - xc)), xq := o.xd, gamma1 := a.2, moreAlt := !r }) := by
    intro r' h
    unfold discrete
    rw [h]
  rcases h with ⟨h, hx⟩ | ⟨g, b, h, hx, hb, hv⟩
  · exact ⟨_, _, 0, wrap h, rfl, rfl, rfl, .inr ⟨rfl, hx, rfl, rfl⟩, fun y hy => by
      rw [add_zero]; exact ProfitOracle.optimal_cut_valid hP o.xd (hγ.trans hx.2) hy⟩
  · exact ⟨_, _, b, wrap h, rfl, rfl, rfl, .inl ⟨rfl, hx⟩, hv⟩

/-- What `assess_optim_q` answers. -/
theorem assessOptimQ_spec (hP : P.Proper) {o : ProfitQOracle} (ho : Good P o) (xc : Vec 2) {γ : ℝ} (hγ : 0 ≤ γ) (r : Bool) :
    ∃ o' a b, o.assessOptimQ xc γ r = (o', .ok a) ∧ a.moreAlt = !r ∧
      a.cut.2 = b + a.cut.1 ⬝ᵥ (a.xq - xc) ∧
      (∀ y ∈ P.Level (a.gamma1.getD γ), a.cut.1 ⬝ᵥ (y - a.xq) + b ≤ 0) ∧
      ((r = false ∧ xc ∉ P.Level γ ∧ a.xq = xc ∧ a.gamma1 = none ∧ 0 < b) ∨
       ((r = true ∨ xc ∈ P.Level γ) ∧ a.xq = (if r then o.xd else roundPoint xc) ∧
        ((a.gamma1 = none ∧ a.xq ∉ P.Level γ) ∨ (a.gamma1 = some (P.profit (quant a.xq)) ∧ a.xq ∈ P.Level γ ∧ b = 0 ∧
          a.cut.1 = ProfitOracle.g2 P (P.profit (quant a.xq)) a.xq)))) := by
  unfold assessOptimQ
  cases r with
  | true =>
    obtain ⟨o', a, b, h1, h2, h3, h4, h5, h6⟩ := discrete_spec hP ho xc hγ true
    refine ⟨o', a, b, h1, h3, h4, h6, .inr ⟨.inl rfl, h2, ?_⟩⟩
    rw [h2]; exact h5
  | false =>
    obtain ⟨o1, hg, h⟩ := ProfitOracle.assessFeas_spec hP ho.omega xc hγ
    simp only [Bool.false_eq_true, if_false]
    rcases h with ⟨h, hx, -⟩ | ⟨h, hpos⟩ | ⟨h, hpos⟩
    · rw [h]
      have hg' : Good P { o with omega := o1, xd := roundPoint xc } := ⟨hg, roundPoint_integer xc⟩
      obtain ⟨o', a, b, h1, h2, h3, h4, h5, h6⟩ := discrete_spec hP hg' xc hγ false
      refine ⟨o', a, b, h1, h3, h4, h6, .inr ⟨.inr hx, h2, ?_⟩⟩
      rw [h2]; exact h5
    · rw [h]
      refine ⟨_, _, xc 0 - Real.log P.limit, rfl, rfl, ?_, ?_, .inl ⟨trivial, fun hx => ?_, rfl, rfl, hpos⟩⟩
      · simp
      · exact fun y hy => (ProfitOracle.cut_valid hP xc hγ hy).1
      · have := ((ProfitOracle.mem_level_iff hP hγ xc).mp hx).1
        linarith
    · rw [h]
      refine ⟨_, _, ProfitOracle.h2 P γ xc, rfl, rfl, ?_, ?_, .inl ⟨trivial, fun hx => ?_, rfl, rfl, hpos⟩⟩
      · simp
      · exact fun y hy => (ProfitOracle.cut_valid hP xc hγ hy).2
      · have := ((ProfitOracle.mem_level_iff hP hγ xc).mp hx).2
        linarith

end ProfitQOracle

open ProfitQOracle in
/-- **C52.** After any history of calls, for every `γ ≥ 0`, `assess_optim_q(xc, γ, retry)` does not raise; announces alternatives exactly if `retry` is false; and if it reports a value `γ'` together with `x_q`, then `exp(x_q)` is a vector of positive integers, respects the limit, `γ'` is its profit and at least `γ`.
In a first attempt each quantity is a nearest integer to the one proposed, or 1 if that is 0. -/
theorem C52_integer_designs (hP : P.Proper) (o : ProfitQOracle)
    (ho : ProfitQOracle.init P.price P.scale P.limit P.alpha P.cost = .ok o) (l : List (Vec 2 × ℝ × Bool)) (xc : Vec 2) (γ : ℝ)
    (hγ : 0 ≤ γ) (retry : Bool) :
    ∃ o' a, (o.after l).assessOptimQ xc γ retry = (o', .ok a) ∧ (a.moreAlt = true ↔ retry = false) ∧
      ∀ γ1, a.gamma1 = some γ1 →
        IntegerPoint a.xq ∧ quant a.xq 0 ≤ P.limit ∧ γ1 = P.profit (quant a.xq) ∧ γ ≤ γ1 ∧
        (retry = false → ∀ i, |quant a.xq i - quant xc i| ≤ 1 / 2 ∨ (quant a.xq i = 1 ∧ quant xc i ≤ 1 / 2)) := by
  obtain ⟨o2, h2, hg⟩ := init_good hP
  rw [ho] at h2
  cases h2
  have hg := after_good hg l
  obtain ⟨o', a, b, h1, h2, -, -, h⟩ := assessOptimQ_spec hP hg xc hγ retry
  refine ⟨o', a, h1, by rw [h2]; cases retry <;> simp, fun γ1 h1 => ?_⟩
  rcases h with ⟨-, -, -, h, -⟩ | ⟨-, hq, ⟨h, -⟩ | ⟨h, hx, -⟩⟩
  · rw [h] at h1; simp at h1
  · rw [h] at h1; simp at h1
  · rw [h] at h1
    simp only [Option.some.injEq] at h1
    refine ⟨?_, hx.1, h1.symm, h1 ▸ hx.2, ?_⟩
    · rw [hq]; split_ifs
      · exact hg.xd
      · exact roundPoint_integer xc
    · rintro rfl i
      simp only [Bool.false_eq_true, if_false] at hq
      obtain ⟨m, h1, h2, h3⟩ := quant_roundPoint xc i
      rw [hq, h2]
      rcases h3 with h3 | ⟨rfl, h3⟩
      · exact .inl h3
      · exact .inr ⟨by simp, h3⟩

/-- The claim C53 of the property list: the cut keeps every integer design that respects the limit and is at least as good as the best known value. -/
def C53_claim : Prop :=
  ∀ (P : ProfitProblem) (_ : P.Proper) (o : ProfitQOracle)
    (_ : ProfitQOracle.init P.price P.scale P.limit P.alpha P.cost = .ok o) (l : List (Vec 2 × ℝ × Bool)) (xc : Vec 2) (γ : ℝ)
    (_ : 0 ≤ γ) (retry : Bool) (o' : ProfitQOracle) (a : AnswerQ (Vec 2) (Vec 2 × ℝ) ℝ),
    (o.after l).assessOptimQ xc γ retry = (o', .ok a) →
    ∀ y ∈ P.Level (a.gamma1.getD γ), IntegerPoint y → a.cut.1 ⬝ᵥ (y - xc) + a.cut.2 ≤ 0

/-- **C53 is false.** The offset is adjusted with the wrong sign (line 300 adds `grad · (xd - xc)`; the cut through `xd` has the offset `grad · (xc - xd)` at `xc`). For the sample problem at `xc = log (29/20, 1)` the cut
removes the design `(2, 1)`, whose profit `10 √2 - 3 ≈ 11.1` is better than the reported 8. -/
theorem C53_refuted : ¬ C53_claim := by
  intro hC
  obtain ⟨o, ho, hg⟩ := ProfitQOracle.init_good sampleProfit_proper
  have hx0 : Real.exp (Real.log (29 / 20)) = 29 / 20 := Real.exp_log (by norm_num)
  obtain ⟨o', a, b, h1, -, h3, -, h⟩ := ProfitQOracle.assessOptimQ_spec sampleProfit_proper hg ![Real.log (29 / 20), 0] le_rfl false
  have hs1 : (1 : ℝ) ≤ (29 / 20 : ℝ) ^ (1 / 2 : ℝ) := Real.one_le_rpow (by norm_num) (by norm_num)
  have hs2 : (14 / 10 : ℝ) ≤ (2 : ℝ) ^ (1 / 2 : ℝ) := by
    rw [← Real.sqrt_eq_rpow]
    exact Real.le_sqrt_of_sq_le (by norm_num)
  have hlev : (![Real.log (29 / 20), 0] : Vec 2) ∈ sampleProfit.Level 0 := by
    refine ⟨?_, ?_⟩
    · simp [quant, sampleProfit, hx0]; norm_num
    · rw [sampleProfit_at]; simp only [quant]; simp [hx0]
      norm_num at hs1
      linarith
  have hround : ProfitQOracle.roundPoint ![Real.log (29 / 20), 0] = 0 := by
    have f1 : ⌊(29 / 20 : ℝ)⌋ = 1 := by rw [Int.floor_eq_iff]; norm_num
    have f2 : ⌊(1 : ℝ)⌋ = 1 := Int.floor_one
    funext i
    fin_cases i
    · simp [ProfitQOracle.roundPoint, hx0, npRound, f1]; norm_num
    · simp [ProfitQOracle.roundPoint, npRound]
  have hp0 : sampleProfit.profit (quant 0) = 8 := by rw [sampleProfit_at]; simp [quant]; norm_num
  have h0 : (0 : Vec 2) ∈ sampleProfit.Level 0 := ⟨by simp [quant, sampleProfit], by rw [hp0]; norm_num⟩
  rcases h with ⟨-, hc, -⟩ | ⟨-, hq, h⟩
  · exact hc hlev
  simp only [Bool.false_eq_true, if_false, hround] at hq
  rw [hq] at h
  rcases h with ⟨-, hc⟩ | ⟨hv, -, hb, hcut⟩
  · exact hc h0
  rw [hp0] at hv hcut
  have hy : (![Real.log 2, 0] : Vec 2) ∈ sampleProfit.Level 8 := by
    have e2 : Real.exp (Real.log 2) = 2 := Real.exp_log (by norm_num)
    refine ⟨?_, ?_⟩
    · simp [quant, sampleProfit, e2]; norm_num
    · rw [sampleProfit_at]; simp only [quant]; simp [e2]
      norm_num at hs2
      linarith
  have hyi : IntegerPoint ![Real.log 2, 0] := by
    intro i
    fin_cases i
    · exact ⟨2, by norm_num, by simp [quant, Real.exp_log]⟩
    · exact ⟨1, by norm_num, by simp [quant]⟩
  have := hC sampleProfit sampleProfit_proper o ho [] _ 0 le_rfl false o' a h1 ![Real.log 2, 0] (by rw [hv]; exact hy) hyi
  rw [h3, hq, hb, hcut] at this
  have hl : Real.log 2 < 2 * Real.log (29 / 20) := by
    rw [← Real.log_rpow (by norm_num)]
    exact Real.log_lt_log (by norm_num) (by norm_num)
  simp [ProfitOracle.g2, sampleProfit, dotProduct, Fin.sum_univ_two] at this
  norm_num at this
  linarith

/-- **C53, the part that holds.** Every returned cut is a valid cut through `x_q` (offset `b` there) whose offset has been shifted by `g · (x_q - xc)`. It is therefore valid at `xc` whenever that shift is not positive, in particular for the feasibility cuts, where `x_q = xc`. What is missing is the case
of a positive shift, where C53 is false; with the shift subtracted instead of added the cut would always be valid (last clause). -/
theorem C53_cut_valid_partial (hP : P.Proper) (o : ProfitQOracle)
    (ho : ProfitQOracle.init P.price P.scale P.limit P.alpha P.cost = .ok o) (l : List (Vec 2 × ℝ × Bool)) (xc : Vec 2) (γ : ℝ)
    (hγ : 0 ≤ γ) (retry : Bool) (o' : ProfitQOracle) (a : AnswerQ (Vec 2) (Vec 2 × ℝ) ℝ)
    (h : (o.after l).assessOptimQ xc γ retry = (o', .ok a)) :
    (a.cut.1 ⬝ᵥ (a.xq - xc) ≤ 0 → ∀ y ∈ P.Level (a.gamma1.getD γ), a.cut.1 ⬝ᵥ (y - xc) + a.cut.2 ≤ 0) ∧
    (retry = false → xc ∉ P.Level γ → a.xq = xc ∧ 0 < a.cut.2 ∧ ∀ y ∈ P.Level γ, a.cut.1 ⬝ᵥ (y - xc) + a.cut.2 ≤ 0) ∧
    ∀ y ∈ P.Level (a.gamma1.getD γ), a.cut.1 ⬝ᵥ (y - xc) + (a.cut.2 - 2 * a.cut.1 ⬝ᵥ (a.xq - xc)) ≤ 0 := by
  obtain ⟨o2, h2, hg⟩ := ProfitQOracle.init_good hP
  rw [ho] at h2
  cases h2
  obtain ⟨o1, a1, b, h1, -, h3, h4, h5⟩ := ProfitQOracle.assessOptimQ_spec hP (ProfitQOracle.after_good hg l) xc hγ retry
  rw [h] at h1
  simp only [Prod.mk.injEq, Except.ok.injEq] at h1
  obtain ⟨-, rfl⟩ := h1
  have sub : ∀ y, a.cut.1 ⬝ᵥ (y - xc) = a.cut.1 ⬝ᵥ (y - a.xq) + a.cut.1 ⬝ᵥ (a.xq - xc) := fun y => by
    rw [← dotProduct_add, sub_add_sub_cancel]
  refine ⟨fun hs y hy => ?_, fun hr hx => ?_, fun y hy => ?_⟩
  · rw [h3, sub y]; linarith [h4 y hy]
  · rcases h5 with ⟨-, -, hq, hv, hb⟩ | ⟨hc | hc, -⟩
    · rw [hq, sub_self, dotProduct_zero, add_zero] at h3
      refine ⟨hq, h3 ▸ hb, fun y hy => ?_⟩
      rw [h3, ← hq]
      exact h4 y (by rw [hv]; exact hy)
    · rw [hr] at hc; simp at hc
    · exact absurd hc hx
  · rw [h3, sub y]; linarith [h4 y hy]

/-- The last part applies with a non-trivial shift: see the run in `C53_refuted`; the feasibility branch applies at `xc = (3, 0)`. -/
example : (![3, 0] : Vec 2) ∉ sampleProfit.Level 0 := by
  rintro ⟨h, -⟩
  have h1 : Real.exp 3 ≤ 10 := by simpa [quant, sampleProfit] using h
  have h2 : (2.7 : ℝ) < Real.exp 1 := by have := Real.exp_one_gt_d9; linarith
  have h3 : Real.exp 3 = Real.exp 1 ^ 3 := by rw [← Real.exp_nat_mul]; norm_num
  rw [h3] at h1
  have : (2.7 : ℝ) ^ 3 < Real.exp 1 ^ 3 := by gcongr
  norm_num at this
  linarith

end Ellalgo
