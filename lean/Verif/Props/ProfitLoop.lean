import Verif.Props.Profit
import Verif.Props.Tolerance

/-! # `cutting_plane_optim` and `cutting_plane_optim_q` with the profit oracles (C64, C65, C66) -/

namespace Ellalgo

open Matrix Spec Spec.ProfitProblem CuttingPlane

variable {P : ProfitProblem}

/-- A cut with a numerical offset, as the loops pass it on to the search space. -/
def scalarCut {n : ℕ} (c : Vec n × ℝ) : Cut n := (c.1, .scalar c.2)

/-- `ProfitOracle.assess_optim` as the oracle of `cutting_plane_optim`. -/
noncomputable def ProfitOracle.asOracle : OracleOptim ProfitOracle (Vec 2) (Cut 2) ℝ := fun o x γ =>
  ((o.assessOptim x γ).1, (o.assessOptim x γ).2.map fun a => (scalarCut a.1, a.2))

/-- `ProfitRbOracle.assess_optim`. -/
noncomputable def ProfitRbOracle.asOracle : OracleOptim ProfitRbOracle (Vec 2) (Cut 2) ℝ := fun o x γ =>
  ((o.assessOptim x γ).1, (o.assessOptim x γ).2.map fun a => (scalarCut a.1, a.2))

/-- `ProfitQOracle.assess_optim_q`. -/
noncomputable def ProfitQOracle.asOracle : OracleOptimQ ProfitQOracle (Vec 2) (Cut 2) ℝ := fun o x γ r =>
  ((o.assessOptimQ x γ r).1, (o.assessOptimQ x γ r).2.map fun a => ⟨scalarCut a.cut, a.xq, a.gamma1, a.moreAlt⟩)

/-- The revenue of a design. -/
noncomputable def Spec.ProfitProblem.revenue (P : ProfitProblem) (y : Vec 2) : ℝ :=
  P.price * (P.scale * y 0 ^ P.alpha 0 * y 1 ^ P.alpha 1)

namespace ProfitOracle

theorem revenue_eq (hP : P.Proper) (x : Vec 2) :
    P.revenue (quant x) = Real.exp (Real.log (P.price * P.scale) + P.alpha ⬝ᵥ x) := by
  have h1 := profit_eq hP x
  have h2 : P.profit (quant x) = P.revenue (quant x) - P.cost 0 * quant x 0 - P.cost 1 * quant x 1 := rfl
  simp only [quant] at h1 h2 ⊢
  linarith

theorem revenue_pos (hP : P.Proper) (x : Vec 2) : 0 < P.revenue (quant x) := by
  rw [revenue_eq hP]; exact Real.exp_pos _

/-- A lower bound for the second constraint function bounds the profit. -/
theorem profit_le_of_h2 (hP : P.Proper) {γ : ℝ} (hγ : 0 ≤ γ) (y : Vec 2) {t : ℝ} (h : -t ≤ h2 P γ y) :
    P.profit (quant y) ≤ γ + (1 - Real.exp (-t)) * P.revenue (quant y) := by
  have hc := cost_pos hP hγ y
  have h1 : Real.exp (-t) * P.revenue (quant y) ≤ γ + (P.cost 0 * Real.exp (y 0) + P.cost 1 * Real.exp (y 1)) := by
    rw [revenue_eq hP, ← Real.exp_add, ← Real.le_log_iff_exp_le hc]
    unfold h2 at h
    linarith
  have h2 : P.profit (quant y) = P.revenue (quant y) - (P.cost 0 * Real.exp (y 0) + P.cost 1 * Real.exp (y 1)) := by
    rw [profit_eq hP, revenue_eq hP]
  rw [h2]
  linarith

/-- If the points where the objective is at least `γ` are flat along an objective cut, nothing is much better than `γ`. -/
theorem gap_of_flat (hP : P.Proper) {γ : ℝ} (hγ : 0 ≤ γ) {x y : Vec 2} (hx : 0 ≤ h2 P γ x) {tol : ℝ}
    (h : (g2 P γ x ⬝ᵥ (y - x)) ^ 2 < tol) :
    P.profit (quant y) ≤ γ + (1 - Real.exp (-Real.sqrt tol)) * P.revenue (quant y) := by
  refine profit_le_of_h2 hP hγ y ?_
  have h1 : -Real.sqrt tol ≤ g2 P γ x ⬝ᵥ (y - x) := (abs_le.mp (Real.abs_le_sqrt h.le)).1
  linarith [h2_grad hP hγ x y]

/-- If the gradient vanishes at a point of the boundary or outside, nothing is better than `γ`. -/
theorem h2_ge_of_zero (hP : P.Proper) {γ : ℝ} (hγ : 0 ≤ γ) {x : Vec 2} (h : g2 P γ x = 0) (y : Vec 2) :
    h2 P γ x ≤ h2 P γ y := by
  have := h2_grad hP hγ x y
  rw [h, zero_dotProduct, add_zero] at this
  exact this

theorem asOracle_good {o : ProfitOracle} (ho : Good P o) (x : Vec 2) (γ : ℝ) : Good P (asOracle o x γ).1 :=
  assessOptim_good ho x γ

/-- The answers in the form the loop sees them. -/
theorem asOracle_cases (hP : P.Proper) {o : ProfitOracle} (ho : Good P o) (x : Vec 2) {γ : ℝ} (hγ : 0 ≤ γ) :
    ∃ o', Good P o' ∧
      ((asOracle o x γ = (o', .ok ((g2 P (P.profit (quant x)) x, .scalar 0), some (P.profit (quant x)))) ∧ x ∈ P.Level γ) ∨
       (asOracle o x γ = (o', .ok ((![1, 0], .scalar (x 0 - Real.log P.limit)), none)) ∧ 0 < x 0 - Real.log P.limit) ∨
       (asOracle o x γ = (o', .ok ((g2 P γ x, .scalar (h2 P γ x)), none)) ∧ 0 < h2 P γ x)) := by
  obtain ⟨o', hg, h⟩ := assessOptim_cases hP ho x hγ
  refine ⟨o', hg, ?_⟩
  unfold asOracle
  rcases h with ⟨h, hx⟩ | ⟨h, hx⟩ | ⟨h, hx⟩
  · rw [h]; exact .inl ⟨rfl, hx⟩
  · rw [h]; exact .inr (.inl ⟨rfl, hx⟩)
  · rw [h]; exact .inr (.inr ⟨rfl, hx⟩)

/-- The oracle restricted to nonnegative levels. -/
noncomputable def clipped : OracleOptim ProfitOracle (Vec 2) (Cut 2) ℝ := fun o x γ =>
  open Classical in if 0 ≤ γ then asOracle o x γ else (o, .error .oracle)

theorem clipped_level (hP : P.Proper) : LevelOracle (Good P) P.Level clipped where
  inv o x γ ho := by
    unfold clipped
    split_ifs
    · exact asOracle_good ho x γ
    · exact ho
  cut o x γ o' cut ho h := by
    unfold clipped at h
    split_ifs at h with hγ
    swap
    · simp at h
    obtain ⟨o1, -, ⟨h1, -⟩ | ⟨h1, hpos⟩ | ⟨h1, hpos⟩⟩ := asOracle_cases hP ho x hγ
    all_goals
      rw [h1] at h
      simp only [Prod.mk.injEq, Except.ok.injEq, reduceCtorEq, and_false, and_true] at h
    · obtain ⟨-, rfl⟩ := h
      exact ⟨hpos.le, fun y hy => (cut_valid hP x hγ hy).1⟩
    · obtain ⟨-, rfl⟩ := h
      exact ⟨hpos.le, fun y hy => (cut_valid hP x hγ hy).2⟩
  value o x γ o' cut γ1 ho h := by
    unfold clipped at h
    split_ifs at h with hγ
    swap
    · simp at h
    obtain ⟨o1, -, ⟨h1, hx⟩ | ⟨h1, hpos⟩ | ⟨h1, hpos⟩⟩ := asOracle_cases hP ho x hγ
    all_goals
      rw [h1] at h
      simp only [Prod.mk.injEq, Except.ok.injEq, reduceCtorEq, and_false, Option.some.injEq] at h
    obtain ⟨-, rfl, rfl⟩ := h
    exact ⟨hx.2, fun y hy => optimal_cut_valid hP x (hγ.trans hx.2) hy⟩

theorem level_antitone (P : ProfitProblem) : Antitone P.Level := fun _ _ h _ hx => ⟨hx.1, h.trans hx.2⟩

/-- Reported values are at least as good as the level, hence nonnegative. -/
theorem asOracle_value (hP : P.Proper) {o : ProfitOracle} (ho : Good P o) {x : Vec 2} {γ : ℝ} (hγ : 0 ≤ γ) {o' cut γ1}
    (h : asOracle o x γ = (o', .ok (cut, some γ1))) : γ ≤ γ1 ∧ x ∈ P.Level γ1 ∧ γ1 = P.profit (quant x) := by
  obtain ⟨o1, -, ⟨h1, hx⟩ | ⟨h1, hpos⟩ | ⟨h1, hpos⟩⟩ := asOracle_cases hP ho x hγ
  all_goals
    rw [h1] at h
    simp only [Prod.mk.injEq, Except.ok.injEq, reduceCtorEq, and_false, Option.some.injEq] at h
  obtain ⟨-, -, rfl⟩ := h
  exact ⟨hx.2, ⟨hx.1, le_rfl⟩, rfl⟩

theorem optim_clipped (hP : P.Proper) {o : ProfitOracle} (ho : Good P o) {γ0 : ℝ} (hγ : 0 ≤ γ0) {S : Type*}
    (sp : SearchSpace S (Vec 2) (Cut 2) ℝ) (lt : ℝ → ℝ → Bool) (s : S) (opts : Options ℝ) :
    optim clipped sp lt o s γ0 opts = optim asOracle sp lt o s γ0 opts :=
  optim_congr (I := Good P) (J := fun γ => 0 ≤ γ) (fun _ _ _ ho _ => asOracle_good ho _ _)
    (fun _ _ _ _ _ _ ho hγ h => hγ.trans (asOracle_value hP ho hγ h).1) (fun _ _ _ _ hγ => if_pos hγ) ho hγ opts

end ProfitOracle

open ProfitOracle in
/-- **C64.** `cutting_plane_optim` with `ProfitOracle` and `Ell`, started at a level `γ0 ≥ 0` whose designs lie in the initial ellipsoid, after any earlier use of the oracle:
* the returned pair is `(None, γ0)`, or a design that respects the limit together with its profit, which is at least `γ0`;
* if it stops before the iteration limit (positive tolerance), then either no design that respects the limit has a profit above `γ + (1 - exp(-√tolerance)) · revenue`, or every design with at least the profit `γ` uses more than `exp(-√tolerance)` times the limit of the first input. -/
theorem C64_profit_loop (hP : P.Proper) (o : ProfitOracle)
    (ho : ProfitOracle.init P.price P.scale P.limit P.alpha P.cost = .ok o) (hist : List ProfitCall) (e : Ell 2) (he : e.WF)
    (γ0 : ℝ) (hγ0 : 0 ≤ γ0) (hF : P.Level γ0 ⊆ e.region) (opts : Options ℝ) (o' : ProfitOracle) (e' : Ell 2)
    (xb : Option (Vec 2)) (γ : ℝ) (k : ℕ)
    (h : optim ProfitOracle.asOracle (Ell.space 2) ltReal (o.after hist) e γ0 opts = (o', e', .ok (xb, γ, k))) :
    ((xb = none ∧ γ = γ0) ∨ ∃ x, xb = some x ∧ quant x 0 ≤ P.limit ∧ γ = P.profit (quant x) ∧ γ0 ≤ γ) ∧
    (k < opts.maxIters → 0 < opts.tolerance →
      (∀ y, quant y 0 ≤ P.limit → P.profit (quant y) ≤ γ + (1 - Real.exp (-Real.sqrt opts.tolerance)) * P.revenue (quant y)) ∨
      (∀ y ∈ P.Level γ, Real.exp (-Real.sqrt opts.tolerance) * P.limit < quant y 0)) := by
  obtain ⟨o2, h2, hg⟩ := init_good hP
  rw [ho] at h2
  cases h2
  have hg := after_good hg hist
  constructor
  · have := optim_best_spec_level (I := Good P) (J := fun γ => γ0 ≤ γ) (P := fun x γ => x ∈ P.Level γ ∧ γ = P.profit (quant x) ∧ γ0 ≤ γ)
      (fun _ _ _ ho => asOracle_good ho _ _) (fun o x γ o' cut γ1 ho hγ h => by
        obtain ⟨a, b, c⟩ := asOracle_value hP ho (hγ0.trans hγ) h
        exact ⟨hγ.trans a, b, c, hγ.trans a⟩) hg le_rfl h
    rcases this with h | ⟨x, hx, hl, hp, hle⟩
    · exact .inl h
    · exact .inr ⟨x, hx, hl.1, hp, hle⟩
  · intro hk htol
    rw [← optim_clipped hP hg hγ0] at h
    obtain ⟨l, o1, e1, ev, ht, -, h2, h3, hb, hflat⟩ :=
      C63_optim_flat (level_antitone P) (clipped_level hP) _ hg e he γ0 hF opts htol o' e' xb γ k hk h
    have hi := ht.inv_oracle (clipped_level hP) hg
    have hγ : ev.gamma1.getD ev.gamma = γ := by rw [← bestOf_snoc_snd γ0 l ev h2, ← hb]
    unfold clipped at h3
    split_ifs at h3 with hge
    swap
    · simp at h3
    have upgrade : ∀ {γ}, 0 ≤ γ → (∀ y ∈ P.Level γ, P.profit (quant y) ≤ γ + (1 - Real.exp (-Real.sqrt opts.tolerance)) * P.revenue (quant y)) →
        ∀ y, quant y 0 ≤ P.limit → P.profit (quant y) ≤ γ + (1 - Real.exp (-Real.sqrt opts.tolerance)) * P.revenue (quant y) := by
      intro γ _ H y hy
      rcases le_total γ (P.profit (quant y)) with h | h
      · exact H y ⟨hy, h⟩
      · have h1 : Real.exp (-Real.sqrt opts.tolerance) ≤ 1 := Real.exp_le_one_iff.mpr (neg_nonpos.mpr (Real.sqrt_nonneg _))
        have h2 := mul_nonneg (sub_nonneg.mpr h1) (revenue_pos hP y).le
        linarith
    obtain ⟨o3, -, ⟨h1, hx⟩ | ⟨h1, hpos⟩ | ⟨h1, hpos⟩⟩ := asOracle_cases hP hi ev.x hge
    all_goals
      rw [h1] at h3
      simp only [Prod.mk.injEq, Except.ok.injEq] at h3
      obtain ⟨-, hc, hv⟩ := h3
      rw [← hv] at hγ
      simp only [Option.getD_none, Option.getD_some] at hγ
      subst hγ
      rw [← hc] at hflat
    · left
      refine upgrade (hge.trans hx.2) fun y hy => gap_of_flat hP (hge.trans hx.2) (ge_of_eq ?_) (hflat y hy)
      exact h2_profit hP _
    · right
      intro y hy
      have h4 := hflat y hy
      simp only [dotProduct, Fin.sum_univ_two, Pi.sub_apply, cons_val_zero, cons_val_one, one_mul, zero_mul, add_zero] at h4
      have h5 := (abs_lt.mp ((Real.lt_sqrt (abs_nonneg _)).mpr (by rwa [sq_abs]))).1
      have h6 : -Real.sqrt opts.tolerance + Real.log P.limit < y 0 := by linarith
      have := Real.exp_lt_exp.mpr h6
      rwa [Real.exp_add, Real.exp_log hP.limit] at this
    · left
      exact upgrade hge fun y hy => gap_of_flat hP hge hpos.le (hflat y hy)

namespace ProfitOracle

/-- What holds along a run: scalar deep cuts keep the ellipsoid legitimate, the best value is the initial level or attained. -/
theorem trace_inv (hP : P.Proper) {o : ProfitOracle} (ho : Good P o) {e : Ell 2} (he : e.Weak) {γ0 : ℝ} (hγ0 : 0 ≤ γ0) {tol : ℝ}
    {l o1 e1} (h : OptimTrace asOracle (Ell.space 2) ltReal tol o e γ0 l o1 e1) :
    Good P o1 ∧ e1.Weak ∧ γ0 ≤ (bestOf γ0 l).2 ∧ ((bestOf γ0 l).2 = γ0 ∨ (P.Level (bestOf γ0 l).2).Nonempty) := by
  induction h with
  | start => exact ⟨ho, he, le_rfl, .inl rfl⟩
  | @step l o1 s1 o2 s2 ev t h1 h2 h3 h4 _ ih =>
    obtain ⟨i1, i2, i3, i4⟩ := ih
    obtain ⟨x, γ, cut, γ1⟩ := ev
    simp only at h1 h2 h3 h4
    have hγ : 0 ≤ γ := by rw [h2]; exact hγ0.trans i3
    have hg : Good P o2 := by have := asOracle_good i1 x γ; rwa [h3] at this
    refine ⟨hg, ?_, ?_⟩
    · obtain ⟨o3, -, ⟨a, hx⟩ | ⟨a, hpos⟩ | ⟨a, hpos⟩⟩ := asOracle_cases hP i1 x hγ
      all_goals
        rw [a] at h3
        simp only [Prod.mk.injEq, Except.ok.injEq] at h3
        obtain ⟨-, rfl, rfl⟩ := h3
      · exact Ell.weak_scalar_central i2 h4
      · exact Ell.weak_scalar_bias i2 hpos.le h4
      · exact Ell.weak_scalar_bias i2 hpos.le h4
    · rw [bestOf_snoc]
      cases γ1 with
      | none => exact ⟨i3, i4⟩
      | some g =>
        obtain ⟨a, b, -⟩ := asOracle_value hP i1 hγ h3
        refine ⟨?_, .inr ⟨x, b⟩⟩
        rw [h2] at a
        exact i3.trans a

end ProfitOracle

open ProfitOracle in
/-- **C65.** `cutting_plane_optim` with `ProfitOracle` and `Ell`, from any legitimate ellipsoid and any level `γ0 ≥ 0`: the only exception it can raise is the `ValueError` for a zero gradient. Then either no design reaches `γ0`, or the centre at which it was raised (still
available as `space.xc()`) is a global optimum: it respects the limit and no design at all has a higher profit. -/
theorem C65_profit_loop_raises (hP : P.Proper) (o : ProfitOracle)
    (ho : ProfitOracle.init P.price P.scale P.limit P.alpha P.cost = .ok o) (hist : List ProfitCall) (e : Ell 2) (he : e.WF)
    (γ0 : ℝ) (hγ0 : 0 ≤ γ0) (opts : Options ℝ) (o' : ProfitOracle) (e' : Ell 2) (f : Fault)
    (h : optim ProfitOracle.asOracle (Ell.space 2) ltReal (o.after hist) e γ0 opts = (o', e', .error f)) :
    f = .valueError ∧
    (P.Level γ0 = ∅ ∨
      (e'.xc ∈ P.Level γ0 ∧ ∀ y, P.profit (quant y) ≤ P.profit (quant e'.xc))) := by
  obtain ⟨o2, h2, hg⟩ := init_good hP
  rw [ho] at h2
  cases h2
  have hg := after_good hg hist
  obtain ⟨l, o1, e1, ht, hend⟩ := optim_spec ProfitOracle.asOracle (Ell.space 2) ltReal (o.after hist) e γ0 opts
  rw [h] at hend
  simp only at hend
  obtain ⟨i1, i2, i3, i4⟩ := trace_inv hP hg he.weak hγ0 ht
  have hγ : 0 ≤ (bestOf γ0 l).2 := hγ0.trans i3
  cases hend with
  | oracleRaises _ ha =>
    obtain ⟨o3, -, ⟨a, hx⟩ | ⟨a, hpos⟩ | ⟨a, hpos⟩⟩ := asOracle_cases hP i1 ((Ell.space 2).xc e') hγ
    all_goals rw [a] at ha; simp at ha
  | @updateRaises _ _ _ ev _ h1 h2 h3 h4 =>
    obtain ⟨x, γ, cut, γ1⟩ := ev
    simp only at h1 h2 h3
    have h1' : x = e1.xc := h1
    subst h1' h2
    obtain ⟨o3, -, ⟨a, hx⟩ | ⟨a, hpos⟩ | ⟨a, hpos⟩⟩ := asOracle_cases hP i1 e1.xc hγ
    all_goals
      rw [a] at h3
      simp only [Prod.mk.injEq, Except.ok.injEq] at h3
      obtain ⟨-, rfl, rfl⟩ := h3
    · obtain ⟨g0, rfl, rfl⟩ := Ell.scalar_central_raises i2 h4
      refine ⟨rfl, .inr ⟨⟨hx.1, i3.trans hx.2⟩, fun y => ?_⟩⟩
      have := h2_ge_of_zero hP (hγ.trans hx.2) g0 y
      rw [h2_profit hP] at this
      have := profit_le_of_h2 hP (hγ.trans hx.2) y (t := 0) (by simpa using this)
      simpa using this
    · obtain ⟨g0, -, -⟩ := Ell.scalar_bias_raises i2 hpos h4
      have := congrFun g0 0
      simp at this
    · obtain ⟨g0, rfl, -⟩ := Ell.scalar_bias_raises i2 hpos h4
      refine ⟨rfl, .inl ?_⟩
      have hempty : P.Level (bestOf γ0 l).2 = ∅ := by
        ext y
        simp only [Set.mem_empty_iff_false, iff_false]
        intro hy
        have h5 := ((mem_level_iff hP hγ y).mp hy).2
        have h6 := h2_ge_of_zero hP hγ g0 y
        linarith
      rcases i4 with i4 | i4
      · rwa [i4] at hempty
      · rw [hempty] at i4; simp at i4

/-- `p A = 4`, elasticities `1/4`, input prices 1: the best design is `(1, 1)`. -/
noncomputable def exactProfit : ProfitProblem := ⟨2, 2, 10, ![1 / 4, 1 / 4], ![1, 1]⟩

theorem exactProfit_proper : exactProfit.Proper :=
  ⟨by norm_num [exactProfit], by norm_num [exactProfit], fun i => by fin_cases i <;> norm_num [exactProfit]⟩

/-- C65 is not vacuous: started with the unit disc around the optimum, at level 0, the loop raises instead of returning the optimum. -/
theorem C65_exact_optimum_raises : ∃ o, ProfitOracle.init exactProfit.price exactProfit.scale exactProfit.limit exactProfit.alpha
    exactProfit.cost = .ok o ∧
    ∃ o' e', optim ProfitOracle.asOracle (Ell.space 2) ltReal o unitDisc 0 ⟨2000, 1⟩ = (o', e', .error .valueError) := by
  obtain ⟨o, ho, hg⟩ := ProfitOracle.init_good exactProfit_proper
  refine ⟨o, ho, ?_⟩
  have hp : exactProfit.profit (quant 0) = 2 := by simp [profit, quant, exactProfit]; norm_num
  have h0 : (0 : Vec 2) ∈ exactProfit.Level 0 := ⟨by simp [quant, exactProfit], by rw [hp]; norm_num⟩
  have hz : ProfitOracle.g2 exactProfit 2 0 = 0 := by
    funext i
    fin_cases i <;> simp [ProfitOracle.g2, exactProfit] <;> norm_num
  obtain ⟨o1, -, ⟨a, -⟩ | ⟨a, hpos⟩ | ⟨a, hpos⟩⟩ := ProfitOracle.asOracle_cases exactProfit_proper hg (0 : Vec 2) (le_refl (0 : ℝ))
  · rw [hp, hz] at a
    refine ⟨o1, unitDisc, ?_⟩
    unfold optim optimLoop
    have a' : ProfitOracle.asOracle o ((Ell.space 2).xc unitDisc) 0 = (o1, .ok ((0, .scalar 0), some 2)) := a
    have hu : (Ell.space 2).updateCentralCut unitDisc ((0 : Vec 2), CutChoice.scalar 0) = (unitDisc, .error .valueError) :=
      Ell.updateCore_zero _ _ _
    rw [a']
    simp only [hu]
  · have := ((ProfitOracle.mem_level_iff exactProfit_proper le_rfl 0).mp h0).1
    linarith
  · have := ((ProfitOracle.mem_level_iff exactProfit_proper le_rfl 0).mp h0).2
    linarith

/-- **C66, robust.** Whatever `cutting_plane_optim` with `ProfitRbOracle` returns, over any search space and from any level `γ0 ≥ 0`, is `(None, γ0)` or a design with a profit that every scenario guarantees (and one attains), within the limit of every scenario. -/
theorem C66_robust_loop {e1 e2 e3 e4 e5 : ℝ} (h : RobustProper P e1 e2 e3 e4 e5) (o : ProfitRbOracle)
    (ho : ProfitRbOracle.init P.price P.scale P.limit P.alpha P.cost e1 e2 e3 e4 e5 = .ok o) (hist : List (Vec 2 × ℝ))
    {S : Type*} (sp : SearchSpace S (Vec 2) (Cut 2) ℝ) (lt : ℝ → ℝ → Bool) (s : S) (γ0 : ℝ) (hγ0 : 0 ≤ γ0) (opts : Options ℝ)
    (o' : ProfitRbOracle) (s' : S) (xb : Option (Vec 2)) (γ : ℝ) (k : ℕ)
    (hr : optim ProfitRbOracle.asOracle sp lt (o.after hist) s γ0 opts = (o', s', .ok (xb, γ, k))) :
    (xb = none ∧ γ = γ0) ∨ ∃ x, xb = some x ∧ γ0 ≤ γ ∧
      (∀ S, P.Scenario e1 e2 e3 e4 e5 S → quant x 0 ≤ S.limit ∧ γ ≤ S.profit (quant x)) ∧
      ∃ S, P.Scenario e1 e2 e3 e4 e5 S ∧ γ = S.profit (quant x) := by
  have after_append : ∀ (l : List (Vec 2 × ℝ)) (o : ProfitRbOracle) x γ, ((o.after l).assessOptim x γ).1 = o.after (l ++ [(x, γ)]) := by
    intro l
    induction l with
    | nil => intros; rfl
    | cons c l ih => intro o x γ; exact ih _ x γ
  refine optim_best_spec_level (I := fun o1 => ∃ l, o1 = o.after l) (J := fun γ => γ0 ≤ γ) (P := fun x γ => γ0 ≤ γ ∧
      (∀ S, P.Scenario e1 e2 e3 e4 e5 S → quant x 0 ≤ S.limit ∧ γ ≤ S.profit (quant x)) ∧
      ∃ S, P.Scenario e1 e2 e3 e4 e5 S ∧ γ = S.profit (quant x)) ?_ ?_ ⟨hist, rfl⟩ le_rfl hr
  · rintro _ x γ ⟨l, rfl⟩
    exact ⟨_, after_append l o x γ⟩
  · rintro _ x γ o1 cut γ1 ⟨l, rfl⟩ hγ ha
    unfold ProfitRbOracle.asOracle at ha
    rcases C51_robust h o ho l x γ (hγ0.trans hγ) with ⟨-, o2, g, γ2, h1, h2, h3, h4, -⟩ | ⟨-, o2, g, b, h1, -⟩
    · rw [h1] at ha
      simp only [Except.map, Prod.mk.injEq, Except.ok.injEq, Option.some.injEq] at ha
      obtain ⟨-, -, rfl⟩ := ha
      exact ⟨hγ.trans h2, hγ.trans h2, h3, h4⟩
    · rw [h1] at ha
      simp [Except.map] at ha

/-- **C66, discrete.** Whatever `cutting_plane_optim_q` with `ProfitQOracle` returns, over any search space and from any level `γ0 ≥ 0`, is `(None, γ0)` or an integer design within the limit together with its profit (which need not be the best one, see `C53_refuted`). -/
theorem C66_integer_loop (hP : P.Proper) (o : ProfitQOracle)
    (ho : ProfitQOracle.init P.price P.scale P.limit P.alpha P.cost = .ok o) (hist : List (Vec 2 × ℝ × Bool))
    {S : Type*} (sp : SearchSpace S (Vec 2) (Cut 2) ℝ) (lt : ℝ → ℝ → Bool) (s : S) (γ0 : ℝ) (hγ0 : 0 ≤ γ0) (opts : Options ℝ)
    (o' : ProfitQOracle) (s' : S) (xb : Option (Vec 2)) (γ : ℝ) (k : ℕ)
    (hr : optimQ ProfitQOracle.asOracle sp lt (o.after hist) s γ0 opts = (o', s', .ok (xb, γ, k))) :
    (xb = none ∧ γ = γ0) ∨ ∃ x, xb = some x ∧ γ0 ≤ γ ∧ IntegerPoint x ∧ quant x 0 ≤ P.limit ∧ γ = P.profit (quant x) := by
  have after_append : ∀ (l : List (Vec 2 × ℝ × Bool)) (o : ProfitQOracle) x γ r,
      ((o.after l).assessOptimQ x γ r).1 = o.after (l ++ [(x, γ, r)]) := by
    intro l
    induction l with
    | nil => intros; rfl
    | cons c l ih => intro o x γ r; exact ih _ x γ r
  refine optimQ_best_spec (I := fun o1 => ∃ l, o1 = o.after l) (J := fun γ => γ0 ≤ γ)
    (P := fun x γ => γ0 ≤ γ ∧ IntegerPoint x ∧ quant x 0 ≤ P.limit ∧ γ = P.profit (quant x)) ?_ ?_ ⟨hist, rfl⟩ le_rfl hr
  · rintro _ x γ r ⟨l, rfl⟩
    exact ⟨_, after_append l o x γ r⟩
  · rintro _ x γ r o1 a γ1 ⟨l, rfl⟩ hγ ha hv
    unfold ProfitQOracle.asOracle at ha
    obtain ⟨o2, a2, h1, -, h2⟩ := C52_integer_designs hP o ho l x γ (hγ0.trans hγ) r
    rw [h1] at ha
    simp only [Except.map, Prod.mk.injEq, Except.ok.injEq] at ha
    obtain ⟨-, rfl⟩ := ha
    obtain ⟨h3, h4, h5, h6, -⟩ := h2 γ1 hv
    exact ⟨hγ.trans h6, hγ.trans h6, h3, h4, h5⟩

/-- The disc of squared radius 400. -/
noncomputable def disc400 : Ell 2 := { unitDisc with kappa := 400 }

theorem disc400_WF : disc400.WF := ⟨unitDisc_WF.built, unitDisc_WF.posDef, by norm_num [disc400]⟩

/-- All designs of `sampleProfit` with profit at least 8 are in the disc of squared radius 400. -/
theorem sampleProfit_level8 : sampleProfit.Level 8 ⊆ disc400.region := by
  rintro x ⟨h1, h2⟩
  have h10 : Real.log 10 < 3 := by
    rw [Real.log_lt_iff_lt_exp (by norm_num)]
    have h2 : (2.7 : ℝ) < Real.exp 1 := by have := Real.exp_one_gt_d9; linarith
    have h3 : Real.exp 3 = Real.exp 1 ^ 3 := by rw [← Real.exp_nat_mul]; norm_num
    rw [h3]
    have : (2.7 : ℝ) ^ 3 < Real.exp 1 ^ 3 := by gcongr
    norm_num at this
    linarith
  have a1 : x 0 ≤ Real.log 10 := (Real.le_log_iff_exp_le (by norm_num)).mpr h1
  rw [ProfitOracle.profit_eq sampleProfit_proper] at h2
  have hrev : Real.log (sampleProfit.price * sampleProfit.scale) + sampleProfit.alpha ⬝ᵥ x = Real.log 10 + (x 0 + x 1) / 2 := by
    simp [sampleProfit, dotProduct, Fin.sum_univ_two]; norm_num; ring
  rw [hrev] at h2
  have h2' : 8 + (Real.exp (x 0) + Real.exp (x 1)) ≤ Real.exp (Real.log 10 + (x 0 + x 1) / 2) := by
    have e0 : sampleProfit.cost 0 = 1 := rfl
    have e1 : sampleProfit.cost 1 = 1 := rfl
    rw [e0, e1] at h2
    linarith
  have p0 := Real.exp_pos (x 0)
  have p1 := Real.exp_pos (x 1)
  have a2 : x 1 ≤ Real.log 10 + (x 0 + x 1) / 2 := Real.exp_le_exp.mp (by linarith)
  have a3 : 0 ≤ Real.log 10 + (x 0 + x 1) / 2 := Real.exp_le_exp.mp (by rw [Real.exp_zero]; linarith)
  have b1 : x 1 ≤ 9 := by linarith
  have b2 : -6 ≤ x 0 + x 1 := by linarith
  have c0 : (x 0) ^ 2 ≤ 225 := by nlinarith
  have c1 : (x 1) ^ 2 ≤ 81 := by nlinarith
  show (x - disc400.xc) ⬝ᵥ ((disc400.mq)⁻¹ *ᵥ (x - disc400.xc)) ≤ disc400.kappa
  simp [disc400, unitDisc, dotProduct, Fin.sum_univ_two]
  nlinarith

/-- The first centre has the profit 8, and `tsq = 128` is below the tolerance 200. -/
theorem sampleProfit_run8 : ∃ o, ProfitOracle.init sampleProfit.price sampleProfit.scale sampleProfit.limit sampleProfit.alpha sampleProfit.cost = .ok o ∧
    ∃ o' e', optim ProfitOracle.asOracle (Ell.space 2) ltReal o disc400 8 ⟨2000, 200⟩ = (o', e', .ok (some 0, 8, 0)) := by
  obtain ⟨o, ho, hg⟩ := ProfitOracle.init_good sampleProfit_proper
  refine ⟨o, ho, ?_⟩
  have hp : sampleProfit.profit (quant 0) = 8 := by rw [sampleProfit_at]; simp [quant]; norm_num
  have h0 : (0 : Vec 2) ∈ sampleProfit.Level 8 := ⟨by simp [quant, sampleProfit], by rw [hp]⟩
  have hz : ProfitOracle.g2 sampleProfit 8 0 = ![-2 / 5, -2 / 5] := by
    funext i
    fin_cases i <;> simp [ProfitOracle.g2, sampleProfit] <;> norm_num
  obtain ⟨o1, -, ⟨a, -⟩ | ⟨a, hpos⟩ | ⟨a, hpos⟩⟩ := ProfitOracle.asOracle_cases sampleProfit_proper hg (0 : Vec 2) (by norm_num : (0 : ℝ) ≤ 8)
  · rw [hp, hz] at a
    have hω : disc400.omega ![-2 / 5, -2 / 5] = 8 / 25 := by
      simp [Ell.omega, disc400, unitDisc, dotProduct, Fin.sum_univ_two]; norm_num
    have hgne : (![-2 / 5, -2 / 5] : Vec 2) ≠ 0 := fun h => by have := congrFun h 0; simp at this
    have hu : (Ell.space 2).updateCentralCut disc400 ((![-2 / 5, -2 / 5] : Vec 2), CutChoice.scalar 0) = (_, _) :=
      Ell.updateCore_some (p := disc400.helper.helper.calcCentralCut (Real.sqrt (400 * (8 / 25)))) hgne (by rw [hω]; norm_num) (by
        rw [hω, show disc400.kappa = 400 from rfl]
        show (psqrt (400 * (8 / 25)) >>= fun tau => _) = _
        rw [psqrt_ok (by norm_num)]
        rfl)
    refine ⟨o1, disc400.applied ![-2 / 5, -2 / 5] (disc400.helper.helper.calcCentralCut (Real.sqrt (400 * (8 / 25)))), ?_⟩
    unfold optim optimLoop
    have a' : ProfitOracle.asOracle o ((Ell.space 2).xc disc400) 8 =
      (o1, .ok ((![-2 / 5, -2 / 5], .scalar 0), some 8)) := a
    rw [a']
    simp only [hu]
    rw [if_pos]
    · rfl
    · right
      rw [ltReal_iff]
      change disc400.kappa * disc400.omega ![-2 / 5, -2 / 5] < 200
      rw [hω, show disc400.kappa = 400 from rfl]; norm_num
  · have := ((ProfitOracle.mem_level_iff sampleProfit_proper (by norm_num) 0).mp h0).1
    linarith
  · have := ((ProfitOracle.mem_level_iff sampleProfit_proper (by norm_num) 0).mp h0).2
    linarith

/-- C64 applies to a run that ends on the tolerance: `sampleProfit` from the disc of squared radius 400. -/
example : disc400.WF ∧ sampleProfit.Level 8 ⊆ disc400.region ∧ ∃ o, ProfitOracle.init sampleProfit.price sampleProfit.scale sampleProfit.limit sampleProfit.alpha sampleProfit.cost = .ok o ∧
    ∃ o' e', optim ProfitOracle.asOracle (Ell.space 2) ltReal o disc400 8 ⟨2000, 200⟩ = (o', e', .ok (some 0, 8, 0)) :=
  ⟨disc400_WF, sampleProfit_level8, sampleProfit_run8⟩

end Ellalgo
