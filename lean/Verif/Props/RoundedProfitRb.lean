import Verif.Props.RoundedProfit
import Verif.Spec.RoundedProfitRb
import Verif.Py.Refine.ProfitRb

/-! # C121: the robust profit oracle in floating point -/

namespace Ellalgo

open Matrix Spec Spec.ProfitProblem CuttingPlane

variable {A : Arith} {u ν : ℝ} {P S T : ProfitProblem} {e1 e2 e3 e4 e5 : ℝ} {τ δ γs B W X r : ℝ} {c : Vec 2}

/-! ### Problems with perturbed data -/

theorem perturbed_rel (h : T.Perturbed u S) (hu : 0 ≤ u) (hu2 : 2000 * u ≤ 1) : Rel (2 * u) (S.price * S.scale) (T.price * T.scale) ∧ Rel (2 * u) S.limit T.limit ∧ ∀ i, Rel (2 * u) (S.cost i) (T.cost i) := by
  refine ⟨?_, Rel.of_abs h.limit hu (by linarith), fun i => Rel.of_abs (h.cost i) hu (by linarith)⟩
  rw [h.scale]
  have := (Rel.of_abs h.price hu (by linarith)).const_mul T.scale
  rwa [mul_comm T.scale, mul_comm T.scale] at this

theorem perturbed_outlay (h : T.Perturbed u S) (hu : 0 ≤ u) (hu2 : 2000 * u ≤ 1) (hT : T.Proper) (y : Vec 2) : Rel (2 * u) (S.outlay y) (T.outlay y) := by
  obtain ⟨-, -, h1⟩ := perturbed_rel h hu hu2
  have k : ∀ i, Rel (2 * u) (S.cost i * Real.exp (y i)) (T.cost i * Real.exp (y i)) := fun i => by
    have := (h1 i).const_mul (Real.exp (y i))
    rwa [mul_comm (Real.exp _), mul_comm (Real.exp _)] at this
  exact (k 0).add (k 1) (mul_pos (hT.cost 0) (Real.exp_pos _)) (mul_pos (hT.cost 1) (Real.exp_pos _)).le

theorem perturbed_revenue (h : T.Perturbed u S) (hu : 0 ≤ u) (hu2 : 2000 * u ≤ 1) (hT : T.Proper) (y : Vec 2) : |S.logRevenue y - T.logRevenue y| ≤ 2 * u * T.magnitude y ∧ S.magnitude y ≤ (1 + 2 * u) * T.magnitude y := by
  obtain ⟨h1, -, -⟩ := perturbed_rel h hu hu2
  have h2 := h1.log_sub hT.rev
  have k : ∀ i, |S.alpha i * y i - T.alpha i * y i| ≤ u * |T.alpha i * y i| := fun i => by
    rw [← sub_mul, abs_mul, abs_mul, ← mul_assoc]
    exact mul_le_mul_of_nonneg_right (h.alpha i) (abs_nonneg _)
  have k0 := k 0
  have k1 := k 1
  unfold logRevenue magnitude
  rw [dotProduct, dotProduct, Fin.sum_univ_two, Fin.sum_univ_two]
  generalize Real.log (S.price * S.scale) = a at *
  generalize Real.log (T.price * T.scale) = b at *
  generalize S.alpha 0 * y 0 = a0 at *
  generalize S.alpha 1 * y 1 = a1 at *
  generalize T.alpha 0 * y 0 = b0 at *
  generalize T.alpha 1 * y 1 = b1 at *
  have m0 := mul_nonneg hu (abs_nonneg b0)
  have m1 := mul_nonneg hu (abs_nonneg b1)
  have m := mul_nonneg hu (abs_nonneg b)
  constructor
  · rw [abs_le] at *
    constructor <;> linarith [h2.1, h2.2, k0.1, k0.2, k1.1, k1.2]
  · have t : |a| ≤ |b| + 2 * u := by linarith [abs_sub_abs_le_abs_sub a b]
    have t0 : |a0| ≤ |b0| + u * |b0| := by linarith [abs_sub_abs_le_abs_sub a0 b0]
    have t1 : |a1| ≤ |b1| + u * |b1| := by linarith [abs_sub_abs_le_abs_sub a1 b1]
    linarith

/-! ### The worst scenario -/

section worst

variable (h1 : 0 ≤ e1) (h2 : 0 ≤ e2) (h3 : 0 ≤ e3) (h4 : 0 ≤ e4) (h5 : 0 ≤ e5) (hp : 0 < P.price - e3) (hs : 0 < P.scale) (hl : 0 < P.limit - e4) (hc : ∀ i, 0 < P.cost i + e5)

include hp hs hl hc in
theorem worst_proper (y : Vec 2) : (P.worst e1 e2 e3 e4 e5 y).Proper := ⟨mul_pos hp hs, hl, hc⟩

include h1 h2 h3 h4 h5 in
theorem worst_scenario (y : Vec 2) : P.Scenario e1 e2 e3 e4 e5 (P.worst e1 e2 e3 e4 e5 y) where
  alpha0 := by
    simp only [worst, worstAlpha, cons_val_zero, add_sub_cancel_left]
    split <;> simp [abs_of_nonneg h1]
  alpha1 := by
    simp only [worst, worstAlpha, cons_val_one, add_sub_cancel_left]
    split <;> simp [abs_of_nonneg h2]
  price := by simp [worst, abs_of_nonneg h3]
  scale := rfl
  limit := by simp [worst, abs_of_nonneg h4]
  cost i := by simp [worst, abs_of_nonneg h5]

theorem worst_term {a a' e t : ℝ} (h : |a' - a| ≤ e) : (a + (if 0 < t then -e else e)) * t ≤ a' * t := by
  obtain ⟨k1, k2⟩ := abs_le.mp h
  split_ifs with h0
  · nlinarith
  · nlinarith [not_lt.mp h0]

include hp hs in
theorem worst_revenue (hT : P.Scenario e1 e2 e3 e4 e5 T) (y : Vec 2) : (P.worst e1 e2 e3 e4 e5 y).logRevenue y ≤ T.logRevenue y := by
  have k : (P.price - e3) * P.scale ≤ T.price * T.scale := by
    rw [hT.scale]
    exact mul_le_mul_of_nonneg_right (by linarith [(abs_le.mp hT.price).1]) hs.le
  have k1 := Real.log_le_log (mul_pos hp hs) k
  have k2 := worst_term (t := y 0) hT.alpha0
  have k3 := worst_term (t := y 1) hT.alpha1
  simp only [logRevenue, worst, worstAlpha, dotProduct, Fin.sum_univ_two, cons_val_zero, cons_val_one]
  linarith

theorem worst_outlay (hT : P.Scenario e1 e2 e3 e4 e5 T) (y : Vec 2) : T.outlay y ≤ (P.worst e1 e2 e3 e4 e5 y).outlay y := by
  have k : ∀ i, T.cost i * Real.exp (y i) ≤ (P.cost i + e5) * Real.exp (y i) := fun i =>
    mul_le_mul_of_nonneg_right (by linarith [(abs_le.mp (hT.cost i)).2]) (Real.exp_pos _).le
  exact add_le_add (k 0) (k 1)

include h1 h2 h3 h4 h5 hp hs hl hc in
/-- What is reported for the worst scenario in the arithmetic of the machine, in terms of all scenarios. -/
theorem nearRobust_of (hu : 0 ≤ u) (hu2 : 2000 * u ≤ 1) {y : Vec 2} (hS : (P.worst e1 e2 e3 e4 e5 y).Perturbed u S) {γ : ℝ} (h : NearProfit S u y γ) : NearRobust P e1 e2 e3 e4 e5 u y γ := by
  have hT := worst_proper (e1 := e1) (e2 := e2) hp hs hl hc y
  have hwT := worst_scenario (P := P) h1 h2 h3 h4 h5 y
  have hol : ∀ T, P.Scenario e1 e2 e3 e4 e5 T → T.outlay y ≤ (P.worst e1 e2 e3 e4 e5 y).outlay y := fun T hT => worst_outlay hT y
  have hrv := fun T (hT : P.Scenario e1 e2 e3 e4 e5 T) => worst_revenue hp hs hT y
  have hlim : ∀ T, P.Scenario e1 e2 e3 e4 e5 T → (P.worst e1 e2 e3 e4 e5 y).limit ≤ T.limit := fun T hT => by
    change P.limit - e4 ≤ _
    linarith [(abs_le.mp hT.limit).1]
  generalize hZ : P.worst e1 e2 e3 e4 e5 y = Z at *
  obtain ⟨-, k2, -⟩ := perturbed_rel hS hu hu2
  obtain ⟨k4, k5⟩ := perturbed_revenue hS hu hu2 hT y
  have k6 := perturbed_outlay hS hu hu2 hT y
  obtain ⟨k7, k9⟩ := abs_le.mp k4
  have hm : 0 < Z.magnitude y := zero_lt_one.trans_le (magnitude_pos Z y)
  have hm2 : u * (2 * u * Z.magnitude y) ≤ u * (Z.magnitude y / 10) := mul_le_mul_of_nonneg_left (by nlinarith) hu
  have hoZ := outlay_pos hT y
  have k8 : 10 * u * S.magnitude y ≤ 11 * u * Z.magnitude y := by nlinarith [mul_le_mul_of_nonneg_left k5 hu]
  refine ⟨fun T hTs => ?_, fun T hTs => ?_, ⟨Z, hwT, ?_⟩⟩
  · have l1 := (abs_le.mp (k2.log_sub hT.limit)).2
    have l2 := Real.log_le_log hT.limit (hlim T hTs)
    have l3 := h.limit
    have l4 : Real.log S.limit ≤ Real.log T.limit + 2 * u := by linarith
    generalize Real.log S.limit = a at *
    generalize Real.log T.limit = b at *
    rcases abs_cases a with ⟨ha, -⟩ | ⟨ha, -⟩ <;> rw [ha] at l3 <;> nlinarith [abs_nonneg b, le_abs_self b, neg_abs_le b, mul_nonneg hu hu]
  · refine h.high.trans (sub_le_sub (Real.exp_le_exp.mpr ?_) ?_)
    · rw [hZ]; linarith [hrv T hTs, mul_nonneg hu hm.le]
    · have j1 := k6.symm.upper (k6.pos hoZ).le
      calc T.outlay y * Real.exp (-(14 * u)) ≤ Z.outlay y * Real.exp (-(12 * u)) :=
            (mul_le_mul_of_nonneg_right (hol T hTs) (Real.exp_pos _).le).trans (mul_le_mul_of_nonneg_left (Real.exp_le_exp.mpr (by linarith)) hoZ.le)
        _ ≤ S.outlay y * Real.exp (2 * u) * Real.exp (-(12 * u)) := mul_le_mul_of_nonneg_right j1 (Real.exp_pos _).le
        _ = S.outlay y * Real.exp (-(10 * u)) := by rw [mul_assoc, ← Real.exp_add]; congr 2; ring
  · refine le_trans (sub_le_sub (Real.exp_le_exp.mpr ?_) ?_) h.low
    · rw [hZ]; linarith [mul_nonneg hu hm.le]
    · have j1 := k6.upper hoZ.le
      calc S.outlay y * Real.exp (10 * u) ≤ Z.outlay y * Real.exp (2 * u) * Real.exp (10 * u) := mul_le_mul_of_nonneg_right j1 (Real.exp_pos _).le
        _ = Z.outlay y * Real.exp (12 * u) := by rw [mul_assoc, ← Real.exp_add]; congr 2; ring
        _ ≤ _ := mul_le_mul_of_nonneg_left (Real.exp_le_exp.mpr (by linarith)) hoZ.le

end worst

/-! ### The oracle -/

/-- The robust oracle that has been constructed for `P`, in rounded arithmetic. -/
structure Arith.RobustGood (A : Arith) (u : ℝ) (P : ProfitProblem) (e1 e2 e3 e4 e5 : ℝ) (o : ProfitRbOracle) : Prop where
  elasticities : o.elasticities = P.alpha
  uie : o.uie = ![e1, e2]
  omega : ∃ a, Arith.ProfitGood u ⟨A.sub P.price e3, P.scale, A.sub P.limit e4, a, fun i => A.add (P.cost i) e5⟩ o.omega

/-- The problem that the machine solves at the point `x`. -/
noncomputable def Arith.worstProblem (A : Arith) (P : ProfitProblem) (e1 e2 e3 e4 e5 : ℝ) (x : Vec 2) : ProfitProblem :=
  ⟨A.sub P.price e3, P.scale, A.sub P.limit e4, fun i => A.rnd (P.worstAlpha e1 e2 x i), fun i => A.add (P.cost i) e5⟩

theorem worst_perturbed (hA : A.Accurate u ν 2) (x : Vec 2) : (P.worst e1 e2 e3 e4 e5 x).Perturbed u (A.worstProblem P e1 e2 e3 e4 e5 x) :=
  ⟨hA.rnd _, rfl, hA.rnd _, fun _ => hA.rnd _, fun _ => hA.rnd _⟩

theorem rb_eq {o : ProfitRbOracle} (ho : A.RobustGood u P e1 e2 e3 e4 e5 o) (x : Vec 2) (γ : ℝ) :
    ∃ o1, Arith.ProfitGood u (A.worstProblem P e1 e2 e3 e4 e5 x) o1 ∧ A.profitRbOracle o x γ = ({ o with omega := (A.profitOracle o1 x γ).1 }, (A.profitOracle o1 x γ).2) := by
  obtain ⟨a, h⟩ := ho.omega
  refine ⟨{ o.omega with elasticities := A.profitWorst o x }, ⟨h.logPA, h.logK, h.priceOut, ?_, h.idx⟩, rfl⟩
  funext i
  simp only [Arith.profitWorst, Arith.worstProblem, worstAlpha, ho.elasticities, ho.uie]
  fin_cases i <;> rfl

theorem rb_inv {o : ProfitRbOracle} (ho : A.RobustGood u P e1 e2 e3 e4 e5 o) (x : Vec 2) (γ : ℝ) : A.RobustGood u P e1 e2 e3 e4 e5 (A.profitRbOracle o x γ).1 := by
  obtain ⟨o1, h1, h2⟩ := rb_eq ho x γ
  rw [h2]
  refine ⟨ho.elasticities, ho.uie, fun i => A.rnd (P.worstAlpha e1 e2 x i), ?_⟩
  change Arith.ProfitGood u (A.worstProblem P e1 e2 e3 e4 e5 x) _
  obtain ⟨o', hg, h⟩ := profitOracle_cases (A := A) h1 x γ
  rcases h with ⟨-, h⟩ | ⟨-, h⟩ | ⟨-, -, h⟩ | ⟨-, -, -, ⟨-, h⟩ | ⟨-, h⟩⟩ <;> rw [h] <;> exact hg

/-- An answer of the robust oracle is an answer of the plain one for the problem of the machine at this point. -/
theorem rb_answer {o o' : ProfitRbOracle} (ho : A.RobustGood u P e1 e2 e3 e4 e5 o) {x : Vec 2} {γ : ℝ} {res : Except Fault (Cut 2 × Option ℝ)} (h : A.profitRbOracle o x γ = (o', res)) :
    ∃ o1 o2, Arith.ProfitGood u (A.worstProblem P e1 e2 e3 e4 e5 x) o1 ∧ A.profitOracle o1 x γ = (o2, res) := by
  obtain ⟨o1, h1, h2⟩ := rb_eq ho x γ
  refine ⟨o1, _, h1, Prod.ext rfl ?_⟩
  rw [h] at h2
  exact (congrArg Prod.snd h2).symm

/-- The robust oracle of the code in floating point. -/
theorem robust_nearLevel (hA : A.Accurate u ν 2) (hu : 0 ≤ u) (hν : ν ≤ 4 * u) (H : ∀ x, FloatProfit (A.worstProblem P e1 e2 e3 e4 e5 x) u τ δ γs B W X c r) :
    NearLevelOracle (A.RobustGood u P e1 e2 e3 e4 e5) (profitDrop u W - τ) (profitDrop u W) γs c r (δ ^ 2 / (32 * X ^ 2)) X A.profitRbOracle where
  inv o x γ ho := rb_inv ho x γ
  total o x γ o' f ho hx hγ hγs ha := by
    obtain ⟨o1, o2, h1, h2⟩ := rb_answer ho ha
    exact (profit_nearLevel hA hu hν (H x)).total _ _ _ _ _ h1 hx hγ hγs h2
  cut o x γ o' cut ho hx hγ hγs ha := by
    obtain ⟨o1, o2, h1, h2⟩ := rb_answer ho ha
    exact (profit_nearLevel hA hu hν (H x)).cut _ _ _ _ _ h1 hx hγ hγs h2
  drop o x γ o' cut γ1 ho hγ ha := by
    obtain ⟨o1, o2, h1, h2⟩ := rb_answer ho ha
    exact (profit_nearLevel hA hu hν (H x)).drop _ _ _ _ _ _ h1 hγ h2
  value o x γ o' cut γ1 ho hx hγ hγs hγ1 ha := by
    obtain ⟨o1, o2, h1, h2⟩ := rb_answer ho ha
    exact (profit_nearLevel hA hu hν (H x)).value _ _ _ _ _ _ h1 hx hγ hγs hγ1 h2

section plan

variable {p : ℕ} {R D g0 N : ℝ} {x : Vec 2} (H : RobustPlan P e1 e2 e3 e4 e5 p R r D τ δ γs g0 B W N x c)

include H

/-- The constructor. -/
theorem robustInit_good : ∃ o, (Arith.ieee p).profitRbInit P.price P.scale P.limit P.alpha P.cost e1 e2 e3 e4 e5 = .ok o ∧ (Arith.ieee p).RobustGood (2⁻¹ ^ p) P e1 e2 e3 e4 e5 o := by
  have h0 := (H.plan 0 _ (worst_perturbed (Arith.ieee_accurate p 2) 0)).profit
  have hP : ProfitProblem.Proper ⟨(Arith.ieee p).sub P.price e3, P.scale, (Arith.ieee p).sub P.limit e4, P.alpha, fun i => (Arith.ieee p).add (P.cost i) e5⟩ := ⟨h0.proper.rev, h0.proper.limit, h0.proper.cost⟩
  obtain ⟨o, h1, h2⟩ := profitInit_good (Arith.ieee_accurate p 2) (by positivity) h0.prec hP
  exact ⟨⟨P.alpha, ![e1, e2], o⟩, by simp only [Arith.profitRbInit]; rw [show (Arith.ieee p).profitInit _ _ _ _ _ = _ from h1]; rfl, rfl, rfl, _, h2⟩

/-- **C121.** `ProfitRbOracle(params, elasticities, price_out, (e1, e2, e3, e4, e5))`, `Ell(R ** 2, x)` and `cutting_plane_optim` from the value `g0`, on machine numbers with `p` bits. The designs of a ball of radius `r` inside the first ball have the profit `γs` with a factor `exp δ`
to spare, in the worst scenario of each sign pattern.
* A value of at least `γs` is reported after at most `(40/3) ln(2R/r)` completed iterations.
* With `max_iters` above this number and at most `N`, what is returned is a design `y` and a value `γ ≥ γs - N 9 2^-p W (1 + ln W)`, unless the call raises. Every scenario guarantees the limit and the profit `γ` for `y`, and one attains it, with limits, revenues and costs changed by factors close to 1. -/
theorem C121_robust {o : ProfitRbOracle} (ho : (Arith.ieee p).profitRbInit P.price P.scale P.limit P.alpha P.cost e1 e2 e3 e4 e5 = .ok o) {e : Ell 2} (he : (Arith.ieee p).ellInit (.scalar (R ^ 2)) x = .ok e) (opts : Options ℝ)
    (htol : 8 * opts.tolerance ≤ r ^ 2 * (δ ^ 2 / (32 * (D + floatAxes 2 R r) ^ 2))) :
    (∃ l o1 e', ∃ ev : OptimEvent (Vec 2) (Cut 2) ℝ, ∃ o2, OptimTrace (Arith.ieee p).profitRbOracle ((Arith.ieee p).space 2) ltReal opts.tolerance o e g0 l o1 e' ∧
      (l.length : ℝ) ≤ floatIters 2 R r ∧ ev.x = e'.xc ∧ ev.gamma = (bestOf g0 l).2 ∧
      (Arith.ieee p).profitRbOracle o1 ev.x ev.gamma = (o2, .ok (ev.cut, ev.gamma1)) ∧ ∃ γ1, ev.gamma1 = some γ1 ∧ γs ≤ γ1 ∧ NearRobust P e1 e2 e3 e4 e5 (2⁻¹ ^ p) ev.x γ1) ∧
    (floatIters 2 R r < opts.maxIters → (opts.maxIters : ℝ) ≤ N → ∀ o' e' xb γ k,
      optim (Arith.ieee p).profitRbOracle ((Arith.ieee p).space 2) ltReal o e g0 opts = (o', e', .ok (xb, γ, k)) →
      ∃ y, xb = some y ∧ γs - N * profitDrop (2⁻¹ ^ p) W ≤ γ ∧ NearRobust P e1 e2 e3 e4 e5 (2⁻¹ ^ p) y γ) := by
  have hA := Arith.ieee_accurate p 2
  have H0 := H.plan 0 _ (worst_perturbed hA 0)
  have hu0 : (0 : ℝ) ≤ 2⁻¹ ^ p := by positivity
  have hν := ieee_dot_le H0.profit.prec
  have hd := profitDrop_nonneg hu0 H0.profit.one_le
  have hω := robust_nearLevel hA hu0 hν fun y => (H.plan y _ (worst_perturbed hA y)).profit
  obtain ⟨o2, h1, hgood⟩ := robustInit_good H
  obtain rfl : o2 = o := by rw [h1] at ho; simpa using ho
  have hrep : ∀ o y g o3 cut g1, (Arith.ieee p).RobustGood (2⁻¹ ^ p) P e1 e2 e3 e4 e5 o → (Arith.ieee p).profitRbOracle o y g = (o3, .ok (cut, some g1)) → NearRobust P e1 e2 e3 e4 e5 (2⁻¹ ^ p) y g1 := by
    intro o y g o3 cut g1 ho ha
    obtain ⟨o4, o5, k1, k2⟩ := rb_answer ho ha
    have hw := worst_perturbed (P := P) (e1 := e1) (e2 := e2) (e3 := e3) (e4 := e4) (e5 := e5) hA y
    have hy := (H.plan y _ hw).profit
    exact nearRobust_of H.tol1 H.tol2 H.tol3 H.tol4 H.tol5 H.price H.scale H.limit H.cost hu0 hy.prec hw (profit_reported hA hu0 hy.prec hν hy.proper k1 k2)
  have hN : 0 ≤ N := by
    have := floatIters_nonneg H0.inner_pos (radius_le (by norm_num) H0.outer_pos H0.start) (n := 2)
    linarith [H0.iters]
  have hlt : g0 < γs := by linarith [H0.below, mul_nonneg hN hd]
  obtain ⟨ε, ξ, a, Bu, ha⟩ := C106_bits le_rfl H0.inner_pos (radius_le (by norm_num) H0.outer_pos H0.start) ((nrm_nonneg c).trans H0.centre) H0.bits
  obtain ⟨k1, k2⟩ := C120_optim hA hu0 (Arith.ieee_le_gamma p 2) le_rfl H0.outer_pos H0.inner_pos Bu H0.centre (by positivity) hω hd le_rfl ha hgood H0.start he hlt (N := N) (by linarith [H0.first]) H0.iters opts htol
  refine ⟨?_, fun hmax hmaxN o' e' xb γ k hres => ?_⟩
  · obtain ⟨l, o1, e', ev, o3, t1, t2, t3, t4, t5, γ1, t6, t7⟩ := k1
    refine ⟨l, o1, e', ev, o3, t1, t2, t3, t4, t5, γ1, t6, t7, ?_⟩
    rw [t6] at t5
    exact hrep _ _ _ _ _ _ (t1.near_inv hω hgood) t5
  · have hge := k2 hmax hmaxN o' e' xb γ k hres
    rcases optim_best_spec (P := fun y γ => NearRobust P e1 e2 e3 e4 e5 (2⁻¹ ^ p) y γ) hω.inv hrep hgood hres with ⟨-, rfl⟩ | ⟨y, rfl, h5⟩
    · linarith [H0.below]
    · exact ⟨y, rfl, hge, h5⟩

end plan

end Ellalgo
