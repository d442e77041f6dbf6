import Verif.Props.RoundedProfitRb
import Verif.Spec.RoundedProfitQ
import Verif.Py.Refine.ProfitQ
import Verif.Lemmas.RoundMono

/-! # C122: the values of the profit oracles in floating point are honest -/

namespace Ellalgo

open Matrix Spec Spec.ProfitProblem CuttingPlane

variable {A : Arith} {u ν : ℝ} {P : ProfitProblem} {e1 e2 e3 e4 e5 : ℝ}

/-- Rounding to `p` bits keeps integers integers. -/
theorem roundBits_int {p : ℕ} (m : ℤ) : ∃ k : ℤ, roundBits p m = k := by
  by_cases h : |(m : ℝ)| < 2 ^ p
  · have := roundBits_exact (p := p) m 0 h
    rw [zpow_zero, mul_one] at this
    exact ⟨m, this⟩
  · push Not at h
    have h0 : (m : ℝ) ≠ 0 := by
      rintro h1
      rw [h1, abs_zero] at h
      linarith [pow_pos (show (0 : ℝ) < 2 by norm_num) p]
    have h1 : (p : ℤ) ≤ binExp m := by
      rw [binExp, ← Int.zpow_le_iff_le_log (by norm_num) (abs_pos.mpr h0)]
      exact_mod_cast h
    obtain ⟨j, hj⟩ := Int.eq_ofNat_of_zero_le (show 0 ≤ binExp m + 1 - p by omega)
    refine ⟨roundHalfEven ((m : ℝ) * 2 ^ ((p : ℤ) - 1 - binExp m)) * 2 ^ j, ?_⟩
    rw [roundBits, if_neg h0, hj]
    push_cast
    rfl

/-- An arithmetic that rounds integers to integers. -/
def Arith.KeepsIntegers (A : Arith) : Prop := ∀ m : ℤ, ∃ k : ℤ, A.rnd m = k

theorem ieee_keepsIntegers (p : ℕ) : (Arith.ieee p).KeepsIntegers := fun m => roundBits_int m

theorem profitRound_nat (hI : A.KeepsIntegers) (hS : Py.KeepsSign A) (x : ℝ) : ∃ m : ℕ, 0 < m ∧ A.profitRound x = m := by
  have hpos := Py.profitRound_pos hS x
  obtain ⟨k, hk⟩ : ∃ k : ℤ, A.profitRound x = k := by
    unfold Arith.profitRound
    split_ifs
    · exact ⟨1, by simp⟩
    · exact hI _
  rw [hk] at hpos ⊢
  have : 0 < k := by exact_mod_cast hpos
  exact ⟨k.toNat, by omega, by rw [← Int.cast_natCast, Int.toNat_of_nonneg this.le]⟩

/-! ### From the rounded point to the integer design -/

theorem log_le_max {m : Fin 2 → ℕ} (hm : ∀ i, 0 < m i) (i : Fin 2) : 0 ≤ Real.log (m i) ∧ Real.log (m i) ≤ Real.log (max (m 0) (m 1) : ℝ) := by
  have h1 : (1 : ℝ) ≤ m i := by exact_mod_cast hm i
  refine ⟨Real.log_nonneg h1, Real.log_le_log (by linarith) ?_⟩
  fin_cases i
  · exact le_max_left _ _
  · exact le_max_right _ _

theorem nearDiscrete_of (hu : 0 ≤ u) (hu2 : 2000 * u ≤ 1) (hP : P.Proper) {m : Fin 2 → ℕ} (hm : ∀ i, 0 < m i) {y : Vec 2} (hy : ∀ i, |y i - Real.log (m i)| ≤ u * Real.log (m i)) {γ : ℝ} (h : NearProfit P u y γ) : NearDiscrete P u m y γ := by
  obtain ⟨a0, b0⟩ := log_le_max hm 0
  obtain ⟨a1, b1⟩ := log_le_max hm 1
  have y0 := abs_le.mp (hy 0)
  have y1 := abs_le.mp (hy 1)
  generalize hM : Real.log (max (m 0) (m 1) : ℝ) = Mx at *
  have c : ∀ i, u * Real.log (m i) ≤ u * Mx := by
    intro i
    refine mul_le_mul_of_nonneg_left ?_ hu
    fin_cases i
    · exact b0
    · exact b1
  -- revenue
  have t : ∀ i, |P.alpha i * y i - P.alpha i * Real.log (m i)| ≤ u * |P.alpha i * Real.log (m i)| := fun i => by
    have h1 : 0 ≤ Real.log (m i) := (log_le_max hm i).1
    rw [← mul_sub, abs_mul, abs_mul, abs_of_nonneg h1]
    have := mul_le_mul_of_nonneg_left (hy i) (abs_nonneg (P.alpha i))
    linarith
  have hm1 : 1 ≤ P.magnitude (logDesign m) := magnitude_pos P _
  have hrev : |P.logRevenue y - P.logRevenue (logDesign m)| ≤ u * P.magnitude (logDesign m) ∧ P.magnitude y ≤ (1 + u) * P.magnitude (logDesign m) := by
    have t0 := t 0
    have t1 := t 1
    unfold logRevenue magnitude logDesign
    rw [dotProduct, dotProduct, Fin.sum_univ_two, Fin.sum_univ_two]
    generalize Real.log (P.price * P.scale) = b at *
    generalize P.alpha 0 * y 0 = q0 at *
    generalize P.alpha 1 * y 1 = q1 at *
    generalize P.alpha 0 * Real.log (m 0) = r0 at *
    generalize P.alpha 1 * Real.log (m 1) = r1 at *
    have n0 := mul_nonneg hu (abs_nonneg b)
    constructor
    · rw [abs_le] at *
      constructor <;> linarith [t0.1, t0.2, t1.1, t1.2]
    · have s0 := abs_sub_abs_le_abs_sub q0 r0
      have s1 := abs_sub_abs_le_abs_sub q1 r1
      linarith
  obtain ⟨g1, g2⟩ := hrev
  obtain ⟨g3, g4⟩ := abs_le.mp g1
  have g5 : 10 * u * P.magnitude y ≤ 11 * u * P.magnitude (logDesign m) := by
    have s1 := mul_le_mul_of_nonneg_left g2 hu
    have s2 : u * (u * P.magnitude (logDesign m)) ≤ u * (P.magnitude (logDesign m) / 10) := mul_le_mul_of_nonneg_left (by nlinarith) hu
    linarith
  -- costs
  have k : ∀ i, Rel (u * Mx) (P.cost i * Real.exp (y i)) (P.cost i * Real.exp (logDesign m i)) := fun i => by
    refine Rel.const_mul ⟨y i - Real.log (m i), (hy i).trans (c i), ?_⟩ _
    rw [logDesign, ← Real.exp_add]; congr 1; ring
  have ho : Rel (u * Mx) (P.outlay y) (P.outlay (logDesign m)) := (k 0).add (k 1) (mul_pos (hP.cost 0) (Real.exp_pos _)) (mul_pos (hP.cost 1) (Real.exp_pos _)).le
  have hz := outlay_pos hP (logDesign m)
  refine ⟨hm, hy, ?_, ?_, ?_⟩
  · have hl := h.limit
    have l1 : Real.log (m 0) ≤ Real.log P.limit + 3 * u * |Real.log P.limit| := by
      generalize Real.log P.limit = L at *
      generalize Real.log (m 0) = z at *
      have h3 : z * (1 - u) ≤ L + u * |L| := by linarith [y0.1]
      rcases abs_cases L with ⟨ha, hL⟩ | ⟨ha, hL⟩ <;> rw [ha] at h3 ⊢
      · by_contra hc
        push Not at hc
        have h4 : (L + 3 * u * L) * (1 - u) < z * (1 - u) := mul_lt_mul_of_pos_right hc (by linarith)
        have h5 : 0 ≤ u * L * (1 - 3 * u) := mul_nonneg (mul_nonneg hu hL) (by linarith)
        nlinarith
      · exfalso
        have h4 : 0 ≤ z * (1 - u) := mul_nonneg a0 (by linarith)
        nlinarith
    have hm0 : (0 : ℝ) < m 0 := by exact_mod_cast hm 0
    calc (m 0 : ℝ) = Real.exp (Real.log (m 0)) := (Real.exp_log hm0).symm
      _ ≤ Real.exp (Real.log P.limit + 3 * u * |Real.log P.limit|) := Real.exp_le_exp.mpr l1
      _ = _ := by rw [Real.exp_add, Real.exp_log hP.limit]
  · refine le_trans (sub_le_sub (Real.exp_le_exp.mpr (by linarith)) ?_) h.low
    have j1 := ho.upper hz.le
    calc P.outlay y * Real.exp (10 * u) ≤ P.outlay (logDesign m) * Real.exp (u * Mx) * Real.exp (10 * u) := mul_le_mul_of_nonneg_right j1 (Real.exp_pos _).le
      _ = _ := by rw [mul_assoc, ← Real.exp_add, hM]; congr 2; ring
  · refine h.high.trans (sub_le_sub (Real.exp_le_exp.mpr (by linarith)) ?_)
    have j1 := ho.symm.upper (ho.pos hz).le
    calc P.outlay (logDesign m) * Real.exp (-(10 * u + u * Real.log (max (m 0) (m 1)))) ≤ P.outlay y * Real.exp (u * Mx) * Real.exp (-(10 * u + u * Mx)) := by
          rw [hM]; exact mul_le_mul_of_nonneg_right j1 (Real.exp_pos _).le
      _ = _ := by rw [mul_assoc, ← Real.exp_add]; congr 2; ring

/-! ### The discrete oracle -/

/-- The discrete oracle that has been constructed for `P`: its design is an integer one. -/
structure Arith.DiscreteGood (A : Arith) (u : ℝ) (P : ProfitProblem) (o : ProfitQOracle) : Prop where
  omega : Arith.ProfitGood u P o.omega
  xd : ∃ m : Fin 2 → ℕ, (∀ i, 0 < m i) ∧ ∀ i, o.xd i = A.rnd (Real.log (m i))

theorem profitOptim_inv {o : ProfitOracle} (ho : Arith.ProfitGood u P o) (x : Vec 2) (γ : ℝ) : Arith.ProfitGood u P (A.profitOptim o x γ).1 := by
  obtain ⟨o', hg, h⟩ := profitOracle_cases (A := A) ho x γ
  have : (A.profitOracle o x γ).1 = o' := by rcases h with ⟨-, h⟩ | ⟨-, h⟩ | ⟨-, -, h⟩ | ⟨-, -, -, ⟨-, h⟩ | ⟨-, h⟩⟩ <;> rw [h]
  rw [← this] at hg
  exact hg

theorem profitFeas_inv {o : ProfitOracle} (ho : Arith.ProfitGood u P o) (x : Vec 2) (γ : ℝ) : Arith.ProfitGood u P (A.profitFeas o x γ).1 := by
  have h := profitOptim_inv (A := A) ho x γ
  unfold Arith.profitOptim at h
  rcases hf : A.profitFeas o x γ with ⟨o', _ | _ | _⟩ <;> rw [hf] at h
  · exact h
  · change Arith.ProfitGood u P (A.profitReport o').1 at h
    unfold Arith.profitReport at h
    rcases hl : o'.last with _ | _ <;> rw [hl] at h <;> exact h
  · exact h

theorem profitQ_spec (hA : A.Accurate u ν 2) (hu : 0 ≤ u) (hu2 : 2000 * u ≤ 1) (hν : ν ≤ 4 * u) (hP : P.Proper) (hI : A.KeepsIntegers) (hS : Py.KeepsSign A) {o : ProfitQOracle} (ho : A.DiscreteGood u P o) (x : Vec 2) (γ : ℝ) (r : Bool) :
    A.DiscreteGood u P (A.profitQOracle o x γ r).1 ∧ ∀ a γ1, (A.profitQOracle o x γ r).2 = .ok a → a.gamma1 = some γ1 → ∃ m, NearDiscrete P u m a.xq γ1 := by
  have key : ∀ o : ProfitQOracle, A.DiscreteGood u P o → A.DiscreteGood u P (A.profitDiscrete o x γ r).1 ∧ ∀ a γ1, (A.profitDiscrete o x γ r).2 = .ok a → a.gamma1 = some γ1 → ∃ m, NearDiscrete P u m a.xq γ1 := by
    intro o ho
    refine ⟨⟨profitOptim_inv ho.omega _ _, ho.xd⟩, fun a γ1 ha hγ => ?_⟩
    obtain ⟨m, hm, hx⟩ := ho.xd
    unfold Arith.profitDiscrete at ha
    rcases hr : A.profitOptim o.omega o.xd γ with ⟨o', f | ⟨c, g⟩⟩ <;> rw [hr] at ha
    · simp [Except.map] at ha
    · simp only [Except.map, Except.ok.injEq] at ha
      subst ha
      simp only at hγ
      subst hγ
      refine ⟨m, nearDiscrete_of hu hu2 hP hm (fun i => ?_) (profit_reported hA hu hu2 hν hP ho.omega (x := o.xd) (γ := γ) (o'' := o') (cut := (c.1, .scalar c.2)) ?_)⟩
      · change |o.xd i - _| ≤ _
        rw [hx i]
        have := hA.rnd (Real.log (m i))
        rwa [abs_of_nonneg (log_le_max hm i).1] at this
      · unfold Arith.profitOracle
        rw [hr]
        rfl
  unfold Arith.profitQOracle Arith.profitQOptim
  cases r with
  | true =>
    simp only [if_true]
    obtain ⟨h1, h2⟩ := key o ho
    refine ⟨h1, fun a γ1 ha hγ => ?_⟩
    rcases hd : (A.profitDiscrete o x γ true).2 with f | b <;> rw [hd] at ha
    · simp [Except.map] at ha
    · simp only [Except.map, Except.ok.injEq] at ha
      subst ha
      exact h2 b γ1 hd hγ
  | false =>
    have hf := profitFeas_inv (A := A) ho.omega x γ
    simp only [Bool.false_eq_true, if_false]
    rcases hr : A.profitFeas o.omega x γ with ⟨o', f | _ | c⟩ <;> rw [hr] at hf
    · exact ⟨⟨hf, ho.xd⟩, fun a γ1 ha => by simp [Except.map] at ha⟩
    · have ho2 : A.DiscreteGood u P ⟨o', fun i => A.rnd (Real.log (A.profitRound (x i)))⟩ := by
        refine ⟨hf, ?_⟩
        choose m hm using fun i => profitRound_nat hI hS (x i)
        exact ⟨m, fun i => (hm i).1, fun i => by rw [← (hm i).2]⟩
      obtain ⟨h1, h2⟩ := key _ ho2
      refine ⟨h1, fun a γ1 ha hγ => ?_⟩
      simp only at ha
      rcases hd : (A.profitDiscrete ⟨o', fun i => A.rnd (Real.log (A.profitRound (x i)))⟩ x γ false).2 with f | b <;> rw [hd] at ha
      · simp [Except.map] at ha
      · simp only [Except.map, Except.ok.injEq] at ha
        subst ha
        exact h2 b γ1 hd hγ
    · refine ⟨⟨hf, ho.xd⟩, fun a γ1 ha hγ => ?_⟩
      simp only [Except.map, Except.ok.injEq] at ha
      subst ha
      simp at hγ

/-! ### The robust oracle -/

theorem worstProblem_proper (hA : A.Accurate u ν 2) (hu : 0 ≤ u) (hu2 : 2000 * u ≤ 1) (hp : 0 < P.price - e3) (hs : 0 < P.scale) (hl : 0 < P.limit - e4) (hc : ∀ i, 0 < P.cost i + e5) (y : Vec 2) : (A.worstProblem P e1 e2 e3 e4 e5 y).Proper := by
  obtain ⟨k1, k2, k3⟩ := perturbed_rel (worst_perturbed (P := P) (e1 := e1) (e2 := e2) (e3 := e3) (e4 := e4) (e5 := e5) hA y) hu hu2
  have hw := worst_proper (e1 := e1) (e2 := e2) hp hs hl hc y
  exact ⟨k1.pos hw.rev, k2.pos hw.limit, fun i => (k3 i).pos (hw.cost i)⟩

/-- The constructor does not raise. -/
theorem robustInit_ok (hA : A.Accurate u ν 2) (hu : 0 ≤ u) (hu2 : 2000 * u ≤ 1) (hp : 0 < P.price - e3) (hs : 0 < P.scale) (hl : 0 < P.limit - e4) (hc : ∀ i, 0 < P.cost i + e5) :
    ∃ o, A.profitRbInit P.price P.scale P.limit P.alpha P.cost e1 e2 e3 e4 e5 = .ok o := by
  have hW := worstProblem_proper (e1 := e1) (e2 := e2) hA hu hu2 hp hs hl hc 0
  have hP : ProfitProblem.Proper ⟨A.sub P.price e3, P.scale, A.sub P.limit e4, P.alpha, fun i => A.add (P.cost i) e5⟩ := ⟨hW.rev, hW.limit, hW.cost⟩
  obtain ⟨o2, j1, -⟩ := profitInit_good hA hu hu2 hP
  exact ⟨_, by simp only [Arith.profitRbInit]; rw [show A.profitInit _ _ _ _ _ = _ from j1]; rfl⟩

/-! ### The loops -/

section loops

variable (hA : A.Accurate u ν 2) (hu : 0 ≤ u) (hu2 : 2000 * u ≤ 1) (hν : ν ≤ 4 * u)

include hA hu hu2 hν

/-- **C122.** `ProfitOracle` in rounded arithmetic with `cutting_plane_optim` on any search space: what is returned is `(None, g0, k)`, or a design that respects the limit together with its profit, up to factors close to 1. -/
theorem C122_plain (hP : P.Proper) {o : ProfitOracle} (ho : A.profitInit P.price P.scale P.limit P.alpha P.cost = .ok o) {S : Type*} (sp : SearchSpace S (Vec 2) (Cut 2) ℝ) (lt : ℝ → ℝ → Bool) (s : S) (g0 : ℝ) (opts : Options ℝ)
    {o' : ProfitOracle} {s' : S} {xb : Option (Vec 2)} {γ : ℝ} {k : ℕ} (h : optim A.profitOracle sp lt o s g0 opts = (o', s', .ok (xb, γ, k))) :
    (xb = none ∧ γ = g0) ∨ ∃ y, xb = some y ∧ NearProfit P u y γ := by
  obtain ⟨o2, h1, hgood⟩ := profitInit_good hA hu hu2 hP
  obtain rfl : o2 = o := by rw [h1] at ho; simpa using ho
  exact optim_best_spec (omega := A.profitOracle) (I := Arith.ProfitGood u P) (P := fun y γ => NearProfit P u y γ) (fun o x g ho => profitOptim_inv ho x g) (fun o x g o3 cut g1 ho ha => profit_reported hA hu hu2 hν hP ho ha) hgood h

/-- **C122.** The same for `ProfitRbOracle`: every scenario guarantees the value, and one attains it. -/
theorem C122_robust (h1 : 0 ≤ e1) (h2 : 0 ≤ e2) (h3 : 0 ≤ e3) (h4 : 0 ≤ e4) (h5 : 0 ≤ e5) (hp : 0 < P.price - e3) (hs : 0 < P.scale) (hl : 0 < P.limit - e4) (hc : ∀ i, 0 < P.cost i + e5)
    {o : ProfitRbOracle} (ho : A.profitRbInit P.price P.scale P.limit P.alpha P.cost e1 e2 e3 e4 e5 = .ok o) {S : Type*} (sp : SearchSpace S (Vec 2) (Cut 2) ℝ) (lt : ℝ → ℝ → Bool) (s : S) (g0 : ℝ) (opts : Options ℝ)
    {o' : ProfitRbOracle} {s' : S} {xb : Option (Vec 2)} {γ : ℝ} {k : ℕ} (h : optim A.profitRbOracle sp lt o s g0 opts = (o', s', .ok (xb, γ, k))) :
    (xb = none ∧ γ = g0) ∨ ∃ y, xb = some y ∧ NearRobust P e1 e2 e3 e4 e5 u y γ := by
  have hW : ∀ y, (A.worstProblem P e1 e2 e3 e4 e5 y).Proper := fun y => worstProblem_proper hA hu hu2 hp hs hl hc y
  have hP : ProfitProblem.Proper ⟨A.sub P.price e3, P.scale, A.sub P.limit e4, P.alpha, fun i => A.add (P.cost i) e5⟩ := ⟨(hW 0).rev, (hW 0).limit, (hW 0).cost⟩
  obtain ⟨o2, j1, hgood⟩ := profitInit_good hA hu hu2 hP
  have hg : A.RobustGood u P e1 e2 e3 e4 e5 o := by
    simp only [Arith.profitRbInit] at ho
    rw [show A.profitInit _ _ _ _ _ = _ from j1] at ho
    simp only [bind, Except.bind, pure, Except.pure, Except.ok.injEq] at ho
    subst ho
    exact ⟨rfl, rfl, _, hgood⟩
  refine optim_best_spec (omega := A.profitRbOracle) (I := A.RobustGood u P e1 e2 e3 e4 e5) (P := fun y γ => NearRobust P e1 e2 e3 e4 e5 u y γ) (fun o x g ho => rb_inv ho x g) (fun o y g o3 cut g1 ho ha => ?_) hg h
  obtain ⟨o4, o5, k1, k2⟩ := rb_answer ho ha
  exact nearRobust_of h1 h2 h3 h4 h5 hp hs hl hc hu hu2 (worst_perturbed hA y) (profit_reported hA hu hu2 hν (hW y) k1 k2)

/-- **C122.** `ProfitQOracle` in rounded arithmetic with `cutting_plane_optim_q` on any search space: what is returned is `(None, g0, k)`, or the logarithms of an integer design that respects the limit, together with its profit, up to factors close to 1. -/
theorem C122_discrete (hP : P.Proper) (hI : A.KeepsIntegers) (hS : Py.KeepsSign A) {o : ProfitQOracle} (ho : A.profitQInit P.price P.scale P.limit P.alpha P.cost = .ok o) {S : Type*} (sp : SearchSpace S (Vec 2) (Cut 2) ℝ) (lt : ℝ → ℝ → Bool) (s : S) (g0 : ℝ) (opts : Options ℝ)
    {o' : ProfitQOracle} {s' : S} {xb : Option (Vec 2)} {γ : ℝ} {k : ℕ} (h : optimQ A.profitQOracle sp lt o s g0 opts = (o', s', .ok (xb, γ, k))) :
    (xb = none ∧ γ = g0) ∨ ∃ y, xb = some y ∧ ∃ m, NearDiscrete P u m y γ := by
  obtain ⟨o2, h1, hgood⟩ := profitInit_good hA hu hu2 hP
  have hg : A.DiscreteGood u P o := by
    simp only [Arith.profitQInit, h1, bind, Except.bind, pure, Except.pure, Except.ok.injEq] at ho
    subst ho
    refine ⟨hgood, fun _ => 1, fun _ => one_pos, fun i => ?_⟩
    have h0 := hA.rnd 0
    rw [abs_zero, mul_zero, sub_zero] at h0
    have : A.rnd 0 = 0 := abs_nonpos_iff.mp h0
    simp only [Nat.cast_one, Real.log_one, this]
    fin_cases i <;> rfl
  refine optimQ_best_spec (omega := A.profitQOracle) (I := A.DiscreteGood u P) (J := fun _ => True) (P := fun y γ => ∃ m, NearDiscrete P u m y γ) (fun o x g r ho => (profitQ_spec hA hu hu2 hν hP hI hS ho x g r).1) (fun o x g r o3 a g1 ho _ ha hγ => ⟨trivial, ?_⟩) hg trivial h
  exact (profitQ_spec hA hu hu2 hν hP hI hS ho x g r).2 a g1 (by rw [ha]) hγ

end loops

end Ellalgo
