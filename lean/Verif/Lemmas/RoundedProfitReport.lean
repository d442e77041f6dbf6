import Verif.Lemmas.RoundedProfitCut

/-! # The profit that is reported in floating point -/

namespace Ellalgo

open Matrix Spec Spec.ProfitProblem

variable {A : Arith} {u ν : ℝ} {P : ProfitProblem} {o : ProfitOracle} {τ δ γs B W X r : ℝ} {c : Vec 2}

theorem Arith.Accurate.sub_nonpos {N : ℕ} (hA : A.Accurate u ν N) (hu2 : 2000 * u ≤ 1) {a b : ℝ} (h : A.sub a b ≤ 0) : a ≤ b := by
  by_contra hc
  have h1 : 0 < a - b := by linarith
  have h2 := hA.rnd (a - b)
  rw [abs_of_pos h1] at h2
  have h3 := (abs_le.mp h2).1
  have h4 : A.rnd (a - b) ≤ 0 := h
  nlinarith

theorem Arith.Accurate.rnd_nonpos {N : ℕ} (hA : A.Accurate u ν N) (hu2 : 2000 * u ≤ 1) {a : ℝ} (h : a ≤ 0) : A.rnd a ≤ 0 := by
  have h2 := hA.rnd a
  rw [abs_of_nonpos h] at h2
  have h3 := (abs_le.mp h2).2
  nlinarith

theorem mul_abs_log_le {w W : ℝ} (hw : 0 < w) (hW : 1 ≤ W) (h : w ≤ W) : w * |Real.log w| ≤ W * (1 + Real.log W) := by
  have hl := Real.log_nonneg hW
  rcases le_or_gt w 1 with h1 | h1
  · rw [abs_of_nonpos (Real.log_nonpos hw.le h1)]
    have h2 := Real.log_le_sub_one_of_pos (inv_pos.mpr hw)
    rw [Real.log_inv] at h2
    have h3 := mul_le_mul_of_nonneg_left h2 hw.le
    rw [mul_sub, mul_inv_cancel₀ hw.ne'] at h3
    nlinarith
  · rw [abs_of_nonneg (Real.log_nonneg h1.le)]
    have h2 := Real.log_le_log hw h
    exact mul_le_mul h (by linarith) (Real.log_nonneg h1.le) (by linarith)

theorem drop_arith {u w t E eh V W γ g : ℝ} (hu : 0 ≤ u) (hu2 : 2000 * u ≤ 1) (hw : 0 < w) (ht : 0 ≤ t) (hE : 0 ≤ E) (hv : 0 < V) (hW : 1 ≤ W) (hwW : w ≤ W) (hEW : E ≤ W) (hsw : γ + V ≤ 2 * w) (hγ : -1 ≤ γ)
    (w1 : -(u * (γ + V)) ≤ w - (γ + V)) (e1 : -(u * E) ≤ eh - E) (e2 : eh - E ≤ u * E) (hEl : w * (1 - u * t) ≤ E) (hwt : w * t ≤ W * (1 + Real.log W)) (hg : |g - (eh - V)| ≤ u * |eh - V|) :
    γ - 9 * u * (W * (1 + Real.log W)) ≤ g := by
  have hlW := Real.log_nonneg hW
  have hz1 : γ - u * (3 * w + w * t) ≤ eh - V := by
    have h3 : (1 - u) * (w * (1 - u * t)) ≤ (1 - u) * E := mul_le_mul_of_nonneg_left hEl (by linarith)
    have h4 : w - u * w - u * (w * t) ≤ (1 - u) * (w * (1 - u * t)) := by
      have := mul_nonneg hu (mul_nonneg hu (mul_nonneg hw.le ht))
      linarith
    have h5 := mul_le_mul_of_nonneg_left hsw hu
    linarith
  have huE : u * E ≤ E := by nlinarith
  have hz2 : |eh - V| ≤ 5 * W := by
    have h3 := abs_sub eh V
    rw [abs_of_nonneg (show 0 ≤ eh by linarith), abs_of_pos hv] at h3
    linarith
  have h3 := (abs_le.mp hg).1
  have h4 := mul_le_mul_of_nonneg_left hz2 hu
  have hWl : 0 ≤ W * Real.log W := mul_nonneg (by linarith) hlW
  have h5 : 3 * w + w * t + 5 * W ≤ 9 * (W * (1 + Real.log W)) := by linarith
  have h6 := mul_le_mul_of_nonneg_left h5 hu
  linarith

section

variable (hA : A.Accurate u ν 2) (hu : 0 ≤ u) (hu2 : 2000 * u ≤ 1) (hν : ν ≤ 4 * u) (ho : Arith.ProfitGood u P o)

include hA hu hu2 ho

theorem profit_fn1 (x : Vec 2) : |A.profitFn1 o x - (x 0 - Real.log P.limit)| ≤ 3 * u * (|x 0| + |Real.log P.limit|) := by
  have h1 : |x 0 - o.logK - (x 0 - Real.log P.limit)| ≤ u * |Real.log P.limit| := by
    rw [show x 0 - o.logK - (x 0 - Real.log P.limit) = -(o.logK - Real.log P.limit) by ring, abs_neg]; exact ho.logK
  have h2 := hA.rnd_err hu le_rfl h1 (abs_sub (x 0) (Real.log P.limit))
  refine h2.trans ?_
  nlinarith [mul_nonneg hu (abs_nonneg (x 0)), mul_nonneg hu (abs_nonneg (Real.log P.limit))]

/-- A design with a value respects the limit, up to one rounding. -/
theorem profit_limit {x : Vec 2} (h : A.profitFn1 o x ≤ 0) : x 0 ≤ Real.log P.limit + u * |Real.log P.limit| := by
  have h1 : x 0 ≤ o.logK := hA.sub_nonpos hu2 h
  have := (abs_le.mp ho.logK).2
  linarith

variable (hP : P.Proper)

include hP

theorem profit_rep_bounds (x : Vec 2) : (1 - u) * A.exp (A.profitEval o x).logCobb - (1 + u) * (A.profitEval o x).vy ≤ A.profitRep o x ∧
    A.profitRep o x ≤ (1 + u) * A.exp (A.profitEval o x).logCobb - (1 - u) * (A.profitEval o x).vy := by
  have hv := (profit_vy hA hu hu2 hP ho x).pos (outlay_pos hP x)
  have he : 0 < A.exp (A.profitEval o x).logCobb := (hA.rel hu (by linarith) _).pos (Real.exp_pos _)
  have h1 : |A.profitRep o x - (A.exp (A.profitEval o x).logCobb - (A.profitEval o x).vy)| ≤ u * |A.exp (A.profitEval o x).logCobb - (A.profitEval o x).vy| := hA.rnd _
  have h2 := abs_sub (A.exp (A.profitEval o x).logCobb) (A.profitEval o x).vy
  rw [abs_of_pos he, abs_of_pos hv] at h2
  have h3 := mul_le_mul_of_nonneg_left h2 hu
  obtain ⟨h4, h5⟩ := abs_le.mp h1
  constructor <;> linarith

/-- At the value reported the second constraint is nearly active. -/
theorem profit_rep_low (x : Vec 2) : (A.profitEval o x).logCobb - 13 * u ≤ Real.log (max (A.profitRep o x) 0 + P.outlay x) := by
  have hpos := outlay_pos hP x
  have hvy := profit_vy hA hu hu2 hP ho x
  have hv : (A.profitEval o x).vy ≤ P.outlay x * (1 + 7 * u) := by
    have h1 := hvy.upper hpos.le
    have h2 := Real.abs_exp_sub_one_sub_id_le (x := 6 * u) (by rw [abs_of_nonneg (by linarith)]; linarith)
    have h3 := (abs_le.mp h2).2
    refine h1.trans (mul_le_mul_of_nonneg_left (by nlinarith) hpos.le)
  obtain ⟨t, ht, he⟩ : Rel (2 * u) (A.exp (A.profitEval o x).logCobb) (Real.exp (A.profitEval o x).logCobb) := hA.rel hu (by linarith) _
  have h1 := (profit_rep_bounds hA hu hu2 ho hP x).1
  have hm := le_max_left (A.profitRep o x) 0
  have hm0 := le_max_right (A.profitRep o x) 0
  have h2 : (1 - u) * A.exp (A.profitEval o x).logCobb ≤ (max (A.profitRep o x) 0 + P.outlay x) * (1 + 9 * u) := by
    nlinarith [mul_nonneg hu hm0, mul_nonneg hu hpos.le, mul_nonneg hu (mul_nonneg hu hpos.le)]
  have h3 : Real.exp (-(2 * u)) ≤ 1 - u := by
    have h2 := Real.abs_exp_sub_one_sub_id_le (x := -(2 * u)) (by rw [abs_neg, abs_of_nonneg (by linarith)]; linarith)
    have h3 := (abs_le.mp h2).2
    nlinarith
  have h4 : 1 + 9 * u ≤ Real.exp (9 * u) := by linarith [Real.add_one_le_exp (9 * u)]
  have h5 : Real.exp ((A.profitEval o x).logCobb - 13 * u) ≤ max (A.profitRep o x) 0 + P.outlay x := by
    have e1 : Real.exp (-(2 * u)) * (Real.exp (A.profitEval o x).logCobb * Real.exp (-(2 * u))) ≤ (max (A.profitRep o x) 0 + P.outlay x) * Real.exp (9 * u) := by
      refine le_trans ?_ (h2.trans (mul_le_mul_of_nonneg_left h4 (by linarith)))
      rw [he]
      refine mul_le_mul h3 (mul_le_mul_of_nonneg_left (Real.exp_le_exp.mpr (by linarith [(abs_le.mp ht).1])) (Real.exp_pos _).le) (by positivity) (by linarith)
    have e2 := mul_le_mul_of_nonneg_right e1 (Real.exp_pos (-(9 * u))).le
    rw [mul_assoc (max (A.profitRep o x) 0 + P.outlay x), ← Real.exp_add (9 * u), add_neg_cancel, Real.exp_zero, mul_one, ← Real.exp_add, ← Real.exp_add, ← Real.exp_add] at e2
    rwa [show -(2 * u) + ((A.profitEval o x).logCobb + -(2 * u)) + -(9 * u) = (A.profitEval o x).logCobb - 13 * u by ring] at e2
  rwa [Real.le_log_iff_exp_le (by linarith)]

include hν

/-- The value reported is the profit with revenue and costs changed by a factor close to 1. -/
theorem profit_rep_near (x : Vec 2) : Real.exp (P.logRevenue x - 10 * u * P.magnitude x) - P.outlay x * Real.exp (10 * u) ≤ A.profitRep o x ∧
    A.profitRep o x ≤ Real.exp (P.logRevenue x + 10 * u * P.magnitude x) - P.outlay x * Real.exp (-(10 * u)) := by
  obtain ⟨h1, h2⟩ := profit_rep_bounds hA hu hu2 ho hP x
  have hpos := outlay_pos hP x
  have hvy := profit_vy hA hu hu2 hP ho x
  have hM := P.magnitude_pos x
  obtain ⟨c1, c2⟩ := abs_le.mp (profit_logCobb hA hu hu2 hν hP ho x)
  obtain ⟨t, ht, he⟩ : Rel (2 * u) (A.exp (A.profitEval o x).logCobb) (Real.exp (A.profitEval o x).logCobb) := hA.rel hu (by linarith) _
  obtain ⟨t1, t2⟩ := abs_le.mp ht
  obtain ⟨s, hs, hv⟩ := hvy
  obtain ⟨s1, s2⟩ := abs_le.mp hs
  have k1 : 1 + u ≤ Real.exp u := by linarith [Real.add_one_le_exp u]
  have k2 : Real.exp (-(2 * u)) ≤ 1 - u := by
    have h2 := Real.abs_exp_sub_one_sub_id_le (x := -(2 * u)) (by rw [abs_neg, abs_of_nonneg (by linarith)]; linarith)
    have h3 := (abs_le.mp h2).2
    nlinarith
  have huM : u ≤ u * P.magnitude x := by nlinarith
  rw [← Real.exp_add] at he
  rw [he, hv] at h1 h2
  have a1 : Real.exp (P.logRevenue x - 10 * u * P.magnitude x) ≤ (1 - u) * Real.exp ((A.profitEval o x).logCobb + t) := by
    refine le_trans ?_ (mul_le_mul_of_nonneg_right k2 (Real.exp_pos _).le)
    rw [← Real.exp_add]; exact Real.exp_le_exp.mpr (by linarith)
  have a2 : (1 + u) * Real.exp ((A.profitEval o x).logCobb + t) ≤ Real.exp (P.logRevenue x + 10 * u * P.magnitude x) := by
    refine (mul_le_mul_of_nonneg_right k1 (Real.exp_pos _).le).trans ?_
    rw [← Real.exp_add]; exact Real.exp_le_exp.mpr (by linarith)
  have a3 : (1 + u) * (P.outlay x * Real.exp s) ≤ P.outlay x * Real.exp (10 * u) := by
    rw [mul_left_comm]
    refine mul_le_mul_of_nonneg_left ((mul_le_mul_of_nonneg_right k1 (Real.exp_pos _).le).trans ?_) hpos.le
    rw [← Real.exp_add]; exact Real.exp_le_exp.mpr (by linarith)
  have a4 : P.outlay x * Real.exp (-(10 * u)) ≤ (1 - u) * (P.outlay x * Real.exp s) := by
    rw [mul_left_comm]
    refine mul_le_mul_of_nonneg_left (le_trans ?_ (mul_le_mul_of_nonneg_right k2 (Real.exp_pos _).le)) hpos.le
    rw [← Real.exp_add]; exact Real.exp_le_exp.mpr (by linarith)
  constructor <;> linarith

end

/-- A value that is reported is smaller than the one passed by at most `9 u W (1 + ln W)`, wherever the point. -/
theorem profit_drop (hA : A.Accurate u ν 2) (hu : 0 ≤ u) (hν : ν ≤ 4 * u) (H : FloatProfit P u τ δ γs B W X c r) (ho : Arith.ProfitGood u P o) {x : Vec 2} {γ : ℝ} (hγ : -τ ≤ γ) (h1 : A.profitFn1 o x ≤ 0) (hw : 0 < A.profitArg o x γ) (h2 : A.profitVal2 o x γ ≤ 0) :
    γ - 9 * u * (W * (1 + Real.log W)) ≤ A.profitRep o x := by
  have hu2 := H.prec
  have hpos := outlay_pos H.proper x
  have hvy := profit_vy hA hu hu2 H.proper ho x
  have hv := hvy.pos hpos
  have hM := P.magnitude_pos x
  obtain ⟨c1, c2⟩ := abs_le.mp (profit_logCobb hA hu hu2 hν H.proper ho x)
  have hL : A.rnd (Real.log (A.profitArg o x γ)) ≤ (A.profitEval o x).logCobb := hA.sub_nonpos hu2 h2
  have hlr := P.logRevenue_le x
  have hx0 := profit_limit hA hu hu2 ho h1
  have hE2 := (abs_le.mp (hA.rnd (Real.exp (A.profitEval o x).logCobb)))
  rw [abs_of_pos (Real.exp_pos _)] at hE2
  have hexp : A.exp (A.profitEval o x).logCobb = A.rnd (Real.exp (A.profitEval o x).logCobb) := rfl
  rw [← hexp] at hE2
  obtain ⟨e1, e2⟩ := hE2
  have hrep : |A.profitRep o x - (A.exp (A.profitEval o x).logCobb - (A.profitEval o x).vy)| ≤ u * |A.exp (A.profitEval o x).logCobb - (A.profitEval o x).vy| := hA.rnd _
  have hs : 0 < γ + (A.profitEval o x).vy := by
    by_contra hc
    exact absurd (hA.rnd_nonpos hu2 (not_lt.mp hc)) (not_le.mpr hw)
  have hws : |A.profitArg o x γ - (γ + (A.profitEval o x).vy)| ≤ u * |γ + (A.profitEval o x).vy| := hA.rnd _
  rw [abs_of_pos hs] at hws
  obtain ⟨w1, w2⟩ := abs_le.mp hws
  have hlw := (abs_le.mp (hA.rnd (Real.log (A.profitArg o x γ)))).1
  generalize A.profitArg o x γ = w at *
  generalize hLe : (A.profitEval o x).logCobb = L at *
  generalize (A.profitEval o x).vy = V at *
  generalize A.rnd (Real.log w) = lw at *
  have hsw : γ + V ≤ 2 * w := by nlinarith
  -- the argument of the logarithm against the inflated revenue
  have hwe : w ≤ max 1 (Real.exp (P.logRevenue x + P.magnitude x / 100)) := by
    rcases le_or_gt w 1 with h | h
    · exact h.trans (le_max_left _ _)
    · refine le_trans ?_ (le_max_right _ _)
      rw [← Real.log_le_iff_le_exp hw]
      have hl0 := Real.log_nonneg h.le
      rw [abs_of_nonneg hl0] at hlw
      have hLl : (1 - u) * Real.log w ≤ L := by linarith
      have hL0 : 0 ≤ L := le_trans (mul_nonneg (by linarith) hl0) hLl
      have h3 : Real.log w ≤ (1 + 2 * u) * L := by
        have : Real.log w ≤ (1 + 2 * u) * ((1 - u) * Real.log w) := by nlinarith [mul_nonneg hu hl0, mul_nonneg hu (mul_nonneg hu hl0)]
        exact this.trans (mul_le_mul_of_nonneg_left hLl (by linarith))
      have h4 : L ≤ 2 * P.magnitude x := by
        have := le_abs_self (P.logRevenue x)
        nlinarith
      nlinarith
  have hEe : Real.exp L ≤ Real.exp (P.logRevenue x + P.magnitude x / 100) := Real.exp_le_exp.mpr (by nlinarith)
  have hτ := H.tau_le
  have hmax1 := le_max_left 1 (Real.exp (P.logRevenue x + P.magnitude x / 100))
  have hV3 : V ≤ 3 * max 1 (Real.exp (P.logRevenue x + P.magnitude x / 100)) := by linarith
  have hout : P.outlay x ≤ 4 * max 1 (Real.exp (P.logRevenue x + P.magnitude x / 100)) := by
    have h3 := hvy.symm.upper hv.le
    have h4 := Real.abs_exp_sub_one_sub_id_le (x := 6 * u) (by rw [abs_of_nonneg (by linarith)]; linarith)
    have h5 := (abs_le.mp h4).2
    have h6 : Real.exp (6 * u) ≤ 4 / 3 := by nlinarith
    have := mul_le_mul_of_nonneg_left h6 hv.le
    linarith
  have hbnd := H.bounded x (by nlinarith [abs_nonneg (Real.log P.limit)]) hout
  have hW := H.one_le
  have hwW : w ≤ W := hwe.trans (max_le hW hbnd)
  have hEW : Real.exp L ≤ W := hEe.trans hbnd
  have hwt := mul_abs_log_le hw hW hwW
  -- the drop
  have hEl : w * (1 - u * |Real.log w|) ≤ Real.exp L := by
    have h3 : Real.exp (Real.log w - u * |Real.log w|) ≤ Real.exp L := Real.exp_le_exp.mpr (by linarith)
    rw [Real.exp_sub, Real.exp_log hw, div_eq_mul_inv, ← Real.exp_neg] at h3
    have h4 := Real.add_one_le_exp (-(u * |Real.log w|))
    exact le_trans (mul_le_mul_of_nonneg_left (by linarith) hw.le) h3
  have ht0 := abs_nonneg (Real.log w)
  exact drop_arith hu hu2 hw ht0 (Real.exp_pos L).le hv hW hwW hEW hsw (by linarith [H.tau_le]) w1 e1 e2 hEl hwt hrep

end Ellalgo
