import Verif.Lemmas.RoundedParams
import Verif.Lemmas.ParBounds

/-! # The rounded parameters of a parallel cut -/

namespace Ellalgo

open Matrix Spec EllCalcCore

variable {n : ℕ}

/-- Parameters with relative error `E`. -/
structure ParRel (E : ℝ) (p q : Params) : Prop where
  rho : Rel E p.rho q.rho
  sigma : Rel E p.sigma q.sigma
  delta : Rel E p.delta q.delta

theorem Arith.Accurate.rnd_err {A : Arith} {u γ : ℝ} {N : ℕ} (hA : A.Accurate u γ N) {w x y e Y : ℝ} (hw : 0 ≤ w) (huw : u ≤ w) (h : |x - y| ≤ e) (hY : |y| ≤ Y) : |A.rnd x - y| ≤ e + w * (Y + e) := by
  have h1 := hA.rnd x
  have h2 : |x| ≤ Y + e := by
    have := abs_add_le (x - y) y
    rw [sub_add_cancel] at this
    linarith
  have h3 : u * |x| ≤ w * (Y + e) := mul_le_mul huw h2 (abs_nonneg _) hw
  have h4 := abs_sub_le (A.rnd x) x y
  linarith

theorem abs_mul_err {a b x y d e Y : ℝ} (h1 : |a - x| ≤ d) (h2 : |b - y| ≤ e) (hx : |x| ≤ Y) (hy : |y| ≤ Y) : |a * b - x * y| ≤ d * (Y + e) + Y * e := by
  have e1 : a * b - x * y = (a - x) * b + x * (b - y) := by ring
  have hb : |b| ≤ Y + e := by
    have := abs_add_le (b - y) y
    rw [sub_add_cancel] at this
    linarith
  have hd : 0 ≤ d := (abs_nonneg _).trans h1
  have hY : 0 ≤ Y := (abs_nonneg _).trans hx
  rw [e1]
  refine (abs_add_le _ _).trans ?_
  rw [abs_mul, abs_mul]
  have := mul_le_mul h1 hb (abs_nonneg _) hd
  have := mul_le_mul hx h2 (abs_nonneg _) hY
  linarith

theorem Arith.core_halfN {A : Arith} {c : EllCalc} (hc : A.calcInit (n : ℤ) = .ok c) : c.helper.halfN = A.div n 2 ∧ c.helper.invN = A.div 1 n ∧ c.useParallelCut = true := by
  unfold Arith.calcInit at hc
  split at hc
  · unfold Arith.coreInit Arith.pdiv at hc
    simp only [Int.cast_natCast] at hc
    split at hc
    · cases hc
    · simp only [except_ok_bind] at hc
      split at hc
      · cases hc
      · simp only [except_ok_bind] at hc
        split at hc
        · cases hc
        · simp only [except_ok_bind] at hc
          split at hc
          · cases hc
          · simp only [except_ok_bind, Except.ok.injEq] at hc
            subst hc
            exact ⟨rfl, rfl, rfl⟩
  · cases hc

set_option maxHeartbeats 1000000 in
/-- `ξ²`. -/
theorem Arith.xi_sq_err {A : Arith} {u γ ε a τ β0 β1 th hN : ℝ} {N : ℕ} (hA : A.Accurate u γ N) (hu : 0 ≤ u) (huε : u ≤ ε) (hnu : n * u ≤ ε) (hn : 2 ≤ n) (W : WideSlab a τ β0 β1) (hth : |th - τ ^ 2| ≤ 62 / 10 * ε * τ ^ 2)
    (hhN : |hN - n / 2| ≤ u * (n / 2)) (hε : ε ≤ 1 / 50000) :
    |A.sub th (A.mul β0 β0) - (τ ^ 2 - β0 * β0)| ≤ 9 * ε * τ ^ 2 ∧ |A.sub th (A.mul β1 β1) - (τ ^ 2 - β1 * β1)| ≤ 9 * ε * τ ^ 2 ∧
    |A.add (A.mul (A.sub th (A.mul β0 β0)) (A.sub th (A.mul β1 β1))) (A.mul (A.mul hN (A.sub (A.mul β1 β1) (A.mul β0 β0))) (A.mul hN (A.sub (A.mul β1 β1) (A.mul β0 β0)))) - parXi n β0 β1 (τ ^ 2) ^ 2| ≤ 52 * (ε / a ^ 2) * parXi n β0 β1 (τ ^ 2) ^ 2 := by
  have hn2 : (2 : ℝ) ≤ n := by exact_mod_cast hn
  have hε0 : 0 ≤ ε := hu.trans huε
  have hτ2 := pow_pos W.tau 2
  have ha := W.a_pos
  have ha1 := W.a_le
  have hB0 : β0 * β0 ≤ τ ^ 2 := by have := W.b0_sq; nlinarith
  have hB1 : β1 * β1 ≤ 101 / 100 * τ ^ 2 := by rw [← pow_two]; exact W.b1_sq_le
  have hxi := parXi_sq hn2 β0 β1 (τ ^ 2)
  have hxg := W.xi_ge hn2
  obtain ⟨hy0, hyx⟩ := W.y_le hn2
  have hD0 : β0 * β0 ≤ β1 * β1 := mul_self_le_mul_self W.b0 W.b01
  rw [pow_two β1, pow_two β0] at hy0 hyx
  have hx0 := parXi_nonneg n β0 β1 (τ ^ 2)
  generalize parXi n β0 β1 (τ ^ 2) = X at *
  generalize τ ^ 2 = T at *
  have s0 := mul_self_nonneg β0
  have s1 := mul_self_nonneg β1
  have r0 : |A.mul β0 β0 - β0 * β0| ≤ u * T := by
    have := hA.rnd (β0 * β0)
    rw [abs_of_nonneg s0] at this
    exact this.trans (mul_le_mul_of_nonneg_left hB0 hu)
  have r1 : |A.mul β1 β1 - β1 * β1| ≤ u * (101 / 100 * T) := by
    have := hA.rnd (β1 * β1)
    rw [abs_of_nonneg s1] at this
    exact this.trans (mul_le_mul_of_nonneg_left hB1 hu)
  generalize β0 * β0 = B0 at *
  generalize β1 * β1 = B1 at *
  generalize A.mul β0 β0 = B0h at *
  generalize A.mul β1 β1 = B1h at *
  have huT : u * T ≤ ε * T := mul_le_mul_of_nonneg_right huε hτ2.le
  have hεT : 0 ≤ ε * T := by positivity
  have hεT2 : ε * (ε * T) ≤ 1 / 50000 * (ε * T) := mul_le_mul_of_nonneg_right hε hεT
  have hεT3 : ε * T ≤ 1 / 50000 * T := mul_le_mul_of_nonneg_right hε hτ2.le
  have z0a : |T - B0| ≤ T := by rw [abs_le]; constructor <;> linarith
  have z1a : |T - B1| ≤ T := by rw [abs_le]; constructor <;> linarith
  have z0 : |A.sub th B0h - (T - B0)| ≤ 9 * ε * T := by
    refine (hA.rnd_err (w := ε) (e := 72 / 10 * (ε * T)) hε0 huε ?_ z0a).trans (by linarith)
    have := abs_sub (th - T) (B0h - B0)
    rw [show th - B0h - (T - B0) = (th - T) - (B0h - B0) by ring]
    linarith
  have z1 : |A.sub th B1h - (T - B1)| ≤ 9 * ε * T := by
    refine (hA.rnd_err (w := ε) (e := 73 / 10 * (ε * T)) hε0 huε ?_ z1a).trans (by linarith)
    have := abs_sub (th - T) (B1h - B1)
    rw [show th - B1h - (T - B1) = (th - T) - (B1h - B1) by ring]
    linarith
  refine ⟨z0, z1, ?_⟩
  -- the product
  have hT2 : 0 ≤ ε * T ^ 2 := by positivity
  have hT2' : ε * (ε * T ^ 2) ≤ 1 / 50000 * (ε * T ^ 2) := mul_le_mul_of_nonneg_right hε hT2
  have zz : |A.mul (A.sub th B0h) (A.sub th B1h) - (T - B0) * (T - B1)| ≤ 192 / 10 * (ε * T ^ 2) := by
    have h1 := abs_mul_err z0 z1 z0a z1a
    have h2 : |(T - B0) * (T - B1)| ≤ T ^ 2 := by
      rw [abs_mul, pow_two]; exact mul_le_mul z0a z1a (abs_nonneg _) hτ2.le
    refine (hA.rnd_err (w := ε) (e := 181 / 10 * (ε * T ^ 2)) hε0 huε (h1.trans ?_) h2).trans ?_
    · nlinarith
    · linarith
  -- the square
  have hd : |A.sub B1h B0h - (B1 - B0)| ≤ 31 / 10 * (u * T) := by
    refine (hA.rnd_err (w := u) (e := 201 / 100 * (u * T)) (Y := 101 / 100 * T) hu le_rfl ?_ (by rw [abs_of_nonneg (by linarith)]; linarith)).trans ?_
    · have := abs_sub (B1h - B1) (B0h - B0)
      rw [show B1h - B0h - (B1 - B0) = (B1h - B1) - (B0h - B0) by ring]
      linarith
    · have h0 : 0 ≤ u * T := by positivity
      have : u * (u * T) ≤ 1 / 50000 * (u * T) := mul_le_mul_of_nonneg_right (by linarith) h0
      linarith
  have huT0 : 0 ≤ u * T := by positivity
  have huT1 : u * (u * T) ≤ 1 / 50000 * (u * T) := mul_le_mul_of_nonneg_right (by linarith) huT0
  have hnuT : n * (u * T) ≤ ε * T := by
    have := mul_le_mul_of_nonneg_right hnu hτ2.le
    linarith
  have hh : |A.mul hN (A.sub B1h B0h) - n / 2 * (B1 - B0)| ≤ 3 * (ε * T) := by
    have h1 : |hN * A.sub B1h B0h - n / 2 * (B1 - B0)| ≤ 21 / 10 * (n * (u * T)) := by
      have e1 : hN * A.sub B1h B0h - n / 2 * (B1 - B0) = (hN - n / 2) * A.sub B1h B0h + n / 2 * (A.sub B1h B0h - (B1 - B0)) := by ring
      have hb : |A.sub B1h B0h| ≤ 102 / 100 * T := by
        have := abs_add_le (A.sub B1h B0h - (B1 - B0)) (B1 - B0)
        rw [sub_add_cancel, abs_of_nonneg (show 0 ≤ B1 - B0 by linarith)] at this
        linarith
      rw [e1]
      refine (abs_add_le _ _).trans ?_
      rw [abs_mul, abs_mul, abs_of_nonneg (show (0 : ℝ) ≤ n / 2 by linarith)]
      have h2 := mul_le_mul hhN hb (abs_nonneg _) (by positivity)
      have h3 := mul_le_mul_of_nonneg_left hd (show (0 : ℝ) ≤ n / 2 by linarith)
      nlinarith [mul_nonneg (show (0 : ℝ) ≤ n by linarith) huT0]
    have h2 : |(n : ℝ) / 2 * (B1 - B0)| ≤ n / 2 * (101 / 100 * T) := by
      rw [abs_of_nonneg hy0]
      exact mul_le_mul_of_nonneg_left (by linarith) (by linarith)
    refine (hA.rnd_err (w := u) hu le_rfl h1 h2).trans ?_
    have h3 : 0 ≤ (n : ℝ) * (u * T) := by positivity
    have h4 : u * (n * (u * T)) ≤ 1 / 50000 * (n * (u * T)) := mul_le_mul_of_nonneg_right (by linarith) h3
    linarith
  generalize A.mul hN (A.sub B1h B0h) = hh' at *
  generalize A.mul (A.sub th B0h) (A.sub th B1h) = zh at *
  generalize (n : ℝ) / 2 * (B1 - B0) = y at *
  obtain ⟨w, hw⟩ : ∃ w, w = X / a := ⟨_, rfl⟩
  have hXw : X = w * a := by rw [hw]; field_simp
  have hw0 : 0 ≤ w := by rw [hw]; positivity
  have hTw : T ≤ 143 / 100 * w := by
    have : 7 / 10 * T * a ≤ w * a := by rw [← hXw]; linarith
    have := le_of_mul_le_mul_right this ha
    linarith
  have hXw1 : X ≤ w := by rw [hXw]; nlinarith
  have hyw : y ≤ 11 / 10 * w := by linarith
  have ew2 : 0 ≤ ε * w ^ 2 := by positivity
  have ew3 : ε * (ε * w ^ 2) ≤ 1 / 50000 * (ε * w ^ 2) := mul_le_mul_of_nonneg_right hε ew2
  have hTw2 : ε * T ^ 2 ≤ 205 / 100 * (ε * w ^ 2) := by
    have := pow_le_pow_left₀ hτ2.le hTw 2
    have := mul_le_mul_of_nonneg_left this hε0
    nlinarith
  have hTyw : ε * T * y ≤ 1573 / 1000 * (ε * w ^ 2) := by
    have := mul_le_mul hTw hyw hy0 (by positivity)
    have := mul_le_mul_of_nonneg_left this hε0
    linarith
  have hyw2 : y ^ 2 ≤ 121 / 100 * w ^ 2 := by
    have := pow_le_pow_left₀ hy0 hyw 2
    linarith
  have hsq : |A.mul hh' hh' - y ^ 2| ≤ 108 / 10 * (ε * w ^ 2) := by
    have h1 : |hh' * hh' - y * y| ≤ 95 / 10 * (ε * w ^ 2) := by
      refine (abs_mul_err hh hh (abs_of_nonneg hy0).le (abs_of_nonneg hy0).le).trans ?_
      nlinarith
    rw [← pow_two y] at h1
    refine (hA.rnd_err (w := ε) (Y := 121 / 100 * w ^ 2) hε0 huε h1 (by rw [abs_of_nonneg (sq_nonneg y)]; exact hyw2)).trans ?_
    linarith
  have hsum : |zh + A.mul hh' hh' - X ^ 2| ≤ 502 / 10 * (ε * w ^ 2) := by
    rw [hxi, show zh + A.mul hh' hh' - ((T - B0) * (T - B1) + y ^ 2) = (zh - (T - B0) * (T - B1)) + (A.mul hh' hh' - y ^ 2) by ring]
    refine (abs_add_le _ _).trans ?_
    linarith
  have hfin := hA.rnd_err (w := ε) hε0 huε hsum (show |X ^ 2| ≤ w ^ 2 by rw [abs_of_nonneg (sq_nonneg X)]; exact pow_le_pow_left₀ hx0 hXw1 2)
  refine hfin.trans ?_
  have e2 : 52 * (ε / a ^ 2) * X ^ 2 = 52 * (ε * w ^ 2) := by rw [hXw]; field_simp
  rw [e2]
  linarith

/-- From a small relative error. -/
theorem Rel.of_abs_small {a b r : ℝ} (h : |a - b| ≤ r * |b|) (hr0 : 0 ≤ r) (hr : r ≤ 1 / 100) : Rel (102 / 100 * r) a b := by
  by_cases hb : b = 0
  · subst hb
    simp only [sub_zero, abs_zero, mul_zero] at h
    have ha : a = 0 := abs_eq_zero.mp (le_antisymm h (abs_nonneg _))
    exact ⟨0, by rw [abs_zero]; positivity, by rw [ha]; simp⟩
  · obtain ⟨q, hq⟩ : ∃ q, q = a / b := ⟨_, rfl⟩
    have haq : a = b * q := by rw [hq]; field_simp
    have h1 : |q - 1| ≤ r := by
      rw [haq, show b * q - b = b * (q - 1) by ring, abs_mul, mul_comm] at h
      exact le_of_mul_le_mul_right h (abs_pos.mpr hb)
    obtain ⟨h2, h3⟩ := abs_le.mp h1
    have hq0 : 0 < q := by linarith
    refine ⟨Real.log q, ?_, by rw [Real.exp_log hq0]; exact haq⟩
    rw [abs_le]
    constructor
    · have h4 := Real.log_le_sub_one_of_pos (inv_pos.mpr hq0)
      rw [Real.log_inv] at h4
      have h5 : q⁻¹ - 1 ≤ 102 / 100 * r := by
        rw [sub_le_iff_le_add, inv_le_iff_one_le_mul₀ hq0]
        nlinarith
      linarith
    · have h4 := Real.log_le_sub_one_of_pos hq0
      linarith

/-- `ε ≤ ε / a²` and the like. -/
theorem eps_a {ε a : ℝ} (hε0 : 0 ≤ ε) (ha : 0 < a) (ha1 : a ≤ 1) (hε : 100000 * ε ≤ a ^ 4) : ε ≤ ε / a ^ 2 ∧ ε / a ≤ ε / a ^ 2 ∧ ε / a ^ 2 ≤ 1 / 100000 * a ^ 2 ∧ ε ≤ 1 / 100000 ∧ a ^ 2 ≤ 1 := by
  have h2 : a ^ 2 ≤ 1 := pow_le_one₀ ha.le ha1
  have h4 : a ^ 4 ≤ 1 := pow_le_one₀ ha.le ha1
  have h0 : 0 < a ^ 2 := by positivity
  refine ⟨?_, ?_, ?_, by linarith, h2⟩
  · rw [le_div_iff₀ h0]; nlinarith
  · exact div_le_div_of_nonneg_left hε0 h0 (by nlinarith)
  · rw [div_le_iff₀ h0]; nlinarith

set_option maxHeartbeats 1000000 in
/-- The parallel cut. -/
theorem Arith.parFast_rel {A : Arith} {u γ ε a τ β0 β1 th : ℝ} {N : ℕ} (hA : A.Accurate u γ N) (hu : 0 ≤ u) (huε : u ≤ ε) (hnu : n * u ≤ ε) (hn : 2 ≤ n) {c : EllCalc} (hc : Arith.CoreRel c n u) (hh : c.helper.halfN = A.div n 2)
    (W : WideSlab a τ β0 β1) (hth : Rel (61 / 10 * ε) th (τ ^ 2)) (hε : 100000 * ε ≤ a ^ 4) :
    0 < A.add th (A.mul (n : ℝ) (A.mul β0 β1)) ∧ ∃ p, A.calcParallelBiasCutFast c.helper β0 β1 th (A.mul β0 β1) (A.add th (A.mul (n : ℝ) (A.mul β0 β1))) = .ok p ∧ ParRel (170 * (ε / a ^ 2)) p (parParams n β0 β1 (τ ^ 2)) := by
  have hn2 : (2 : ℝ) ≤ n := by exact_mod_cast hn
  have hε0 : 0 ≤ ε := hu.trans huε
  have hτ2 := pow_pos W.tau 2
  have ha := W.a_pos
  obtain ⟨he1, he2, he3, he4, he5⟩ := eps_a hε0 ha W.a_le hε
  have R := fun x => (hA.rel hu (by linarith) x).mono (show 2 * u ≤ 2 * ε by linarith)
  have hb0 := W.b0
  have hb1 := W.b1_pos
  have hth1 : |th - τ ^ 2| ≤ 62 / 10 * ε * τ ^ 2 := by
    refine (hth.abs_sub_le hτ2.le (by linarith)).trans (mul_le_mul_of_nonneg_right ?_ hτ2.le)
    nlinarith
  have hhN : |A.div n 2 - n / 2| ≤ u * (n / 2) := by
    have := hA.rnd ((n : ℝ) / 2)
    rwa [abs_of_nonneg (show (0 : ℝ) ≤ n / 2 by linarith)] at this
  obtain ⟨z0, z1, hX⟩ := Arith.xi_sq_err hA hu huε hnu hn W hth1 hhN (by linarith)
  have hxi0 : 0 < parXi n β0 β1 (τ ^ 2) := lt_of_lt_of_le (by positivity) (W.xi_ge hn2)
  have hδg := W.delta_ge hn2
  have hZ : 49 / 100 * a * τ ^ 2 ≤ (τ ^ 2 - β0 * β0 + (τ ^ 2 - β1 * β1)) / 2 := by
    have h4 := W.b0_sq
    have h5 := W.b1
    have h6 : a ^ 2 * τ ^ 2 ≤ a * τ ^ 2 := mul_le_mul_of_nonneg_right (by nlinarith [W.a_le]) hτ2.le
    have h7 : 0 ≤ a * τ ^ 2 := by positivity
    nlinarith
  obtain ⟨ep, hep⟩ : ∃ ep, ep = ε / a ^ 2 := ⟨_, rfl⟩
  rw [← hep] at he1 he2 he3 hX ⊢
  have hep0 : 0 ≤ ep := hε0.trans he1
  have hep1 : ep ≤ 1 / 100000 := he3.trans (by linarith)
  have rX := Rel.of_abs_small (r := 52 * ep) (by rw [abs_of_nonneg (sq_nonneg (parXi n β0 β1 (τ ^ 2)))]; exact hX) (by positivity) (by linarith)
  have hX0 := rX.pos (pow_pos hxi0 2)
  have rξ := (R _).trans rX.sqrt
  rw [Real.sqrt_sq hxi0.le] at rξ
  have hnz : (n : ℝ) ≠ 0 := by linarith
  unfold Arith.calcParallelBiasCutFast
  rw [hh, hc.hnF]
  generalize hXe : A.add (A.mul (A.sub th (A.mul β0 β0)) (A.sub th (A.mul β1 β1))) (A.mul (A.mul (A.div n 2) (A.sub (A.mul β1 β1) (A.mul β0 β0))) (A.mul (A.div n 2) (A.sub (A.mul β1 β1) (A.mul β0 β0)))) = Xh at *
  have hps : A.psqrt Xh = .ok (A.rnd (Real.sqrt Xh)) := by unfold Arith.psqrt; rw [if_neg hX0.not_gt]
  generalize A.rnd (Real.sqrt Xh) = xh at *
  have rb : Rel (2 * ε) (A.mul β0 β1) (β0 * β1) := R _
  have rnb : Rel (2 * ε + 2 * ε) (A.mul n (A.mul β0 β1)) (n * (β0 * β1)) := (R _).trans (rb.const_mul n)
  have rη : Rel (2 * ε + 61 / 10 * ε) (A.add th (A.mul n (A.mul β0 β1))) (τ ^ 2 + n * (β0 * β1)) := (R _).trans (hth.add (rnb.mono (by linarith)) hτ2 (by positivity))
  have hη := rη.pos (W.eta_pos hn2)
  have rs : Rel (2 * ε) (A.add β0 β1) (β0 + β1) := R _
  have rsq : Rel (2 * ε + (2 * ε + 2 * ε)) (A.mul (A.add β0 β1) (A.add β0 β1)) ((β0 + β1) ^ 2) := by rw [pow_two (β0 + β1)]; exact (R _).trans (rs.mul rs)
  have rh : Rel (2 * ε) (A.div n 2) (n / 2) := R _
  have rd1 : Rel (2 * ε + 61 / 10 * ε) (A.add th (A.mul β0 β1)) (τ ^ 2 + β0 * β1) := (R _).trans (hth.add (rb.mono (by linarith)) hτ2 (by positivity))
  have rd2 : Rel (2 * ε + (2 * ε + (2 * ε + (2 * ε + 2 * ε)))) (A.mul (A.div n 2) (A.mul (A.add β0 β1) (A.add β0 β1))) (n / 2 * (β0 + β1) ^ 2) := (R _).trans (rh.mul rsq)
  have rd3 : Rel (2 * ε + 10 * ε) (A.add (A.add th (A.mul β0 β1)) (A.mul (A.div n 2) (A.mul (A.add β0 β1) (A.add β0 β1)))) (τ ^ 2 + β0 * β1 + n / 2 * (β0 + β1) ^ 2) :=
    (R _).trans ((rd1.mono (by linarith)).add (rd2.mono (by linarith)) (by positivity) (by positivity))
  have rden : Rel (2 * ε + 29 * ep) (A.add (A.add (A.add th (A.mul β0 β1)) (A.mul (A.div n 2) (A.mul (A.add β0 β1) (A.add β0 β1)))) xh) (parDen n β0 β1 (τ ^ 2)) :=
    (R _).trans ((rd3.mono (by linarith)).add (rξ.mono (by linarith)) (by positivity) hxi0.le)
  have hden := rden.pos (W.den_pos hn2)
  have rσ := (R _).trans (((R _).trans (rη.const_mul 2)).div rden)
  have rρ := (R _).trans (((R _).trans (rσ.mul rs)).div (Rel.refl (le_refl (0 : ℝ)) 2))
  have hth0 := hth.pos hτ2
  have rxn := (R _).trans (rξ.div (Rel.refl (le_refl (0 : ℝ)) (n : ℝ)))
  have rZ : Rel (24 * ep) (A.div (A.add (A.sub th (A.mul β0 β0)) (A.sub th (A.mul β1 β1))) 2) ((τ ^ 2 - β0 * β0 + (τ ^ 2 - β1 * β1)) / 2) := by
    have hZ0 : 0 < (τ ^ 2 - β0 * β0 + (τ ^ 2 - β1 * β1)) / 2 := lt_of_lt_of_le (by positivity) hZ
    have s0 := mul_self_nonneg β0
    have s1 := mul_self_nonneg β1
    have hεT : 0 ≤ ε * τ ^ 2 := by positivity
    have hεT2 : ε * (ε * τ ^ 2) ≤ 1 / 100000 * (ε * τ ^ 2) := mul_le_mul_of_nonneg_right he4 hεT
    have h1 : |A.sub th (A.mul β0 β0) + A.sub th (A.mul β1 β1) - (τ ^ 2 - β0 * β0 + (τ ^ 2 - β1 * β1))| ≤ 18 * (ε * τ ^ 2) := by
      rw [add_sub_add_comm]
      refine (abs_add_le _ _).trans ?_
      linarith
    have h2 := hA.rnd_err (w := ε) (Y := 2 * τ ^ 2) hε0 huε h1 (by rw [abs_of_nonneg (by linarith)]; linarith)
    have h3 : |A.rnd (A.sub th (A.mul β0 β0) + A.sub th (A.mul β1 β1)) / 2 - (τ ^ 2 - β0 * β0 + (τ ^ 2 - β1 * β1)) / 2| ≤ 101 / 10 * (ε * τ ^ 2) := by
      rw [← sub_div, abs_div, abs_two]
      linarith
    have h4 := hA.rnd_err (w := ε) (Y := τ ^ 2) hε0 huε h3 (by rw [abs_of_nonneg hZ0.le]; linarith)
    have h5 : |A.div (A.add (A.sub th (A.mul β0 β0)) (A.sub th (A.mul β1 β1))) 2 - (τ ^ 2 - β0 * β0 + (τ ^ 2 - β1 * β1)) / 2| ≤ 23 * (ε / a) * |(τ ^ 2 - β0 * β0 + (τ ^ 2 - β1 * β1)) / 2| := by
      refine h4.trans ?_
      rw [abs_of_pos hZ0]
      have h6 := mul_le_mul_of_nonneg_left hZ (show 0 ≤ 23 * (ε / a) by positivity)
      have h7 : 23 * (ε / a) * (49 / 100 * a * τ ^ 2) = 1127 / 100 * (ε * τ ^ 2) := by field_simp; ring
      linarith
    exact (Rel.of_abs_small h5 (by positivity) (by linarith)).mono (by linarith)
  have c1 := hc.cst1.mono (show 9 * u ≤ 9 * ε by linarith)
  have hZ0 : 0 < (τ ^ 2 - β0 * β0 + (τ ^ 2 - β1 * β1)) / 2 := lt_of_lt_of_le (by positivity) hZ
  have rS := (R _).trans ((rZ.mono (show 24 * ep ≤ 32 * ep by linarith)).add (rxn.mono (show _ ≤ 32 * ep by linarith)) hZ0 (div_nonneg hxi0.le (by linarith)))
  have rδ := (R _).trans (((R _).trans (c1.mul rS)).div hth)
  refine ⟨hη, ⟨_, _, _⟩, by
    simp only [hXe, hps, except_ok_bind, Arith.pdiv, if_neg hden.ne', if_neg hth0.ne', if_neg hnz]
    rfl, ?_, ?_, ?_⟩
  · exact rρ.mono (by linarith)
  · exact rσ.mono (by linarith)
  · have e : (n : ℝ) ^ 2 / ((n : ℝ) ^ 2 - 1) = n * n / (n * n - 1) := by rw [pow_two]
    rw [e] at rδ
    exact rδ.mono (by linarith)

end Ellalgo
