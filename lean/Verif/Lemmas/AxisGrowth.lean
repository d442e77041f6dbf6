import Verif.Lemmas.ParBounds
import Mathlib.Analysis.Calculus.Deriv.MeanValue
import Mathlib.Analysis.SpecialFunctions.Log.Deriv

/-! # The volume pays for the growth of the semi-axes -/

namespace Ellalgo

open EllCalcCore

/-- `(1 - z) / (1 + z) ≤ (1 - z/n)^(2n-1)`. -/
theorem log_ratio {n z : ℝ} (hn : 1 ≤ n) (h0 : 0 ≤ z) (h1 : z < 1) : 0 ≤ Real.log (1 + z) - Real.log (1 - z) + (2 * n - 1) * Real.log (1 - z / n) := by
  have hn0 : 0 < n := by linarith
  have hpos : ∀ y, y < 1 → 0 < 1 - y / n := fun y hy => by
    have : y / n < 1 := by rw [div_lt_one hn0]; linarith
    linarith
  have hder : ∀ y, 0 ≤ y → y < 1 → HasDerivAt (fun x => Real.log (1 + x) - Real.log (1 - x) + (2 * n - 1) * Real.log (1 - x / n))
      (1 / (1 + y) - (-1) / (1 - y) + (2 * n - 1) * (-(1 / n) / (1 - y / n))) y := fun y hy0 hy1 => by
    have d1 : HasDerivAt (fun x : ℝ => Real.log (1 + x)) (1 / (1 + y)) y := ((hasDerivAt_id' y).const_add 1).log (by linarith)
    have d2 : HasDerivAt (fun x : ℝ => Real.log (1 - x)) ((-1) / (1 - y)) y := ((hasDerivAt_id' y).const_sub 1).log (by linarith)
    have d3 : HasDerivAt (fun x : ℝ => Real.log (1 - x / n)) (-(1 / n) / (1 - y / n)) y := (((hasDerivAt_id' y).div_const n).const_sub 1).log (hpos y hy1).ne'
    exact (d1.sub d2).add (d3.const_mul (2 * n - 1))
  have hmono : MonotoneOn (fun x => Real.log (1 + x) - Real.log (1 - x) + (2 * n - 1) * Real.log (1 - x / n)) (Set.Ico 0 1) := by
    refine monotoneOn_of_deriv_nonneg (convex_Ico 0 1) (fun y hy => (hder y hy.1 hy.2).continuousAt.continuousWithinAt)
      (fun y hy => ?_) (fun y hy => ?_)
    · rw [interior_Ico] at hy
      exact (hder y hy.1.le hy.2).differentiableAt.differentiableWithinAt
    · rw [interior_Ico] at hy
      rw [(hder y hy.1.le hy.2).deriv]
      have a1 : 0 < 1 + y := by linarith [hy.1]
      have a2 : 0 < 1 - y := by linarith [hy.2]
      have a3 : 0 < n - y := by linarith [hy.2]
      have e : 1 / (1 + y) - (-1) / (1 - y) + (2 * n - 1) * (-(1 / n) / (1 - y / n)) = ((1 - y) ^ 2 + 2 * (n - 1) * y ^ 2) / ((1 + y) * (1 - y) * (n - y)) := by
        have : 1 - y / n = (n - y) / n := by field_simp
        rw [this]
        field_simp
        ring
      rw [e]
      have : 0 ≤ n - 1 := by linarith
      positivity
  have := hmono ⟨le_rfl, one_pos⟩ ⟨h0, h1⟩ h0
  simpa using this

theorem axis_pow {n : ℕ} (hn : 1 ≤ n) {z : ℝ} (h0 : 0 ≤ z) (h1 : z < 1) : (1 - z) ≤ (1 + z) * (1 - z / n) ^ (2 * n - 1) := by
  have hn' : (1 : ℝ) ≤ n := by exact_mod_cast hn
  have h := log_ratio hn' h0 h1
  have hw : 0 < 1 - z / n := by
    have : z / n < 1 := by rw [div_lt_one (by linarith)]; linarith
    linarith
  have e : ((2 * n - 1 : ℕ) : ℝ) = 2 * n - 1 := by rw [Nat.cast_sub (by omega)]; push_cast; ring
  rw [← e, ← Real.log_pow] at h
  have h2 : Real.log (1 - z) ≤ Real.log ((1 + z) * (1 - z / n) ^ (2 * n - 1)) := by
    rw [Real.log_mul (by linarith) (pow_pos hw _).ne']; linarith
  exact (Real.log_le_log_iff (by linarith) (mul_pos (by linarith) (pow_pos hw _))).mp h2

/-- `δ` at most as large as for a slab through the centre: then `δ^(n-1)` times the volume factor is at most 1. -/
theorem axis_vol {n : ℕ} (hn : 2 ≤ n) {σ δ : ℝ} (hσ0 : 0 ≤ σ) (hσ1 : σ < 1) (hδ0 : 0 ≤ δ) (h : δ * (2 * n - (n + 1) * σ) ≤ n * (2 - σ)) : δ ^ (n - 1) * (δ ^ n * (1 - σ)) ≤ 1 := by
  have hn' : (2 : ℝ) ≤ n := by exact_mod_cast hn
  obtain ⟨z, hz⟩ : ∃ z, z = σ / (2 - σ) := ⟨_, rfl⟩
  have h2 : 0 < 2 - σ := by linarith
  have hz0 : 0 ≤ z := by rw [hz]; positivity
  have hz1 : z < 1 := by rw [hz, div_lt_one h2]; linarith
  have hs : 1 - σ = (1 - z) / (1 + z) := by
    rw [hz]; have : 2 - σ ≠ 0 := h2.ne'; field_simp; ring
  have hw : δ * (1 - z / n) ≤ 1 := by
    have e : 1 - z / n = (2 * n - (n + 1) * σ) / (n * (2 - σ)) := by rw [hz]; have : (n : ℝ) ≠ 0 := by linarith
                                                                     field_simp; ring
    rw [e, ← mul_div_assoc, div_le_one (by positivity)]; exact h
  have hw0 : 0 < 1 - z / n := by
    have : z / n < 1 := by rw [div_lt_one (by linarith)]; linarith
    linarith
  have hp := pow_le_one₀ (n := 2 * n - 1) (mul_nonneg hδ0 hw0.le) hw
  rw [mul_pow] at hp
  have ha := axis_pow (n := n) (by omega) hz0 hz1
  have e2 : δ ^ (n - 1) * (δ ^ n * (1 - σ)) = δ ^ (2 * n - 1) * (1 - z) / (1 + z) := by
    rw [← mul_assoc, ← pow_add, show n - 1 + n = 2 * n - 1 by omega, hs]; ring
  rw [e2, div_le_one (by linarith)]
  calc δ ^ (2 * n - 1) * (1 - z) ≤ δ ^ (2 * n - 1) * ((1 + z) * (1 - z / n) ^ (2 * n - 1)) := mul_le_mul_of_nonneg_left ha (by positivity)
    _ = (1 + z) * (δ ^ (2 * n - 1) * (1 - z / n) ^ (2 * n - 1)) := by ring
    _ ≤ (1 + z) * 1 := mul_le_mul_of_nonneg_left hp (by linarith)
    _ = _ := mul_one _

/-- The same for a single cut. -/
theorem bias_axis_vol {n : ℕ} (hn : 2 ≤ n) {β τ : ℝ} (hτ : 0 < τ) (hβ0 : 0 ≤ β) (hβ : β < τ) : (biasParams n β τ).delta ^ (n - 1) * volFactor n (biasParams n β τ) ≤ 1 := by
  have hn' : (2 : ℝ) ≤ n := by exact_mod_cast hn
  have hs := bias_one_sub_sigma (n := n) (β := β) (τ := τ) hn' (by linarith)
  have h0 : 0 < τ - β := by linarith
  have hs0 : 0 < 1 - (biasParams n β τ).sigma := by
    rw [hs]
    have : (0 : ℝ) < n - 1 := by linarith
    positivity
  refine axis_vol hn (by simp only [biasParams]; positivity) (by linarith) ?_ ?_
  · simp only [biasParams]
    have : β ^ 2 / τ ^ 2 ≤ 1 := by rw [div_le_one (by positivity)]; exact pow_le_pow_left₀ hβ0 hβ.le 2
    have h3 : (0 : ℝ) < (n : ℝ) ^ 2 - 1 := by nlinarith
    exact mul_nonneg (by positivity) (by linarith)
  · simp only [biasParams]
    have h3 : (0 : ℝ) < (n : ℝ) ^ 2 - 1 := by nlinarith
    have h4 : (0 : ℝ) < (n : ℝ) - 1 := by linarith
    have h5 : (0 : ℝ) < τ + β := by linarith
    have e1 : 2 * (n : ℝ) - (n + 1) * (2 * (τ + n * β) / ((n + 1) * (τ + β))) = 2 * (n - 1) * τ / (τ + β) := by
      field_simp; ring
    have e2 : (n : ℝ) * (2 - 2 * (τ + n * β) / ((n + 1) * (τ + β))) = 2 * n * (n * τ + β) / ((n + 1) * (τ + β)) := by
      field_simp; ring
    rw [e1, e2]
    have e3 : (n : ℝ) ^ 2 / ((n : ℝ) ^ 2 - 1) * (1 - β ^ 2 / τ ^ 2) * (2 * (n - 1) * τ / (τ + β)) = 2 * n * (n * (τ - β) * (τ + β) / τ) / ((n + 1) * (τ + β)) := by
      rw [show (n : ℝ) ^ 2 - 1 = (n - 1) * (n + 1) by ring]
      field_simp
      ring
    rw [e3]
    refine div_le_div_of_nonneg_right (mul_le_mul_of_nonneg_left ?_ (by positivity)) (by positivity)
    rw [div_le_iff₀ hτ]
    nlinarith [mul_nonneg hβ0 hτ.le, mul_nonneg (show (0 : ℝ) ≤ n by linarith) (sq_nonneg β)]

namespace WideSlab

variable {n : ℕ} {a τ β0 β1 : ℝ} (W : WideSlab a τ β0 β1)
include W

theorem axis (hn : 2 ≤ n) : (parParams n β0 β1 (τ ^ 2)).delta ^ (n - 1) * volFactor n (parParams n β0 β1 (τ ^ 2)) ≤ 1 := by
  have hn' : (2 : ℝ) ≤ n := by exact_mod_cast hn
  exact axis_vol hn (W.sigma_pos hn').le (W.sigma_lt hn') (W.delta_pos hn').le (W.delta_le hn')

/-- The volume falls, also if `β1` exceeds `τ` by a little. -/
theorem vol (hn : 2 ≤ n) : volFactor n (parParams n β0 β1 (τ ^ 2)) ≤ Real.exp (-(98 / 100) / ((n : ℝ) + 1)) := by
  have hn' : (2 : ℝ) ≤ n := by exact_mod_cast hn
  have h1 : 0 < (n : ℝ) + 1 := by linarith
  have hτ2 := pow_pos W.tau 2
  have hs1 : 2 / ((n : ℝ) + 1) < 1 := by rw [div_lt_one h1]; linarith
  have hv := par_vol_le (s := 2 / ((n : ℝ) + 1)) hn hτ2 (W.eta_pos hn').le hs1 (W.sigma_lt hn') (W.delta_pos hn')
  have hc := centralFactor_eq hn
  have hN : slabN β0 β1 (τ ^ 2) (2 / ((n : ℝ) + 1)) ≤ (n / ((n : ℝ) + 1)) ^ 2 * (1 + 1 / (100 * n ^ 2)) := by
    have hb0 := W.b0
    have hb1 := W.b1_pos
    have hb01 := W.b01
    have hb2 := W.b1_sq_le
    obtain ⟨s, hs⟩ : ∃ s, s = 2 / ((n : ℝ) + 1) := ⟨_, rfl⟩
    have hs0 : 0 < s := by rw [hs]; positivity
    rw [← hs] at hs1 ⊢
    have hsq : (n / ((n : ℝ) + 1)) ^ 2 = (1 - s / 2) ^ 2 := by rw [hs]; congr 1; field_simp; ring
    have e1 : slabN β0 β1 (τ ^ 2) s * τ ^ 2 = (1 - s) * τ ^ 2 - s * (β0 * β1) + s ^ 2 * (β0 + β1) ^ 2 / 4 := by
      have := W.tau.ne'
      unfold slabN; field_simp
    have h2 : slabN β0 β1 (τ ^ 2) s * τ ^ 2 ≤ ((1 - s / 2) ^ 2 + s ^ 2 / 400) * τ ^ 2 := by
      rw [e1]
      have a1 : β0 * β0 ≤ β0 * β1 := mul_le_mul_of_nonneg_left hb01 hb0
      have a2 : 0 ≤ β0 * β1 := by positivity
      have a3 : s ^ 2 * (β0 * β1) ≤ s * (β0 * β1) := mul_le_mul_of_nonneg_right (by nlinarith) a2
      have a4 : s ^ 2 * (β0 * β0) ≤ s ^ 2 * (β0 * β1) := mul_le_mul_of_nonneg_left a1 (by positivity)
      have a5 : s ^ 2 * β1 ^ 2 ≤ s ^ 2 * (101 / 100 * τ ^ 2) := mul_le_mul_of_nonneg_left hb2 (by positivity)
      nlinarith
    have h3 := le_of_mul_le_mul_right h2 hτ2
    rw [hsq]
    refine h3.trans ?_
    have h4 : s ^ 2 / 400 ≤ (1 - s / 2) ^ 2 * (1 / (100 * n ^ 2)) := by
      rw [hs]
      have e2 : (1 - 2 / ((n : ℝ) + 1) / 2) ^ 2 * (1 / (100 * n ^ 2)) = 1 / (100 * ((n : ℝ) + 1) ^ 2) := by
        have : (n : ℝ) ≠ 0 := by linarith
        field_simp; ring
      rw [e2, div_pow, div_div]
      refine le_of_eq ?_
      field_simp
      norm_num
    linarith
  have hpos : 0 < (1 - 2 / ((n : ℝ) + 1)) ^ (n - 1) := pow_pos (by linarith) _
  have hN0 : 0 ≤ slabN β0 β1 (τ ^ 2) (2 / ((n : ℝ) + 1)) := by
    unfold slabN
    have hb0 := W.b0
    have hb1 := W.b1_pos
    obtain ⟨s, hs⟩ : ∃ s, s = 2 / ((n : ℝ) + 1) := ⟨_, rfl⟩
    have hs0 : 0 < s := by rw [hs]; positivity
    rw [← hs] at hs1 ⊢
    have h8 : (β0 + β1) ^ 2 ≤ 4 * τ ^ 2 := by
      have := W.rho_le hn'
      have h3 := W.far
      have hb1l := W.b1_le
      have ha := W.a_pos
      have := W.b0_sq
      have := W.b1
      have := W.a_le
      have h6 : a ^ 2 * τ ^ 2 ≤ a * τ ^ 2 := mul_le_mul_of_nonneg_right (by nlinarith) hτ2.le
      nlinarith [sq_nonneg (β0 - β1), mul_pos ha hτ2]
    have h9 : β0 * β1 ≤ τ ^ 2 := by nlinarith [sq_nonneg (β0 - β1)]
    have e : 1 - s - s * (β0 * β1) / τ ^ 2 + s ^ 2 * (β0 + β1) ^ 2 / (4 * τ ^ 2) = ((1 - s) * τ ^ 2 - s * (β0 * β1) + s ^ 2 * (β0 + β1) ^ 2 / 4) / τ ^ 2 := by have := W.tau.ne'; field_simp
    rw [e]
    refine div_nonneg ?_ hτ2.le
    have h10 : s ^ 2 * (4 * (β0 * β1)) ≤ s ^ 2 * (β0 + β1) ^ 2 := mul_le_mul_of_nonneg_left (by nlinarith [sq_nonneg (β0 - β1)]) (by positivity)
    have h11 : s * (β0 * β1) ≤ 1 * τ ^ 2 := mul_le_mul hs1.le h9 (by positivity) zero_le_one
    have h12 := mul_nonneg (sub_nonneg.mpr hs1.le) (sub_nonneg.mpr h11)
    nlinarith
  have h3 : volFactor n (parParams n β0 β1 (τ ^ 2)) * (1 - 2 / ((n : ℝ) + 1)) ^ (n - 1) ≤ centralFactor n * Real.exp (1 / (100 * n ^ 2)) ^ n * (1 - 2 / ((n : ℝ) + 1)) ^ (n - 1) := by
    refine hv.trans ?_
    rw [mul_right_comm, hc, ← mul_pow]
    refine pow_le_pow_left₀ hN0 (hN.trans (mul_le_mul_of_nonneg_left ?_ (sq_nonneg _))) n
    have := Real.add_one_le_exp (1 / (100 * (n : ℝ) ^ 2))
    linarith
  have h4 := le_of_mul_le_mul_right h3 hpos
  refine h4.trans ?_
  have hn0 : (n : ℝ) ≠ 0 := by linarith
  have h5 : Real.exp (1 / (100 * (n : ℝ) ^ 2)) ^ n = Real.exp (1 / (100 * n)) := by
    rw [← Real.exp_nat_mul]; congr 1
    field_simp
  rw [h5]
  refine (mul_le_mul_of_nonneg_right (centralFactor_le hn) (Real.exp_pos _).le).trans ?_
  rw [← Real.exp_add]
  refine Real.exp_le_exp.mpr ?_
  have h6 : 1 / (100 * (n : ℝ)) ≤ 2 / 100 / ((n : ℝ) + 1) := by
    rw [div_le_div_iff₀ (by positivity) h1]; linarith
  have h7 : -1 / ((n : ℝ) + 1) + 2 / 100 / ((n : ℝ) + 1) = -(98 / 100) / ((n : ℝ) + 1) := by ring
  linarith

end WideSlab

end Ellalgo
