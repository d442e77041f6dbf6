import Verif.Lemmas.Volume

/-! # Bounds for the parameters of a parallel cut of positive width -/

namespace Ellalgo

open EllCalcCore

/-- A slab `β0 ≤ -t ≤ β1` that is at least `aτ` wide and starts at least `aτ` before the far end of the ellipsoid; `β1` may exceed `τ` by a little. -/
structure WideSlab (a τ β0 β1 : ℝ) : Prop where
  a_pos : 0 < a
  a_le : a ≤ 1
  tau : 0 < τ
  b0 : 0 ≤ β0
  far : β0 ≤ (1 - a) * τ
  wide : β0 + a * τ ≤ β1
  b1 : β1 ^ 2 ≤ (1 + a ^ 2 / 100) * τ ^ 2

namespace WideSlab

variable {N a τ β0 β1 : ℝ} (W : WideSlab a τ β0 β1)
include W

theorem b1_pos : 0 < β1 := by have := mul_pos W.a_pos W.tau; have := W.wide; have := W.b0; linarith

theorem b0_sq : β0 ^ 2 ≤ (1 - a) * τ ^ 2 := by
  have h := pow_le_pow_left₀ W.b0 W.far 2
  have ha := W.a_pos
  have ha1 := W.a_le
  have ht := sq_nonneg τ
  rw [mul_pow] at h
  nlinarith [mul_nonneg (mul_nonneg ha.le (sub_nonneg.mpr ha1)) ht]

theorem diff_sq : a * τ * β1 ≤ β1 ^ 2 - β0 ^ 2 := by
  have h1 : a * τ ≤ β1 - β0 := by have := W.wide; linarith
  have h2 := mul_le_mul_of_nonneg_right h1 (show 0 ≤ β1 + β0 by have := W.b1_pos; have := W.b0; linarith)
  have h3 : 0 ≤ a * τ * β0 := mul_nonneg (mul_pos W.a_pos W.tau).le W.b0
  nlinarith

theorem b01 : β0 ≤ β1 := by have := mul_pos W.a_pos W.tau; have := W.wide; linarith

theorem b1_sq_le : β1 ^ 2 ≤ 101 / 100 * τ ^ 2 := by
  refine W.b1.trans (mul_le_mul_of_nonneg_right ?_ (sq_nonneg τ))
  have ha := W.a_pos
  have ha1 := W.a_le
  nlinarith

theorem b1_le : β1 ≤ 101 / 100 * τ := by
  have h := W.b1_sq_le
  have hτ := W.tau
  refine le_of_sq_le_sq ?_ (by positivity)
  nlinarith [sq_nonneg τ]

/-- `ξ² ≥ a² τ⁴ / 2`, and `(n/2 (β1² - β0²))² ≤ 1.03 ξ²`. -/
theorem xi_sq (hN : 2 ≤ N) : a ^ 2 * (τ ^ 2) ^ 2 / 2 ≤ parXi N β0 β1 (τ ^ 2) ^ 2 ∧ (N / 2 * (β1 ^ 2 - β0 ^ 2)) ^ 2 ≤ 103 / 100 * parXi N β0 β1 (τ ^ 2) ^ 2 := by
  rw [parXi_sq hN]
  have ha := W.a_pos
  have ha1 := W.a_le
  have hτ2 : 0 < τ ^ 2 := pow_pos W.tau 2
  have h0 := W.b0_sq
  have h1 := W.b1
  have hd := W.diff_sq
  have hb1 := W.b1_pos
  have hdd : a ^ 2 * τ ^ 2 * β1 ^ 2 ≤ (β1 ^ 2 - β0 ^ 2) ^ 2 := by
    have := pow_le_pow_left₀ (by have := W.tau; positivity) hd 2
    nlinarith
  have hN4 : 1 ≤ (N / 2) ^ 2 := by nlinarith
  have hy : (β1 ^ 2 - β0 ^ 2) ^ 2 ≤ (N / 2 * (β1 ^ 2 - β0 ^ 2)) ^ 2 := by
    rw [mul_pow]; nlinarith [sq_nonneg (β1 ^ 2 - β0 ^ 2)]
  simp only [← pow_two]
  generalize (N / 2 * (β1 ^ 2 - β0 ^ 2)) ^ 2 = y at *
  have hxd : 0 ≤ β1 ^ 2 - β0 ^ 2 := le_trans (by have := W.tau; positivity) hd
  generalize hT : τ ^ 2 = T at *
  generalize hB : β1 ^ 2 = B at *
  generalize hC : β0 ^ 2 = C at *
  have hC0 : 0 ≤ C := by rw [← hC]; positivity
  have ha2 : a ^ 2 ≤ 1 := by nlinarith
  rcases le_total B T with h | h
  · have hz : (T - B) * (T - B) ≤ (T - C) * (T - B) := mul_le_mul_of_nonneg_right (by linarith) (by linarith)
    have hzz : 0 ≤ (T - C) * (T - B) := mul_nonneg (by nlinarith) (by linarith)
    have hy0 : 0 ≤ y := le_trans (sq_nonneg _) hy
    refine ⟨?_, by linarith⟩
    have h2 : a ^ 2 * T * B ≤ y := hdd.trans hy
    have h3 : 0 ≤ T ^ 2 * (a ^ 2 * (1 - a ^ 2)) := by have : 0 ≤ 1 - a ^ 2 := by linarith
                                                      positivity
    have h4 : 0 ≤ T ^ 2 * a ^ 4 := by positivity
    nlinarith [sq_nonneg (T - B - a ^ 2 * T / 2)]
  · have hz : -(a ^ 2 / 100 * T ^ 2) ≤ (T - C) * (T - B) := by
      have h5 : T - C ≤ T := by linarith
      have h6 : B - T ≤ a ^ 2 / 100 * T := by linarith
      have h7 : 0 ≤ T - C := by nlinarith
      have := mul_le_mul h5 h6 (by linarith) (by linarith)
      nlinarith
    have h2 : a ^ 2 * T * T ≤ y := (mul_le_mul_of_nonneg_left h (by positivity)).trans (hdd.trans hy)
    have h3 : 0 ≤ a ^ 2 * T ^ 2 := by positivity
    constructor <;> nlinarith

theorem xi_ge (hN : 2 ≤ N) : 7 / 10 * a * τ ^ 2 ≤ parXi N β0 β1 (τ ^ 2) := by
  have h := (W.xi_sq hN).1
  have ha := W.a_pos
  have hτ := W.tau
  refine le_of_sq_le_sq ?_ (parXi_nonneg _ _ _ _)
  nlinarith [sq_nonneg (a * τ ^ 2)]

theorem y_le (hN : 2 ≤ N) : 0 ≤ N / 2 * (β1 ^ 2 - β0 ^ 2) ∧ N / 2 * (β1 ^ 2 - β0 ^ 2) ≤ 11 / 10 * parXi N β0 β1 (τ ^ 2) := by
  have h := (W.xi_sq hN).2
  have h0 := parXi_nonneg N β0 β1 (τ ^ 2)
  have hd : 0 ≤ β1 ^ 2 - β0 ^ 2 := le_trans (by have := W.b1_pos; have := W.tau; have := W.a_pos; positivity) W.diff_sq
  refine ⟨by positivity, le_of_sq_le_sq ?_ (by positivity)⟩
  nlinarith [sq_nonneg (parXi N β0 β1 (τ ^ 2))]

theorem eta_pos (hN : 2 ≤ N) : 0 < τ ^ 2 + N * (β0 * β1) := by
  have := W.b0; have := W.b1_pos; have := pow_pos W.tau 2
  positivity

theorem den_pos (hN : 2 ≤ N) : 0 < parDen N β0 β1 (τ ^ 2) := parDen_pos hN (pow_pos W.tau 2) (W.eta_pos hN).le

theorem sigma_pos (hN : 2 ≤ N) : 0 < (parParams N β0 β1 (τ ^ 2)).sigma := by
  have := W.eta_pos hN; have := W.den_pos hN
  simp only [parParams]; positivity

theorem sound (hN : 2 ≤ N) : SlabSound β0 β1 (τ ^ 2) (parParams N β0 β1 (τ ^ 2)) := par_slabSound hN (pow_pos W.tau 2) (W.eta_pos hN).le

theorem sigma_lt (hN : 2 ≤ N) : (parParams N β0 β1 (τ ^ 2)).sigma < 1 :=
  lt_of_le_of_ne (W.sound hN).sigma_le fun h => by
    have := (W.sound hN).width h
    have := mul_pos W.a_pos W.tau
    have := W.wide
    linarith

/-- `δ` in terms of `σ`. -/
theorem delta_eq (hN : 2 ≤ N) : (parParams N β0 β1 (τ ^ 2)).delta * (2 * N - (N + 1) * (parParams N β0 β1 (τ ^ 2)).sigma) * τ ^ 2 =
    N * ((2 - (parParams N β0 β1 (τ ^ 2)).sigma) * τ ^ 2 - β0 * β1 * (parParams N β0 β1 (τ ^ 2)).sigma) := by
  have hK := (W.den_pos hN).ne'
  have hst := par_stationary hN hK
  have hds := par_deltasigma hN (pow_pos W.tau 2) hK
  have hr : (parParams N β0 β1 (τ ^ 2)).rho = (parParams N β0 β1 (τ ^ 2)).sigma * (β0 + β1) / 2 := rfl
  have hlt := W.sigma_lt hN
  rw [hr] at hds
  generalize (parParams N β0 β1 (τ ^ 2)).sigma = σ at *
  generalize (parParams N β0 β1 (τ ^ 2)).delta = δ at *
  have h1 : (1 - σ) ≠ 0 := by linarith
  refine mul_left_cancel₀ h1 ?_
  linear_combination (2 * N - (N + 1) * σ) * hds - σ * hst

/-- `δ (1 - σ / (n (2 - σ))) ≤ 1`. -/
theorem delta_le (hN : 2 ≤ N) : (parParams N β0 β1 (τ ^ 2)).delta * (2 * N - (N + 1) * (parParams N β0 β1 (τ ^ 2)).sigma) ≤ N * (2 - (parParams N β0 β1 (τ ^ 2)).sigma) := by
  have h := W.delta_eq hN
  have hτ2 := pow_pos W.tau 2
  have h2 : 0 ≤ N * (β0 * β1 * (parParams N β0 β1 (τ ^ 2)).sigma) := by
    have := W.b0; have := W.b1_pos; have := W.sigma_pos hN; positivity
  refine le_of_mul_le_mul_right ?_ hτ2
  linarith

theorem delta_ge (hN : 2 ≤ N) : 49 / 100 * a ≤ (parParams N β0 β1 (τ ^ 2)).delta := by
  have hτ2 := pow_pos W.tau 2
  have ha := W.a_pos
  have ha1 := W.a_le
  simp only [parParams]
  rw [le_div_iff₀ hτ2]
  have h1 : 1 ≤ N * N / (N * N - 1) := by rw [le_div_iff₀ (by nlinarith)]; linarith
  have h2 : 49 / 100 * a * τ ^ 2 ≤ (τ ^ 2 - β0 * β0 + (τ ^ 2 - β1 * β1)) / 2 + parXi N β0 β1 (τ ^ 2) / N := by
    have h3 : 0 ≤ parXi N β0 β1 (τ ^ 2) / N := div_nonneg (parXi_nonneg _ _ _ _) (by linarith)
    have h4 := W.b0_sq
    have h5 := W.b1
    have h6 : a ^ 2 * τ ^ 2 ≤ a * τ ^ 2 := mul_le_mul_of_nonneg_right (by nlinarith) hτ2.le
    have h7 : 0 ≤ a * τ ^ 2 := by positivity
    nlinarith
  have h3 : 0 ≤ 49 / 100 * a * τ ^ 2 := by positivity
  nlinarith

theorem delta_pos (hN : 2 ≤ N) : 0 < (parParams N β0 β1 (τ ^ 2)).delta := lt_of_lt_of_le (by have := W.a_pos; positivity) (W.delta_ge hN)

theorem delta_le_two (hN : 2 ≤ N) : (parParams N β0 β1 (τ ^ 2)).delta ≤ 2 := by
  have h := W.delta_le hN
  have h1 := W.sigma_lt hN
  have h2 := W.sigma_pos hN
  generalize (parParams N β0 β1 (τ ^ 2)).sigma = σ at *
  generalize (parParams N β0 β1 (τ ^ 2)).delta = δ at *
  have h3 : 0 < 2 * N - (N + 1) * σ := by nlinarith
  by_contra hc
  push Not at hc
  have := mul_lt_mul_of_pos_right hc h3
  nlinarith

/-- The new ellipsoid is at least as wide as the slab. -/
theorem width_sq (hN : 2 ≤ N) : ((β1 - β0) / 2) ^ 2 ≤ (parParams N β0 β1 (τ ^ 2)).delta * (1 - (parParams N β0 β1 (τ ^ 2)).sigma) * τ ^ 2 := by
  have hK := (W.den_pos hN).ne'
  rw [par_deltasigma hN (pow_pos W.tau 2) hK]
  have hr : (parParams N β0 β1 (τ ^ 2)).rho = (parParams N β0 β1 (τ ^ 2)).sigma * (β0 + β1) / 2 := rfl
  have h1 := W.sigma_lt hN
  have h2 := W.sigma_pos hN
  rw [hr]
  generalize (parParams N β0 β1 (τ ^ 2)).sigma = σ at *
  have h3 := W.b0_sq
  have h4 := W.b1
  have ha := W.a_pos
  have ha1 := W.a_le
  have h5 : a ^ 2 * τ ^ 2 ≤ a * τ ^ 2 := mul_le_mul_of_nonneg_right (by nlinarith) (sq_nonneg τ)
  have h6 : 0 ≤ a * τ ^ 2 := by positivity
  have h7 : (β0 + β1) ^ 2 / 2 ≤ τ ^ 2 + β0 * β1 := by nlinarith
  have h8 : (1 + σ) / 4 * (β0 + β1) ^ 2 ≤ τ ^ 2 + β0 * β1 := by nlinarith [sq_nonneg (β0 + β1)]
  have h9 := mul_nonneg (show 0 ≤ 1 - σ by linarith) (sub_nonneg.mpr h8)
  nlinarith

theorem sqrt_ge (hN : 2 ≤ N) : a / 2 ≤ Real.sqrt ((parParams N β0 β1 (τ ^ 2)).delta * (1 - (parParams N β0 β1 (τ ^ 2)).sigma)) := by
  refine Real.le_sqrt_of_sq_le ?_
  have h := W.width_sq hN
  have hτ2 := pow_pos W.tau 2
  refine le_of_mul_le_mul_right (le_trans ?_ h) hτ2
  rw [← mul_pow]
  refine pow_le_pow_left₀ (by have := W.a_pos; have := W.tau; positivity) ?_ 2
  have := W.wide
  linarith

theorem one_sub_sigma_ge (hN : 2 ≤ N) : a ^ 2 / 8 ≤ 1 - (parParams N β0 β1 (τ ^ 2)).sigma := by
  have h := pow_le_pow_left₀ (by have := W.a_pos; positivity) (W.sqrt_ge hN) 2
  have h1 := W.sigma_lt hN
  have h2 := W.delta_le_two hN
  have h3 := W.delta_pos hN
  rw [Real.sq_sqrt (mul_nonneg h3.le (by linarith))] at h
  have := mul_le_mul_of_nonneg_right h2 (show 0 ≤ 1 - (parParams N β0 β1 (τ ^ 2)).sigma by linarith)
  linarith

theorem rho_nonneg (hN : 2 ≤ N) : 0 ≤ (parParams N β0 β1 (τ ^ 2)).rho := by
  have := W.sigma_pos hN; have := W.b0; have := W.b1_pos
  have hr : (parParams N β0 β1 (τ ^ 2)).rho = (parParams N β0 β1 (τ ^ 2)).sigma * (β0 + β1) / 2 := rfl
  rw [hr]; positivity

theorem rho_le (hN : 2 ≤ N) : (parParams N β0 β1 (τ ^ 2)).rho ≤ 1 * τ := by
  have h1 := W.sigma_lt hN
  have hr : (parParams N β0 β1 (τ ^ 2)).rho = (parParams N β0 β1 (τ ^ 2)).sigma * (β0 + β1) / 2 := rfl
  rw [hr]
  have ha := W.a_pos
  have ha1 := W.a_le
  have hτ := W.tau
  have h2 : β1 ≤ (1 + a / 2) * τ := by
    refine le_of_sq_le_sq ?_ (by positivity)
    refine W.b1.trans ?_
    rw [mul_pow]
    refine mul_le_mul_of_nonneg_right ?_ (sq_nonneg τ)
    nlinarith
  have h3 := W.far
  have h4 : β0 + β1 ≤ 2 * τ := by nlinarith
  have h5 : 0 ≤ β0 + β1 := by have := W.b0; have := W.b1_pos; linarith
  have h6 := mul_le_mul_of_nonneg_right h1.le h5
  linarith

set_option maxHeartbeats 1000000 in
/-- An inflated ellipsoid and a relaxed slab: the inflation `φ` and the slack `e` (in units of `τ`) grow by the factor `3/a`. -/
theorem sound_infl {φ e : ℝ} (hN : 2 ≤ N) (hφ : 1 ≤ φ) (he : 0 ≤ e) :
    SlabSound (β0 - e * τ) (β1 + e * τ) (φ ^ 2 * τ ^ 2) { parParams N β0 β1 (τ ^ 2) with delta := (parParams N β0 β1 (τ ^ 2)).delta * (1 + 3 / a * (φ - 1 + e)) ^ 2 / φ ^ 2 } := by
  have hK := (W.den_pos hN).ne'
  have hds := par_deltasigma hN (pow_pos W.tau 2) hK
  have hr : (parParams N β0 β1 (τ ^ 2)).rho = (parParams N β0 β1 (τ ^ 2)).sigma * (β0 + β1) / 2 := rfl
  have hw := W.width_sq hN
  have hlt := W.sigma_lt hN
  have hσ := W.sigma_pos hN
  have hδ := W.delta_ge hN
  have ha := W.a_pos
  have ha1 := W.a_le
  have hτ := W.tau
  have hwd := W.wide
  generalize parParams N β0 β1 (τ ^ 2) = p at *
  obtain ⟨C, hC⟩ : ∃ C, C = 3 / a := ⟨_, rfl⟩
  have hCa : C * a = 3 := by rw [hC]; field_simp
  have hC1 : 1 ≤ C := by rw [hC, le_div_iff₀ ha]; linarith
  rw [← hC]
  have hs0 : 0 < 1 - p.sigma := by linarith
  have hδC : 1 ≤ C * p.delta := by nlinarith
  have hδ0 : 0 < p.delta := lt_of_lt_of_le (by positivity) hδ
  have hφ2 : φ ^ 2 ≠ 0 := by positivity
  have hmain : ∀ t, t ^ 2 ≤ φ ^ 2 * τ ^ 2 → -(β1 + e * τ) ≤ t → t ≤ -(β0 - e * τ) →
      (t + p.rho) ^ 2 + (1 - p.sigma) * (φ ^ 2 * τ ^ 2 - t ^ 2) ≤ p.delta * (1 + C * (φ - 1 + e)) ^ 2 / φ ^ 2 * (1 - p.sigma) * (φ ^ 2 * τ ^ 2) := fun t _ h1 h2 => by
    have e1 : p.delta * (1 + C * (φ - 1 + e)) ^ 2 / φ ^ 2 * (1 - p.sigma) * (φ ^ 2 * τ ^ 2) = (1 + C * (φ - 1 + e)) ^ 2 * (p.delta * (1 - p.sigma) * τ ^ 2) := by field_simp
    rw [e1]
    obtain ⟨q, hq⟩ : ∃ q, q = e * τ := ⟨_, rfl⟩
    have hq0 : 0 ≤ q := by rw [hq]; positivity
    rw [← hq] at h1 h2
    have hprod : (t + β0) * (t + β1) ≤ q * (β1 - β0 + q) := by
      have hb : 0 ≤ β1 - β0 := le_trans (by positivity) (show a * τ ≤ _ by linarith)
      nlinarith [mul_nonneg (show 0 ≤ q - (t + β0) by linarith) (show 0 ≤ q + (t + β1) by linarith)]
    obtain ⟨H, hH⟩ : ∃ H, H = p.delta * (1 - p.sigma) * τ ^ 2 := ⟨_, rfl⟩
    have hlhs : (t + p.rho) ^ 2 + (1 - p.sigma) * (φ ^ 2 * τ ^ 2 - t ^ 2) = p.sigma * ((t + β0) * (t + β1)) + H + (1 - p.sigma) * ((φ ^ 2 - 1) * τ ^ 2) := by
      rw [hH, hds, hr]; ring
    rw [hlhs, ← hH]
    have hH0 : 0 < H := by rw [hH]; positivity
    have hwH : (β1 - β0) ^ 2 ≤ 4 * H := by rw [hH]; linarith
    have haH : (a * τ) ^ 2 ≤ 4 * H := le_trans (pow_le_pow_left₀ (by positivity) (by linarith) 2) hwH
    -- the slack
    have hs1 : q * (β1 - β0) ≤ 4 / 3 * C * e * H := by
      have haτ : a * τ ≤ β1 - β0 := by linarith
      have haτ0 : 0 ≤ a * τ := by positivity
      have : a * τ * (β1 - β0) ≤ (β1 - β0) * (β1 - β0) := mul_le_mul_of_nonneg_right haτ (haτ0.trans haτ)
      have h3 : a * τ * (β1 - β0) ≤ 4 * H := by rw [pow_two] at hwH; linarith
      have h4 := mul_le_mul_of_nonneg_left h3 (show 0 ≤ C * e / 3 by positivity)
      have h5 : C * e / 3 * (a * τ * (β1 - β0)) = q * (β1 - β0) := by rw [hq]; linear_combination (e * τ * (β1 - β0) / 3) * hCa
      linarith
    have hs2 : q * q ≤ 4 / 9 * (C * e) ^ 2 * H := by
      have h4 := mul_le_mul_of_nonneg_left haH (show 0 ≤ (C * e) ^ 2 / 9 by positivity)
      have h5 : (C * e) ^ 2 / 9 * (a * τ) ^ 2 = q * q := by
        rw [hq]
        have : (C * a) ^ 2 = 9 := by rw [hCa]; norm_num
        linear_combination (e ^ 2 * τ ^ 2 / 9) * this
      linarith
    have hs3 : p.sigma * ((t + β0) * (t + β1)) ≤ (4 / 3 * C * e + 4 / 9 * (C * e) ^ 2) * H := by
      have h3 := mul_le_mul_of_nonneg_left hprod hσ.le
      have h4 : p.sigma * (q * (β1 - β0 + q)) ≤ 1 * (q * (β1 - β0 + q)) := mul_le_mul_of_nonneg_right hlt.le (mul_nonneg hq0 (by nlinarith))
      nlinarith
    -- the inflation
    have hs4 : (1 - p.sigma) * ((φ ^ 2 - 1) * τ ^ 2) ≤ C * (φ ^ 2 - 1) * H := by
      rw [hH]
      have h3 : 0 ≤ (φ ^ 2 - 1) * τ ^ 2 * (1 - p.sigma) := mul_nonneg (mul_nonneg (by nlinarith) (sq_nonneg _)) hs0.le
      have := mul_le_mul_of_nonneg_right hδC h3
      linarith
    obtain ⟨y, hy⟩ : ∃ y, y = φ - 1 := ⟨_, rfl⟩
    have hy0 : 0 ≤ y := by rw [hy]; linarith
    have hφy : φ ^ 2 - 1 = 2 * y + y ^ 2 := by rw [hy]; ring
    rw [hφy] at hs4
    rw [← hy]
    have hfin : 1 + (4 / 3 * C * e + 4 / 9 * (C * e) ^ 2) + C * (2 * y + y ^ 2) ≤ (1 + C * (y + e)) ^ 2 := by
      have c1 : 0 ≤ C * e := by positivity
      have c2 : 0 ≤ C * y * (C * e) := by positivity
      have c3 : C * y ^ 2 ≤ C ^ 2 * y ^ 2 := mul_le_mul_of_nonneg_right (by nlinarith) (sq_nonneg y)
      nlinarith [sq_nonneg (C * e)]
    have := mul_le_mul_of_nonneg_right hfin hH0.le
    rw [hφy]
    linarith
  refine ⟨hlt.le, hmain, fun t h1 h2 h3 => ?_, fun h => by simp only at h; linarith⟩
  have h4 := hmain t h1 h2 h3
  have h5 := sq_nonneg (t + p.rho)
  simp only
  have h6 : (1 - p.sigma) * (φ ^ 2 * τ ^ 2 - t ^ 2) ≤ (1 - p.sigma) * (p.delta * (1 + C * (φ - 1 + e)) ^ 2 / φ ^ 2 * (φ ^ 2 * τ ^ 2)) := by linarith
  exact le_of_mul_le_mul_left h6 hs0

end WideSlab

end Ellalgo
