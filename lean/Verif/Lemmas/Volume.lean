import Verif.Lemmas.EllUpdate
import Verif.Lemmas.Ranges
import Mathlib.Analysis.MeanInequalities
import Mathlib.Analysis.SpecialFunctions.Exp

/-! Bounds on `δⁿ(1-σ)`, the factor by which `det (κM)` changes. -/

namespace Ellalgo

open Matrix EllCalcCore

/-- Factor by which an update multiplies `det (κM)`. -/
noncomputable def volFactor (n : ℕ) (p : Params) : ℝ := p.delta ^ n * (1 - p.sigma)

/-- The factor of the central cut. -/
noncomputable def centralFactor (n : ℕ) : ℝ := volFactor n (biasParams n 0 1)

/-- `z^(n-1) ≤ ((1 + (n-1) z)/n)^n`. -/
theorem pow_le_mean_pow {n : ℕ} (hn : 1 ≤ n) {z : ℝ} (hz : 0 ≤ z) :
    z ^ (n - 1) ≤ (1 / n + ((n : ℝ) - 1) / n * z) ^ n := by
  have hn0 : (0 : ℝ) < n := by exact_mod_cast hn
  have hn1 : (0 : ℝ) ≤ (n : ℝ) - 1 := by
    have : (1 : ℝ) ≤ n := by exact_mod_cast hn
    linarith
  have h := Real.geom_mean_le_arith_mean2_weighted (w₁ := 1 / n) (w₂ := ((n : ℝ) - 1) / n) (p₁ := 1)
    (p₂ := z) (by positivity) (by positivity) zero_le_one hz (by field_simp; ring)
  rw [Real.one_rpow, one_mul, mul_one] at h
  have h2 : (z ^ (((n : ℝ) - 1) / n)) ^ n = z ^ (n - 1) := by
    rw [← Real.rpow_natCast, ← Real.rpow_mul hz, div_mul_cancel₀ _ hn0.ne']
    have : ((n : ℝ) - 1) = ((n - 1 : ℕ) : ℝ) := by push_cast [Nat.cast_sub hn]; ring
    rw [this, Real.rpow_natCast]
  rw [← h2]
  exact pow_le_pow_left₀ (Real.rpow_nonneg hz _) h n

/-- `δ(1-σ)` of a cut with offsets `β0, β1` and parameter `σ = s`, in units of `tsq`. -/
noncomputable def slabN (β0 β1 tsq s : ℝ) : ℝ :=
  1 - s - s * (β0 * β1) / tsq + s ^ 2 * (β0 + β1) ^ 2 / (4 * tsq)

/-- `σ` of the parallel cut is a root of the stationarity equation. -/
theorem par_stationary {n β0 β1 tsq : ℝ} (hn : 2 ≤ n) (hK : parDen n β0 β1 tsq ≠ 0) :
    (n + 1) * (β0 + β1) ^ 2 / 4 * (parParams n β0 β1 tsq).sigma ^ 2 -
      (tsq + β0 * β1 + n / 2 * (β0 + β1) ^ 2) * (parParams n β0 β1 tsq).sigma +
      (tsq + n * (β0 * β1)) = 0 := by
  have hx := parXi_disc hn β0 β1 tsq
  set σ := (parParams n β0 β1 tsq).sigma with hσ
  have h1 : σ * parDen n β0 β1 tsq = 2 * (tsq + n * (β0 * β1)) := by
    rw [hσ]; simp only [parParams]; field_simp
  set A := tsq + β0 * β1 + n / 2 * (β0 + β1) ^ 2
  set ξ := parXi n β0 β1 tsq
  set η := tsq + n * (β0 * β1)
  have hKA : parDen n β0 β1 tsq = A + ξ := rfl
  rw [hKA] at h1 hK
  have hK2 : (A + ξ) ^ 2 ≠ 0 := pow_ne_zero _ hK
  apply mul_left_cancel₀ hK2
  have e1 : (A + ξ) ^ 2 * ((n + 1) * (β0 + β1) ^ 2 / 4 * σ ^ 2 - A * σ + η) =
      (n + 1) * (β0 + β1) ^ 2 / 4 * (σ * (A + ξ)) ^ 2 - A * (A + ξ) * (σ * (A + ξ)) +
        η * (A + ξ) ^ 2 := by ring
  rw [e1, h1]
  linear_combination η * hx

theorem par_slabN {n β0 β1 tsq : ℝ} (hn : 2 ≤ n) (ht : 0 < tsq) (hK : parDen n β0 β1 tsq ≠ 0) :
    (parParams n β0 β1 tsq).delta * (1 - (parParams n β0 β1 tsq).sigma) =
      slabN β0 β1 tsq (parParams n β0 β1 tsq).sigma := by
  have h := par_deltasigma hn ht hK
  have hr : (parParams n β0 β1 tsq).rho = (parParams n β0 β1 tsq).sigma * (β0 + β1) / 2 := rfl
  rw [hr] at h
  unfold slabN
  field_simp
  linear_combination 4 * h

/-- The parallel cut minimises the volume over all admissible `σ`: it is at least as good as any `s`. -/
theorem par_vol_le {n : ℕ} (hn : 2 ≤ n) {β0 β1 tsq s : ℝ} (ht : 0 < tsq)
    (hη : 0 ≤ tsq + n * (β0 * β1)) (hs1 : s < 1)
    (hlt : (parParams n β0 β1 tsq).sigma < 1) (hδ : 0 < (parParams n β0 β1 tsq).delta) :
    volFactor n (parParams n β0 β1 tsq) * (1 - s) ^ (n - 1) ≤ slabN β0 β1 tsq s ^ n := by
  have hn2 : (2 : ℝ) ≤ n := by exact_mod_cast hn
  have hK := (parDen_pos hn2 ht hη).ne'
  have hst := par_stationary hn2 hK
  have hNσ := par_slabN hn2 ht hK
  set p := parParams n β0 β1 tsq
  set σ := p.sigma
  set x := 1 - σ with hx
  have hx0 : 0 < x := by linarith
  set y := 1 - s with hy
  have hy0 : 0 < y := by linarith
  set N := slabN β0 β1 tsq σ with hNdef
  have hN0 : 0 < N := by rw [← hNσ]; positivity
  have hn0 : (0 : ℝ) < n := by linarith
  -- tangent line
  have htan : N * (1 / n + ((n : ℝ) - 1) / n * (y / x)) ≤ slabN β0 β1 tsq s := by
    have e1 : slabN β0 β1 tsq s - N * (1 / n + ((n : ℝ) - 1) / n * (y / x)) =
        (s - σ) ^ 2 * (β0 + β1) ^ 2 / (4 * tsq) := by
      have hst' : n * ((-1 - β0 * β1 / tsq + 2 * σ * (β0 + β1) ^ 2 / (4 * tsq))) * x +
          ((n : ℝ) - 1) * N = 0 := by
        rw [hNdef, hx]; unfold slabN
        field_simp
        linear_combination (-4) * hst
      have e2 : N * (1 / n + ((n : ℝ) - 1) / n * (y / x)) =
          N + (s - σ) * (-1 - β0 * β1 / tsq + 2 * σ * (β0 + β1) ^ 2 / (4 * tsq)) := by
        have hyx : y = x - (s - σ) := by rw [hx, hy]; ring
        rw [hyx]
        have : N * (1 / n + ((n : ℝ) - 1) / n * ((x - (s - σ)) / x)) =
            N - (((n : ℝ) - 1) * N) * (s - σ) / (n * x) := by field_simp; ring
        rw [this, show ((n : ℝ) - 1) * N =
          -(n * (-1 - β0 * β1 / tsq + 2 * σ * (β0 + β1) ^ 2 / (4 * tsq)) * x) by linarith]
        field_simp
        ring
      rw [e2, hNdef]; unfold slabN
      field_simp
      ring
    have : 0 ≤ (s - σ) ^ 2 * (β0 + β1) ^ 2 / (4 * tsq) := by positivity
    linarith
  have hz : 0 ≤ y / x := by positivity
  have hpow := pow_le_mean_pow (n := n) (by omega) hz
  have hvol : volFactor n p * x ^ (n - 1) = N ^ n := by
    rw [← hNσ]; unfold volFactor
    obtain ⟨m, rfl⟩ : ∃ m, n = m + 1 := ⟨n - 1, by omega⟩
    rw [Nat.add_sub_cancel, mul_pow, pow_succ x m]; ring
  have hmean0 : 0 ≤ 1 / (n : ℝ) + ((n : ℝ) - 1) / n * (y / x) := by
    have : (0 : ℝ) ≤ (n : ℝ) - 1 := by linarith
    positivity
  calc volFactor n p * y ^ (n - 1) = N ^ n * (y / x) ^ (n - 1) := by
        rw [← hvol, div_pow]; field_simp
    _ ≤ N ^ n * (1 / n + ((n : ℝ) - 1) / n * (y / x)) ^ n :=
        mul_le_mul_of_nonneg_left hpow (by positivity)
    _ = (N * (1 / n + ((n : ℝ) - 1) / n * (y / x))) ^ n := by rw [mul_pow]
    _ ≤ slabN β0 β1 tsq s ^ n := pow_le_pow_left₀ (mul_nonneg hN0.le hmean0) htan n

/-- A cut that is allowed to do nothing never increases the volume. -/
theorem par_vol_le_one {n : ℕ} (hn : 2 ≤ n) {β0 β1 tsq : ℝ} (ht : 0 < tsq)
    (hη : 0 ≤ tsq + n * (β0 * β1)) (hlt : (parParams n β0 β1 tsq).sigma < 1)
    (hδ : 0 < (parParams n β0 β1 tsq).delta) :
    volFactor n (parParams n β0 β1 tsq) ≤ 1 := by
  have h := par_vol_le (s := 0) hn ht hη one_pos hlt hδ
  simpa [slabN] using h

theorem centralFactor_eq {n : ℕ} (hn : 2 ≤ n) :
    centralFactor n * (1 - 2 / ((n : ℝ) + 1)) ^ (n - 1) = ((n / ((n : ℝ) + 1)) ^ 2) ^ n := by
  have hn2 : (2 : ℝ) ≤ n := by exact_mod_cast hn
  have h1 : (n : ℝ) + 1 ≠ 0 := by linarith
  have h2 : (n : ℝ) - 1 ≠ 0 := by linarith
  have hs : (biasParams (n : ℝ) 0 1).sigma = 2 / ((n : ℝ) + 1) := by simp [biasParams]
  have hd : (biasParams (n : ℝ) 0 1).delta * (1 - 2 / ((n : ℝ) + 1)) = (n / ((n : ℝ) + 1)) ^ 2 := by
    simp only [biasParams]
    rw [show (n : ℝ) ^ 2 - 1 = (n - 1) * (n + 1) by ring]
    field_simp
    ring
  unfold centralFactor volFactor
  rw [hs, ← hd]
  obtain ⟨m, rfl⟩ : ∃ m, n = m + 1 := ⟨n - 1, by omega⟩
  rw [Nat.add_sub_cancel, mul_pow, pow_succ (1 - _) m]
  ring

theorem centralFactor_le {n : ℕ} (hn : 2 ≤ n) : centralFactor n ≤ Real.exp (-1 / ((n : ℝ) + 1)) := by
  have hn2 : (2 : ℝ) ≤ n := by exact_mod_cast hn
  have h1 : 0 < (n : ℝ) + 1 := by linarith
  have h2 : 0 < (n : ℝ) - 1 := by linarith
  have h3 : (0 : ℝ) < (n : ℝ) ^ 2 - 1 := by nlinarith
  have hsplit : centralFactor n = ((n : ℝ) ^ 2 / ((n : ℝ) ^ 2 - 1)) ^ (n - 1) * (n / ((n : ℝ) + 1)) ^ 2 := by
    unfold centralFactor volFactor
    obtain ⟨m, rfl⟩ : ∃ m, n = m + 1 := ⟨n - 1, by omega⟩
    simp only [biasParams, Nat.add_sub_cancel]
    rw [pow_succ, mul_assoc]
    simp only [mul_zero, add_zero, mul_one, ne_eq, OfNat.ofNat_ne_zero, not_false_eq_true, zero_pow,
      zero_div, sub_zero]
    congr 1
    have h1' := h1.ne'
    have h2' := h2.ne'
    rw [show ((m + 1 : ℕ) : ℝ) ^ 2 - 1 = (((m + 1 : ℕ) : ℝ) - 1) * (((m + 1 : ℕ) : ℝ) + 1) by ring]
    field_simp
    ring
  have b1 : (n : ℝ) ^ 2 / ((n : ℝ) ^ 2 - 1) ≤ Real.exp (1 / ((n : ℝ) ^ 2 - 1)) := by
    have := Real.add_one_le_exp (1 / ((n : ℝ) ^ 2 - 1))
    have e : (n : ℝ) ^ 2 / ((n : ℝ) ^ 2 - 1) = 1 / ((n : ℝ) ^ 2 - 1) + 1 := by field_simp; ring
    rw [e]; exact this
  have b2 : (n : ℝ) / ((n : ℝ) + 1) ≤ Real.exp (-1 / ((n : ℝ) + 1)) := by
    have := Real.add_one_le_exp (-1 / ((n : ℝ) + 1))
    have e : (n : ℝ) / ((n : ℝ) + 1) = -1 / ((n : ℝ) + 1) + 1 := by field_simp; ring
    rw [e]; exact this
  rw [hsplit]
  calc ((n : ℝ) ^ 2 / ((n : ℝ) ^ 2 - 1)) ^ (n - 1) * (n / ((n : ℝ) + 1)) ^ 2
      ≤ Real.exp (1 / ((n : ℝ) ^ 2 - 1)) ^ (n - 1) * Real.exp (-1 / ((n : ℝ) + 1)) ^ 2 := by
        gcongr
    _ = Real.exp (-1 / ((n : ℝ) + 1)) := by
        rw [← Real.exp_nat_mul, ← Real.exp_nat_mul, ← Real.exp_add]
        congr 1
        rw [Nat.cast_sub (by omega : 1 ≤ n)]
        push_cast
        rw [show (n : ℝ) ^ 2 - 1 = (n - 1) * (n + 1) by ring]
        have h1' := h1.ne'
        have h2' := h2.ne'
        field_simp
        ring

theorem bias_vol_le {n : ℕ} (hn : 2 ≤ n) {β τ : ℝ} (hτ : 0 < τ) (h0 : 0 ≤ β) (hβ : β ≤ τ) :
    volFactor n (biasParams n β τ) ≤ centralFactor n := by
  have hn2 : (2 : ℝ) ≤ n := by exact_mod_cast hn
  have h1 : 0 < (n : ℝ) + 1 := by linarith
  have h2 : 0 < (n : ℝ) - 1 := by linarith
  have h3 : (0 : ℝ) < (n : ℝ) ^ 2 - 1 := by nlinarith
  set α := β / τ with hα
  have hβα : β = α * τ := by rw [hα]; field_simp
  have hα0 : 0 ≤ α := by positivity
  have hα1 : α ≤ 1 := by rw [hα, div_le_one hτ]; exact hβ
  have hb : 0 < τ + β := by linarith
  have hs := bias_one_sub_sigma (n := n) hn2 hb
  have hs0 := bias_one_sub_sigma (n := n) (β := 0) (τ := 1) hn2 (by norm_num)
  unfold centralFactor volFactor
  rw [hs, hs0]
  have hd : (biasParams (n : ℝ) β τ).delta = (n : ℝ) ^ 2 / ((n : ℝ) ^ 2 - 1) * (1 - α ^ 2) := by
    simp only [biasParams, hα, div_pow]
  have hd0 : (biasParams (n : ℝ) 0 1).delta = (n : ℝ) ^ 2 / ((n : ℝ) ^ 2 - 1) := by
    simp [biasParams]
  rw [hd, hd0, mul_pow]
  have e1 : ((n : ℝ) - 1) * (τ - β) / ((n + 1) * (τ + β)) =
      ((n : ℝ) - 1) * (1 - 0) / ((n + 1) * (1 + 0)) * ((1 - α) / (1 + α)) := by
    rw [hβα]
    have : (1 : ℝ) + α ≠ 0 := by linarith
    have h1' := h1.ne'
    have e : τ + α * τ = τ * (1 + α) := by ring
    rw [e]
    field_simp
    ring
  rw [e1]
  have hC : 0 ≤ ((n : ℝ) ^ 2 / ((n : ℝ) ^ 2 - 1)) ^ n * (((n : ℝ) - 1) * (1 - 0) / ((n + 1) * (1 + 0))) := by
    apply mul_nonneg (by positivity)
    apply div_nonneg <;> nlinarith
  have hle : (1 - α ^ 2) ^ n * ((1 - α) / (1 + α)) ≤ 1 := by
    have a1 : (1 - α ^ 2) ^ n ≤ 1 := pow_le_one₀ (by nlinarith) (by nlinarith)
    have a2 : (1 - α) / (1 + α) ≤ 1 := by rw [div_le_one (by linarith)]; linarith
    have a3 : 0 ≤ (1 - α) / (1 + α) := div_nonneg (by linarith) (by linarith)
    exact mul_le_one₀ a1 a3 a2
  nlinarith [mul_le_mul_of_nonneg_left hle hC]

theorem par_vol_le_central {n : ℕ} (hn : 2 ≤ n) {β0 β1 tsq : ℝ} (ht : 0 < tsq) (h0 : 0 ≤ β0)
    (h01 : β0 ≤ β1) (hb : β1 * β1 < tsq) :
    volFactor n (parParams n β0 β1 tsq) ≤ centralFactor n := by
  have hn2 : (2 : ℝ) ≤ n := by exact_mod_cast hn
  have h1 : 0 < (n : ℝ) + 1 := by linarith
  have h2 : 0 < (n : ℝ) - 1 := by linarith
  have hβ1 : 0 ≤ β1 := h0.trans h01
  have hη : 0 ≤ tsq + n * (β0 * β1) := by positivity
  have hcpos : 0 ≤ centralFactor n := by
    unfold centralFactor volFactor
    have hs0 := bias_one_sub_sigma (n := n) (β := 0) (τ := 1) hn2 (by norm_num)
    rw [hs0]
    have h3 : (0 : ℝ) < (n : ℝ) ^ 2 - 1 := by nlinarith
    have hd0 : (biasParams (n : ℝ) 0 1).delta = (n : ℝ) ^ 2 / ((n : ℝ) ^ 2 - 1) := by
      simp [biasParams]
    rw [hd0]
    apply mul_nonneg (by positivity)
    apply div_nonneg <;> nlinarith
  rcases h01.eq_or_lt with rfl | hlt
  · have hxi : parXi (n : ℝ) β0 β0 tsq = tsq - β0 * β0 := by
      unfold parXi
      rw [sub_self, mul_zero, zero_pow two_ne_zero, add_zero, Real.sqrt_mul_self (by linarith)]
    have hσ : (parParams (n : ℝ) β0 β0 tsq).sigma = 1 := by
      have hpos : 0 < tsq + n * (β0 * β0) := by positivity
      have : tsq + β0 * β0 + n / 2 * (β0 + β0) ^ 2 + (tsq - β0 * β0) =
        2 * (tsq + n * (β0 * β0)) := by ring
      simp only [parParams, parDen, hxi]
      rw [this, div_self (by positivity)]
    unfold volFactor; rw [hσ, sub_self, mul_zero]; exact hcpos
  · obtain ⟨-, -, -, hσ, hδ⟩ := par_range hn2 ht h0 hlt hb
    set s : ℝ := 2 / ((n : ℝ) + 1) with hs
    have hs0 : 0 < s := by positivity
    have hs1 : s < 1 := by rw [hs, div_lt_one h1]; linarith
    have hbb : (β0 + β1) ^ 2 / 4 * s - β0 * β1 ≤ s * tsq / 4 := by
      have : (β0 + β1) ^ 2 / 4 * s - β0 * β1 = s * (β1 - β0) ^ 2 / 4 + (s - 1) * (β0 * β1) := by ring
      rw [this]
      have a1 : (s - 1) * (β0 * β1) ≤ 0 :=
        mul_nonpos_of_nonpos_of_nonneg (by linarith) (mul_nonneg h0 hβ1)
      have a2 : (β1 - β0) ^ 2 ≤ tsq := by nlinarith
      nlinarith
    have hNle : slabN β0 β1 tsq s ≤ (n / ((n : ℝ) + 1)) ^ 2 := by
      have e : (n / ((n : ℝ) + 1)) ^ 2 = 1 - s + s ^ 2 / 4 := by
        rw [hs]; field_simp; ring
      rw [e]; unfold slabN
      have : s ^ 2 * (β0 + β1) ^ 2 / (4 * tsq) - s * (β0 * β1) / tsq =
          s * ((β0 + β1) ^ 2 / 4 * s - β0 * β1) / tsq := by field_simp
      have h3 : s * ((β0 + β1) ^ 2 / 4 * s - β0 * β1) / tsq ≤ s ^ 2 / 4 := by
        rw [div_le_iff₀ ht]
        calc s * ((β0 + β1) ^ 2 / 4 * s - β0 * β1) ≤ s * (s * tsq / 4) :=
              mul_le_mul_of_nonneg_left hbb hs0.le
          _ = s ^ 2 / 4 * tsq := by ring
      linarith
    have hN0 : 0 ≤ slabN β0 β1 tsq s := by
      -- N(s) ≥ (1-s)(1 - p) + (stuff) ≥ 0
      have : slabN β0 β1 tsq s = (1 - s) * (1 - s * (β0 * β1) / tsq) +
          s ^ 2 * ((β1 - β0) ^ 2) / (4 * tsq) := by
        unfold slabN; field_simp; ring
      rw [this]
      have hp : s * (β0 * β1) / tsq ≤ 1 := by
        rw [div_le_one ht]; nlinarith [mul_nonneg h0 hβ1]
      have : 0 ≤ s ^ 2 * ((β1 - β0) ^ 2) / (4 * tsq) := by positivity
      nlinarith
    have h := par_vol_le hn ht hη hs1 hσ hδ
    have hc := centralFactor_eq hn
    have hpow : 0 < (1 - s) ^ (n - 1) := pow_pos (by linarith) _
    have h' : volFactor n (parParams n β0 β1 tsq) * (1 - s) ^ (n - 1) ≤
        centralFactor n * (1 - s) ^ (n - 1) := by
      rw [hs, hc, ← hs]
      exact h.trans (pow_le_pow_left₀ hN0 hNle n)
    exact le_of_mul_le_mul_right h' hpow

theorem applied_det {n : ℕ} {e : Ell n} (he : e.WF) {g : Vec n} (hg : g ≠ 0) (p : Params) :
    ((e.applied g p).kappa • (e.applied g p).mq).det = (e.kappa • e.mq).det * volFactor n p := by
  have h1 : (e.applied g p).kappa • (e.applied g p).mq = (e.kappa * p.delta) •
      (e.mq - (p.sigma / e.omega g) • vecMulVec (e.mq *ᵥ g) (e.mq *ᵥ g)) := by
    unfold Ell.applied
    cases e.noDeferTrick <;> simp
  rw [h1, det_smul, det_smul, Fintype.card_fin]
  have := det_update he.posDef.isHermitian (he.omega_pos hg).ne' p.sigma
  unfold Ell.omega
  rw [this]
  unfold volFactor
  rw [mul_pow]
  ring

end Ellalgo
