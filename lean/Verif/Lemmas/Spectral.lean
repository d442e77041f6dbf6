import Verif.Model.SpectralFact
import Verif.Spec.Spectral
import Mathlib.Analysis.SpecialFunctions.Complex.CircleAddChar
import Mathlib.RingTheory.RootsOfUnity.Complex
import Mathlib.Algebra.Ring.GeomSum
import Mathlib.Tactic.LinearCombination
import Mathlib.Tactic.FieldSimp

/-! # Finite Fourier sums -/

namespace Ellalgo

open Finset

variable {n : ℕ}

/-- `e^{2πi x}` -/
noncomputable def cis (x : ℝ) : ℂ := Complex.exp (((2 * Real.pi * x : ℝ) : ℂ) * Complex.I)

theorem cis_add (x y : ℝ) : cis (x + y) = cis x * cis y := by
  unfold cis
  rw [← Complex.exp_add]
  congr 1
  push_cast
  ring

theorem cis_zero : cis 0 = 1 := by simp [cis]

theorem cis_nat (k : ℕ) : cis k = 1 := by
  unfold cis
  have := Complex.exp_nat_mul_two_pi_mul_I k
  rw [← this]
  congr 1
  push_cast
  ring

theorem cis_neg (x : ℝ) : cis (-x) = (cis x)⁻¹ := by
  unfold cis
  rw [← Complex.exp_neg]
  congr 1
  push_cast
  ring

theorem cis_nat_mul (k : ℕ) (x : ℝ) : cis (k * x) = cis x ^ k := by
  unfold cis
  rw [← Complex.exp_nat_mul]
  congr 1
  push_cast
  ring

theorem conj_cis (x : ℝ) : (starRingEnd ℂ) (cis x) = cis (-x) := by
  unfold cis
  rw [← Complex.exp_conj]
  congr 1
  rw [map_mul, Complex.conj_ofReal, Complex.conj_I]
  push_cast
  ring

/-- Reversal of a period. -/
theorem sum_range_neg {M : Type*} [AddCommMonoid M] (m : ℕ) (f : ℕ → M) :
    ∑ k ∈ range m, f (if k = 0 then 0 else m - k) = ∑ k ∈ range m, f k := by
  cases m with
  | zero => simp
  | succ m =>
    rw [sum_range_succ', sum_range_succ' f]
    congr 1
    rw [← sum_range_reflect]
    refine sum_congr rfl fun k hk => ?_
    rw [mem_range] at hk
    rw [if_neg (by omega)]
    congr 1
    omega

/-- Orthogonality of the characters. -/
theorem sum_cis (m : ℕ) (hm : m ≠ 0) (d : ℕ) (hd : d < m) :
    ∑ k ∈ range m, cis ((d : ℝ) * k / m) = if d = 0 then (m : ℂ) else 0 := by
  by_cases h0 : d = 0
  · subst h0
    simp [cis_zero]
  · rw [if_neg h0]
    have hm' : (m : ℝ) ≠ 0 := Nat.cast_ne_zero.2 hm
    have h1 : ∀ k : ℕ, cis ((d : ℝ) * k / m) = cis ((d : ℝ) / m) ^ k := by
      intro k
      rw [← cis_nat_mul]
      congr 1
      ring
    have hpow : cis ((d : ℝ) / m) ^ m = 1 := by
      rw [← cis_nat_mul, mul_div_cancel₀ _ hm', cis_nat]
    have hne : cis ((d : ℝ) / m) ≠ 1 := by
      intro he
      have hprim := Complex.isPrimitiveRoot_exp m hm
      have : Complex.exp (2 * Real.pi * Complex.I / m) ^ d = 1 := by
        rw [← he, ← Complex.exp_nat_mul]
        unfold cis
        congr 1
        push_cast
        ring
      exact absurd (Nat.le_of_dvd (Nat.pos_of_ne_zero h0) (hprim.dvd_of_pow_eq_one d this)) (by omega)
    simp only [h1]
    have := mul_neg_geom_sum (cis ((d : ℝ) / m)) m
    rw [hpow, sub_self, mul_eq_zero] at this
    rcases this with h | h
    · exact absurd (sub_eq_zero.1 h).symm hne
    · exact h

/-- Orthogonality for differences of indices. -/
theorem sum_cis_sub (m : ℕ) (hm : m ≠ 0) (i j : ℕ) (hi : i < m) (hj : j < m) :
    ∑ k ∈ range m, cis ((i : ℝ) * k / m) * cis (-((j : ℝ) * k / m)) = if i = j then (m : ℂ) else 0 := by
  rcases le_or_gt j i with h | h
  · have := sum_cis m hm (i - j) (by omega)
    rw [← (sum_congr rfl fun k _ => ?_ : _ = ∑ k ∈ range m, cis ((i : ℝ) * k / m) * cis (-((j : ℝ) * k / m)))]
    rotate_left
    · exact fun k => cis (((i - j : ℕ) : ℝ) * k / m)
    · rw [← cis_add]
      congr 1
      rw [Nat.cast_sub h]
      ring
    · rw [this]
      by_cases he : i = j
      · simp [he]
      · rw [if_neg he, if_neg (by omega)]
  · have := sum_cis m hm (m - (j - i)) (by omega)
    rw [if_neg (by omega : ¬ i = j)]
    rw [if_neg (by omega)] at this
    rw [← this]
    refine sum_congr rfl fun k _ => ?_
    rw [← cis_add]
    have hm' : (m : ℝ) ≠ 0 := Nat.cast_ne_zero.2 hm
    have : ((m - (j - i) : ℕ) : ℝ) * k / m = k + ((i : ℝ) * k / m + -((j : ℝ) * k / m)) := by
      rw [Nat.cast_sub (by omega), Nat.cast_sub h.le]
      field_simp
      ring
    rw [this, cis_add (k : ℝ), cis_nat, one_mul]

theorem npFft_eq (m : ℕ) (a : ℕ → ℂ) (k : ℕ) : npFft m a k = ∑ j ∈ range m, a j * cis (-((j : ℝ) * k / m)) := by
  unfold npFft cis
  refine sum_congr rfl fun j _ => ?_
  congr 2
  push_cast
  ring

theorem npIfft_eq (m : ℕ) (a : ℕ → ℂ) (k : ℕ) : npIfft m a k = (∑ j ∈ range m, a j * cis ((j : ℝ) * k / m)) / m := by
  unfold npIfft cis
  congr 1
  refine sum_congr rfl fun j _ => ?_
  congr 2
  push_cast
  ring

/-- `fft` undoes `ifft`. -/
theorem npFft_npIfft (m : ℕ) (a : ℕ → ℂ) (k : ℕ) (hk : k < m) : npFft m (npIfft m a) k = a k := by
  have hm : m ≠ 0 := by omega
  have hm' : (m : ℂ) ≠ 0 := Nat.cast_ne_zero.2 hm
  rw [npFft_eq]
  simp only [npIfft_eq, div_mul_eq_mul_div, sum_mul, ← sum_div]
  rw [sum_comm]
  have : ∀ i ∈ range m, ∑ j ∈ range m, a i * cis ((i : ℝ) * j / m) * cis (-((j : ℝ) * k / m)) =
      a i * if i = k then (m : ℂ) else 0 := by
    intro i hi
    rw [← sum_cis_sub m hm i k (mem_range.1 hi) hk, mul_sum]
    refine sum_congr rfl fun j _ => ?_
    rw [mul_assoc, mul_comm (j : ℝ) k]
  rw [sum_congr rfl this]
  simp only [mul_ite, mul_zero, sum_ite_eq', mem_range, hk, if_true]
  rw [mul_div_cancel_right₀ _ hm']

/-- `ifft` undoes `fft`. -/
theorem npIfft_npFft (m : ℕ) (a : ℕ → ℂ) (k : ℕ) (hk : k < m) : npIfft m (npFft m a) k = a k := by
  have hm : m ≠ 0 := by omega
  have hm' : (m : ℂ) ≠ 0 := Nat.cast_ne_zero.2 hm
  rw [npIfft_eq]
  simp only [npFft_eq, sum_mul]
  rw [sum_comm]
  have : ∀ i ∈ range m, ∑ j ∈ range m, a i * cis (-((i : ℝ) * j / m)) * cis ((j : ℝ) * k / m) =
      a i * if k = i then (m : ℂ) else 0 := by
    intro i hi
    rw [← sum_cis_sub m hm k i hk (mem_range.1 hi), mul_sum]
    refine sum_congr rfl fun j _ => ?_
    rw [mul_assoc, mul_comm (j : ℝ) k, mul_comm (cis _)]
  rw [sum_congr rfl this]
  simp only [mul_ite, mul_zero, sum_ite_eq, mem_range, hk, if_true]
  rw [mul_div_cancel_right₀ _ hm']

/-- The index `-k` modulo `m`. -/
theorem cis_negIdx (m : ℕ) (k j : ℕ) (hk : k < m) :
    cis (((if k = 0 then 0 else m - k : ℕ) : ℝ) * j / m) = cis (-((k : ℝ) * j / m)) := by
  by_cases h0 : k = 0
  · subst h0; simp
  · have hm' : (m : ℝ) ≠ 0 := by
      have : m ≠ 0 := by omega
      exact Nat.cast_ne_zero.2 this
    rw [if_neg h0]
    have : ((m - k : ℕ) : ℝ) * j / m = j + -((k : ℝ) * j / m) := by
      rw [Nat.cast_sub hk.le]
      field_simp
      ring
    rw [this, cis_add, cis_nat, one_mul]

theorem cis_negIdx' (m : ℕ) (k j : ℕ) (hk : k < m) :
    cis (-(((if k = 0 then 0 else m - k : ℕ) : ℝ) * j / m)) = cis ((k : ℝ) * j / m) := by
  rw [cis_neg, cis_negIdx m k j hk, cis_neg, inv_inv]

/-- The transform of an array that is symmetric modulo `m` is symmetric. -/
theorem npFft_even (m : ℕ) (a : ℕ → ℂ) (ha : ∀ k < m, a (if k = 0 then 0 else m - k) = a k) (k : ℕ) (hk : k < m) :
    npFft m a (if k = 0 then 0 else m - k) = npFft m a k := by
  rw [npFft_eq, npFft_eq, ← sum_range_neg m fun j => a j * cis (-((j : ℝ) * k / m))]
  refine sum_congr rfl fun j hj => ?_
  rw [mem_range] at hj
  rw [ha j hj, cis_negIdx' m j k hj]
  congr 1
  rw [mul_comm (j : ℝ), cis_negIdx' m k j hk, mul_comm (j : ℝ)]

/-- The inverse transform of an array that is antisymmetric modulo `m` is antisymmetric. -/
theorem npIfft_odd (m : ℕ) (a : ℕ → ℂ) (ha : ∀ k < m, a (if k = 0 then 0 else m - k) = -a k) (k : ℕ) (hk : k < m) :
    npIfft m a (if k = 0 then 0 else m - k) = -npIfft m a k := by
  rw [npIfft_eq, npIfft_eq, ← sum_range_neg m fun j => a j * cis ((j : ℝ) * k / m), ← neg_div, ← sum_neg_distrib]
  congr 1
  refine sum_congr rfl fun j hj => ?_
  rw [mem_range] at hj
  rw [ha j hj, cis_negIdx m j k hj, neg_mul, neg_neg]
  congr 1
  rw [mul_comm (j : ℝ), cis_negIdx m k j hk, mul_comm (j : ℝ)]

/-- The inverse transform of a conjugate-symmetric array is real. -/
theorem npIfft_real (m : ℕ) (a : ℕ → ℂ) (ha : ∀ k < m, a (if k = 0 then 0 else m - k) = (starRingEnd ℂ) (a k)) (k : ℕ) :
    ((npIfft m a k).re : ℂ) = npIfft m a k := by
  rw [← Complex.conj_eq_iff_re]
  rw [npIfft_eq, map_div₀, Complex.conj_natCast, map_sum, ← sum_range_neg m fun j => a j * cis ((j : ℝ) * k / m)]
  congr 1
  refine sum_congr rfl fun j hj => ?_
  rw [mem_range] at hj
  rw [ha j hj, map_mul, conj_cis, cis_negIdx m j k hj]

/-! ## The steps of spectral_fact -/

/-- Symmetric modulo `m`. -/
def EvenIdx {M : Type*} (m : ℕ) (a : ℕ → M) : Prop := ∀ k < m, a (if k = 0 then 0 else m - k) = a k

theorem sfHilbert_zero (m : ℕ) (alpha : ℕ → ℝ) : sfHilbert m alpha 0 = 0 := by
  simp [sfHilbert]

theorem sfHilbert_half (m : ℕ) (alpha : ℕ → ℝ) : sfHilbert m alpha (m / 2) = 0 := by
  simp [sfHilbert]

theorem sfHilbert_low (m : ℕ) (alpha : ℕ → ℝ) (k : ℕ) (h0 : 0 < k) (hk : k < m / 2) :
    sfHilbert m alpha k = npFft m (fun j => (alpha j : ℂ)) k := by
  simp only [sfHilbert]
  rw [if_neg (by omega), if_neg (by omega), if_neg (by omega)]

theorem sfHilbert_high (m : ℕ) (alpha : ℕ → ℝ) (k : ℕ) (h0 : m / 2 < k) (hk : k < m) :
    sfHilbert m alpha k = -npFft m (fun j => (alpha j : ℂ)) k := by
  simp only [sfHilbert]
  rw [if_neg (by omega), if_neg (by omega), if_pos (by omega)]

theorem sfHilbert_odd (m : ℕ) (hm : 2 * (m / 2) = m) (alpha : ℕ → ℝ) (ha : EvenIdx m alpha) (k : ℕ) (hk : k < m) :
    sfHilbert m alpha (if k = 0 then 0 else m - k) = -sfHilbert m alpha k := by
  by_cases h0 : k = 0
  · subst h0; simp [sfHilbert_zero]
  rw [if_neg h0]
  have hA := npFft_even m (fun j => (alpha j : ℂ)) (fun k hk => by simp only [ha k hk]) k hk
  rw [if_neg h0] at hA
  rcases lt_trichotomy k (m / 2) with h | h | h
  · rw [sfHilbert_low m alpha k (by omega) h, sfHilbert_high m alpha _ (by omega) (by omega), hA]
  · have : m - k = m / 2 := by omega
    rw [this, h, sfHilbert_half, neg_zero]
  · rw [sfHilbert_high m alpha k h hk, sfHilbert_low m alpha _ (by omega) (by omega), hA, neg_neg]

/-- The transform of a real symmetric array is real. -/
theorem npFft_real (m : ℕ) (alpha : ℕ → ℝ) (ha : EvenIdx m alpha) (k : ℕ) :
    (starRingEnd ℂ) (npFft m (fun j => (alpha j : ℂ)) k) = npFft m (fun j => (alpha j : ℂ)) k := by
  rw [npFft_eq, map_sum, ← sum_range_neg m fun j => (alpha j : ℂ) * cis (-((j : ℝ) * k / m))]
  refine sum_congr rfl fun j hj => ?_
  rw [mem_range] at hj
  rw [ha j hj, map_mul, Complex.conj_ofReal, conj_cis, neg_neg, cis_negIdx' m j k hj]

theorem sfHilbert_real (m : ℕ) (alpha : ℕ → ℝ) (ha : EvenIdx m alpha) (k : ℕ) (hk : k < m) :
    (starRingEnd ℂ) (sfHilbert m alpha k) = sfHilbert m alpha k := by
  rcases Nat.eq_zero_or_pos k with h0 | h0
  · subst h0; simp [sfHilbert_zero]
  rcases lt_trichotomy k (m / 2) with h | h | h
  · rw [sfHilbert_low m alpha k h0 h, npFft_real m alpha ha]
  · rw [h, sfHilbert_half, map_zero]
  · rw [sfHilbert_high m alpha k h hk, map_neg, npFft_real m alpha ha]

theorem sfPhi_odd (m : ℕ) (hm : 2 * (m / 2) = m) (alpha : ℕ → ℝ) (ha : EvenIdx m alpha) (k : ℕ) (hk : k < m) :
    sfPhi m alpha (if k = 0 then 0 else m - k) = -sfPhi m alpha k := by
  unfold sfPhi
  rw [npIfft_odd m _ (fun j hj => ?_) k hk, Complex.neg_re]
  rw [sfHilbert_odd m hm alpha ha j hj, mul_neg]

/-- Taking the real part in line 102 loses nothing. -/
theorem sfPhi_exact (m : ℕ) (hm : 2 * (m / 2) = m) (alpha : ℕ → ℝ) (ha : EvenIdx m alpha) (k : ℕ) :
    (sfPhi m alpha k : ℂ) = npIfft m (fun k => Complex.I * sfHilbert m alpha k) k := by
  unfold sfPhi
  refine npIfft_real m _ (fun j hj => ?_) k
  rw [sfHilbert_odd m hm alpha ha j hj, map_mul, Complex.conj_I, sfHilbert_real m alpha ha j hj]
  ring

/-- The coefficients of the causal logarithm. -/
noncomputable def sfCausal (m : ℕ) (alpha : ℕ → ℝ) (k : ℕ) : ℝ :=
  (npFft m (fun j => (alpha j : ℂ)) k + sfHilbert m alpha k).re / m

theorem sfCausal_high (m : ℕ) (alpha : ℕ → ℝ) (k : ℕ) (h0 : m / 2 < k) (hk : k < m) : sfCausal m alpha k = 0 := by
  unfold sfCausal
  rw [sfHilbert_high m alpha k h0 hk]
  simp

/-- The complex log-spectrum is a polynomial in `e^{-iw}`. -/
theorem sf_causal (m : ℕ) (hm : 2 * (m / 2) = m) (alpha : ℕ → ℝ) (ha : EvenIdx m alpha) (j : ℕ) (hj : j < m) :
    (alpha j : ℂ) + Complex.I * (sfPhi m alpha j : ℂ) =
      ∑ k ∈ range (m / 2 + 1), (sfCausal m alpha k : ℂ) * cis (-((k : ℝ) * j / m)) := by
  have hm0 : m ≠ 0 := by omega
  have hm' : (m : ℂ) ≠ 0 := Nat.cast_ne_zero.2 hm0
  have h1 : ∑ k ∈ range m, (sfCausal m alpha k : ℂ) * cis (-((k : ℝ) * j / m)) =
      ∑ k ∈ range (m / 2 + 1), (sfCausal m alpha k : ℂ) * cis (-((k : ℝ) * j / m)) := by
    symm
    refine sum_subset (fun k hk => ?_) (fun k hk hk' => ?_)
    · rw [mem_range] at hk ⊢; omega
    · rw [mem_range] at hk hk'
      rw [sfCausal_high m alpha k (by omega) hk]
      simp
  rw [← h1, sfPhi_exact m hm alpha ha j, ← npIfft_npFft m (fun j => (alpha j : ℂ)) j hj, npIfft_eq, npIfft_eq, ← mul_div_assoc,
    ← add_div, mul_sum, ← sum_add_distrib, ← sum_range_neg, sum_div]
  refine sum_congr rfl fun k hk => ?_
  rw [mem_range] at hk
  have hA := npFft_even m (fun j => (alpha j : ℂ)) (fun k hk => by simp only [ha k hk]) k hk
  rw [hA, sfHilbert_odd m hm alpha ha k hk, cis_negIdx m k j hk]
  have hre : ((npFft m (fun j => (alpha j : ℂ)) k + sfHilbert m alpha k).re : ℂ) =
      npFft m (fun j => (alpha j : ℂ)) k + sfHilbert m alpha k := by
    rw [← Complex.conj_eq_iff_re, map_add, npFft_real m alpha ha, sfHilbert_real m alpha ha k hk]
  unfold sfCausal
  push_cast
  rw [hre]
  have hI : Complex.I * Complex.I = -1 := Complex.I_mul_I
  field_simp
  linear_combination (-sfHilbert m alpha k * cis (-((k : ℝ) * j / m))) * hI

theorem sfAlpha_even (m : ℕ) (R : ℕ → ℝ) (hR : EvenIdx m R) : EvenIdx m (sfAlpha R) := by
  intro k hk
  unfold sfAlpha
  rw [hR k hk]

theorem sfLen_even (n : ℕ) : 2 * (sfLen n / 2) = sfLen n := by
  unfold sfLen; omega

/-- The spectrum is conjugate-symmetric. -/
theorem sfSpectrum_conj (n : ℕ) (R : ℕ → ℝ) (hR : EvenIdx (sfLen n) R) (k : ℕ) (hk : k < n) :
    sfSpectrum n R (if k = 0 then 0 else n - k) = (starRingEnd ℂ) (sfSpectrum n R k) := by
  have hidx : 100 * (if k = 0 then 0 else n - k) = if 100 * k = 0 then 0 else sfLen n - 100 * k := by
    unfold sfLen
    by_cases h : k = 0
    · subst h; simp
    · rw [if_neg h, if_neg (by omega)]; omega
  have hlt : 100 * k < sfLen n := by unfold sfLen; omega
  unfold sfSpectrum
  simp only
  rw [hidx, sfAlpha_even _ R hR _ hlt, sfPhi_odd _ (sfLen_even n) _ (sfAlpha_even _ R hR) _ hlt, ← Complex.exp_conj]
  congr 1
  simp only [map_add, map_mul, Complex.conj_ofReal, Complex.conj_I]
  push_cast
  ring

/-- The transform of the result is the spectrum of line 111. -/
theorem npFft_result (n : ℕ) (R : ℕ → ℝ) (hR : EvenIdx (sfLen n) R) (k : ℕ) (hk : k < n) :
    npFft n (fun t => ((npIfft n (sfSpectrum n R) t).re : ℂ)) k = sfSpectrum n R k := by
  have : (fun t => ((npIfft n (sfSpectrum n R) t).re : ℂ)) = npIfft n (sfSpectrum n R) :=
    funext fun t => npIfft_real n _ (fun j hj => sfSpectrum_conj n R hR j hj) t
  rw [this, npFft_npIfft n _ k hk]

theorem sfSpectrum_normSq (n : ℕ) (R : ℕ → ℝ) (k : ℕ) (hR : 0 < R (100 * k)) : ‖sfSpectrum n R k‖ ^ 2 = R (100 * k) := by
  unfold sfSpectrum sfAlpha
  simp only
  rw [Complex.norm_exp]
  simp only [Complex.add_re, Complex.ofReal_re, Complex.mul_re, Complex.I_re, Complex.I_im, Complex.ofReal_im]
  rw [← Real.exp_nat_mul, abs_of_pos hR]
  have : ((2 : ℕ) : ℝ) * (1 / 2 * Real.log (R (100 * k)) + (0 * sfPhi (sfLen n) (fun j => 1 / 2 * Real.log |R j|) (100 * k) - 1 * 0)) =
      Real.log (R (100 * k)) := by push_cast; ring
  rw [this, Real.exp_log hR]

end Ellalgo
