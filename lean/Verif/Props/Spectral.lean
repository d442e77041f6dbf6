import Verif.Lemmas.Spectral
import Mathlib.LinearAlgebra.Matrix.Notation
import Mathlib.Tactic.FinCases
import Mathlib.Tactic.NormNum

/-! # C57, C58, C68-C70: spectral_fact and inverse_spectral_fact -/

namespace Ellalgo

open Finset

variable {n : ℕ}

/-! ## C57 -/

theorem autocorr_eq (h : Vec n) (t : ℕ) :
    Spec.autocorr h t = ∑ j : Fin n, ∑ i : Fin n, if (j : ℕ) + t = i then h j * h i else 0 := by
  unfold Spec.autocorr
  refine sum_congr rfl fun j _ => ?_
  by_cases hj : (j : ℕ) + t < n
  · rw [dif_pos hj, Finset.sum_eq_single (⟨j + t, hj⟩ : Fin n)]
    · rw [if_pos rfl]
    · intro i _ hi
      rw [if_neg]
      intro he
      apply hi
      ext
      exact he.symm
    · simp
  · rw [dif_neg hj]
    symm
    refine Finset.sum_eq_zero fun i _ => if_neg ?_
    omega

theorem npConvolve_rev (h : Vec n) (t : ℕ) :
    npConvolve h (fun i => h i.rev) (n - 1 + t) = Spec.autocorr h t := by
  rw [autocorr_eq, sum_comm]
  unfold npConvolve
  refine sum_congr rfl fun i _ => ?_
  rw [← Equiv.sum_comp Fin.revPerm]
  refine sum_congr rfl fun j _ => ?_
  simp only [Fin.revPerm_apply, Fin.rev_rev, Fin.val_rev]
  have : (i : ℕ) + (n - (j + 1)) = n - 1 + t ↔ (j : ℕ) + t = i := by omega
  simp only [this, mul_comm (h i)]

/-- **C57**, first half: the result is the autocorrelation; only the empty response is rejected. -/
theorem C57_autocorrelation (h : Vec n) :
    (n = 0 → inverseSpectralFact h = .error .valueError) ∧
      (n ≠ 0 → inverseSpectralFact h = .ok fun t => Spec.autocorr h t) := by
  refine ⟨fun h0 => by simp [inverseSpectralFact, h0], fun h0 => ?_⟩
  unfold inverseSpectralFact
  rw [if_neg h0]
  congr 1
  funext t
  exact npConvolve_rev h t

/-- The power spectrum of an autocorrelation is the squared magnitude of the response. -/
theorem powerSpectrum_autocorr (h : Vec n) (w : ℝ) :
    Spec.powerSpectrum (fun t : Fin n => Spec.autocorr h t) w = ‖Spec.freqResponse h w‖ ^ 2 := by
  have hns : ‖Spec.freqResponse h w‖ ^ 2 = (∑ i : Fin n, h i * Real.cos (i * w)) ^ 2 + (∑ i : Fin n, h i * Real.sin (i * w)) ^ 2 := by
    rw [← Complex.normSq_eq_norm_sq, Complex.normSq_apply]
    have hre : (Spec.freqResponse h w).re = ∑ i : Fin n, h i * Real.cos (i * w) := by
      unfold Spec.freqResponse
      rw [Complex.re_sum]
      refine sum_congr rfl fun i _ => ?_
      rw [Complex.re_ofReal_mul, ← Complex.ofReal_neg, Complex.exp_ofReal_mul_I_re, Real.cos_neg]
    have him : (Spec.freqResponse h w).im = -∑ i : Fin n, h i * Real.sin (i * w) := by
      unfold Spec.freqResponse
      rw [Complex.im_sum, ← sum_neg_distrib]
      refine sum_congr rfl fun i _ => ?_
      rw [Complex.im_ofReal_mul, ← Complex.ofReal_neg, Complex.exp_ofReal_mul_I_im, Real.sin_neg, mul_neg]
    rw [hre, him]
    ring
  rw [hns, sq, sq, sum_mul_sum, sum_mul_sum, ← sum_add_distrib]
  simp only [← sum_add_distrib]
  have h1 : ∀ i j : Fin n, h i * Real.cos (i * w) * (h j * Real.cos (j * w)) + h i * Real.sin (i * w) * (h j * Real.sin (j * w)) =
      h i * h j * Real.cos ((i : ℝ) * w - j * w) := by
    intro i j
    rw [Real.cos_sub]
    ring
  simp only [h1]
  -- the left side, with the lag determined by the pair of indices
  set G : Fin n → Fin n → ℝ := fun j i =>
    if (j : ℕ) ≤ i then (if (i : ℕ) - j = 0 then 1 else 2) * Real.cos (((i : ℕ) - (j : ℕ) : ℝ) * w) else 0 with hG
  have h2 : Spec.powerSpectrum (fun t : Fin n => Spec.autocorr h t) w = ∑ j : Fin n, ∑ i : Fin n, h j * h i * G j i := by
    unfold Spec.powerSpectrum
    simp only [autocorr_eq, mul_sum, sum_mul]
    rw [sum_comm]
    refine sum_congr rfl fun j _ => ?_
    rw [sum_comm]
    refine sum_congr rfl fun i _ => ?_
    by_cases hji : (j : ℕ) ≤ i
    · rw [Finset.sum_eq_single (⟨i - j, by omega⟩ : Fin n)]
      · have hs : (j : ℕ) + (i - j) = i := by omega
        simp only [hG, hs, if_true]
        rw [if_pos hji, Nat.cast_sub hji]
        ring
      · intro t _ ht
        have hne : ¬ (j : ℕ) + t = i := by
          intro he
          apply ht
          ext
          simp only
          omega
        simp only [hne, if_false, mul_zero, zero_mul]
      · simp
    · simp only [hG]
      rw [if_neg hji, mul_zero]
      refine Finset.sum_eq_zero fun t _ => ?_
      have hne : ¬ (j : ℕ) + t = i := by omega
      simp only [hne, if_false, mul_zero, zero_mul]
  have h3 : ∀ i j : Fin n, G i j + G j i = 2 * Real.cos ((i : ℝ) * w - j * w) := by
    intro i j
    simp only [hG]
    rcases lt_trichotomy (i : ℕ) j with h | h | h
    · rw [if_pos h.le, if_neg (by omega), if_neg (by omega), add_zero, ← Real.cos_neg]
      congr 2
      ring
    · have : i = j := Fin.ext h
      subst this
      simp
      norm_num
    · rw [if_pos h.le, if_neg (by omega), if_neg (by omega), zero_add]
      congr 2
      ring
  have h4 : Spec.powerSpectrum (fun t : Fin n => Spec.autocorr h t) w = ∑ j : Fin n, ∑ i : Fin n, h j * h i * G i j := by
    rw [h2, sum_comm]
    exact sum_congr rfl fun i _ => sum_congr rfl fun j _ => by ring
  have h5 : 2 * Spec.powerSpectrum (fun t : Fin n => Spec.autocorr h t) w =
      2 * ∑ i : Fin n, ∑ j : Fin n, h i * h j * Real.cos ((i : ℝ) * w - j * w) := by
    rw [two_mul]
    nth_rewrite 1 [h2]
    rw [h4, ← sum_add_distrib, mul_sum]
    refine sum_congr rfl fun i _ => ?_
    rw [← sum_add_distrib, mul_sum]
    refine sum_congr rfl fun j _ => ?_
    rw [← mul_add, h3]
    ring
  linarith

/-- **C57**, second half: at every frequency the spectrum of the result is the squared magnitude of the frequency response, hence nonnegative. -/
theorem C57_spectrum (h r : Vec n) (hr : inverseSpectralFact h = .ok r) (w : ℝ) :
    Spec.powerSpectrum r w = ‖Spec.freqResponse h w‖ ^ 2 ∧ 0 ≤ Spec.powerSpectrum r w := by
  have hn : n ≠ 0 := fun h0 => by rw [(C57_autocorrelation h).1 h0] at hr; cases hr
  rw [(C57_autocorrelation h).2 hn, Except.ok.injEq] at hr
  rw [← hr, powerSpectrum_autocorr]
  exact ⟨rfl, by positivity⟩

/-- `h = [1, 1/2]` (nontrivial: the autocorrelation is `[5/4, 1/2]`). -/
example : inverseSpectralFact (![1, 1 / 2] : Vec 2) = .ok ![5 / 4, 1 / 2] := by
  rw [(C57_autocorrelation _).2 (by norm_num)]
  congr 1
  funext t
  fin_cases t
  · simp [Spec.autocorr, Fin.sum_univ_two]
    norm_num
  · simp [Spec.autocorr]

/-! ## C58 -/

/-- The oversampled frequencies of `spectral_fact`. -/
noncomputable def sfGrid (n j : ℕ) : ℝ := 2 * Real.pi * j / (100 * n)

theorem sfResponse_eq (r : Vec n) (j : ℕ) : sfResponse r j = Spec.powerSpectrum r (sfGrid n j) := by
  unfold sfResponse Spec.powerSpectrum sfGrid sfLen
  refine sum_congr rfl fun t _ => ?_
  by_cases ht : (t : ℕ) = 0
  · simp [ht]
  · simp only [ht, if_false]
    push_cast
    ring_nf

theorem sfResponse_even (r : Vec n) : EvenIdx (sfLen n) (sfResponse r) := by
  intro k hk
  by_cases h0 : k = 0
  · simp [h0]
  rw [if_neg h0]
  have hm : (sfLen n : ℝ) ≠ 0 := by
    have : sfLen n ≠ 0 := by omega
    exact Nat.cast_ne_zero.2 this
  unfold sfResponse
  refine sum_congr rfl fun t _ => ?_
  congr 2
  rw [Nat.cast_sub hk.le]
  have : 2 * Real.pi * ((sfLen n : ℝ) - k) / sfLen n * (t : ℕ) = (t : ℕ) * (2 * Real.pi) - 2 * Real.pi * k / sfLen n * (t : ℕ) := by
    field_simp
  rw [this, Real.cos_nat_mul_two_pi_sub]

/-- What the factorisation aims at: the sampled power spectrum, clamped if it is not positive everywhere. -/
noncomputable def sfTarget (r : Vec n) (j : ℕ) : ℝ :=
  if ∀ i < 100 * n, 0 < Spec.powerSpectrum r (sfGrid n i) then Spec.powerSpectrum r (sfGrid n j)
  else max (Spec.powerSpectrum r (sfGrid n j)) (1 / 10 ^ 10)

theorem sfChecked_cases (r : Vec n) :
    (n = 0 ∧ sfChecked r = .error .valueError) ∨
    (n ≠ 0 ∧ (∃ j < 100 * n, Spec.powerSpectrum r (sfGrid n j) ≤ -(1 / 10000)) ∧ sfChecked r = .error .runtimeError) ∨
    (n ≠ 0 ∧ (∀ j < 100 * n, -(1 / 10000) < Spec.powerSpectrum r (sfGrid n j)) ∧ sfChecked r = .ok (sfTarget r)) := by
  by_cases h0 : n = 0
  · exact .inl ⟨h0, by simp [sfChecked, h0]⟩
  right
  have hne : (range (sfLen n)).Nonempty := nonempty_range_iff.2 (by unfold sfLen; omega)
  have hle : ∀ c : ℝ, (range (sfLen n)).inf' hne (sfResponse r) ≤ c ↔ ∃ j < 100 * n, Spec.powerSpectrum r (sfGrid n j) ≤ c := by
    intro c
    rw [Finset.inf'_le_iff]
    simp only [mem_range, sfResponse_eq, sfLen]
  unfold sfChecked
  rw [dif_neg h0]
  simp only
  by_cases h1 : (range (sfLen n)).inf' hne (sfResponse r) ≤ 0
  · by_cases h2 : (range (sfLen n)).inf' hne (sfResponse r) ≤ -(1 / 10000)
    · refine .inl ⟨h0, (hle _).1 h2, ?_⟩
      rw [if_pos h1, if_neg (not_lt.2 h2)]
    · refine .inr ⟨h0, ?_, ?_⟩
      · rw [hle] at h2
        push Not at h2
        exact h2
      · rw [if_pos h1, if_pos (not_le.1 h2)]
        congr 1
        funext j
        unfold sfTarget
        rw [if_neg, sfResponse_eq]
        rw [hle] at h1
        push Not
        exact h1
  · have h3 : ∀ i < 100 * n, 0 < Spec.powerSpectrum r (sfGrid n i) := by
      rw [hle] at h1
      push Not at h1
      exact h1
    refine .inr ⟨h0, fun j hj => lt_trans (by norm_num) (h3 j hj), ?_⟩
    rw [if_neg h1]
    congr 1
    funext j
    unfold sfTarget
    rw [if_pos h3, sfResponse_eq]

theorem sfTarget_pos (r : Vec n) (j : ℕ) (hj : j < 100 * n) : 0 < sfTarget r j := by
  unfold sfTarget
  split_ifs with h
  · exact h j hj
  · exact lt_of_lt_of_le (by norm_num) (le_max_right _ _)

theorem sfTarget_even (r : Vec n) : EvenIdx (sfLen n) (sfTarget r) := by
  intro k hk
  have := sfResponse_even r k hk
  rw [sfResponse_eq, sfResponse_eq] at this
  unfold sfTarget
  rw [this]

theorem freqResponse_grid (h : Vec n) (g : ℕ → ℝ) (hg : ∀ t : Fin n, h t = g t) (k : ℕ) :
    Spec.freqResponse h (2 * Real.pi * k / n) = npFft n (fun t => (g t : ℂ)) k := by
  unfold Spec.freqResponse npFft
  rw [Finset.sum_range]
  refine sum_congr rfl fun t _ => ?_
  rw [hg t]
  have : ((t : ℕ) : ℝ) * (2 * Real.pi * k / n) = 2 * Real.pi * (t : ℕ) * k / n := by ring
  rw [this]

theorem spectralFact_ok {r h : Vec n} (hok : spectralFact r = .ok h) :
    n ≠ 0 ∧ ∀ t : Fin n, h t = (npIfft n (sfSpectrum n (sfTarget r)) t).re := by
  unfold spectralFact at hok
  rcases sfChecked_cases r with ⟨_, hc⟩ | ⟨_, _, hc⟩ | ⟨h0, _, hc⟩ <;> rw [hc] at hok
  · cases hok
  · cases hok
  · simp only [Except.ok.injEq] at hok
    exact ⟨h0, fun t => by rw [← hok]⟩

theorem spectralFact_response {r h : Vec n} (hok : spectralFact r = .ok h) (k : ℕ) (hk : k < n) :
    Spec.freqResponse h (2 * Real.pi * k / n) = sfSpectrum n (sfTarget r) k := by
  rw [freqResponse_grid h (fun t => (npIfft n (sfSpectrum n (sfTarget r)) t).re) (spectralFact_ok hok).2 k, npFft_result n _ (sfTarget_even r) k hk]

theorem spectralFact_outcomes (r : Vec n) :
    ((∃ h, spectralFact r = .ok h) ↔ n ≠ 0 ∧ ∀ j < 100 * n, -(1 / 10000) < Spec.powerSpectrum r (sfGrid n j)) ∧
    (spectralFact r = .error .valueError ↔ n = 0) ∧
    (spectralFact r = .error .runtimeError ↔ n ≠ 0 ∧ ∃ j < 100 * n, Spec.powerSpectrum r (sfGrid n j) ≤ -(1 / 10000)) := by
  unfold spectralFact
  rcases sfChecked_cases r with ⟨h0, hc⟩ | ⟨h0, ⟨j, hj, hlt⟩, hc⟩ | ⟨h0, hall, hc⟩ <;> rw [hc]
  · simp [h0]
  · refine ⟨⟨by simp, fun h => absurd (h.2 j hj) (not_lt.2 hlt)⟩, by simp [h0], ?_⟩
    exact ⟨fun _ => ⟨h0, j, hj, hlt⟩, fun _ => rfl⟩
  · refine ⟨⟨fun _ => ⟨h0, hall⟩, fun _ => ⟨_, rfl⟩⟩, by simp [h0], ?_⟩
    constructor
    · simp
    · rintro ⟨-, j, hj, hlt⟩
      exact absurd (hall j hj) (not_lt.2 hlt)

/-- **C58**, the outcomes: `spectral_fact` returns exactly for nonempty input whose sampled spectrum stays above `-10⁻⁴`;
otherwise it raises `ValueError` (empty input) or `RuntimeError`. -/
theorem C58_outcomes (r : Vec n) :
    ((∃ h, spectralFact r = .ok h) ↔
      n ≠ 0 ∧ ∀ j < 100 * n, -(1 / 10000) < Spec.powerSpectrum r (2 * Real.pi * j / (100 * n))) ∧
    (spectralFact r = .error .valueError ↔ n = 0) ∧
    (spectralFact r = .error .runtimeError ↔
      n ≠ 0 ∧ ∃ j < 100 * n, Spec.powerSpectrum r (2 * Real.pi * j / (100 * n)) ≤ -(1 / 10000)) :=
  spectralFact_outcomes r

/-- **C58.** If the spectrum is positive on the oversampled grid, then the squared magnitude of the frequency response of the result equals the desired
power spectrum at the `n` frequencies `2πk/n`. -/
theorem C58_matches (r h : Vec n) (hok : spectralFact r = .ok h)
    (hpos : ∀ j < 100 * n, 0 < Spec.powerSpectrum r (2 * Real.pi * j / (100 * n))) (k : ℕ) (hk : k < n) :
    ‖Spec.freqResponse h (2 * Real.pi * k / n)‖ ^ 2 = Spec.powerSpectrum r (2 * Real.pi * k / n) := by
  rw [spectralFact_response hok k hk, sfSpectrum_normSq n _ k (sfTarget_pos r _ (by omega))]
  unfold sfTarget sfGrid
  rw [if_pos hpos]
  congr 1
  have hn : (n : ℝ) ≠ 0 := Nat.cast_ne_zero.2 (spectralFact_ok hok).1
  push_cast
  field_simp

/-- **C58** for a spectrum that had to be clamped: the response matches the clamped spectrum. -/
theorem C58_matches_clamped (r h : Vec n) (hok : spectralFact r = .ok h)
    (hneg : ∃ j < 100 * n, Spec.powerSpectrum r (2 * Real.pi * j / (100 * n)) ≤ 0) (k : ℕ) (hk : k < n) :
    ‖Spec.freqResponse h (2 * Real.pi * k / n)‖ ^ 2 = max (Spec.powerSpectrum r (2 * Real.pi * k / n)) (1 / 10 ^ 10) := by
  rw [spectralFact_response hok k hk, sfSpectrum_normSq n _ k (sfTarget_pos r _ (by omega))]
  unfold sfTarget sfGrid
  rw [if_neg (by push Not; exact hneg)]
  congr 2
  have hn : (n : ℝ) ≠ 0 := Nat.cast_ne_zero.2 (spectralFact_ok hok).1
  push_cast
  field_simp

/-- The autocorrelation of any impulse response is accepted. -/
theorem C58_accepts_autocorrelations (g r : Vec n) (hr : inverseSpectralFact g = .ok r) : ∃ h, spectralFact r = .ok h := by
  rw [(C58_outcomes r).1]
  have hn : n ≠ 0 := by
    intro h0
    rw [(C57_autocorrelation g).1 h0] at hr
    cases hr
  refine ⟨hn, fun j _ => ?_⟩
  exact lt_of_lt_of_le (by norm_num) (C57_spectrum g r hr _).2

/-! ## C70 -/

/-- **C70.** The phase is the minimum phase: there is a real polynomial `P` of degree at most `50 n` such that `exp P(e^{-iw})`, a function without zeros that is
analytic in `e^{-iw}`, has the desired magnitude at all `100 n` oversampled frequencies and is the frequency response of the result at the `n`
frequencies `2πk/n`. -/
theorem C70_minimum_phase (r h : Vec n) (hok : spectralFact r = .ok h)
    (hpos : ∀ j < 100 * n, 0 < Spec.powerSpectrum r (2 * Real.pi * j / (100 * n))) :
    ∃ c : ℕ → ℝ,
      (∀ j < 100 * n, ‖Complex.exp (∑ l ∈ range (50 * n + 1),
          (c l : ℂ) * Complex.exp (-Complex.I * (2 * Real.pi * j / (100 * n) : ℝ)) ^ l)‖ ^ 2 =
        Spec.powerSpectrum r (2 * Real.pi * j / (100 * n))) ∧
      (∀ k < n, Spec.freqResponse h (2 * Real.pi * k / n) =
        Complex.exp (∑ l ∈ range (50 * n + 1),
          (c l : ℂ) * Complex.exp (-Complex.I * (2 * Real.pi * k / n : ℝ)) ^ l)) := by
  have hn : (n : ℝ) ≠ 0 := Nat.cast_ne_zero.2 (spectralFact_ok hok).1
  have hlen : sfLen n / 2 + 1 = 50 * n + 1 := by unfold sfLen; omega
  have hT : ∀ j, sfTarget r j = Spec.powerSpectrum r (sfGrid n j) := fun j => by
    unfold sfTarget
    exact if_pos hpos
  have hcis : ∀ (l j : ℕ) (x : ℝ), x = 2 * Real.pi * j / (100 * n) →
      cis (-((l : ℝ) * j / sfLen n)) = Complex.exp (-Complex.I * (x : ℝ)) ^ l := by
    rintro l j x rfl
    rw [← Complex.exp_nat_mul]
    unfold cis sfLen
    congr 1
    push_cast
    ring
  refine ⟨sfCausal (sfLen n) (sfAlpha (sfTarget r)), fun j hj => ?_, fun k hk => ?_⟩
  · have h1 := sf_causal (sfLen n) (sfLen_even n) _ (sfAlpha_even _ _ (sfTarget_even r)) j (by unfold sfLen; exact hj)
    rw [hlen] at h1
    simp only [hcis _ j _ rfl] at h1
    rw [← h1, Complex.norm_exp]
    simp only [Complex.add_re, Complex.ofReal_re, Complex.mul_re, Complex.I_re, Complex.I_im, Complex.ofReal_im]
    rw [← Real.exp_nat_mul]
    unfold sfAlpha
    have hpj : 0 < Spec.powerSpectrum r (sfGrid n j) := hpos j hj
    rw [hT, abs_of_pos hpj]
    have : ∀ p : ℝ, ((2 : ℕ) : ℝ) * (1 / 2 * Real.log (Spec.powerSpectrum r (sfGrid n j)) + (0 * p - 1 * 0)) =
      Real.log (Spec.powerSpectrum r (sfGrid n j)) := by intro p; push_cast; ring
    rw [this, Real.exp_log hpj]
    rfl
  · rw [spectralFact_response hok k hk]
    have h1 := sf_causal (sfLen n) (sfLen_even n) _ (sfAlpha_even _ _ (sfTarget_even r)) (100 * k) (by unfold sfLen; omega)
    rw [hlen] at h1
    simp only [hcis _ (100 * k) (2 * Real.pi * k / n) (by push_cast; field_simp)] at h1
    unfold sfSpectrum
    simp only
    rw [h1]

/-! ## C68: the round trip -/

theorem cos_orth (m : ℕ) (hm : m ≠ 0) (d : ℕ) (hd : d < 2 * m) :
    ∑ k ∈ range m, Real.cos ((d : ℝ) * (2 * Real.pi * k / m)) = if d = 0 ∨ d = m then (m : ℝ) else 0 := by
  have hm' : (m : ℝ) ≠ 0 := Nat.cast_ne_zero.2 hm
  have hcis : ∀ (e k : ℕ), (cis ((e : ℝ) * k / m)).re = Real.cos ((e : ℝ) * (2 * Real.pi * k / m)) := by
    intro e k
    unfold cis
    rw [Complex.exp_ofReal_mul_I_re]
    congr 1
    ring
  have hlow : ∀ e < m, ∑ k ∈ range m, Real.cos ((e : ℝ) * (2 * Real.pi * k / m)) = if e = 0 then (m : ℝ) else 0 := by
    intro e he
    have h := congrArg Complex.re (sum_cis m hm e he)
    rw [Complex.re_sum] at h
    simp only [hcis] at h
    rw [h]
    split_ifs <;> simp
  rcases Nat.lt_or_ge d m with h | h
  · rw [hlow d h]
    have : d ≠ m := h.ne
    simp [this]
  · obtain ⟨e, rfl⟩ := Nat.exists_eq_add_of_le h
    have h1 := hlow e (by omega)
    have h2 : ∀ k : ℕ, Real.cos (((m + e : ℕ) : ℝ) * (2 * Real.pi * k / m)) = Real.cos ((e : ℝ) * (2 * Real.pi * k / m)) := by
      intro k
      have : ((m + e : ℕ) : ℝ) * (2 * Real.pi * k / m) = (e : ℝ) * (2 * Real.pi * k / m) + k * (2 * Real.pi) := by
        push_cast
        field_simp
        ring
      rw [this, Real.cos_add_nat_mul_two_pi]
    simp only [h2, h1]
    have : (m + e = 0 ∨ m + e = m) ↔ e = 0 := by omega
    simp only [this]

/-- A coefficient vector whose power spectrum vanishes at the `n` frequencies `2πk/n` is antisymmetric. -/
theorem folded_zero (d : Vec n) (hd : ∀ k < n, Spec.powerSpectrum d (2 * Real.pi * k / n) = 0) :
    (∀ h : 0 < n, d ⟨0, h⟩ = 0) ∧ ∀ (s : ℕ) (h1 : 0 < s) (h2 : s < n), d ⟨s, h2⟩ + d ⟨n - s, by omega⟩ = 0 := by
  -- multiply by a cosine and sum over the frequencies
  have key : ∀ s < n, ∑ t : Fin n, (if (t : ℕ) = 0 then 1 else 2) * d t *
      ∑ k ∈ range n, Real.cos ((t : ℕ) * (2 * Real.pi * k / n)) * Real.cos (s * (2 * Real.pi * k / n)) = 0 := by
    intro s _
    simp only [mul_sum]
    rw [sum_comm]
    refine Finset.sum_eq_zero fun k hk => ?_
    have := hd k (mem_range.1 hk)
    unfold Spec.powerSpectrum at this
    calc _ = (∑ t : Fin n, (if (t : ℕ) = 0 then 1 else 2) * d t * Real.cos ((t : ℕ) * (2 * Real.pi * k / n))) *
          Real.cos (s * (2 * Real.pi * k / n)) := by
            rw [sum_mul]
            exact sum_congr rfl fun t _ => by ring
      _ = 0 := by rw [this, zero_mul]
  have prod : ∀ (t s : ℕ), t < n → s < n → ∑ k ∈ range n, Real.cos (t * (2 * Real.pi * k / n)) * Real.cos (s * (2 * Real.pi * k / n)) =
      ((if t + s = 0 ∨ t + s = n then (n : ℝ) else 0) + if t = s then (n : ℝ) else 0) / 2 := by
    intro t s ht hs
    have hn : n ≠ 0 := by omega
    have h1 := cos_orth n hn (t + s) (by omega)
    have h2 : ∑ k ∈ range n, Real.cos ((t : ℝ) * (2 * Real.pi * k / n) - s * (2 * Real.pi * k / n)) = if t = s then (n : ℝ) else 0 := by
      rcases le_total s t with h | h
      · have h3 := cos_orth n hn (t - s) (by omega)
        have h4 : (t - s = 0 ∨ t - s = n) ↔ t = s := by omega
        simp only [h4] at h3
        rw [← h3]
        refine sum_congr rfl fun k _ => ?_
        rw [Nat.cast_sub h]
        congr 1
        ring
      · have h3 := cos_orth n hn (s - t) (by omega)
        have h4 : (s - t = 0 ∨ s - t = n) ↔ t = s := by omega
        simp only [h4] at h3
        rw [← h3]
        refine sum_congr rfl fun k _ => ?_
        rw [Nat.cast_sub h, ← Real.cos_neg]
        congr 1
        ring
    rw [← h1, ← h2, ← sum_add_distrib, sum_div]
    refine sum_congr rfl fun k _ => ?_
    push_cast
    rw [add_mul, Real.cos_add, Real.cos_sub]
    ring
  refine ⟨fun h => ?_, fun s h1 h2 => ?_⟩
  · have hk := key 0 h
    rw [Finset.sum_eq_single (⟨0, h⟩ : Fin n)] at hk
    · rw [prod 0 0 h h] at hk
      have hn : (n : ℝ) ≠ 0 := Nat.cast_ne_zero.2 (by omega)
      simp at hk
      rcases hk with hk | hk
      · exact hk
      · exact absurd hk (by omega)
    · intro t _ ht
      have ht0 : (t : ℕ) ≠ 0 := fun h0 => ht (Fin.ext h0)
      have hc : ¬ ((t : ℕ) + 0 = 0 ∨ (t : ℕ) + 0 = n) := by omega
      rw [prod t 0 t.2 h]
      simp only [hc, ht0, if_false]
      ring
    · simp
  · have hk := key s h2
    have hn : (n : ℝ) ≠ 0 := Nat.cast_ne_zero.2 (by omega)
    have hterm : ∀ t : Fin n, (if (t : ℕ) = 0 then (1 : ℝ) else 2) * d t *
        ∑ k ∈ range n, Real.cos ((t : ℕ) * (2 * Real.pi * k / n)) * Real.cos (s * (2 * Real.pi * k / n)) =
        n * ((if t = (⟨n - s, by omega⟩ : Fin n) then d t else 0) + if t = (⟨s, h2⟩ : Fin n) then d t else 0) := by
      intro t
      rw [prod t s t.2 h2]
      have e1 : ((t : ℕ) + s = 0 ∨ (t : ℕ) + s = n) ↔ t = (⟨n - s, by omega⟩ : Fin n) := by
        rw [Fin.ext_iff]; simp only; omega
      have e2 : (t : ℕ) = s ↔ t = (⟨s, h2⟩ : Fin n) := by rw [Fin.ext_iff]
      by_cases ht0 : (t : ℕ) = 0
      · have f1 : ¬ t = (⟨n - s, by omega⟩ : Fin n) := by rw [← e1]; omega
        have f2 : ¬ t = (⟨s, h2⟩ : Fin n) := by rw [← e2]; omega
        simp only [e1, e2, f1, f2, if_false]
        ring
      · simp only [e1, e2, ht0, if_false]
        split_ifs <;> ring
    rw [sum_congr rfl fun t _ => hterm t, ← mul_sum, sum_add_distrib] at hk
    simp only [Finset.sum_ite_eq', mem_univ, if_true] at hk
    rcases mul_eq_zero.1 hk with h | h
    · exact absurd h hn
    · linarith

/-- **C68.** Factorising and going back: for a positive sampled spectrum the round trip preserves the total power `r_0` and every folded coefficient
`r_t + r_{n-t}`. -/
theorem C68_round_trip (r h r' : Vec n) (hok : spectralFact r = .ok h) (hr' : inverseSpectralFact h = .ok r')
    (hpos : ∀ j < 100 * n, 0 < Spec.powerSpectrum r (2 * Real.pi * j / (100 * n))) :
    (∀ h0 : 0 < n, r' ⟨0, h0⟩ = r ⟨0, h0⟩) ∧
      ∀ (t : ℕ) (h1 : 0 < t) (h2 : t < n), r' ⟨t, h2⟩ + r' ⟨n - t, by omega⟩ = r ⟨t, h2⟩ + r ⟨n - t, by omega⟩ := by
  have hlin : ∀ w, Spec.powerSpectrum (fun t => r' t - r t) w = Spec.powerSpectrum r' w - Spec.powerSpectrum r w := by
    intro w
    unfold Spec.powerSpectrum
    rw [← sum_sub_distrib]
    exact sum_congr rfl fun t _ => by ring
  have hz := folded_zero (fun t => r' t - r t) fun k hk => by
    rw [hlin, (C57_spectrum h r' hr' _).1, C58_matches r h hok hpos k hk, sub_self]
  refine ⟨fun h0 => by have := hz.1 h0; linarith, fun t h1 h2 => ?_⟩
  have := hz.2 t h1 h2
  linarith

/-! ## C69: the documented input shape -/

/-- The claim **C69** of the docstring (`spectral_fact.py:29-31`): passed as a column vector, the coefficients give an impulse response with the desired spectrum. Since the
result is a matrix, the claim is that at least one of its rows is such a response. -/
def C69_claim : Prop :=
  ∀ (n : ℕ) (r : Vec n) (M : Matrix (Fin n) (Fin n) ℝ), n ≠ 0 →
    (∀ j < 100 * n, 0 < Spec.powerSpectrum r (2 * Real.pi * j / (100 * n))) → spectralFactColumn r = .ok M →
    ∃ i, ∀ k < n, ‖Spec.freqResponse (M i) (2 * Real.pi * k / n)‖ ^ 2 = Spec.powerSpectrum r (2 * Real.pi * k / n)

/-- What the code computes for a column vector: row `i` is constant, `√R(2πi/n) / n`. -/
theorem C69_column_rows (r : Vec n) (M : Matrix (Fin n) (Fin n) ℝ)
    (hpos : ∀ j < 100 * n, 0 < Spec.powerSpectrum r (2 * Real.pi * j / (100 * n))) (hok : spectralFactColumn r = .ok M) (i j : Fin n) :
    M i j = Real.sqrt (Spec.powerSpectrum r (2 * Real.pi * i / n)) / n := by
  have hn0 : n ≠ 0 := by have := i.2; omega
  have hn : (n : ℝ) ≠ 0 := Nat.cast_ne_zero.2 hn0
  unfold spectralFactColumn at hok
  rcases sfChecked_cases r with ⟨_, hc⟩ | ⟨_, _, hc⟩ | ⟨h0, _, hc⟩ <;> rw [hc] at hok
  · cases hok
  · cases hok
  · have hM := congrFun (congrFun (Except.ok.inj hok) i) j
    rw [← hM]
    have hpad : ∀ x : ℂ, npIfft n (pad1 x) j = x / n := by
      intro x
      rw [npIfft_eq]
      congr 1
      rw [Finset.sum_eq_single 0]
      · simp [pad1, cis_zero]
      · intro k _ hk
        simp [pad1, hk]
      · intro h
        exact absurd (mem_range.2 (Nat.pos_of_ne_zero hn0)) h
    have h1 : ∀ x : ℂ, npFft 1 (fun _ => x) 0 = x := by intro x; simp [npFft_eq, cis_zero]
    have h2 : ∀ x : ℂ, npIfft 1 (fun _ => x) 0 = x := by intro x; simp [npIfft_eq, cis_zero]
    simp only [hpad, h1, h2]
    have hphi : ∀ k : ℕ, (Complex.I * (if k = sfLen n / 2 then 0 else if k = 0 then 0 else
        if sfLen n / 2 ≤ k ∧ k < sfLen n then -((sfAlpha (sfTarget r) k : ℝ) : ℂ) else ((sfAlpha (sfTarget r) k : ℝ) : ℂ))).re = 0 := by
      intro k
      split_ifs <;> simp
    rw [hphi]
    simp only [Complex.ofReal_zero, mul_zero, add_zero]
    rw [← Complex.ofReal_exp, ← Complex.ofReal_natCast, ← Complex.ofReal_div, Complex.ofReal_re]
    congr 1
    have hR : 0 < Spec.powerSpectrum r (sfGrid n (100 * i)) := hpos _ (by omega)
    have hpos' : ∀ j < 100 * n, 0 < Spec.powerSpectrum r (sfGrid n j) := hpos
    unfold sfAlpha sfTarget
    rw [if_pos hpos', abs_of_pos hR, Real.sqrt_eq_rpow, Real.rpow_def_of_pos]
    · have : sfGrid n (100 * i) = 2 * Real.pi * i / n := by
        unfold sfGrid
        push_cast
        field_simp
      rw [this]
      congr 1
      ring
    · have : sfGrid n (100 * i) = 2 * Real.pi * i / n := by
        unfold sfGrid
        push_cast
        field_simp
      rw [← this]
      exact hR

/-- `R(w) = 1 + cos(w)/2`. -/
noncomputable def sampleCorr : Vec 2 := ![1, 1 / 4]

theorem sampleCorr_spectrum (w : ℝ) : Spec.powerSpectrum sampleCorr w = 1 + Real.cos w / 2 := by
  unfold Spec.powerSpectrum sampleCorr
  simp [Fin.sum_univ_two]
  ring

theorem sampleCorr_pos (w : ℝ) : 0 < Spec.powerSpectrum sampleCorr w := by
  rw [sampleCorr_spectrum]
  linarith [Real.neg_one_le_cos w]

/-- **C69 is refuted.** -/
theorem C69_refuted : ¬ C69_claim := by
  intro h
  have hex : ∃ M, spectralFactColumn sampleCorr = .ok M := by
    unfold spectralFactColumn
    rcases sfChecked_cases sampleCorr with ⟨h0, _⟩ | ⟨_, ⟨j, _, hj⟩, _⟩ | ⟨_, _, hc⟩
    · omega
    · exact absurd (sampleCorr_pos (sfGrid 2 j)) (not_lt.2 (hj.trans (by norm_num)))
    · rw [hc]; exact ⟨_, rfl⟩
  obtain ⟨M, hM⟩ := hex
  obtain ⟨i, hi⟩ := h 2 sampleCorr M two_ne_zero (fun j _ => sampleCorr_pos _) hM
  have h1 := hi 1 (by norm_num)
  have hrow := C69_column_rows sampleCorr M (fun j _ => sampleCorr_pos _) hM i
  have hpi : (2 * Real.pi * ((1 : ℕ) : ℝ) / ((2 : ℕ) : ℝ)) = Real.pi := by push_cast; ring
  rw [hpi, sampleCorr_spectrum, Real.cos_pi] at h1
  unfold Spec.freqResponse at h1
  rw [Fin.sum_univ_two, hrow 0, hrow 1] at h1
  simp [Complex.exp_neg, Complex.exp_pi_mul_I] at h1
  norm_num at h1

/-- The hypotheses of C58, C68 and C70 hold for `r = [1, 1/4]`. -/
example : ∃ h r', spectralFact sampleCorr = .ok h ∧ inverseSpectralFact h = .ok r' ∧ r' 0 = 1 ∧
    ‖Spec.freqResponse h (2 * Real.pi * (1 : ℕ) / (2 : ℕ))‖ ^ 2 = 1 / 2 := by
  obtain ⟨h, hh⟩ := ((C58_outcomes sampleCorr).1).2 ⟨two_ne_zero, fun j _ => lt_trans (by norm_num) (sampleCorr_pos _)⟩
  have hr' := (C57_autocorrelation h).2 two_ne_zero
  refine ⟨h, _, hh, hr', ?_, ?_⟩
  · have := (C68_round_trip _ _ _ hh hr' (fun j _ => sampleCorr_pos _)).1 two_pos
    simpa [sampleCorr] using this
  · rw [C58_matches _ _ hh (fun j _ => sampleCorr_pos _) 1 (by norm_num), sampleCorr_spectrum]
    have hpi : (2 * Real.pi * ((1 : ℕ) : ℝ) / ((2 : ℕ) : ℝ)) = Real.pi := by push_cast; ring
    rw [hpi, Real.cos_pi]
    norm_num

end Ellalgo
