import Verif.Lemmas.RoundedLowpass
import Verif.Lemmas.RoundedConverge
import Mathlib.Analysis.SpecialFunctions.Trigonometric.Bounds
import Mathlib.Analysis.Real.Pi.Bounds

/-! # Rounding errors of the spectrum matrix and of the responses -/

namespace Ellalgo

open Matrix

variable {n : ℕ} {A : Arith} {u γ : ℝ} {N : ℕ}

theorem Arith.Accurate.rnd_zero (hA : A.Accurate u γ N) : A.rnd 0 = 0 := by
  have := hA.rnd 0
  rw [abs_zero, mul_zero, sub_zero] at this
  exact abs_eq_zero.mp (le_antisymm this (abs_nonneg _))

theorem Arith.Accurate.rnd_nonneg (hA : A.Accurate u γ N) (hu : u ≤ 1) {x : ℝ} (hx : 0 ≤ x) : 0 ≤ A.rnd x := by
  have h := (abs_le.mp (hA.rnd x)).1
  rw [abs_of_nonneg hx] at h
  nlinarith

theorem Arith.lowOmega_rel (hA : A.Accurate u γ N) (hu : 0 ≤ u) (hu2 : u ≤ 1 / 2) {m k : ℕ} (hm : 1 < m) : Rel (10 * u) (A.lowOmega m k) (LowpassOracle.omega m k) := by
  have hm1 : ((m - 1 : ℕ) : ℝ) = (m : ℝ) - 1 := by rw [Nat.cast_sub hm.le]; simp
  have hm2 : (m : ℝ) - 1 ≠ 0 := by
    have : (1 : ℝ) < m := by exact_mod_cast hm
    linarith
  unfold Arith.lowOmega LowpassOracle.omega
  split_ifs with h
  · have hk : (k : ℝ) = (m : ℝ) - 1 := by rw [← h.1]; push_cast; ring
    rw [hk, mul_div_assoc, div_self hm2, mul_one]
    exact (hA.rel hu hu2 Real.pi).mono (by linarith)
  · unfold Arith.add Arith.mul Arith.div Arith.sub
    rw [hA.rnd_zero, sub_zero, add_zero, hm1]
    have h1 := (hA.rel hu hu2 (A.rnd Real.pi)).trans (hA.rel hu hu2 Real.pi)
    have h2 := (hA.rel hu hu2 (A.rnd (A.rnd Real.pi) / ((m : ℝ) - 1))).trans (h1.div (Rel.refl le_rfl ((m : ℝ) - 1)))
    have h3 := (hA.rel hu hu2 _).trans (h2.const_mul (k : ℝ))
    have h4 := (hA.rel hu hu2 _).trans h3
    rw [show Real.pi * (k : ℝ) / ((m : ℝ) - 1) = k * (Real.pi / ((m : ℝ) - 1)) by ring]
    exact h4.mono (by linarith)

theorem abs_cos_sub_le (x y : ℝ) : |Real.cos x - Real.cos y| ≤ |x - y| := by
  rw [Real.cos_sub_cos, abs_mul, abs_mul, abs_neg, abs_two]
  have h1 := Real.abs_sin_le_one ((x + y) / 2)
  have h2 : |Real.sin ((x - y) / 2)| ≤ |(x - y) / 2| := Real.abs_sin_le_abs
  rw [abs_div, abs_two] at h2
  have h3 := abs_nonneg (Real.sin ((x + y) / 2))
  have h4 := abs_nonneg (Real.sin ((x - y) / 2))
  nlinarith [mul_le_mul h1 h2 h4 zero_le_one]

theorem Arith.lowRow_err (hA : A.Accurate u γ N) (hu : 0 ≤ u) (hu2 : 12 * u ≤ 1) {k : ℕ} (hk : k < 15 * n) (j : Fin n) :
    |A.lowRow n (15 * n) k j - LowpassOracle.spectrumRow n (15 * n) k j| ≤ 164 * (n * u) := by
  have hn : 0 < n := by omega
  have hn1 : (1 : ℝ) ≤ n := by exact_mod_cast hn
  have hnu : u ≤ n * u := by nlinarith
  unfold Arith.lowRow LowpassOracle.spectrumRow
  split_ifs with h0
  · rw [sub_self, abs_zero]; positivity
  have hω0 : 0 ≤ LowpassOracle.omega (15 * n) k ∧ LowpassOracle.omega (15 * n) k ≤ Real.pi := by
    unfold LowpassOracle.omega
    have hm : (0 : ℝ) < ((15 * n : ℕ) : ℝ) - 1 := by push_cast; linarith
    have hk1 : (k : ℝ) ≤ ((15 * n : ℕ) : ℝ) - 1 := by
      have : ((k + 1 : ℕ) : ℝ) ≤ ((15 * n : ℕ) : ℝ) := by exact_mod_cast hk
      push_cast at this ⊢; linarith
    refine ⟨by positivity, ?_⟩
    rw [div_le_iff₀ hm]
    exact mul_le_mul_of_nonneg_left hk1 Real.pi_pos.le
  have hrel := (hA.rel hu (by linarith) (A.lowOmega (15 * n) k * ((j : ℕ) : ℝ))).trans ((Arith.lowOmega_rel hA hu (by linarith) (show 1 < 15 * n by omega) (k := k)).mul (Rel.refl le_rfl ((j : ℕ) : ℝ)))
  have hj : ((j : ℕ) : ℝ) ≤ n := by exact_mod_cast j.2.le
  have hj0 : (0 : ℝ) ≤ ((j : ℕ) : ℝ) := Nat.cast_nonneg _
  have harg : |A.mul (A.lowOmega (15 * n) k) ((j : ℕ) : ℝ) - LowpassOracle.omega (15 * n) k * ((j : ℕ) : ℝ)| ≤ 76 * (n * u) := by
    have h1 := hrel.abs_sub_le (mul_nonneg hω0.1 hj0) (by linarith)
    refine h1.trans ?_
    have h2 : LowpassOracle.omega (15 * n) k * ((j : ℕ) : ℝ) ≤ 3.15 * n := mul_le_mul (hω0.2.trans Real.pi_lt_d2.le) hj hj0 (by norm_num)
    have h3 : (2 * u + (10 * u + 0)) + (2 * u + (10 * u + 0)) ^ 2 ≤ 24 * u := by nlinarith
    calc _ ≤ 24 * u * (3.15 * n) := mul_le_mul h3 h2 (mul_nonneg hω0.1 hj0) (by positivity)
      _ ≤ _ := by nlinarith
  obtain ⟨a, ha⟩ : ∃ a, a = Real.cos (A.mul (A.lowOmega (15 * n) k) ((j : ℕ) : ℝ)) := ⟨_, rfl⟩
  obtain ⟨b, hb⟩ : ∃ b, b = Real.cos (LowpassOracle.omega (15 * n) k * ((j : ℕ) : ℝ)) := ⟨_, rfl⟩
  have hab : |a - b| ≤ 76 * (n * u) := by rw [ha, hb]; exact (abs_cos_sub_le _ _).trans harg
  have ha1 : |a| ≤ 1 := by rw [ha]; exact Real.abs_cos_le_one _
  rw [← ha, ← hb]
  unfold Arith.mul
  have h1 := hA.rnd a
  have h2 := hA.rnd 2
  have h3 := hA.rnd (A.rnd 2 * A.rnd a)
  generalize A.rnd a = a' at *
  generalize A.rnd 2 = t at *
  generalize A.rnd (t * a') = q at *
  rw [abs_two] at h2
  have h4 : |a' - a| ≤ u := h1.trans (by nlinarith)
  have h5 : |a'| ≤ 2 := by
    have := abs_add_le (a' - a) a
    rw [sub_add_cancel] at this
    linarith
  have h6 : |t| ≤ 3 := by
    have := abs_add_le (t - 2) 2
    rw [sub_add_cancel, abs_two] at this
    linarith
  have h7 : |q - t * a'| ≤ 6 * u := by
    refine h3.trans ?_
    rw [abs_mul]
    have : |t| * |a'| ≤ 3 * 2 := mul_le_mul h6 h5 (abs_nonneg _) (by norm_num)
    nlinarith
  have h8 : |(t - 2) * a'| ≤ 4 * u := by
    rw [abs_mul]
    calc _ ≤ (u * 2) * 2 := mul_le_mul h2 h5 (abs_nonneg _) (by positivity)
      _ = _ := by ring
  have h9 : q - 2 * b = (q - t * a') + ((t - 2) * a' + (2 * (a' - a) + 2 * (a - b))) := by ring
  rw [h9]
  refine (abs_add_le _ _).trans ?_
  have e1 := abs_add_le ((t - 2) * a') (2 * (a' - a) + 2 * (a - b))
  have e2 := abs_add_le (2 * (a' - a)) (2 * (a - b))
  rw [abs_mul, abs_mul, abs_two] at e2
  linarith

/-- The relative size of the rounding error of a response. -/
noncomputable def respErr (n : ℕ) (γ : ℝ) : ℝ := 170 * (γ * Real.sqrt n)

section

variable (hA : A.Accurate u γ n) (hu : 0 ≤ u) (hnu : n * u ≤ γ) (hγ : 164 * γ ≤ 1) {k : ℕ} (hk : k < 15 * n)

include hA hu hnu hγ hk

theorem Arith.lowRow_abs (j : Fin n) : |A.lowRow n (15 * n) k j| ≤ 3 := by
  have hn1 : (1 : ℝ) ≤ n := by exact_mod_cast (show 0 < n by omega)
  have h := Arith.lowRow_err hA hu (by nlinarith) hk j
  have h1 : |LowpassOracle.spectrumRow n (15 * n) k j| ≤ 2 := by
    unfold LowpassOracle.spectrumRow
    split_ifs
    · norm_num
    · rw [abs_mul, abs_two]; linarith [Real.abs_cos_le_one (LowpassOracle.omega (15 * n) k * ((j : ℕ) : ℝ))]
  have h2 := abs_add_le (A.lowRow n (15 * n) k j - LowpassOracle.spectrumRow n (15 * n) k j) (LowpassOracle.spectrumRow n (15 * n) k j)
  rw [sub_add_cancel] at h2
  linarith

theorem Arith.lowRow_nrm : nrm (A.lowRow n (15 * n) k) ≤ 3 * Real.sqrt n := by
  rw [mul_comm (3 : ℝ)]
  exact nrm_le_of_entries (by norm_num) (Arith.lowRow_abs hA hu hnu hγ hk)

/-- The inner product of the computed row with a point, as computed. -/
theorem Arith.lowDot_err (x : Vec n) : |A.dot (A.lowRow n (15 * n) k) x - A.lowRow n (15 * n) k ⬝ᵥ x| ≤ 3 * (γ * Real.sqrt n) * nrm x := by
  have hγ0 : 0 ≤ γ := le_trans (by positivity) hnu
  refine (hA.dot _ x le_rfl).trans ?_
  calc γ * ∑ i, |A.lowRow n (15 * n) k i| * |x i| ≤ γ * (nrm (A.lowRow n (15 * n) k) * nrm x) := mul_le_mul_of_nonneg_left (sum_abs_mul_le _ _) hγ0
    _ ≤ γ * (3 * Real.sqrt n * nrm x) := by gcongr; exacts [nrm_nonneg x, Arith.lowRow_nrm hA hu hnu hγ hk]
    _ = _ := by ring

/-- The computed row instead of the exact one. -/
theorem Arith.lowRow_dot_err (y : Vec n) : |A.lowRow n (15 * n) k ⬝ᵥ y - Spec.powerSpectrum y (Spec.grid n k)| ≤ 164 * (γ * Real.sqrt n) * nrm y := by
  have hn1 : (1 : ℝ) ≤ n := by exact_mod_cast (show 0 < n by omega)
  have hγ0 : 0 ≤ γ := le_trans (by positivity) hnu
  rw [← LowpassOracle.row_dot, ← sub_dotProduct]
  refine (abs_dot_le _ y).trans ?_
  refine mul_le_mul_of_nonneg_right ?_ (nrm_nonneg y)
  have h := nrm_le_of_entries (x := A.lowRow n (15 * n) k - LowpassOracle.spectrumRow n (15 * n) k) (b := 164 * γ) (by positivity) fun i =>
    (Arith.lowRow_err hA hu (by nlinarith) hk i).trans (by linarith)
  linarith

/-- The computed response. -/
theorem Arith.lowResp_err (x : Vec n) : |A.dot (A.lowRow n (15 * n) k) x - Spec.powerSpectrum x (Spec.grid n k)| ≤ respErr n γ * nrm x := by
  have hγ0 : 0 ≤ γ := le_trans (by positivity) hnu
  have h1 := Arith.lowDot_err hA hu hnu hγ hk x
  have h2 := Arith.lowRow_dot_err hA hu hnu hγ hk x
  have h3 := abs_add_le (A.dot (A.lowRow n (15 * n) k) x - A.lowRow n (15 * n) k ⬝ᵥ x) (A.lowRow n (15 * n) k ⬝ᵥ x - Spec.powerSpectrum x (Spec.grid n k))
  rw [sub_add_sub_cancel] at h3
  have h4 : 0 ≤ γ * Real.sqrt n * nrm x := mul_nonneg (by positivity) (nrm_nonneg x)
  unfold respErr
  linarith

theorem Arith.lowDot_abs (x : Vec n) : |A.dot (A.lowRow n (15 * n) k) x| ≤ 4 * Real.sqrt n * nrm x := by
  have hγ0 : 0 ≤ γ := le_trans (by positivity) hnu
  have h1 := Arith.lowDot_err hA hu hnu hγ hk x
  have h2 := abs_dot_le (A.lowRow n (15 * n) k) x
  have h3 := abs_add_le (A.dot (A.lowRow n (15 * n) k) x - A.lowRow n (15 * n) k ⬝ᵥ x) (A.lowRow n (15 * n) k ⬝ᵥ x)
  rw [sub_add_cancel] at h3
  have h4 : nrm (A.lowRow n (15 * n) k) * nrm x ≤ 3 * Real.sqrt n * nrm x := mul_le_mul_of_nonneg_right (Arith.lowRow_nrm hA hu hnu hγ hk) (nrm_nonneg x)
  have h5 : 0 ≤ Real.sqrt n * nrm x := mul_nonneg (by positivity) (nrm_nonneg x)
  nlinarith

end

theorem Arith.lowRow_ge (A : Arith) (hn : 0 < n) (m k : ℕ) : 1 ≤ A.lowRow n m k ⬝ᵥ A.lowRow n m k := by
  have h : A.lowRow n m k ⟨0, hn⟩ * A.lowRow n m k ⟨0, hn⟩ ≤ A.lowRow n m k ⬝ᵥ A.lowRow n m k :=
    Finset.single_le_sum (f := fun i => A.lowRow n m k i * A.lowRow n m k i) (fun i _ => mul_self_nonneg _) (Finset.mem_univ _)
  have h1 : A.lowRow n m k ⟨0, hn⟩ = 1 := by simp [Arith.lowRow]
  rw [h1] at h; linarith

end Ellalgo
