import Verif.Lemmas.EllUpdate

/-! Ranges of the parameters. -/

namespace Ellalgo
namespace EllCalcCore

theorem bias_rho_range {n β τ : ℝ} (hn : 2 ≤ n) (hη : 0 ≤ τ + n * β) (hβ : β ≤ τ) :
    β ≤ (biasParams n β τ).rho ∧ 0 ≤ (biasParams n β τ).rho ∧ (biasParams n β τ).rho ≤ τ := by
  have h1 : 0 < n + 1 := by linarith
  simp only [biasParams]
  refine ⟨?_, by positivity, ?_⟩
  · rw [le_div_iff₀ h1]; linarith
  · rw [div_le_iff₀ h1]
    have : n * β ≤ n * τ := mul_le_mul_of_nonneg_left hβ (by linarith)
    linarith

/-- The new centre stays strictly between the hyperplanes. -/
theorem par_rho_gt {n β0 β1 tsq : ℝ} (hn : 2 ≤ n) (ht : 0 < tsq) (h0 : 0 ≤ β0) (h01 : β0 < β1)
    (hb : β0 * β0 < tsq) : β0 < (parParams n β0 β1 tsq).rho := by
  have hη : 0 < tsq + n * (β0 * β1) := by have : 0 < β1 := lt_of_le_of_lt h0 h01; positivity
  have hK := parDen_pos hn ht hη.le
  simp only [parParams]
  rw [div_mul_eq_mul_div, div_div, lt_div_iff₀ (by positivity)]
  have hx0 := parXi_nonneg n β0 β1 tsq
  have hx : parXi n β0 β1 tsq ^ 2 = (tsq + β0 * β1 + n / 2 * (β0 + β1) ^ 2) ^ 2 -
      (n + 1) * (β0 + β1) ^ 2 * (tsq + n * (β0 * β1)) := by rw [parXi_sq hn]; ring
  set ξ := parXi n β0 β1 tsq
  set C := tsq + β0 * β1 + n / 2 * (β0 + β1) ^ 2 with hC
  set η := tsq + n * (β0 * β1) with hηd
  have hKd : parDen n β0 β1 tsq = C + ξ := rfl
  rw [hKd]
  set b := (β0 + β1) / 2 with hb'
  have hbpos : 0 < b := by rw [hb']; linarith
  have hbs : β0 + β1 = 2 * b := by rw [hb']; ring
  have key : η * b - β0 * C + (n + 1) * b * β0 ^ 2 = (β1 - β0) * (tsq - β0 * β0) / 2 := by
    rw [hηd, hC, hb']; ring
  have kpos : 0 < (β1 - β0) * (tsq - β0 * β0) / 2 := by
    have h1 : 0 < β1 - β0 := by linarith
    have h2 : 0 < tsq - β0 * β0 := by linarith
    positivity
  have h2 : 0 < 2 * η * b - β0 * C := by
    have h3 : η * b - (n + 1) * b * β0 ^ 2 = b * (tsq - β0 * β0 + n * (β0 * (β1 - β0))) := by
      rw [hηd]; ring
    have h4 : 0 ≤ n * (β0 * (β1 - β0)) := by
      have : 0 ≤ β1 - β0 := by linarith
      positivity
    have h5 : 0 < b * (tsq - β0 * β0 + n * (β0 * (β1 - β0))) := by
      apply mul_pos hbpos; linarith
    linarith
  have h3 : (β0 * ξ) ^ 2 < (2 * η * b - β0 * C) ^ 2 := by
    have : (2 * η * b - β0 * C) ^ 2 - (β0 * ξ) ^ 2 =
        4 * η * b * (η * b - β0 * C + (n + 1) * b * β0 ^ 2) := by
      rw [mul_pow β0 ξ, hx, hbs]; ring
    rw [key] at this
    have h4 : 0 < 4 * η * b * ((β1 - β0) * (tsq - β0 * β0) / 2) := by positivity
    linarith
  have h4 : β0 * ξ < 2 * η * b - β0 * C := lt_of_pow_lt_pow_left₀ 2 h2.le h3
  rw [hbs]; linarith

theorem par_range {n β0 β1 tsq : ℝ} (hn : 2 ≤ n) (ht : 0 < tsq) (h0 : 0 ≤ β0) (h01 : β0 < β1)
    (hb : β1 * β1 < tsq) :
    β0 < (parParams n β0 β1 tsq).rho ∧ (parParams n β0 β1 tsq).rho < β1 ∧
    0 < (parParams n β0 β1 tsq).sigma ∧ (parParams n β0 β1 tsq).sigma < 1 ∧
    0 < (parParams n β0 β1 tsq).delta := by
  have hβ1 : 0 < β1 := lt_of_le_of_lt h0 h01
  have hη : 0 < tsq + n * (β0 * β1) := by positivity
  have hK := parDen_pos hn ht hη.le
  have hσ0 : 0 < (parParams n β0 β1 tsq).sigma := by simp only [parParams]; positivity
  have hst := (par_slabSound hn ht hη.le).strict (t1 := -β1) (t2 := -β0) (by linarith)
    (by nlinarith) (by nlinarith) le_rfl le_rfl
  refine ⟨par_rho_gt hn ht h0 h01 (by nlinarith), ?_, hσ0, hst.1, hst.2⟩
  have : (parParams n β0 β1 tsq).rho = (parParams n β0 β1 tsq).sigma * (β0 + β1) / 2 := rfl
  rw [this]
  have : (parParams n β0 β1 tsq).sigma * (β0 + β1) ≤ 1 * (β0 + β1) :=
    mul_le_mul_of_nonneg_right hst.1.le (by linarith)
  linarith

end EllCalcCore
end Ellalgo
