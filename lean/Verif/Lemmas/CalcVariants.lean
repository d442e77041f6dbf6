import Verif.Lemmas.CalcCore

/-! The remaining formulas of `EllCalcCore` evaluated and reduced to `parParams`. -/

namespace Ellalgo
namespace EllCalcCore

theorem parXi_zero {n β1 tsq : ℝ} (ht : 0 < tsq) :
    parXi n 0 β1 tsq = tsq * Real.sqrt (1 - β1 * β1 / tsq +
      (n / 2 * (β1 * β1 / tsq)) * (n / 2 * (β1 * β1 / tsq))) := by
  have h1 : (tsq - 0 * 0) * (tsq - β1 * β1) + (n / 2 * (β1 * β1 - 0 * 0)) ^ 2 =
      tsq ^ 2 * (1 - β1 * β1 / tsq + (n / 2 * (β1 * β1 / tsq)) * (n / 2 * (β1 * β1 / tsq))) := by
    field_simp; ring
  unfold parXi
  rw [h1, Real.sqrt_mul (by positivity), Real.sqrt_sq ht.le]

theorem calcParallelCentralCut_std {n β1 tsq : ℝ} (hn : 2 ≤ n) (ht : 0 < tsq)
    (hb : β1 * β1 ≤ tsq) :
    (std n).calcParallelCentralCut β1 tsq = .ok (parParams n 0 β1 tsq) := by
  have hn0 : 0 < n := by linarith
  set a := β1 * β1 / tsq with ha
  have ha0 : 0 ≤ a := by rw [ha]; apply div_nonneg (mul_self_nonneg _) ht.le
  have ha1 : a ≤ 1 := by rw [ha, div_le_one ht]; exact hb
  have harg : 0 ≤ 1 - a + n / 2 * a * (n / 2 * a) := by nlinarith [mul_self_nonneg (n / 2 * a)]
  set X := Real.sqrt (1 - a + n / 2 * a * (n / 2 * a)) with hX
  have hX0 : 0 ≤ X := Real.sqrt_nonneg _
  have hXsq : X ^ 2 = 1 - a + n / 2 * a * (n / 2 * a) := Real.sq_sqrt harg
  have hxi : parXi n 0 β1 tsq = tsq * X := parXi_zero ht
  have hbb : β1 * β1 = a * tsq := by rw [ha]; field_simp
  have hr1 : 1 ≤ n / 2 * a + X := by
    by_contra hc
    have : X < 1 - n / 2 * a := by linarith
    have h2 : X ^ 2 < (1 - n / 2 * a) ^ 2 := by nlinarith
    nlinarith
  have hrp : n / 2 * a + X + 1 ≠ 0 := by linarith
  have hin : 1 / n < 1 := by rw [div_lt_one hn0]; linarith
  have hrn : n / 2 * a + X - 1 / n ≠ 0 := by linarith
  have hden : parDen n 0 β1 tsq = tsq * (n / 2 * a + X + 1) := by
    unfold parDen; rw [hxi]
    have : (0 + β1) ^ 2 = a * tsq := by rw [← hbb]; ring
    rw [this]; ring
  simp only [calcParallelCentralCut, std, pdiv_ok ht.ne', except_ok_bind, ← ha, psqrt_ok harg,
    ← hX, pdiv_ok hrp, pdiv_ok hrn, parParams, hden, hxi]
  have hs : 2 * (tsq + n * (0 * β1)) / (tsq * (n / 2 * a + X + 1)) = 2 / (n / 2 * a + X + 1) := by
    rw [zero_mul, mul_zero, add_zero, mul_comm tsq, mul_div_mul_right _ _ ht.ne']
  rw [hs]
  congr 2
  · field_simp; ring
  · have hn2 : n ^ 2 - 1 ≠ 0 := by nlinarith
    have : (tsq - 0 * 0 + (tsq - β1 * β1)) / 2 + tsq * X / n = tsq * (1 - a / 2 + X / n) := by
      rw [hbb]; ring
    rw [this, show n * n / (n * n - 1) * (tsq * (1 - a / 2 + X / n)) / tsq =
      n ^ 2 / (n ^ 2 - 1) * (1 - a / 2 + X / n) by field_simp]
    rw [div_eq_iff hrn]
    field_simp
    linear_combination (-4 * n) * hXsq

/-- `ξ² = (τ²+β0β1 + n/2 (β0+β1)²)² - (n+1)(β0+β1)² η`. -/
theorem parXi_disc {n : ℝ} (hn : 2 ≤ n) (β0 β1 tsq : ℝ) :
    parXi n β0 β1 tsq ^ 2 = (tsq + β0 * β1 + n / 2 * (β0 + β1) ^ 2) ^ 2 -
      (n + 1) * (β0 + β1) ^ 2 * (tsq + n * (β0 * β1)) := by
  rw [parXi_sq hn]; ring

theorem par_sigma_alt {n β0 β1 tsq : ℝ} (hn : 2 ≤ n) (hs : β0 + β1 ≠ 0)
    (hK : parDen n β0 β1 tsq ≠ 0) :
    n * (1 / (n + 1)) + 2 * (1 / (n + 1)) * (tsq + β0 * β1 - parXi n β0 β1 tsq) / (β0 + β1) ^ 2 =
      (parParams n β0 β1 tsq).sigma := by
  have hx := parXi_disc hn β0 β1 tsq
  have hn1 : n + 1 ≠ 0 := by linarith
  simp only [parParams]
  rw [eq_div_iff hK]
  unfold parDen
  field_simp
  linear_combination (-4) * hx

theorem calcParallelBiasCutFast2_std {n β0 β1 tsq eta : ℝ} (hn : 2 ≤ n) (ht : tsq ≠ 0)
    (hs : β0 + β1 ≠ 0) (hK : parDen n β0 β1 tsq ≠ 0) :
    (std n).calcParallelBiasCutFast2 β0 β1 tsq (β0 * β1) eta = .ok (parParams n β0 β1 tsq) := by
  have hn0 : n ≠ 0 := by linarith
  have hx := psqrt_ok (parXi_arg_nonneg hn β0 β1 tsq)
  have ha := par_sigma_alt hn hs hK
  have hs2 : (β0 + β1) ^ 2 ≠ 0 := pow_ne_zero _ hs
  simp only [calcParallelBiasCutFast2, std, hx, except_ok_bind, pdiv_ok ht, pdiv_ok hn0,
    pdiv_ok hs2]
  have hxi : Real.sqrt ((tsq - β0 * β0) * (tsq - β1 * β1) + (n / 2 * (β1 * β1 - β0 * β0)) ^ 2)
    = parXi n β0 β1 tsq := rfl
  rw [hxi, ha]
  rfl

theorem calcParallelBiasCutOld_std {n β0 β1 tsq : ℝ} (hn : 2 ≤ n) (ht : tsq ≠ 0)
    (hs : β0 + β1 ≠ 0) (hK : parDen n β0 β1 tsq ≠ 0) :
    (std n).calcParallelBiasCutOld β0 β1 tsq = .ok (parParams n β0 β1 tsq) :=
  calcParallelBiasCutFast2_std (eta := 0) hn ht hs hK

theorem calcParallelCentralCutOld_std {n β1 tsq : ℝ} (hn : 2 ≤ n) (ht : 0 < tsq)
    (hb : β1 ≠ 0) (hb1 : β1 * β1 ≤ tsq) :
    (std n).calcParallelCentralCutOld β1 tsq = .ok (parParams n 0 β1 tsq) := by
  have hn0 : n ≠ 0 := by linarith
  set a := β1 * β1 / tsq with ha
  have hbb : β1 * β1 = a * tsq := by rw [ha]; field_simp
  have ha0 : a ≠ 0 := by rw [ha]; positivity
  have ha1 : a ≤ 1 := by rw [ha, div_le_one ht]; exact hb1
  have harg : 0 ≤ 1 - a + (n / 2 * a) ^ 2 := by nlinarith [sq_nonneg (n / 2 * a)]
  set X := Real.sqrt (1 - a + (n / 2 * a) ^ 2) with hX
  have hxi : parXi n 0 β1 tsq = tsq * X := by rw [parXi_zero ht, ← ha, hX, sq]
  have hK : parDen n 0 β1 tsq ≠ 0 := (parDen_pos hn ht (by simpa using ht.le)).ne'
  have hal := par_sigma_alt (β0 := 0) (tsq := tsq) hn (by simpa using hb) hK
  simp only [calcParallelCentralCutOld, std, pdiv_ok ht.ne', except_ok_bind, ← ha, psqrt_ok harg,
    ← hX, pdiv_ok ha0, pdiv_ok hn0]
  have hal2 : n * (1 / (n + 1)) + 2 * (1 / (n + 1)) * (1 - X) / a =
      (parParams n 0 β1 tsq).sigma := by
    rw [← hal, hxi]
    have : (0 + β1) ^ 2 = a * tsq := by rw [← hbb]; ring
    rw [this]; field_simp; ring
  rw [hal2]
  congr 1
  simp only [parParams, Params.mk.injEq]
  refine ⟨by ring, trivial, ?_⟩
  rw [hxi, hbb]; field_simp; ring

theorem calcParallelBiasCutFastOld_std {n β0 β1 tsq : ℝ} (hn : 2 ≤ n) (ht : 0 < tsq)
    (hη : 0 ≤ tsq + n * (β0 * β1)) (hne : β0 ≠ β1) :
    (std n).calcParallelBiasCutFastOld β0 β1 tsq (β0 * β1) (tsq + n * (β0 * β1)) =
      .ok (parParams n β0 β1 tsq) := by
  have hx := parXi_disc hn β0 β1 tsq
  have hx0 := parXi_nonneg n β0 β1 tsq
  have hK := parDen_pos hn ht hη
  have hK2 := parDen_ge hn hη
  have hg : (0.5 * (tsq + β0 * β1) + n * (0.5 * (β0 + β1) * (0.5 * (β0 + β1)))) *
      (0.5 * (tsq + β0 * β1) + n * (0.5 * (β0 + β1) * (0.5 * (β0 + β1)))) -
      (n + 1) * (tsq + n * (β0 * β1)) * (0.5 * (β0 + β1) * (0.5 * (β0 + β1))) =
      (parXi n β0 β1 tsq / 2) ^ 2 := by
    norm_num
    linear_combination (-1 / 4) * hx
  have hk : 0.5 * (tsq + β0 * β1) + n * (0.5 * (β0 + β1) * (0.5 * (β0 + β1))) +
      parXi n β0 β1 tsq / 2 = parDen n β0 β1 tsq / 2 := by
    unfold parDen; norm_num; ring
  have hKlt : 2 * (tsq + n * (β0 * β1)) ≠ parDen n β0 β1 tsq := by
    intro h
    have h5 := parXi_key hn β0 β1 tsq
    have h6 := parDen_sub (n := n) (β0 := β0) (β1 := β1) (tsq := tsq)
    have h7 : (β1 - β0) ^ 2 * (n - 1) * (tsq + n * (β0 * β1)) = 0 := by
      rw [← h5]
      have : parXi n β0 β1 tsq = tsq - β0 * β1 - n / 2 * (β1 - β0) ^ 2 := by linarith
      rw [this]; ring
    have h8 : 0 < tsq + n * (β0 * β1) := by linarith
    have h9 : 0 < (β1 - β0) ^ 2 := by
      have : β1 - β0 ≠ 0 := sub_ne_zero.mpr (Ne.symm hne)
      positivity
    have h10 : 0 < n - 1 := by linarith
    have : 0 < (β1 - β0) ^ 2 * (n - 1) * (tsq + n * (β0 * β1)) := by positivity
    linarith
  have hlt : 2 * (tsq + n * (β0 * β1)) < parDen n β0 β1 tsq := lt_of_le_of_ne hK2 hKlt
  simp only [calcParallelBiasCutFastOld, std, hg, if_neg (not_lt.mpr (sq_nonneg _)),
    psqrt_ok (sq_nonneg (parXi n β0 β1 tsq / 2)), except_ok_bind,
    Real.sqrt_sq (show 0 ≤ parXi n β0 β1 tsq / 2 by linarith), hk]
  have hd1 : parDen n β0 β1 tsq / 2 ≠ 0 := by linarith
  have hd2 : parDen n β0 β1 tsq / 2 - (tsq + n * (β0 * β1)) ≠ 0 := by linarith
  rw [if_neg (by linarith), pdiv_ok hd1, except_ok_bind, pdiv_ok hd2, except_ok_bind,
    pdiv_ok ht.ne', except_ok_bind]
  have hs : (tsq + n * (β0 * β1)) / (parDen n β0 β1 tsq / 2) = (parParams n β0 β1 tsq).sigma := by
    simp only [parParams]; field_simp
  have hs1 : 1 - (parParams n β0 β1 tsq).sigma =
      (parDen n β0 β1 tsq / 2 - (tsq + n * (β0 * β1))) / (parDen n β0 β1 tsq / 2) := by
    simp only [parParams]; field_simp
  have hmu : (tsq + n * (β0 * β1)) / (parDen n β0 β1 tsq / 2 - (tsq + n * (β0 * β1))) =
      (parParams n β0 β1 tsq).sigma / (1 - (parParams n β0 β1 tsq).sigma) := by
    rw [hs1, ← hs]; field_simp
  have h1s : 1 - (parParams n β0 β1 tsq).sigma ≠ 0 := by
    rw [hs1]; exact div_ne_zero hd2 hd1
  have hds := par_deltasigma hn ht hK.ne'
  have hr : (parParams n β0 β1 tsq).rho = (parParams n β0 β1 tsq).sigma * (β0 + β1) / 2 := rfl
  rw [hmu, hs]
  rw [hr] at hds
  congr 1
  have : parParams n β0 β1 tsq = ⟨(parParams n β0 β1 tsq).rho, (parParams n β0 β1 tsq).sigma,
    (parParams n β0 β1 tsq).delta⟩ := rfl
  rw [this, Params.mk.injEq]
  refine ⟨by rw [hr]; norm_num; ring, rfl, ?_⟩
  simp only
  rw [div_eq_iff ht.ne']
  apply mul_left_cancel₀ h1s
  rw [mul_add, ← mul_assoc, mul_div_cancel₀ _ h1s]
  norm_num
  linear_combination (-1) * hds

/-- At `β0 = β1` the clamped variant falls back to a central cut. -/
theorem calcParallelBiasCutFastOld_eq {n β tsq : ℝ} (hn : 2 ≤ n) (ht : 0 < tsq)
    (hb : β * β ≤ tsq) :
    (std n).calcParallelBiasCutFastOld β β tsq (β * β) (tsq + n * (β * β)) =
      .ok (biasParams n 0 (Real.sqrt tsq)) := by
  have hη : 0 ≤ tsq + n * (β * β) := by nlinarith [mul_self_nonneg β]
  have hx0 := parXi_nonneg n β β tsq
  have hx := parXi_disc hn β β tsq
  have hxi : parXi n β β tsq = tsq - β * β := by
    have h5 := parXi_key hn β β tsq
    have h6 : (parXi n β β tsq) ^ 2 = (tsq - β * β) ^ 2 := by nlinarith
    nlinarith
  have hg : (0.5 * (tsq + β * β) + n * (0.5 * (β + β) * (0.5 * (β + β)))) *
      (0.5 * (tsq + β * β) + n * (0.5 * (β + β) * (0.5 * (β + β)))) -
      (n + 1) * (tsq + n * (β * β)) * (0.5 * (β + β) * (0.5 * (β + β))) =
      (parXi n β β tsq / 2) ^ 2 := by
    norm_num
    linear_combination (-1 / 4) * hx
  simp only [calcParallelBiasCutFastOld, std, hg, if_neg (not_lt.mpr (sq_nonneg _)),
    psqrt_ok (sq_nonneg (parXi n β β tsq / 2)), except_ok_bind,
    Real.sqrt_sq (show 0 ≤ parXi n β β tsq / 2 by linarith), psqrt_ok ht.le]
  rw [if_pos]
  · have := calcCentralCut_std (n := n) (Real.sqrt_pos.mpr ht).ne'
    rw [← this]; rfl
  · rw [hxi]; norm_num; nlinarith

end EllCalcCore
end Ellalgo
