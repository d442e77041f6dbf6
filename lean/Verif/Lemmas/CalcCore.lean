import Verif.Model.EllCalc
import Mathlib.Tactic.Linarith
import Mathlib.Tactic.LinearCombination
import Mathlib.Tactic.FieldSimp
import Mathlib.Tactic.Positivity
import Mathlib.Tactic.Ring

/-! Evaluation lemmas for the parameter formulas, and the algebraic inequality each triple satisfies. -/

namespace Ellalgo

theorem pdiv_ok {a b : ℝ} (h : b ≠ 0) : pdiv a b = .ok (a / b) := by simp [pdiv, h]

theorem pdiv_zero (a : ℝ) : pdiv a 0 = .error .zeroDivision := by simp [pdiv]

theorem psqrt_ok {x : ℝ} (h : 0 ≤ x) : psqrt x = .ok (Real.sqrt x) := by
  simp [psqrt, not_lt.mpr h]

theorem psqrt_neg {x : ℝ} (h : x < 0) : psqrt x = .error .mathDomain := by
  simp [psqrt, h]

@[simp] theorem except_ok_bind.{u, v} {ε : Type u} {α β : Type v} (a : α) (f : α → Except ε β) :
    ((Except.ok a : Except ε α) >>= f) = f a := rfl

@[simp] theorem except_error_bind.{u, v} {ε : Type u} {α β : Type v} (e : ε) (f : α → Except ε β) :
    ((Except.error e : Except ε α) >>= f) = Except.error e := rfl

namespace EllCalcCore

/-- The attributes for dimension `n`, evaluated. -/
noncomputable def std (n : ℝ) : EllCalcCore :=
  { nF := n, halfN := n / 2, nPlus1 := n + 1, invN := 1 / n, nSq := n * n, cst0 := 1 / (n + 1),
    cst1 := n * n / (n * n - 1), cst2 := 2 * (1 / (n + 1)), cst3 := n * (1 / (n + 1)) }

theorem init_ok {n : ℝ} (h : 2 ≤ n) : init n = .ok (std n) := by
  have h1 : n ≠ 0 := by linarith
  have h2 : n + 1 ≠ 0 := by linarith
  have h3 : n * n - 1 ≠ 0 := by nlinarith
  simp [init, pdiv_ok, h1, h2, h3, std]

/-- The parameters of a (possibly shallow) single cut, simplified. -/
noncomputable def biasParams (n β τ : ℝ) : Params :=
  { rho := (τ + n * β) / (n + 1)
    sigma := 2 * (τ + n * β) / ((n + 1) * (τ + β))
    delta := n ^ 2 / (n ^ 2 - 1) * (1 - β ^ 2 / τ ^ 2) }

theorem calcBiasCutFast_std {n β τ : ℝ} (hτ : τ ≠ 0) (hβ : τ + β ≠ 0) :
    (std n).calcBiasCutFast β τ (τ + n * β) = .ok (biasParams n β τ) := by
  have e1 : 1 / (n + 1) * (τ + n * β) = (τ + n * β) / (n + 1) := by ring
  have e2 : 2 * (1 / (n + 1)) * (τ + n * β) / (τ + β) =
      2 * (τ + n * β) / ((n + 1) * (τ + β)) := by
    rw [div_mul_eq_div_div]; ring
  have e3 : n * n / (n * n - 1) * (1 - β / τ) * (1 + β / τ) =
      n ^ 2 / (n ^ 2 - 1) * (1 - β ^ 2 / τ ^ 2) := by
    rw [← div_pow]; ring
  simp only [calcBiasCutFast, std, pdiv_ok hτ, pdiv_ok hβ, except_ok_bind, biasParams, e1, e2, e3]

theorem calcBiasCut_std {n β τ : ℝ} (hτ : τ ≠ 0) (hβ : τ + β ≠ 0) :
    (std n).calcBiasCut β τ = .ok (biasParams n β τ) :=
  calcBiasCutFast_std hτ hβ

theorem calcCentralCut_std {n τ : ℝ} (hτ : τ ≠ 0) :
    (std n).calcCentralCut τ = biasParams n 0 τ := by
  simp only [calcCentralCut, std, biasParams, Params.mk.injEq]
  refine ⟨by ring, ?_, by ring_nf⟩
  rw [mul_zero, add_zero, mul_div_mul_right _ _ hτ]; ring

/-- `ξ` of the parallel-cut formulas. -/
noncomputable def parXi (n β0 β1 tsq : ℝ) : ℝ :=
  Real.sqrt ((tsq - β0 * β0) * (tsq - β1 * β1) + (n / 2 * (β1 * β1 - β0 * β0)) ^ 2)

/-- Denominator of `σ` in the parallel-cut formula. -/
noncomputable def parDen (n β0 β1 tsq : ℝ) : ℝ :=
  tsq + β0 * β1 + n / 2 * (β0 + β1) ^ 2 + parXi n β0 β1 tsq

/-- The parameters of a parallel cut, simplified. -/
noncomputable def parParams (n β0 β1 tsq : ℝ) : Params :=
  let σ := 2 * (tsq + n * (β0 * β1)) / parDen n β0 β1 tsq
  { rho := σ * (β0 + β1) / 2
    sigma := σ
    delta := n * n / (n * n - 1) *
      ((tsq - β0 * β0 + (tsq - β1 * β1)) / 2 + parXi n β0 β1 tsq / n) / tsq }

theorem parXi_arg_nonneg {n : ℝ} (hn : 2 ≤ n) (β0 β1 tsq : ℝ) :
    0 ≤ (tsq - β0 * β0) * (tsq - β1 * β1) + (n / 2 * (β1 * β1 - β0 * β0)) ^ 2 := by
  have h1 : 1 ≤ (n / 2) ^ 2 := by nlinarith
  have h2 : 0 ≤ ((n / 2) ^ 2 - 1) * (β1 * β1 - β0 * β0) ^ 2 := by
    apply mul_nonneg <;> nlinarith [sq_nonneg (β1 * β1 - β0 * β0)]
  nlinarith [sq_nonneg ((tsq - β0 * β0) - (tsq - β1 * β1)), sq_nonneg (tsq - β0 * β0),
    sq_nonneg (tsq - β1 * β1), sq_nonneg ((tsq - β0 * β0) + (tsq - β1 * β1))]

theorem parXi_nonneg (n β0 β1 tsq : ℝ) : 0 ≤ parXi n β0 β1 tsq := Real.sqrt_nonneg _

theorem parXi_sq {n : ℝ} (hn : 2 ≤ n) (β0 β1 tsq : ℝ) :
    parXi n β0 β1 tsq ^ 2 =
      (tsq - β0 * β0) * (tsq - β1 * β1) + (n / 2 * (β1 * β1 - β0 * β0)) ^ 2 :=
  Real.sq_sqrt (parXi_arg_nonneg hn β0 β1 tsq)

theorem calcParallelBiasCutFast_std {n β0 β1 tsq : ℝ} (hn : 2 ≤ n) (ht : tsq ≠ 0)
    (hd : parDen n β0 β1 tsq ≠ 0) :
    (std n).calcParallelBiasCutFast β0 β1 tsq (β0 * β1) (tsq + n * (β0 * β1)) =
      .ok (parParams n β0 β1 tsq) := by
  have hn0 : n ≠ 0 := by linarith
  have hx := psqrt_ok (parXi_arg_nonneg hn β0 β1 tsq)
  simp only [calcParallelBiasCutFast, std, hx, except_ok_bind, pdiv_ok ht, pdiv_ok hn0]
  rw [pdiv_ok (by exact hd)]
  rfl

theorem calcParallelBiasCut_std {n β0 β1 tsq : ℝ} (hn : 2 ≤ n) (ht : tsq ≠ 0)
    (hd : parDen n β0 β1 tsq ≠ 0) :
    (std n).calcParallelBiasCut β0 β1 tsq = .ok (parParams n β0 β1 tsq) :=
  calcParallelBiasCutFast_std hn ht hd

/-- `K - 2η = ξ - (τ² - β0β1) + n/2 (β1-β0)²`. -/
theorem parDen_sub {n β0 β1 tsq : ℝ} :
    parDen n β0 β1 tsq - 2 * (tsq + n * (β0 * β1)) =
      parXi n β0 β1 tsq - (tsq - β0 * β1 - n / 2 * (β1 - β0) ^ 2) := by
  unfold parDen; ring

theorem parXi_key {n : ℝ} (hn : 2 ≤ n) (β0 β1 tsq : ℝ) :
    parXi n β0 β1 tsq ^ 2 - (tsq - β0 * β1 - n / 2 * (β1 - β0) ^ 2) ^ 2 =
      (β1 - β0) ^ 2 * (n - 1) * (tsq + n * (β0 * β1)) := by
  rw [parXi_sq hn]; ring

theorem parDen_ge {n β0 β1 tsq : ℝ} (hn : 2 ≤ n) (hη : 0 ≤ tsq + n * (β0 * β1)) :
    2 * (tsq + n * (β0 * β1)) ≤ parDen n β0 β1 tsq := by
  have h := parXi_key hn β0 β1 tsq
  have h2 : 0 ≤ (β1 - β0) ^ 2 * (n - 1) * (tsq + n * (β0 * β1)) := by
    have : 0 ≤ n - 1 := by linarith
    positivity
  have h3 := parDen_sub (n := n) (β0 := β0) (β1 := β1) (tsq := tsq)
  have h4 := abs_le_of_sq_le_sq' (a := tsq - β0 * β1 - n / 2 * (β1 - β0) ^ 2)
    (b := parXi n β0 β1 tsq) (by linarith) (parXi_nonneg _ _ _ _)
  linarith [h4.2]

theorem parDen_pos {n β0 β1 tsq : ℝ} (hn : 2 ≤ n) (ht : 0 < tsq)
    (hη : 0 ≤ tsq + n * (β0 * β1)) : 0 < parDen n β0 β1 tsq := by
  have h0 := parXi_nonneg n β0 β1 tsq
  have h1 : 0 ≤ n / 2 * (β0 + β1) ^ 2 := by positivity
  have h2 : 0 < tsq + β0 * β1 := by
    by_contra hc
    have : n * (tsq + β0 * β1) ≤ 0 := mul_nonpos_of_nonneg_of_nonpos (by linarith) (by linarith)
    nlinarith
  unfold parDen; linarith

/-- What makes a parameter triple sound for the slab `-β1 ≤ t ≤ -β0`, `t² ≤ tsq`
(`t = gᵀ(x - xc)`). -/
structure SlabSound (β0 β1 tsq : ℝ) (p : Params) : Prop where
  sigma_le : p.sigma ≤ 1
  main : ∀ t, t ^ 2 ≤ tsq → -β1 ≤ t → t ≤ -β0 →
    (t + p.rho) ^ 2 + (1 - p.sigma) * (tsq - t ^ 2) ≤ p.delta * (1 - p.sigma) * tsq
  side : ∀ t, t ^ 2 ≤ tsq → -β1 ≤ t → t ≤ -β0 → tsq - t ^ 2 ≤ p.delta * tsq
  width : p.sigma = 1 → β0 = β1

/-- If the slab meets the interval in more than a point, the parameters are strict. -/
theorem SlabSound.strict {β0 β1 tsq : ℝ} {p : Params} (h : SlabSound β0 β1 tsq p) {t1 t2 : ℝ}
    (h12 : t1 < t2) (ht1 : t1 ^ 2 ≤ tsq) (ht2 : t2 ^ 2 ≤ tsq) (hb1 : -β1 ≤ t1) (hb0 : t2 ≤ -β0) :
    p.sigma < 1 ∧ 0 < p.delta := by
  have hσ : p.sigma < 1 := by
    refine lt_of_le_of_ne h.sigma_le fun h1 => ?_
    have := h.width h1
    linarith
  refine ⟨hσ, ?_⟩
  have hm : ((t1 + t2) / 2) ^ 2 < tsq := by nlinarith [sq_pos_of_pos (sub_pos.mpr h12)]
  have h3 := h.main ((t1 + t2) / 2) hm.le (by linarith) (by linarith)
  have ht : 0 < tsq := lt_of_le_of_lt (sq_nonneg _) hm
  by_contra hc
  have h4 : p.delta * (1 - p.sigma) * tsq ≤ 0 := by
    have : 0 ≤ (1 - p.sigma) * tsq := mul_nonneg (by linarith) ht.le
    nlinarith
  have h5 : 0 < (1 - p.sigma) * (tsq - ((t1 + t2) / 2) ^ 2) := mul_pos (by linarith) (by linarith)
  nlinarith [sq_nonneg ((t1 + t2) / 2 + p.rho)]

/-- The algebraic relations behind every formula. -/
theorem slabSound_of_eqs {β0 β1 tsq : ℝ} {p : Params}
    (h0 : 0 ≤ p.sigma) (h1 : p.sigma ≤ 1) (hr : 2 * p.rho = p.sigma * (β0 + β1))
    (hd : p.delta * (1 - p.sigma) * tsq =
      (1 - p.sigma) * tsq + p.rho ^ 2 - p.sigma * (β0 * β1))
    (hs : p.sigma = 1 → ∀ t, t ^ 2 ≤ tsq → -β1 ≤ t → t ≤ -β0 → tsq - t ^ 2 ≤ p.delta * tsq)
    (hw : p.sigma = 1 → β0 = β1) :
    SlabSound β0 β1 tsq p := by
  have main : ∀ t, t ^ 2 ≤ tsq → -β1 ≤ t → t ≤ -β0 →
    (t + p.rho) ^ 2 + (1 - p.sigma) * (tsq - t ^ 2) ≤ p.delta * (1 - p.sigma) * tsq := by
    intro t _ h3 h4
    have h5 : p.sigma * ((t + β0) * (t + β1)) ≤ 0 :=
      mul_nonpos_of_nonneg_of_nonpos h0
        (mul_nonpos_of_nonpos_of_nonneg (by linarith) (by linarith))
    rw [hd]
    have : (t + p.rho) ^ 2 + (1 - p.sigma) * (tsq - t ^ 2) -
        ((1 - p.sigma) * tsq + p.rho ^ 2 - p.sigma * (β0 * β1)) =
        p.sigma * ((t + β0) * (t + β1)) := by
      linear_combination t * hr
    linarith
  refine ⟨h1, main, fun t h2 h3 h4 => ?_, hw⟩
  rcases h1.lt_or_eq with h | h
  · have h5 := main t h2 h3 h4
    have h6 : (1 - p.sigma) * (tsq - t ^ 2) ≤ (1 - p.sigma) * (p.delta * tsq) := by
      nlinarith [sq_nonneg (t + p.rho)]
    exact le_of_mul_le_mul_left h6 (by linarith)
  · exact hs h t h2 h3 h4

/-! ### Single cut -/

theorem bias_one_sub_sigma {n β τ : ℝ} (hn : 2 ≤ n) (hb : 0 < τ + β) :
    1 - (biasParams n β τ).sigma = (n - 1) * (τ - β) / ((n + 1) * (τ + β)) := by
  have h1 : n + 1 ≠ 0 := by linarith
  simp only [biasParams]
  field_simp
  ring

theorem bias_deltasigma {n β τ : ℝ} (hn : 2 ≤ n) (hτ : 0 < τ) (hb : 0 < τ + β) :
    (biasParams n β τ).delta * (1 - (biasParams n β τ).sigma) * τ ^ 2 =
      (n / (n + 1) * (τ - β)) ^ 2 := by
  rw [bias_one_sub_sigma hn hb]
  have h1 : n + 1 ≠ 0 := by linarith
  have h2 : n - 1 ≠ 0 := by linarith
  have h3 : n ^ 2 - 1 = (n - 1) * (n + 1) := by ring
  simp only [biasParams]
  rw [h3]
  field_simp
  ring

theorem bias_slabSound {n β τ : ℝ} (hn : 2 ≤ n) (hτ : 0 < τ) (hη : 0 ≤ τ + n * β) (hβ : β ≤ τ) :
    SlabSound β τ (τ ^ 2) (biasParams n β τ) := by
  have h1 : 0 < n + 1 := by linarith
  have hb : 0 < τ + β := by
    by_contra hc
    have : n * (τ + β) ≤ 0 := mul_nonpos_of_nonneg_of_nonpos (by linarith) (by linarith)
    nlinarith
  have hs1 := bias_one_sub_sigma hn hb
  have hle : (biasParams n β τ).sigma ≤ 1 := by
    have : 0 ≤ (n - 1) * (τ - β) / ((n + 1) * (τ + β)) := by
      apply div_nonneg
      · apply mul_nonneg <;> linarith
      · positivity
    linarith
  have hw : (biasParams n β τ).sigma = 1 → β = τ := by
    intro h
    rw [h, sub_self] at hs1
    have : (n - 1) * (τ - β) = 0 := by
      rcases (div_eq_zero_iff.mp hs1.symm) with h | h
      · exact h
      · exfalso; have : 0 < (n + 1) * (τ + β) := by positivity
        linarith
    rcases mul_eq_zero.mp this with h | h
    · linarith
    · linarith
  refine slabSound_of_eqs ?_ ?_ ?_ ?_ ?_ hw
  · simp only [biasParams]; positivity
  · exact hle
  · simp only [biasParams]; field_simp; ring
  · rw [bias_deltasigma hn hτ hb]
    simp only [biasParams]
    field_simp
    ring
  · intro h t h2 h3 h4
    have hβτ : β = τ := hw h
    subst hβτ
    have : (biasParams n β β).delta = 0 := by
      simp only [biasParams]
      rw [div_self (by positivity)]; ring
    rw [this]
    nlinarith

/-! ### Parallel cut -/

theorem par_deltasigma {n β0 β1 tsq : ℝ} (hn : 2 ≤ n) (ht : 0 < tsq)
    (hK : parDen n β0 β1 tsq ≠ 0) :
    (parParams n β0 β1 tsq).delta * (1 - (parParams n β0 β1 tsq).sigma) * tsq =
      (1 - (parParams n β0 β1 tsq).sigma) * tsq + (parParams n β0 β1 tsq).rho ^ 2 -
        (parParams n β0 β1 tsq).sigma * (β0 * β1) := by
  have hx := parXi_sq hn β0 β1 tsq
  have hn1 : n * n - 1 ≠ 0 := by nlinarith
  have hn0 : n ≠ 0 := by linarith
  have key : (n * n * ((tsq - β0 * β0 + (tsq - β1 * β1)) / 2) + n * parXi n β0 β1 tsq) *
      (parDen n β0 β1 tsq - 2 * (tsq + n * (β0 * β1))) * parDen n β0 β1 tsq =
      (n * n - 1) * (tsq * (parDen n β0 β1 tsq - 2 * (tsq + n * (β0 * β1))) * parDen n β0 β1 tsq +
        (tsq + n * (β0 * β1)) ^ 2 * (β0 + β1) ^ 2 -
        2 * (tsq + n * (β0 * β1)) * (β0 * β1) * parDen n β0 β1 tsq) := by
    unfold parDen
    linear_combination (n * parXi n β0 β1 tsq + n * n * ((tsq - β0 * β0 + (tsq - β1 * β1)) / 2) +
      n * (2 * (tsq + β0 * β1 + n / 2 * (β0 + β1) ^ 2) - 2 * (tsq + n * (β0 * β1))) -
      (n * n - 1) * tsq) * hx
  simp only [parParams]
  set K := parDen n β0 β1 tsq with hKdef
  set ξ := parXi n β0 β1 tsq
  have hn2 : n ^ 2 - 1 ≠ 0 := by nlinarith
  rw [show n * n - 1 = n ^ 2 - 1 by ring] at key ⊢
  field_simp
  linear_combination 2 * key

theorem par_slabSound {n β0 β1 tsq : ℝ} (hn : 2 ≤ n) (ht : 0 < tsq)
    (hη : 0 ≤ tsq + n * (β0 * β1)) :
    SlabSound β0 β1 tsq (parParams n β0 β1 tsq) := by
  have hK := parDen_pos hn ht hη
  have hK2 := parDen_ge hn hη
  have hw : (parParams n β0 β1 tsq).sigma = 1 →
      parXi n β0 β1 tsq = tsq - β0 * β1 - n / 2 * (β1 - β0) ^ 2 ∧ β0 = β1 := by
    intro h
    simp only [parParams] at h
    rw [div_eq_one_iff_eq hK.ne'] at h
    have h5 := parXi_key hn β0 β1 tsq
    have h6 := parDen_sub (n := n) (β0 := β0) (β1 := β1) (tsq := tsq)
    have h7' : parXi n β0 β1 tsq = tsq - β0 * β1 - n / 2 * (β1 - β0) ^ 2 := by linarith
    have h7 : (β1 - β0) ^ 2 * (n - 1) * (tsq + n * (β0 * β1)) = 0 := by
      rw [← h5, h7']; ring
    have hη' : tsq + n * (β0 * β1) ≠ 0 := by
      intro h0; rw [h0] at h; linarith
    have hn1 : n - 1 ≠ 0 := by linarith
    have h8 : (β1 - β0) ^ 2 = 0 := by
      rcases mul_eq_zero.mp h7 with h | h
      · rcases mul_eq_zero.mp h with h | h
        · exact h
        · exact absurd h hn1
      · exact absurd h hη'
    exact ⟨h7', by nlinarith⟩
  refine slabSound_of_eqs ?_ ?_ ?_ ?_ ?_ (fun h => (hw h).2)
  · simp only [parParams]; positivity
  · simp only [parParams]; rw [div_le_one hK]; exact hK2
  · simp only [parParams]; ring
  · exact par_deltasigma hn ht hK.ne'
  · intro h t h2 h3 h4
    obtain ⟨hxi, h9⟩ := hw h
    subst h9
    have ht2 : t = -β0 := le_antisymm h4 h3
    subst ht2
    have hz : 0 ≤ tsq - β0 * β0 := by nlinarith
    have hxi : parXi n β0 β0 tsq = tsq - β0 * β0 := by linarith
    simp only [parParams]
    rw [hxi, div_mul_cancel₀ _ ht.ne']
    have hn2 : 0 < n * n - 1 := by nlinarith
    have hn0 : 0 < n := by linarith
    have : n * n / (n * n - 1) * ((tsq - β0 * β0 + (tsq - β0 * β0)) / 2 + (tsq - β0 * β0) / n) =
        (n * (n + 1) / (n * n - 1)) * (tsq - β0 * β0) := by field_simp; ring
    rw [this]
    have h10 : 1 ≤ n * (n + 1) / (n * n - 1) := by
      rw [le_div_iff₀ hn2]; nlinarith
    nlinarith

end EllCalcCore

end Ellalgo
