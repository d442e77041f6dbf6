import Verif.Lemmas.Rounding
import Mathlib.Analysis.SpecialFunctions.Log.Basic
import Mathlib.Analysis.SpecialFunctions.Exp
import Mathlib.Analysis.Complex.Exponential

/-! # Relative error on a logarithmic scale -/

namespace Ellalgo

/-- `a` is `b` up to a factor between `exp (-e)` and `exp e`. -/
def Rel (e a b : ℝ) : Prop := ∃ t, |t| ≤ e ∧ a = b * Real.exp t

namespace Rel

variable {e e' a b a' b' c r : ℝ}

theorem refl (h : 0 ≤ e) (a : ℝ) : Rel e a a := ⟨0, by simpa using h, by simp⟩

theorem mono (h : Rel e a b) (he : e ≤ e') : Rel e' a b := by
  obtain ⟨t, h1, h2⟩ := h; exact ⟨t, h1.trans he, h2⟩

theorem trans (h : Rel e a b) (h' : Rel e' b c) : Rel (e + e') a c := by
  obtain ⟨t, h1, h2⟩ := h
  obtain ⟨t', h3, h4⟩ := h'
  exact ⟨t' + t, (abs_add_le _ _).trans (by linarith), by rw [h2, h4, Real.exp_add]; ring⟩

theorem mul (h : Rel e a b) (h' : Rel e' a' b') : Rel (e + e') (a * a') (b * b') := by
  obtain ⟨t, h1, h2⟩ := h
  obtain ⟨t', h3, h4⟩ := h'
  exact ⟨t + t', (abs_add_le _ _).trans (by linarith), by rw [h2, h4, Real.exp_add]; ring⟩

theorem div (h : Rel e a b) (h' : Rel e' a' b') : Rel (e + e') (a / a') (b / b') := by
  obtain ⟨t, h1, h2⟩ := h
  obtain ⟨t', h3, h4⟩ := h'
  refine ⟨t - t', (abs_sub _ _).trans (by linarith), ?_⟩
  rw [h2, h4, Real.exp_sub, mul_div_mul_comm]

theorem const_mul (h : Rel e a b) (c : ℝ) : Rel e (c * a) (c * b) := by
  obtain ⟨t, h1, h2⟩ := h; exact ⟨t, h1, by rw [h2]; ring⟩

theorem const_div (h : Rel e a b) (c : ℝ) : Rel e (c / a) (c / b) := by
  obtain ⟨t, h1, h2⟩ := h
  exact ⟨-t, by rwa [abs_neg], by rw [h2, Real.exp_neg, div_mul_eq_div_div, div_eq_mul_inv (c / b)]⟩

theorem sqrt (h : Rel e a b) : Rel (e / 2) (Real.sqrt a) (Real.sqrt b) := by
  obtain ⟨t, h1, h2⟩ := h
  refine ⟨t / 2, by rw [abs_div, abs_two]; linarith, ?_⟩
  have : Real.exp t = Real.exp (t / 2) ^ 2 := by rw [← Real.exp_nat_mul]; congr 1; push_cast; ring
  rw [h2, this, mul_comm, Real.sqrt_mul (sq_nonneg _), Real.sqrt_sq (Real.exp_pos _).le, mul_comm]

theorem nonneg (h : Rel e a b) : 0 ≤ e := by obtain ⟨t, h1, -⟩ := h; exact (abs_nonneg t).trans h1

theorem pos (h : Rel e a b) (hb : 0 < b) : 0 < a := by
  obtain ⟨t, -, h2⟩ := h; rw [h2]; exact mul_pos hb (Real.exp_pos _)

theorem upper (h : Rel e a b) (hb : 0 ≤ b) : a ≤ b * Real.exp e := by
  obtain ⟨t, h1, h2⟩ := h
  rw [h2]; exact mul_le_mul_of_nonneg_left (Real.exp_le_exp.mpr (le_of_abs_le h1)) hb

theorem symm (h : Rel e a b) : Rel e b a := by
  obtain ⟨t, h1, h2⟩ := h
  exact ⟨-t, by rwa [abs_neg], by rw [h2, mul_assoc, ← Real.exp_add]; simp⟩

theorem of_bounds (hb : 0 < b) (h1 : a ≤ b * Real.exp e) (h2 : b ≤ a * Real.exp e) : Rel e a b := by
  have ha : 0 < a := by
    by_contra h
    push Not at h
    have := mul_nonpos_of_nonpos_of_nonneg h (Real.exp_pos e).le
    linarith
  refine ⟨Real.log (a / b), ?_, by rw [Real.exp_log (div_pos ha hb)]; field_simp⟩
  rw [abs_le]
  constructor
  · rw [neg_le, ← Real.log_inv, inv_div, Real.log_le_iff_le_exp (div_pos hb ha), div_le_iff₀ ha]; linarith
  · rw [Real.log_le_iff_le_exp (div_pos ha hb), div_le_iff₀ hb]; linarith

theorem add (h : Rel e a b) (h' : Rel e a' b') (hb : 0 < b) (hb' : 0 ≤ b') : Rel e (a + a') (b + b') := by
  refine of_bounds (by linarith) ?_ ?_
  · have := h.upper hb.le; have := h'.upper hb'; linarith
  · have h1 := h.symm.upper (h.pos hb).le
    have h2 : b' ≤ a' * Real.exp e := h'.symm.upper (by obtain ⟨t, -, h2⟩ := h'; rw [h2]; positivity)
    linarith

/-- From a relative error. -/
theorem of_abs (h : |a - b| ≤ r * |b|) (hr0 : 0 ≤ r) (hr : r ≤ 1 / 2) : Rel (2 * r) a b := by
  by_cases hb : b = 0
  · subst hb
    simp only [sub_zero, abs_zero, mul_zero] at h
    have ha : a = 0 := abs_eq_zero.mp (le_antisymm h (abs_nonneg _))
    exact ⟨0, by simpa using hr0, by rw [ha]; simp⟩
  · obtain ⟨q, hq⟩ : ∃ q, q = a / b := ⟨_, rfl⟩
    have haq : a = b * q := by rw [hq]; field_simp
    have h1 : |q - 1| ≤ r := by
      rw [haq, show b * q - b = b * (q - 1) by ring, abs_mul, mul_comm] at h
      exact le_of_mul_le_mul_right h (abs_pos.mpr hb)
    obtain ⟨h2, h3⟩ := abs_le.mp h1
    have hq0 : 0 < q := by linarith
    refine ⟨Real.log q, ?_, by rw [Real.exp_log hq0]; exact haq⟩
    rw [abs_le]
    constructor
    · have h4 := Real.log_le_sub_one_of_pos (inv_pos.mpr hq0)
      rw [Real.log_inv] at h4
      have h5 : q⁻¹ - 1 ≤ 2 * r := by
        rw [sub_le_iff_le_add, inv_le_iff_one_le_mul₀ hq0]
        nlinarith
      linarith
    · have h4 := Real.log_le_sub_one_of_pos hq0
      linarith

/-- To a relative error. -/
theorem abs_sub_le (h : Rel e a b) (hb : 0 ≤ b) (he : e ≤ 1) : |a - b| ≤ (e + e ^ 2) * b := by
  obtain ⟨t, h1, h2⟩ := h
  have h3 := Real.abs_exp_sub_one_sub_id_le (x := t) (by linarith)
  have h4 : |Real.exp t - 1| ≤ e + e ^ 2 := by
    have : |Real.exp t - 1| ≤ |Real.exp t - 1 - t| + |t| := by
      have := abs_add_le (Real.exp t - 1 - t) t; rwa [sub_add_cancel] at this
    have : t ^ 2 ≤ e ^ 2 := by rw [← sq_abs t]; exact pow_le_pow_left₀ (abs_nonneg _) h1 2
    linarith
  rw [h2, show b * Real.exp t - b = b * (Real.exp t - 1) by ring, abs_mul, abs_of_nonneg hb, mul_comm]
  exact mul_le_mul_of_nonneg_right h4 hb

theorem lower (h : Rel e a b) (hb : 0 ≤ b) (he : e ≤ 1) : (1 - (e + e ^ 2)) * b ≤ a := by
  have := (abs_le.mp (h.abs_sub_le hb he)).1
  linarith

end Rel

theorem Arith.Accurate.rel {A : Arith} {u γ : ℝ} {N : ℕ} (h : A.Accurate u γ N) (hu : 0 ≤ u) (hu2 : u ≤ 1 / 2) (x : ℝ) : Rel (2 * u) (A.rnd x) x :=
  Rel.of_abs (h.rnd x) hu hu2

end Ellalgo
