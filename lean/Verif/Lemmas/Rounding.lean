import Verif.Spec.Rounding
import Mathlib.Algebra.Order.Field.Power
import Mathlib.Algebra.BigOperators.Fin
import Mathlib.Tactic.Linarith
import Mathlib.Tactic.Positivity
import Mathlib.Tactic.Ring
import Mathlib.Tactic.FieldSimp

/-! # Facts about the rounding functions -/

namespace Ellalgo

open Matrix

theorem abs_roundHalfEven_sub_le (y : ℝ) : |(roundHalfEven y : ℝ) - y| ≤ 1 / 2 := by
  have h1 := Int.floor_le y
  have h2 := Int.lt_floor_add_one y
  unfold roundHalfEven
  split_ifs with h3 h4 h5
  · rw [abs_le]; constructor <;> linarith
  · push_cast; rw [abs_le]; constructor <;> linarith
  · rw [abs_le]; constructor <;> linarith
  · push_cast; rw [abs_le]; constructor <;> linarith

theorem roundHalfEven_eq {y : ℝ} {k : ℤ} (h : |y - k| < 1 / 2) : roundHalfEven y = k := by
  have h1 := abs_roundHalfEven_sub_le y
  rw [abs_lt] at h
  rw [abs_le] at h1
  have h2 : ((roundHalfEven y - k : ℤ) : ℝ) < 1 := by push_cast; linarith
  have h3 : (-1 : ℝ) < ((roundHalfEven y - k : ℤ) : ℝ) := by push_cast; linarith
  have h4 : roundHalfEven y - k < 1 := by exact_mod_cast h2
  have h5 : -1 < roundHalfEven y - k := by exact_mod_cast h3
  omega

theorem binExp_le {x : ℝ} (hx : x ≠ 0) : (2 : ℝ) ^ binExp x ≤ |x| := by
  have := Int.zpow_log_le_self (b := 2) (by norm_num) (abs_pos.mpr hx)
  simpa [binExp] using this

/-- The relative error of rounding to `p` bits is at most `2⁻ᵖ`. -/
theorem abs_roundBits_sub_le (p : ℕ) (x : ℝ) : |roundBits p x - x| ≤ 2⁻¹ ^ p * |x| := by
  unfold roundBits
  split_ifs with hx
  · subst hx; simp
  · have h2 : (2 : ℝ) ≠ 0 := two_ne_zero
    have hw : (0 : ℝ) < 2 ^ (binExp x + 1 - p) := zpow_pos two_pos _
    have h := abs_roundHalfEven_sub_le (x * 2 ^ ((p : ℤ) - 1 - binExp x))
    have e : (roundHalfEven (x * 2 ^ ((p : ℤ) - 1 - binExp x)) : ℝ) * 2 ^ (binExp x + 1 - p) - x =
        ((roundHalfEven (x * 2 ^ ((p : ℤ) - 1 - binExp x)) : ℝ) - x * 2 ^ ((p : ℤ) - 1 - binExp x)) * 2 ^ (binExp x + 1 - p) := by
      rw [sub_mul, mul_assoc, ← zpow_add₀ h2]
      have : (p : ℤ) - 1 - binExp x + (binExp x + 1 - p) = 0 := by ring
      rw [this, zpow_zero, mul_one]
    rw [e, abs_mul, abs_of_pos hw]
    calc _ ≤ 1 / 2 * (2 : ℝ) ^ (binExp x + 1 - p) := mul_le_mul_of_nonneg_right h hw.le
      _ = 2⁻¹ ^ p * 2 ^ binExp x := by
        rw [zpow_sub₀ h2, zpow_add₀ h2, zpow_one, zpow_natCast, inv_pow]
        field_simp
      _ ≤ _ := mul_le_mul_of_nonneg_left (binExp_le hx) (by positivity)

/-- How to compute a rounded value. -/
theorem roundBits_eq {p : ℕ} {x : ℝ} {e k : ℤ} (h1 : (2 : ℝ) ^ e ≤ x) (h2 : x < 2 ^ (e + 1)) (h : |x * 2 ^ ((p : ℤ) - 1 - e) - k| < 1 / 2) :
    roundBits p x = k * 2 ^ (e + 1 - p) := by
  have hx : 0 < x := lt_of_lt_of_le (zpow_pos two_pos _) h1
  have he : binExp x = e := by
    unfold binExp
    rw [abs_of_pos hx]
    apply le_antisymm
    · have := (Int.lt_zpow_iff_log_lt (b := 2) (by norm_num) (x := e + 1) hx).mp (by simpa using h2)
      omega
    · exact (Int.zpow_le_iff_le_log (b := 2) (by norm_num) hx).mp (by simpa using h1)
  unfold roundBits
  rw [if_neg hx.ne', he, roundHalfEven_eq h]

@[simp] theorem roundBits_zero (p : ℕ) : roundBits p 0 = 0 := by simp [roundBits]

theorem binExp_eq {x : ℝ} {e : ℤ} (h1 : (2 : ℝ) ^ e ≤ x) (h2 : x < 2 ^ (e + 1)) : binExp x = e := by
  have hx : 0 < x := lt_of_lt_of_le (zpow_pos two_pos _) h1
  unfold binExp
  rw [abs_of_pos hx]
  apply le_antisymm
  · have := (Int.lt_zpow_iff_log_lt (b := 2) (by norm_num) (x := e + 1) hx).mp (by simpa using h2)
    omega
  · exact (Int.zpow_le_iff_le_log (b := 2) (by norm_num) hx).mp (by simpa using h1)

/-- A number with at most `p` significant bits is not changed. -/
theorem roundBits_exact {p : ℕ} (k e : ℤ) (hk : |(k : ℝ)| < 2 ^ p) : roundBits p (k * 2 ^ e) = k * 2 ^ e := by
  have h2 : (2 : ℝ) ≠ 0 := two_ne_zero
  unfold roundBits
  split_ifs with hx
  · exact hx.symm
  · have hb := binExp_le hx
    set b := binExp ((k : ℝ) * 2 ^ e) with hbd
    rw [abs_mul, abs_of_pos (zpow_pos (two_pos (α := ℝ)) e)] at hb
    have h3 : (2 : ℝ) ^ b < 2 ^ ((p : ℤ) + e) := by
      rw [zpow_add₀ h2, zpow_natCast]
      exact lt_of_le_of_lt hb (mul_lt_mul_of_pos_right hk (zpow_pos two_pos _))
    have h4 : b < p + e := (zpow_lt_zpow_iff_right₀ (by norm_num : (1 : ℝ) < 2)).mp h3
    obtain ⟨m, hm⟩ : ∃ m : ℕ, e + (p - 1 - b) = m := ⟨(e + (p - 1 - b)).toNat, by omega⟩
    have h5 : (k : ℝ) * 2 ^ e * 2 ^ ((p : ℤ) - 1 - b) = ((k * 2 ^ m : ℤ) : ℝ) := by
      rw [mul_assoc, ← zpow_add₀ h2, hm, zpow_natCast]; push_cast; ring
    have h6 : roundHalfEven ((k : ℝ) * 2 ^ e * 2 ^ ((p : ℤ) - 1 - b)) = k * 2 ^ m :=
      roundHalfEven_eq (by rw [h5, sub_self, abs_zero]; norm_num)
    rw [h6, ← h5, mul_assoc, ← zpow_add₀ h2]
    have : (p : ℤ) - 1 - b + (b + 1 - p) = 0 := by ring
    rw [this, zpow_zero, mul_one]

/-- The error of a sum of products from left to right. -/
theorem abs_seqDot_sub_le {rnd : ℝ → ℝ} {u : ℝ} (hu : 0 ≤ u) (hr : ∀ x, |rnd x - x| ≤ u * |x|) : ∀ {n : ℕ} (x y : Vec n),
    |seqDot rnd x y - x ⬝ᵥ y| ≤ ((1 + u) ^ (n + 1) - 1) * ∑ i, |x i| * |y i| := by
  intro n
  induction n with
  | zero => intro x y; simp [seqDot, dotProduct]
  | succ n ih =>
    intro x y
    have e : seqDot rnd x y = rnd (seqDot rnd (fun i => x i.castSucc) (fun i => y i.castSucc) + rnd (x (Fin.last n) * y (Fin.last n))) := by
      unfold seqDot; rw [Fin.foldl_succ_last]
    have ih := ih (fun i => x i.castSucc) (fun i => y i.castSucc)
    rw [e, dotProduct, Fin.sum_univ_castSucc, Fin.sum_univ_castSucc]
    change |seqDot rnd (fun i => x i.castSucc) (fun i => y i.castSucc) - ∑ i : Fin n, x i.castSucc * y i.castSucc| ≤ _ at ih
    set s := seqDot rnd (fun i => x i.castSucc) (fun i => y i.castSucc)
    set S := ∑ i : Fin n, x i.castSucc * y i.castSucc with hS
    set T := ∑ i : Fin n, |x i.castSucc| * |y i.castSucc| with hT
    set q := x (Fin.last n) * y (Fin.last n) with hq
    have hST : |S| ≤ T := by
      rw [hS, hT]; refine (Finset.abs_sum_le_sum_abs _ _).trans (Finset.sum_le_sum fun i _ => by rw [abs_mul])
    have hqe : |x (Fin.last n)| * |y (Fin.last n)| = |q| := by rw [hq, abs_mul]
    rw [hqe]
    have h1 := hr q
    have h2 := hr (s + rnd q)
    have hT0 : 0 ≤ T := by rw [hT]; positivity
    have h3 : |s + rnd q - (S + q)| ≤ ((1 + u) ^ (n + 1) - 1) * T + u * |q| := by
      have : s + rnd q - (S + q) = (s - S) + (rnd q - q) := by ring
      rw [this]; exact (abs_add_le _ _).trans (add_le_add ih h1)
    have h4 : |s + rnd q| ≤ (1 + u) ^ (n + 1) * T + (1 + u) * |q| := by
      have : s + rnd q = (s + rnd q - (S + q)) + S + q := by ring
      rw [this]
      have := abs_add_le (s + rnd q - (S + q) + S) q
      have := abs_add_le (s + rnd q - (S + q)) S
      linarith
    have h5 : |rnd (s + rnd q) - (S + q)| ≤ u * |s + rnd q| + (((1 + u) ^ (n + 1) - 1) * T + u * |q|) := by
      have : rnd (s + rnd q) - (S + q) = (rnd (s + rnd q) - (s + rnd q)) + (s + rnd q - (S + q)) := by ring
      rw [this]; exact (abs_add_le _ _).trans (add_le_add h2 h3)
    have h6 : u * |s + rnd q| ≤ u * ((1 + u) ^ (n + 1) * T + (1 + u) * |q|) := mul_le_mul_of_nonneg_left h4 hu
    have h7 : (1 + u) ^ 2 ≤ (1 + u) ^ (n + 1 + 1) := pow_le_pow_right₀ (by linarith) (by omega)
    calc _ ≤ _ := h5
      _ ≤ ((1 + u) ^ (n + 1 + 1) - 1) * T + ((1 + u) ^ 2 - 1) * |q| := by
        have : (1 + u) ^ (n + 1 + 1) = (1 + u) ^ (n + 1) * (1 + u) := pow_succ _ _
        rw [this]; nlinarith
      _ ≤ _ := by
        rw [mul_add]
        have := mul_le_mul_of_nonneg_right h7 (abs_nonneg q)
        nlinarith

/-- Binary arithmetic with `p` bits meets the standard model. -/
theorem Arith.ieee_accurate (p N : ℕ) : (Arith.ieee p).Accurate (2⁻¹ ^ p) ((1 + 2⁻¹ ^ p) ^ (N + 1) - 1) N := by
  have hu : (0 : ℝ) ≤ 2⁻¹ ^ p := by positivity
  have key : ∀ {n : ℕ} (x y : Vec n), n ≤ N → |seqDot (roundBits p) x y - x ⬝ᵥ y| ≤ ((1 + 2⁻¹ ^ p) ^ (N + 1) - 1) * ∑ i, |x i| * |y i| := fun {n} x y hn => by
    refine (abs_seqDot_sub_le hu (abs_roundBits_sub_le p) x y).trans (mul_le_mul_of_nonneg_right ?_ (by positivity))
    have : ((1 : ℝ) + 2⁻¹ ^ p) ^ (n + 1) ≤ (1 + 2⁻¹ ^ p) ^ (N + 1) := pow_le_pow_right₀ (by linarith) (by omega)
    linarith
  exact ⟨abs_roundBits_sub_le p, key, fun M x hn i => key (M i) x hn⟩

end Ellalgo
