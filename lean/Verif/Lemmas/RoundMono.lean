import Verif.Lemmas.Rounding

/-! # Rounding to nearest is monotone, and changes no rounded number -/

namespace Ellalgo

theorem roundHalfEven_mono : Monotone roundHalfEven := by
  intro y z h
  have hy := abs_le.mp (abs_roundHalfEven_sub_le y)
  have hz := abs_le.mp (abs_roundHalfEven_sub_le z)
  by_contra hc
  rw [not_le] at hc
  have hc' : (roundHalfEven z : ℝ) + 1 ≤ roundHalfEven y := by exact_mod_cast hc
  have he : y = z := by linarith
  rw [he] at hc
  exact lt_irrefl _ hc

theorem roundHalfEven_int (k : ℤ) : roundHalfEven (k : ℝ) = k := roundHalfEven_eq (by rw [sub_self, abs_zero]; norm_num)

theorem lt_binExp {x : ℝ} (hx : x ≠ 0) : |x| < (2 : ℝ) ^ (binExp x + 1) := by
  have := Int.lt_zpow_succ_log_self (b := 2) (by norm_num) |x|
  simpa [binExp] using this

theorem binExp_mono {x y : ℝ} (hx : x ≠ 0) (h : |x| ≤ |y|) : binExp x ≤ binExp y := Int.log_mono_right (abs_pos.mpr hx) h

/-- The significand of a rounded number, with `q + 1` bits. -/
theorem significand {q : ℕ} {x : ℝ} (hx : x ≠ 0) :
    (0 < x → (2 : ℤ) ^ q ≤ roundHalfEven (x * 2 ^ (((q + 1 : ℕ) : ℤ) - 1 - binExp x)) ∧ roundHalfEven (x * 2 ^ (((q + 1 : ℕ) : ℤ) - 1 - binExp x)) ≤ 2 ^ (q + 1)) ∧
    (x < 0 → -(2 : ℤ) ^ (q + 1) ≤ roundHalfEven (x * 2 ^ (((q + 1 : ℕ) : ℤ) - 1 - binExp x)) ∧ roundHalfEven (x * 2 ^ (((q + 1 : ℕ) : ℤ) - 1 - binExp x)) ≤ -2 ^ q) := by
  have h2 : (2 : ℝ) ≠ 0 := two_ne_zero
  have h1 := binExp_le hx
  have h3 := lt_binExp hx
  set e := binExp x
  have hw : (0 : ℝ) < 2 ^ (((q + 1 : ℕ) : ℤ) - 1 - e) := zpow_pos two_pos _
  have e1 : (2 : ℝ) ^ e * 2 ^ (((q + 1 : ℕ) : ℤ) - 1 - e) = 2 ^ q := by
    rw [← zpow_add₀ h2, ← zpow_natCast]; congr 1; push_cast; ring
  have e2 : (2 : ℝ) ^ (e + 1) * 2 ^ (((q + 1 : ℕ) : ℤ) - 1 - e) = 2 ^ (q + 1) := by
    rw [← zpow_add₀ h2, ← zpow_natCast]; congr 1; push_cast; ring
  have k1 := mul_le_mul_of_nonneg_right h1 hw.le
  have k2 := mul_le_mul_of_nonneg_right h3.le hw.le
  rw [e1] at k1
  rw [e2] at k2
  clear e1 e2
  generalize (2 : ℝ) ^ (((q + 1 : ℕ) : ℤ) - 1 - e) = w at *
  constructor <;> intro hs
  · rw [abs_of_pos hs] at k1 k2
    constructor
    · have := roundHalfEven_mono (show (((2 : ℤ) ^ q : ℤ) : ℝ) ≤ _ by push_cast; exact k1)
      rwa [roundHalfEven_int] at this
    · have := roundHalfEven_mono (show _ ≤ (((2 : ℤ) ^ (q + 1) : ℤ) : ℝ) by push_cast; exact k2)
      rwa [roundHalfEven_int] at this
  · rw [abs_of_neg hs] at k1 k2
    constructor
    · have := roundHalfEven_mono (show ((-(2 : ℤ) ^ (q + 1) : ℤ) : ℝ) ≤ x * w by push_cast; linarith)
      rwa [roundHalfEven_int] at this
    · have := roundHalfEven_mono (show x * w ≤ ((-(2 : ℤ) ^ q : ℤ) : ℝ) by push_cast; linarith)
      rwa [roundHalfEven_int] at this

/-- A rounded number is between two powers of two. -/
theorem roundBits_between {q : ℕ} {x : ℝ} (hx : x ≠ 0) :
    (0 < x → (2 : ℝ) ^ binExp x ≤ roundBits (q + 1) x ∧ roundBits (q + 1) x ≤ 2 ^ (binExp x + 1)) ∧
    (x < 0 → -(2 : ℝ) ^ (binExp x + 1) ≤ roundBits (q + 1) x ∧ roundBits (q + 1) x ≤ -2 ^ binExp x) := by
  have h2 : (2 : ℝ) ≠ 0 := two_ne_zero
  obtain ⟨h3, h4⟩ := significand (q := q) hx
  unfold roundBits
  rw [if_neg hx]
  generalize roundHalfEven (x * 2 ^ (((q + 1 : ℕ) : ℤ) - 1 - binExp x)) = k at *
  generalize binExp x = e at *
  have hw : (0 : ℝ) < 2 ^ (e + 1 - ((q + 1 : ℕ) : ℤ)) := zpow_pos two_pos _
  have e1 : (2 : ℝ) ^ q * 2 ^ (e + 1 - ((q + 1 : ℕ) : ℤ)) = 2 ^ e := by
    rw [← zpow_natCast, ← zpow_add₀ h2]; congr 1; push_cast; ring
  have e2 : (2 : ℝ) ^ (q + 1) * 2 ^ (e + 1 - ((q + 1 : ℕ) : ℤ)) = 2 ^ (e + 1) := by
    rw [← zpow_natCast, ← zpow_add₀ h2]; congr 1; push_cast; ring
  rw [← e1, ← e2]
  constructor <;> intro hs
  · obtain ⟨a, b⟩ := h3 hs
    have a' : (2 : ℝ) ^ q ≤ k := by exact_mod_cast a
    have b' : (k : ℝ) ≤ 2 ^ (q + 1) := by exact_mod_cast b
    exact ⟨mul_le_mul_of_nonneg_right a' hw.le, mul_le_mul_of_nonneg_right b' hw.le⟩
  · obtain ⟨a, b⟩ := h4 hs
    have a' : -(2 : ℝ) ^ (q + 1) ≤ k := by exact_mod_cast a
    have b' : (k : ℝ) ≤ -2 ^ q := by exact_mod_cast b
    rw [← neg_mul, ← neg_mul]
    exact ⟨mul_le_mul_of_nonneg_right a' hw.le, mul_le_mul_of_nonneg_right b' hw.le⟩

theorem roundBits_mono {p : ℕ} (hp : 1 ≤ p) : Monotone (roundBits p) := by
  obtain ⟨q, rfl⟩ : ∃ q, p = q + 1 := ⟨p - 1, by omega⟩
  intro x y h
  have same : x ≠ 0 → y ≠ 0 → binExp x = binExp y → roundBits (q + 1) x ≤ roundBits (q + 1) y := by
    intro hx hy he
    unfold roundBits
    rw [if_neg hx, if_neg hy, he]
    refine mul_le_mul_of_nonneg_right ?_ (zpow_pos two_pos _).le
    exact_mod_cast roundHalfEven_mono (mul_le_mul_of_nonneg_right h (zpow_pos two_pos _).le)
  have hpow : ∀ {a b : ℤ}, a < b → (2 : ℝ) ^ (a + 1) ≤ 2 ^ b := fun hab => zpow_le_zpow_right₀ one_le_two (by omega)
  rcases lt_trichotomy x 0 with hx | rfl | hx
  · obtain ⟨-, b1⟩ := (roundBits_between (q := q) hx.ne).2 hx
    have b2 : (0 : ℝ) < 2 ^ binExp x := zpow_pos two_pos _
    rcases lt_trichotomy y 0 with hy | rfl | hy
    · rcases (binExp_mono (x := y) (y := x) hy.ne (by rw [abs_of_neg hx, abs_of_neg hy]; linarith)).lt_or_eq with he | he
      · linarith [hpow he, ((roundBits_between (q := q) hy.ne).2 hy).1]
      · exact same hx.ne hy.ne he.symm
    · rw [roundBits_zero]; linarith
    · have b3 : (0 : ℝ) < 2 ^ binExp y := zpow_pos two_pos _
      linarith [((roundBits_between (q := q) hy.ne').1 hy).1]
  · rcases h.eq_or_lt with rfl | hy
    · exact le_rfl
    · have b3 : (0 : ℝ) < 2 ^ binExp y := zpow_pos two_pos _
      rw [roundBits_zero]
      linarith [((roundBits_between (q := q) hy.ne').1 hy).1]
  · have hy := hx.trans_le h
    rcases (binExp_mono (x := x) (y := y) hx.ne' (by rw [abs_of_pos hx, abs_of_pos hy]; exact h)).lt_or_eq with he | he
    · linarith [hpow he, ((roundBits_between (q := q) hx.ne').1 hx).2, ((roundBits_between (q := q) hy.ne').1 hy).1]
    · exact same hx.ne' hy.ne' he

/-- A rounded number has at most `p` significant bits. -/
theorem roundBits_form {p : ℕ} (hp : 1 ≤ p) (x : ℝ) : ∃ k e : ℤ, roundBits p x = k * 2 ^ e ∧ |(k : ℝ)| < 2 ^ p := by
  obtain ⟨q, rfl⟩ : ∃ q, p = q + 1 := ⟨p - 1, by omega⟩
  by_cases hx : x = 0
  · exact ⟨0, 0, by simp [hx], by simp⟩
  have h2 : (2 : ℝ) ≠ 0 := two_ne_zero
  obtain ⟨h3, h4⟩ := significand (q := q) hx
  unfold roundBits
  rw [if_neg hx]
  generalize roundHalfEven (x * 2 ^ (((q + 1 : ℕ) : ℤ) - 1 - binExp x)) = k at *
  generalize binExp x = e at *
  have h1 : |(k : ℝ)| ≤ 2 ^ (q + 1) := by
    have hq : (0 : ℝ) < 2 ^ q := by positivity
    have hq' : (0 : ℝ) < 2 ^ (q + 1) := by positivity
    rcases lt_or_gt_of_ne hx with hs | hs
    · obtain ⟨a, b⟩ := h4 hs
      have a' : -(2 : ℝ) ^ (q + 1) ≤ k := by exact_mod_cast a
      have b' : (k : ℝ) ≤ -2 ^ q := by exact_mod_cast b
      rw [abs_le]; constructor <;> linarith
    · obtain ⟨a, b⟩ := h3 hs
      have a' : (2 : ℝ) ^ q ≤ k := by exact_mod_cast a
      have b' : (k : ℝ) ≤ 2 ^ (q + 1) := by exact_mod_cast b
      rw [abs_le]; constructor <;> linarith
  rcases h1.lt_or_eq with h | h
  · exact ⟨k, _, rfl, h⟩
  · have e2 : (2 : ℝ) ^ (q + 1) * 2 ^ (e + 1 - ((q + 1 : ℕ) : ℤ)) = 2 ^ (e + 1) := by
      rw [← zpow_natCast, ← zpow_add₀ h2]; congr 1; push_cast; ring
    have h5 : (1 : ℝ) < 2 ^ (q + 1) := one_lt_pow₀ one_lt_two (by omega)
    rcases abs_eq (by positivity) |>.mp h with hk | hk
    · exact ⟨1, e + 1, by rw [hk, e2]; simp, by simpa using h5⟩
    · exact ⟨-1, e + 1, by rw [hk, neg_mul, e2]; simp, by simpa using h5⟩

/-- Rounding a second time changes nothing. -/
theorem roundBits_idem {p : ℕ} (hp : 1 ≤ p) (x : ℝ) : roundBits p (roundBits p x) = roundBits p x := by
  obtain ⟨k, e, h, hk⟩ := roundBits_form hp x
  rw [h, roundBits_exact k e hk]

/-- Halving is exact. -/
theorem roundBits_half {p : ℕ} (hp : 1 ≤ p) {x : ℝ} (hx : roundBits p x = x) : roundBits p (x / 2) = x / 2 := by
  obtain ⟨k, e, h, hk⟩ := roundBits_form hp x
  have h1 : x / 2 = k * 2 ^ (e - 1) := by
    rw [← hx, h, zpow_sub₀ two_ne_zero, zpow_one]; ring
  rw [h1, roundBits_exact k _ hk]

end Ellalgo
