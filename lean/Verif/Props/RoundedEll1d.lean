import Verif.Model.RoundedEll1d
import Verif.Spec.RoundedEll1d
import Verif.Spec.Rounding
import Verif.Props.Ell1d
import Verif.Props.RoundedConverge
import Mathlib.Tactic.Positivity
import Mathlib.Tactic.NormNum

/-!
# C127: `ell1d` in floating point

Both ends of the interval move by at most `10 u M` in an update, where `M` bounds `|xc| + |rd|`; the half-width may come out negative, and nothing here asks that it does not.
-/

namespace Ellalgo

open Spec

section
variable {A : Arith} {u γ : ℝ} {N : ℕ}

/-- The interval from its two ends: lines 22-23 and 105-106. -/
theorem Arith.ell1d_rebuild (hA : A.Accurate u γ N) (hu : 0 ≤ u) (hu1 : u ≤ 1 / 100) {lo up B : ℝ} (hl : |lo| ≤ B) (hp : |up| ≤ B) :
    |A.add lo (A.div (A.sub up lo) 2) - A.div (A.sub up lo) 2 - lo| ≤ 2 * (u * B) ∧ |A.add lo (A.div (A.sub up lo) 2) + A.div (A.sub up lo) 2 - up| ≤ 6 * (u * B) ∧
      |A.add lo (A.div (A.sub up lo) 2)| + |A.div (A.sub up lo) 2| ≤ B + 6 * (u * B) := by
  have hB : 0 ≤ B := (abs_nonneg _).trans hl
  have huB : 0 ≤ u * B := mul_nonneg hu hB
  have h1 := hA.rnd (up - lo)
  have h2 := hA.rnd (A.rnd (up - lo) / 2)
  have h3 := hA.rnd (lo + A.rnd (A.rnd (up - lo) / 2))
  simp only [Arith.add, Arith.sub, Arith.div]
  generalize A.rnd (up - lo) = s at *
  generalize A.rnd (s / 2) = r at *
  generalize A.rnd (lo + r) = x at *
  have hl' := abs_le.mp hl
  have hp' := abs_le.mp hp
  have k1 : |s - (up - lo)| ≤ 2 * (u * B) := by
    have : |up - lo| ≤ 2 * B := abs_le.mpr ⟨by linarith, by linarith⟩
    nlinarith
  have k1' := abs_le.mp k1
  have huB1 : u * B ≤ B / 100 := by nlinarith
  have k2 : |r - s / 2| ≤ 11 / 10 * (u * B) := by
    have : |s / 2| ≤ 11 / 10 * B := abs_le.mpr ⟨by linarith, by linarith⟩
    nlinarith
  have k2' := abs_le.mp k2
  have k3 : |x - (lo + r)| ≤ 11 / 10 * (u * B) := by
    have : |lo + r| ≤ 11 / 10 * B := abs_le.mpr ⟨by linarith, by linarith⟩
    nlinarith
  have k3' := abs_le.mp k3
  refine ⟨abs_le.mpr ⟨by linarith, by linarith⟩, abs_le.mpr ⟨by linarith, by linarith⟩, ?_⟩
  rcases abs_cases x with ⟨e1, -⟩ | ⟨e1, -⟩ <;> rcases abs_cases r with ⟨e2, -⟩ | ⟨e2, -⟩ <;> rw [e1, e2] <;> linarith

set_option maxHeartbeats 800000 in
/-- **C127, one update.** `M` bounds `|xc| + |rd|` before the call; no sign of `rd` is asked for. For a cut with nonzero gradient `update` does not raise, and `|xc| + |rd|` grows by a factor of at most `1 + 10 u`.
Unless it answers `NoSoln`: whatever was in the interval up to `δ` and is kept by the cut is in the new interval up to `δ + 10 u M`. If it answers `NoSoln`: whatever was in the interval up to `δ` and is kept by the cut
is within `δ + u M` of one point `p`, an end of the interval. -/
theorem Arith.C127_update (hA : A.Accurate u γ N) (hu : 0 ≤ u) (hu1 : u ≤ 1 / 100) (e : Ell1d) {M : ℝ} (hM : |e.xc| + |e.rd| ≤ M) (cut : ℝ × ℝ) (hg : cut.1 ≠ 0) (c : Bool) :
    ∃ e' s, A.ell1dUpdate e cut c = (e', .ok s) ∧ |e'.xc| + |e'.rd| ≤ M * (1 + 10 * u) ∧
      (s ≠ .noSoln → ∀ δ x, 0 ≤ δ → WithinBy δ e.xc e.rd x → x ∈ Ell1d.kept e.xc cut c → WithinBy (δ + 10 * u * M) e'.xc e'.rd x) ∧
      (s = .noSoln → ∃ p, ∀ δ x, 0 ≤ δ → WithinBy δ e.xc e.rd x → x ∈ Ell1d.kept e.xc cut c → |x - p| ≤ δ + u * M) := by
  obtain ⟨g, b⟩ := cut
  simp only at hg
  have hx0 := abs_nonneg e.xc
  have hr0 := abs_nonneg e.rd
  have hM0 : 0 ≤ M := by linarith
  have huM : 0 ≤ u * M := mul_nonneg hu hM0
  have hur : u * |e.rd| ≤ u * M := mul_le_mul_of_nonneg_left (by linarith) hu
  have huM1 : u * M ≤ M / 100 := by nlinarith
  have hgp : 0 < |g| := abs_pos.mpr hg
  have huuM : u * (u * M) ≤ 1 / 100 * (u * M) := mul_le_mul_of_nonneg_right hu1 huM
  by_cases hc : c = true ∨ b = 0
  · have hβ : (if c = true then 0 else b) = 0 := by
      rcases hc with h | h <;> simp [h]
    have he : A.ell1dUpdate e (g, b) c = ({ rd := A.div e.rd 2, xc := A.add e.xc (if g > 0 then -A.div e.rd 2 else A.div e.rd 2), tsq := A.mul |A.mul e.rd g| |A.mul e.rd g| }, .ok .success) := by
      simp only [Arith.ell1dUpdate, if_pos hc]
    rw [he]
    have h1 := hA.rnd (e.rd / 2)
    simp only [Arith.div, Arith.add] at *
    generalize A.rnd (e.rd / 2) = r at *
    have k1 : |r - e.rd / 2| ≤ 1 / 2 * (u * M) := by
      rw [abs_div, abs_two] at h1
      linarith
    have k1' := abs_le.mp k1
    have hxx := abs_le.mp (le_refl |e.xc|)
    have hrr := abs_le.mp (le_refl |e.rd|)
    have k2 : ∀ t, |t| ≤ M + u * M → |A.rnd t - t| ≤ 2 * (u * M) := fun t ht => by
      have := hA.rnd t
      have := mul_le_mul_of_nonneg_left ht hu
      linarith
    simp only [Ell1d.kept, Set.mem_ofPred_eq, hβ, add_zero]
    rcases lt_or_gt_of_ne hg with h | h
    · rw [if_neg (not_lt.mpr h.le)]
      have k3 := abs_le.mp (k2 (e.xc + r) (abs_le.mpr ⟨by linarith, by linarith⟩))
      generalize A.rnd (e.xc + r) = y at *
      refine ⟨_, _, rfl, ?_, fun _ δ x hδ hx hk => ?_, fun h => by simp at h⟩
      · simp only
        rcases abs_cases y with ⟨e1, -⟩ | ⟨e1, -⟩ <;> rcases abs_cases r with ⟨e2, -⟩ | ⟨e2, -⟩ <;> rw [e1, e2] <;> linarith
      · have : 0 ≤ x - e.xc := by
          by_contra hx
          exact absurd hk (not_le.mpr (mul_pos_of_neg_of_neg h (not_le.mp hx)))
        obtain ⟨a1, a2⟩ := hx
        exact ⟨by simp only; linarith, by simp only; linarith⟩
    · rw [if_pos h]
      have k3 := abs_le.mp (k2 (e.xc + -r) (abs_le.mpr ⟨by linarith, by linarith⟩))
      generalize A.rnd (e.xc + -r) = y at *
      refine ⟨_, _, rfl, ?_, fun _ δ x hδ hx hk => ?_, fun h => by simp at h⟩
      · simp only
        rcases abs_cases y with ⟨e1, -⟩ | ⟨e1, -⟩ <;> rcases abs_cases r with ⟨e2, -⟩ | ⟨e2, -⟩ <;> rw [e1, e2] <;> linarith
      · have : x - e.xc ≤ 0 := by
          by_contra hx
          exact absurd hk (not_le.mpr (mul_pos h (not_le.mp hx)))
        obtain ⟨a1, a2⟩ := hx
        exact ⟨by simp only; linarith, by simp only; linarith⟩
  · obtain ⟨hc1, hc2⟩ := not_or.mp hc
    have hc1' : c = false := by simpa using hc1
    subst hc1'
    have h1 := hA.rnd (e.rd * g)
    have hτ1 : (1 - u) * |e.rd| * |g| ≤ |A.rnd (e.rd * g)| := by
      have := abs_sub_abs_le_abs_sub (e.rd * g) (A.rnd (e.rd * g))
      rw [abs_sub_comm] at this
      rw [abs_mul] at h1 this
      linarith
    have hτ2 : |A.rnd (e.rd * g)| ≤ (1 + u) * |e.rd| * |g| := by
      have := abs_sub_abs_le_abs_sub (A.rnd (e.rd * g)) (e.rd * g)
      rw [abs_mul] at h1 this
      linarith
    simp only [Ell1d.kept, Set.mem_ofPred_eq, Bool.false_eq_true, if_false]
    have hrr := abs_le.mp (le_refl |e.rd|)
    have hxx := abs_le.mp (le_refl |e.xc|)
    simp only [Arith.ell1dUpdate, if_neg hc]
    by_cases q1 : b > |A.mul e.rd g|
    · rw [if_pos q1]
      refine ⟨_, _, rfl, by simp only; linarith, fun h => absurd rfl h, fun _ => ?_⟩
      simp only [Arith.mul] at q1
      rcases lt_or_gt_of_ne hg with h | h
      · refine ⟨e.xc + e.rd, fun δ x hδ hx hk => ?_⟩
        rw [abs_of_neg h] at hτ1
        have : (1 - u) * |e.rd| < x - e.xc := by
          by_contra hn
          nlinarith [mul_nonneg (neg_nonneg.mpr h.le) (sub_nonneg.mpr (not_lt.mp hn))]
        obtain ⟨a1, a2⟩ := hx
        exact abs_le.mpr ⟨by linarith, by linarith⟩
      · refine ⟨e.xc - e.rd, fun δ x hδ hx hk => ?_⟩
        rw [abs_of_pos h] at hτ1
        have : (1 - u) * |e.rd| < e.xc - x := by
          by_contra hn
          nlinarith [mul_nonneg h.le (sub_nonneg.mpr (not_lt.mp hn))]
        obtain ⟨a1, a2⟩ := hx
        exact abs_le.mpr ⟨by linarith, by linarith⟩
    rw [if_neg q1]
    by_cases q2 : b < -|A.mul e.rd g|
    · rw [if_pos q2]
      refine ⟨_, _, rfl, by simp only; linarith, fun _ δ x hδ hx _ => ?_, fun h => by simp at h⟩
      obtain ⟨a1, a2⟩ := hx
      exact ⟨by simp only; linarith, by simp only; linarith⟩
    rw [if_neg q2]
    simp only [Arith.pdiv, if_neg hg]
    have hb : |b / g| ≤ (1 + u) * |e.rd| := by
      rw [abs_div, div_le_iff₀ hgp]
      exact (abs_le.mpr ⟨not_lt.mp q2, not_lt.mp q1⟩).trans hτ2
    have h2 := hA.rnd (b / g)
    have k2 : |A.div b g - b / g| ≤ u * ((1 + u) * |e.rd|) := h2.trans (mul_le_mul_of_nonneg_left hb hu)
    have huu : u * (u * |e.rd|) ≤ 1 / 100 * (u * M) := (mul_le_mul_of_nonneg_left hur hu).trans huuM
    have k2' : |A.div b g - b / g| ≤ 11 / 10 * (u * M) := by linarith
    have hb' := abs_le.mp hb
    have k3 := abs_le.mp k2
    have k3' := abs_le.mp k2'
    generalize A.div b g = q at *
    have hbd : |e.xc - q| ≤ M + 21 / 10 * (u * M) := abs_le.mpr ⟨by linarith, by linarith⟩
    have hmul : ∀ t, |t| ≤ M + 21 / 10 * (u * M) → |A.rnd t - t| ≤ 11 / 10 * (u * M) := fun t ht => by
      have := hA.rnd t
      have := mul_le_mul_of_nonneg_left ht hu
      linarith
    have k4 := abs_le.mp (hmul _ hbd)
    have hbd' := abs_le.mp hbd
    have hl := hmul (e.xc - e.rd) (abs_le.mpr ⟨by linarith, by linarith⟩)
    have hp := hmul (e.xc + e.rd) (abs_le.mpr ⟨by linarith, by linarith⟩)
    have hl' := abs_le.mp hl
    have hp' := abs_le.mp hp
    have b1 : |A.sub e.xc q| ≤ M + 33 / 10 * (u * M) := abs_le.mpr ⟨by simp only [Arith.sub]; linarith, by simp only [Arith.sub]; linarith⟩
    have b2 : |A.sub e.xc e.rd| ≤ M + 33 / 10 * (u * M) := abs_le.mpr ⟨by simp only [Arith.sub]; linarith, by simp only [Arith.sub]; linarith⟩
    have b3 : |A.add e.xc e.rd| ≤ M + 33 / 10 * (u * M) := abs_le.mpr ⟨by simp only [Arith.add]; linarith, by simp only [Arith.add]; linarith⟩
    have huu2 : u * (M + 33 / 10 * (u * M)) ≤ 11 / 10 * (u * M) := by linarith
    rcases lt_or_gt_of_ne hg with h | h
    · simp only [gt_iff_lt, not_lt.mpr h.le, if_false]
      obtain ⟨c1, c2, c3⟩ := Arith.ell1d_rebuild hA hu hu1 b1 b3
      refine ⟨_, _, rfl, by simp only; linarith, fun _ δ x hδ hx hk => ?_, fun h => by simp at h⟩
      have : e.xc - b / g ≤ x := by
        have : (x - e.xc + b / g) * g ≤ 0 := by rw [add_mul, div_mul_cancel₀ _ hg]; linarith
        by_contra hn
        exact absurd this (not_le.mpr (mul_pos_of_neg_of_neg (by linarith) h))
      obtain ⟨a1, a2⟩ := hx
      have c1' := abs_le.mp c1
      have c2' := abs_le.mp c2
      have e1 : A.sub e.xc q = A.rnd (e.xc - q) := rfl
      have e2 : A.add e.xc e.rd = A.rnd (e.xc + e.rd) := rfl
      exact ⟨by simp only; linarith, by simp only; linarith⟩
    · simp only [gt_iff_lt, h, if_true]
      obtain ⟨c1, c2, c3⟩ := Arith.ell1d_rebuild hA hu hu1 b2 b1
      refine ⟨_, _, rfl, by simp only; linarith, fun _ δ x hδ hx hk => ?_, fun h => by simp at h⟩
      have : x ≤ e.xc - b / g := by
        have : (x - e.xc + b / g) * g ≤ 0 := by rw [add_mul, div_mul_cancel₀ _ hg]; linarith
        by_contra hn
        exact absurd this (not_le.mpr (mul_pos (by linarith) h))
      obtain ⟨a1, a2⟩ := hx
      have c1' := abs_le.mp c1
      have c2' := abs_le.mp c2
      have e1 : A.sub e.xc q = A.rnd (e.xc - q) := rfl
      have e2 : A.sub e.xc e.rd = A.rnd (e.xc - e.rd) := rfl
      exact ⟨by simp only; linarith, by simp only; linarith⟩

set_option maxHeartbeats 800000 in
/-- After `Success` the two ends are those of exact arithmetic up to `9 u M`, and the cut goes through the interval up to `u |rd|`. -/
theorem Arith.ell1d_ends (hA : A.Accurate u γ N) (hu : 0 ≤ u) (hu1 : u ≤ 1 / 100) (e : Ell1d) {M : ℝ} (hM : |e.xc| + |e.rd| ≤ M) {g b : ℝ} (hg : g ≠ 0) {c : Bool} {e' : Ell1d} (h : A.ell1dUpdate e (g, b) c = (e', .ok .success)) :
    |(if c then 0 else b) / g| ≤ (1 + u) * |e.rd| ∧
      (0 < g → |e'.xc - e'.rd - (e.xc - e.rd)| ≤ 9 * (u * M) ∧ |e'.xc + e'.rd - (e.xc - (if c then 0 else b) / g)| ≤ 9 * (u * M)) ∧
      (g < 0 → |e'.xc - e'.rd - (e.xc - (if c then 0 else b) / g)| ≤ 9 * (u * M) ∧ |e'.xc + e'.rd - (e.xc + e.rd)| ≤ 9 * (u * M)) := by
  have hx0 := abs_nonneg e.xc
  have hr0 := abs_nonneg e.rd
  have hM0 : 0 ≤ M := by linarith
  have huM : 0 ≤ u * M := mul_nonneg hu hM0
  have hur : u * |e.rd| ≤ u * M := mul_le_mul_of_nonneg_left (by linarith) hu
  have hur0 : 0 ≤ u * |e.rd| := mul_nonneg hu hr0
  have huM1 : u * M ≤ M / 100 := by nlinarith
  have hgp : 0 < |g| := abs_pos.mpr hg
  have huuM : u * (u * M) ≤ 1 / 100 * (u * M) := mul_le_mul_of_nonneg_right hu1 huM
  have hrr := abs_le.mp (le_refl |e.rd|)
  have hxx := abs_le.mp (le_refl |e.xc|)
  by_cases hc : c = true ∨ b = 0
  · have hβ : (if c = true then 0 else b) = 0 := by
      rcases hc with h | h <;> simp [h]
    simp only [Arith.ell1dUpdate, if_pos hc, Prod.mk.injEq, and_true] at h
    subst h
    rw [hβ, zero_div, abs_zero]
    have h1 := hA.rnd (e.rd / 2)
    simp only [Arith.div, Arith.add] at *
    generalize A.rnd (e.rd / 2) = r at *
    have k1 : |r - e.rd / 2| ≤ 1 / 2 * (u * M) := by
      rw [abs_div, abs_two] at h1
      linarith
    have k1' := abs_le.mp k1
    have k2 : ∀ t, |t| ≤ M + u * M → |A.rnd t - t| ≤ 2 * (u * M) := fun t ht => by
      have := hA.rnd t
      have := mul_le_mul_of_nonneg_left ht hu
      linarith
    refine ⟨by linarith, fun h => ?_, fun h => ?_⟩
    · rw [if_pos h]
      have k3 := abs_le.mp (k2 (e.xc + -r) (abs_le.mpr ⟨by linarith, by linarith⟩))
      exact ⟨abs_le.mpr ⟨by linarith, by linarith⟩, abs_le.mpr ⟨by linarith, by linarith⟩⟩
    · rw [if_neg (not_lt.mpr h.le)]
      have k3 := abs_le.mp (k2 (e.xc + r) (abs_le.mpr ⟨by linarith, by linarith⟩))
      exact ⟨abs_le.mpr ⟨by linarith, by linarith⟩, abs_le.mpr ⟨by linarith, by linarith⟩⟩
  · obtain ⟨hc1, hc2⟩ := not_or.mp hc
    have hc1' : c = false := by simpa using hc1
    subst hc1'
    have h1 := hA.rnd (e.rd * g)
    have hτ2 : |A.rnd (e.rd * g)| ≤ (1 + u) * |e.rd| * |g| := by
      have := abs_sub_abs_le_abs_sub (A.rnd (e.rd * g)) (e.rd * g)
      rw [abs_mul] at h1 this
      linarith
    simp only [Arith.ell1dUpdate, if_neg hc] at h
    by_cases q1 : b > |A.mul e.rd g|
    · rw [if_pos q1] at h
      simp at h
    rw [if_neg q1] at h
    by_cases q2 : b < -|A.mul e.rd g|
    · rw [if_pos q2] at h
      simp at h
    rw [if_neg q2] at h
    simp only [Arith.pdiv, if_neg hg, Prod.mk.injEq, and_true] at h
    simp only [Bool.false_eq_true, if_false]
    have hb : |b / g| ≤ (1 + u) * |e.rd| := by
      rw [abs_div, div_le_iff₀ hgp]
      exact (abs_le.mpr ⟨not_lt.mp q2, not_lt.mp q1⟩).trans hτ2
    refine ⟨hb, ?_⟩
    have h2 := hA.rnd (b / g)
    have k2 : |A.div b g - b / g| ≤ u * ((1 + u) * |e.rd|) := h2.trans (mul_le_mul_of_nonneg_left hb hu)
    have huu : u * (u * |e.rd|) ≤ 1 / 100 * (u * M) := (mul_le_mul_of_nonneg_left hur hu).trans huuM
    have k2' : |A.div b g - b / g| ≤ 101 / 100 * (u * M) := by linarith
    have hb' := abs_le.mp hb
    have k3' := abs_le.mp k2'
    generalize A.div b g = q at *
    have hbd : |e.xc - q| ≤ M + 21 / 10 * (u * M) := abs_le.mpr ⟨by linarith, by linarith⟩
    have hmul : ∀ t, |t| ≤ M + 21 / 10 * (u * M) → |A.rnd t - t| ≤ 11 / 10 * (u * M) := fun t ht => by
      have := hA.rnd t
      have := mul_le_mul_of_nonneg_left ht hu
      linarith
    have k4 := abs_le.mp (hmul _ hbd)
    have hbd' := abs_le.mp hbd
    have hl' := abs_le.mp (hmul (e.xc - e.rd) (abs_le.mpr ⟨by linarith, by linarith⟩))
    have hp' := abs_le.mp (hmul (e.xc + e.rd) (abs_le.mpr ⟨by linarith, by linarith⟩))
    have b1 : |A.sub e.xc q| ≤ M + 33 / 10 * (u * M) := abs_le.mpr ⟨by simp only [Arith.sub]; linarith, by simp only [Arith.sub]; linarith⟩
    have b2 : |A.sub e.xc e.rd| ≤ M + 33 / 10 * (u * M) := abs_le.mpr ⟨by simp only [Arith.sub]; linarith, by simp only [Arith.sub]; linarith⟩
    have b3 : |A.add e.xc e.rd| ≤ M + 33 / 10 * (u * M) := abs_le.mpr ⟨by simp only [Arith.add]; linarith, by simp only [Arith.add]; linarith⟩
    have huu2 : u * (M + 33 / 10 * (u * M)) ≤ 104 / 100 * (u * M) := by linarith
    have e1 : A.sub e.xc q = A.rnd (e.xc - q) := rfl
    have e2 : A.sub e.xc e.rd = A.rnd (e.xc - e.rd) := rfl
    have e3 : A.add e.xc e.rd = A.rnd (e.xc + e.rd) := rfl
    refine ⟨fun hp => ?_, fun hp => ?_⟩
    · simp only [gt_iff_lt, hp, if_true] at h
      subst h
      obtain ⟨c1, c2, c3⟩ := Arith.ell1d_rebuild hA hu hu1 b2 b1
      have c1' := abs_le.mp c1
      have c2' := abs_le.mp c2
      exact ⟨abs_le.mpr ⟨by simp only; linarith, by simp only; linarith⟩, abs_le.mpr ⟨by simp only; linarith, by simp only; linarith⟩⟩
    · simp only [gt_iff_lt, not_lt.mpr hp.le, if_false] at h
      subst h
      obtain ⟨c1, c2, c3⟩ := Arith.ell1d_rebuild hA hu hu1 b1 b3
      have c1' := abs_le.mp c1
      have c2' := abs_le.mp c2
      exact ⟨abs_le.mpr ⟨by simp only; linarith, by simp only; linarith⟩, abs_le.mpr ⟨by simp only; linarith, by simp only; linarith⟩⟩

/-- A run of updates in the arithmetic `A`: after the cuts `l` (each with the centre it was made at) none of which answered `NoSoln`. -/
inductive Arith.Ell1dRun (A : Arith) (e : Ell1d) : List (ℝ × (ℝ × ℝ) × Bool) → Ell1d → Prop
  | start : Ell1dRun A e [] e
  | step {l e1 e2 cut c st} : Ell1dRun A e l e1 → A.ell1dUpdate e1 cut c = (e2, .ok st) → st ≠ .noSoln → Ell1dRun A e (l ++ [(e1.xc, cut, c)]) e2

theorem ell1d_drift_succ (u B : ℝ) (k : ℕ) : drift u B (k + 1) = drift u B k + 10 * u * (B * (1 + 10 * u) ^ (k + 1)) := by
  simp only [drift]; ring

theorem ell1d_drift_nonneg {u B : ℝ} (hu : 0 ≤ u) (hB : 0 ≤ B) (k : ℕ) : 0 ≤ drift u B k :=
  mul_nonneg hB (sub_nonneg.mpr (one_le_pow₀ (by linarith)))

/-- The drift is about `10 (k + 1) u B`. -/
theorem ell1d_drift_le {u B : ℝ} (hu : 0 ≤ u) (hB : 0 ≤ B) {k : ℕ} (hk : 20 * (k + 1) * u ≤ 1) : drift u B k ≤ 20 * (k + 1) * u * B := by
  have hk0 : (0 : ℝ) ≤ k := Nat.cast_nonneg k
  have h10 : 10 * u ≤ 1 := by nlinarith
  have h1 := one_add_mul_le_pow (show (-2 : ℝ) ≤ -(10 * u) by linarith) (k + 1)
  push_cast at h1
  have h2 : (1 + 10 * u) ^ (k + 1) * (1 + -(10 * u)) ^ (k + 1) ≤ 1 := by
    rw [← mul_pow]
    exact pow_le_one₀ (by nlinarith) (by nlinarith)
  have h3 : 1 ≤ (1 + 10 * u) ^ (k + 1) := one_le_pow₀ (by linarith)
  have h4 : (1 + 10 * u) ^ (k + 1) - 1 ≤ 20 * (k + 1) * u := by
    generalize (1 + 10 * u) ^ (k + 1) = a at *
    generalize (1 + -(10 * u)) ^ (k + 1) = b at *
    have h5 : a * (1 - 10 * (k + 1) * u) ≤ 1 := by nlinarith
    have h6 : a ≤ 2 := by nlinarith
    nlinarith [mul_nonneg (mul_nonneg (show (0 : ℝ) ≤ 10 by norm_num) (show (0 : ℝ) ≤ k + 1 by linarith)) hu]
  simp only [drift]
  nlinarith

/-- A run keeps what all cuts keep, up to the drift. -/
theorem Arith.Ell1dRun.facts (hA : A.Accurate u γ N) (hu : 0 ≤ u) (hu1 : u ≤ 1 / 100) {l r B : ℝ} (hl : |l| ≤ B) (hr : |r| ≤ B) {hist : List (ℝ × (ℝ × ℝ) × Bool)} {e : Ell1d}
    (h : A.Ell1dRun (A.ell1dInit l r) hist e) (hg : ∀ c ∈ hist, c.2.1.1 ≠ 0) :
    |e.xc| + |e.rd| ≤ B * (1 + 10 * u) ^ (hist.length + 1) ∧
      ∀ x, l ≤ x → x ≤ r → (∀ c ∈ hist, x ∈ Ell1d.kept c.1 c.2.1 c.2.2) → WithinBy (drift u B hist.length) e.xc e.rd x := by
  have hB : 0 ≤ B := (abs_nonneg _).trans hl
  have huB : 0 ≤ u * B := mul_nonneg hu hB
  induction h with
  | start =>
    obtain ⟨h1, h2, h3⟩ := Arith.ell1d_rebuild hA hu hu1 hl hr
    simp only [Arith.ell1dInit, List.length_nil, zero_add, pow_one, drift]
    refine ⟨by linarith, fun x hx1 hx2 _ => ?_⟩
    have h1' := abs_le.mp h1
    have h2' := abs_le.mp h2
    exact ⟨by linarith, by linarith⟩
  | @step hist e1 e2 cut c s _ h2 h3 ih =>
    obtain ⟨i1, i2⟩ := ih fun c hc => hg c (List.mem_append_left _ hc)
    obtain ⟨e', s', k1, k2, k3, -⟩ := Arith.C127_update hA hu hu1 e1 i1 cut (hg (e1.xc, cut, c) (by simp)) c
    rw [h2] at k1
    simp only [Prod.mk.injEq, Except.ok.injEq] at k1
    obtain ⟨rfl, rfl⟩ := k1
    simp only [List.length_append, List.length_cons, List.length_nil, zero_add]
    refine ⟨k2.trans (le_of_eq (by ring)), fun x hx1 hx2 hk => ?_⟩
    rw [ell1d_drift_succ]
    exact k3 h3 _ x (ell1d_drift_nonneg hu hB _) (i2 x hx1 hx2 fun c hc => hk c (List.mem_append_left _ hc)) (hk (e1.xc, cut, c) (by simp))

/-- **C127, histories.** `ell1d((l, r))` with both ends in `[-B, B]` and then `k` updates with nonzero gradients none of which answered `NoSoln`, every operation with a relative error of at most `u ≤ 1 / 100`: all points of
`[l, r]` that all cuts keep are in `[xc - rd, xc + rd]` up to `drift u B k`. The next update does not raise, and if it answers `NoSoln`, the points that all cuts including the last one keep are all within
`drift u B (k + 1)` of one point. -/
theorem Arith.C127_history (hA : A.Accurate u γ N) (hu : 0 ≤ u) (hu1 : u ≤ 1 / 100) {l r B : ℝ} (hl : |l| ≤ B) (hr : |r| ≤ B) {hist : List (ℝ × (ℝ × ℝ) × Bool)} {e : Ell1d}
    (h : A.Ell1dRun (A.ell1dInit l r) hist e) (hg : ∀ c ∈ hist, c.2.1.1 ≠ 0) :
    (∀ x, l ≤ x → x ≤ r → (∀ c ∈ hist, x ∈ Ell1d.kept c.1 c.2.1 c.2.2) → WithinBy (drift u B hist.length) e.xc e.rd x) ∧
      ∀ cut c, cut.1 ≠ 0 → ∃ e' s, A.ell1dUpdate e cut c = (e', .ok s) ∧
        (s = .noSoln → ∃ p, ∀ x, l ≤ x → x ≤ r → (∀ c ∈ hist, x ∈ Ell1d.kept c.1 c.2.1 c.2.2) → x ∈ Ell1d.kept e.xc cut c → |x - p| ≤ drift u B (hist.length + 1)) := by
  have hB : 0 ≤ B := (abs_nonneg _).trans hl
  obtain ⟨h1, h2⟩ := h.facts hA hu hu1 hl hr hg
  refine ⟨h2, fun cut c hc => ?_⟩
  obtain ⟨e', s, k1, -, -, k4⟩ := Arith.C127_update hA hu hu1 e h1 cut hc c
  refine ⟨e', s, k1, fun hs => ?_⟩
  obtain ⟨p, hp⟩ := k4 hs
  refine ⟨p, fun x hx1 hx2 hk hk2 => (hp _ x (ell1d_drift_nonneg hu hB _) (h2 x hx1 hx2 hk) hk2).trans ?_⟩
  rw [ell1d_drift_succ]
  have : 0 ≤ u * (B * (1 + 10 * u) ^ (hist.length + 1)) := mul_nonneg hu (mul_nonneg hB (pow_nonneg (by linarith) _))
  linarith

/-- One update: what is left lies in the old interval and satisfies the cut, up to rounding and to a negative half-width. -/
theorem Arith.ell1d_sound (hA : A.Accurate u γ N) (hu : 0 ≤ u) (hu1 : u ≤ 1 / 100) (e : Ell1d) {M η : ℝ} (hM : |e.xc| + |e.rd| ≤ M) (hη : 0 ≤ η) (hrd : -η ≤ e.rd) {g b : ℝ} (hg : g ≠ 0) {c : Bool} {e' : Ell1d} {s : CutStatus}
    (h : A.ell1dUpdate e (g, b) c = (e', .ok s)) (hs : s ≠ .noSoln) :
    -(η + 10 * u * M) ≤ e'.rd ∧ ∀ x δ, 0 ≤ δ → |x - e'.xc| ≤ |e'.rd| + δ →
      |x - e.xc| ≤ |e.rd| + (δ + 10 * u * M) ∧ g * (x - e.xc) + (if c then 0 else b) ≤ |g| * (δ + 10 * u * M + 2 * η) := by
  have hx0 := abs_nonneg e.xc
  have hr0 := abs_nonneg e.rd
  have hM0 : 0 ≤ M := by linarith
  have huM : 0 ≤ u * M := mul_nonneg hu hM0
  have hur : u * |e.rd| ≤ u * M := mul_le_mul_of_nonneg_left (by linarith) hu
  have hrr := abs_le.mp (le_refl |e.rd|)
  have hη2 : |e.rd| - e.rd ≤ 2 * η := by
    rcases abs_cases e.rd with ⟨h1, -⟩ | ⟨h1, -⟩ <;> rw [h1] <;> linarith
  have hgp : 0 < |g| := abs_pos.mpr hg
  cases s with
  | noSoln => exact absurd rfl hs
  | success =>
    obtain ⟨h1, h2, h3⟩ := Arith.ell1d_ends hA hu hu1 e hM hg h
    have h1' := abs_le.mp h1
    have hcut : g * ((if c then 0 else b) / g) = (if c then 0 else b) := mul_div_cancel₀ _ hg
    generalize (if c then 0 else b) = β at *
    generalize β / g = t at *
    rcases lt_or_gt_of_ne hg with h | h
    · obtain ⟨a1, a2⟩ := h3 h
      have a1' := abs_le.mp a1
      have a2' := abs_le.mp a2
      refine ⟨by linarith, fun x δ hδ hx => ?_⟩
      have hx' := abs_le.mp hx
      have hlo : e.xc - t - (δ + 10 * u * M + 2 * η) ≤ x := by
        rcases abs_cases e'.rd with ⟨q, -⟩ | ⟨q, -⟩ <;> rw [q] at hx' <;> linarith
      refine ⟨abs_le.mpr ?_, ?_⟩
      · rcases abs_cases e'.rd with ⟨q, -⟩ | ⟨q, -⟩ <;> rw [q] at hx' <;> exact ⟨by linarith, by linarith⟩
      · rw [abs_of_neg h, ← hcut]
        nlinarith
    · obtain ⟨a1, a2⟩ := h2 h
      have a1' := abs_le.mp a1
      have a2' := abs_le.mp a2
      refine ⟨by linarith, fun x δ hδ hx => ?_⟩
      have hx' := abs_le.mp hx
      have hlo : x ≤ e.xc - t + (δ + 10 * u * M + 2 * η) := by
        rcases abs_cases e'.rd with ⟨q, -⟩ | ⟨q, -⟩ <;> rw [q] at hx' <;> linarith
      refine ⟨abs_le.mpr ?_, ?_⟩
      · rcases abs_cases e'.rd with ⟨q, -⟩ | ⟨q, -⟩ <;> rw [q] at hx' <;> exact ⟨by linarith, by linarith⟩
      · rw [abs_of_pos h, ← hcut]
        nlinarith
  | unknown =>
    simp only [Arith.ell1dUpdate, Arith.pdiv, if_neg hg] at h
    split_ifs at h <;> simp at h
  | noEffect =>
    by_cases hc : c = true ∨ b = 0
    · simp [Arith.ell1dUpdate, if_pos hc] at h
    have hc1' : c = false := by simpa using (not_or.mp hc).1
    subst hc1'
    simp only [Arith.ell1dUpdate, if_neg hc] at h
    by_cases q1 : b > |A.mul e.rd g|
    · rw [if_pos q1] at h
      simp at h
    rw [if_neg q1] at h
    by_cases q2 : b < -|A.mul e.rd g|
    · rw [if_pos q2] at h
      simp only [Prod.mk.injEq, and_true] at h
      subst h
      refine ⟨by simp only; linarith, fun x δ hδ hx => ⟨by simp only at hx; linarith, ?_⟩⟩
      simp only at hx
      simp only [Bool.false_eq_true, if_false]
      have hτ1 : (1 - u) * |e.rd| * |g| ≤ |A.mul e.rd g| := by
        have h1 := hA.rnd (e.rd * g)
        have := abs_sub_abs_le_abs_sub (e.rd * g) (A.rnd (e.rd * g))
        rw [abs_sub_comm] at this
        rw [abs_mul] at h1 this
        simp only [Arith.mul]
        linarith
      have h4 : g * (x - e.xc) ≤ |g| * (|e.rd| + δ) := (le_abs_self _).trans (by rw [abs_mul]; exact mul_le_mul_of_nonneg_left hx hgp.le)
      have h5 : |g| * (u * |e.rd|) ≤ |g| * (10 * u * M + 2 * η) := mul_le_mul_of_nonneg_left (by linarith) hgp.le
      linarith
    rw [if_neg q2] at h
    simp only [Arith.pdiv, if_neg hg, Prod.mk.injEq, Except.ok.injEq, reduceCtorEq, and_false] at h

/-- **C127, soundness.** In the same histories, with `l ≤ r`: every `x` of `[xc - rd, xc + rd]` lies in `[l, r]` up to `drift u B k` and satisfies every cut that was made up to `2 |grad| drift u B k`; and `rd` is at least `-drift u B k`. -/
theorem Arith.C127_sound (hA : A.Accurate u γ N) (hu : 0 ≤ u) (hu1 : u ≤ 1 / 100) {l r B : ℝ} (hlr : l ≤ r) (hl : |l| ≤ B) (hr : |r| ≤ B) {hist : List (ℝ × (ℝ × ℝ) × Bool)} {e : Ell1d}
    (h : A.Ell1dRun (A.ell1dInit l r) hist e) (hg : ∀ c ∈ hist, c.2.1.1 ≠ 0) :
    -drift u B hist.length ≤ e.rd ∧ ∀ x, e.xc - e.rd ≤ x → x ≤ e.xc + e.rd →
      (l - drift u B hist.length ≤ x ∧ x ≤ r + drift u B hist.length) ∧
      ∀ c ∈ hist, c.2.1.1 * (x - c.1) + (if c.2.2 then 0 else c.2.1.2) ≤ |c.2.1.1| * (2 * drift u B hist.length) := by
  have hB : 0 ≤ B := (abs_nonneg _).trans hl
  have huB : 0 ≤ u * B := mul_nonneg hu hB
  have key : -drift u B hist.length ≤ e.rd ∧ ∀ x δ, 0 ≤ δ → |x - e.xc| ≤ |e.rd| + δ →
      (l - (δ + drift u B hist.length) ≤ x ∧ x ≤ r + (δ + drift u B hist.length)) ∧
      ∀ c ∈ hist, c.2.1.1 * (x - c.1) + (if c.2.2 then 0 else c.2.1.2) ≤ |c.2.1.1| * (δ + 2 * drift u B hist.length) := by
    induction h with
    | start =>
      obtain ⟨h1, h2, h3⟩ := Arith.ell1d_rebuild hA hu hu1 hl hr
      simp only [Arith.ell1dInit, List.length_nil, zero_add, pow_one, drift]
      have h1' := abs_le.mp h1
      have h2' := abs_le.mp h2
      generalize A.div (A.sub r l) 2 = d at *
      generalize A.add l d = y at *
      refine ⟨by linarith, fun x δ hδ hx => ⟨?_, by simp⟩⟩
      have hx' := abs_le.mp hx
      rcases abs_cases d with ⟨q, -⟩ | ⟨q, -⟩ <;> rw [q] at hx' <;> exact ⟨by linarith, by linarith⟩
    | @step hist e1 e2 cut c s hrun h2 h3 ih =>
      have hg' : ∀ c ∈ hist, c.2.1.1 ≠ 0 := fun c hc => hg c (List.mem_append_left _ hc)
      obtain ⟨i1, i2⟩ := ih hg'
      obtain ⟨f1, -⟩ := hrun.facts hA hu hu1 hl hr hg'
      have hd0 := ell1d_drift_nonneg hu hB hist.length
      obtain ⟨g, b⟩ := cut
      obtain ⟨k1, k2⟩ := Arith.ell1d_sound hA hu hu1 e1 f1 hd0 i1 (hg (e1.xc, (g, b), c) (by simp)) h2 h3
      simp only [List.length_append, List.length_cons, List.length_nil, zero_add]
      have hds := ell1d_drift_succ u B hist.length
      have hM0 : 0 ≤ 10 * u * (B * (1 + 10 * u) ^ (hist.length + 1)) := mul_nonneg (by linarith) (mul_nonneg hB (pow_nonneg (by linarith) _))
      refine ⟨by linarith, fun x δ hδ hx => ?_⟩
      obtain ⟨m1, m2⟩ := k2 x δ hδ hx
      obtain ⟨n1, n2⟩ := i2 x _ (by linarith) m1
      refine ⟨⟨by linarith [n1.1], by linarith [n1.2]⟩, fun d hd => ?_⟩
      rcases List.mem_append.mp hd with hd | hd
      · exact (n2 d hd).trans (mul_le_mul_of_nonneg_left (by linarith) (abs_nonneg _))
      · simp only [List.mem_singleton] at hd
        subst hd
        exact m2.trans (mul_le_mul_of_nonneg_left (by linarith) (abs_nonneg _))
  refine ⟨key.1, fun x hx1 hx2 => ?_⟩
  have hrd : 0 ≤ e.rd := by linarith
  have := key.2 x 0 le_rfl (by rw [abs_of_nonneg hrd, abs_le]; exact ⟨by linarith, by linarith⟩)
  simpa only [zero_add] using this

/-- **C127, `NoSoln`.** If two points of `[l, r]` that all cuts keep are further apart than twice the drift, `NoSoln` is not answered. -/
theorem Arith.C127_no_false_alarm (hA : A.Accurate u γ N) (hu : 0 ≤ u) (hu1 : u ≤ 1 / 100) {l r B : ℝ} (hl : |l| ≤ B) (hr : |r| ≤ B) {hist : List (ℝ × (ℝ × ℝ) × Bool)} {e : Ell1d}
    (h : A.Ell1dRun (A.ell1dInit l r) hist e) (hg : ∀ c ∈ hist, c.2.1.1 ≠ 0) {x y : ℝ} (hx : l ≤ x ∧ x ≤ r) (hy : l ≤ y ∧ y ≤ r) (hxy : 2 * drift u B (hist.length + 1) < y - x)
    (hkx : ∀ c ∈ hist, x ∈ Ell1d.kept c.1 c.2.1 c.2.2) (hky : ∀ c ∈ hist, y ∈ Ell1d.kept c.1 c.2.1 c.2.2) {cut : ℝ × ℝ} {c : Bool} (hc : cut.1 ≠ 0)
    (hx' : x ∈ Ell1d.kept e.xc cut c) (hy' : y ∈ Ell1d.kept e.xc cut c) :
    ∃ e' s, A.ell1dUpdate e cut c = (e', .ok s) ∧ s ≠ .noSoln := by
  obtain ⟨-, h2⟩ := Arith.C127_history hA hu hu1 hl hr h hg
  obtain ⟨e', s, k1, k2⟩ := h2 cut c hc
  refine ⟨e', s, k1, fun hs => ?_⟩
  obtain ⟨p, hp⟩ := k2 hs
  have p1 := abs_le.mp (hp x hx.1 hx.2 hkx hx')
  have p2 := abs_le.mp (hp y hy.1 hy.2 hky hy')
  linarith

/-- The hypotheses of `C127_no_false_alarm` are met: doubles, the interval `[0, 1]`, its two ends, and a cut that keeps both. -/
example : ∃ e : Ell1d, (Arith.ieee 53).Ell1dRun ((Arith.ieee 53).ell1dInit 0 1) [] e ∧ 2 * drift (2⁻¹ ^ 53) 1 1 < 1 - 0 ∧ (0 : ℝ) ∈ Ell1d.kept e.xc (1, -3) false ∧ (1 : ℝ) ∈ Ell1d.kept e.xc (1, -3) false := by
  have hA := Arith.ieee_accurate 53 0
  obtain ⟨-, -, h3⟩ := Arith.ell1d_rebuild hA (by positivity) (by norm_num) (lo := 0) (up := 1) (B := 1) (by norm_num) (by norm_num)
  have hd := ell1d_drift_le (u := 2⁻¹ ^ 53) (B := 1) (k := 1) (by positivity) (by norm_num) (by norm_num)
  have hx : |((Arith.ieee 53).ell1dInit 0 1).xc| ≤ 1 + 6 * (2⁻¹ ^ 53 * 1) := by
    have := abs_nonneg ((Arith.ieee 53).ell1dInit 0 1).rd
    simp only [Arith.ell1dInit] at this ⊢
    linarith
  obtain ⟨hx1, hx2⟩ := abs_le.mp hx
  norm_num at hd hx1 hx2
  refine ⟨_, .start, by norm_num; linarith, ?_, ?_⟩ <;> simp only [Ell1d.kept, Set.mem_ofPred_eq, Bool.false_eq_true, if_false] <;> linarith

end

end Ellalgo
