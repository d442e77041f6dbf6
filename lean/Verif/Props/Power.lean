import Verif.Spec.Power
import Mathlib.Analysis.Real.Sqrt
import Mathlib.LinearAlgebra.Matrix.DotProduct
import Mathlib.Algebra.Order.BigOperators.Group.Finset

/-! # C85: what the four power iterations of `experiment/power_iteration.py` compute -/

namespace Ellalgo

open Matrix Spec

variable {n : ℕ}

theorem dotProduct_self_pos {v : Vec n} (hv : v ≠ 0) : 0 < v ⬝ᵥ v := by
  have h : 0 ≤ v ⬝ᵥ v := Finset.sum_nonneg fun i _ => mul_self_nonneg (v i)
  exact lt_of_le_of_ne h fun h0 => hv (dotProduct_self_eq_zero.mp h0.symm)

theorem sum_sq_eq (v : Vec n) : ∑ i, v i ^ 2 = v ⬝ᵥ v := Finset.sum_congr rfl fun i _ => sq (v i)

theorem normL1_eq_zero {v : Vec n} : normL1 v = 0 ↔ v = 0 := by
  unfold normL1
  rw [Finset.sum_eq_zero_iff_of_nonneg fun i _ => abs_nonneg _]
  constructor
  · intro h; funext i; simpa using h i (Finset.mem_univ i)
  · rintro rfl i _; simp

theorem normL1_pos {v : Vec n} (hv : v ≠ 0) : 0 < normL1 v :=
  lt_of_le_of_ne (Finset.sum_nonneg fun _ _ => abs_nonneg _) fun h => hv (normL1_eq_zero.mp h.symm)

theorem normL1_smul (c : ℝ) (v : Vec n) : normL1 (c • v) = |c| * normL1 v := by
  unfold normL1; rw [Finset.mul_sum]; exact Finset.sum_congr rfl fun i _ => by simp [abs_mul]

theorem unitVec_smul {c : ℝ} (hc : 0 < c) (v : Vec n) : unitVec (c • v) = unitVec v := by
  unfold unitVec
  rw [dotProduct_smul, smul_dotProduct, smul_eq_mul, smul_eq_mul, ← mul_assoc, Real.sqrt_mul (by positivity), Real.sqrt_mul_self hc.le, smul_smul, mul_inv, mul_right_comm,
    inv_mul_cancel₀ hc.ne', one_mul]

theorem unitVec1_smul {c : ℝ} (hc : 0 < c) (v : Vec n) : unitVec1 (c • v) = unitVec1 v := by
  have h : ∑ i, |(c • v) i| = c * ∑ i, |v i| := by rw [← abs_of_pos hc]; simpa [normL1, abs_of_pos hc] using normL1_smul c v
  unfold unitVec1
  rw [h, smul_smul, mul_inv, mul_right_comm, inv_mul_cancel₀ hc.ne', one_mul]

theorem rayleigh_smul (A : Mat n) {c : ℝ} (hc : c ≠ 0) (v : Vec n) : rayleigh A (c • v) = rayleigh A v := by
  unfold rayleigh
  simp only [mulVec_smul, dotProduct_smul, smul_dotProduct, smul_eq_mul, ← mul_assoc]
  rw [mul_div_mul_left _ _ (mul_ne_zero hc hc)]

theorem unitVec_dot {v : Vec n} (hv : v ≠ 0) : unitVec v ⬝ᵥ unitVec v = 1 := by
  have h := dotProduct_self_pos hv
  unfold unitVec
  rw [dotProduct_smul, smul_dotProduct, smul_eq_mul, smul_eq_mul, ← mul_assoc, ← mul_inv, Real.mul_self_sqrt h.le, inv_mul_cancel₀ h.ne']

theorem unitVec_eq {v : Vec n} (hv : v ≠ 0) : ∃ c : ℝ, 0 < c ∧ unitVec v = c • v :=
  ⟨_, inv_pos.mpr (Real.sqrt_pos.mpr (dotProduct_self_pos hv)), rfl⟩

theorem unitVec1_eq {v : Vec n} (hv : v ≠ 0) : ∃ c : ℝ, 0 < c ∧ unitVec1 v = c • v :=
  ⟨_, inv_pos.mpr (normL1_pos hv), rfl⟩

theorem unitVec_ne {v : Vec n} (hv : v ≠ 0) : unitVec v ≠ 0 := fun h => by
  have := unitVec_dot hv; rw [h] at this; simp at this

theorem rayleigh_unit (A : Mat n) {v : Vec n} (hv : v ≠ 0) : unitVec v ⬝ᵥ (A *ᵥ unitVec v) = rayleigh A v := by
  obtain ⟨c, hc, h⟩ := unitVec_eq hv
  rw [← rayleigh_smul A hc.ne' v, ← h]
  unfold rayleigh; rw [unitVec_dot hv, div_one]

theorem powDir_zero (A : Mat n) (x : Vec n) : powDir A x 0 = x := by simp [powDir]

theorem powDir_succ (A : Mat n) (x : Vec n) (k : ℕ) : powDir A x (k + 1) = A *ᵥ powDir A x k := by
  unfold powDir; rw [pow_succ', mulVec_mulVec]

theorem arrDiv_ok {v : Vec n} {c : ℝ} (hc : c ≠ 0) : arrDiv v c = .ok (c⁻¹ • v) := by
  unfold arrDiv; rw [if_neg hc]; congr 1; funext i; simp [div_eq_inv_mul]

theorem arrUnit_ok {v : Vec n} (hv : v ≠ 0) : arrUnit v = .ok (unitVec v) := by
  unfold arrUnit
  rw [sum_sq_eq, arrDiv_ok (Real.sqrt_pos.mpr (dotProduct_self_pos hv)).ne']; rfl

theorem arrUnit_zero : arrUnit (0 : Vec n) = .error .zeroDivision := by
  unfold arrUnit arrDiv; simp

theorem arrDiv1_ok {v : Vec n} (hv : v ≠ 0) : arrDiv v (normL1 v) = .ok (unitVec1 v) :=
  arrDiv_ok (normL1_pos hv).ne'

theorem arrDiv1_zero : arrDiv (0 : Vec n) (normL1 (0 : Vec n)) = .error .zeroDivision := by
  unfold arrDiv; rw [if_pos (normL1_eq_zero.mpr rfl)]

/-- Same directions: a positive multiple of `A^k x` is mapped to one of `A^(k+1) x`. -/
theorem mulVec_dir (A : Mat n) (x : Vec n) (k : ℕ) {c : ℝ} : A *ᵥ (c • powDir A x k) = c • powDir A x (k + 1) := by
  rw [mulVec_smul, powDir_succ]

theorem ne_zero_upto {A : Mat n} {x : Vec n} {k : ℕ} (h : ∀ j ≤ k, powDir A x j ≠ 0) (h1 : powDir A x (k + 1) ≠ 0) :
    ∀ j ≤ k + 1, powDir A x j ≠ 0 := fun j hj => by
  rcases Nat.lt_or_ge j (k + 1) with h2 | h2
  · exact h j (by omega)
  · rw [show j = k + 1 by omega]; exact h1

theorem not_upto {P : ℕ → Prop} {k : ℕ} (h : ∀ j < k, ¬ P j) (h1 : ¬ P k) : ∀ j < k + 1, ¬ P j := fun j hj => by
  rcases Nat.lt_or_ge j k with h2 | h2
  · exact h j h2
  · rw [show j = k by omega]; exact h1

theorem powerLoop_spec (A : Mat n) (x0 : Vec n) (o : PowerOptions) (arg : Vec n) (left : ℕ) :
    ∀ k, k + left = o.maxIters → (∀ j ≤ k, powDir A x0 j ≠ 0) → (∀ j < k, ¬ stopVec A x0 o.tolerance j) →
      PowerSpec A x0 o.maxIters (stopVec A x0 o.tolerance) (fun _ => arg) (powerLoop A o arg left k (unitVec (powDir A x0 k))) := by
  induction left with
  | zero =>
    intro k hk h0 hs
    right; left
    rw [add_zero] at hk; subst hk
    exact ⟨h0, hs, by rw [powerLoop, rayleigh_unit A (h0 _ le_rfl)]⟩
  | succ left ih =>
    intro k hk h0 hs
    obtain ⟨c, hc, he⟩ := unitVec_eq (h0 k le_rfl)
    unfold powerLoop
    by_cases hz : powDir A x0 (k + 1) = 0
    · right; right
      refine ⟨k + 1, by omega, hz, fun j hj => hs j (by omega), ?_⟩
      rw [he, mulVec_dir, hz, smul_zero, arrUnit_zero]
    · have h1 : arrUnit (A *ᵥ unitVec (powDir A x0 k)) = .ok (unitVec (powDir A x0 (k + 1))) := by
        rw [he, mulVec_dir, arrUnit_ok (smul_ne_zero hc.ne' hz), unitVec_smul hc]
      rw [h1]
      simp only
      by_cases hst : stopVec A x0 o.tolerance k
      · rw [if_pos (by exact hst)]
        left
        exact ⟨k, by omega, ne_zero_upto h0 hz, hst, hs, by rw [rayleigh_unit A hz]⟩
      · rw [if_neg (by exact hst)]
        exact ih (k + 1) (by omega) (ne_zero_upto h0 hz) (not_upto hs hst)

theorem powerLoop2_spec (A : Mat n) (x0 : Vec n) (o : PowerOptions) (left : ℕ) :
    ∀ k, k + left = o.maxIters → (∀ j ≤ k, powDir A x0 j ≠ 0) → (∀ j < k, ¬ stopRay A x0 o.tolerance j) →
      PowerSpec A x0 o.maxIters (stopRay A x0 o.tolerance) id
        (powerLoop2 A o left k (unitVec (powDir A x0 k)) (A *ᵥ unitVec (powDir A x0 k)) (rayleigh A (powDir A x0 k))) := by
  induction left with
  | zero =>
    intro k hk h0 hs
    right; left
    rw [add_zero] at hk; subst hk
    exact ⟨h0, hs, by rw [powerLoop2]; rfl⟩
  | succ left ih =>
    intro k hk h0 hs
    obtain ⟨c, hc, he⟩ := unitVec_eq (h0 k le_rfl)
    unfold powerLoop2
    by_cases hz : powDir A x0 (k + 1) = 0
    · right; right
      refine ⟨k + 1, by omega, hz, fun j hj => hs j (by omega), ?_⟩
      rw [he, mulVec_dir, hz, smul_zero, arrUnit_zero]
    · have h1 : arrUnit (A *ᵥ unitVec (powDir A x0 k)) = .ok (unitVec (powDir A x0 (k + 1))) := by
        rw [he, mulVec_dir, arrUnit_ok (smul_ne_zero hc.ne' hz), unitVec_smul hc]
      rw [h1]
      simp only [rayleigh_unit A hz]
      by_cases hst : stopRay A x0 o.tolerance k
      · rw [if_pos (by exact hst)]
        left
        exact ⟨k, by omega, ne_zero_upto h0 hz, hst, hs, rfl⟩
      · rw [if_neg (by exact hst)]
        exact ih (k + 1) (by omega) (ne_zero_upto h0 hz) (not_upto hs hst)

theorem powerLoop4_spec (A : Mat n) (x0 : Vec n) (o : PowerOptions) (arg : Vec n) (left : ℕ) :
    ∀ k, k + left = o.maxIters → (∀ j ≤ k, powDir A x0 j ≠ 0) → (∀ j < k, ¬ stopVec1 A x0 o.tolerance j) →
      PowerSpec A x0 o.maxIters (stopVec1 A x0 o.tolerance) (fun x => if o.maxIters = 0 then x else arg)
        (powerLoop4 A o arg left k (unitVec1 (powDir A x0 k))) := by
  induction left with
  | zero =>
    intro k hk h0 hs
    right; left
    rw [add_zero] at hk; subst hk
    obtain ⟨c, hc, he⟩ := unitVec1_eq (h0 _ le_rfl)
    refine ⟨h0, hs, ?_⟩
    rw [powerLoop4, he, arrUnit_ok (smul_ne_zero hc.ne' (h0 _ le_rfl)), unitVec_smul hc]
    simp only [rayleigh_unit A (h0 _ le_rfl)]
  | succ left ih =>
    intro k hk h0 hs
    obtain ⟨c, hc, he⟩ := unitVec1_eq (h0 k le_rfl)
    unfold powerLoop4
    by_cases hz : powDir A x0 (k + 1) = 0
    · right; right
      refine ⟨k + 1, by omega, hz, fun j hj => hs j (by omega), ?_⟩
      rw [he, mulVec_dir, hz, smul_zero, arrDiv1_zero]
    · have h1 : arrDiv (A *ᵥ unitVec1 (powDir A x0 k)) (normL1 (A *ᵥ unitVec1 (powDir A x0 k))) = .ok (unitVec1 (powDir A x0 (k + 1))) := by
        rw [he, mulVec_dir, arrDiv1_ok (smul_ne_zero hc.ne' hz), unitVec1_smul hc]
      rw [h1]
      simp only
      by_cases hst : stopVec1 A x0 o.tolerance k
      · rw [if_pos (by exact hst)]
        left
        obtain ⟨d, hd, hde⟩ := unitVec1_eq hz
        refine ⟨k, by omega, ne_zero_upto h0 hz, hst, hs, ?_⟩
        rw [hde, arrUnit_ok (smul_ne_zero hd.ne' hz), unitVec_smul hd]
        simp only [rayleigh_unit A hz, if_neg (show ¬ o.maxIters = 0 by omega)]
      · rw [if_neg (by exact hst)]
        exact ih (k + 1) (by omega) (ne_zero_upto h0 hz) (not_upto hs hst)

theorem powerLoop3_spec (A : Mat n) (x0 : Vec n) (o : PowerOptions) (left : ℕ) :
    ∀ k (c : ℝ), 0 < c → k + left = o.maxIters → (∀ j ≤ k, powDir A x0 j ≠ 0) → (∀ j < k, ¬ stopRay A x0 o.tolerance j) →
      PowerSpec A x0 o.maxIters (stopRay A x0 o.tolerance) id
        (powerLoop3 A o left k (c • powDir A x0 k) (c • powDir A x0 (k + 1)) (rayleigh A (powDir A x0 k))) := by
  induction left with
  | zero =>
    intro k c hc hk h0 hs
    right; left
    rw [add_zero] at hk; subst hk
    refine ⟨h0, hs, ?_⟩
    rw [powerLoop3, arrUnit_ok (smul_ne_zero hc.ne' (h0 _ le_rfl)), unitVec_smul hc]
    rfl
  | succ left ih =>
    intro k c hc hk h0 hs
    unfold powerLoop3
    by_cases hz : powDir A x0 (k + 1) = 0
    · right; right
      refine ⟨k + 1, by omega, hz, fun j hj => hs j (by omega), ?_⟩
      simp only [hz, smul_zero, zero_dotProduct, mulVec_zero]
      rw [if_neg (by norm_num)]
      simp [pdiv]
    · have hz' := smul_ne_zero hc.ne' hz
      have h1 : arrUnit (c • powDir A x0 (k + 1)) = .ok (unitVec (powDir A x0 (k + 1))) := by rw [arrUnit_ok hz', unitVec_smul hc]
      simp only [h1]
      by_cases hbig : 1e150 ≤ (c • powDir A x0 (k + 1)) ⬝ᵥ (c • powDir A x0 (k + 1))
      · rw [if_pos hbig]
        simp only [rayleigh_unit A hz]
        by_cases hst : stopRay A x0 o.tolerance k
        · rw [if_pos (by exact hst)]
          left
          exact ⟨k, by omega, ne_zero_upto h0 hz, hst, hs, rfl⟩
        · rw [if_neg (by exact hst)]
          obtain ⟨d, hd, hde⟩ := unitVec_eq hz
          rw [hde, mulVec_dir]
          exact ih (k + 1) d hd (by omega) (ne_zero_upto h0 hz) (not_upto hs hst)
      · rw [if_neg hbig]
        have h2 : pdiv ((c • powDir A x0 (k + 1)) ⬝ᵥ (A *ᵥ (c • powDir A x0 (k + 1)))) ((c • powDir A x0 (k + 1)) ⬝ᵥ (c • powDir A x0 (k + 1))) =
            .ok (rayleigh A (powDir A x0 (k + 1))) := by
          unfold pdiv; rw [if_neg (dotProduct_self_pos hz').ne', ← rayleigh_smul A hc.ne']; rfl
        rw [h2]
        simp only
        by_cases hst : stopRay A x0 o.tolerance k
        · rw [if_pos (by exact hst)]
          left
          exact ⟨k, by omega, ne_zero_upto h0 hz, hst, hs, rfl⟩
        · rw [if_neg (by exact hst), mulVec_dir]
          exact ih (k + 1) c hc (by omega) (ne_zero_upto h0 hz) (not_upto hs hst)

theorem zero_spec (A : Mat n) (N : ℕ) (stop : ℕ → Prop) (arg : Vec n → Vec n) :
    PowerSpec A 0 N stop arg (.error .zeroDivision) :=
  .inr (.inr ⟨0, Nat.zero_le _, powDir_zero A 0, fun j hj => by omega, rfl⟩)

theorem start_ne {A : Mat n} {x : Vec n} (hx : x ≠ 0) : ∀ j ≤ 0, powDir A x j ≠ 0 := fun j hj => by
  rw [Nat.le_zero.mp hj, powDir_zero]; exact hx

/-- **C85.** `power_iteration(A, x, options)` for every square `A`, every `x` and all options; the caller's array is left normalised. -/
theorem C85_power_iteration (A : Mat n) (x : Vec n) (o : PowerOptions) :
    PowerSpec A x o.maxIters (stopVec A x o.tolerance) (fun _ => unitVec x) (powerIteration A x o) := by
  unfold powerIteration
  by_cases hx : x = 0
  · subst hx; rw [arrUnit_zero]; exact zero_spec _ _ _ _
  · rw [arrUnit_ok hx]
    have := powerLoop_spec A x o (unitVec x) o.maxIters 0 (by omega) (start_ne hx) (by omega)
    rwa [powDir_zero] at this

/-- **C85.** `power_iteration4(A, x, options)`; the caller's array is left with 1-norm one (with 2-norm one if `max_iters = 0`). -/
theorem C85_power_iteration4 (A : Mat n) (x : Vec n) (o : PowerOptions) :
    PowerSpec A x o.maxIters (stopVec1 A x o.tolerance) (fun x' => if o.maxIters = 0 then x' else unitVec1 x) (powerIteration4 A x o) := by
  unfold powerIteration4
  by_cases hx : x = 0
  · subst hx; rw [arrDiv1_zero]; exact zero_spec _ _ _ _
  · rw [arrDiv1_ok hx]
    have := powerLoop4_spec A x o (unitVec1 x) o.maxIters 0 (by omega) (start_ne hx) (by omega)
    rwa [powDir_zero] at this

/-- **C85.** `power_iteration2(A, x, options)`; the returned vector is left in the caller's array. -/
theorem C85_power_iteration2 (A : Mat n) (x : Vec n) (o : PowerOptions) :
    PowerSpec A x o.maxIters (stopRay A x o.tolerance) id (powerIteration2 A x o) := by
  unfold powerIteration2
  by_cases hx : x = 0
  · subst hx; rw [arrUnit_zero]; exact zero_spec _ _ _ _
  · rw [arrUnit_ok hx]
    have := powerLoop2_spec A x o o.maxIters 0 (by omega) (start_ne hx) (by omega)
    rw [powDir_zero] at this
    simpa only [rayleigh_unit A hx] using this

/-- **C85.** `power_iteration3(A, x, options)`; the returned vector is left in the caller's array. -/
theorem C85_power_iteration3 (A : Mat n) (x : Vec n) (o : PowerOptions) :
    PowerSpec A x o.maxIters (stopRay A x o.tolerance) id (powerIteration3 A x o) := by
  unfold powerIteration3
  by_cases hx : x = 0
  · subst hx; simp only [zero_dotProduct, pdiv, if_true]; exact zero_spec _ _ _ _
  · have h2 : pdiv (x ⬝ᵥ (A *ᵥ x)) (x ⬝ᵥ x) = .ok (rayleigh A x) := by
      unfold pdiv; rw [if_neg (dotProduct_self_pos hx).ne']; rfl
    simp only [h2]
    have := powerLoop3_spec A x o o.maxIters 0 1 one_pos (by omega) (start_ne hx) (by omega)
    rwa [one_smul, one_smul, zero_add, powDir_succ, powDir_zero] at this

/-- The specification determines the result. -/
theorem powerSpec_unique {A : Mat n} {x : Vec n} {N : ℕ} {stop : ℕ → Prop} {arg : Vec n → Vec n} {r s : Except Fault (PowerResult n)}
    (hr : PowerSpec A x N stop arg r) (hs : PowerSpec A x N stop arg s) : r = s := by
  have key : ∀ {k l : ℕ}, (∀ j ≤ k, powDir A x j ≠ 0) → powDir A x l = 0 → k < l := fun {k l} h h0 => by
    by_contra hc; exact h l (by omega) h0
  rcases hr with ⟨k, hk, h0, hst, hmin, rfl⟩ | ⟨h0, hmin, rfl⟩ | ⟨k, hk, hz, hmin, rfl⟩ <;>
  rcases hs with ⟨l, hl, g0, gst, gmin, rfl⟩ | ⟨g0, gmin, rfl⟩ | ⟨l, hl, gz, gmin, rfl⟩
  · have : k = l := by
      rcases lt_trichotomy k l with h | h | h
      · exact absurd hst (gmin k h)
      · exact h
      · exact absurd gst (hmin l h)
    subst this; rfl
  · exact absurd hst (gmin k hk)
  · exact absurd hst (gmin k (key h0 gz))
  · exact absurd gst (hmin l hl)
  · rfl
  · exact absurd (key h0 gz) (by omega)
  · exact absurd gst (hmin l (key g0 hz))
  · exact absurd (key g0 hz) (by omega)
  · rfl

/-- **C85.** In exact arithmetic `power_iteration3` (which normalises only large vectors) and `power_iteration2` are the same function, including the effect on the caller's array. -/
theorem C85_variants_agree (A : Mat n) (x : Vec n) (o : PowerOptions) : powerIteration3 A x o = powerIteration2 A x o :=
  powerSpec_unique (C85_power_iteration3 A x o) (C85_power_iteration2 A x o)

end Ellalgo
