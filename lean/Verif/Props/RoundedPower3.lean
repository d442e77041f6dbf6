import Verif.Model.RoundedPower3
import Verif.Props.RoundedPower2

/-!
# C131: a converged `power_iteration3` in floating point is near an eigenvalue of a positive semidefinite matrix
-/

namespace Ellalgo

open Finset Matrix Spec

variable {n : ℕ} {A : Arith} {u γ : ℝ}

/-- The computed quotient `(x @ A x) / (x @ x)` of a vector of any length. -/
theorem quotient_raw {M : Mat n} {L ld : ℝ} (hM : AbsBound M L) (hA : A.Accurate u γ n) (hu : 0 ≤ u) (huγ : u ≤ γ) (hγ : γ ≤ 1 / 100) {x : Vec n} (h : A.pdiv (A.dot x (A.mv M x)) (A.dot x x) = .ok ld) :
    0 < nrm x ∧ |x ⬝ᵥ (M *ᵥ x) / nrm x ^ 2 - ld| ≤ 104 / 10 * γ * L := by
  have hγ0 := hu.trans huγ
  have hL := hM.1
  have hx0 := nrm_nonneg x
  have hD := (hA.dot x x le_rfl).trans (mul_le_mul_of_nonneg_left (sum_abs_mul_le x x) hγ0)
  rw [← nrm_sq, ← sq] at hD
  unfold Arith.pdiv at h
  by_cases hz : A.dot x x = 0
  · rw [if_pos hz] at h; cases h
  rw [if_neg hz] at h
  cases h
  have hxp : 0 < nrm x := by
    rcases hx0.eq_or_lt with e | e
    · rw [← e] at hD
      exact absurd (by simpa using hD) hz
    · exact e
  refine ⟨hxp, ?_⟩
  have h1 := (hA.dot x (A.mv M x) le_rfl).trans (mul_le_mul_of_nonneg_left (sum_abs_mul_le x (A.mv M x)) hγ0)
  have h2 := hM.mv_nrm hA hγ0 x
  have h3 : nrm (A.mv M x) ≤ 101 / 100 * (L * nrm x) := by
    have a1 := nrm_add_le (A.mv M x - M *ᵥ x) (M *ᵥ x)
    rw [sub_add_cancel] at a1
    have a2 := hM.mulVec_nrm x
    have a3 := mul_le_mul_of_nonneg_right hγ (mul_nonneg hL hx0)
    linarith
  have h4 : |x ⬝ᵥ A.mv M x - x ⬝ᵥ (M *ᵥ x)| ≤ nrm x * (γ * (L * nrm x)) := by
    rw [← dotProduct_sub]
    exact (abs_dot_le _ _).trans (mul_le_mul_of_nonneg_left h2 hx0)
  have h5 := abs_sub_le (A.dot x (A.mv M x)) (x ⬝ᵥ A.mv M x) (x ⬝ᵥ (M *ᵥ x))
  have h6 : γ * (nrm x * nrm (A.mv M x)) ≤ γ * (nrm x * (101 / 100 * (L * nrm x))) := mul_le_mul_of_nonneg_left (mul_le_mul_of_nonneg_left h3 hx0) hγ0
  have hN : |A.dot x (A.mv M x) - x ⬝ᵥ (M *ᵥ x)| ≤ 201 / 100 * (γ * L) * nrm x ^ 2 := by linarith
  have hQ := hM.quad_le x
  change |x ⬝ᵥ (M *ᵥ x) / nrm x ^ 2 - A.rnd (A.dot x (A.mv M x) / A.dot x x)| ≤ _
  have hr := hA.rnd (A.dot x (A.mv M x) / A.dot x x)
  have hs : 0 < nrm x ^ 2 := by positivity
  generalize A.dot x (A.mv M x) = N at *
  generalize A.dot x x = D at *
  generalize x ⬝ᵥ (M *ᵥ x) = q at *
  generalize nrm x ^ 2 = s at *
  have hLγ : 0 ≤ γ * L := by positivity
  have hD1 : 99 / 100 * s ≤ D := by
    have := (abs_le.mp hD).1
    have := mul_le_mul_of_nonneg_right hγ hs.le
    linarith
  have hD0 : 0 < D := by linarith
  have hq : |q / s - N / D| ≤ 31 / 10 * (γ * L) := by
    have e : q / s - N / D = (q * (D - s) - (N - q) * s) / (D * s) := by field_simp; ring
    rw [e, abs_div, abs_of_pos (mul_pos hD0 hs), div_le_iff₀ (mul_pos hD0 hs)]
    have b1 := abs_sub (q * (D - s)) ((N - q) * s)
    rw [abs_mul, abs_mul, abs_of_pos hs] at b1
    have b2 : |q| * |D - s| ≤ L * s * (γ * s) := mul_le_mul hQ hD (abs_nonneg _) (by positivity)
    have b3 := mul_le_mul_of_nonneg_right hN hs.le
    have b4 : 31 / 10 * (γ * L) * (99 / 100 * s * s) ≤ 31 / 10 * (γ * L) * (D * s) := mul_le_mul_of_nonneg_left (mul_le_mul_of_nonneg_right hD1 hs.le) (by positivity)
    have b5 : 0 ≤ γ * L * (s * s) := by positivity
    linarith
  have hq1 : |q / s| ≤ L := by rw [abs_div, abs_of_pos hs, div_le_iff₀ hs]; exact hQ
  have hnd : |N / D| ≤ 104 / 100 * L := by
    have a1 := abs_sub_abs_le_abs_sub (N / D) (q / s)
    rw [abs_sub_comm (N / D)] at a1
    have a2 := mul_le_mul_of_nonneg_right hγ hL
    linarith
  have a1 := abs_sub_le (q / s) (N / D) (A.rnd (N / D))
  rw [abs_sub_comm (N / D) (A.rnd _)] at a1
  have a2 := mul_le_mul huγ hnd (abs_nonneg _) hγ0
  linarith

/-- Dividing by the length at the end keeps the value. -/
theorem final_value {M : Mat n} {L ld : ℝ} (hM : AbsBound M L) (hA : A.Accurate u γ n) (hu : 0 ≤ u) (huγ : u ≤ γ) (hγ : γ ≤ 1 / 100) {x y : Vec n} (hxp : 0 < nrm x) (h : A.arrUnit x = .ok y) (hl : |x ⬝ᵥ (M *ᵥ x) / nrm x ^ 2 - ld| ≤ 104 / 10 * γ * L) :
    |nrm y - 1| ≤ 4 * γ ∧ |ld - y ⬝ᵥ (M *ᵥ y)| ≤ 24 * γ * L := by
  have hγ0 := hu.trans huγ
  have hL := hM.1
  obtain ⟨c, hc0, hc, hd, hy⟩ := unit_computed hA hu huγ hγ h
  refine ⟨hy, ?_⟩
  have hy' := abs_le.mp hy
  have hLγ : 0 ≤ γ * L := by positivity
  obtain ⟨d, hdd⟩ : ∃ d, d = x - c • y := ⟨_, rfl⟩
  rw [← hdd] at hd
  have hcy : c • y = x - d := by rw [hdd]; abel
  -- the quadratic form
  have hq1 : c ^ 2 * (y ⬝ᵥ (M *ᵥ y)) = x ⬝ᵥ (M *ᵥ x) - x ⬝ᵥ (M *ᵥ d) - d ⬝ᵥ (M *ᵥ (c • y)) := by
    have e1 : (c • y) ⬝ᵥ (M *ᵥ (c • y)) = c ^ 2 * (y ⬝ᵥ (M *ᵥ y)) := by
      rw [mulVec_smul, smul_dotProduct, dotProduct_smul, smul_eq_mul, smul_eq_mul]; ring
    have e2 : (c • y) ⬝ᵥ (M *ᵥ (c • y)) = x ⬝ᵥ (M *ᵥ (c • y)) - d ⬝ᵥ (M *ᵥ (c • y)) := by
      rw [← sub_dotProduct, ← hcy]
    have e3 : x ⬝ᵥ (M *ᵥ (c • y)) = x ⬝ᵥ (M *ᵥ x) - x ⬝ᵥ (M *ᵥ d) := by rw [hcy, mulVec_sub, dotProduct_sub]
    rw [← e1, e2, e3]
  have hcn : nrm (c • y) ≤ 101 / 100 * nrm x := by
    rw [hcy]
    have a1 := nrm_abs_sub x d
    have a2 := mul_le_mul_of_nonneg_right hγ hxp.le
    linarith
  have hm1 : |x ⬝ᵥ (M *ᵥ d)| ≤ γ * L * nrm x ^ 2 := by
    have a1 := abs_dot_le x (M *ᵥ d)
    have a2 := mul_le_mul_of_nonneg_left ((hM.mulVec_nrm d).trans (mul_le_mul_of_nonneg_left hd hL)) hxp.le
    linarith
  have hm2 : |d ⬝ᵥ (M *ᵥ (c • y))| ≤ 101 / 100 * (γ * L) * nrm x ^ 2 := by
    have a1 := abs_dot_le d (M *ᵥ (c • y))
    have a2 := mul_le_mul hd ((hM.mulVec_nrm (c • y)).trans (mul_le_mul_of_nonneg_left hcn hL)) (nrm_nonneg _) (by positivity)
    linarith
  have hq2 : |c ^ 2 * (y ⬝ᵥ (M *ᵥ y)) - x ⬝ᵥ (M *ᵥ x)| ≤ 201 / 100 * (γ * L) * nrm x ^ 2 := by
    rw [hq1]
    have a1 := abs_le.mp hm1
    have a2 := abs_le.mp hm2
    rw [abs_le]
    constructor <;> linarith
  -- the factor
  obtain ⟨t, ht⟩ : ∃ t, t = c / nrm x := ⟨_, rfl⟩
  have hct : c = t * nrm x := by rw [ht, div_mul_cancel₀ _ hxp.ne']
  have ht1 : t ≤ 1 + 201 / 100 * γ := by
    rw [ht, div_le_iff₀ hxp]
    have : γ * γ ≤ 1 / 100 * γ := mul_le_mul_of_nonneg_right hγ hγ0
    have := mul_le_mul_of_nonneg_right this hxp.le
    linarith
  have ht0 : 0 < t := by rw [ht]; positivity
  have ht2 : 1 - 5 * γ ≤ t := by
    have a1 := nrm_add_le (c • y) d
    rw [hcy, sub_add_cancel, ← hcy] at a1
    have a2 : nrm (c • y) = c * nrm y := by
      have e : (c • y) ⬝ᵥ (c • y) = (c * nrm y) ^ 2 := by
        rw [mul_pow, nrm_sq, smul_dotProduct, dotProduct_smul, smul_eq_mul, smul_eq_mul]; ring
      unfold nrm at *
      rw [e, Real.sqrt_sq (mul_nonneg hc0.le (Real.sqrt_nonneg _))]
    rw [a2, hct] at a1
    have a3 : nrm x * (1 - γ) ≤ nrm x * (t * nrm y) := by linarith
    have a4 : 1 - γ ≤ t * nrm y := le_of_mul_le_mul_left a3 hxp
    have a5 := mul_le_mul_of_nonneg_left (show nrm y ≤ 1 + 4 * γ by linarith) ht0.le
    by_contra hcon
    push Not at hcon
    have a6 := mul_le_mul_of_nonneg_right hcon.le (show 0 ≤ 1 + 4 * γ by linarith)
    nlinarith
  have ht3 : |1 - t ^ 2| ≤ 10 * γ := by
    have e1 : γ * γ ≤ 1 / 100 * γ := mul_le_mul_of_nonneg_right hγ hγ0
    have b1 : t ^ 2 ≤ (1 + 201 / 100 * γ) ^ 2 := pow_le_pow_left₀ ht0.le ht1 2
    have b2 : (1 - 5 * γ) ^ 2 ≤ t ^ 2 := pow_le_pow_left₀ (by linarith) ht2 2
    rw [abs_le]
    constructor <;> nlinarith
  have hqy : |y ⬝ᵥ (M *ᵥ y)| ≤ 10816 / 10000 * L := by
    have a1 := hM.quad_le y
    have a2 : nrm y ^ 2 ≤ 10816 / 10000 := by nlinarith [nrm_nonneg y]
    have a3 := mul_le_mul_of_nonneg_left a2 hL
    linarith
  have hdiv : |t ^ 2 * (y ⬝ᵥ (M *ᵥ y)) - x ⬝ᵥ (M *ᵥ x) / nrm x ^ 2| ≤ 201 / 100 * (γ * L) := by
    have e : t ^ 2 * (y ⬝ᵥ (M *ᵥ y)) - x ⬝ᵥ (M *ᵥ x) / nrm x ^ 2 = (c ^ 2 * (y ⬝ᵥ (M *ᵥ y)) - x ⬝ᵥ (M *ᵥ x)) / nrm x ^ 2 := by
      rw [hct]; field_simp
    rw [e, abs_div, abs_of_pos (show 0 < nrm x ^ 2 by positivity), div_le_iff₀ (by positivity)]
    exact hq2
  have hfac : |y ⬝ᵥ (M *ᵥ y) - t ^ 2 * (y ⬝ᵥ (M *ᵥ y))| ≤ 1082 / 100 * (γ * L) := by
    have e : y ⬝ᵥ (M *ᵥ y) - t ^ 2 * (y ⬝ᵥ (M *ᵥ y)) = (1 - t ^ 2) * (y ⬝ᵥ (M *ᵥ y)) := by ring
    rw [e, abs_mul]
    have := mul_le_mul ht3 hqy (abs_nonneg _) (by linarith)
    linarith
  have a1 := abs_le.mp hl
  have a2 := abs_le.mp hdiv
  have a3 := abs_le.mp hfac
  rw [abs_le]
  constructor <;> linarith

/-- What is said of a result. -/
def Power3Good (M : Mat n) (L γ : ℝ) (o : PowerOptions) (r : PowerResult n) : Prop :=
  |nrm r.x - 1| ≤ 4 * γ ∧ |r.ld - r.x ⬝ᵥ (M *ᵥ r.x)| ≤ 24 * γ * L ∧ r.niter ≤ o.maxIters ∧
  (r.niter < o.maxIters → M.IsSymm → QuadNonneg M → ∃ μ : ℝ, ∃ w : Vec n, w ≠ 0 ∧ M *ᵥ w = μ • w ∧
    |μ - r.ld| ≤ Real.sqrt (102 / 100 * (L * o.tolerance) + 29 * (γ * L ^ 2)) + 102 / 100 * o.tolerance + 104 / 10 * (γ * L))

theorem powerLoop3_near {M : Mat n} {L : ℝ} (hM : AbsBound M L) (hA : A.Accurate u γ n) (hu : 0 ≤ u) (huγ : u ≤ γ) (hγ : γ ≤ 1 / 100) (o : PowerOptions) {r : PowerResult n} :
    ∀ (left niter : ℕ) (v : Vec n) (ld1 : ℝ), niter + left = o.maxIters → 0 < nrm v → |v ⬝ᵥ (M *ᵥ v) / nrm v ^ 2 - ld1| ≤ 104 / 10 * γ * L → A.powerLoop3 M o left niter v (A.mv M v) ld1 = .ok r → Power3Good M L γ o r
  | 0, niter, v, ld1, _, hv, hl, h => by
    rw [Arith.powerLoop3] at h
    rcases hy : A.arrUnit v with f | y
    · rw [hy] at h; cases h
    rw [hy] at h
    cases h
    obtain ⟨h1, h2⟩ := final_value hM hA hu huγ hγ hv hy hl
    exact ⟨h1, h2, le_rfl, fun h => absurd h (lt_irrefl _)⟩
  | left + 1, niter, v, ld1, hN, hv, hl, h => by
    have hγ0 := hu.trans huγ
    have hL := hM.1
    have hLγ : 0 ≤ γ * L := by positivity
    rw [Arith.powerLoop3] at h
    simp only at h
    by_cases hb : (1e150 : ℝ) ≤ A.dot (A.mv M v) (A.mv M v)
    · rw [if_pos hb] at h
      rcases hy : A.arrUnit (A.mv M v) with f | x
      · rw [hy] at h; cases h
      simp only [hy] at h
      obtain ⟨c, -, -, hd, hx⟩ := unit_computed hA hu huγ hγ hy
      have hx' := abs_le.mp hx
      have hxp : 0 < nrm x := by linarith
      have hval := value_near hM hA hγ0 hγ hx
      have hq := quotient_value hL hγ0 hγ hx (hM.quad_le x) hval
      by_cases hs : |A.sub ld1 (A.dot x (A.mv M x))| ≤ o.tolerance
      · rw [if_pos hs] at h
        cases h
        exact ⟨hx, by show |_ - _| ≤ _; linarith, by show niter ≤ _; omega, fun _ hS hp => growth_eigenvalue hS hp hM hγ0 hv hxp (add_sub_cancel (M *ᵥ v) (c • x)).symm (image_error hM hA hγ0 hγ hd) ((abs_nonneg _).trans hs) hl hq
          (rounded_difference hA huγ hγ hs)⟩
      · rw [if_neg hs] at h
        exact powerLoop3_near hM hA hu huγ hγ o left (niter + 1) x _ (by omega) hxp hq h
    · rw [if_neg hb] at h
      rcases hd : A.pdiv (A.dot (A.mv M v) (A.mv M (A.mv M v))) (A.dot (A.mv M v) (A.mv M v)) with f | ld
      · rw [hd] at h; cases h
      simp only [hd] at h
      obtain ⟨hxp, hq⟩ := quotient_raw hM hA hu huγ hγ hd
      by_cases hs : |A.sub ld1 ld| ≤ o.tolerance
      · rw [if_pos hs] at h
        rcases hy : A.arrUnit (A.mv M v) with f | y
        · rw [hy] at h; cases h
        rw [hy] at h
        cases h
        obtain ⟨h1, h2⟩ := final_value hM hA hu huγ hγ hxp hy hq
        exact ⟨h1, h2, by show niter ≤ _; omega, fun _ hS hp => growth_eigenvalue hS hp hM hγ0 hv hxp (add_sub_cancel (M *ᵥ v) ((1 : ℝ) • A.mv M v)).symm
          (image_error hM hA hγ0 hγ (by rw [one_smul, sub_self]; have := mul_nonneg hγ0 (nrm_nonneg (A.mv M v)); simpa [nrm] using this)) ((abs_nonneg _).trans hs) hl hq (rounded_difference hA huγ hγ hs)⟩
      · rw [if_neg hs] at h
        exact powerLoop3_near hM hA hu huγ hγ o left (niter + 1) _ ld (by omega) hxp hq h

/-- **C131.** What `power_iteration3` returns in floating point, for every square matrix with `‖ |A| ‖ ≤ L`: a vector of length one up to `4 γ` and its Rayleigh quotient up to `24 γ L`. If it reports fewer than `max_iters` passes and the matrix
is symmetric positive semidefinite, the value is within `√(1.02 L tol + 29 γ L²) + 1.02 tol + 10.4 γ L` of an eigenvalue. -/
theorem C131_eigenvalue {M : Mat n} {L : ℝ} (hM : AbsBound M L) (hA : A.Accurate u γ n) (hu : 0 ≤ u) (huγ : u ≤ γ) (hγ : γ ≤ 1 / 100) {x : Vec n} {o : PowerOptions} {r : PowerResult n} (h : A.powerIteration3 M x o = .ok r) :
    |Real.sqrt (∑ i, r.x i ^ 2) - 1| ≤ 4 * γ ∧ |r.ld - r.x ⬝ᵥ (M *ᵥ r.x)| ≤ 24 * γ * L ∧ r.niter ≤ o.maxIters ∧
    (r.niter < o.maxIters → M.IsSymm → QuadNonneg M → ∃ μ : ℝ, ∃ w : Vec n, w ≠ 0 ∧ M *ᵥ w = μ • w ∧
      |μ - r.ld| ≤ Real.sqrt (102 / 100 * (L * o.tolerance) + 29 * (γ * L ^ 2)) + 102 / 100 * o.tolerance + 104 / 10 * (γ * L)) := by
  unfold Arith.powerIteration3 at h
  simp only at h
  rcases hd : A.pdiv (A.dot x (A.mv M x)) (A.dot x x) with f | ld
  · rw [hd] at h; cases h
  simp only [hd] at h
  obtain ⟨hxp, hq⟩ := quotient_raw hM hA hu huγ hγ hd
  have := powerLoop3_near hM hA hu huγ hγ o o.maxIters 0 x ld (by omega) hxp hq h
  unfold Power3Good at this
  rwa [nrm_eq_sqrt] at this

/-- **C131** for machine numbers with `p` bits, `2^p ≥ 200 (n+1)`. -/
theorem C131_bits {p : ℕ} (hp : 200 * ((n : ℝ) + 1) ≤ 2 ^ p) {M : Mat n} {L : ℝ} (hM : AbsBound M L) {x : Vec n} {o : PowerOptions} {r : PowerResult n} (h : (Arith.ieee p).powerIteration3 M x o = .ok r) :
    |Real.sqrt (∑ i, r.x i ^ 2) - 1| ≤ 8 * (n + 1) / 2 ^ p ∧ |r.ld - r.x ⬝ᵥ (M *ᵥ r.x)| ≤ 48 * (n + 1) / 2 ^ p * L ∧ r.niter ≤ o.maxIters ∧
    (r.niter < o.maxIters → M.IsSymm → QuadNonneg M → ∃ μ : ℝ, ∃ w : Vec n, w ≠ 0 ∧ M *ᵥ w = μ • w ∧
      |μ - r.ld| ≤ Real.sqrt (102 / 100 * (L * o.tolerance) + 58 * (n + 1) / 2 ^ p * L ^ 2) + 102 / 100 * o.tolerance + 104 / 5 * (n + 1) / 2 ^ p * L) := by
  have hup : (2⁻¹ : ℝ) ^ p * 2 ^ p = 1 := by rw [← mul_pow]; norm_num
  have hu0 : (0 : ℝ) < 2⁻¹ ^ p := by positivity
  have hinv : (2 ^ p : ℝ)⁻¹ = 2⁻¹ ^ p := by rw [inv_pow]
  have hn0 : (0 : ℝ) ≤ n := Nat.cast_nonneg n
  obtain ⟨γ, hγ⟩ : ∃ γ : ℝ, γ = 2 * ((n : ℝ) + 1) * 2⁻¹ ^ p := ⟨_, rfl⟩
  have hsm : 200 * (((n : ℝ) + 1) * 2⁻¹ ^ p) ≤ 1 := by
    have := mul_le_mul_of_nonneg_right hp hu0.le
    rw [mul_comm ((2 : ℝ) ^ p), hup] at this
    linarith
  have hle : ((1 : ℝ) + 2⁻¹ ^ p) ^ (n + 1) - 1 ≤ γ := by
    have := Arith.ieee_gamma_le (p := p) (n := n) (by linarith)
    rwa [← hγ] at this
  have hacc : (Arith.ieee p).Accurate (2⁻¹ ^ p) γ n := (Arith.ieee_accurate p n).mono le_rfl hle
  have huγ : (2⁻¹ : ℝ) ^ p ≤ γ := (Arith.ieee_le_gamma p n).trans hle
  have hγ1 : γ ≤ 1 / 100 := by rw [hγ]; linarith
  have e1 : 8 * ((n : ℝ) + 1) / 2 ^ p = 4 * γ := by rw [div_eq_mul_inv, hinv, hγ]; ring
  have e2 : 48 * ((n : ℝ) + 1) / 2 ^ p = 24 * γ := by rw [div_eq_mul_inv, hinv, hγ]; ring
  have e3 : 58 * ((n : ℝ) + 1) / 2 ^ p * L ^ 2 = 29 * (γ * L ^ 2) := by rw [div_eq_mul_inv, hinv, hγ]; ring
  have e4 : 104 / 5 * ((n : ℝ) + 1) / 2 ^ p * L = 104 / 10 * (γ * L) := by rw [div_eq_mul_inv, hinv, hγ]; ring
  rw [e1, e2, e3, e4]
  exact C131_eigenvalue hM hacc hu0.le huγ hγ1 h

/-- The matrix `[[2]]` and the start vector `[3]` in double precision: the hypotheses of `C131_bits` and `C131_eigenvalue` hold, and the run converges in pass 0. -/
example : AbsBound !![(2 : ℝ)] 2 ∧ (!![(2 : ℝ)] : Mat 1).IsSymm ∧ QuadNonneg (!![(2 : ℝ)] : Mat 1) ∧ (Arith.ieee 53).powerIteration3 !![2] ![3] ⟨2000, 1 / 10 ^ 9⟩ = .ok ⟨fun _ => 1, 2, 0, fun _ => 1⟩ := by
  have hM : AbsBound !![(2 : ℝ)] 2 := ⟨by norm_num, fun v => by
    simp only [Fin.sum_univ_one]
    rw [show (|(!![(2 : ℝ)] : Mat 1) 0 0| * |v 0|) ^ 2 = 2 ^ 2 * v 0 ^ 2 by rw [mul_pow, sq_abs, sq_abs]; rfl, Real.sqrt_mul (by norm_num), Real.sqrt_sq (by norm_num)]⟩
  have hd : ∀ x y : Vec 1, (Arith.ieee 53).dot x y = roundBits 53 (0 + roundBits 53 (x 0 * y 0)) := fun x y => by simp [Arith.ieee, seqDot, Fin.foldl_succ, Fin.foldl_zero]
  have hm : (Arith.ieee 53).mv !![(2 : ℝ)] (fun _ => 1) = fun _ => 2 := by
    funext i
    fin_cases i
    have := rbN 2 (by norm_num)
    push_cast at this
    simp [Arith.ieee, seqDot, Fin.foldl_succ, Fin.foldl_zero, this]
  have r1 : roundBits 53 1 = 1 := by simpa using rbN 1 (by norm_num)
  have hun : ∀ k : ℕ, 0 < k → k * k < 2 ^ 53 → ∀ y : Vec 1, y 0 = k → (Arith.ieee 53).arrUnit y = .ok fun _ => 1 := fun k hk hk2 y hy => by
    have hkk : (k : ℝ) * k < 2 ^ 53 := by exact_mod_cast hk2
    have hk0 : (0 : ℝ) < k := by exact_mod_cast hk
    have hk1 : (1 : ℝ) ≤ k := by exact_mod_cast hk
    have e1 : roundBits 53 ((k : ℝ) * k) = k * k := by
      have := rbN (k * k) (by push_cast; rw [abs_of_nonneg (by positivity)]; exact hkk)
      push_cast at this; exact this
    have e2 : roundBits 53 (k : ℝ) = k := by
      have := rbN k (by push_cast; rw [abs_of_pos hk0]; nlinarith)
      push_cast at this; exact this
    have ec : (Arith.ieee 53).rnd (Real.sqrt ((Arith.ieee 53).dot y y)) = k := by rw [hd, hy, e1, zero_add, e1, Real.sqrt_mul_self hk0.le, ieee_rnd, e2]
    unfold Arith.arrUnit
    simp only [ec]
    rw [if_neg hk0.ne']
    congr 1
    funext i
    fin_cases i
    show roundBits 53 (y 0 / k) = 1
    rw [hy, div_self hk0.ne', r1]
  have h2 : roundBits 53 2 = 2 := by simpa using rbN 2 (by norm_num)
  have hl : (Arith.ieee 53).dot (fun _ : Fin 1 => (1 : ℝ)) (fun _ => 2) = 2 := by rw [hd, one_mul, h2, zero_add, h2]
  refine ⟨hM, by ext i j; fin_cases i; fin_cases j; rfl, fun v => ?_, ?_⟩
  · simp only [dotProduct, mulVec, Fin.sum_univ_one]
    have : v 0 * ((!![(2 : ℝ)] : Mat 1) 0 0 * v 0) = 2 * v 0 ^ 2 := by simp; ring
    rw [this]
    positivity
  · have rk : ∀ k : ℕ, k < 100 → roundBits 53 (k : ℝ) = k := fun k hk => by
      have hk' : (k : ℝ) < 100 := by exact_mod_cast hk
      simpa using rbN k (by push_cast; rw [abs_of_nonneg (by positivity)]; linarith)
    have r3 : roundBits 53 6 = 6 := by simpa using rk 6 (by norm_num)
    have r9 : roundBits 53 9 = 9 := by simpa using rk 9 (by norm_num)
    have r12 : roundBits 53 12 = 12 := by simpa using rk 12 (by norm_num)
    have r18 : roundBits 53 18 = 18 := by simpa using rk 18 (by norm_num)
    have r36 : roundBits 53 36 = 36 := by simpa using rk 36 (by norm_num)
    have r72 : roundBits 53 72 = 72 := by simpa using rk 72 (by norm_num)
    have hmv : ∀ y : Vec 1, (Arith.ieee 53).mv !![(2 : ℝ)] y = fun _ => roundBits 53 (0 + roundBits 53 (2 * y 0)) := fun y => by
      funext i
      fin_cases i
      simp [Arith.ieee, seqDot, Fin.foldl_succ, Fin.foldl_zero]
    have m1 : (Arith.ieee 53).mv !![(2 : ℝ)] ![3] = fun _ => 6 := by
      rw [hmv]; funext i; norm_num [r3]
    have m2 : (Arith.ieee 53).mv !![(2 : ℝ)] (fun _ => 6) = fun _ => 12 := by
      rw [hmv]; funext i; norm_num [r12]
    have d1 : (Arith.ieee 53).pdiv ((Arith.ieee 53).dot ![3] fun _ => 6) ((Arith.ieee 53).dot ![3] ![3]) = .ok 2 := by
      rw [hd, hd]; norm_num [r9, r18, Arith.pdiv, Arith.div, ieee_rnd, h2]
    have d3 : (Arith.ieee 53).dot (fun _ : Fin 1 => (6 : ℝ)) (fun _ => 6) = 36 := by rw [hd]; norm_num [r36]
    have d2 : (Arith.ieee 53).pdiv ((Arith.ieee 53).dot (fun _ : Fin 1 => (6 : ℝ)) fun _ => 12) 36 = .ok 2 := by
      rw [hd]; norm_num [r72, Arith.pdiv, Arith.div, ieee_rnd, h2]
    unfold Arith.powerIteration3
    simp only [m1, d1]
    change (Arith.ieee 53).powerLoop3 !![2] ⟨2000, 1 / 10 ^ 9⟩ (1999 + 1) 0 ![3] (fun _ => 6) 2 = _
    rw [Arith.powerLoop3]
    simp only [m2, d3, d2]
    rw [if_neg (by norm_num), if_pos (by simp [Arith.sub, ieee_rnd]), hun 6 (by norm_num) (by norm_num) _ (by norm_num)]

end Ellalgo
