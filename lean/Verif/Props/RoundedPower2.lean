import Verif.Model.RoundedPower2
import Verif.Props.RoundedPower

/-!
# C130: a converged `power_iteration2` in floating point has found an eigenvalue of a positive semidefinite matrix
-/

namespace Ellalgo

open Finset Matrix Spec

variable {n : ℕ} {A : Arith} {u γ : ℝ}

/-- Two Rayleigh quotients in a row, when the second vector is the image of the first up to `ε`. -/
theorem growth_bound {M : Mat n} (hS : M.IsSymm) (hq : QuadNonneg M) {v x e : Vec n} {c ρ : ℝ} (he : c • x = M *ᵥ v + e) (hρ : x ⬝ᵥ (M *ᵥ x) ≤ ρ * (x ⬝ᵥ x)) (hρ0 : 0 ≤ ρ) :
    nrm (M *ᵥ v) ^ 2 ≤ (v ⬝ᵥ (M *ᵥ v)) * ρ + 4 * (nrm e * nrm (M *ᵥ v)) := by
  have ha := nrm_nonneg (M *ᵥ v)
  have hε := nrm_nonneg e
  have hqv : 0 ≤ v ⬝ᵥ (M *ᵥ v) := hq v
  rcases le_or_gt (nrm (M *ᵥ v)) (nrm e) with h | h
  · have h1 : nrm (M *ᵥ v) ^ 2 ≤ nrm e * nrm (M *ᵥ v) := by rw [sq]; exact mul_le_mul_of_nonneg_right h ha
    have h2 := mul_nonneg hqv hρ0
    have h3 := mul_nonneg hε ha
    linarith
  have h1 := quad_cauchy hS hq v (c • x)
  have h2 : v ⬝ᵥ (M *ᵥ (c • x)) = nrm (M *ᵥ v) ^ 2 + (M *ᵥ v) ⬝ᵥ e := by
    rw [symm_dotProduct hS, he, dotProduct_add, nrm_sq]
  have h3 := (abs_le.mp (abs_dot_le (M *ᵥ v) e)).1
  have h4 : (c • x) ⬝ᵥ (M *ᵥ (c • x)) ≤ ρ * (nrm (M *ᵥ v) + nrm e) ^ 2 := by
    have a1 : (c • x) ⬝ᵥ (M *ᵥ (c • x)) = c ^ 2 * (x ⬝ᵥ (M *ᵥ x)) := by
      rw [mulVec_smul, smul_dotProduct, dotProduct_smul, smul_eq_mul, smul_eq_mul]; ring
    have a2 : nrm (c • x) ^ 2 = c ^ 2 * (x ⬝ᵥ x) := by
      rw [nrm_sq, smul_dotProduct, dotProduct_smul, smul_eq_mul, smul_eq_mul]; ring
    have a3 : nrm (c • x) ≤ nrm (M *ᵥ v) + nrm e := by rw [he]; exact nrm_add_le _ _
    have a4 := mul_le_mul_of_nonneg_left hρ (sq_nonneg c)
    have a5 := mul_le_mul_of_nonneg_left (pow_le_pow_left₀ (nrm_nonneg _) a3 2) hρ0
    rw [a1]
    rw [a2] at a5
    linarith
  rw [h2] at h1
  have h6 := mul_le_mul_of_nonneg_left h4 hqv
  generalize nrm (M *ᵥ v) = a at *
  generalize nrm e = ε at *
  generalize (M *ᵥ v) ⬝ᵥ e = w at *
  generalize v ⬝ᵥ (M *ᵥ v) = q at *
  have ha0 : 0 < a := lt_of_le_of_lt hε h
  have h5 : (a ^ 2 - a * ε) ^ 2 ≤ (a ^ 2 + w) ^ 2 := pow_le_pow_left₀ (by nlinarith) (by linarith) 2
  have h7 : (a ^ 2 - a * ε) ^ 2 ≤ q * ρ * (a + ε) ^ 2 := by linarith
  have h8 : (a - 4 * ε) * (a + ε) ^ 2 ≤ a * (a - ε) ^ 2 := by
    have : 0 ≤ a * ε ^ 2 := by positivity
    have : 0 ≤ ε ^ 3 := by positivity
    nlinarith
  have h9 : a * ((a - 4 * ε) * (a + ε) ^ 2) ≤ q * ρ * (a + ε) ^ 2 := by
    have := mul_le_mul_of_nonneg_left h8 ha0.le
    have e : a * (a * (a - ε) ^ 2) = (a ^ 2 - a * ε) ^ 2 := by ring
    linarith
  have h10 : (0 : ℝ) < (a + ε) ^ 2 := by positivity
  have h11 : a * (a - 4 * ε) ≤ q * ρ := by
    refine le_of_mul_le_mul_right ?_ h10
    linarith
  linarith

theorem Spec.AbsBound.quad_le {M : Mat n} {L : ℝ} (hM : AbsBound M L) (z : Vec n) : |z ⬝ᵥ (M *ᵥ z)| ≤ L * nrm z ^ 2 := by
  have a1 := abs_dot_le z (M *ᵥ z)
  have a2 := mul_le_mul_of_nonneg_left (hM.mulVec_nrm z) (nrm_nonneg z)
  linarith

/-- A computed Rayleigh quotient and the exact one. -/
theorem quotient_value {M : Mat n} {L ld : ℝ} {x : Vec n} (hL : 0 ≤ L) (hγ0 : 0 ≤ γ) (hγ : γ ≤ 1 / 100) (hx : |nrm x - 1| ≤ 4 * γ) (hM : |x ⬝ᵥ (M *ᵥ x)| ≤ L * nrm x ^ 2)
    (hld : |ld - x ⬝ᵥ (M *ᵥ x)| ≤ 11 / 5 * γ * L) : |x ⬝ᵥ (M *ᵥ x) / nrm x ^ 2 - ld| ≤ 104 / 10 * γ * L := by
  have hx' := abs_le.mp hx
  have hx0 := nrm_nonneg x
  have hp : 0 < nrm x := by linarith
  have h3 : |1 - nrm x ^ 2| ≤ 204 / 25 * γ := by
    have e : 1 - nrm x ^ 2 = -((nrm x - 1) * (nrm x + 1)) := by ring
    rw [e, abs_neg, abs_mul, abs_of_nonneg (show 0 ≤ nrm x + 1 by linarith)]
    have := mul_le_mul hx (show nrm x + 1 ≤ 51 / 25 by linarith) (by linarith) (by linarith)
    linarith
  have h4 : |x ⬝ᵥ (M *ᵥ x) / nrm x ^ 2| ≤ L := by rw [abs_div, abs_of_pos (show 0 < nrm x ^ 2 by positivity), div_le_iff₀ (by positivity)]; exact hM
  have h6 : x ⬝ᵥ (M *ᵥ x) / nrm x ^ 2 - x ⬝ᵥ (M *ᵥ x) = x ⬝ᵥ (M *ᵥ x) / nrm x ^ 2 * (1 - nrm x ^ 2) := by field_simp
  have h7 : |x ⬝ᵥ (M *ᵥ x) / nrm x ^ 2 - x ⬝ᵥ (M *ᵥ x)| ≤ L * (204 / 25 * γ) := by
    rw [h6, abs_mul]
    exact mul_le_mul h4 h3 (abs_nonneg _) hL
  have h8 := abs_sub_le (x ⬝ᵥ (M *ᵥ x) / nrm x ^ 2) (x ⬝ᵥ (M *ᵥ x)) ld
  rw [abs_sub_comm (x ⬝ᵥ (M *ᵥ x)) ld] at h8
  have h9 : 0 ≤ γ * L := by positivity
  linarith

/-- Rayleigh quotients of a vector and of its image up to rounding errors, computed up to `10.4 γ L`: if they hardly differ, they are near an eigenvalue. -/
theorem growth_eigenvalue {M : Mat n} {L tol ld1 ld : ℝ} (hS : M.IsSymm) (hq : QuadNonneg M) (hM : AbsBound M L) (hγ0 : 0 ≤ γ) {v x e : Vec n} {c : ℝ} (hvp : 0 < nrm v) (hxp : 0 < nrm x) (hee : c • x = M *ᵥ v + e)
    (hen : nrm e ≤ 201 / 100 * (γ * (L * nrm v))) (htol : 0 ≤ tol) (r1 : |v ⬝ᵥ (M *ᵥ v) / nrm v ^ 2 - ld1| ≤ 104 / 10 * γ * L) (r2 : |x ⬝ᵥ (M *ᵥ x) / nrm x ^ 2 - ld| ≤ 104 / 10 * γ * L) (hdif : |ld1 - ld| ≤ 102 / 100 * tol) :
    ∃ μ : ℝ, ∃ w : Vec n, w ≠ 0 ∧ M *ᵥ w = μ • w ∧ |μ - ld| ≤ Real.sqrt (102 / 100 * (L * tol) + 29 * (γ * L ^ 2)) + 102 / 100 * tol + 104 / 10 * (γ * L) := by
  have hL := hM.1
  have hqL : v ⬝ᵥ (M *ᵥ v) ≤ L * nrm v ^ 2 := by
    have a1 := (le_abs_self _).trans (abs_dot_le v (M *ᵥ v))
    have a2 := mul_le_mul_of_nonneg_left (hM.mulVec_nrm v) (nrm_nonneg v)
    linarith
  have hρ0 : 0 ≤ x ⬝ᵥ (M *ᵥ x) / nrm x ^ 2 := div_nonneg (hq x) (by positivity)
  have hg := growth_bound hS hq hee (ρ := x ⬝ᵥ (M *ᵥ x) / nrm x ^ 2) (by rw [← nrm_sq, div_mul_cancel₀ _ (by positivity)]) hρ0
  have hqv : 0 ≤ v ⬝ᵥ (M *ᵥ v) := hq v
  have hres : (M *ᵥ v - (v ⬝ᵥ (M *ᵥ v) / nrm v ^ 2) • v) ⬝ᵥ (M *ᵥ v - (v ⬝ᵥ (M *ᵥ v) / nrm v ^ 2) • v) = nrm (M *ᵥ v) ^ 2 - v ⬝ᵥ (M *ᵥ v) * (v ⬝ᵥ (M *ᵥ v) / nrm v ^ 2) := by
    rw [nrm_sq (M *ᵥ v)]
    simp only [sub_dotProduct, dotProduct_sub, smul_dotProduct, dotProduct_smul, smul_eq_mul]
    rw [dotProduct_comm (M *ᵥ v) v, ← nrm_sq v]
    field_simp
    ring
  have hLγ : 0 ≤ γ * L := by positivity
  have hρd : x ⬝ᵥ (M *ᵥ x) / nrm x ^ 2 - v ⬝ᵥ (M *ᵥ v) / nrm v ^ 2 ≤ 102 / 100 * tol + 208 / 10 * (γ * L) := by
    have a1 := abs_le.mp r1
    have a2 := abs_le.mp r2
    have a3 := abs_le.mp hdif
    linarith
  have hbound : nrm (M *ᵥ v) ^ 2 - v ⬝ᵥ (M *ᵥ v) * (v ⬝ᵥ (M *ᵥ v) / nrm v ^ 2) ≤ (102 / 100 * (L * tol) + 29 * (γ * L ^ 2)) * nrm v ^ 2 := by
    have b1 : v ⬝ᵥ (M *ᵥ v) * (x ⬝ᵥ (M *ᵥ x) / nrm x ^ 2 - v ⬝ᵥ (M *ᵥ v) / nrm v ^ 2) ≤ L * nrm v ^ 2 * (102 / 100 * tol + 208 / 10 * (γ * L)) :=
      (mul_le_mul_of_nonneg_left hρd hqv).trans (mul_le_mul_of_nonneg_right hqL (by positivity))
    have b2 : nrm e * nrm (M *ᵥ v) ≤ 201 / 100 * (γ * (L * nrm v)) * (L * nrm v) := mul_le_mul hen (hM.mulVec_nrm v) (nrm_nonneg _) (by positivity)
    have b3 : 0 ≤ γ * L ^ 2 * nrm v ^ 2 := by positivity
    linarith
  have hnn : 0 ≤ 102 / 100 * (L * tol) + 29 * (γ * L ^ 2) := by positivity
  obtain ⟨μ, w, w1, w2, w3⟩ := nearby_eigenvalue hS (Real.sqrt_nonneg (102 / 100 * (L * tol) + 29 * (γ * L ^ 2))) (c := v ⬝ᵥ (M *ᵥ v) / nrm v ^ 2) (x := v)
    (fun h0 => by rw [h0] at hvp; simp [nrm] at hvp) (by rw [hres, Real.sq_sqrt hnn, ← nrm_sq]; exact hbound)
  refine ⟨μ, w, w1, w2, ?_⟩
  have a1 := abs_sub_le μ (v ⬝ᵥ (M *ᵥ v) / nrm v ^ 2) ld
  have a2 := abs_sub_le (v ⬝ᵥ (M *ᵥ v) / nrm v ^ 2) ld1 ld
  linarith

/-- The rounding error of the image, when the vector is divided by its length afterwards. -/
theorem image_error {M : Mat n} {L : ℝ} (hM : AbsBound M L) (hA : A.Accurate u γ n) (hγ0 : 0 ≤ γ) (hγ : γ ≤ 1 / 100) {v x : Vec n} {c : ℝ} (hd : nrm (A.mv M v - c • x) ≤ γ * nrm (A.mv M v)) :
    nrm (c • x - M *ᵥ v) ≤ 201 / 100 * (γ * (L * nrm v)) := by
  have hL := hM.1
  have hLv0 : 0 ≤ L * nrm v := mul_nonneg hL (nrm_nonneg v)
  have he := hM.mv_nrm hA hγ0 v
  have hy : nrm (A.mv M v) ≤ 101 / 100 * (L * nrm v) := by
    have a1 := nrm_add_le (A.mv M v - M *ᵥ v) (M *ᵥ v)
    rw [sub_add_cancel] at a1
    have a2 := hM.mulVec_nrm v
    have a3 := mul_le_mul_of_nonneg_right hγ hLv0
    linarith
  have hee : c • x - M *ᵥ v = (A.mv M v - M *ᵥ v) - (A.mv M v - c • x) := by abel
  rw [hee]
  have a1 := nrm_abs_sub (A.mv M v - M *ᵥ v) (A.mv M v - c • x)
  have a2 := mul_le_mul_of_nonneg_left hy hγ0
  linarith

theorem rounded_difference (hA : A.Accurate u γ n) (huγ : u ≤ γ) (hγ : γ ≤ 1 / 100) {a b tol : ℝ} (hs : |A.sub a b| ≤ tol) : |a - b| ≤ 102 / 100 * tol := by
  have htol : 0 ≤ tol := (abs_nonneg _).trans hs
  have a1 := hA.rnd (a - b)
  have a2 := abs_sub_abs_le_abs_sub (a - b) (A.rnd (a - b))
  rw [abs_sub_comm (a - b) (A.rnd _)] at a2
  change |A.rnd (a - b)| ≤ tol at hs
  have a3 := mul_le_mul_of_nonneg_right (huγ.trans hγ) (abs_nonneg (a - b))
  linarith

/-- One pass that stops. -/
theorem stop2_near {M : Mat n} {L tol : ℝ} (hS : M.IsSymm) (hq : QuadNonneg M) (hM : AbsBound M L) (hA : A.Accurate u γ n) (hu : 0 ≤ u) (huγ : u ≤ γ) (hγ : γ ≤ 1 / 100) {v x : Vec n} (hv : |nrm v - 1| ≤ 4 * γ)
    (h : A.arrUnit (A.mv M v) = .ok x) (hs : |A.sub (A.dot v (A.mv M v)) (A.dot x (A.mv M x))| ≤ tol) :
    ∃ μ : ℝ, ∃ w : Vec n, w ≠ 0 ∧ M *ᵥ w = μ • w ∧ |μ - A.dot x (A.mv M x)| ≤ Real.sqrt (102 / 100 * (L * tol) + 29 * (γ * L ^ 2)) + 102 / 100 * tol + 104 / 10 * (γ * L) := by
  have hγ0 := hu.trans huγ
  obtain ⟨c, -, -, hd, hx⟩ := unit_computed hA hu huγ hγ h
  have hv' := abs_le.mp hv
  have hx' := abs_le.mp hx
  exact growth_eigenvalue hS hq hM hγ0 (by linarith) (by linarith) (add_sub_cancel (M *ᵥ v) (c • x)).symm (image_error hM hA hγ0 hγ hd) ((abs_nonneg _).trans hs)
    (quotient_value hM.1 hγ0 hγ hv (hM.quad_le v) (value_near hM hA hγ0 hγ hv)) (quotient_value hM.1 hγ0 hγ hx (hM.quad_le x) (value_near hM hA hγ0 hγ hx)) (rounded_difference hA huγ hγ hs)

theorem powerLoop2_near {M : Mat n} {L : ℝ} (hM : AbsBound M L) (hA : A.Accurate u γ n) (hu : 0 ≤ u) (huγ : u ≤ γ) (hγ : γ ≤ 1 / 100) (o : PowerOptions) {r : PowerResult n} :
    ∀ (left niter : ℕ) (v : Vec n), niter + left = o.maxIters → |nrm v - 1| ≤ 4 * γ → A.powerLoop2 M o left niter v (A.mv M v) (A.dot v (A.mv M v)) = .ok r →
      |nrm r.x - 1| ≤ 4 * γ ∧ |r.ld - r.x ⬝ᵥ (M *ᵥ r.x)| ≤ 11 / 5 * γ * L ∧ r.niter ≤ o.maxIters ∧
      (r.niter < o.maxIters → M.IsSymm → QuadNonneg M → ∃ μ : ℝ, ∃ w : Vec n, w ≠ 0 ∧ M *ᵥ w = μ • w ∧
        |μ - r.ld| ≤ Real.sqrt (102 / 100 * (L * o.tolerance) + 29 * (γ * L ^ 2)) + 102 / 100 * o.tolerance + 104 / 10 * (γ * L))
  | 0, niter, v, _, hv, h => by
    cases h
    exact ⟨hv, value_near hM hA (hu.trans huγ) hγ hv, le_rfl, fun h => absurd h (lt_irrefl _)⟩
  | left + 1, niter, v, hN, hv, h => by
    rw [Arith.powerLoop2] at h
    rcases hy : A.arrUnit (A.mv M v) with f | x
    · rw [hy] at h; cases h
    simp only [hy] at h
    obtain ⟨c, -, -, -, hx⟩ := unit_computed hA hu huγ hγ hy
    split_ifs at h with hs
    · cases h
      exact ⟨hx, value_near hM hA (hu.trans huγ) hγ hx, by show niter ≤ _; omega, fun _ hS hq => stop2_near hS hq hM hA hu huγ hγ hv hy hs⟩
    · exact powerLoop2_near hM hA hu huγ hγ o left (niter + 1) x (by omega) hx h

/-- **C130.** What `power_iteration2` returns in floating point, for every square matrix with `‖ |A| ‖ ≤ L`: a vector of length one up to `4 γ` and its Rayleigh quotient up to `11/5 γ L`. If it reports fewer than `max_iters` passes and the matrix
is symmetric positive semidefinite, the value is within `√(1.02 L tol + 29 γ L²) + 1.02 tol + 10.4 γ L` of an eigenvalue. -/
theorem C130_eigenvalue {M : Mat n} {L : ℝ} (hM : AbsBound M L) (hA : A.Accurate u γ n) (hu : 0 ≤ u) (huγ : u ≤ γ) (hγ : γ ≤ 1 / 100) {x : Vec n} {o : PowerOptions} {r : PowerResult n} (h : A.powerIteration2 M x o = .ok r) :
    |Real.sqrt (∑ i, r.x i ^ 2) - 1| ≤ 4 * γ ∧ |r.ld - r.x ⬝ᵥ (M *ᵥ r.x)| ≤ 11 / 5 * γ * L ∧ r.niter ≤ o.maxIters ∧
    (r.niter < o.maxIters → M.IsSymm → QuadNonneg M → ∃ μ : ℝ, ∃ w : Vec n, w ≠ 0 ∧ M *ᵥ w = μ • w ∧
      |μ - r.ld| ≤ Real.sqrt (102 / 100 * (L * o.tolerance) + 29 * (γ * L ^ 2)) + 102 / 100 * o.tolerance + 104 / 10 * (γ * L)) := by
  unfold Arith.powerIteration2 at h
  rcases hy : A.arrUnit x with f | y
  · rw [hy] at h; cases h
  simp only [hy] at h
  obtain ⟨c, -, -, -, hx⟩ := unit_computed hA hu huγ hγ hy
  have := powerLoop2_near hM hA hu huγ hγ o o.maxIters 0 y (by omega) hx h
  rwa [nrm_eq_sqrt] at this

/-- **C130** for machine numbers with `p` bits, `2^p ≥ 200 (n+1)`. -/
theorem C130_bits {p : ℕ} (hp : 200 * ((n : ℝ) + 1) ≤ 2 ^ p) {M : Mat n} {L : ℝ} (hM : AbsBound M L) {x : Vec n} {o : PowerOptions} {r : PowerResult n} (h : (Arith.ieee p).powerIteration2 M x o = .ok r) :
    |Real.sqrt (∑ i, r.x i ^ 2) - 1| ≤ 8 * (n + 1) / 2 ^ p ∧ |r.ld - r.x ⬝ᵥ (M *ᵥ r.x)| ≤ 22 / 5 * (n + 1) / 2 ^ p * L ∧ r.niter ≤ o.maxIters ∧
    (r.niter < o.maxIters → M.IsSymm → QuadNonneg M → ∃ μ : ℝ, ∃ w : Vec n, w ≠ 0 ∧ M *ᵥ w = μ • w ∧
      |μ - r.ld| ≤ Real.sqrt (102 / 100 * (L * o.tolerance) + 58 * (n + 1) / 2 ^ p * L ^ 2) + 102 / 100 * o.tolerance + 104 / 5 * (n + 1) / 2 ^ p * L) := by
  have hup : (2⁻¹ : ℝ) ^ p * 2 ^ p = 1 := by rw [← mul_pow]; norm_num
  have hu0 : (0 : ℝ) < 2⁻¹ ^ p := by positivity
  have hinv : (2 ^ p : ℝ)⁻¹ = 2⁻¹ ^ p := by rw [inv_pow]
  have hn0 : (0 : ℝ) ≤ n := Nat.cast_nonneg n
  obtain ⟨γ, hγ⟩ : ∃ γ : ℝ, γ = 2 * ((n : ℝ) + 1) * 2⁻¹ ^ p := ⟨_, rfl⟩
  have hsm : 200 * (((n : ℝ) + 1) * 2⁻¹ ^ p) ≤ 1 := by
    have := mul_le_mul_of_nonneg_right hp hu0.le
    rw [mul_comm ((2 : ℝ) ^ p), hup] at this
    linarith
  have hle : ((1 : ℝ) + 2⁻¹ ^ p) ^ (n + 1) - 1 ≤ γ := by
    have := Arith.ieee_gamma_le (p := p) (n := n) (by linarith)
    rwa [← hγ] at this
  have hacc : (Arith.ieee p).Accurate (2⁻¹ ^ p) γ n := (Arith.ieee_accurate p n).mono le_rfl hle
  have huγ : (2⁻¹ : ℝ) ^ p ≤ γ := (Arith.ieee_le_gamma p n).trans hle
  have hγ1 : γ ≤ 1 / 100 := by rw [hγ]; linarith
  have e1 : 8 * ((n : ℝ) + 1) / 2 ^ p = 4 * γ := by rw [div_eq_mul_inv, hinv, hγ]; ring
  have e2 : 22 / 5 * ((n : ℝ) + 1) / 2 ^ p = 11 / 5 * γ := by rw [div_eq_mul_inv, hinv, hγ]; ring
  have e3 : 58 * ((n : ℝ) + 1) / 2 ^ p * L ^ 2 = 29 * (γ * L ^ 2) := by rw [div_eq_mul_inv, hinv, hγ]; ring
  have e4 : 104 / 5 * ((n : ℝ) + 1) / 2 ^ p * L = 104 / 10 * (γ * L) := by rw [div_eq_mul_inv, hinv, hγ]; ring
  rw [e1, e2, e3, e4]
  exact C130_eigenvalue hM hacc hu0.le huγ hγ1 h

/-- The matrix `[[2]]` and the start vector `[3]` in double precision: the hypotheses of `C130_bits` and `C130_eigenvalue` hold, and the run converges in pass 0. -/
example : AbsBound !![(2 : ℝ)] 2 ∧ (!![(2 : ℝ)] : Mat 1).IsSymm ∧ QuadNonneg (!![(2 : ℝ)] : Mat 1) ∧ (Arith.ieee 53).powerIteration2 !![2] ![3] ⟨2000, 1 / 10 ^ 9⟩ = .ok ⟨fun _ => 1, 2, 0, fun _ => 1⟩ := by
  have hM : AbsBound !![(2 : ℝ)] 2 := ⟨by norm_num, fun v => by
    simp only [Fin.sum_univ_one]
    rw [show (|(!![(2 : ℝ)] : Mat 1) 0 0| * |v 0|) ^ 2 = 2 ^ 2 * v 0 ^ 2 by rw [mul_pow, sq_abs, sq_abs]; rfl, Real.sqrt_mul (by norm_num), Real.sqrt_sq (by norm_num)]⟩
  have hd : ∀ x y : Vec 1, (Arith.ieee 53).dot x y = roundBits 53 (0 + roundBits 53 (x 0 * y 0)) := fun x y => by simp [Arith.ieee, seqDot, Fin.foldl_succ, Fin.foldl_zero]
  have hm : (Arith.ieee 53).mv !![(2 : ℝ)] (fun _ => 1) = fun _ => 2 := by
    funext i
    fin_cases i
    have := rbN 2 (by norm_num)
    push_cast at this
    simp [Arith.ieee, seqDot, Fin.foldl_succ, Fin.foldl_zero, this]
  have r1 : roundBits 53 1 = 1 := by simpa using rbN 1 (by norm_num)
  have hun : ∀ k : ℕ, 0 < k → k * k < 2 ^ 53 → ∀ y : Vec 1, y 0 = k → (Arith.ieee 53).arrUnit y = .ok fun _ => 1 := fun k hk hk2 y hy => by
    have hkk : (k : ℝ) * k < 2 ^ 53 := by exact_mod_cast hk2
    have hk0 : (0 : ℝ) < k := by exact_mod_cast hk
    have hk1 : (1 : ℝ) ≤ k := by exact_mod_cast hk
    have e1 : roundBits 53 ((k : ℝ) * k) = k * k := by
      have := rbN (k * k) (by push_cast; rw [abs_of_nonneg (by positivity)]; exact hkk)
      push_cast at this; exact this
    have e2 : roundBits 53 (k : ℝ) = k := by
      have := rbN k (by push_cast; rw [abs_of_pos hk0]; nlinarith)
      push_cast at this; exact this
    have ec : (Arith.ieee 53).rnd (Real.sqrt ((Arith.ieee 53).dot y y)) = k := by rw [hd, hy, e1, zero_add, e1, Real.sqrt_mul_self hk0.le, ieee_rnd, e2]
    unfold Arith.arrUnit
    simp only [ec]
    rw [if_neg hk0.ne']
    congr 1
    funext i
    fin_cases i
    show roundBits 53 (y 0 / k) = 1
    rw [hy, div_self hk0.ne', r1]
  have h2 : roundBits 53 2 = 2 := by simpa using rbN 2 (by norm_num)
  have hl : (Arith.ieee 53).dot (fun _ : Fin 1 => (1 : ℝ)) (fun _ => 2) = 2 := by rw [hd, one_mul, h2, zero_add, h2]
  refine ⟨hM, by ext i j; fin_cases i; fin_cases j; rfl, fun v => ?_, ?_⟩
  · simp only [dotProduct, mulVec, Fin.sum_univ_one]
    have : v 0 * ((!![(2 : ℝ)] : Mat 1) 0 0 * v 0) = 2 * v 0 ^ 2 := by simp; ring
    rw [this]
    positivity
  · unfold Arith.powerIteration2
    rw [hun 3 (by norm_num) (by norm_num) _ (by simp)]
    change (Arith.ieee 53).powerLoop2 !![2] ⟨2000, 1 / 10 ^ 9⟩ (1999 + 1) 0 (fun _ => 1) ((Arith.ieee 53).mv !![2] fun _ => 1) ((Arith.ieee 53).dot (fun _ => 1) ((Arith.ieee 53).mv !![2] fun _ => 1)) = _
    rw [Arith.powerLoop2, hm, hun 2 (by norm_num) (by norm_num) _ (by norm_num)]
    simp only [hm, hl]
    rw [if_pos (by simp [Arith.sub, ieee_rnd])]

end Ellalgo
