import Verif.Lemmas.Power
import Mathlib.Analysis.SpecialFunctions.Log.Basic
import Mathlib.LinearAlgebra.Matrix.Notation

/-! # C86-C88: how good the results of the power iterations are -/

namespace Ellalgo

open Matrix Spec

variable {n : ℕ}

/-- What a run that returned `r` has found, in terms of the specification: `K = min (niter + 1) N` multiplications were made; `niter < N` exactly if the criterion was met. -/
theorem powerSpec_ok {A : Mat n} {x : Vec n} {N : ℕ} {stop : ℕ → Prop} {arg : Vec n → Vec n} {r : PowerResult n}
    (h : PowerSpec A x N stop arg (.ok r)) :
    (∀ j ≤ min (r.niter + 1) N, powDir A x j ≠ 0) ∧ r.x = unitVec (powDir A x (min (r.niter + 1) N)) ∧ r.ld = rayleigh A (powDir A x (min (r.niter + 1) N)) ∧
    r.niter ≤ N ∧ (r.niter < N → stop r.niter) ∧ (∀ j < r.niter, ¬ stop j) := by
  rcases h with ⟨k, hk, h0, hst, hmin, h⟩ | ⟨h0, hmin, h⟩ | ⟨k, hk, hz, hmin, h⟩
  · rw [Except.ok.injEq] at h; subst h
    simp only [Nat.min_eq_left (show k + 1 ≤ N from hk)]
    exact ⟨h0, trivial, trivial, hk.le, fun _ => hst, hmin⟩
  · rw [Except.ok.injEq] at h; subst h
    simp only [Nat.min_eq_right (show N ≤ N + 1 by omega)]
    exact ⟨h0, trivial, trivial, le_rfl, fun h => absurd h (lt_irrefl _), hmin⟩
  · cases h

/-- The four functions of the file. -/
inductive PowerVariant : (Mat n → Vec n → PowerOptions → Except Fault (PowerResult n)) → (Mat n → Vec n → ℝ → ℕ → Prop) → Prop
  | one : PowerVariant powerIteration stopVec
  | two : PowerVariant powerIteration2 stopRay
  | three : PowerVariant powerIteration3 stopRay
  | four : PowerVariant powerIteration4 stopVec1

theorem PowerVariant.spec {run : Mat n → Vec n → PowerOptions → Except Fault (PowerResult n)} {stop : Mat n → Vec n → ℝ → ℕ → Prop}
    (hv : PowerVariant run stop) (A : Mat n) (x : Vec n) (o : PowerOptions) :
    ∃ arg, PowerSpec A x o.maxIters (stop A x o.tolerance) arg (run A x o) := by
  cases hv
  · exact ⟨_, C85_power_iteration A x o⟩
  · exact ⟨_, C85_power_iteration2 A x o⟩
  · exact ⟨_, C85_power_iteration3 A x o⟩
  · exact ⟨_, C85_power_iteration4 A x o⟩

variable {run : Mat n → Vec n → PowerOptions → Except Fault (PowerResult n)} {stop : Mat n → Vec n → ℝ → ℕ → Prop}

theorem PowerVariant.ok (hv : PowerVariant run stop) {A : Mat n} {x : Vec n} {o : PowerOptions} {r : PowerResult n} (h : run A x o = .ok r) :
    (∀ j ≤ min (r.niter + 1) o.maxIters, powDir A x j ≠ 0) ∧ r.x = unitVec (powDir A x (min (r.niter + 1) o.maxIters)) ∧
    r.ld = rayleigh A (powDir A x (min (r.niter + 1) o.maxIters)) ∧
    r.niter ≤ o.maxIters ∧ (r.niter < o.maxIters → stop A x o.tolerance r.niter) ∧ (∀ j < r.niter, ¬ stop A x o.tolerance j) := by
  obtain ⟨arg, hs⟩ := hv.spec A x o
  rw [h] at hs
  exact powerSpec_ok hs

/-- **C86.** Whatever the matrix: the returned vector has length one and the returned value is its Rayleigh quotient. In all four variants. -/
theorem C86_unit_and_rayleigh (hv : PowerVariant run stop) (A : Mat n) (x : Vec n) (o : PowerOptions) (r : PowerResult n) (h : run A x o = .ok r) :
    r.x ⬝ᵥ r.x = 1 ∧ r.ld = r.x ⬝ᵥ (A *ᵥ r.x) := by
  obtain ⟨h0, h1, h2, -⟩ := hv.ok h
  rw [h1, h2, rayleigh_unit A (h0 _ le_rfl)]
  exact ⟨unitVec_dot (h0 _ le_rfl), rfl⟩

/-- The residual after two successive scaled vectors were found to be nearly parallel. -/
theorem residual_of_parallel (A : Mat n) {L tol s ν c : ℝ} (hL : ∀ y : Vec n, (A *ᵥ y) ⬝ᵥ (A *ᵥ y) ≤ L ^ 2 * (y ⬝ᵥ y))
    {u w : Vec n} (hw : A *ᵥ u = ν • w) (hs : normL1 (w - s • u) ≤ tol) (hc : 0 ≤ c) (hu : (c • w) ⬝ᵥ (c • w) = 1) :
    (A *ᵥ (c • w) - ((c • w) ⬝ᵥ (A *ᵥ (c • w))) • (c • w)) ⬝ᵥ (A *ᵥ (c • w) - ((c • w) ⬝ᵥ (A *ᵥ (c • w))) • (c • w)) ≤ (c * (L * tol)) ^ 2 := by
  refine (residual_min A hu (s * ν)).trans ?_
  have e : A *ᵥ (c • w) - (s * ν) • (c • w) = c • (A *ᵥ (w - s • u)) := by
    rw [mulVec_sub, mulVec_smul, mulVec_smul, hw, smul_sub, smul_smul, smul_smul, smul_smul]
    congr 2; ring
  rw [e, dotProduct_smul, smul_dotProduct, smul_eq_mul, smul_eq_mul, ← mul_assoc]
  have h1 := hL (w - s • u)
  have h2 := dot_self_le_normL1 (w - s • u)
  have h3 : 0 ≤ normL1 (w - s • u) := Finset.sum_nonneg fun _ _ => abs_nonneg _
  have h4 : normL1 (w - s • u) ^ 2 ≤ tol ^ 2 := pow_le_pow_left₀ h3 hs 2
  calc c * c * _ ≤ c * c * (L ^ 2 * tol ^ 2) := by
        refine mul_le_mul_of_nonneg_left (h1.trans (mul_le_mul_of_nonneg_left (h2.trans h4) (sq_nonneg L))) (mul_nonneg hc hc)
    _ = _ := by ring

theorem dir_step (A : Mat n) (x : Vec n) {k : ℕ} (h1 : powDir A x (k + 1) ≠ 0) :
    ∃ ν : ℝ, A *ᵥ unitVec (powDir A x k) = ν • unitVec (powDir A x (k + 1)) := by
  obtain ⟨c, hc, he⟩ := unitVec_eq h1
  refine ⟨(Real.sqrt (powDir A x k ⬝ᵥ powDir A x k))⁻¹ * c⁻¹, ?_⟩
  rw [he, smul_smul, mul_assoc, inv_mul_cancel₀ hc.ne', mul_one]
  unfold unitVec; rw [mulVec_dir]

theorem dir_step1 (A : Mat n) (x : Vec n) {k : ℕ} (h1 : powDir A x (k + 1) ≠ 0) :
    ∃ ν : ℝ, A *ᵥ unitVec1 (powDir A x k) = ν • unitVec1 (powDir A x (k + 1)) := by
  obtain ⟨c, hc, he⟩ := unitVec1_eq h1
  refine ⟨(∑ i, |powDir A x k i|)⁻¹ * c⁻¹, ?_⟩
  rw [he, smul_smul, mul_assoc, inv_mul_cancel₀ hc.ne', mul_one]
  unfold unitVec1; rw [mulVec_dir]

theorem parallel_cases {u w : Vec n} {tol : ℝ} (h : (∑ i, |w i - u i|) ≤ tol ∨ (∑ i, |w i + u i|) ≤ tol) :
    ∃ s : ℝ, normL1 (w - s • u) ≤ tol := by
  rcases h with h | h
  · exact ⟨1, by simpa [normL1] using h⟩
  · exact ⟨-1, by simpa [normL1] using h⟩

/-- **C86.** If `power_iteration` reports fewer than `max_iters` passes, the result is an approximate eigenpair: `‖Ax - ld x‖ ≤ L tol`, where `L` bounds the norm of the matrix. For every square matrix. -/
theorem C86_residual (A : Mat n) (x : Vec n) (o : PowerOptions) (r : PowerResult n) (h : powerIteration A x o = .ok r) (hn : r.niter < o.maxIters)
    (L : ℝ) (hL : ∀ y : Vec n, (A *ᵥ y) ⬝ᵥ (A *ᵥ y) ≤ L ^ 2 * (y ⬝ᵥ y)) :
    (A *ᵥ r.x - r.ld • r.x) ⬝ᵥ (A *ᵥ r.x - r.ld • r.x) ≤ (L * o.tolerance) ^ 2 := by
  obtain ⟨hu, hr⟩ := C86_unit_and_rayleigh .one A x o r h
  obtain ⟨h0, h1, -, -, h2, -⟩ := PowerVariant.one.ok h
  rw [Nat.min_eq_left hn] at h0 h1
  obtain ⟨ν, hν⟩ := dir_step A x (h0 _ le_rfl)
  obtain ⟨s, hs⟩ := parallel_cases (h2 hn)
  rw [← h1] at hν hs
  have := residual_of_parallel A hL hν hs zero_le_one (by rwa [one_smul])
  rwa [one_smul, ← hr, one_mul] at this

/-- **C86.** If `power_iteration4` reports fewer than `max_iters` passes: `‖Ax - ld x‖ ≤ √n L tol`. -/
theorem C86_residual4 (A : Mat n) (x : Vec n) (o : PowerOptions) (r : PowerResult n) (h : powerIteration4 A x o = .ok r) (hn : r.niter < o.maxIters)
    (L : ℝ) (hL : ∀ y : Vec n, (A *ᵥ y) ⬝ᵥ (A *ᵥ y) ≤ L ^ 2 * (y ⬝ᵥ y)) :
    (A *ᵥ r.x - r.ld • r.x) ⬝ᵥ (A *ᵥ r.x - r.ld • r.x) ≤ n * (L * o.tolerance) ^ 2 := by
  obtain ⟨hu, hr⟩ := C86_unit_and_rayleigh .four A x o r h
  obtain ⟨h0, h1, -, -, h2, -⟩ := PowerVariant.four.ok h
  rw [Nat.min_eq_left hn] at h0 h1
  have hne := h0 _ le_rfl
  obtain ⟨ν, hν⟩ := dir_step1 A x hne
  obtain ⟨s, hs⟩ := parallel_cases (h2 hn)
  obtain ⟨d, hd, hde⟩ := unitVec1_eq hne
  obtain ⟨e, he, hee⟩ := unitVec_eq hne
  have hx : r.x = (e * d⁻¹) • unitVec1 (powDir A x (r.niter + 1)) := by
    rw [h1, hde, smul_smul, mul_assoc, inv_mul_cancel₀ hd.ne', mul_one, hee]
  have hc : 0 < e * d⁻¹ := by positivity
  have h3 := residual_of_parallel A hL hν hs hc.le (by rwa [← hx])
  rw [← hx, ← hr] at h3
  refine h3.trans ?_
  rw [mul_pow]
  refine mul_le_mul_of_nonneg_right ?_ (sq_nonneg _)
  have h4 := normL1_sq_le r.x
  rw [hu, mul_one, hx, normL1_smul, abs_of_pos hc] at h4
  have h5 : normL1 (unitVec1 (powDir A x (r.niter + 1))) = 1 := by
    unfold unitVec1
    rw [normL1_smul]
    have := normL1_pos hne
    unfold normL1 at this ⊢
    rw [abs_of_pos (inv_pos.mpr this), inv_mul_cancel₀ this.ne']
  rwa [h5, mul_one] at h4

/-- **C86.** Hence, for symmetric `A`, the value returned by `power_iteration` is within `L tol` of an eigenvalue. -/
theorem C86_eigenvalue (A : Mat n) (hA : A.IsSymm) (x : Vec n) (o : PowerOptions) (r : PowerResult n) (h : powerIteration A x o = .ok r)
    (hn : r.niter < o.maxIters) (L : ℝ) (hL0 : 0 ≤ L) (hL : ∀ y : Vec n, (A *ᵥ y) ⬝ᵥ (A *ᵥ y) ≤ L ^ 2 * (y ⬝ᵥ y)) :
    ∃ μ : ℝ, ∃ v : Vec n, v ≠ 0 ∧ A *ᵥ v = μ • v ∧ |μ - r.ld| ≤ L * o.tolerance := by
  obtain ⟨hu, -⟩ := C86_unit_and_rayleigh .one A x o r h
  have ht : 0 ≤ o.tolerance := by
    obtain ⟨s, hs⟩ := parallel_cases ((PowerVariant.one.ok h).2.2.2.2.1 hn)
    exact (Finset.sum_nonneg fun _ _ => abs_nonneg _ : (0 : ℝ) ≤ normL1 _).trans hs
  refine nearby_eigenvalue hA (mul_nonneg hL0 ht) (x := r.x) (fun h0 => ?_) ?_
  · rw [h0] at hu; simp at hu
  · rw [hu, mul_one]; exact C86_residual A x o r h hn L hL

/-- **C86.** The value returned by `power_iteration4` is within `√n L tol` of an eigenvalue. -/
theorem C86_eigenvalue4 (A : Mat n) (hA : A.IsSymm) (x : Vec n) (o : PowerOptions) (r : PowerResult n) (h : powerIteration4 A x o = .ok r)
    (hn : r.niter < o.maxIters) (L : ℝ) (hL0 : 0 ≤ L) (hL : ∀ y : Vec n, (A *ᵥ y) ⬝ᵥ (A *ᵥ y) ≤ L ^ 2 * (y ⬝ᵥ y)) :
    ∃ μ : ℝ, ∃ v : Vec n, v ≠ 0 ∧ A *ᵥ v = μ • v ∧ |μ - r.ld| ≤ Real.sqrt n * (L * o.tolerance) := by
  obtain ⟨hu, -⟩ := C86_unit_and_rayleigh .four A x o r h
  have ht : 0 ≤ o.tolerance := by
    obtain ⟨s, hs⟩ := parallel_cases ((PowerVariant.four.ok h).2.2.2.2.1 hn)
    exact (Finset.sum_nonneg fun _ _ => abs_nonneg _ : (0 : ℝ) ≤ normL1 _).trans hs
  refine nearby_eigenvalue hA (mul_nonneg (Real.sqrt_nonneg _) (mul_nonneg hL0 ht)) (x := r.x) (fun h0 => ?_) ?_
  · rw [h0] at hu; simp at hu
  · rw [hu, mul_one, mul_pow, Real.sq_sqrt (Nat.cast_nonneg n)]; exact C86_residual4 A x o r h hn L hL

/-- **C86.** For positive semidefinite `A`, the value returned by `power_iteration2` or `power_iteration3` with fewer than `max_iters` passes is within `√(ld tol) + tol` of an eigenvalue. -/
theorem C86_eigenvalue23 (hv : PowerVariant run stop) (hst : stop = stopRay) (A : Mat n) (hA : A.IsSymm) (hq : QuadNonneg A) (x : Vec n) (o : PowerOptions) (r : PowerResult n)
    (h : run A x o = .ok r) (hn : r.niter < o.maxIters) :
    ∃ μ : ℝ, ∃ v : Vec n, v ≠ 0 ∧ A *ᵥ v = μ • v ∧ |μ - r.ld| ≤ Real.sqrt (r.ld * o.tolerance) + o.tolerance := by
  obtain ⟨h0, -, h1, -, h2, -⟩ := hv.ok h
  subst hst
  rw [Nat.min_eq_left hn] at h0 h1
  have hs : |rayleigh A (powDir A x r.niter) - rayleigh A (powDir A x (r.niter + 1))| ≤ o.tolerance := h2 hn
  have hx : A *ᵥ x ≠ 0 := by
    have := h0 1 (by omega); rwa [powDir_succ, powDir_zero] at this
  have hmono := mratio_mono hA hq hx
  have hpos := mratio_pos hA hq hx
  rw [← h1] at hs
  have e1 := rayleigh_eq_mratio hA x (r.niter + 1)
  rw [← h1] at e1
  set k := r.niter
  set ld1 := rayleigh A (powDir A x k) with hld1
  have e0 : ld1 = mratio A x (2 * k) := rayleigh_eq_mratio hA x k
  have ht : 0 ≤ o.tolerance := (abs_nonneg _).trans hs
  have hld : ld1 ≤ r.ld := by rw [e0, e1]; exact hmono (by omega)
  have hld0 : 0 < ld1 := by rw [e0]; exact hpos _
  have hdiff : r.ld - ld1 ≤ o.tolerance := by rw [abs_sub_comm] at hs; exact (le_abs_self _).trans hs
  have hne := h0 k (by omega)
  have hm := moment_pos hA hq hx (2 * k)
  have hres : (A *ᵥ powDir A x k - ld1 • powDir A x k) ⬝ᵥ (A *ᵥ powDir A x k - ld1 • powDir A x k) ≤
      Real.sqrt (r.ld * o.tolerance) ^ 2 * (powDir A x k ⬝ᵥ powDir A x k) := by
    rw [Real.sq_sqrt (mul_nonneg (hld0.le.trans hld) ht)]
    simp only [sub_dotProduct, dotProduct_sub, smul_dotProduct, dotProduct_smul, smul_eq_mul]
    rw [← powDir_succ, dir_dot hA, dir_dot hA, dir_dot hA, dir_dot hA, show k + 1 + (k + 1) = 2 * k + 1 + 1 by omega, show k + 1 + k = 2 * k + 1 by omega,
      show k + (k + 1) = 2 * k + 1 by omega, show k + k = 2 * k by omega]
    have f1 : moment A x (2 * k + 1) = ld1 * moment A x (2 * k) := by
      rw [e0]; unfold mratio; rw [div_mul_cancel₀ _ hm.ne']
    have f2 : moment A x (2 * k + 1 + 1) = mratio A x (2 * k + 1) * moment A x (2 * k + 1) := by
      unfold mratio; rw [div_mul_cancel₀ _ (moment_pos hA hq hx _).ne']
    have f3 : mratio A x (2 * k + 1) ≤ r.ld := by rw [e1]; exact hmono (by omega)
    rw [f2, f1]
    have : mratio A x (2 * k + 1) * (ld1 * moment A x (2 * k)) - ld1 * (ld1 * moment A x (2 * k)) - ld1 * (ld1 * moment A x (2 * k) - ld1 * moment A x (2 * k)) =
        (mratio A x (2 * k + 1) - ld1) * ld1 * moment A x (2 * k) := by ring
    have goal : (mratio A x (2 * k + 1) - ld1) * ld1 * moment A x (2 * k) ≤ r.ld * o.tolerance * moment A x (2 * k) := by
      refine mul_le_mul_of_nonneg_right ?_ hm.le
      calc (mratio A x (2 * k + 1) - ld1) * ld1 ≤ o.tolerance * ld1 := mul_le_mul_of_nonneg_right (by linarith) hld0.le
        _ ≤ o.tolerance * r.ld := mul_le_mul_of_nonneg_left hld ht
        _ = _ := mul_comm _ _
    nlinarith
  obtain ⟨μ, v, hv0, hvv, hμ⟩ := nearby_eigenvalue hA (Real.sqrt_nonneg _) hne hres
  refine ⟨μ, v, hv0, hvv, ?_⟩
  calc |μ - r.ld| = |(μ - ld1) + (ld1 - r.ld)| := by ring_nf
    _ ≤ |μ - ld1| + |ld1 - r.ld| := abs_add_le _ _
    _ ≤ _ := add_le_add hμ hs

/-- **C87.** On a symmetric positive semidefinite matrix no variant divides by zero unless `Ax = 0`. -/
theorem C87_returns (hv : PowerVariant run stop) (A : Mat n) (hA : A.IsSymm) (hq : QuadNonneg A) (x : Vec n) (hx : A *ᵥ x ≠ 0) (o : PowerOptions) :
    ∃ r, run A x o = .ok r := by
  obtain ⟨arg, hs⟩ := hv.spec A x o
  rcases hs with ⟨k, -, -, -, -, h⟩ | ⟨-, -, h⟩ | ⟨k, -, hz, -⟩
  · exact ⟨_, h⟩
  · exact ⟨_, h⟩
  · exact absurd hz (dir_ne hA hq hx k)

/-- **C87.** On a symmetric positive semidefinite matrix the returned value lies between the Rayleigh quotient of the start vector and the largest eigenvalue; more passes
(a larger `max_iters`, a smaller tolerance, another variant) never give a smaller value. -/
theorem C87_monotone (hv : PowerVariant run stop) (A : Mat n) (hA : A.IsSymm) (hq : QuadNonneg A) (x : Vec n) (hx : A *ᵥ x ≠ 0) (o : PowerOptions)
    (r : PowerResult n) (h : run A x o = .ok r) :
    rayleigh A x ≤ r.ld ∧ (∀ Λ : ℝ, (∀ y : Vec n, y ⬝ᵥ (A *ᵥ y) ≤ Λ * (y ⬝ᵥ y)) → r.ld ≤ Λ) ∧
    ∀ (run' : Mat n → Vec n → PowerOptions → Except Fault (PowerResult n)) (stop' : Mat n → Vec n → ℝ → ℕ → Prop) (o' : PowerOptions) (r' : PowerResult n),
      PowerVariant run' stop' → run' A x o' = .ok r' → min (r.niter + 1) o.maxIters ≤ min (r'.niter + 1) o'.maxIters → r.ld ≤ r'.ld := by
  obtain ⟨h0, -, h1, -⟩ := hv.ok h
  have hmono := mratio_mono hA hq hx
  refine ⟨?_, fun Λ hΛ => ?_, fun run' stop' o' r' hv' h' hle => ?_⟩
  · have e := rayleigh_eq_mratio hA x 0
    rw [powDir_zero] at e
    rw [h1, rayleigh_eq_mratio hA, e]; exact hmono (by omega)
  · rw [h1]; exact rayleigh_le hΛ (h0 _ le_rfl)
  · obtain ⟨-, -, h1', -⟩ := hv'.ok h'
    rw [h1, h1', rayleigh_eq_mratio hA, rayleigh_eq_mratio hA]; exact hmono (by omega)

/-- **C87.** `power_iteration2` and `power_iteration3` meet their criterion if `max_iters · tol > λmax - ld0`. -/
theorem C87_terminates23 (hv : PowerVariant run stop) (hst : stop = stopRay) (A : Mat n) (hA : A.IsSymm) (hq : QuadNonneg A) (x : Vec n) (hx : A *ᵥ x ≠ 0) (o : PowerOptions)
    (Λ : ℝ) (hΛ : ∀ y : Vec n, y ⬝ᵥ (A *ᵥ y) ≤ Λ * (y ⬝ᵥ y)) (hN : Λ - rayleigh A x < o.maxIters * o.tolerance) :
    ∃ r, run A x o = .ok r ∧ r.niter < o.maxIters := by
  obtain ⟨r, h⟩ := C87_returns hv A hA hq x hx o
  refine ⟨r, h, ?_⟩
  obtain ⟨h0, -, h1, h2, -, h3⟩ := hv.ok h
  subst hst
  by_contra hc
  have hN' : r.niter = o.maxIters := by omega
  rw [hN'] at h3
  have key : ∀ k ≤ o.maxIters, rayleigh A x + k * o.tolerance ≤ rayleigh A (powDir A x k) := fun k => by
    induction k with
    | zero => intro _; rw [powDir_zero]; simp
    | succ k ih =>
      intro hk
      have h4 : ¬ |rayleigh A (powDir A x k) - rayleigh A (powDir A x (k + 1))| ≤ o.tolerance := h3 k (by omega)
      have h5 : rayleigh A (powDir A x k) ≤ rayleigh A (powDir A x (k + 1)) := by
        rw [rayleigh_eq_mratio hA, rayleigh_eq_mratio hA]; exact mratio_mono hA hq hx (by omega)
      rw [abs_sub_comm, abs_of_nonneg (sub_nonneg.mpr h5), not_le] at h4
      have := ih (by omega)
      push_cast; linarith
  have := key _ le_rfl
  have h6 := rayleigh_le hΛ (dir_ne hA hq hx o.maxIters)
  linarith

theorem log_mratio_step {A : Mat n} (hA : A.IsSymm) (hq : QuadNonneg A) {x : Vec n} (hx : A *ᵥ x ≠ 0) (k : ℕ) :
    (unitVec (powDir A x (k + 1)) - unitVec (powDir A x k)) ⬝ᵥ (unitVec (powDir A x (k + 1)) - unitVec (powDir A x k)) ≤
      Real.log (mratio A x (2 * (k + 1))) - Real.log (mratio A x (2 * k)) := by
  have hm := moment_pos hA hq hx
  have ha := unitVec_dot (dir_ne hA hq hx k)
  have hb := unitVec_dot (dir_ne hA hq hx (k + 1))
  have hdot : unitVec (powDir A x (k + 1)) ⬝ᵥ unitVec (powDir A x k) =
      moment A x (2 * k + 1) / (Real.sqrt (moment A x (2 * k + 2)) * Real.sqrt (moment A x (2 * k))) := by
    unfold unitVec
    rw [dotProduct_smul, smul_dotProduct, smul_eq_mul, smul_eq_mul, dir_dot hA, dir_dot hA, dir_dot hA, show k + 1 + k = 2 * k + 1 by omega,
      show k + 1 + (k + 1) = 2 * k + 2 by omega, show k + k = 2 * k by omega]
    field_simp
  set t := unitVec (powDir A x (k + 1)) ⬝ᵥ unitVec (powDir A x k) with ht
  have s1 := Real.sqrt_pos.mpr (hm (2 * k + 2))
  have s0 := Real.sqrt_pos.mpr (hm (2 * k))
  have htpos : 0 < t := by rw [hdot]; exact div_pos (hm _) (mul_pos s1 s0)
  have hlog : Real.log t = Real.log (moment A x (2 * k + 1)) - (Real.log (moment A x (2 * k + 2)) / 2 + Real.log (moment A x (2 * k)) / 2) := by
    rw [hdot, Real.log_div (hm _).ne' (mul_pos s1 s0).ne', Real.log_mul s1.ne' s0.ne', Real.log_sqrt (hm _).le, Real.log_sqrt (hm _).le]
  have h1 := Real.log_le_sub_one_of_pos htpos
  have h2 : Real.log (mratio A x (2 * k + 1)) ≤ Real.log (mratio A x (2 * (k + 1))) :=
    Real.log_le_log (mratio_pos hA hq hx _) (mratio_mono hA hq hx (by omega))
  have h3 : Real.log (mratio A x (2 * k + 1)) = Real.log (moment A x (2 * k + 2)) - Real.log (moment A x (2 * k + 1)) := by
    unfold mratio; rw [Real.log_div (hm _).ne' (hm _).ne']
  have h4 : Real.log (mratio A x (2 * k)) = Real.log (moment A x (2 * k + 1)) - Real.log (moment A x (2 * k)) := by
    unfold mratio; rw [Real.log_div (hm _).ne' (hm _).ne']
  rw [sub_dotProduct, dotProduct_sub, dotProduct_sub, ha, hb, dotProduct_comm (unitVec (powDir A x k)), ← ht]
  linarith

/-- If in each of the first `N` passes the unit vectors move by more than `d` in the 1-norm, `N d² < n ln(λmax / ld0)`. -/
theorem moves_bounded {A : Mat n} (hA : A.IsSymm) (hq : QuadNonneg A) {x : Vec n} (hx : A *ᵥ x ≠ 0) {Λ : ℝ}
    (hΛ : ∀ y : Vec n, y ⬝ᵥ (A *ᵥ y) ≤ Λ * (y ⬝ᵥ y)) {d : ℝ} (hd : 0 ≤ d) {N : ℕ} (hN : 0 < N)
    (h : ∀ k < N, d < normL1 (unitVec (powDir A x (k + 1)) - unitVec (powDir A x k))) :
    N * d ^ 2 < n * Real.log (Λ / rayleigh A x) := by
  have hn : (0 : ℝ) ≤ n := Nat.cast_nonneg n
  have e := rayleigh_eq_mratio hA x 0
  rw [powDir_zero, mul_zero] at e
  have step : ∀ k < N, d ^ 2 < n * (Real.log (mratio A x (2 * (k + 1))) - Real.log (mratio A x (2 * k))) := fun k hk => by
    have h1 := h k hk
    have h2 : d ^ 2 < _ := pow_lt_pow_left₀ h1 hd two_ne_zero
    exact h2.trans_le ((normL1_sq_le _).trans (mul_le_mul_of_nonneg_left (log_mratio_step hA hq hx k) hn))
  have key : ∀ k, k + 1 ≤ N → (k + 1 : ℕ) * d ^ 2 < n * (Real.log (mratio A x (2 * (k + 1))) - Real.log (mratio A x 0)) := fun k => by
    induction k with
    | zero => intro hk; have := step 0 hk; simpa using this
    | succ k ih =>
      intro hk
      have h1 := ih (by omega)
      have h2 := step (k + 1) (by omega)
      push_cast at h1 ⊢
      nlinarith
  have h3 := key (N - 1) (by omega)
  rw [Nat.sub_add_cancel hN] at h3
  refine h3.trans_le (mul_le_mul_of_nonneg_left ?_ hn)
  have hp := mratio_pos hA hq hx
  have hΛ' := mratio_le hA hq hx hΛ (2 * N)
  rw [e, Real.log_div ((hp _).trans_le hΛ').ne' (hp 0).ne']
  exact sub_le_sub_right (Real.log_le_log (hp _) hΛ') _

/-- **C87.** `power_iteration` meets its criterion if `max_iters · tol² ≥ n ln(λmax / ld0)` (`max_iters > 0`, `tol ≥ 0`). -/
theorem C87_terminates (A : Mat n) (hA : A.IsSymm) (hq : QuadNonneg A) (x : Vec n) (hx : A *ᵥ x ≠ 0) (o : PowerOptions) (h0 : 0 < o.maxIters) (ht : 0 ≤ o.tolerance)
    (Λ : ℝ) (hΛ : ∀ y : Vec n, y ⬝ᵥ (A *ᵥ y) ≤ Λ * (y ⬝ᵥ y)) (hN : n * Real.log (Λ / rayleigh A x) ≤ o.maxIters * o.tolerance ^ 2) :
    ∃ r, powerIteration A x o = .ok r ∧ r.niter < o.maxIters := by
  obtain ⟨r, h⟩ := C87_returns .one A hA hq x hx o
  refine ⟨r, h, ?_⟩
  obtain ⟨-, -, -, h2, -, h3⟩ := PowerVariant.one.ok h
  by_contra hc
  rw [show r.niter = o.maxIters by omega] at h3
  refine absurd (moves_bounded hA hq hx hΛ ht h0 fun k hk => ?_) (not_lt.mpr hN)
  have := h3 k hk
  unfold stopVec at this
  push Not at this
  exact this.1

theorem unitVec1_move {a b : Vec n} (ha : a ≠ 0) (hb : b ≠ 0) :
    normL1 (unitVec1 b - unitVec1 a) ≤ 2 * normL1 (unitVec b - unitVec a) := by
  have tri : ∀ u w : Vec n, normL1 (u + w) ≤ normL1 u + normL1 w := fun u w => by
    unfold normL1; rw [← Finset.sum_add_distrib]; exact Finset.sum_le_sum fun i _ => abs_add_le _ _
  obtain ⟨c, hc, ec⟩ := unitVec_eq ha
  obtain ⟨d, hd, ed⟩ := unitVec_eq hb
  have e1 : unitVec1 a = (normL1 (unitVec a))⁻¹ • unitVec a := by
    rw [← unitVec1_smul hc a, ← ec]; rfl
  have e2 : unitVec1 b = (normL1 (unitVec b))⁻¹ • unitVec b := by
    rw [← unitVec1_smul hd b, ← ed]; rfl
  set u := unitVec a
  set w := unitVec b
  have hu : 1 ≤ normL1 w := by
    have := dot_self_le_normL1 w
    rw [unitVec_dot hb] at this
    nlinarith [(normL1_pos (unitVec_ne hb) : 0 < normL1 w)]
  have hu0 : 0 < normL1 u := normL1_pos (unitVec_ne ha)
  have hw0 : 0 < normL1 w := by linarith
  have hdec : unitVec1 b - unitVec1 a = (normL1 w)⁻¹ • (w - u) + ((normL1 w)⁻¹ - (normL1 u)⁻¹) • u := by
    rw [e1, e2, smul_sub, sub_smul]; abel
  rw [hdec]
  refine (tri _ _).trans ?_
  rw [normL1_smul, normL1_smul, abs_of_pos (inv_pos.mpr hw0)]
  have h1 : normL1 u ≤ normL1 w + normL1 (w - u) := by
    have := tri w (-(w - u))
    rw [show w + -(w - u) = u by abel, ← neg_one_smul ℝ (w - u), normL1_smul] at this
    simpa using this
  have h2 : normL1 w ≤ normL1 u + normL1 (w - u) := by
    have := tri u (w - u); rwa [show u + (w - u) = w by abel] at this
  have h3 : |(normL1 w)⁻¹ - (normL1 u)⁻¹| * normL1 u = |normL1 u - normL1 w| * (normL1 w)⁻¹ := by
    rw [← abs_of_pos hu0, ← abs_mul, abs_of_pos hu0]
    conv_rhs => rw [← abs_of_pos (inv_pos.mpr hw0), ← abs_mul]
    congr 1; field_simp
  have h4 : |normL1 u - normL1 w| ≤ normL1 (w - u) := abs_le.mpr ⟨by linarith, by linarith⟩
  have h5 : (normL1 w)⁻¹ ≤ 1 := inv_le_one_of_one_le₀ hu
  have h6 : 0 ≤ normL1 (w - u) := Finset.sum_nonneg fun _ _ => abs_nonneg _
  rw [h3]
  nlinarith [inv_pos.mpr hw0, abs_nonneg (normL1 u - normL1 w), mul_le_mul_of_nonneg_right h4 (inv_pos.mpr hw0).le, mul_le_mul_of_nonneg_right h5 h6]

/-- **C87.** `power_iteration4` meets its criterion if `max_iters · tol² ≥ 4 n ln(λmax / ld0)`. -/
theorem C87_terminates4 (A : Mat n) (hA : A.IsSymm) (hq : QuadNonneg A) (x : Vec n) (hx : A *ᵥ x ≠ 0) (o : PowerOptions) (h0 : 0 < o.maxIters) (ht : 0 ≤ o.tolerance)
    (Λ : ℝ) (hΛ : ∀ y : Vec n, y ⬝ᵥ (A *ᵥ y) ≤ Λ * (y ⬝ᵥ y)) (hN : 4 * (n * Real.log (Λ / rayleigh A x)) ≤ o.maxIters * o.tolerance ^ 2) :
    ∃ r, powerIteration4 A x o = .ok r ∧ r.niter < o.maxIters := by
  obtain ⟨r, h⟩ := C87_returns .four A hA hq x hx o
  refine ⟨r, h, ?_⟩
  obtain ⟨-, -, -, h2, -, h3⟩ := PowerVariant.four.ok h
  by_contra hc
  rw [show r.niter = o.maxIters by omega] at h3
  have := moves_bounded hA hq hx hΛ (d := o.tolerance / 2) (by linarith) h0 fun k hk => ?_
  · nlinarith
  · have h4 := h3 k hk
    unfold stopVec1 at h4
    push Not at h4
    have h5 := unitVec1_move (dir_ne hA hq hx k) (dir_ne hA hq hx (k + 1))
    have h6 : o.tolerance < normL1 (unitVec1 (powDir A x (k + 1)) - unitVec1 (powDir A x k)) := h4.1
    linarith

/-- **C87.** Accuracy without any assumption on gaps between eigenvalues: if `v` is an eigenvector for `lam`, after `K` multiplications the returned value is at least `lam · c^(1/(2K+1))` where
`c = (vᵀx)² / (vᵀv xᵀx)` is the squared cosine of the angle between the start vector and `v`. -/
theorem C87_accuracy (hv : PowerVariant run stop) (A : Mat n) (hA : A.IsSymm) (hq : QuadNonneg A) (x : Vec n) (hx : A *ᵥ x ≠ 0) (o : PowerOptions)
    (r : PowerResult n) (h : run A x o = .ok r) (v : Vec n) (hv0 : v ≠ 0) (lam : ℝ) (hlam : A *ᵥ v = lam • v) :
    lam ^ (2 * min (r.niter + 1) o.maxIters + 1) * ((v ⬝ᵥ x) ^ 2 / ((v ⬝ᵥ v) * (x ⬝ᵥ x))) ≤ r.ld ^ (2 * min (r.niter + 1) o.maxIters + 1) := by
  obtain ⟨-, -, h1, -⟩ := hv.ok h
  rw [h1, rayleigh_eq_mratio hA]
  have h2 := moment_le_pow hA hq hx (2 * min (r.niter + 1) o.maxIters)
  have h3 := moment_ge hA hq x hlam hv0 (2 * min (r.niter + 1) o.maxIters + 1)
  have hxx : moment A x 0 = x ⬝ᵥ x := by unfold moment; rw [powDir_zero]
  have hpos := moment_pos hA hq hx 0
  rw [hxx] at h2 hpos
  have h4 := h3.trans h2
  rw [← div_div, ← mul_div_assoc, div_le_iff₀ hpos]
  exact h4

/-- **C87.** Power iteration finds the largest eigenvalue of a positive semidefinite matrix if it is not stopped by the tolerance: with `lam > 0` the largest eigenvalue, `v` an eigenvector
for it with `vᵀx ≠ 0`, a negative tolerance and `(2 max_iters + 1) ε ≥ ln(vᵀv xᵀx / (vᵀx)²)`, all variants return a value in `[(1 - ε) lam, lam]`. -/
theorem C87_finds_largest (hv : PowerVariant run stop) (A : Mat n) (hA : A.IsSymm) (hq : QuadNonneg A) (x v : Vec n) (lam : ℝ) (hlam0 : 0 < lam)
    (hlam : A *ᵥ v = lam • v) (htop : ∀ y : Vec n, y ⬝ᵥ (A *ᵥ y) ≤ lam * (y ⬝ᵥ y)) (hvx : v ⬝ᵥ x ≠ 0) (o : PowerOptions) (ht : o.tolerance < 0)
    (ε : ℝ) (hε : ε ≤ 1) (hN : Real.log ((v ⬝ᵥ v) * (x ⬝ᵥ x) / (v ⬝ᵥ x) ^ 2) ≤ (2 * o.maxIters + 1) * ε) :
    ∃ r, run A x o = .ok r ∧ (1 - ε) * lam ≤ r.ld ∧ r.ld ≤ lam := by
  have hx : A *ᵥ x ≠ 0 := fun h => by
    have h1 : v ⬝ᵥ (A *ᵥ x) = lam * (v ⬝ᵥ x) := by rw [symm_dotProduct hA, hlam, smul_dotProduct, smul_eq_mul]
    rw [h, dotProduct_zero] at h1
    exact (mul_ne_zero hlam0.ne' hvx) h1.symm
  have hv0 : v ≠ 0 := fun h => hvx (by rw [h, zero_dotProduct])
  have hx0 : x ≠ 0 := fun h => hvx (by rw [h, dotProduct_zero])
  obtain ⟨r, h⟩ := C87_returns hv A hA hq x hx o
  obtain ⟨-, hle, -⟩ := C87_monotone hv A hA hq x hx o r h
  refine ⟨r, h, ?_, hle lam htop⟩
  have hacc := C87_accuracy hv A hA hq x hx o r h v hv0 lam hlam
  obtain ⟨h0, -, h1, h2, h3, -⟩ := hv.ok h
  have hnn : ¬ r.niter < o.maxIters := fun hlt => by
    have hst := h3 hlt
    have hs : ∀ u w : Vec n, ¬ ((∑ i, |w i - u i|) ≤ o.tolerance ∨ (∑ i, |w i + u i|) ≤ o.tolerance) := fun u w hc => by
      obtain ⟨s, hs⟩ := parallel_cases hc
      have : (0 : ℝ) ≤ normL1 (w - s • u) := Finset.sum_nonneg fun _ _ => abs_nonneg _
      linarith
    cases hv
    · exact hs _ _ hst
    · exact absurd ((abs_nonneg _).trans (show _ ≤ o.tolerance from hst)) (not_le.mpr ht)
    · exact absurd ((abs_nonneg _).trans (show _ ≤ o.tolerance from hst)) (not_le.mpr ht)
    · exact hs _ _ hst
  rw [show min (r.niter + 1) o.maxIters = o.maxIters by omega] at hacc h1
  have hld : 0 < r.ld := by rw [h1, rayleigh_eq_mratio hA]; exact mratio_pos hA hq hx _
  have hvv := dotProduct_self_pos hv0
  have hxx := dotProduct_self_pos hx0
  have hcpos : 0 < (v ⬝ᵥ x) ^ 2 / ((v ⬝ᵥ v) * (x ⬝ᵥ x)) := by positivity
  have hexp : (1 - ε) ^ (2 * o.maxIters + 1) ≤ (v ⬝ᵥ x) ^ 2 / ((v ⬝ᵥ v) * (x ⬝ᵥ x)) := by
    have h5 : 1 - ε ≤ Real.exp (-ε) := by have := Real.add_one_le_exp (-ε); linarith
    calc (1 - ε) ^ (2 * o.maxIters + 1) ≤ Real.exp (-ε) ^ (2 * o.maxIters + 1) := pow_le_pow_left₀ (by linarith) h5 _
      _ = Real.exp (-((2 * o.maxIters + 1) * ε)) := by rw [← Real.exp_nat_mul]; congr 1; push_cast; ring
      _ ≤ Real.exp (-Real.log ((v ⬝ᵥ v) * (x ⬝ᵥ x) / (v ⬝ᵥ x) ^ 2)) := Real.exp_le_exp.mpr (by linarith)
      _ = _ := by rw [← Real.log_inv, inv_div, Real.exp_log hcpos]
  refine le_of_pow_le_pow_left₀ (n := 2 * o.maxIters + 1) (by omega) hld.le ?_
  rw [mul_pow, mul_comm]
  exact (mul_le_mul_of_nonneg_left hexp (by positivity)).trans hacc

/-- A run whose first pass meets the criterion. -/
theorem stops_at_once (hv : PowerVariant run stop) {A : Mat n} {x : Vec n} {o : PowerOptions} (h0 : 0 < o.maxIters) (hne : ∀ k, powDir A x k ≠ 0)
    (hs : stop A x o.tolerance 0) : ∃ r, run A x o = .ok r ∧ r.niter = 0 ∧ r.ld = rayleigh A (powDir A x 1) := by
  obtain ⟨arg, h⟩ := hv.spec A x o
  rcases h with ⟨k, -, -, -, hmin, h⟩ | ⟨-, hmin, h⟩ | ⟨k, -, hz, -⟩
  · have : k = 0 := by
      by_contra hk
      exact hmin 0 (by omega) hs
    subst this
    exact ⟨_, h, rfl, rfl⟩
  · exact absurd hs (hmin 0 h0)
  · exact absurd hz (hne k)

/-- `diag(1, 2)`, with largest eigenvalue 2. -/
def diag12 : Mat 2 := !![1, 0; 0, 2]

theorem diag12_symm : diag12.IsSymm := by
  ext i j; fin_cases i <;> fin_cases j <;> simp [diag12]

theorem diag12_quad : QuadNonneg diag12 := fun v => by
  simp only [diag12, dotProduct, mulVec, Fin.sum_univ_two]; simp; nlinarith [sq_nonneg (v 0), sq_nonneg (v 1)]

/-- **C88, refuted.** A run that reports convergence need not be anywhere near the largest eigenvalue, in none of the variants and for no tolerance: on `diag(1, 2)` there are, for every `tol > 0`,
start vectors with a component along the eigenvector of 2 from which the run reports convergence after one pass with a value below 3/2. -/
theorem C88_refuted {run : Mat 2 → Vec 2 → PowerOptions → Except Fault (PowerResult 2)} {stop : Mat 2 → Vec 2 → ℝ → ℕ → Prop}
    (hv : PowerVariant run stop) (o : PowerOptions) (h0 : 0 < o.maxIters) (ht : 0 < o.tolerance) :
    ∃ x : Vec 2, x 1 ≠ 0 ∧ diag12 *ᵥ ![0, 1] = (2 : ℝ) • ![0, 1] ∧ ∃ r, run diag12 x o = .ok r ∧ r.niter < o.maxIters ∧ r.ld < 3 / 2 := by
  obtain ⟨δ, hδ, hδ1, hδt⟩ : ∃ δ : ℝ, 0 < δ ∧ δ ≤ 1 / 4 ∧ 4 * δ ≤ o.tolerance :=
    ⟨min (1 / 4) (o.tolerance / 4), by positivity, min_le_left _ _, by have := min_le_right (1 / 4) (o.tolerance / 4); linarith⟩
  have d0 : powDir diag12 ![1, δ] 0 = ![1, δ] := powDir_zero _ _
  have d1 : powDir diag12 ![1, δ] 1 = ![1, 2 * δ] := by
    rw [powDir_succ, powDir_zero]; funext i; fin_cases i <;> simp [diag12, mul_comm]
  have hx : diag12 *ᵥ ![1, δ] ≠ 0 := by
    rw [← powDir_zero diag12 ![1, δ], ← powDir_succ, d1]; intro h; simpa using congrFun h 0
  have hray : ∀ t : ℝ, rayleigh diag12 ![1, t] = 1 + t ^ 2 / (1 + t ^ 2) := fun t => by
    have : 1 + t ^ 2 ≠ 0 := by positivity
    simp only [rayleigh, diag12, dotProduct, mulVec, Fin.sum_univ_two]; simp
    field_simp; ring
  refine ⟨![1, δ], by simpa using hδ.ne', by funext i; fin_cases i <;> simp [diag12], ?_⟩
  have hstop : stop diag12 ![1, δ] o.tolerance 0 := by
    cases hv
    · left
      rw [zero_add, d0, d1]
      have e : ∀ t : ℝ, ![(1 : ℝ), t] ⬝ᵥ ![1, t] = 1 + t ^ 2 := fun t => by simp [dotProduct, Fin.sum_univ_two, sq]
      simp only [Fin.sum_univ_two, unitVec, e, Pi.smul_apply, smul_eq_mul, cons_val_zero, cons_val_one, mul_one]
      have hs1 : 1 ≤ Real.sqrt (1 + δ ^ 2) := by rw [Real.le_sqrt' one_pos]; nlinarith [sq_nonneg δ]
      have hs2 : Real.sqrt (1 + δ ^ 2) ≤ Real.sqrt (1 + (2 * δ) ^ 2) := Real.sqrt_le_sqrt (by nlinarith [sq_nonneg δ])
      have hs3 : Real.sqrt (1 + (2 * δ) ^ 2) ≤ 1 + 2 * δ ^ 2 := by
        rw [Real.sqrt_le_iff]; exact ⟨by positivity, by nlinarith [sq_nonneg (δ ^ 2)]⟩
      set s := Real.sqrt (1 + δ ^ 2)
      set t := Real.sqrt (1 + (2 * δ) ^ 2)
      have hi1 : t⁻¹ ≤ s⁻¹ := inv_anti₀ (by linarith) hs2
      have hi2 : s⁻¹ ≤ 1 := inv_le_one_of_one_le₀ hs1
      have hi3 : 1 - 2 * δ ^ 2 ≤ t⁻¹ := by
        rw [← one_div, le_div_iff₀ (by linarith)]
        have : (1 - 2 * δ ^ 2) * t ≤ (1 - 2 * δ ^ 2) * (1 + 2 * δ ^ 2) := mul_le_mul_of_nonneg_left hs3 (by nlinarith)
        nlinarith [sq_nonneg (δ ^ 2)]
      have hi4 : 0 < t⁻¹ := inv_pos.mpr (by linarith)
      have a1 : |t⁻¹ - s⁻¹| ≤ 2 * δ ^ 2 := abs_le.mpr ⟨by linarith, by nlinarith [sq_nonneg δ]⟩
      have a2 : |t⁻¹ * (2 * δ) - s⁻¹ * δ| ≤ 2 * δ := abs_le.mpr ⟨by nlinarith, by nlinarith⟩
      nlinarith
    · change |rayleigh diag12 (powDir diag12 ![1, δ] 0) - rayleigh diag12 (powDir diag12 ![1, δ] 1)| ≤ o.tolerance
      rw [d0, d1, hray, hray]
      have b1 : 0 ≤ δ ^ 2 / (1 + δ ^ 2) := by positivity
      have b2 : (2 * δ) ^ 2 / (1 + (2 * δ) ^ 2) ≤ (2 * δ) ^ 2 := div_le_self (by positivity) (by nlinarith [sq_nonneg δ])
      have b3 : 0 ≤ (2 * δ) ^ 2 / (1 + (2 * δ) ^ 2) := by positivity
      have b4 : δ ^ 2 / (1 + δ ^ 2) ≤ δ ^ 2 := div_le_self (by positivity) (by nlinarith [sq_nonneg δ])
      exact abs_le.mpr ⟨by nlinarith, by nlinarith⟩
    · change |rayleigh diag12 (powDir diag12 ![1, δ] 0) - rayleigh diag12 (powDir diag12 ![1, δ] 1)| ≤ o.tolerance
      rw [d0, d1, hray, hray]
      have b1 : 0 ≤ δ ^ 2 / (1 + δ ^ 2) := by positivity
      have b2 : (2 * δ) ^ 2 / (1 + (2 * δ) ^ 2) ≤ (2 * δ) ^ 2 := div_le_self (by positivity) (by nlinarith [sq_nonneg δ])
      have b3 : 0 ≤ (2 * δ) ^ 2 / (1 + (2 * δ) ^ 2) := by positivity
      have b4 : δ ^ 2 / (1 + δ ^ 2) ≤ δ ^ 2 := div_le_self (by positivity) (by nlinarith [sq_nonneg δ])
      exact abs_le.mpr ⟨by nlinarith, by nlinarith⟩
    · left
      rw [zero_add, d0, d1]
      simp only [Fin.sum_univ_two, unitVec1, Pi.smul_apply, smul_eq_mul, cons_val_zero, cons_val_one, mul_one, abs_one, abs_of_pos hδ, abs_of_pos (show 0 < 2 * δ by linarith)]
      have e1 : (1 + 2 * δ)⁻¹ - (1 + δ)⁻¹ = -(δ * ((1 + 2 * δ)⁻¹ * (1 + δ)⁻¹)) := by field_simp; ring
      have e2 : (1 + 2 * δ)⁻¹ * (2 * δ) - (1 + δ)⁻¹ * δ = δ * ((1 + 2 * δ)⁻¹ * (1 + δ)⁻¹) := by field_simp; ring
      have e3 : (1 + 2 * δ)⁻¹ * (1 + δ)⁻¹ ≤ 1 :=
        mul_le_one₀ (inv_le_one_of_one_le₀ (by linarith)) (by positivity) (inv_le_one_of_one_le₀ (by linarith))
      rw [e1, e2, abs_neg, abs_of_nonneg (by positivity)]
      nlinarith
  obtain ⟨r, h1, h2, h3⟩ := stops_at_once hv h0 (dir_ne diag12_symm diag12_quad hx) hstop
  refine ⟨r, h1, by omega, ?_⟩
  rw [h3, d1, hray]
  have b2 : (2 * δ) ^ 2 / (1 + (2 * δ) ^ 2) ≤ (2 * δ) ^ 2 := div_le_self (by positivity) (by nlinarith [sq_nonneg δ])
  nlinarith

/-- `diag(1, -1)`. -/
def diagPM : Mat 2 := !![1, 0; 0, -1]

/-- **C88, refuted for indefinite matrices.** There `power_iteration2` and `power_iteration3` may report convergence to a number that is not an eigenvalue at all: on `diag(1, -1)` from `(1, 1)` they
return 0 after one pass, for every tolerance, though every eigenvalue is 1 or -1. -/
theorem C88_indefinite_refuted {run : Mat 2 → Vec 2 → PowerOptions → Except Fault (PowerResult 2)} {stop : Mat 2 → Vec 2 → ℝ → ℕ → Prop}
    (hv : PowerVariant run stop) (hst : stop = stopRay) (o : PowerOptions) (h0 : 0 < o.maxIters) (ht : 0 ≤ o.tolerance) :
    diagPM.IsSymm ∧ (∃ r, run diagPM ![1, 1] o = .ok r ∧ r.niter < o.maxIters ∧ r.ld = 0) ∧
    ∀ (μ : ℝ) (v : Vec 2), v ≠ 0 → diagPM *ᵥ v = μ • v → |μ - 0| = 1 := by
  subst hst
  have hd : ∀ k, powDir diagPM ![1, 1] k = ![1, (-1) ^ k] := fun k => by
    induction k with
    | zero => rw [powDir_zero]; simp
    | succ k ih => rw [powDir_succ, ih]; funext i; fin_cases i <;> simp [diagPM, pow_succ]
  have hr : ∀ k, rayleigh diagPM (powDir diagPM ![1, 1] k) = 0 := fun k => by
    rw [hd]; simp only [rayleigh, diagPM, dotProduct, mulVec, Fin.sum_univ_two]; simp [← mul_pow]
  refine ⟨by ext i j; fin_cases i <;> fin_cases j <;> simp [diagPM], ?_, fun μ v hv0 hv1 => ?_⟩
  · obtain ⟨r, h1, h2, h3⟩ := stops_at_once (A := diagPM) (x := ![1, 1]) hv h0 (fun k h => by rw [hd] at h; simpa using congrFun h 0) (by
      unfold stopRay; rw [hr, hr]; simpa using ht)
    exact ⟨r, h1, by omega, by rw [h3, hr]⟩
  · have e0 := congrFun hv1 0
    have e1 := congrFun hv1 1
    simp only [diagPM, mulVec, dotProduct, Fin.sum_univ_two, of_apply, Pi.smul_apply, smul_eq_mul, cons_val_zero, cons_val_one] at e0 e1
    rw [sub_zero]
    by_cases h00 : v 0 = 0
    · have h11 : v 1 ≠ 0 := fun h => hv0 (by funext i; fin_cases i <;> simp [h00, h])
      have : μ = -1 := mul_right_cancel₀ h11 (by linarith)
      rw [this]; norm_num
    · have : μ = 1 := mul_right_cancel₀ h00 (by linarith)
      rw [this]; norm_num

/-- C85-C87 apply: `diag(1, 2)` is symmetric positive semidefinite with largest eigenvalue 2 and eigenvector `(0, 1)`, and `x = (1, 1)` has a component along it. -/
example : diag12.IsSymm ∧ QuadNonneg diag12 ∧ diag12 *ᵥ ![1, 1] ≠ 0 ∧ diag12 *ᵥ ![0, 1] = (2 : ℝ) • ![0, 1] ∧ ![(0 : ℝ), 1] ⬝ᵥ ![1, 1] ≠ 0 ∧
    (∀ y : Vec 2, y ⬝ᵥ (diag12 *ᵥ y) ≤ 2 * (y ⬝ᵥ y)) ∧ (∀ y : Vec 2, (diag12 *ᵥ y) ⬝ᵥ (diag12 *ᵥ y) ≤ 2 ^ 2 * (y ⬝ᵥ y)) ∧
    rayleigh diag12 ![1, 1] = 3 / 2 ∧ (2 : ℝ) - rayleigh diag12 ![1, 1] < (51 : ℕ) * (1 / 100) := by
  have hr : rayleigh diag12 ![1, 1] = 3 / 2 := by
    simp only [rayleigh, diag12, dotProduct, mulVec, Fin.sum_univ_two]; norm_num
  refine ⟨diag12_symm, diag12_quad, fun h => ?_, by funext i; fin_cases i <;> simp [diag12], by simp [dotProduct, Fin.sum_univ_two], fun y => ?_, fun y => ?_, hr, ?_⟩
  · simpa [diag12] using congrFun h 0
  · simp only [diag12, dotProduct, mulVec, Fin.sum_univ_two]; simp; nlinarith [sq_nonneg (y 0), sq_nonneg (y 1)]
  · simp only [diag12, dotProduct, mulVec, Fin.sum_univ_two]; simp; nlinarith [sq_nonneg (y 0), sq_nonneg (y 1)]
  · rw [hr]; norm_num

/-- C85 is not vacuous in its last case either: a nilpotent matrix makes every variant divide by zero. -/
example (o : PowerOptions) (h0 : 0 < o.maxIters) : powerIteration (!![0, 1; 0, 0] : Mat 2) ![1, 0] o = .error .zeroDivision := by
  have h1 : powDir (!![0, 1; 0, 0] : Mat 2) ![1, 0] 1 = 0 := by
    rw [powDir_succ, powDir_zero]; funext i; fin_cases i <;> simp
  rcases C85_power_iteration (!![0, 1; 0, 0] : Mat 2) ![1, 0] o with ⟨k, -, h, -⟩ | ⟨h, -⟩ | ⟨k, -, -, -, h⟩
  · exact absurd h1 (h 1 (by omega))
  · exact absurd h1 (h 1 h0)
  · exact h

end Ellalgo
