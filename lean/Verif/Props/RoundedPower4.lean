import Verif.Model.RoundedPower4
import Verif.Props.RoundedPower

/-!
# C129: a converged `power_iteration4` in floating point has found an approximate eigenpair
-/

namespace Ellalgo

open Finset Matrix Spec

variable {n : ℕ} {A : Arith} {u γ : ℝ}

/-- Entry by entry, a computed quotient times the divisor. -/
theorem quotient_near (hA : A.Accurate u γ n) (huγ : u ≤ γ) (hγ0 : 0 ≤ γ) {c : ℝ} (hc0 : 0 < c) (y : Vec n) : nrm (y - c • fun i => A.div (y i) c) ≤ γ * nrm y := by
  have := nrm_mono (x := y - c • fun i => A.div (y i) c) (y := γ • fun i => |y i|) fun i => by
    simp only [Pi.sub_apply, Pi.smul_apply, smul_eq_mul]
    have h3 := hA.rnd (y i / c)
    rw [abs_div, abs_of_pos hc0] at h3
    have e : y i - c * A.div (y i) c = -(c * (A.rnd (y i / c) - y i / c)) := by
      show y i - c * A.rnd (y i / c) = _
      field_simp
      ring
    rw [e, abs_neg, abs_mul, abs_of_pos hc0]
    have h4 := mul_le_mul_of_nonneg_left h3 hc0.le
    have h5 : c * (u * (|y i| / c)) = u * |y i| := by field_simp
    have h6 := mul_le_mul_of_nonneg_right huγ (abs_nonneg (y i))
    linarith
  refine this.trans (le_of_eq ?_)
  rw [nrm_smul', abs_of_nonneg hγ0]
  congr 1
  unfold nrm
  rw [dot_self_eq, dot_self_eq]
  simp only [sq_abs]

/-- What the division by the sum of absolute values gives. -/
theorem l1_unit_computed (hA : A.Accurate u γ n) (hu : 0 ≤ u) (huγ : u ≤ γ) (hγ : γ ≤ 1 / 100) {y x : Vec n} (h : A.arrDiv y (A.normL1 y) = .ok x) :
    ∃ c, 0 < c ∧ nrm (y - c • x) ≤ γ * nrm y ∧ c * nrm x ≤ 101 / 100 * nrm y ∧ 98 / 100 ≤ Real.sqrt n * nrm x := by
  have hγ0 := hu.trans huγ
  have h1 := abs_le.mp (hA.dot (fun i => |y i|) (fun _ => 1) le_rfl)
  simp only [abs_abs, abs_one, mul_one, dotProduct] at h1
  change _ ∧ A.normL1 y - ∑ i, |y i| ≤ _ at h1
  have h1' : -(γ * ∑ i, |y i|) ≤ A.normL1 y - ∑ i, |y i| := h1.1
  have h1'' := h1.2
  unfold Arith.arrDiv at h
  generalize A.normL1 y = c at *
  split_ifs at h with hc
  cases h
  have hs : 0 ≤ ∑ i, |y i| := sum_nonneg fun i _ => abs_nonneg _
  have hc0 : 0 < c := lt_of_le_of_ne (by nlinarith) (Ne.symm hc)
  have hd := quotient_near hA huγ hγ0 hc0 y
  have hyn := nrm_nonneg y
  refine ⟨c, hc0, hd, ?_, ?_⟩
  · have h3 := nrm_abs_sub y (y - c • fun i => A.div (y i) c)
    rw [sub_sub_cancel, nrm_smul', abs_of_pos hc0] at h3
    have := mul_le_mul_of_nonneg_right hγ hyn
    linarith
  · have h2 : (1 - γ) * ((∑ i, |y i|) / c) ≤ ∑ i, |A.div (y i) c| := by
      rw [sum_div, mul_sum]
      refine sum_le_sum fun i _ => ?_
      have a1 := hA.rnd (y i / c)
      have a2 := abs_sub_abs_le_abs_sub (y i / c) (A.rnd (y i / c))
      rw [abs_sub_comm] at a2
      have a3 := mul_le_mul_of_nonneg_right huγ (abs_nonneg (y i / c))
      have a4 : |y i / c| = |y i| / c := by rw [abs_div, abs_of_pos hc0]
      rw [a4] at a1 a2 a3
      change _ ≤ |A.rnd (y i / c)|
      linarith
    have h3 : 100 / 101 ≤ (∑ i, |y i|) / c := by
      rw [le_div_iff₀ hc0]
      nlinarith
    have h4 : 98 / 100 ≤ ∑ i, |A.div (y i) c| := by nlinarith
    have h5 := normL1_sq_le (fun i => A.div (y i) c)
    have h6 : normL1 (fun i => A.div (y i) c) ≤ Real.sqrt n * nrm (fun i => A.div (y i) c) := by
      refine abs_le_of_sq_le_sq' ?_ (mul_nonneg (Real.sqrt_nonneg _) (nrm_nonneg _)) |>.2
      rw [mul_pow, Real.sq_sqrt (Nat.cast_nonneg n), nrm_sq]
      exact h5
    exact h4.trans h6

/-- The numbers of the pass that stops. -/
theorem stop4_numbers {L X N1 Y t c d W s tol γ : ℝ} (hL : 0 ≤ L) (hγ0 : 0 ≤ γ) (hγ : γ ≤ 1 / 100) (hX : 0 < X) (hY : Y ≤ 101 / 100 * (L * N1)) (htol : 0 ≤ tol) (ht : t ≤ 103 / 100 * tol) (hN : N1 ≤ X + t)
    (hc : c * X ≤ 101 / 100 * Y) (hd : 95 / 100 * X ≤ d) (hs0 : 0 ≤ s) (hs : 98 / 100 ≤ s * X) (hW : d * W ≤ L * t + γ * Y + γ * (L * N1) + γ * (L * X + c * X)) :
    W ≤ L * (23 / 20 * (s * tol) + 9 / 2 * γ) ∧ c ≤ 11 / 10 * (L * (1 + 11 / 10 * (s * tol))) := by
  have hT : 0 ≤ s * tol := mul_nonneg hs0 htol
  have htX : t ≤ 1052 / 1000 * (s * tol) * X := by
    have := mul_le_mul_of_nonneg_right hs htol
    have e : s * X * tol = s * tol * X := by ring
    rw [e] at this
    linarith
  have hN' : N1 ≤ X * (1 + 1052 / 1000 * (s * tol)) := by linarith
  have hLN : L * N1 ≤ L * (X * (1 + 1052 / 1000 * (s * tol))) := mul_le_mul_of_nonneg_left hN' hL
  have hLt : L * t ≤ L * (1052 / 1000 * (s * tol) * X) := mul_le_mul_of_nonneg_left htX hL
  generalize s * tol = T at *
  have hLX : 0 ≤ L * X := mul_nonneg hL hX.le
  have hY' : Y ≤ 101 / 100 * (L * (X * (1 + 1052 / 1000 * T))) := by linarith
  have hcX : c * X ≤ 103 / 100 * (L * (X * (1 + 1052 / 1000 * T))) := by
    have : 0 ≤ L * (X * (1 + 1052 / 1000 * T)) := mul_nonneg hL (mul_nonneg hX.le (by linarith))
    linarith
  constructor
  · have g1 := mul_le_mul_of_nonneg_left hY' hγ0
    have g2 := mul_le_mul_of_nonneg_left hLN hγ0
    have g3 := mul_le_mul_of_nonneg_left hcX hγ0
    have g4 : γ * (L * X * T) ≤ 1 / 100 * (L * X * T) := mul_le_mul_of_nonneg_right hγ (mul_nonneg hLX hT)
    have g5 : 0 ≤ γ * (L * X) := mul_nonneg hγ0 hLX
    have g6 : 0 ≤ L * X * T := mul_nonneg hLX hT
    have hb : d * W ≤ 95 / 100 * X * (L * (23 / 20 * T + 9 / 2 * γ)) := by linarith
    by_contra hn
    push Not at hn
    have q0 : 0 ≤ L * (23 / 20 * T + 9 / 2 * γ) := mul_nonneg hL (by linarith)
    have q1 : 95 / 100 * X * W ≤ d * W := mul_le_mul_of_nonneg_right hd (by linarith)
    have q2 : 95 / 100 * X * (L * (23 / 20 * T + 9 / 2 * γ)) < 95 / 100 * X * W := mul_lt_mul_of_pos_left hn (by linarith)
    linarith
  · refine le_of_mul_le_mul_right ?_ hX
    have g6 : 0 ≤ L * X * T := mul_nonneg hLX hT
    linarith

/-- One pass that stops. -/
theorem stop4_near {M : Mat n} {L tol : ℝ} (hM : AbsBound M L) (hA : A.Accurate u γ n) (hu : 0 ≤ u) (huγ : u ≤ γ) (hγ : γ ≤ 1 / 100) {x x1 z : Vec n} (h : A.arrDiv (A.mv M x1) (A.normL1 (A.mv M x1)) = .ok x)
    (hs : A.normL1 (fun i => A.sub (x i) (x1 i)) ≤ tol ∨ A.normL1 (fun i => A.add (x i) (x1 i)) ≤ tol) (hz : A.arrUnit x = .ok z) :
    nrm (M *ᵥ z - A.dot z (A.mv M z) • z) ≤ L * (4 / 3 * (Real.sqrt n * tol) + 17 * γ) := by
  have hγ0 := hu.trans huγ
  have hL := hM.1
  obtain ⟨c, hc0, hd, hcx, hsx⟩ := l1_unit_computed hA hu huγ hγ h
  obtain ⟨d, hd0, -, hzd, hz1⟩ := unit_computed hA hu huγ hγ hz
  have hx0 := nrm_nonneg x
  have hX : 0 < nrm x := by
    rcases hx0.eq_or_lt with h0 | h0
    · rw [← h0] at hsx; norm_num at hsx
    · exact h0
  have hn0 := nrm_nonneg x1
  have he := hM.mv_nrm hA hγ0 x1
  have hy : nrm (A.mv M x1) ≤ 101 / 100 * (L * nrm x1) := by
    have a1 := nrm_add_le (A.mv M x1 - M *ᵥ x1) (M *ᵥ x1)
    rw [sub_add_cancel] at a1
    have a2 := hM.mulVec_nrm x1
    have a3 := mul_le_mul_of_nonneg_right hγ (mul_nonneg hL hn0)
    linarith
  have hd95 : 95 / 100 * nrm x ≤ d := by
    have a1 := nrm_add_le (d • z) (x - d • z)
    rw [add_sub_cancel, nrm_smul', abs_of_pos hd0] at a1
    have a2 := (abs_le.mp hz1).2
    have a3 : d * nrm z ≤ d * (104 / 100) := mul_le_mul_of_nonneg_left (by linarith) hd0.le
    have a4 := mul_le_mul_of_nonneg_right hγ hx0
    linarith
  have key : ∀ σ : ℝ, |σ| = 1 → nrm (x - σ • x1) ≤ (1 + 3 * γ) * tol → nrm (M *ᵥ z - A.dot z (A.mv M z) • z) ≤ L * (4 / 3 * (Real.sqrt n * tol) + 17 * γ) := fun σ hσ hdn => by
    have htol : 0 ≤ tol := by
      have := (nrm_nonneg _).trans hdn
      by_contra hneg
      push Not at hneg
      nlinarith
    have hW : d * nrm (M *ᵥ z - (σ * c) • z) ≤ L * nrm (x - σ • x1) + γ * nrm (A.mv M x1) + γ * (L * nrm x1) + γ * (L * nrm x + c * nrm x) := by
      have e : d • (M *ᵥ z - (σ * c) • z) = (M *ᵥ (x - σ • x1) + (σ • (A.mv M x1 - c • x) - σ • (A.mv M x1 - M *ᵥ x1))) + ((σ * c) • (x - d • z) - M *ᵥ (x - d • z)) := by
        rw [mulVec_sub, mulVec_sub, mulVec_smul, mulVec_smul]
        ext i
        simp only [Pi.add_apply, Pi.sub_apply, Pi.smul_apply, smul_eq_mul]
        ring
      have e' : nrm (d • (M *ᵥ z - (σ * c) • z)) = d * nrm (M *ᵥ z - (σ * c) • z) := by rw [nrm_smul', abs_of_pos hd0]
      rw [← e', e]
      have a1 := nrm_add_le (M *ᵥ (x - σ • x1) + (σ • (A.mv M x1 - c • x) - σ • (A.mv M x1 - M *ᵥ x1))) ((σ * c) • (x - d • z) - M *ᵥ (x - d • z))
      have a2 := nrm_add_le (M *ᵥ (x - σ • x1)) (σ • (A.mv M x1 - c • x) - σ • (A.mv M x1 - M *ᵥ x1))
      have a3 := nrm_abs_sub (σ • (A.mv M x1 - c • x)) (σ • (A.mv M x1 - M *ᵥ x1))
      rw [nrm_smul', nrm_smul', hσ, one_mul, one_mul] at a3
      have a4 := hM.mulVec_nrm (x - σ • x1)
      have a5 := nrm_abs_sub ((σ * c) • (x - d • z)) (M *ᵥ (x - d • z))
      rw [nrm_smul', abs_mul, hσ, one_mul, abs_of_pos hc0] at a5
      have a6 := (hM.mulVec_nrm (x - d • z)).trans (mul_le_mul_of_nonneg_left hzd hL)
      have a7 := mul_le_mul_of_nonneg_left hzd hc0.le
      linarith
    have hN : nrm x1 ≤ nrm x + nrm (x - σ • x1) := by
      have a1 := nrm_abs_sub x (x - σ • x1)
      rwa [sub_sub_cancel, nrm_smul', hσ, one_mul] at a1
    obtain ⟨w1, w2⟩ := stop4_numbers hL hγ0 hγ hX hy htol (by nlinarith) hN hcx hd95 (Real.sqrt_nonneg n) hsx hW
    have hT : 0 ≤ Real.sqrt n * tol := mul_nonneg (Real.sqrt_nonneg _) htol
    have hv := value_near hM hA hγ0 hγ hz1
    have hL2 : L ≤ L * (1 + 11 / 10 * (Real.sqrt n * tol)) := le_mul_of_one_le_right hL (by linarith)
    have hLT : 0 ≤ L * (Real.sqrt n * tol) := mul_nonneg hL hT
    have h3 := rayleigh_near (M := M) (L := L * (1 + 11 / 10 * (Real.sqrt n * tol))) (by linarith) hγ0 hγ hz1 w1 (by rw [abs_mul, hσ, one_mul, abs_of_pos hc0]; exact w2)
      (hv.trans (mul_le_mul_of_nonneg_left hL2 (by linarith)))
    have h4 : γ * (L * (Real.sqrt n * tol)) ≤ 1 / 100 * (L * (Real.sqrt n * tol)) := mul_le_mul_of_nonneg_right hγ hLT
    have h5 : 0 ≤ γ * L := mul_nonneg hγ0 hL
    linarith
  rcases hs with hs | hs
  · exact key 1 abs_one (by rw [one_smul]; exact l1_computed hA hu huγ hγ (d := fun i => x i - x1 i) hs)
  · exact key (-1) (by norm_num) (by rw [neg_one_smul, sub_neg_eq_add]; exact l1_computed hA hu huγ hγ (d := fun i => x i + x1 i) hs)

theorem powerLoop4_near {M : Mat n} {L : ℝ} (hM : AbsBound M L) (hA : A.Accurate u γ n) (hu : 0 ≤ u) (huγ : u ≤ γ) (hγ : γ ≤ 1 / 100) (o : PowerOptions) (arg : Vec n) {r : PowerResult n} :
    ∀ (left niter : ℕ) (x1 : Vec n), niter + left = o.maxIters → A.powerLoop4 M o arg left niter x1 = .ok r →
      |nrm r.x - 1| ≤ 4 * γ ∧ |r.ld - r.x ⬝ᵥ (M *ᵥ r.x)| ≤ 11 / 5 * γ * L ∧ r.niter ≤ o.maxIters ∧ (r.niter < o.maxIters → nrm (M *ᵥ r.x - r.ld • r.x) ≤ L * (4 / 3 * (Real.sqrt n * o.tolerance) + 17 * γ))
  | 0, niter, x1, _, h => by
    rw [Arith.powerLoop4] at h
    rcases hz : A.arrUnit x1 with f | z
    · rw [hz] at h; cases h
    simp only [hz] at h
    cases h
    obtain ⟨c, -, -, -, hx⟩ := unit_computed hA hu huγ hγ hz
    exact ⟨hx, value_near hM hA (hu.trans huγ) hγ hx, le_rfl, fun h => absurd h (lt_irrefl _)⟩
  | left + 1, niter, x1, hN, h => by
    rw [Arith.powerLoop4] at h
    rcases hy : A.arrDiv (A.mv M x1) (A.normL1 (A.mv M x1)) with f | x
    · rw [hy] at h; cases h
    simp only [hy] at h
    split_ifs at h with hs
    · rcases hz : A.arrUnit x with f | z
      · rw [hz] at h; cases h
      simp only [hz] at h
      cases h
      obtain ⟨c, -, -, -, hx⟩ := unit_computed hA hu huγ hγ hz
      exact ⟨hx, value_near hM hA (hu.trans huγ) hγ hx, by show niter ≤ _; omega, fun _ => stop4_near hM hA hu huγ hγ hy hs hz⟩
    · exact powerLoop4_near hM hA hu huγ hγ o arg left (niter + 1) x (by omega) h

/-- **C129.** What `power_iteration4` returns in floating point, for every square matrix with `‖ |A| ‖ ≤ L`: a vector of length one up to `4 γ` and its Rayleigh quotient up to `11/5 γ L`. If it reports fewer than `max_iters` passes it is an eigenpair
up to `L (4/3 √n tol + 17 γ)`. -/
theorem C129_residual {M : Mat n} {L : ℝ} (hM : AbsBound M L) (hA : A.Accurate u γ n) (hu : 0 ≤ u) (huγ : u ≤ γ) (hγ : γ ≤ 1 / 100) {x : Vec n} {o : PowerOptions} {r : PowerResult n} (h : A.powerIteration4 M x o = .ok r) :
    |Real.sqrt (∑ i, r.x i ^ 2) - 1| ≤ 4 * γ ∧ |r.ld - r.x ⬝ᵥ (M *ᵥ r.x)| ≤ 11 / 5 * γ * L ∧ r.niter ≤ o.maxIters ∧
    (r.niter < o.maxIters → NearEigenpair M r.x r.ld (4 * γ) (L * (4 / 3 * (Real.sqrt n * o.tolerance) + 17 * γ))) := by
  unfold Arith.powerIteration4 at h
  rcases hy : A.arrDiv x (A.normL1 x) with f | y
  · rw [hy] at h; cases h
  simp only [hy] at h
  obtain ⟨h1, h2, h3, h4⟩ := powerLoop4_near hM hA hu huγ hγ o y o.maxIters 0 y (by omega) h
  rw [nrm_eq_sqrt] at h1
  refine ⟨h1, h2, h3, fun hn => ⟨h1, ?_⟩⟩
  have := h4 hn
  rw [nrm_eq_sqrt] at this
  exact this

/-- **C129.** Hence, for a symmetric matrix, the value returned is close to an eigenvalue. -/
theorem C129_eigenvalue {M : Mat n} {L : ℝ} (hS : M.IsSymm) (hM : AbsBound M L) (hA : A.Accurate u γ n) (hu : 0 ≤ u) (huγ : u ≤ γ) (hγ : γ ≤ 1 / 100) {x : Vec n} {o : PowerOptions} {r : PowerResult n}
    (h : A.powerIteration4 M x o = .ok r) (hn : r.niter < o.maxIters) : ∃ μ : ℝ, ∃ v : Vec n, v ≠ 0 ∧ M *ᵥ v = μ • v ∧ |μ - r.ld| ≤ 25 / 24 * (L * (4 / 3 * (Real.sqrt n * o.tolerance) + 17 * γ)) := by
  have hγ0 := hu.trans huγ
  obtain ⟨h1, -, -, h2⟩ := C129_residual hM hA hu huγ hγ h
  obtain ⟨-, h3⟩ := h2 hn
  rw [← nrm_eq_sqrt] at h1
  have h4 : nrm (M *ᵥ r.x - r.ld • r.x) ≤ L * (4 / 3 * (Real.sqrt n * o.tolerance) + 17 * γ) := by rw [nrm_eq_sqrt]; exact h3
  have h5 := (abs_le.mp h1).1
  have h6 : (0 : ℝ) < nrm r.x := by linarith
  have h7 := (nrm_nonneg _).trans h4
  refine nearby_eigenvalue hS (by positivity) (x := r.x) (fun h0 => ?_) ?_
  · rw [h0] at h6; simp [nrm] at h6
  · rw [← nrm_sq, ← nrm_sq, ← mul_pow]
    refine pow_le_pow_left₀ (nrm_nonneg _) (h4.trans ?_) 2
    have : 1 ≤ 25 / 24 * nrm r.x := by linarith
    have := mul_le_mul_of_nonneg_left this h7
    linarith

/-- **C129** for machine numbers with `p` bits, `2^p ≥ 200 (n+1)`. -/
theorem C129_bits {p : ℕ} (hp : 200 * ((n : ℝ) + 1) ≤ 2 ^ p) {M : Mat n} {L : ℝ} (hM : AbsBound M L) {x : Vec n} {o : PowerOptions} {r : PowerResult n} (h : (Arith.ieee p).powerIteration4 M x o = .ok r) :
    |Real.sqrt (∑ i, r.x i ^ 2) - 1| ≤ 8 * (n + 1) / 2 ^ p ∧ |r.ld - r.x ⬝ᵥ (M *ᵥ r.x)| ≤ 22 / 5 * (n + 1) / 2 ^ p * L ∧ r.niter ≤ o.maxIters ∧
    (r.niter < o.maxIters → NearEigenpair M r.x r.ld (8 * (n + 1) / 2 ^ p) (L * (4 / 3 * (Real.sqrt n * o.tolerance) + 34 * (n + 1) / 2 ^ p)) ∧
      (M.IsSymm → ∃ μ : ℝ, ∃ v : Vec n, v ≠ 0 ∧ M *ᵥ v = μ • v ∧ |μ - r.ld| ≤ 25 / 24 * (L * (4 / 3 * (Real.sqrt n * o.tolerance) + 34 * (n + 1) / 2 ^ p)))) := by
  have hup : (2⁻¹ : ℝ) ^ p * 2 ^ p = 1 := by rw [← mul_pow]; norm_num
  have hu0 : (0 : ℝ) < 2⁻¹ ^ p := by positivity
  have hinv : (2 ^ p : ℝ)⁻¹ = 2⁻¹ ^ p := by rw [inv_pow]
  have hn0 : (0 : ℝ) ≤ n := Nat.cast_nonneg n
  obtain ⟨γ, hγ⟩ : ∃ γ : ℝ, γ = 2 * ((n : ℝ) + 1) * 2⁻¹ ^ p := ⟨_, rfl⟩
  have hsm : 200 * (((n : ℝ) + 1) * 2⁻¹ ^ p) ≤ 1 := by
    have := mul_le_mul_of_nonneg_right hp hu0.le
    rw [mul_comm ((2 : ℝ) ^ p), hup] at this
    linarith
  have hle : ((1 : ℝ) + 2⁻¹ ^ p) ^ (n + 1) - 1 ≤ γ := by
    have := Arith.ieee_gamma_le (p := p) (n := n) (by linarith)
    rwa [← hγ] at this
  have hacc : (Arith.ieee p).Accurate (2⁻¹ ^ p) γ n := (Arith.ieee_accurate p n).mono le_rfl hle
  have huγ : (2⁻¹ : ℝ) ^ p ≤ γ := (Arith.ieee_le_gamma p n).trans hle
  have hγ1 : γ ≤ 1 / 100 := by rw [hγ]; linarith
  obtain ⟨h1, h2, h3, h4⟩ := C129_residual hM hacc hu0.le huγ hγ1 h
  have e1 : 8 * ((n : ℝ) + 1) / 2 ^ p = 4 * γ := by rw [div_eq_mul_inv, hinv, hγ]; ring
  have e2 : 22 / 5 * ((n : ℝ) + 1) / 2 ^ p = 11 / 5 * γ := by rw [div_eq_mul_inv, hinv, hγ]; ring
  have e4 : 34 * ((n : ℝ) + 1) / 2 ^ p = 17 * γ := by rw [div_eq_mul_inv, hinv, hγ]; ring
  rw [e1, e2, e4]
  exact ⟨h1, h2, h3, fun hn => ⟨h4 hn, fun hS => C129_eigenvalue hS hM hacc hu0.le huγ hγ1 h hn⟩⟩

/-- The matrix `[[2]]` and the start vector `[3]` in double precision: the hypotheses of `C129_bits` and `C129_residual` hold, and the run converges in pass 0. -/
example : AbsBound !![(2 : ℝ)] 2 ∧ (Arith.ieee 53).powerIteration4 !![2] ![3] ⟨2000, 1 / 10 ^ 9⟩ = .ok ⟨fun _ => 1, 2, 0, fun _ => 1⟩ := by
  have hM : AbsBound !![(2 : ℝ)] 2 := ⟨by norm_num, fun v => by
    simp only [Fin.sum_univ_one]
    rw [show (|(!![(2 : ℝ)] : Mat 1) 0 0| * |v 0|) ^ 2 = 2 ^ 2 * v 0 ^ 2 by rw [mul_pow, sq_abs, sq_abs]; rfl, Real.sqrt_mul (by norm_num), Real.sqrt_sq (by norm_num)]⟩
  have hd : ∀ x y : Vec 1, (Arith.ieee 53).dot x y = roundBits 53 (0 + roundBits 53 (x 0 * y 0)) := fun x y => by simp [Arith.ieee, seqDot, Fin.foldl_succ, Fin.foldl_zero]
  have hm : (Arith.ieee 53).mv !![(2 : ℝ)] (fun _ => 1) = fun _ => 2 := by
    funext i
    fin_cases i
    have := rbN 2 (by norm_num)
    push_cast at this
    simp [Arith.ieee, seqDot, Fin.foldl_succ, Fin.foldl_zero, this]
  have r1 : roundBits 53 1 = 1 := by simpa using rbN 1 (by norm_num)
  have r2 : roundBits 53 2 = 2 := by simpa using rbN 2 (by norm_num)
  have r3 : roundBits 53 3 = 3 := by simpa using rbN 3 (by norm_num)
  have hun : ∀ k : ℝ, 0 < k → roundBits 53 k = k → ∀ y : Vec 1, y 0 = k → (Arith.ieee 53).arrDiv y ((Arith.ieee 53).normL1 y) = .ok fun _ => 1 := fun k hk e y hy => by
    have ec : (Arith.ieee 53).normL1 y = k := by
      unfold Arith.normL1
      rw [hd, hy, abs_of_pos hk, mul_one, e, zero_add, e]
    unfold Arith.arrDiv
    rw [ec, if_neg hk.ne']
    congr 1
    funext i
    fin_cases i
    show roundBits 53 (y 0 / k) = 1
    rw [hy, div_self hk.ne', r1]
  have hu1 : (Arith.ieee 53).arrUnit (fun _ : Fin 1 => (1 : ℝ)) = .ok fun _ => 1 := by
    have ec : (Arith.ieee 53).rnd (Real.sqrt ((Arith.ieee 53).dot (fun _ : Fin 1 => (1 : ℝ)) fun _ => 1)) = 1 := by rw [hd, mul_one, r1, zero_add, r1, Real.sqrt_one, ieee_rnd, r1]
    unfold Arith.arrUnit
    simp only [ec]
    rw [if_neg one_ne_zero]
    congr 1
    funext i
    show roundBits 53 (1 / 1) = 1
    rw [div_one, r1]
  refine ⟨hM, ?_⟩
  unfold Arith.powerIteration4
  rw [hun 3 (by norm_num) r3 _ (by simp)]
  change (Arith.ieee 53).powerLoop4 !![2] ⟨2000, 1 / 10 ^ 9⟩ (fun _ => 1) (1999 + 1) 0 (fun _ => 1) = _
  rw [Arith.powerLoop4, hm]
  rw [hun 2 (by norm_num) r2 _ rfl]
  have hz : (Arith.ieee 53).normL1 (fun _ : Fin 1 => (Arith.ieee 53).sub 1 1) = 0 := by
    unfold Arith.normL1
    rw [hd]
    simp [Arith.sub, ieee_rnd]
  have hl : (Arith.ieee 53).dot (fun _ : Fin 1 => (1 : ℝ)) (fun _ => 2) = 2 := by rw [hd, one_mul, r2, zero_add, r2]
  simp only [hz]
  rw [if_pos (.inl (by norm_num)), hu1]
  simp only [hm, hl]

end Ellalgo
