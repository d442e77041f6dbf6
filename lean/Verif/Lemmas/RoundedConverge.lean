import Verif.Props.RoundedRun
import Verif.Lemmas.Converge
import Verif.Lemmas.MinVolume

/-! # One floating-point cut, followed by a ball inside of the ellipsoid -/

namespace Ellalgo

open Matrix Spec EllCalcCore

variable {n : ℕ}

/-- A symmetric matrix with a quadratic form between 0 and `c|v|²` has determinant at most `cⁿ`. -/
theorem det_le_of_quad_le {X : Mat n} (hX : X.PosSemidef) {c : ℝ} (h : ∀ v : Vec n, v ⬝ᵥ (X *ᵥ v) ≤ c * (v ⬝ᵥ v)) : X.det ≤ c ^ n := by
  have hA := hX.isHermitian
  have he : ∀ i, hA.eigenvalues i ≤ c := by
    intro i
    have h1 := h (hA.eigenvectorBasis i).ofLp
    have h2 := hA.eigenvalues_eq i
    have h3 : (hA.eigenvectorBasis i).ofLp ⬝ᵥ (hA.eigenvectorBasis i).ofLp = 1 := by
      have h4 := hA.eigenvectorBasis.orthonormal.1 i
      rw [EuclideanSpace.norm_eq, Real.sqrt_eq_one] at h4
      rw [← h4]
      simp [dotProduct, pow_two]
    rw [h3, mul_one] at h1
    rw [h2]
    simpa using h1
  rw [hA.det_eq_prod_eigenvalues]
  have : c ^ n = ∏ _i : Fin n, c := by simp
  rw [this]
  exact Finset.prod_le_prod (fun i _ => hX.eigenvalues_nonneg i) (fun i _ => he i)

/-- The determinant is monotone on positive definite matrices. -/
theorem det_le_of_quad_le_quad {X Y : Mat n} (hX : X.PosSemidef) (hY : Y.PosDef) {t : ℝ} (h : ∀ v : Vec n, v ⬝ᵥ (X *ᵥ v) ≤ t * (v ⬝ᵥ (Y *ᵥ v))) : X.det ≤ t ^ n * Y.det := by
  obtain ⟨C, hC⟩ := exists_factor hY.posSemidef
  obtain ⟨B, hB⟩ : ∃ B : Mat n, Y = Bᵀ * B := ⟨Cᵀ, by rw [transpose_transpose, hC]⟩
  have hdY : Y.det = B.det ^ 2 := by rw [hB, det_mul, det_transpose]; ring
  have hB0 : B.det ≠ 0 := fun h0 => by
    have := hY.det_pos
    rw [hdY, h0] at this
    norm_num at this
  have hu : IsUnit B.det := isUnit_iff_ne_zero.mpr hB0
  have hBi : B * B⁻¹ = 1 := mul_nonsing_inv B hu
  have hq : ∀ w : Vec n, w ⬝ᵥ ((B⁻¹ᵀ * X * B⁻¹) *ᵥ w) = (B⁻¹ *ᵥ w) ⬝ᵥ (X *ᵥ (B⁻¹ *ᵥ w)) := fun w => by
    rw [← mulVec_mulVec, ← mulVec_mulVec, dotProduct_mulVec, ← mulVec_transpose, transpose_transpose]
  have h1 : (B⁻¹ᵀ * X * B⁻¹).det ≤ t ^ n := by
    refine det_le_of_quad_le ?_ fun w => ?_
    · have := hX.conjTranspose_mul_mul_same B⁻¹
      rwa [conjTranspose_eq_transpose_of_trivial] at this
    · rw [hq]
      refine (h _).trans (le_of_eq ?_)
      have e1 : (B⁻¹ *ᵥ w) ⬝ᵥ (Y *ᵥ (B⁻¹ *ᵥ w)) = (B *ᵥ (B⁻¹ *ᵥ w)) ⬝ᵥ (B *ᵥ (B⁻¹ *ᵥ w)) := by
        rw [hB, ← mulVec_mulVec, dotProduct_mulVec _ Bᵀ, vecMul_transpose]
      rw [e1, mulVec_mulVec, hBi, one_mulVec]
  rw [det_mul, det_mul, det_transpose, det_nonsing_inv, Ring.inverse_eq_inv'] at h1
  have hpos : 0 < B.det ^ 2 := by positivity
  rw [hdY, ← div_le_iff₀ hpos]
  refine le_trans (le_of_eq ?_) h1
  field_simp

/-- What `StepFacts` leaves out: the shape against the exact update, and `tsq`. -/
theorem Arith.single_extra {A : Arith} {u γ m L a β : ℝ} (hA : A.Accurate u γ n) (hu : 0 ≤ u) (huγ : u ≤ γ) (hn : 2 ≤ n) (e : Ell n) (he : A.calcInit (n : ℤ) = .ok e.helper) (hd : e.noDeferTrick = false) (hκ : 0 < e.kappa)
    (hsymm : e.mq.IsSymm) (hm : 0 < m) (hlow : ∀ v : Vec n, m * (v ⬝ᵥ v) ≤ v ⬝ᵥ (e.mq *ᵥ v)) (hup : ∀ v : Vec n, v ⬝ᵥ (e.mq *ᵥ v) ≤ L * (v ⬝ᵥ v))
    {g : Vec n} (hg : g ≠ 0) (mt : Method) (hβ0 : 0 ≤ mt.offset β) (ha0 : 0 < a) (ha1 : a ≤ 1) (hβ : mt.offset β ≤ (1 - a) * Real.sqrt (e.kappa * (g ⬝ᵥ (e.mq *ᵥ g))))
    (hε : 2000 * epsOf n γ m L ≤ a) :
    (∀ v : Vec n, v ⬝ᵥ ((A.update e mt (g, .scalar β)).1.mq *ᵥ v) ≤
      v ⬝ᵥ ((e.mq - ((biasParams n (mt.offset β) (Real.sqrt (e.kappa * (g ⬝ᵥ (e.mq *ᵥ g))))).sigma / (g ⬝ᵥ (e.mq *ᵥ g))) • vecMulVec (e.mq *ᵥ g) (e.mq *ᵥ g)) *ᵥ v) + 42 * epsOf n γ m L * (v ⬝ᵥ (e.mq *ᵥ v))) ∧
    e.kappa * (g ⬝ᵥ (e.mq *ᵥ g)) ≤ 2 * (A.update e mt (g, .scalar β)).1.tsq := by
  have D : CutData A u γ e.mq m L := ⟨hA, hu, huγ, hn, hsymm, hm, hlow, hup⟩
  have hε0 := D.eps_nonneg
  have hω : 0 < g ⬝ᵥ (e.mq *ᵥ g) := D.btw.posDef.dotProduct_mulVec_pos hg
  have huε := D.u_le_eps
  have hoh := D.omega_rel hω (by linarith)
  obtain ⟨p, hp, hup⟩ := Arith.strategy_single (β := β) hA hu huε hn he rfl hκ hω hoh rfl hg hd mt hβ0 ha0 ha1 hβ hε
  have hε1 : epsOf n γ m L ≤ 1 / 2000 := by linarith
  have R := fun x => (hA.rel hu (by linarith) x).mono (show 2 * u ≤ 2 * epsOf n γ m L by linarith)
  have rc : Rel (31 * epsOf n γ m L) (A.div p.sigma (A.dot g (A.mv e.mq g))) _ := ((R _).trans (hp.sigma.div hoh)).mono (by linarith)
  have rt : Rel (61 / 10 * epsOf n γ m L) (A.mul e.kappa (A.dot g (A.mv e.mq g))) (e.kappa * (g ⬝ᵥ (e.mq *ᵥ g))) := ((R _).trans (hoh.const_mul e.kappa)).mono (by linarith)
  rw [hup]
  set ε := epsOf n γ m L
  set ω := g ⬝ᵥ (e.mq *ᵥ g) with hωd
  have hκω : 0 < e.kappa * ω := mul_pos hκ hω
  have hτ : 0 < Real.sqrt (e.kappa * ω) := Real.sqrt_pos.mpr hκω
  set τ := Real.sqrt (e.kappa * ω)
  have hn2 : (2 : ℝ) ≤ n := by exact_mod_cast hn
  have hβτ : mt.offset β ≤ τ := by nlinarith
  have hsound := bias_slabSound (n := n) (β := mt.offset β) (τ := τ) hn2 hτ (by positivity) hβτ
  have hσ0 : 0 ≤ (biasParams n (mt.offset β) τ).sigma := by simp only [biasParams]; positivity
  have hσ1 : (biasParams n (mt.offset β) τ).sigma ≤ 1 := hsound.sigma_le
  refine ⟨fun v => ?_, ?_⟩
  · have hs0 : 0 ≤ (biasParams n (mt.offset β) τ).sigma / ω := by positivity
    have hc : |A.div p.sigma (A.dot g (A.mv e.mq g)) - (biasParams n (mt.offset β) τ).sigma / ω| ≤ 32 * ε * ((biasParams n (mt.offset β) τ).sigma / ω) := by
      refine (rc.abs_sub_le hs0 (by linarith)).trans (mul_le_mul_of_nonneg_right ?_ hs0)
      nlinarith
    have h1 := (abs_le.mp (D.shape_err g v hs0 hc (by linarith) (by linarith))).2
    have h2 : (biasParams n (mt.offset β) τ).sigma / ω * ω = (biasParams n (mt.offset β) τ).sigma := div_mul_cancel₀ _ hω.ne'
    rw [← hωd, h2] at h1
    have hQ : 0 ≤ v ⬝ᵥ (e.mq *ᵥ v) := D.quad_nonneg v
    have h3 : ε + (biasParams n (mt.offset β) τ).sigma * (32 * ε + (1 + 32 * ε) * (8 * ε)) ≤ 42 * ε := by
      have : (biasParams n (mt.offset β) τ).sigma * (32 * ε + (1 + 32 * ε) * (8 * ε)) ≤ 1 * (32 * ε + (1 + 32 * ε) * (8 * ε)) := mul_le_mul_of_nonneg_right hσ1 (by positivity)
      nlinarith
    have h4 := mul_le_mul_of_nonneg_left h3 hQ
    linarith
  · have h1 := rt.lower hκω.le (by linarith)
    show e.kappa * ω ≤ 2 * A.mul e.kappa (A.dot g (A.mv e.mq g))
    have h2 : (1 : ℝ) / 2 ≤ 1 - (61 / 10 * ε + (61 / 10 * ε) ^ 2) := by nlinarith
    have h3 := mul_le_mul_of_nonneg_right h2 hκω.le
    linarith

/-- What is known of the ellipsoid along a run: it contains the ball of radius `ρ` around `c`, its semi-axes are at most `Λ`, its squared volume (in units of that of the unit ball) at most `V`. -/
structure Arith.Track (A : Arith) (e : Ell n) (c : Vec n) (ρ Λ V : ℝ) : Prop where
  helper : A.calcInit (n : ℤ) = .ok e.helper
  defer : e.noDeferTrick = false
  symm : e.mq.IsSymm
  kappa : 0 < e.kappa
  inside : ∀ v : Vec n, v ⬝ᵥ (c - e.xc) + ρ * nrm v ≤ Real.sqrt (e.kappa * (v ⬝ᵥ (e.mq *ᵥ v)))
  upper : ∀ v : Vec n, e.kappa * (v ⬝ᵥ (e.mq *ᵥ v)) ≤ Λ ^ 2 * (v ⬝ᵥ v)
  vol : (e.kappa • e.mq).det ≤ V

theorem nrm_neg (v : Vec n) : nrm (-v) = nrm v := by unfold nrm; rw [neg_dotProduct, dotProduct_neg, neg_neg]

theorem nrm_pos {v : Vec n} (hv : v ≠ 0) : 0 < nrm v := Real.sqrt_pos.mpr (dot_self_pos hv)

/-- The point of the ball that is farthest in direction `v`. -/
theorem exists_farthest (c : Vec n) (ρ : ℝ) (v : Vec n) : ∃ z ∈ ball c ρ, ∀ x : Vec n, v ⬝ᵥ (z - x) = v ⬝ᵥ (c - x) + ρ * nrm v := by
  by_cases hv : v = 0
  · subst hv
    exact ⟨c, mem_ball_center, fun x => by simp [nrm]⟩
  · have hp := dot_self_pos hv
    refine ⟨c + (ρ / Real.sqrt (v ⬝ᵥ v)) • v, mem_ball_shift hp ρ le_rfl, fun x => ?_⟩
    rw [add_sub_right_comm, dotProduct_add, dotProduct_smul, smul_eq_mul]
    have h3 := Real.sqrt_pos.mpr hp
    have h2 : Real.sqrt (v ⬝ᵥ v) ^ 2 = v ⬝ᵥ v := Real.sq_sqrt hp.le
    unfold nrm
    congr 1
    rw [div_mul_eq_mul_div, div_eq_iff h3.ne']
    linear_combination -ρ * h2

theorem dot_le_of_mem_ball {c z : Vec n} {ρ : ℝ} (hρ : 0 ≤ ρ) (hz : z ∈ ball c ρ) (v x : Vec n) : v ⬝ᵥ (z - x) ≤ v ⬝ᵥ (c - x) + ρ * nrm v := by
  have h1 : nrm (z - c) ≤ ρ := nrm_le_of_sq hρ hz
  have h2 := le_of_abs_le (abs_dot_le v (z - c))
  have h3 := mul_le_mul_of_nonneg_left h1 (nrm_nonneg v)
  have e : v ⬝ᵥ (z - x) = v ⬝ᵥ (c - x) + v ⬝ᵥ (z - c) := by rw [← dotProduct_add]; congr 1; abel
  linarith

/-- A ball inside of a set given by its widths. -/
theorem ball_subset_support {M : Mat n} {κ ρ : ℝ} {x c : Vec n} (hρ : 0 ≤ ρ) (hnn : ∀ v : Vec n, 0 ≤ κ * (v ⬝ᵥ (M *ᵥ v))) :
    ball c ρ ⊆ supportSet M κ x ↔ ∀ v : Vec n, v ⬝ᵥ (c - x) + ρ * nrm v ≤ Real.sqrt (κ * (v ⬝ᵥ (M *ᵥ v))) := by
  refine ⟨fun h v => ?_, fun h z hz v => ?_⟩
  · obtain ⟨z, hz, he⟩ := exists_farthest c ρ v
    rw [← he]
    exact le_of_abs_le (Real.abs_le_sqrt (h hz v))
  · have h1 := (dot_le_of_mem_ball hρ hz v x).trans (h v)
    have h2 := (dot_le_of_mem_ball hρ hz (-v) x).trans (h (-v))
    rw [mulVec_neg, neg_dotProduct, neg_dotProduct, dotProduct_neg, neg_neg] at h2
    rw [← Real.sq_sqrt (hnn v)]
    exact sq_le_sq' (by linarith) h1

theorem stretch_bound (x y : ℝ) : 1 + 500 * x + 4 * y ≤ (1 + (250 * x + 2 * y)) ^ 2 := by nlinarith [sq_nonneg (250 * x + 2 * y)]

theorem rate_bounds {N x : ℝ} (hN : 2 ≤ N) (hx : 0 ≤ x) (h : 3000 * (N * (N + 1)) * x ≤ 1) : 84 * x ≤ 1 / (9 * (N ^ 2 - 1)) ∧ N * (294 * x) ≤ 1 / (10 * (N + 1)) := by
  have h2 : 0 < N ^ 2 - 1 := by nlinarith
  have h3 : 0 ≤ N * (N + 1) * x := by positivity
  refine ⟨?_, ?_⟩
  · rw [le_div_iff₀ (by positivity)]
    have : (N ^ 2 - 1) * x ≤ N * (N + 1) * x := mul_le_mul_of_nonneg_right (by nlinarith) hx
    linarith
  · rw [le_div_iff₀ (by positivity)]
    linarith

namespace Arith.Track

variable {A : Arith} {e : Ell n} {c : Vec n} {ρ Λ V : ℝ}

theorem lower (T : A.Track e c ρ Λ V) (hρ : 0 < ρ) (v : Vec n) : ρ ^ 2 * (v ⬝ᵥ v) ≤ e.kappa * (v ⬝ᵥ (e.mq *ᵥ v)) := by
  have h1 := T.inside v
  have h2 := T.inside (-v)
  rw [nrm_neg, mulVec_neg, neg_dotProduct, neg_dotProduct, dotProduct_neg, neg_neg] at h2
  by_contra h
  push Not at h
  have h3 : Real.sqrt (e.kappa * (v ⬝ᵥ (e.mq *ᵥ v))) < ρ * nrm v := by
    have hv : v ≠ 0 := by rintro rfl; simp at h
    refine (Real.sqrt_lt' (mul_pos hρ (nrm_pos hv))).mpr ?_
    rw [mul_pow, nrm_sq]
    exact h
  linarith

theorem centre (T : A.Track e c ρ Λ V) (hρ : 0 ≤ ρ) (hΛ : 0 ≤ Λ) : nrm e.xc ≤ nrm c + Λ := by
  have h1 := T.inside (c - e.xc)
  have h2 : Real.sqrt (e.kappa * ((c - e.xc) ⬝ᵥ (e.mq *ᵥ (c - e.xc)))) ≤ Λ * nrm (c - e.xc) := by
    refine Real.sqrt_le_iff.mpr ⟨mul_nonneg hΛ (nrm_nonneg _), ?_⟩
    rw [mul_pow, nrm_sq]
    exact T.upper _
  rw [← nrm_sq] at h1
  have h3 := nrm_nonneg (c - e.xc)
  have h4 : nrm (c - e.xc) ≤ Λ := by
    by_contra h
    push Not at h
    nlinarith [mul_nonneg hρ h3]
  have h5 := nrm_add_le c (-(c - e.xc))
  rw [nrm_neg, show c + -(c - e.xc) = e.xc by abel] at h5
  linarith

theorem ball_subset (T : A.Track e c ρ Λ V) (hρ : 0 < ρ) : ball c ρ ⊆ supportSet e.mq e.kappa e.xc :=
  (ball_subset_support hρ.le fun v => le_trans (mul_nonneg (sq_nonneg ρ) (dot_self_nn v)) (T.lower hρ v)).mpr T.inside

theorem det_ge (T : A.Track e c ρ Λ V) (hρ : 0 < ρ) : (ρ ^ 2) ^ n ≤ V := by
  refine le_trans (det_ge_of_quad_ge ?_ (sq_nonneg ρ) fun v => ?_) T.vol
  · rw [IsHermitian, conjTranspose_eq_transpose_of_trivial, transpose_smul, T.symm]
  · rw [smul_mulVec, dotProduct_smul, smul_eq_mul]
    exact T.lower hρ v

set_option maxHeartbeats 1000000 in
/-- One cut. The ball shrinks a little, the semi-axes grow by at most the factor `exp (5 / (9 (n² - 1)))` and the squared volume falls by at least the factor `exp (-9 / (10 (n + 1)))`. -/
theorem step (T : A.Track e c ρ Λ V) {u γ ε ξ a β : ℝ} (hA : A.Accurate u γ n) (hu : 0 ≤ u) (huγ : u ≤ γ) (hn : 2 ≤ n) (hρ : 0 < ρ) (hΛ : 0 < Λ)
    {g : Vec n} (hg : g ≠ 0) (mt : Method) (hβ0 : 0 ≤ mt.offset β) (hkeep : g ⬝ᵥ (c - e.xc) + ρ * nrm g + mt.offset β ≤ 0) (ha0 : 0 < a) (ha1 : a ≤ 1) (hmargin : mt.offset β = 0 ∨ a * Λ ≤ 2 * ρ)
    (hε : γ * Real.sqrt n * (Λ ^ 2 / ρ ^ 2) ≤ ε) (hε2 : 3000 * (n * (n + 1)) * ε ≤ a) (hξ : u * (nrm c + Λ) / ρ ≤ ξ) (hξ2 : 1000 * ξ ≤ a) :
    ∃ e', A.update e mt (g, .scalar β) = (e', .ok .success) ∧
      A.Track e' c (ρ - (250 * ε + 2 * ξ) / a * (Λ * Real.exp (5 / (9 * ((n : ℝ) ^ 2 - 1))))) (Λ * Real.exp (5 / (9 * ((n : ℝ) ^ 2 - 1)))) (V * Real.exp (-9 / (10 * ((n : ℝ) + 1)))) ∧
      ρ ^ 2 * (g ⬝ᵥ g) ≤ 2 * e'.tsq := by
  have hn2 : (2 : ℝ) ≤ n := by exact_mod_cast hn
  have hκ := T.kappa
  have hsymm := T.symm
  obtain ⟨m, hm⟩ : ∃ m, m = ρ ^ 2 / e.kappa := ⟨_, rfl⟩
  obtain ⟨L, hL⟩ : ∃ L, L = Λ ^ 2 / e.kappa := ⟨_, rfl⟩
  have hm0 : 0 < m := by rw [hm]; positivity
  have hlow : ∀ v : Vec n, m * (v ⬝ᵥ v) ≤ v ⬝ᵥ (e.mq *ᵥ v) := fun v => by
    rw [hm, div_mul_eq_mul_div, div_le_iff₀ hκ, mul_comm (v ⬝ᵥ (e.mq *ᵥ v))]; exact T.lower hρ v
  have hup : ∀ v : Vec n, v ⬝ᵥ (e.mq *ᵥ v) ≤ L * (v ⬝ᵥ v) := fun v => by
    rw [hL, div_mul_eq_mul_div, le_div_iff₀ hκ, mul_comm (v ⬝ᵥ (e.mq *ᵥ v))]; exact T.upper v
  have hLm : L / m = Λ ^ 2 / ρ ^ 2 := by rw [hL, hm]; field_simp
  have hεi : epsOf n γ m L ≤ ε := by unfold epsOf; rw [hLm]; exact hε
  have hκm : Real.sqrt (e.kappa * m) = ρ := by rw [hm, mul_div_cancel₀ _ hκ.ne', Real.sqrt_sq hρ.le]
  have hξi : u * nrm e.xc / Real.sqrt (e.kappa * m) ≤ ξ := by
    rw [hκm]
    refine le_trans (div_le_div_of_nonneg_right (mul_le_mul_of_nonneg_left (T.centre hρ.le hΛ.le) hu) hρ.le) hξ
  have D : CutData A u γ e.mq m L := ⟨hA, hu, huγ, hn, hsymm, hm0, hlow, hup⟩
  have hε0 : 0 ≤ epsOf n γ m L := D.eps_nonneg
  have hξ0 : 0 ≤ u * nrm e.xc / Real.sqrt (e.kappa * m) := by have := nrm_nonneg e.xc; positivity
  have hε00 : 0 ≤ ε := hε0.trans hεi
  have hnn : 6 ≤ (n : ℝ) * (n + 1) := by nlinarith
  have hε3 : 18000 * ε ≤ a := le_trans (by nlinarith) hε2
  have hω : 0 < g ⬝ᵥ (e.mq *ᵥ g) := D.btw.posDef.dotProduct_mulVec_pos hg
  have hκω : 0 < e.kappa * (g ⬝ᵥ (e.mq *ᵥ g)) := mul_pos hκ hω
  have hτ := Real.sqrt_pos.mpr hκω
  have hτΛ : Real.sqrt (e.kappa * (g ⬝ᵥ (e.mq *ᵥ g))) ≤ Λ * nrm g := by
    refine Real.sqrt_le_iff.mpr ⟨mul_nonneg hΛ.le (nrm_nonneg _), ?_⟩
    rw [mul_pow, nrm_sq]
    exact T.upper _
  have hβ : mt.offset β ≤ (1 - a) * Real.sqrt (e.kappa * (g ⬝ᵥ (e.mq *ᵥ g))) := by
    rcases hmargin with h | h
    · rw [h]; exact mul_nonneg (by linarith) hτ.le
    · have h1 := T.inside (-g)
      rw [nrm_neg, mulVec_neg, neg_dotProduct, neg_dotProduct, dotProduct_neg, neg_neg] at h1
      have h2 := mul_le_mul_of_nonneg_left hτΛ ha0.le
      have h3 := mul_le_mul_of_nonneg_right h (nrm_nonneg g)
      linarith
  obtain ⟨h1, F⟩ := Arith.single_step hA hu huγ hn e T.helper T.defer hκ hsymm hm0 hlow hup hg mt hβ0 ha0 ha1 hβ (by linarith) (by linarith)
  obtain ⟨x1, x2⟩ := Arith.single_extra hA hu huγ hn e T.helper T.defer hκ hsymm hm0 hlow hup hg mt hβ0 ha0 ha1 hβ (by linarith)
  obtain ⟨b1, b2, b3, b4, b5⟩ := bias_bounds (N := n) hn2 hτ hβ0 ha0 ha1 hβ
  have hβτ : mt.offset β ≤ Real.sqrt (e.kappa * (g ⬝ᵥ (e.mq *ᵥ g))) := by nlinarith
  have hvolf := (bias_vol_le hn hτ hβ0 hβτ).trans (centralFactor_le hn)
  have hkap := F.kappa
  have hsh := F.shape
  have hcon := F.contains
  have hdet := det_update D.btw.herm hω.ne' (biasParams n (mt.offset β) (Real.sqrt (e.kappa * (g ⬝ᵥ (e.mq *ᵥ g))))).sigma
  have hδ : (biasParams n (mt.offset β) (Real.sqrt (e.kappa * (g ⬝ᵥ (e.mq *ᵥ g))))).delta ≤ Real.exp (1 / ((n : ℝ) ^ 2 - 1)) := by
    have hN2 : (0 : ℝ) < (n : ℝ) ^ 2 - 1 := by nlinarith
    have h2 : (n : ℝ) ^ 2 / ((n : ℝ) ^ 2 - 1) = 1 / ((n : ℝ) ^ 2 - 1) + 1 := by field_simp; ring
    refine le_trans ?_ (Real.add_one_le_exp _)
    rw [← h2]
    simp only [biasParams]
    have h3 : 0 ≤ (mt.offset β) ^ 2 / Real.sqrt (e.kappa * (g ⬝ᵥ (e.mq *ᵥ g))) ^ 2 := by positivity
    have h4 : (0 : ℝ) ≤ (n : ℝ) ^ 2 / ((n : ℝ) ^ 2 - 1) := by positivity
    nlinarith
  obtain ⟨Y, hY⟩ : ∃ Y, Y = e.mq - ((biasParams n (mt.offset β) (Real.sqrt (e.kappa * (g ⬝ᵥ (e.mq *ᵥ g))))).sigma / (g ⬝ᵥ (e.mq *ᵥ g))) • vecMulVec (e.mq *ᵥ g) (e.mq *ᵥ g) := ⟨_, rfl⟩
  rw [← hY] at x1 hdet
  have hσ0 : 0 ≤ (biasParams n (mt.offset β) (Real.sqrt (e.kappa * (g ⬝ᵥ (e.mq *ᵥ g))))).sigma := by simp only [biasParams]; positivity
  have hσ1 : a / 6 ≤ 1 - (biasParams n (mt.offset β) (Real.sqrt (e.kappa * (g ⬝ᵥ (e.mq *ᵥ g))))).sigma := b2.trans b1
  have hYpd : Y.PosDef := by rw [hY]; exact posDef_update D.btw.posDef hω (by linarith)
  have hYlow : ∀ v : Vec n, a / 6 * (v ⬝ᵥ (e.mq *ᵥ v)) ≤ v ⬝ᵥ (Y *ᵥ v) := fun v => by
    rw [hY, quad_update D.btw.herm]
    have hcs := cauchy_schwarz D.btw.posDef.posSemidef g v
    have h1 : (biasParams n (mt.offset β) (Real.sqrt (e.kappa * (g ⬝ᵥ (e.mq *ᵥ g))))).sigma / (g ⬝ᵥ (e.mq *ᵥ g)) * (g ⬝ᵥ (e.mq *ᵥ v)) ^ 2 ≤
        (biasParams n (mt.offset β) (Real.sqrt (e.kappa * (g ⬝ᵥ (e.mq *ᵥ g))))).sigma * (v ⬝ᵥ (e.mq *ᵥ v)) := by
      rw [div_mul_eq_mul_div, div_le_iff₀ hω, mul_assoc]
      exact mul_le_mul_of_nonneg_left (by linarith) hσ0
    nlinarith [D.quad_nonneg v]
  set e' := (A.update e mt (g, .scalar β)).1 with he'
  set δ := (biasParams n (mt.offset β) (Real.sqrt (e.kappa * (g ⬝ᵥ (e.mq *ᵥ g))))).delta with hδd
  set σ := (biasParams n (mt.offset β) (Real.sqrt (e.kappa * (g ⬝ᵥ (e.mq *ᵥ g))))).sigma with hσd
  obtain ⟨x, hx⟩ : ∃ x, x = ε / a := ⟨_, rfl⟩
  obtain ⟨y, hy⟩ : ∃ y, y = ξ / a := ⟨_, rfl⟩
  have hx0 : 0 ≤ x := by rw [hx]; positivity
  have hEx : epsOf n γ m L / a ≤ x := by rw [hx]; exact div_le_div_of_nonneg_right hεi ha0.le
  have hy0 : u * nrm e.xc / Real.sqrt (e.kappa * m) / a ≤ y := by rw [hy]; exact div_le_div_of_nonneg_right hξi ha0.le
  have hy00 : 0 ≤ y := le_trans (by positivity) hy0
  have hxn : 3000 * ((n : ℝ) * (n + 1)) * x ≤ 1 := by
    rw [hx, ← mul_div_assoc, div_le_one ha0]; exact hε2
  have hεx : ε ≤ x := by rw [hx, le_div_iff₀ ha0]; nlinarith
  have hδ0 : 0 < δ := b5
  have hκδ : 0 < e.kappa * δ := mul_pos hκ hδ0
  have hk' : e'.kappa ≤ e.kappa * δ * (1 + 42 * x) := by
    have h2 := (abs_le.mp hkap).2
    have h3 := mul_le_mul_of_nonneg_right hEx hκδ.le
    linarith
  have hk'0 : 0 < e'.kappa := F.kappa_pos
  have hX : ∀ v : Vec n, v ⬝ᵥ (e'.mq *ᵥ v) ≤ (1 + 252 * x) * (v ⬝ᵥ (Y *ᵥ v)) := fun v => by
    have h2 := hYlow v
    have h3 : ε * (v ⬝ᵥ (e.mq *ᵥ v)) ≤ 6 * x * (v ⬝ᵥ (Y *ᵥ v)) := by
      have h4 := mul_le_mul_of_nonneg_left h2 hx0
      have h5 : x * a = ε := by rw [hx]; field_simp
      calc ε * (v ⬝ᵥ (e.mq *ᵥ v)) = 6 * (x * (a / 6 * (v ⬝ᵥ (e.mq *ᵥ v)))) := by rw [← h5]; ring
        _ ≤ _ := by linarith
    have h4 := mul_le_mul_of_nonneg_right hεi (D.quad_nonneg v)
    have h5 := x1 v
    linarith
  have hN2 : (0 : ℝ) < (n : ℝ) ^ 2 - 1 := by nlinarith
  have hN1 : (0 : ℝ) < (n : ℝ) + 1 := by linarith
  have hexp : Real.exp (5 / (9 * ((n : ℝ) ^ 2 - 1))) ^ 2 = Real.exp (10 / (9 * ((n : ℝ) ^ 2 - 1))) := by
    rw [← Real.exp_nat_mul]; congr 1; push_cast; ring
  have hupper : ∀ v : Vec n, e'.kappa * (v ⬝ᵥ (e'.mq *ᵥ v)) ≤ (Λ * Real.exp (5 / (9 * ((n : ℝ) ^ 2 - 1)))) ^ 2 * (v ⬝ᵥ v) := fun v => by
    have q0 := D.quad_nonneg v
    have h2 : v ⬝ᵥ (e'.mq *ᵥ v) ≤ (1 + 42 * x) * (v ⬝ᵥ (e.mq *ᵥ v)) :=
      (hsh v).2.trans (mul_le_mul_of_nonneg_right (by linarith) q0)
    have h3 : (1 + 42 * x) * (1 + 42 * x) * δ ≤ Real.exp (10 / (9 * ((n : ℝ) ^ 2 - 1))) := by
      have h4 : 1 + 42 * x ≤ Real.exp (42 * x) := by linarith [Real.add_one_le_exp (42 * x)]
      have h5 : (1 + 42 * x) * (1 + 42 * x) * δ ≤ Real.exp (42 * x) * Real.exp (42 * x) * Real.exp (1 / ((n : ℝ) ^ 2 - 1)) := by gcongr
      refine h5.trans ?_
      rw [← Real.exp_add, ← Real.exp_add]
      refine Real.exp_le_exp.mpr ?_
      have h6 : 84 * x ≤ 1 / (9 * ((n : ℝ) ^ 2 - 1)) := (rate_bounds hn2 hx0 hxn).1
      have h7 : 10 / (9 * ((n : ℝ) ^ 2 - 1)) = 1 / ((n : ℝ) ^ 2 - 1) + 1 / (9 * ((n : ℝ) ^ 2 - 1)) := by field_simp; ring
      linarith
    calc e'.kappa * (v ⬝ᵥ (e'.mq *ᵥ v)) ≤ (e.kappa * δ * (1 + 42 * x)) * ((1 + 42 * x) * (v ⬝ᵥ (e.mq *ᵥ v))) :=
          mul_le_mul hk' h2 (F.posDef.posSemidef.dotProduct_mulVec_nonneg v) (by positivity)
      _ = (1 + 42 * x) * (1 + 42 * x) * δ * (e.kappa * (v ⬝ᵥ (e.mq *ᵥ v))) := by ring
      _ ≤ Real.exp (10 / (9 * ((n : ℝ) ^ 2 - 1))) * (Λ ^ 2 * (v ⬝ᵥ v)) :=
          mul_le_mul h3 (T.upper v) (by positivity) (Real.exp_pos _).le
      _ = _ := by rw [mul_pow, hexp]; ring
  have hvol : (e'.kappa • e'.mq).det ≤ V * Real.exp (-9 / (10 * ((n : ℝ) + 1))) := by
    have h2 := det_le_of_quad_le_quad F.posDef.posSemidef hYpd hX
    rw [hdet] at h2
    have hM0 : 0 < e.mq.det := D.btw.posDef.det_pos
    have h3 : (e'.kappa • e'.mq).det ≤ (e.kappa * δ * (1 + 42 * x)) ^ n * ((1 + 252 * x) ^ n * (e.mq.det * (1 - σ))) := by
      rw [det_smul, Fintype.card_fin]
      exact mul_le_mul (pow_le_pow_left₀ hk'0.le hk' n) h2 F.posDef.posSemidef.det_nonneg (by positivity)
    have h4 : ((1 + 42 * x) * (1 + 252 * x)) ^ n ≤ Real.exp (1 / (10 * ((n : ℝ) + 1))) := by
      have h5 : (1 + 42 * x) * (1 + 252 * x) ≤ Real.exp (294 * x) := by
        rw [show 294 * x = 42 * x + 252 * x by ring, Real.exp_add]
        have := Real.add_one_le_exp (42 * x)
        have := Real.add_one_le_exp (252 * x)
        gcongr <;> linarith
      refine (pow_le_pow_left₀ (by positivity) h5 n).trans ?_
      rw [← Real.exp_nat_mul]
      refine Real.exp_le_exp.mpr ?_
      exact (rate_bounds hn2 hx0 hxn).2
    have h5 : (e.kappa • e.mq).det = e.kappa ^ n * e.mq.det := by rw [det_smul, Fintype.card_fin]
    have h6 : 0 ≤ (e.kappa • e.mq).det := by rw [h5]; positivity
    have h7 : δ ^ n * (1 - σ) ≤ Real.exp (-1 / ((n : ℝ) + 1)) := hvolf
    calc (e'.kappa • e'.mq).det ≤ _ := h3
      _ = (e.kappa • e.mq).det * (δ ^ n * (1 - σ)) * ((1 + 42 * x) * (1 + 252 * x)) ^ n := by rw [h5, mul_pow, mul_pow, mul_pow]; ring
      _ ≤ V * Real.exp (-1 / ((n : ℝ) + 1)) * Real.exp (1 / (10 * ((n : ℝ) + 1))) := by
          have hs1 : 0 ≤ δ ^ n * (1 - σ) := mul_nonneg (pow_nonneg hδ0.le n) (by linarith)
          have hV : 0 ≤ V := h6.trans T.vol
          exact mul_le_mul (mul_le_mul T.vol h7 hs1 hV) h4 (by positivity) (mul_nonneg hV (Real.exp_pos _).le)
      _ = _ := by
          rw [mul_assoc, ← Real.exp_add]
          congr 2
          field_simp
          ring
  have hin : ∀ v : Vec n, v ⬝ᵥ (c - e'.xc) + (ρ - (250 * ε + 2 * ξ) / a * (Λ * Real.exp (5 / (9 * ((n : ℝ) ^ 2 - 1))))) * nrm v ≤ Real.sqrt (e'.kappa * (v ⬝ᵥ (e'.mq *ᵥ v))) := by
    have hsub : ball c ρ ⊆ supportSet e'.mq (e'.kappa * (1 + 500 * x + 4 * y)) e'.xc := fun z hz => by
      have hz1 : z ∈ Spec.ellipsoid e.mq (e.kappa * 1 ^ 2) e.xc := by
        rw [one_pow, mul_one, ← supportSet_eq_ellipsoid D.btw.posDef hκ.le]
        exact T.ball_subset hρ hz
      have hz2 := dot_le_of_mem_ball hρ.le hz g e.xc
      have hz3 := hcon 1 0 le_rfl le_rfl z hz1 (by linarith)
      have h0 : (0 : ℝ) ≤ 1 + 500 * (epsOf n γ m L / a) + 4 * (u * nrm e.xc / Real.sqrt (e.kappa * m) / a) := by positivity
      rw [sub_self, zero_add, mul_zero, add_zero, one_pow, mul_one, ← supportSet_eq_ellipsoid F.posDef (mul_nonneg hk'0.le h0)] at hz3
      intro v
      refine (hz3 v).trans (mul_le_mul_of_nonneg_right (mul_le_mul_of_nonneg_left ?_ hk'0.le) (F.posDef.posSemidef.dotProduct_mulVec_nonneg v))
      linarith
    intro v
    have hQ : 0 ≤ v ⬝ᵥ (e'.mq *ᵥ v) := F.posDef.posSemidef.dotProduct_mulVec_nonneg v
    have h2 := (ball_subset_support hρ.le fun v => mul_nonneg (mul_nonneg hk'0.le (by positivity)) (F.posDef.posSemidef.dotProduct_mulVec_nonneg v)).mp hsub v
    have h3 : Real.sqrt (e'.kappa * (1 + 500 * x + 4 * y) * (v ⬝ᵥ (e'.mq *ᵥ v))) ≤ (1 + (250 * x + 2 * y)) * Real.sqrt (e'.kappa * (v ⬝ᵥ (e'.mq *ᵥ v))) := by
      refine Real.sqrt_le_iff.mpr ⟨by positivity, ?_⟩
      rw [mul_pow, Real.sq_sqrt (mul_nonneg hk'0.le hQ)]
      have h4 := stretch_bound x y
      have h5 := mul_le_mul_of_nonneg_right h4 (mul_nonneg hk'0.le hQ)
      linarith
    have h4 : Real.sqrt (e'.kappa * (v ⬝ᵥ (e'.mq *ᵥ v))) ≤ (Λ * Real.exp (5 / (9 * ((n : ℝ) ^ 2 - 1)))) * nrm v := by
      refine Real.sqrt_le_iff.mpr ⟨mul_nonneg (by positivity) (nrm_nonneg _), ?_⟩
      rw [mul_pow _ (nrm v), nrm_sq]
      exact hupper v
    have h5 : (250 * ε + 2 * ξ) / a = 250 * x + 2 * y := by rw [hx, hy]; ring
    rw [h5]
    have h6 := mul_le_mul_of_nonneg_left h4 (show 0 ≤ 250 * x + 2 * y by positivity)
    linarith
  refine ⟨e', ?_, ⟨?_, ?_, F.symm, hk'0, hin, hupper, hvol⟩, ?_⟩
  · rw [he', ← h1]
  · rw [F.helper]; exact T.helper
  · rw [F.defer]; exact T.defer
  · exact (T.lower hρ g).trans x2

end Arith.Track

end Ellalgo
