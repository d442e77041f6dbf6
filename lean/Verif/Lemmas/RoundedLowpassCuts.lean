import Verif.Lemmas.RoundedSpectrum
import Verif.Spec.RoundedPairConverge

/-! # The computed cuts of `LowpassOracle` keep a ball of feasible filters -/

namespace Ellalgo

open Matrix Spec

variable {n : ℕ} {A : Arith} {u γ : ℝ}

/-- A bound on a ball leaves slack on a smaller one. -/
theorem ball_slack {c v : Vec n} {r b : ℝ} (hr : 0 ≤ r) (hv : 1 ≤ v ⬝ᵥ v) (h : ∀ z ∈ ball c (2 * r), v ⬝ᵥ z ≤ b) {y : Vec n} (hy : y ∈ ball c r) : v ⬝ᵥ y + r ≤ b := by
  obtain ⟨z, hz, he⟩ := exists_farthest y r v
  have h1 : z ∈ ball c (2 * r) := by
    simp only [ball, Set.mem_ofPred_eq] at hz hy ⊢
    have a1 := nrm_le_of_sq hr hz
    have a2 := nrm_le_of_sq hr hy
    have a3 := nrm_add_le (z - y) (y - c)
    rw [sub_add_sub_cancel] at a3
    rw [← nrm_sq]
    exact pow_le_pow_left₀ (nrm_nonneg _) (by linarith) 2
  have h2 := h z h1
  have h3 := he 0
  rw [sub_zero, sub_zero] at h3
  have h4 : 1 ≤ nrm v := by unfold nrm; rw [Real.one_le_sqrt]; exact hv
  nlinarith

theorem spec_row_ge (hn : 0 < n) (m k : ℕ) : 1 ≤ LowpassOracle.spectrumRow n m k ⬝ᵥ LowpassOracle.spectrumRow n m k := by
  have h : LowpassOracle.spectrumRow n m k ⟨0, hn⟩ * LowpassOracle.spectrumRow n m k ⟨0, hn⟩ ≤ LowpassOracle.spectrumRow n m k ⬝ᵥ LowpassOracle.spectrumRow n m k :=
    Finset.single_le_sum (f := fun i => LowpassOracle.spectrumRow n m k i * LowpassOracle.spectrumRow n m k i) (fun i _ => mul_self_nonneg _) (Finset.mem_univ _)
  have h1 : LowpassOracle.spectrumRow n m k ⟨0, hn⟩ = 1 := by simp [LowpassOracle.spectrumRow]
  rw [h1] at h; linarith

/-- What the loops need of a cut. -/
def KeepsBall (c : Vec n) (r : ℝ) (x : Vec n) (cut : Cut n) : Prop :=
  ∃ β0, (cut.2 = .scalar β0 ∨ ∃ β1, cut.2 = .seq [some β0, some β1] ∧ ∀ y ∈ ball c r, 0 ≤ cut.1 ⬝ᵥ (y - x) + β1) ∧ 0 ≤ β0 ∧ (∀ y ∈ ball c r, cut.1 ⬝ᵥ (y - x) + β0 ≤ 0) ∧ cut.1 ≠ 0 ∧ 1 ≤ cut.1 ⬝ᵥ cut.1

theorem row_ne_zero {v : Vec n} (h : 1 ≤ v ⬝ᵥ v) : v ≠ 0 := by
  rintro rfl
  rw [dotProduct_zero] at h
  linarith

theorem KeepsBall.pair {c x g : Vec n} {r β0 β1 : ℝ} (hg : 1 ≤ g ⬝ᵥ g) (h0 : 0 ≤ β0) (h1 : ∀ y ∈ ball c r, g ⬝ᵥ (y - x) + β0 ≤ 0) (h2 : ∀ y ∈ ball c r, 0 ≤ g ⬝ᵥ (y - x) + β1) : KeepsBall c r x (g, .pair β0 β1) :=
  ⟨β0, .inr ⟨β1, rfl, h2⟩, h0, h1, row_ne_zero hg, hg⟩

theorem KeepsBall.scalar {c x g : Vec n} {r β0 : ℝ} (hg : 1 ≤ g ⬝ᵥ g) (h0 : 0 ≤ β0) (h1 : ∀ y ∈ ball c r, g ⬝ᵥ (y - x) + β0 ≤ 0) : KeepsBall c r x (g, .scalar β0) :=
  ⟨β0, .inl rfl, h0, h1, row_ne_zero hg, hg⟩

/-- The hypotheses of the lemmas below: the arithmetic is accurate, the ball of radius `2r` around `c` is feasible for the level `γs`, and the rounding errors for points of length at most `X` are smaller than the slack `r`. -/
structure LowSetup (A : Arith) (d : LowpassDesign) (n : ℕ) (u γ c0 r X M γs : ℝ) (c : Vec n) : Prop where
  acc : A.Accurate u γ n
  u_nonneg : 0 ≤ u
  nu : n * u ≤ γ
  gamma : 164 * γ ≤ 1
  pos : 0 < n
  proper : d.Proper
  r_pos : 0 < r
  inner : ball c (2 * r) ⊆ d.Feasible n γs
  centre : nrm c + r ≤ X
  lp_le : |d.lpSq| ≤ M
  up_le : |d.upSq| ≤ M
  level_le : |γs| ≤ M
  c0_eq : c0 = respErr n γ * X
  slack : 3 * c0 + u * M ≤ r

namespace LowSetup

variable {d : LowpassDesign} {K r X M γs : ℝ} {c : Vec n} (S : LowSetup A d n u γ K r X M γs c)
include S

theorem gamma_nonneg : 0 ≤ γ := le_trans (mul_nonneg (Nat.cast_nonneg n) S.u_nonneg) S.nu

theorem u_le : u ≤ γ := by
  have h1 : (1 : ℝ) ≤ n := by exact_mod_cast S.pos
  have h2 := S.nu
  have h3 := S.u_nonneg
  nlinarith

theorem X_nonneg : 0 ≤ X := by
  have := S.centre
  have := nrm_nonneg c
  have := S.r_pos
  linarith

theorem scale_nonneg : 0 ≤ γ * Real.sqrt n * X := mul_nonneg (mul_nonneg S.gamma_nonneg (Real.sqrt_nonneg _)) S.X_nonneg

theorem mem_le {y : Vec n} (hy : y ∈ ball c r) : nrm y ≤ X := by
  have a2 : nrm (y - c) ≤ r := nrm_le_of_sq S.r_pos.le hy
  have a3 := nrm_add_le (y - c) c
  rw [sub_add_cancel] at a3
  have := S.centre
  linarith

theorem K_nonneg : 0 ≤ K := by
  have := S.scale_nonneg
  rw [S.c0_eq]; unfold respErr
  linarith

/-- Computed row, exact product, point of the ball. -/
theorem ball_resp {k : ℕ} (hk : k < 15 * n) {y : Vec n} (hy : y ∈ ball c r) : |A.lowRow n (15 * n) k ⬝ᵥ y - powerSpectrum y (grid n k)| ≤ K := by
  have h1 := Arith.lowRow_dot_err S.acc S.u_nonneg S.nu S.gamma hk y
  have h2 := mul_le_mul_of_nonneg_left (S.mem_le hy) (mul_nonneg S.gamma_nonneg (Real.sqrt_nonneg n))
  have h3 := S.scale_nonneg
  rw [S.c0_eq]; unfold respErr
  linarith

/-- Computed row, computed and exact product. -/
theorem point_resp {k : ℕ} (hk : k < 15 * n) {x : Vec n} (hx : nrm x ≤ X) : |A.dot (A.lowRow n (15 * n) k) x - A.lowRow n (15 * n) k ⬝ᵥ x| ≤ K := by
  have h1 := Arith.lowDot_err S.acc S.u_nonneg S.nu S.gamma hk x
  have h2 := mul_le_mul_of_nonneg_left hx (mul_nonneg S.gamma_nonneg (Real.sqrt_nonneg n))
  have h3 := S.scale_nonneg
  rw [S.c0_eq]; unfold respErr
  linarith

theorem point_abs {k : ℕ} (hk : k < 15 * n) {x : Vec n} (hx : nrm x ≤ X) : u * |A.dot (A.lowRow n (15 * n) k) x| ≤ K := by
  have h1 := mul_le_mul_of_nonneg_left (Arith.lowDot_abs S.acc S.u_nonneg S.nu S.gamma hk x) S.u_nonneg
  have h2 : u * (4 * Real.sqrt n * nrm x) ≤ γ * (4 * Real.sqrt n * X) := mul_le_mul S.u_le (mul_le_mul_of_nonneg_left hx (by positivity)) (mul_nonneg (by positivity) (nrm_nonneg x)) S.gamma_nonneg
  have h3 := S.scale_nonneg
  rw [S.c0_eq]; unfold respErr
  linarith

theorem slack_up {k : ℕ} {b : ℝ} (h : ∀ z ∈ ball c (2 * r), powerSpectrum z (grid n k) ≤ b) {y : Vec n} (hy : y ∈ ball c r) : powerSpectrum y (grid n k) + r ≤ b := by
  have := ball_slack (v := LowpassOracle.spectrumRow n (15 * n) k) S.r_pos.le (spec_row_ge S.pos _ _) (b := b) (fun z hz => by rw [LowpassOracle.row_dot]; exact h z hz) hy
  rwa [LowpassOracle.row_dot] at this

theorem slack_low {k : ℕ} {b : ℝ} (h : ∀ z ∈ ball c (2 * r), b ≤ powerSpectrum z (grid n k)) {y : Vec n} (hy : y ∈ ball c r) : b + r ≤ powerSpectrum y (grid n k) := by
  have := ball_slack (v := -LowpassOracle.spectrumRow n (15 * n) k) S.r_pos.le (by rw [neg_dotProduct_neg]; exact spec_row_ge S.pos _ _) (b := -b)
    (fun z hz => by rw [neg_dotProduct, LowpassOracle.row_dot]; exact neg_le_neg (h z hz)) hy
  rw [neg_dotProduct, LowpassOracle.row_dot] at this
  linarith

theorem rnd_le {t a b : ℝ} (h : u * |t| ≤ a + b) : t - (a + b) ≤ A.rnd t ∧ A.rnd t ≤ t + (a + b) := by
  have := abs_le.mp ((S.acc.rnd t).trans h)
  constructor <;> linarith [this.1, this.2]

theorem u_le_one : u ≤ 1 := by
  have := S.u_le
  have := S.gamma
  have := S.gamma_nonneg
  linarith

/-- The two cuts of a band `[lo, hi]` of which the ball keeps the distance `r`, as computed. -/
theorem band {k : ℕ} (hk : k < 15 * n) {x : Vec n} (hx : nrm x ≤ X) {lo hi : ℝ} (hlo : |lo| ≤ M) (hhi : |hi| ≤ M) (h1 : ∀ y ∈ ball c r, lo + r ≤ powerSpectrum y (grid n k))
    (h2 : ∀ y ∈ ball c r, powerSpectrum y (grid n k) + r ≤ hi) :
    (hi < A.dot (A.lowRow n (15 * n) k) x → KeepsBall c r x (A.lowRow n (15 * n) k, .pair (A.sub (A.dot (A.lowRow n (15 * n) k) x) hi) (A.sub (A.dot (A.lowRow n (15 * n) k) x) lo))) ∧
    (A.dot (A.lowRow n (15 * n) k) x < lo → KeepsBall c r x (-A.lowRow n (15 * n) k, .pair (A.add (-A.dot (A.lowRow n (15 * n) k) x) lo) (A.add (-A.dot (A.lowRow n (15 * n) k) x) hi))) := by
  have hrow := A.lowRow_ge S.pos (15 * n) k
  have hb := fun {y} hy => abs_le.mp (S.ball_resp hk (y := y) hy)
  have hp := abs_le.mp (S.point_resp hk hx)
  have ha := S.point_abs hk hx
  have hs := S.slack
  have hu := S.u_nonneg
  generalize A.lowRow n (15 * n) k = row at *
  generalize A.dot row x = v at *
  have hM : ∀ {b : ℝ}, |b| ≤ M → ∀ t, |t| ≤ |v| + |b| → u * |t| ≤ K + u * M := fun {b} hbM t ht => by
    have := mul_le_mul_of_nonneg_left ht hu
    have := mul_le_mul_of_nonneg_left hbM hu
    linarith
  have hsub : ∀ b : ℝ, |v - b| ≤ |v| + |b| := fun b => abs_sub v b
  have hadd : ∀ b : ℝ, |-v + b| ≤ |v| + |b| := fun b => by have := abs_add_le (-v) b; rwa [abs_neg] at this
  refine ⟨fun hv => KeepsBall.pair hrow (S.acc.rnd_nonneg S.u_le_one (by linarith)) (fun y hy => ?_) (fun y hy => ?_),
    fun hv => KeepsBall.pair (by rw [neg_dotProduct_neg]; exact hrow) (S.acc.rnd_nonneg S.u_le_one (by linarith)) (fun y hy => ?_) (fun y hy => ?_)⟩
  · have e := (S.rnd_le (hM hhi _ (hsub hi))).2
    have := h2 y hy
    have := hb hy
    rw [dotProduct_sub]
    unfold Arith.sub
    linarith
  · have e := (S.rnd_le (hM hlo _ (hsub lo))).1
    have := h1 y hy
    have := hb hy
    rw [dotProduct_sub]
    unfold Arith.sub
    linarith
  · have e := (S.rnd_le (hM hlo _ (hadd lo))).2
    have := h1 y hy
    have := hb hy
    rw [neg_dotProduct, dotProduct_sub]
    unfold Arith.add
    linarith
  · have e := (S.rnd_le (hM hhi _ (hadd hi))).1
    have := h2 y hy
    have := hb hy
    rw [neg_dotProduct, dotProduct_sub]
    unfold Arith.add
    linarith

/-- The two cuts of the stopband for a level `sp` at or above the target. -/
theorem stopBand {k : ℕ} (hk : k < 15 * n) {x : Vec n} (hx : nrm x ≤ X) {sp : ℝ} (hsp : γs ≤ sp) (h1 : ∀ y ∈ ball c r, 0 + r ≤ powerSpectrum y (grid n k)) (h2 : ∀ y ∈ ball c r, powerSpectrum y (grid n k) + r ≤ γs) :
    (sp < A.dot (A.lowRow n (15 * n) k) x → KeepsBall c r x (A.lowRow n (15 * n) k, .pair (A.sub (A.dot (A.lowRow n (15 * n) k) x) sp) (A.dot (A.lowRow n (15 * n) k) x))) ∧
    (A.dot (A.lowRow n (15 * n) k) x < 0 → KeepsBall c r x (-A.lowRow n (15 * n) k, .pair (-A.dot (A.lowRow n (15 * n) k) x) (A.add (-A.dot (A.lowRow n (15 * n) k) x) sp))) := by
  have hrow := A.lowRow_ge S.pos (15 * n) k
  have hb := fun {y} hy => abs_le.mp (S.ball_resp hk (y := y) hy)
  have hp := abs_le.mp (S.point_resp hk hx)
  have ha := S.point_abs hk hx
  have hs := S.slack
  have hu := S.u_nonneg
  have hu1 := S.u_le_one
  have hK := S.K_nonneg
  have hr := S.r_pos
  have hc : c ∈ ball c r := by simp only [ball, Set.mem_ofPred_eq, sub_self, dotProduct_zero]; positivity
  have hγs : 0 ≤ γs := by linarith [h1 c hc, h2 c hc]
  have huM : u * γs ≤ u * M := mul_le_mul_of_nonneg_left ((le_abs_self _).trans S.level_le) hu
  have huM0 : 0 ≤ u * γs := mul_nonneg hu hγs
  generalize A.lowRow n (15 * n) k = row at *
  generalize A.dot row x = v at *
  refine ⟨fun hv => KeepsBall.pair hrow (S.acc.rnd_nonneg hu1 (by linarith)) (fun y hy => ?_) (fun y hy => ?_),
    fun hv => KeepsBall.pair (by rw [neg_dotProduct_neg]; exact hrow) (by linarith) (fun y hy => ?_) (fun y hy => ?_)⟩
  · have e0 : u * |v - sp| ≤ K + 0 := by
      rw [abs_of_pos (by linarith : 0 < v - sp)]
      rw [abs_of_pos (by linarith : 0 < v)] at ha
      nlinarith
    have e := (S.rnd_le e0).2
    have := h2 y hy
    have := hb hy
    rw [dotProduct_sub]
    unfold Arith.sub
    linarith
  · have := h1 y hy
    have := hb hy
    rw [dotProduct_sub]
    linarith
  · have := h1 y hy
    have := hb hy
    rw [neg_dotProduct, dotProduct_sub]
    linarith
  · have e0 : u * |-v + sp| ≤ K + u * sp := by
      rw [abs_of_pos (by linarith : 0 < -v + sp)]
      rw [abs_of_neg hv] at ha
      linarith
    have e := (S.rnd_le e0).1
    have e1 : u * (sp - γs) ≤ 1 * (sp - γs) := mul_le_mul_of_nonneg_right hu1 (by linarith)
    have := h2 y hy
    have := hb hy
    rw [neg_dotProduct, dotProduct_sub]
    unfold Arith.add
    linarith

/-- A response that is computed to be negative although the ball keeps away from that. -/
theorem below {k : ℕ} (hk : k < 15 * n) {x : Vec n} (hx : nrm x ≤ X) (h1 : ∀ y ∈ ball c r, 0 + r ≤ powerSpectrum y (grid n k)) (hv : A.dot (A.lowRow n (15 * n) k) x < 0) :
    KeepsBall c r x (-A.lowRow n (15 * n) k, .scalar (-A.dot (A.lowRow n (15 * n) k) x)) := by
  have hrow := A.lowRow_ge S.pos (15 * n) k
  have hp := abs_le.mp (S.point_resp hk hx)
  have hs := S.slack
  have hK := S.K_nonneg
  have hM : 0 ≤ u * M := mul_nonneg S.u_nonneg ((abs_nonneg _).trans S.lp_le)
  refine KeepsBall.scalar (by rw [neg_dotProduct_neg]; exact hrow) (by linarith) fun y hy => ?_
  have := h1 y hy
  have := abs_le.mp (S.ball_resp hk hy)
  rw [neg_dotProduct, dotProduct_sub]
  linarith

end LowSetup

end Ellalgo
