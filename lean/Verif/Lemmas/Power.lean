import Verif.Props.Power
import Verif.Spec.Quad
import Mathlib.Analysis.Matrix.Spectrum
import Mathlib.Algebra.QuadraticDiscriminant
import Mathlib.Algebra.Order.Chebyshev
import Mathlib.Algebra.Order.BigOperators.Ring.Finset

/-! # Moments, Rayleigh quotients and residuals along a power iteration -/

namespace Ellalgo

open Matrix Spec

variable {n : ℕ}

theorem symm_dotProduct {A : Mat n} (hA : A.IsSymm) (v w : Vec n) : v ⬝ᵥ (A *ᵥ w) = (A *ᵥ v) ⬝ᵥ w := by
  rw [dotProduct_mulVec, ← mulVec_transpose, hA.eq]

/-- A point at which the residual is small is near an eigenvalue. -/
theorem nearby_eigenvalue {A : Mat n} (hA : A.IsSymm) {c ρ : ℝ} (hρ : 0 ≤ ρ) {x : Vec n} (hx : x ≠ 0)
    (h : (A *ᵥ x - c • x) ⬝ᵥ (A *ᵥ x - c • x) ≤ ρ ^ 2 * (x ⬝ᵥ x)) : ∃ μ : ℝ, ∃ v : Vec n, v ≠ 0 ∧ A *ᵥ v = μ • v ∧ |μ - c| ≤ ρ := by
  have hH : A.IsHermitian := by
    ext i j; simpa using congrFun (congrFun hA i) j
  let b := hH.eigenvectorBasis
  have parseval : ∀ y : Vec n, ∑ i, ((b i).ofLp ⬝ᵥ y) ^ 2 = y ⬝ᵥ y := by
    intro y
    have h1 := b.sum_sq_norm_inner_right (WithLp.toLp 2 y)
    have h2 : ‖WithLp.toLp 2 y‖ ^ 2 = y ⬝ᵥ y := by
      rw [EuclideanSpace.norm_sq_eq]
      exact Finset.sum_congr rfl fun i _ => by simp [sq]
    rw [← h2, ← h1]
    refine Finset.sum_congr rfl fun i _ => ?_
    rw [EuclideanSpace.inner_eq_star_dotProduct]
    simp [dotProduct_comm]
  have hev : ∀ i, A *ᵥ (b i).ofLp = hH.eigenvalues i • (b i).ofLp := fun i => hH.mulVec_eigenvectorBasis i
  have hne : ∀ i, (b i).ofLp ≠ 0 := fun i h0 => by
    have h1 := b.orthonormal.1 i
    have : b i = 0 := by ext j; exact congrFun h0 j
    rw [this, norm_zero] at h1
    exact zero_ne_one h1
  by_contra hcon
  push Not at hcon
  have hgt : ∀ i, ρ ^ 2 < (hH.eigenvalues i - c) ^ 2 := fun i => by
    have := hcon _ _ (hne i) (hev i)
    rw [← sq_abs (hH.eigenvalues i - c)]
    exact pow_lt_pow_left₀ this hρ (by norm_num)
  have hcoef : ∀ i, (b i).ofLp ⬝ᵥ (A *ᵥ x - c • x) = (hH.eigenvalues i - c) * ((b i).ofLp ⬝ᵥ x) := fun i => by
    rw [dotProduct_sub, symm_dotProduct hA, hev, smul_dotProduct, dotProduct_smul, smul_eq_mul, smul_eq_mul]; ring
  rw [← parseval, ← parseval x, Finset.mul_sum] at h
  have hle : ∀ i, ρ ^ 2 * ((b i).ofLp ⬝ᵥ x) ^ 2 ≤ ((b i).ofLp ⬝ᵥ (A *ᵥ x - c • x)) ^ 2 := fun i => by
    rw [hcoef, mul_pow]; exact mul_le_mul_of_nonneg_right (hgt i).le (sq_nonneg _)
  have heq : ∀ i ∈ Finset.univ, ρ ^ 2 * ((b i).ofLp ⬝ᵥ x) ^ 2 = ((b i).ofLp ⬝ᵥ (A *ᵥ x - c • x)) ^ 2 :=
    (Finset.sum_eq_sum_iff_of_le fun i _ => hle i).mp (le_antisymm (Finset.sum_le_sum fun i _ => hle i) h)
  have hz : ∀ i, (b i).ofLp ⬝ᵥ x = 0 := fun i => by
    have h1 := heq i (Finset.mem_univ i)
    rw [hcoef, mul_pow] at h1
    by_contra h0
    have : 0 < ((b i).ofLp ⬝ᵥ x) ^ 2 := by positivity
    nlinarith [hgt i, mul_lt_mul_of_pos_right (hgt i) this]
  have := parseval x
  rw [Finset.sum_eq_zero fun i _ => by rw [hz i]; norm_num] at this
  exact (dotProduct_self_pos hx).ne this

/-- The Rayleigh quotient is the number that makes the residual smallest. -/
theorem residual_min (A : Mat n) {u : Vec n} (hu : u ⬝ᵥ u = 1) (c : ℝ) :
    (A *ᵥ u - (u ⬝ᵥ (A *ᵥ u)) • u) ⬝ᵥ (A *ᵥ u - (u ⬝ᵥ (A *ᵥ u)) • u) ≤ (A *ᵥ u - c • u) ⬝ᵥ (A *ᵥ u - c • u) := by
  have e : ∀ t : ℝ, (A *ᵥ u - t • u) ⬝ᵥ (A *ᵥ u - t • u) = (A *ᵥ u) ⬝ᵥ (A *ᵥ u) - 2 * t * (u ⬝ᵥ (A *ᵥ u)) + t ^ 2 := fun t => by
    simp only [sub_dotProduct, dotProduct_sub, smul_dotProduct, dotProduct_smul, smul_eq_mul, hu, dotProduct_comm (A *ᵥ u) u]; ring
  rw [e, e]
  nlinarith [sq_nonneg (c - u ⬝ᵥ (A *ᵥ u))]

theorem dot_self_le_normL1 (d : Vec n) : d ⬝ᵥ d ≤ (normL1 d) ^ 2 := by
  unfold normL1 dotProduct
  calc ∑ i, d i * d i = ∑ i, |d i| * |d i| := Finset.sum_congr rfl fun i _ => (abs_mul_abs_self _).symm
    _ ≤ ∑ i, |d i| * ∑ j, |d j| := Finset.sum_le_sum fun i _ =>
        mul_le_mul_of_nonneg_left (Finset.single_le_sum (f := fun j => |d j|) (fun j _ => abs_nonneg _) (Finset.mem_univ i)) (abs_nonneg _)
    _ = (∑ i, |d i|) ^ 2 := by rw [← Finset.sum_mul, sq]

theorem normL1_sq_le (d : Vec n) : (normL1 d) ^ 2 ≤ n * (d ⬝ᵥ d) := by
  have := sq_sum_le_card_mul_sum_sq (s := Finset.univ) (f := fun i => |d i|)
  simp only [Finset.card_univ, Fintype.card_fin, sq_abs] at this
  rw [sum_sq_eq] at this
  exact this

/-- Cauchy-Schwarz for a semidefinite form. -/
theorem quad_cauchy {B : Mat n} (hB : B.IsSymm) (hq : QuadNonneg B) (v w : Vec n) :
    (v ⬝ᵥ (B *ᵥ w)) ^ 2 ≤ (v ⬝ᵥ (B *ᵥ v)) * (w ⬝ᵥ (B *ᵥ w)) := by
  have h := discrim_le_zero (a := w ⬝ᵥ (B *ᵥ w)) (b := 2 * (v ⬝ᵥ (B *ᵥ w))) (c := v ⬝ᵥ (B *ᵥ v)) fun t => by
    have h1 := hq (v + t • w)
    have h2 : w ⬝ᵥ (B *ᵥ v) = v ⬝ᵥ (B *ᵥ w) := by rw [symm_dotProduct hB, dotProduct_comm]
    simp only [mulVec_add, mulVec_smul, dotProduct_add, add_dotProduct, smul_dotProduct, dotProduct_smul, smul_eq_mul, h2] at h1
    linarith
  unfold discrim at h
  nlinarith

/-- The moments `xᵀ A^j x`. -/
noncomputable def moment (A : Mat n) (x : Vec n) (j : ℕ) : ℝ := x ⬝ᵥ powDir A x j

theorem pow_isSymm {A : Mat n} (hA : A.IsSymm) (j : ℕ) : (A ^ j).IsSymm := by
  unfold IsSymm; rw [transpose_pow, hA.eq]

theorem dir_dot {A : Mat n} (hA : A.IsSymm) (x : Vec n) (i j : ℕ) : powDir A x i ⬝ᵥ powDir A x j = moment A x (i + j) := by
  unfold moment powDir
  rw [← symm_dotProduct (pow_isSymm hA i), mulVec_mulVec, ← pow_add]

theorem moment_quad {A : Mat n} (hA : A.IsSymm) (hq : QuadNonneg A) (j : ℕ) : QuadNonneg (A ^ j) := fun v => by
  have h : v ⬝ᵥ (A ^ j *ᵥ v) = moment A v j := rfl
  rw [h]
  obtain ⟨i, rfl | rfl⟩ := Nat.even_or_odd' j
  · rw [two_mul, ← dir_dot hA]; exact Finset.sum_nonneg fun i _ => mul_self_nonneg _
  · rw [two_mul, add_assoc, ← dir_dot hA, powDir_succ]; exact hq _

/-- Moments are log-convex. -/
theorem moment_convex {A : Mat n} (hA : A.IsSymm) (hq : QuadNonneg A) (x : Vec n) (j : ℕ) :
    moment A x (j + 1) ^ 2 ≤ moment A x j * moment A x (j + 2) := by
  have h := quad_cauchy (pow_isSymm hA j) (moment_quad hA hq j) x (A *ᵥ x)
  have e1 : A ^ j *ᵥ (A *ᵥ x) = powDir A x (j + 1) := by rw [mulVec_mulVec, ← pow_succ]; rfl
  have e2 : (A *ᵥ x) = powDir A x 1 := by rw [powDir_succ, powDir_zero]
  rw [e1] at h
  have e3 : (A *ᵥ x) ⬝ᵥ powDir A x (j + 1) = moment A x (j + 2) := by rw [e2, dir_dot hA]; congr 1; omega
  rw [e3] at h
  exact h

theorem moment_pos {A : Mat n} (hA : A.IsSymm) (hq : QuadNonneg A) {x : Vec n} (hx : A *ᵥ x ≠ 0) (j : ℕ) : 0 < moment A x j := by
  have h0 : 0 < moment A x 0 := by
    unfold moment; rw [powDir_zero]
    exact dotProduct_self_pos fun h => hx (by rw [h, mulVec_zero])
  have e1 : powDir A x 1 = A *ᵥ x := by rw [powDir_succ, powDir_zero]
  have h2 : 0 < moment A x 2 := by
    rw [show (2 : ℕ) = 1 + 1 from rfl, ← dir_dot hA, e1]; exact dotProduct_self_pos hx
  have h1 : 0 < moment A x 1 := by
    have hn : 0 ≤ moment A x 1 := moment_quad hA hq 1 x
    have hn3 := moment_convex hA hq x 1
    rcases hn.lt_or_eq with h | h
    · exact h
    · rw [← h, zero_mul] at hn3
      exact absurd hn3 (not_le.mpr (by positivity))
  have key : ∀ j, 0 < moment A x j ∧ 0 < moment A x (j + 1) := fun j => by
    induction j with
    | zero => exact ⟨h0, h1⟩
    | succ j ih =>
      refine ⟨ih.2, ?_⟩
      have := moment_convex hA hq x j
      have h3 : 0 < moment A x j * moment A x (j + 2) := lt_of_lt_of_le (pow_pos ih.2 2) this
      exact pos_of_mul_pos_right h3 ih.1.le
  exact (key j).1

/-- Ratios of successive moments; the Rayleigh quotients are those with even index. -/
noncomputable def mratio (A : Mat n) (x : Vec n) (j : ℕ) : ℝ := moment A x (j + 1) / moment A x j

theorem rayleigh_eq_mratio {A : Mat n} (hA : A.IsSymm) (x : Vec n) (k : ℕ) : rayleigh A (powDir A x k) = mratio A x (2 * k) := by
  unfold rayleigh mratio
  rw [← powDir_succ, dir_dot hA, dir_dot hA]
  congr 2 <;> omega

theorem mratio_pos {A : Mat n} (hA : A.IsSymm) (hq : QuadNonneg A) {x : Vec n} (hx : A *ᵥ x ≠ 0) (j : ℕ) : 0 < mratio A x j :=
  div_pos (moment_pos hA hq hx _) (moment_pos hA hq hx _)

theorem mratio_mono {A : Mat n} (hA : A.IsSymm) (hq : QuadNonneg A) {x : Vec n} (hx : A *ᵥ x ≠ 0) : Monotone (mratio A x) := by
  refine monotone_nat_of_le_succ fun j => ?_
  unfold mratio
  rw [div_le_div_iff₀ (moment_pos hA hq hx _) (moment_pos hA hq hx _), ← sq, mul_comm]
  exact moment_convex hA hq x j

theorem dir_ne {A : Mat n} (hA : A.IsSymm) (hq : QuadNonneg A) {x : Vec n} (hx : A *ᵥ x ≠ 0) (k : ℕ) : powDir A x k ≠ 0 := fun h => by
  have := moment_pos hA hq hx (k + k)
  rw [← dir_dot hA, h, zero_dotProduct] at this
  exact lt_irrefl _ this

theorem rayleigh_le {A : Mat n} {Λ : ℝ} (hΛ : ∀ y : Vec n, y ⬝ᵥ (A *ᵥ y) ≤ Λ * (y ⬝ᵥ y)) {v : Vec n} (hv : v ≠ 0) : rayleigh A v ≤ Λ := by
  unfold rayleigh; rw [div_le_iff₀ (dotProduct_self_pos hv)]; exact hΛ v

theorem mratio_le {A : Mat n} (hA : A.IsSymm) (hq : QuadNonneg A) {x : Vec n} (hx : A *ᵥ x ≠ 0) {Λ : ℝ}
    (hΛ : ∀ y : Vec n, y ⬝ᵥ (A *ᵥ y) ≤ Λ * (y ⬝ᵥ y)) (j : ℕ) : mratio A x j ≤ Λ := by
  refine (mratio_mono hA hq hx (show j ≤ 2 * j by omega)).trans ?_
  rw [← rayleigh_eq_mratio hA]
  exact rayleigh_le hΛ (dir_ne hA hq hx j)

/-- The product of the first ratios telescopes. -/
theorem moment_le_pow {A : Mat n} (hA : A.IsSymm) (hq : QuadNonneg A) {x : Vec n} (hx : A *ᵥ x ≠ 0) (j : ℕ) :
    moment A x (j + 1) ≤ mratio A x j ^ (j + 1) * moment A x 0 := by
  induction j with
  | zero =>
    have := (moment_pos hA hq hx 0).ne'
    unfold mratio; simp only [zero_add, pow_one]; rw [div_mul_cancel₀ _ this]
  | succ j ih =>
    have h0 := moment_pos hA hq hx
    have e : moment A x (j + 1 + 1) = mratio A x (j + 1) * moment A x (j + 1) := by
      unfold mratio; rw [div_mul_cancel₀ _ (h0 _).ne']
    rw [e, pow_succ', mul_assoc]
    refine mul_le_mul_of_nonneg_left (ih.trans ?_) (mratio_pos hA hq hx _).le
    exact mul_le_mul_of_nonneg_right (pow_le_pow_left₀ (mratio_pos hA hq hx _).le (mratio_mono hA hq hx (Nat.le_succ j)) _) (h0 0).le

theorem pow_eigen {A : Mat n} {v : Vec n} {lam : ℝ} (hv : A *ᵥ v = lam • v) (j : ℕ) : A ^ j *ᵥ v = lam ^ j • v := by
  induction j with
  | zero => simp
  | succ j ih => rw [pow_succ', ← mulVec_mulVec, ih, mulVec_smul, hv, smul_smul, pow_succ]

/-- The part of the start vector along an eigenvector contributes to every moment. -/
theorem moment_ge {A : Mat n} (hA : A.IsSymm) (hq : QuadNonneg A) (x : Vec n) {v : Vec n} {lam : ℝ} (hv : A *ᵥ v = lam • v) (hv0 : v ≠ 0) (j : ℕ) :
    lam ^ j * ((v ⬝ᵥ x) ^ 2 / (v ⬝ᵥ v)) ≤ moment A x j := by
  have h := quad_cauchy (pow_isSymm hA j) (moment_quad hA hq j) v x
  have e1 : v ⬝ᵥ (A ^ j *ᵥ x) = lam ^ j * (v ⬝ᵥ x) := by rw [symm_dotProduct (pow_isSymm hA j), pow_eigen hv, smul_dotProduct, smul_eq_mul]
  have e2 : v ⬝ᵥ (A ^ j *ᵥ v) = lam ^ j * (v ⬝ᵥ v) := by rw [pow_eigen hv, dotProduct_smul, smul_eq_mul]
  have hvv := dotProduct_self_pos hv0
  have e3 : x ⬝ᵥ (A ^ j *ᵥ x) = moment A x j := rfl
  rw [e1, e2, e3] at h
  have hl : 0 ≤ lam ^ j * (v ⬝ᵥ v) := by rw [← e2]; exact moment_quad hA hq j v
  have hl' : 0 ≤ lam ^ j := nonneg_of_mul_nonneg_left hl hvv
  have hm : 0 ≤ moment A x j := moment_quad hA hq j x
  rcases hl'.lt_or_eq with h0 | h0
  · rw [← mul_div_assoc, div_le_iff₀ hvv]
    refine le_of_mul_le_mul_left ?_ h0
    nlinarith
  · rw [← h0, zero_mul]; exact hm

end Ellalgo
