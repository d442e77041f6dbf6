import Verif.Spec.Ellipsoid
import Verif.Lemmas.CalcCore
import Mathlib.Algebra.QuadraticDiscriminant
import Mathlib.LinearAlgebra.Matrix.SchurComplement
import Mathlib.Algebra.Order.Star.Real

/-! Geometry of the ellipsoid update. -/

namespace Ellalgo

open Matrix Spec

variable {n : ℕ}

theorem PosSemidef.quad_nonneg {M : Mat n} (hM : M.PosSemidef) (v : Vec n) :
    0 ≤ v ⬝ᵥ (M *ᵥ v) := by simpa using hM.dotProduct_mulVec_nonneg v

theorem PosDef.quad_pos {M : Mat n} (hM : M.PosDef) {v : Vec n} (hv : v ≠ 0) :
    0 < v ⬝ᵥ (M *ᵥ v) := by simpa using hM.dotProduct_mulVec_pos hv

theorem IsHermitian.dot_comm {M : Mat n} (hM : M.IsHermitian) (v w : Vec n) :
    v ⬝ᵥ (M *ᵥ w) = w ⬝ᵥ (M *ᵥ v) := by
  have hT : Mᵀ = M := by simpa using hM.eq
  rw [dotProduct_mulVec, ← mulVec_transpose, hT, dotProduct_comm]

theorem quad_add_smul {M : Mat n} (hM : M.IsHermitian) (v w : Vec n) (l : ℝ) :
    (v + l • w) ⬝ᵥ (M *ᵥ (v + l • w)) =
      v ⬝ᵥ (M *ᵥ v) + 2 * l * (v ⬝ᵥ (M *ᵥ w)) + l ^ 2 * (w ⬝ᵥ (M *ᵥ w)) := by
  simp only [mulVec_add, mulVec_smul, add_dotProduct, dotProduct_add, smul_dotProduct,
    dotProduct_smul, smul_eq_mul]
  rw [IsHermitian.dot_comm hM w v]; ring

theorem cauchy_schwarz {M : Mat n} (hM : M.PosSemidef) (v w : Vec n) :
    (v ⬝ᵥ (M *ᵥ w)) ^ 2 ≤ (v ⬝ᵥ (M *ᵥ v)) * (w ⬝ᵥ (M *ᵥ w)) := by
  have h := discrim_le_zero (a := w ⬝ᵥ (M *ᵥ w)) (b := 2 * (v ⬝ᵥ (M *ᵥ w)))
    (c := v ⬝ᵥ (M *ᵥ v)) (fun l => by
      have h1 := PosSemidef.quad_nonneg hM (v + l • w)
      rw [quad_add_smul hM.isHermitian] at h1
      nlinarith)
  unfold discrim at h
  nlinarith

theorem mulVec_inv_self {M : Mat n} (hM : M.PosDef) (d : Vec n) : M *ᵥ (M⁻¹ *ᵥ d) = d := by
  rw [mulVec_mulVec, mul_nonsing_inv _ ((isUnit_iff_isUnit_det _).mp hM.isUnit), one_mulVec]

theorem inv_mulVec_self {M : Mat n} (hM : M.PosDef) (d : Vec n) : M⁻¹ *ᵥ (M *ᵥ d) = d := by
  rw [mulVec_mulVec, nonsing_inv_mul _ ((isUnit_iff_isUnit_det _).mp hM.isUnit), one_mulVec]

/-- For positive definite `M` the support form and the textbook form agree. -/
theorem supportSet_eq_ellipsoid {M : Mat n} (hM : M.PosDef) {κ : ℝ} (hκ : 0 ≤ κ) (c : Vec n) :
    supportSet M κ c = ellipsoid M κ c := by
  ext x
  simp only [supportSet, ellipsoid, Set.mem_ofPred_eq]
  set d := x - c
  set w := M⁻¹ *ᵥ d with hw
  have hd : M *ᵥ w = d := mulVec_inv_self hM d
  have hq : d ⬝ᵥ w = w ⬝ᵥ (M *ᵥ w) := by rw [hd, dotProduct_comm]
  have hq0 : 0 ≤ d ⬝ᵥ w := by rw [hq]; exact PosSemidef.quad_nonneg hM.posSemidef w
  constructor
  · intro h
    have h1 := h w
    rw [hd, dotProduct_comm w d] at h1
    rcases hq0.lt_or_eq with h2 | h2
    · nlinarith
    · rw [← h2]; exact hκ
  · intro h v
    have h1 := cauchy_schwarz hM.posSemidef v w
    rw [hd] at h1
    have h2 := PosSemidef.quad_nonneg hM.posSemidef v
    rw [dotProduct_comm w d] at h1
    nlinarith

/-! ### One cut -/

/-- Decomposition of a direction along `g` and its `M`-orthogonal complement. -/
theorem update_core_ineq {κU s t a R σ δ q : ℝ} (hU : 0 ≤ κU) (hq : 0 < q) (ht : t ^ 2 ≤ q)
    (hs : s ^ 2 * q ≤ κU * (q - t ^ 2)) (hσ : σ ≤ 1)
    (h1 : R ^ 2 + (1 - σ) * (q - t ^ 2) ≤ δ * (1 - σ) * q) (h2 : q - t ^ 2 ≤ δ * q) :
    (s + a * R) ^ 2 ≤ δ * κU + a ^ 2 * q * δ * (1 - σ) := by
  have hδ : 0 ≤ δ := by
    by_contra hc; nlinarith
  rcases hσ.lt_or_eq with h | h
  · set e := 1 - σ with he
    have he0 : 0 < e := by linarith
    have hB : 0 ≤ q - t ^ 2 := by linarith
    -- AM-GM step
    have hAG : 2 * (e * q * (s * a * R)) ≤ κU * R ^ 2 + a ^ 2 * q * e ^ 2 * (q - t ^ 2) := by
      have hx : 0 ≤ κU * R ^ 2 := by positivity
      have hy : 0 ≤ a ^ 2 * q * e ^ 2 * (q - t ^ 2) := by positivity
      have hp : (e * q * (s * a * R)) ^ 2 ≤
          (κU * R ^ 2) * (a ^ 2 * q * e ^ 2 * (q - t ^ 2)) := by
        have : 0 ≤ (e ^ 2 * a ^ 2 * R ^ 2 * q) * (κU * (q - t ^ 2) - s ^ 2 * q) := by
          apply mul_nonneg (by positivity); linarith
        nlinarith
      have : (2 * (e * q * (s * a * R))) ^ 2 ≤
          (κU * R ^ 2 + a ^ 2 * q * e ^ 2 * (q - t ^ 2)) ^ 2 := by
        nlinarith [sq_nonneg (κU * R ^ 2 - a ^ 2 * q * e ^ 2 * (q - t ^ 2))]
      exact (abs_le_of_sq_le_sq' this (by positivity)).2
    have hD : κU * (R ^ 2 + e * (q - t ^ 2)) ≤ κU * (δ * e * q) := mul_le_mul_of_nonneg_left h1 hU
    have hD2 : a ^ 2 * q * e * (R ^ 2 + e * (q - t ^ 2)) ≤ a ^ 2 * q * e * (δ * e * q) :=
      mul_le_mul_of_nonneg_left h1 (by positivity)
    have hs2 : e * (s ^ 2 * q) ≤ e * (κU * (q - t ^ 2)) := mul_le_mul_of_nonneg_left hs he0.le
    have : (e * q) * (s + a * R) ^ 2 ≤ (e * q) * (δ * κU + a ^ 2 * q * δ * e) := by nlinarith
    exact le_of_mul_le_mul_left this (by positivity)
  · subst h
    have hR : R = 0 := by nlinarith [sq_nonneg R]
    subst hR
    have : q * s ^ 2 ≤ q * (δ * κU) := by nlinarith
    have := le_of_mul_le_mul_left this hq
    nlinarith

/-- Quadratic form of the updated matrix. -/
theorem quad_update {M : Mat n} (hM : M.IsHermitian) (g v : Vec n) (s : ℝ) :
    v ⬝ᵥ ((M - s • vecMulVec (M *ᵥ g) (M *ᵥ g)) *ᵥ v) =
      v ⬝ᵥ (M *ᵥ v) - s * (g ⬝ᵥ (M *ᵥ v)) ^ 2 := by
  rw [sub_mulVec, smul_mulVec, vecMulVec_mulVec, dotProduct_sub, dotProduct_smul]
  simp only [op_smul_eq_smul, dotProduct_smul, smul_eq_mul]
  rw [dotProduct_comm (M *ᵥ g) v, IsHermitian.dot_comm hM v g]; ring

theorem isHermitian_update {M : Mat n} (hM : M.IsHermitian) (u : Vec n) (s : ℝ) :
    (M - s • vecMulVec u u).IsHermitian := by
  have hT : Mᵀ = M := by simpa using hM.eq
  ext i j
  have : M j i = M i j := by conv_rhs => rw [← hT]
                             rfl
  simp [vecMulVec_apply, this, mul_comm]

theorem slab_update_support {M : Mat n} (hM : M.PosSemidef) {κ : ℝ} (hκ : 0 < κ) {g c x : Vec n}
    (hω : 0 < g ⬝ᵥ (M *ᵥ g)) {β0 β1 : ℝ} {p : Params}
    (hp : EllCalcCore.SlabSound β0 β1 (κ * (g ⬝ᵥ (M *ᵥ g))) p)
    (hx : x ∈ supportSet M κ c) (hs : x ∈ slab g β0 β1 c) :
    x ∈ supportSet
      (M - (p.sigma / (g ⬝ᵥ (M *ᵥ g))) • vecMulVec (M *ᵥ g) (M *ᵥ g)) (κ * p.delta)
      (c - (p.rho / (g ⬝ᵥ (M *ᵥ g))) • (M *ᵥ g)) := by
  set ω := g ⬝ᵥ (M *ᵥ g) with hωd
  intro v
  have hd : x - (c - (p.rho / ω) • (M *ᵥ g)) = (x - c) + (p.rho / ω) • (M *ᵥ g) := by abel
  rw [hd, quad_update hM.isHermitian]
  set d := x - c with hdd
  set t := g ⬝ᵥ d with ht
  set a := (g ⬝ᵥ (M *ᵥ v)) / ω with ha
  set u := v - a • g with hu
  have hav : g ⬝ᵥ (M *ᵥ v) = a * ω := by rw [ha]; field_simp
  have hvu : v = u + a • g := by rw [hu]; abel
  have huv : u ⬝ᵥ (M *ᵥ g) = 0 := by
    rw [hu, sub_dotProduct, smul_dotProduct, IsHermitian.dot_comm hM.isHermitian v g, hav, ← hωd]
    simp
  have hvv : v ⬝ᵥ (M *ᵥ v) = u ⬝ᵥ (M *ᵥ u) + a ^ 2 * ω := by
    conv_lhs => rw [hvu]
    rw [quad_add_smul hM.isHermitian, huv, ← hωd]; ring
  have hU := PosSemidef.quad_nonneg hM u
  set U := u ⬝ᵥ (M *ᵥ u)
  set s := u ⬝ᵥ d with hsd
  have hvd : v ⬝ᵥ (d + (p.rho / ω) • (M *ᵥ g)) = s + a * (t + p.rho) := by
    rw [dotProduct_add, dotProduct_smul, IsHermitian.dot_comm hM.isHermitian v g, hav]
    conv_lhs => rw [hvu]
    rw [add_dotProduct, smul_dotProduct]
    simp only [smul_eq_mul]
    field_simp; ring
  have hlam : ∀ l : ℝ, (s + l * t) ^ 2 ≤ κ * (U + l ^ 2 * ω) := by
    intro l
    have h := hx (u + l • g)
    rw [quad_add_smul hM.isHermitian, huv, add_dotProduct, smul_dotProduct, mul_zero, add_zero, smul_eq_mul] at h
    exact h
  have htq : t ^ 2 ≤ κ * ω := by
    exact hx g
  have hst : s ^ 2 * (κ * ω) ≤ (κ * U) * (κ * ω - t ^ 2) := by
    have h := discrim_le_zero (a := κ * ω - t ^ 2) (b := -(2 * (s * t))) (c := κ * U - s ^ 2)
      (fun l => by have := hlam l; nlinarith)
    unfold discrim at h
    nlinarith
  have hq : 0 < κ * ω := by positivity
  have h1 : -β1 ≤ t := by have := hs.2; linarith
  have h2 : t ≤ -β0 := by have := hs.1; linarith
  have := update_core_ineq (a := a) (by positivity) hq htq hst hp.sigma_le
    (hp.main t htq h1 h2) (hp.side t htq h1 h2)
  rw [hvd, hvv, hav]
  have e : κ * p.delta * (U + a ^ 2 * ω - p.sigma / ω * (a * ω) ^ 2) =
      p.delta * (κ * U) + a ^ 2 * (κ * ω) * p.delta * (1 - p.sigma) := by
    field_simp; ring
  rw [e]; exact this

/-- The updated matrix stays positive definite as long as `σ < 1`. -/
theorem posDef_update {M : Mat n} (hM : M.PosDef) {g : Vec n} (hω : 0 < g ⬝ᵥ (M *ᵥ g)) {σ : ℝ}
    (hσ : σ < 1) :
    (M - (σ / (g ⬝ᵥ (M *ᵥ g))) • vecMulVec (M *ᵥ g) (M *ᵥ g)).PosDef := by
  apply PosDef.of_dotProduct_mulVec_pos (isHermitian_update hM.isHermitian _ _)
  intro v hv
  simp only [star_trivial]
  rw [quad_update hM.isHermitian]
  have h1 := PosDef.quad_pos hM hv
  have h2 := cauchy_schwarz hM.posSemidef g v
  set ω := g ⬝ᵥ (M *ᵥ g)
  set V := v ⬝ᵥ (M *ᵥ v)
  set z := (g ⬝ᵥ (M *ᵥ v)) ^ 2
  have hz : 0 ≤ z := sq_nonneg _
  rw [div_mul_eq_mul_div, sub_pos, div_lt_iff₀ hω]
  rcases le_or_gt σ 0 with h | h
  · nlinarith [mul_pos h1 hω]
  · nlinarith [mul_pos h1 hω]

/-- The updated matrix stays positive semidefinite as long as `σ ≤ 1`. -/
theorem posSemidef_update {M : Mat n} (hM : M.PosSemidef) {g : Vec n} (hω : 0 < g ⬝ᵥ (M *ᵥ g))
    {σ : ℝ} (hσ : σ ≤ 1) :
    (M - (σ / (g ⬝ᵥ (M *ᵥ g))) • vecMulVec (M *ᵥ g) (M *ᵥ g)).PosSemidef := by
  apply PosSemidef.of_dotProduct_mulVec_nonneg (isHermitian_update hM.isHermitian _ _)
  intro v
  simp only [star_trivial]
  rw [quad_update hM.isHermitian]
  have h1 := PosSemidef.quad_nonneg hM v
  have h2 := cauchy_schwarz hM g v
  set ω := g ⬝ᵥ (M *ᵥ g)
  set V := v ⬝ᵥ (M *ᵥ v)
  set z := (g ⬝ᵥ (M *ᵥ v)) ^ 2
  have hz : 0 ≤ z := sq_nonneg _
  rw [div_mul_eq_mul_div, sub_nonneg, div_le_iff₀ hω]
  nlinarith [mul_nonneg h1 hω.le]

/-- Determinant of the updated matrix. -/
theorem det_update {M : Mat n} (hM : M.IsHermitian) {g : Vec n} (hω : g ⬝ᵥ (M *ᵥ g) ≠ 0) (σ : ℝ) :
    (M - (σ / (g ⬝ᵥ (M *ᵥ g))) • vecMulVec (M *ᵥ g) (M *ᵥ g)).det = M.det * (1 - σ) := by
  have hT : Mᵀ = M := by simpa using hM.eq
  set ω := g ⬝ᵥ (M *ᵥ g)
  have : M - (σ / ω) • vecMulVec (M *ᵥ g) (M *ᵥ g) =
      M * (1 + replicateCol Unit (-(σ / ω) • g) * replicateRow Unit (M *ᵥ g)) := by
    rw [← vecMulVec_eq, mul_add, mul_one, mul_vecMulVec, mulVec_smul, smul_vecMulVec,
      sub_eq_add_neg, neg_smul]
  rw [this, det_mul, det_one_add_replicateCol_mul_replicateRow, dotProduct_smul,
    dotProduct_comm (M *ᵥ g) g]
  congr 1
  simp only [smul_eq_mul]
  field_simp; ring

end Ellalgo
