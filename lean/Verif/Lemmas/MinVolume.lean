import Verif.Lemmas.Volume
import Mathlib.Analysis.Matrix.Order
import Mathlib.Analysis.Matrix.PosDef
import Mathlib.Analysis.InnerProductSpace.PiL2
import Mathlib.Analysis.CStarAlgebra.Matrix
import Mathlib.MeasureTheory.Measure.Lebesgue.EqHaar

/-! Minimum-volume ellipsoids: contact points and the trace inequality. -/

namespace Ellalgo

open Matrix Spec

variable {n : ℕ}

/-! ### Determinant and trace -/

theorem PosSemidef.det_le_exp_trace {S : Mat n} (hS : S.PosSemidef) :
    S.det ≤ Real.exp (S.trace - n) := by
  have hd := hS.isHermitian.det_eq_prod_eigenvalues
  have ht := hS.isHermitian.trace_eq_sum_eigenvalues
  simp only [RCLike.ofReal_real_eq_id, id_eq] at hd ht
  have h1 : ∏ i, hS.isHermitian.eigenvalues i ≤ ∏ i, Real.exp (hS.isHermitian.eigenvalues i - 1) :=
    Finset.prod_le_prod (fun i _ => hS.eigenvalues_nonneg i) fun i _ => by
      have := Real.add_one_le_exp (hS.isHermitian.eigenvalues i - 1); linarith
  rw [← Real.exp_sum, Finset.sum_sub_distrib] at h1
  rw [hd, ht]
  simpa using h1

theorem PosSemidef.det_le_one {S : Mat n} (hS : S.PosSemidef) (ht : S.trace ≤ n) : S.det ≤ 1 :=
  (PosSemidef.det_le_exp_trace hS).trans (Real.exp_le_one_iff.mpr (by linarith))

theorem PosSemidef.eq_one_of_det {S : Mat n} (hS : S.PosSemidef) (ht : S.trace ≤ n)
    (hdet : 1 ≤ S.det) : S = 1 := by
  have hd := hS.isHermitian.det_eq_prod_eigenvalues
  have htr := hS.isHermitian.trace_eq_sum_eigenvalues
  simp only [RCLike.ofReal_real_eq_id, id_eq] at hd htr
  have hpos : ∀ i, 0 < hS.isHermitian.eigenvalues i := by
    intro i
    refine lt_of_le_of_ne (hS.eigenvalues_nonneg i) fun h => ?_
    have : S.det = 0 := by rw [hd]; exact Finset.prod_eq_zero (Finset.mem_univ i) h.symm
    linarith
  have hall : ∀ i, hS.isHermitian.eigenvalues i = 1 := by
    by_contra hc
    push Not at hc
    obtain ⟨j, hj⟩ := hc
    have h1 : ∏ i, hS.isHermitian.eigenvalues i < ∏ i, Real.exp (hS.isHermitian.eigenvalues i - 1) :=
      Finset.prod_lt_prod (fun i _ => hpos i)
        (fun i _ => by have := Real.add_one_le_exp (hS.isHermitian.eigenvalues i - 1); linarith)
        ⟨j, Finset.mem_univ j, by
          have := Real.add_one_lt_exp (sub_ne_zero.mpr hj); linarith⟩
    rw [← Real.exp_sum, Finset.sum_sub_distrib, ← hd, ← htr] at h1
    have h2 : Real.exp (S.trace - ∑ _i : Fin n, (1 : ℝ)) ≤ 1 :=
      Real.exp_le_one_iff.mpr (by simpa using ht)
    linarith
  have hsp := hS.isHermitian.spectral_theorem
  have : (fun i => ((hS.isHermitian.eigenvalues i : ℝ) : ℝ)) = fun _ => 1 := funext hall
  have h2 : diagonal (RCLike.ofReal ∘ hS.isHermitian.eigenvalues) = (1 : Mat n) := by
    rw [← diagonal_one]; congr 1
  rw [h2] at hsp
  simpa using hsp

/-! ### Contact points -/

/-- Trace inequality obtained from the contact points on the two slices `w i0 = s0` and `w i0 = s1`. -/
theorem contact_bound (hn : 2 ≤ n) (i0 : Fin n) {P : Mat n} (hP : P.PosSemidef) {a : Vec n}
    {s0 s1 m δ V : ℝ} (h0 : s0 ^ 2 ≤ 1) (h1 : s1 ^ 2 ≤ 1) (hm1 : s1 ≤ m) (hm0 : m ≤ s0)
    (hV : V = n * (m - s1) * (s0 - m)) (hδ : ((n : ℝ) - 1) * δ + V = n * (1 - m ^ 2))
    (hc : ∀ w : Vec n, w ⬝ᵥ w ≤ 1 → s1 ≤ w i0 → w i0 ≤ s0 → (w - a) ⬝ᵥ (P *ᵥ (w - a)) ≤ 1) :
    V * P i0 i0 + δ * (P.trace - P i0 i0) +
      n * ((m • Pi.single i0 1 - a) ⬝ᵥ (P *ᵥ (m • Pi.single i0 1 - a))) ≤ n := by
  have hn2 : (2 : ℝ) ≤ n := by exact_mod_cast hn
  set e0 : Vec n := Pi.single i0 1 with he0
  have hs01 : s1 ≤ s0 := hm1.trans hm0
  have hquad : ∀ s : ℝ, (s • e0 - a) ⬝ᵥ (P *ᵥ (s • e0 - a)) =
      s ^ 2 * P i0 i0 - 2 * s * (a ⬝ᵥ (P *ᵥ e0)) + a ⬝ᵥ (P *ᵥ a) := by
    intro s
    have := quad_add_smul hP.isHermitian (-a) e0 s
    rw [show -a + s • e0 = s • e0 - a by abel] at this
    rw [this]
    have h00 : e0 ⬝ᵥ (P *ᵥ e0) = P i0 i0 := by simp [he0]
    rw [h00]
    simp only [mulVec_neg, neg_dotProduct, dotProduct_neg, neg_neg]
    ring
  set T := P.trace - P i0 i0 with hT
  have hTsum : ∑ j ∈ Finset.univ.erase i0, P j j = T := by
    rw [hT, Matrix.trace, ← Finset.add_sum_erase _ _ (Finset.mem_univ i0)]; simp
  have hF : ∀ s : ℝ, s ^ 2 ≤ 1 → s1 ≤ s → s ≤ s0 →
      ((n : ℝ) - 1) * ((s • e0 - a) ⬝ᵥ (P *ᵥ (s • e0 - a))) + (1 - s ^ 2) * T ≤ (n : ℝ) - 1 := by
    intro s hs hs1 hs0
    set u := s • e0 - a
    have hj : ∀ j ∈ Finset.univ.erase i0, u ⬝ᵥ (P *ᵥ u) + (1 - s ^ 2) * P j j ≤ 1 := by
      intro j hj
      have hji : j ≠ i0 := Finset.ne_of_mem_erase hj
      have key : ∀ l : ℝ, l ^ 2 = 1 - s ^ 2 →
          u ⬝ᵥ (P *ᵥ u) + 2 * l * (u ⬝ᵥ (P *ᵥ Pi.single j 1)) + (1 - s ^ 2) * P j j ≤ 1 := by
        intro l hl
        have hw := hc (s • e0 + l • Pi.single j 1) (by
          simp only [add_dotProduct, dotProduct_add, smul_dotProduct, dotProduct_smul, he0,
            single_dotProduct, smul_eq_mul, one_mul]
          simp [hji, hji.symm]
          nlinarith) (by simp [he0, hji.symm]; exact hs1) (by simp [he0, hji.symm]; exact hs0)
        rw [show s • e0 + l • (Pi.single j 1 : Vec n) - a = u + l • Pi.single j 1 by
          simp only [u]; abel, quad_add_smul hP.isHermitian, hl] at hw
        have hjj : (Pi.single j 1 : Vec n) ⬝ᵥ (P *ᵥ Pi.single j 1) = P j j := by simp
        rw [hjj] at hw
        exact hw
      have hr := Real.sq_sqrt (show 0 ≤ 1 - s ^ 2 by linarith)
      have k1 := key (Real.sqrt (1 - s ^ 2)) hr
      have k2 := key (-Real.sqrt (1 - s ^ 2)) (by rw [neg_sq]; exact hr)
      linarith
    have hsum := Finset.sum_le_sum hj
    rw [Finset.sum_add_distrib, ← Finset.mul_sum, hTsum] at hsum
    simp only [Finset.sum_const, Finset.card_erase_of_mem (Finset.mem_univ i0), Finset.card_univ,
      Fintype.card_fin, nsmul_eq_mul, mul_one] at hsum
    rw [Nat.cast_sub (by omega)] at hsum
    simpa using hsum
  have f0 := hF s0 h0 hs01 le_rfl
  have f1 := hF s1 h1 le_rfl hs01
  rw [hquad] at f0 f1 ⊢
  set p := P i0 i0
  set b := a ⬝ᵥ (P *ᵥ e0)
  set d := a ⬝ᵥ (P *ᵥ a)
  have hfin : ((n : ℝ) - 1) * ((m ^ 2 + V / n) * p - 2 * m * b + d) + (1 - m ^ 2 - V / n) * T ≤
      (n : ℝ) - 1 := by
    have hVn : V / n = (m - s1) * (s0 - m) := by rw [hV]; field_simp
    rw [hVn]
    rcases hs01.lt_or_eq with hlt | heq
    · have hpos : 0 < s0 - s1 := by linarith
      have c0 := mul_le_mul_of_nonneg_left f0 (show 0 ≤ m - s1 by linarith)
      have c1 := mul_le_mul_of_nonneg_left f1 (show 0 ≤ s0 - m by linarith)
      refine le_of_mul_le_mul_left ?_ hpos
      linear_combination c0 + c1
    · have e1 : m = s0 := by linarith
      have e2 : s1 = s0 := heq
      rw [e1, e2]
      linear_combination f0
  have hδ' : 1 - m ^ 2 - V / n = ((n : ℝ) - 1) * δ / n := by
    field_simp; linarith
  rw [hδ'] at hfin
  have hn1 : 0 < (n : ℝ) - 1 := by linarith
  have h2 : ((n : ℝ) - 1) * (V * p + δ * T + n * (m ^ 2 * p - 2 * m * b + d)) ≤ ((n : ℝ) - 1) * n := by
    have hn0 : (0 : ℝ) < n := by linarith
    have := mul_le_mul_of_nonneg_left hfin hn0.le
    have e : (n : ℝ) * (((n : ℝ) - 1) * ((m ^ 2 + V / n) * p - 2 * m * b + d) + ((n : ℝ) - 1) * δ / n * T) =
        ((n : ℝ) - 1) * (V * p + δ * T + n * (m ^ 2 * p - 2 * m * b + d)) := by
      field_simp; ring
    rw [e] at this
    linarith
  exact le_of_mul_le_mul_left h2 hn1

/-- The diagonal of the optimal ellipsoid in ball coordinates. -/
noncomputable def optDiag (i0 : Fin n) (V δ : ℝ) : Vec n := fun i => if i = i0 then V else δ

theorem optDiag_prod (i0 : Fin n) (V δ : ℝ) : ∏ i, optDiag i0 V δ i = V * δ ^ (n - 1) := by
  rw [← Finset.mul_prod_erase _ _ (Finset.mem_univ i0)]
  congr 1
  · simp [optDiag]
  · rw [Finset.prod_congr rfl (g := fun _ => δ) fun i hi => by
      simp [optDiag, Finset.ne_of_mem_erase hi]]
    simp [Finset.card_erase_of_mem]

theorem sum_optDiag_mul (i0 : Fin n) (V δ : ℝ) (f : Fin n → ℝ) :
    ∑ i, optDiag i0 V δ i * f i = V * f i0 + δ * (∑ i, f i - f i0) := by
  rw [← Finset.add_sum_erase _ _ (Finset.mem_univ i0), ← Finset.add_sum_erase _ f (Finset.mem_univ i0)]
  rw [Finset.sum_congr rfl (g := fun i => δ * f i) fun i hi => by
    simp [optDiag, Finset.ne_of_mem_erase hi], ← Finset.mul_sum]
  simp [optDiag]

/-- In ball coordinates: an ellipsoid `(w-a)ᵀP(w-a) ≤ 1` containing the part of the unit ball between the two slices has
`det P · Vδ^(n-1) ≤ 1`, with equality only for the optimal one. -/
theorem contact_optimal (hn : 2 ≤ n) (i0 : Fin n) {P : Mat n} (hP : P.PosDef) {a : Vec n}
    {s0 s1 m δ V : ℝ} (h0 : s0 ^ 2 ≤ 1) (h1 : s1 ^ 2 ≤ 1) (hm1 : s1 ≤ m) (hm0 : m ≤ s0)
    (hV : V = n * (m - s1) * (s0 - m)) (hδ : ((n : ℝ) - 1) * δ + V = n * (1 - m ^ 2)) (hδ0 : 0 ≤ δ)
    (hc : ∀ w : Vec n, w ⬝ᵥ w ≤ 1 → s1 ≤ w i0 → w i0 ≤ s0 → (w - a) ⬝ᵥ (P *ᵥ (w - a)) ≤ 1) :
    V * δ ^ (n - 1) * P.det ≤ 1 ∧
    (1 ≤ V * δ ^ (n - 1) * P.det →
      a = m • Pi.single i0 1 ∧ P * diagonal (optDiag i0 V δ) = 1) := by
  have hb := contact_bound hn i0 hP.posSemidef h0 h1 hm1 hm0 hV hδ hc
  have hV0 : 0 ≤ V := by
    rw [hV]; exact mul_nonneg (mul_nonneg (by positivity) (by linarith)) (by linarith)
  set D : Mat n := diagonal fun i => Real.sqrt (optDiag i0 V δ i) with hD
  have hd0 : ∀ i, 0 ≤ optDiag i0 V δ i := fun i => by unfold optDiag; split_ifs <;> assumption
  have hDD : D * D = diagonal (optDiag i0 V δ) := by
    rw [hD, diagonal_mul_diagonal]; congr 1; ext i; exact Real.mul_self_sqrt (hd0 i)
  have hDT : Dᴴ = D := by simp [hD]
  set S := D * P * D with hSdef
  have hS : S.PosSemidef := by
    have := hP.posSemidef.mul_mul_conjTranspose_same D
    rwa [hDT] at this
  have htr : S.trace = V * P i0 i0 + δ * (P.trace - P i0 i0) := by
    rw [hSdef, Matrix.trace_mul_comm, ← Matrix.mul_assoc, hDD, Matrix.trace]
    simp only [diag_apply, diagonal_mul]
    exact sum_optDiag_mul i0 V δ fun i => P i i
  have hdet : S.det = V * δ ^ (n - 1) * P.det := by
    have h3 : D.det * D.det = V * δ ^ (n - 1) := by
      rw [← det_mul, hDD, det_diagonal, optDiag_prod]
    rw [hSdef, det_mul, det_mul, ← h3]; ring
  set q := (m • (Pi.single i0 1 : Vec n) - a) ⬝ᵥ (P *ᵥ (m • Pi.single i0 1 - a)) with hq
  have hq0 : 0 ≤ q := PosSemidef.quad_nonneg hP.posSemidef _
  have hn0 : (0 : ℝ) < n := by have : (2 : ℝ) ≤ n := by exact_mod_cast hn
                               linarith
  have htr' : S.trace + n * q ≤ n := by rw [htr]; exact hb
  have htrn : S.trace ≤ n := by nlinarith
  rw [← hdet]
  refine ⟨PosSemidef.det_le_one hS htrn, fun hge => ?_⟩
  have hS1 := PosSemidef.eq_one_of_det hS htrn hge
  constructor
  · have htr1 : S.trace = n := by rw [hS1]; simp
    have hqz : q = 0 := by
      rw [htr1] at htr'
      nlinarith
    by_contra hne
    have : 0 < q := PosDef.quad_pos hP fun h => hne (sub_eq_zero.mp h).symm
    linarith
  · have hu : D.det ≠ 0 := by
      intro h
      have : S.det = 0 := by rw [hSdef, det_mul, h, mul_zero]
      linarith
    have hDu : IsUnit D.det := isUnit_iff_ne_zero.mpr hu
    rw [← hDD]
    -- D P D = 1 ⇒ P D D = 1
    have h4 : D * (P * D) = 1 := by rw [← Matrix.mul_assoc]; exact hS1
    have h5 : (P * D) * D = 1 := mul_eq_one_comm.mp h4
    rw [← Matrix.mul_assoc]; exact h5

/-! ### A factor adapted to the gradient -/

open scoped MatrixOrder in
theorem exists_factor {M : Mat n} (hM : M.PosSemidef) : ∃ B : Mat n, B * Bᵀ = M := by
  obtain ⟨C, hC⟩ := CStarAlgebra.nonneg_iff_eq_star_mul_self.mp hM.nonneg
  refine ⟨Cᵀ, ?_⟩
  rw [hC, star_eq_conjTranspose, conjTranspose_eq_transpose_of_trivial, transpose_transpose]

theorem exists_orthogonal (i0 : Fin n) (v : Vec n) (hv : v ⬝ᵥ v = 1) :
    ∃ U : Mat n, U * Uᵀ = 1 ∧ U *ᵥ v = Pi.single i0 1 := by
  set v' : EuclideanSpace ℝ (Fin n) := WithLp.toLp 2 v with hv'
  have hnorm : ‖v'‖ = 1 := by
    rw [EuclideanSpace.norm_eq, hv']
    have : ∑ i, ‖(WithLp.toLp 2 v : EuclideanSpace ℝ (Fin n)) i‖ ^ 2 = 1 := by
      rw [← hv, dotProduct]
      exact Finset.sum_congr rfl fun i _ => by simp [sq]
    rw [this, Real.sqrt_one]
  obtain ⟨b, hb⟩ := Orthonormal.exists_orthonormalBasis_extension_of_card_eq (𝕜 := ℝ)
    (E := EuclideanSpace ℝ (Fin n)) (ι := Fin n) (by simp) (v := fun _ => v') (s := {i0}) (by
      refine ⟨fun i => hnorm, fun i j hij => ?_⟩
      exact absurd (Subsingleton.elim i j) hij)
  have hb0 : b i0 = v' := hb i0 rfl
  have hin : ∀ i j, ∑ k, (b i) k * (b j) k = if i = j then 1 else 0 := by
    intro i j
    have := orthonormal_iff_ite.mp b.orthonormal i j
    rw [← this, PiLp.inner_apply]
    exact Finset.sum_congr rfl fun k _ => by simp [mul_comm]
  refine ⟨Matrix.of fun i k => (b i) k, ?_, ?_⟩
  · ext i j
    rw [Matrix.mul_apply]
    simp only [of_apply, transpose_apply]
    rw [hin, Matrix.one_apply]
  · ext i
    simp only [mulVec, dotProduct, of_apply]
    have := hin i i0
    rw [hb0] at this
    simp only [hv'] at this
    rw [this, Pi.single_apply]

/-- A square root of `M` that sends the first axis to the direction of `M g`. -/
theorem exists_adapted_factor {M : Mat n} (hM : M.PosDef) (i0 : Fin n) {g : Vec n} (hg : g ≠ 0) :
    ∃ B : Mat n, B * Bᵀ = M ∧ Bᵀ *ᵥ g = Real.sqrt (g ⬝ᵥ (M *ᵥ g)) • Pi.single i0 1 := by
  obtain ⟨B0, hB0⟩ := exists_factor hM.posSemidef
  have hω := PosDef.quad_pos hM hg
  set r := Real.sqrt (g ⬝ᵥ (M *ᵥ g)) with hr
  have hr0 : 0 < r := Real.sqrt_pos.mpr hω
  have hnorm : (B0ᵀ *ᵥ g) ⬝ᵥ (B0ᵀ *ᵥ g) = r ^ 2 := by
    have h1 : g ⬝ᵥ (B0 *ᵥ (B0ᵀ *ᵥ g)) = (B0ᵀ *ᵥ g) ⬝ᵥ (B0ᵀ *ᵥ g) := by
      rw [dotProduct_mulVec, ← mulVec_transpose]
    rw [← h1, hr, Real.sq_sqrt hω.le, ← hB0, ← mulVec_mulVec]
  obtain ⟨U, hU, hUv⟩ := exists_orthogonal i0 (r⁻¹ • (B0ᵀ *ᵥ g)) (by
    rw [smul_dotProduct, dotProduct_smul, hnorm]; simp only [smul_eq_mul]; field_simp)
  have hU' : Uᵀ * U = 1 := mul_eq_one_comm.mp hU
  refine ⟨B0 * Uᵀ, ?_, ?_⟩
  · rw [transpose_mul, transpose_transpose, Matrix.mul_assoc, ← Matrix.mul_assoc Uᵀ, hU', Matrix.one_mul, hB0]
  · rw [transpose_mul, transpose_transpose, ← mulVec_mulVec]
    rw [mulVec_smul] at hUv
    have := congrArg (r • ·) hUv
    simpa [smul_smul, mul_inv_cancel₀ hr0.ne'] using this

/-! ### Ball coordinates -/

theorem factor_det_ne {M B : Mat n} (hM : M.PosDef) (hB : B * Bᵀ = M) : B.det ≠ 0 := by
  intro h
  have := hM.det_pos
  rw [← hB, det_mul, h, zero_mul] at this
  exact lt_irrefl _ this

/-- The quadratic form of `Q⁻¹` in the coordinates of `B`. -/
theorem quad_coords (B R : Mat n) (w : Vec n) :
    (B *ᵥ w) ⬝ᵥ (R *ᵥ (B *ᵥ w)) = w ⬝ᵥ ((Bᵀ * R * B) *ᵥ w) := by
  rw [← mulVec_mulVec, ← mulVec_mulVec, dotProduct_mulVec w, vecMul_transpose]

theorem factor_inv {M B : Mat n} (hM : M.PosDef) (hB : B * Bᵀ = M) : Bᵀ * M⁻¹ * B = 1 := by
  have hd := factor_det_ne hM hB
  have hu : IsUnit B.det := isUnit_iff_ne_zero.mpr hd
  have huT : IsUnit Bᵀ.det := by rw [det_transpose]; exact hu
  rw [← hB, Matrix.mul_inv_rev, ← Matrix.mul_assoc, Matrix.mul_nonsing_inv _ huT, Matrix.one_mul,
    Matrix.nonsing_inv_mul _ hu]

theorem mem_ellipsoid_coords {M B : Mat n} (hM : M.PosDef) (hB : B * Bᵀ = M) {κ : ℝ} (hκ : 0 < κ)
    (c w : Vec n) : c + Real.sqrt κ • (B *ᵥ w) ∈ ellipsoid M κ c ↔ w ⬝ᵥ w ≤ 1 := by
  simp only [ellipsoid, Set.mem_ofPred_eq, add_sub_cancel_left]
  rw [mulVec_smul, smul_dotProduct, dotProduct_smul, quad_coords, factor_inv hM hB, one_mulVec]
  simp only [smul_eq_mul]
  rw [← mul_assoc, Real.mul_self_sqrt hκ.le]
  constructor <;> intro h <;> nlinarith

/-- An ellipsoid is the image of the unit ball. -/
theorem ellipsoid_eq_image {M B : Mat n} (hM : M.PosDef) (hB : B * Bᵀ = M) {κ : ℝ} (hκ : 0 < κ)
    (c : Vec n) :
    ellipsoid M κ c = (fun x => c + x) '' (Matrix.toLin' (Real.sqrt κ • B) '' {w | w ⬝ᵥ w ≤ 1}) := by
  have hd := factor_det_ne hM hB
  have hu : IsUnit B.det := isUnit_iff_ne_zero.mpr hd
  have hs : Real.sqrt κ ≠ 0 := (Real.sqrt_pos.mpr hκ).ne'
  ext x
  constructor
  · intro hx
    refine ⟨_, ⟨(Real.sqrt κ)⁻¹ • (B⁻¹ *ᵥ (x - c)), ?_, rfl⟩, ?_⟩
    · have hx' : c + Real.sqrt κ • (B *ᵥ ((Real.sqrt κ)⁻¹ • (B⁻¹ *ᵥ (x - c)))) = x := by
        rw [mulVec_smul, smul_smul, mul_inv_cancel₀ hs, one_smul, mulVec_mulVec,
          Matrix.mul_nonsing_inv _ hu, one_mulVec]; abel
      rw [← hx'] at hx
      exact (mem_ellipsoid_coords hM hB hκ c _).mp hx
    · simp only [toLin'_apply, smul_mulVec]
      rw [mulVec_smul, smul_smul, mul_inv_cancel₀ hs, one_smul, mulVec_mulVec,
        Matrix.mul_nonsing_inv _ hu, one_mulVec]; abel
  · rintro ⟨_, ⟨w, hw, rfl⟩, rfl⟩
    simp only [toLin'_apply, smul_mulVec]
    exact (mem_ellipsoid_coords hM hB hκ c w).mpr hw

open MeasureTheory in
/-- Lebesgue measure of an ellipsoid. -/
theorem volume_ellipsoid {M : Mat n} (hM : M.PosDef) {κ : ℝ} (hκ : 0 < κ) (c : Vec n) :
    volume (ellipsoid M κ c) =
      ENNReal.ofReal (Real.sqrt (κ • M).det) * volume {w : Vec n | w ⬝ᵥ w ≤ 1} := by
  obtain ⟨B, hB⟩ := exists_factor hM.posSemidef
  rw [ellipsoid_eq_image hM hB hκ, Set.image_add_left, measure_preimage_add,
    Measure.addHaar_image_linearMap, LinearMap.det_toLin']
  congr 2
  have : (κ • M).det = (Real.sqrt κ • B).det ^ 2 := by
    rw [← hB, det_smul, det_smul, det_mul, det_transpose, mul_pow, ← pow_mul, mul_comm (Fintype.card _) 2,
      pow_mul, Real.sq_sqrt hκ.le]; ring
  rw [this, Real.sqrt_sq_eq_abs]

open MeasureTheory in
/-- The unit ball has positive finite measure. -/
theorem volume_unitBall : volume {w : Vec n | w ⬝ᵥ w ≤ 1} ≠ 0 ∧ volume {w : Vec n | w ⬝ᵥ w ≤ 1} ≠ ⊤ := by
  constructor
  · have hcont : Continuous fun w : Vec n => w ⬝ᵥ w := by
      unfold dotProduct; fun_prop
    have ho : IsOpen {w : Vec n | w ⬝ᵥ w < 1} := isOpen_lt hcont continuous_const
    have hpos := ho.measure_pos volume ⟨0, by simp⟩
    exact (hpos.trans_le (measure_mono fun w (hw : w ⬝ᵥ w < 1) => show w ⬝ᵥ w ≤ 1 from hw.le)).ne'
  · have hsub : {w : Vec n | w ⬝ᵥ w ≤ 1} ⊆ Metric.closedBall 0 1 := by
      intro w hw
      rw [mem_closedBall_zero_iff, pi_norm_le_iff_of_nonneg zero_le_one]
      intro i
      have h1 : w i * w i ≤ w ⬝ᵥ w :=
        Finset.single_le_sum (f := fun i => w i * w i) (fun j _ => mul_self_nonneg _) (Finset.mem_univ i)
      have h2 : w i ^ 2 ≤ 1 := by have : w ⬝ᵥ w ≤ 1 := hw
                                  nlinarith
      rw [Real.norm_eq_abs]
      exact (sq_le_one_iff_abs_le_one _).mp h2
    exact ((measure_mono hsub).trans_lt (isCompact_closedBall (0 : Vec n) 1).measure_lt_top).ne

/-! ### Transfer -/

/-- The parameters are those of the smallest ellipsoid for the slab `-β1 ≤ t ≤ -β0`. -/
structure Tight (n : ℕ) (β0 β1 tsq : ℝ) (p : Params) : Prop where
  sq0 : β0 ^ 2 ≤ tsq
  sq1 : β1 ^ 2 ≤ tsq
  lo : β0 ≤ p.rho
  hi : p.rho ≤ β1
  delta_nonneg : 0 ≤ p.delta
  var : p.delta * (1 - p.sigma) * tsq = n * (p.rho - β0) * (β1 - p.rho)
  sum : ((n : ℝ) - 1) * p.delta * tsq + p.delta * (1 - p.sigma) * tsq = n * (tsq - p.rho ^ 2)

/-- The shape `κδ(M - σ/ω (Mg)(Mg)ᵀ)` after a cut. -/
noncomputable def cutShape (M : Mat n) (κ : ℝ) (g : Vec n) (p : Params) : Mat n :=
  (κ * p.delta) • (M - (p.sigma / (g ⬝ᵥ (M *ᵥ g))) • vecMulVec (M *ᵥ g) (M *ᵥ g))

theorem diagonal_optDiag (i0 : Fin n) (σ δ : ℝ) :
    diagonal (optDiag i0 (δ * (1 - σ)) δ) =
      δ • ((1 : Mat n) - σ • vecMulVec (Pi.single i0 1) (Pi.single i0 1)) := by
  ext i j
  simp only [diagonal_apply, optDiag, Matrix.smul_apply, Matrix.sub_apply, Matrix.one_apply, vecMulVec_apply,
    Pi.single_apply, smul_eq_mul]
  by_cases hij : i = j
  · subst hij
    by_cases hi : i = i0 <;> simp [hi]
  · simp only [hij, if_false]
    by_cases hi : i = i0
    · have : j ≠ i0 := fun h => hij (hi.trans h.symm)
      simp [this]
    · simp [hi]

theorem cutShape_coords {M B : Mat n} {g : Vec n} {i0 : Fin n} (hω : 0 < g ⬝ᵥ (M *ᵥ g))
    (hB : B * Bᵀ = M) (hBg : Bᵀ *ᵥ g = Real.sqrt (g ⬝ᵥ (M *ᵥ g)) • Pi.single i0 1) (κ : ℝ) (p : Params) :
    cutShape M κ g p = κ • (B * diagonal (optDiag i0 (p.delta * (1 - p.sigma)) p.delta) * Bᵀ) ∧
    M *ᵥ g = Real.sqrt (g ⬝ᵥ (M *ᵥ g)) • (B *ᵥ Pi.single i0 1) := by
  have hMg : M *ᵥ g = Real.sqrt (g ⬝ᵥ (M *ᵥ g)) • (B *ᵥ Pi.single i0 1) := by
    conv_lhs => rw [← hB, ← mulVec_mulVec, hBg, mulVec_smul]
  refine ⟨?_, hMg⟩
  set ω := g ⬝ᵥ (M *ᵥ g) with hωd
  have hvv : (p.sigma / ω) • vecMulVec (M *ᵥ g) (M *ᵥ g) =
      p.sigma • (B * vecMulVec (Pi.single i0 1) (Pi.single i0 1) * Bᵀ) := by
    rw [hMg, mul_vecMulVec, vecMulVec_mul, vecMul_transpose, smul_vecMulVec, vecMulVec_smul, smul_smul, smul_smul]
    have : p.sigma / ω * (Real.sqrt ω * Real.sqrt ω) = p.sigma := by
      rw [Real.mul_self_sqrt hω.le]; field_simp
    rw [← mul_assoc] at this
    rw [this]
  rw [cutShape, hvv, diagonal_optDiag, Matrix.mul_smul, Matrix.smul_mul, smul_smul, Matrix.mul_sub, Matrix.sub_mul,
    Matrix.mul_one, hB, Matrix.mul_smul, Matrix.smul_mul]

theorem minimal_of_tight (hn : 2 ≤ n) {M : Mat n} (hM : M.PosDef) {κ : ℝ} (hκ : 0 < κ) {g : Vec n} (hg : g ≠ 0)
    (c : Vec n) {β0 β1 : ℝ} {p : Params} (hp : Tight n β0 β1 (κ * (g ⬝ᵥ (M *ᵥ g))) p)
    {Q : Mat n} (hQ : Q.PosDef) {κ' : ℝ} (hκ' : 0 < κ') {a : Vec n}
    (hc : ∀ x ∈ ellipsoid M κ c, -β1 ≤ g ⬝ᵥ (x - c) → g ⬝ᵥ (x - c) ≤ -β0 → x ∈ ellipsoid Q κ' a) :
    (cutShape M κ g p).det ≤ (κ' • Q).det ∧
    ((κ' • Q).det ≤ (cutShape M κ g p).det →
      κ' • Q = cutShape M κ g p ∧ a = c - (p.rho / (g ⬝ᵥ (M *ᵥ g))) • (M *ᵥ g)) := by
  have hω := PosDef.quad_pos hM hg
  set i0 : Fin n := ⟨0, by omega⟩
  obtain ⟨B, hB, hBg⟩ := exists_adapted_factor hM i0 hg
  obtain ⟨hcs, hMg⟩ := cutShape_coords hω hB hBg κ p
  set ω := g ⬝ᵥ (M *ᵥ g) with hωd
  have hd := factor_det_ne hM hB
  have hu : IsUnit B.det := isUnit_iff_ne_zero.mpr hd
  have hk0 := Real.sqrt_pos.mpr hκ
  have hw0 := Real.sqrt_pos.mpr hω
  set τ := Real.sqrt κ * Real.sqrt ω with hτ
  have hτ0 : 0 < τ := mul_pos hk0 hw0
  have hτ2 : τ ^ 2 = κ * ω := by rw [hτ, mul_pow, Real.sq_sqrt hκ.le, Real.sq_sqrt hω.le]
  set P : Mat n := (κ / κ') • (Bᵀ * Q⁻¹ * B) with hP
  set a' : Vec n := (Real.sqrt κ)⁻¹ • (B⁻¹ *ᵥ (a - c)) with ha'
  have haa : a = c + Real.sqrt κ • (B *ᵥ a') := by
    rw [ha', mulVec_smul, smul_smul, mul_inv_cancel₀ hk0.ne', one_smul, mulVec_mulVec,
      Matrix.mul_nonsing_inv _ hu, one_mulVec]; abel
  have hPd : P.PosDef := by
    refine Matrix.PosDef.smul ?_ (by positivity)
    have := hQ.inv.conjTranspose_mul_mul_same (B := B)
      (Matrix.mulVec_injective_iff_isUnit.mpr ((isUnit_iff_isUnit_det B).mpr hu))
    rwa [conjTranspose_eq_transpose_of_trivial] at this
  have hmem : ∀ w : Vec n, c + Real.sqrt κ • (B *ᵥ w) ∈ ellipsoid Q κ' a ↔
      (w - a') ⬝ᵥ (P *ᵥ (w - a')) ≤ 1 := by
    intro w
    simp only [ellipsoid, Set.mem_ofPred_eq]
    have e1 : c + Real.sqrt κ • (B *ᵥ w) - a = Real.sqrt κ • (B *ᵥ (w - a')) := by
      rw [haa, mulVec_sub, smul_sub]; abel
    rw [e1, mulVec_smul, smul_dotProduct, dotProduct_smul, quad_coords, hP, smul_mulVec, dotProduct_smul]
    simp only [smul_eq_mul]
    rw [← mul_assoc, Real.mul_self_sqrt hκ.le, div_mul_eq_mul_div, div_le_one hκ']
  have hgw : ∀ w : Vec n, g ⬝ᵥ (c + Real.sqrt κ • (B *ᵥ w) - c) = τ * w i0 := by
    intro w
    rw [add_sub_cancel_left, dotProduct_smul, dotProduct_mulVec, ← mulVec_transpose, hBg, smul_dotProduct,
      single_dotProduct]
    simp only [smul_eq_mul, one_mul, hτ]; ring
  have hopt := contact_optimal (s0 := -β0 / τ) (s1 := -β1 / τ) (m := -p.rho / τ) (δ := p.delta)
    (V := p.delta * (1 - p.sigma)) (a := a') hn i0 hPd
    (by rw [div_pow, neg_sq, hτ2]; exact (div_le_one (by positivity)).mpr hp.sq0)
    (by rw [div_pow, neg_sq, hτ2]; exact (div_le_one (by positivity)).mpr hp.sq1)
    (div_le_div_of_nonneg_right (by linarith [hp.hi]) hτ0.le)
    (div_le_div_of_nonneg_right (by linarith [hp.lo]) hτ0.le)
    (by
      have := hp.var
      rw [← hτ2] at this
      field_simp
      linear_combination this)
    (by
      have := hp.sum
      rw [← hτ2] at this
      field_simp
      linear_combination this)
    hp.delta_nonneg
    (fun w hw h1 h2 => by
      refine (hmem w).mp (hc _ ((mem_ellipsoid_coords hM hB hκ c w).mpr hw) ?_ ?_)
      · rw [hgw, mul_comm]; exact (div_le_iff₀ hτ0).mp h1
      · rw [hgw, mul_comm]; exact (le_div_iff₀ hτ0).mp h2)
  have hdetP : P.det = κ ^ n * B.det ^ 2 / (κ' • Q).det := by
    rw [hP, det_smul, det_mul, det_mul, det_transpose, det_nonsing_inv, det_smul, Ring.inverse_eq_inv',
      Fintype.card_fin, div_pow]
    have := hQ.det_pos.ne'
    field_simp
  have hdetN : (cutShape M κ g p).det = κ ^ n * B.det ^ 2 * (p.delta * (1 - p.sigma) * p.delta ^ (n - 1)) := by
    rw [hcs, det_smul, det_mul, det_mul, det_transpose, det_diagonal, optDiag_prod, Fintype.card_fin]; ring
  have hQ0 : 0 < (κ' • Q).det := (hQ.smul hκ').det_pos
  have hNP : p.delta * (1 - p.sigma) * p.delta ^ (n - 1) * P.det = (cutShape M κ g p).det / (κ' • Q).det := by
    rw [hdetP, hdetN]; ring
  rw [hNP, div_le_one hQ0, one_le_div hQ0] at hopt
  refine ⟨hopt.1, fun hle => ?_⟩
  obtain ⟨ham, hPD⟩ := hopt.2 hle
  constructor
  · rw [hcs]
    set D : Mat n := diagonal (optDiag i0 (p.delta * (1 - p.sigma)) p.delta)
    have huT : IsUnit Bᵀ.det := by rw [det_transpose]; exact hu
    have huQ : IsUnit Q.det := isUnit_iff_ne_zero.mpr hQ.det_pos.ne'
    -- (κ/κ') Bᵀ Q⁻¹ B D = 1
    have h1 : (κ / κ') • (B * D * Bᵀ) = Q := by
      rw [hP, Matrix.smul_mul] at hPD
      have h2 : (κ / κ') • (Bᵀ * (Q⁻¹ * (B * D))) = 1 := by
        rw [← Matrix.mul_assoc, ← Matrix.mul_assoc]; exact hPD
      have h3 : (Bᵀ * (Q⁻¹ * (B * D))) * ((κ / κ') • (1 : Mat n)) = 1 := by
        rw [Matrix.mul_smul, Matrix.mul_one]; exact h2
      have h4 : (κ / κ') • (Q⁻¹ * (B * D) * Bᵀ) = 1 := by
        have h5 : Bᵀ * ((κ / κ') • (Q⁻¹ * (B * D))) = 1 := by rw [Matrix.mul_smul]; exact h2
        have h6 := mul_eq_one_comm.mp h5
        rwa [Matrix.smul_mul] at h6
      have h7 := congrArg (Q * ·) h4
      simp only [Matrix.mul_smul, Matrix.mul_one] at h7
      rw [Matrix.mul_assoc Q⁻¹, ← Matrix.mul_assoc Q, Matrix.mul_nonsing_inv _ huQ, Matrix.one_mul] at h7
      exact h7
    rw [← h1, smul_smul]
    congr 1
    field_simp
  · rw [haa, ham, mulVec_smul, smul_smul, hMg, smul_smul, sub_eq_add_neg, ← neg_smul]
    congr 2
    rw [hτ]
    have hω2 : ω = Real.sqrt ω * Real.sqrt ω := (Real.mul_self_sqrt hω.le).symm
    have : p.rho / ω * Real.sqrt ω = p.rho / Real.sqrt ω := by
      conv_lhs => rw [hω2]
      rw [Real.sqrt_mul_self hw0.le]
      field_simp
    rw [this]
    field_simp

end Ellalgo
