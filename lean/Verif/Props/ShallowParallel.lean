import Verif.Props.EllState

/-! # C03: exactly when `update_bias_cut` loses a point with a pair of offsets -/

namespace Ellalgo

open Matrix Spec EllCalcCore

variable {n : ℕ}

/-- The denominator of the parallel formula is positive whenever the code reaches it, whatever the sign of `τ² + nβ0β1`. -/
theorem parDen_pos_all {N β0 β1 tsq : ℝ} (hN : 2 ≤ N) (hη : tsq + N * (β0 * β1) < 0) (hb : β1 * β1 < tsq) : 0 < parDen N β0 β1 tsq := by
  have h0 := parXi_nonneg N β0 β1 tsq
  have hx := parXi_sq hN β0 β1 tsq
  unfold parDen
  set ξ := parXi N β0 β1 tsq
  set h := tsq + β0 * β1 + N / 2 * (β0 + β1) ^ 2 with hh
  have key : ξ ^ 2 - h ^ 2 = -(tsq + N * (β0 * β1)) * ((N + 1) * (β0 + β1) ^ 2) := by rw [hx, hh]; ring
  have hge : 0 ≤ -(tsq + N * (β0 * β1)) * ((N + 1) * (β0 + β1) ^ 2) := by
    apply mul_nonneg (by linarith)
    have : 0 ≤ N + 1 := by linarith
    positivity
  have habs : |h| ≤ ξ := abs_le_of_sq_le_sq (by linarith) h0
  have h1 := neg_abs_le h
  by_contra hc
  have h2 : ξ = -h := by linarith
  have h3 : -(tsq + N * (β0 * β1)) * ((N + 1) * (β0 + β1) ^ 2) = 0 := by rw [← key, h2]; ring
  have h4 : β0 + β1 = 0 := by
    rcases mul_eq_zero.mp h3 with h | h
    · linarith
    · rcases mul_eq_zero.mp h with h | h
      · linarith
      · exact pow_eq_zero_iff (by norm_num) |>.mp h
  have h5 : β0 = -β1 := by linarith
  have h6 : h = tsq - β1 * β1 := by rw [hh, h5]; ring
  linarith

/-- A direction that the cut does not see. -/
theorem exists_conj (hn : 2 ≤ n) (w : Vec n) : ∃ v : Vec n, v ≠ 0 ∧ v ⬝ᵥ w = 0 := by
  let i0 : Fin n := ⟨0, by omega⟩
  let i1 : Fin n := ⟨1, by omega⟩
  have hne : i0 ≠ i1 := by simp [i0, i1]
  by_cases h0 : w i0 = 0
  · refine ⟨Pi.single i0 1, fun h => ?_, by simp [h0]⟩
    have := congrFun h i0
    simp at this
  · refine ⟨Pi.single i0 (w i1) - Pi.single i1 (w i0), fun h => ?_, ?_⟩
    · have := congrFun h i1
      simp [hne.symm] at this
      exact h0 this
    · rw [sub_dotProduct, single_dotProduct, single_dotProduct]; ring

/-- **C03.** With `use_parallel_cut` on, a successful `update_bias_cut` with a pair `(β0, β1)` keeps every point between the two hyperplanes exactly if `0 ≤ τ² + nβ0β1`. -/
theorem C03_keeps_iff (e : Ell n) (he : e.WF) (hu : e.helper.useParallelCut = true) (g : Vec n) (β0 β1 : ℝ) (e' : Ell n)
    (h : e.updateBiasCut (g, .pair β0 β1) = (e', .ok .success)) :
    e.region ∩ slab g β0 β1 e.xc ⊆ e'.hull ↔ 0 ≤ e'.tsq + n * (β0 * β1) := by
  obtain ⟨hn, hh⟩ := he.built.helper_eq
  have hn2 : (2 : ℝ) ≤ n := by exact_mod_cast hn
  obtain ⟨hg, ht, hr | hr⟩ := Ell.updateCore_inv he h
  swap
  · obtain ⟨hp, -⟩ := hr
    exact absurd (EllCalc.calcSingleOrParallel_none hp).1 (by simp)
  obtain ⟨p, hp, rfl⟩ := hr
  change _ ↔ 0 ≤ e.kappa * e.omega g + n * (β0 * β1)
  constructor
  swap
  · intro hη
    exact C03_bias_cut_keeps_solutions_partial e he (g, .pair β0 β1) _ hη h
  intro hsub
  by_contra hη
  rw [not_le] at hη
  simp only at hp ht hg
  set tsq := e.kappa * e.omega g with htsq
  have hω := he.omega_pos hg
  -- the branch taken
  have hb01 : β0 * β1 < 0 := by
    by_contra hc
    have : 0 ≤ (n : ℝ) * (β0 * β1) := mul_nonneg (by linarith) (not_lt.mp hc)
    linarith
  rw [hh, hu] at hp
  simp [EllCalc.calcSingleOrParallel, EllCalc.firstOffset, EllCalc.std] at hp
  change (EllCalc.std n true).calcParallel β0 β1 tsq = _ at hp
  have hle : ¬ β1 < β0 := fun hc => by
    unfold EllCalc.calcParallel at hp; rw [if_pos hc] at hp; cases hp
  have hβ0 : β0 < 0 := by
    by_contra hc
    nlinarith [not_lt.mp hc, not_lt.mp hle]
  have hβ1 : 0 < β1 := by
    by_contra hc
    nlinarith [not_lt.mp hc]
  have hb1 : ¬ (β1 > 0 ∧ tsq ≤ β1 * β1) := fun hc => by
    unfold EllCalc.calcParallel at hp
    rw [if_neg hle] at hp
    simp only at hp
    rw [if_pos hc, EllCalc.calcBiasCut_neg hβ0] at hp
    cases hp
  have hlt : β1 * β1 < tsq := by
    by_contra hc
    exact hb1 ⟨hβ1, not_lt.mp hc⟩
  have hK := parDen_pos_all hn2 hη hlt
  have hpp : p = parParams n β0 β1 tsq := by
    unfold EllCalc.calcParallel at hp
    rw [if_neg hle] at hp
    simp only at hp
    rw [if_neg hb1] at hp
    simp only [EllCalc.std] at hp
    rw [calcParallelBiasCut_std hn2 ht.ne' hK.ne'] at hp
    cases hp
    rfl
  have hσ : p.sigma < 0 := by
    rw [hpp]
    exact div_neg_of_neg_of_pos (by linarith) hK
  have hds := par_deltasigma hn2 ht hK.ne'
  rw [← hpp] at hds
  -- a boundary point in the plane through the centre
  obtain ⟨v, hv, hvg⟩ := exists_conj hn (e.mq *ᵥ g)
  have hM := he.posDef
  have hq := PosDef.quad_pos hM hv
  have hsym := IsHermitian.dot_comm hM.isHermitian
  set q := v ⬝ᵥ (e.mq *ᵥ v) with hqdef
  set c := Real.sqrt (e.kappa / q) with hc
  have hcq : c ^ 2 * q = e.kappa := by
    rw [hc, Real.sq_sqrt (div_pos he.kappa_pos hq).le, div_mul_cancel₀ _ hq.ne']
  have hgv : g ⬝ᵥ (e.mq *ᵥ v) = 0 := by rw [hsym]; exact hvg
  set x : Vec n := e.xc + c • (e.mq *ᵥ v) with hx
  have hxm : x - e.xc = c • (e.mq *ᵥ v) := by rw [hx, add_sub_cancel_left]
  have hxr : x ∈ e.region := by
    change (x - e.xc) ⬝ᵥ (e.mq⁻¹ *ᵥ (x - e.xc)) ≤ e.kappa
    rw [hxm, mulVec_smul, inv_mulVec_self hM, smul_dotProduct, dotProduct_smul, dotProduct_comm, ← hcq, ← hqdef]
    simp only [smul_eq_mul]
    exact le_of_eq (by ring)
  have hxs : x ∈ slab g β0 β1 e.xc := by
    refine ⟨?_, ?_⟩ <;> rw [hxm, dotProduct_smul, hgv, smul_zero, zero_add]
    · exact hβ0.le
    · exact hβ1.le
  have hx' := hsub ⟨hxr, hxs⟩
  rw [Ell.applied_hull] at hx'
  set s := p.rho / ((1 - p.sigma) * e.omega g) with hs
  have hω1 : 0 < (1 - p.sigma) * e.omega g := mul_pos (by linarith) hω
  have h1 := hx' (c • v + s • g)
  have e0 : x - (e.xc - (p.rho / e.omega g) • (e.mq *ᵥ g)) = c • (e.mq *ᵥ v) + (p.rho / e.omega g) • (e.mq *ᵥ g) := by
    rw [hx]; abel
  have eω : g ⬝ᵥ (e.mq *ᵥ g) = e.omega g := rfl
  have e1 : (c • v + s • g) ⬝ᵥ (x - (e.xc - (p.rho / e.omega g) • (e.mq *ᵥ g))) = e.kappa + s * p.rho := by
    rw [e0, add_dotProduct, dotProduct_add, dotProduct_add]
    simp only [smul_dotProduct, dotProduct_smul, smul_eq_mul, hvg, hgv, eω, ← hqdef]
    rw [← hcq]
    field_simp
    ring
  have e2 : (c • v + s • g) ⬝ᵥ ((e.mq - (p.sigma / e.omega g) • vecMulVec (e.mq *ᵥ g) (e.mq *ᵥ g)) *ᵥ (c • v + s • g)) = e.kappa + s * p.rho := by
    have := quad_update hM.isHermitian g (c • v + s • g) (p.sigma / e.omega g)
    rw [this]
    have a1 : (c • v + s • g) ⬝ᵥ (e.mq *ᵥ (c • v + s • g)) = e.kappa + s ^ 2 * e.omega g := by
      rw [mulVec_add, add_dotProduct, dotProduct_add, dotProduct_add, mulVec_smul, mulVec_smul]
      simp only [smul_dotProduct, dotProduct_smul, smul_eq_mul, hvg, hgv, eω, ← hqdef]
      rw [← hcq]; ring
    have a2 : g ⬝ᵥ (e.mq *ᵥ (c • v + s • g)) = s * e.omega g := by
      rw [mulVec_add, dotProduct_add, mulVec_smul, mulVec_smul]
      simp only [dotProduct_smul, smul_eq_mul, hgv, eω]; ring
    have h1σ : 1 - p.sigma ≠ 0 := by linarith
    rw [a1, a2, hs]
    field_simp
    ring
  rw [e1, e2] at h1
  have hsr : 0 ≤ s * p.rho := by
    rw [hs, div_mul_eq_mul_div]
    exact div_nonneg (mul_self_nonneg _) hω1.le
  have hQ : 0 < e.kappa + s * p.rho := by linarith [he.kappa_pos]
  have h2 : e.kappa + s * p.rho ≤ e.kappa * p.delta := by
    rw [sq] at h1
    exact le_of_mul_le_mul_right h1 hQ
  have h3 : (e.kappa + s * p.rho) * ((1 - p.sigma) * e.omega g) ≤ e.kappa * p.delta * ((1 - p.sigma) * e.omega g) :=
    mul_le_mul_of_nonneg_right h2 hω1.le
  have h4 : s * p.rho * ((1 - p.sigma) * e.omega g) = p.rho ^ 2 := by
    have h1σ : 1 - p.sigma ≠ 0 := by linarith
    rw [hs]; field_simp
  have h5 : 0 < p.sigma * (β0 * β1) := mul_pos_of_neg_of_neg hσ hb01
  rw [htsq] at hds
  nlinarith

/-- Both sides of `C03_keeps_iff` occur: the unit disc with `(-3/4, 3/4)` loses a point, with `(-1/2, 3/4)` it does not. -/
example : (∀ e', unitDisc.updateBiasCut (![1, 0], .pair (-3 / 4) (3 / 4)) = (e', .ok .success) → ¬ unitDisc.region ∩ slab ![1, 0] (-3 / 4) (3 / 4) unitDisc.xc ⊆ e'.hull) ∧
    ∀ e', unitDisc.updateBiasCut (![1, 0], .pair (-1 / 2) (3 / 4)) = (e', .ok .success) → unitDisc.region ∩ slab ![1, 0] (-1 / 2) (3 / 4) unitDisc.xc ⊆ e'.hull := by
  have key : ∀ β e', unitDisc.updateBiasCut (![1, 0], β) = (e', .ok .success) → e'.tsq = 1 := fun β e' h => by
    obtain ⟨-, -, ⟨p, -, rfl⟩ | ⟨-, rfl⟩⟩ := Ell.updateCore_inv unitDisc_WF h
    · exact unitDisc_tsq
    · exact unitDisc_tsq
  constructor
  · intro e' h hc
    have := (C03_keeps_iff unitDisc unitDisc_WF rfl _ _ _ e' h).mp hc
    rw [key _ _ h] at this
    norm_num at this
  · intro e' h
    refine (C03_keeps_iff unitDisc unitDisc_WF rfl _ _ _ e' h).mpr ?_
    rw [key _ _ h]
    norm_num

end Ellalgo
