import Verif.Props.EllStable

/-! # C15: exactly when `no_defer_trick` can be observed on `EllStable` -/

namespace Ellalgo

open Matrix Spec EllStable Finset

variable {n : ℕ}

/-- Every array with a positive diagonal represents a matrix. -/
theorem exists_represents {S : ℕ → ℕ → ℝ} (hS : ∀ i : Fin n, 0 < S i i) : ∃ M : Mat n, Represents S M := by
  have h : ldlt n S * (Matrix.of fun i j : Fin n => qOf S (Pi.single j (1 : ℝ) : Vec n) i) = 1 := by
    ext i j
    rw [mul_apply]
    have := congrFun (ldlt_qOf hS (Pi.single j 1)) i
    simp only [mulVec, dotProduct] at this
    simp only [Matrix.of_apply]
    rw [this, one_apply, Pi.single_apply]
  exact ⟨_, hS, mul_eq_one_comm.mp h⟩

theorem ldlt_symm (S : ℕ → ℕ → ℝ) : (ldlt n S).IsSymm := by
  unfold ldlt
  rw [IsSymm, transpose_mul, transpose_mul, transpose_transpose, diagonal_transpose, Matrix.mul_assoc]

theorem Spec.Represents.symm {S : ℕ → ℕ → ℝ} {M : Mat n} (h : Represents S M) : M.IsSymm := by
  have h1 : ldlt n S * M = 1 := mul_eq_one_comm.mp h.inv
  have h2 : Mᵀ * ldlt n S = 1 := by
    have := congrArg transpose h1
    rwa [transpose_mul, transpose_one, (ldlt_symm S).eq] at this
  calc Mᵀ = Mᵀ * (ldlt n S * M) := by rw [h1, Matrix.mul_one]
    _ = M := by rw [← Matrix.mul_assoc, h2, Matrix.one_mul]

/-- Symmetric matrices with the same quadratic form are equal. -/
theorem eq_of_quad {M N : Mat n} (hM : M.IsSymm) (hN : N.IsSymm) (h : ∀ v : Vec n, v ⬝ᵥ (M *ᵥ v) = v ⬝ᵥ (N *ᵥ v)) : M = N := by
  have hb : ∀ (A : Mat n), A.IsSymm → ∀ v w : Vec n, (v + w) ⬝ᵥ (A *ᵥ (v + w)) = v ⬝ᵥ (A *ᵥ v) + w ⬝ᵥ (A *ᵥ w) + 2 * (v ⬝ᵥ (A *ᵥ w)) := by
    intro A hA v w
    have : w ⬝ᵥ (A *ᵥ v) = v ⬝ᵥ (A *ᵥ w) := by
      rw [dotProduct_mulVec, ← mulVec_transpose, hA.eq, dotProduct_comm]
    rw [mulVec_add, add_dotProduct, dotProduct_add, dotProduct_add, this]; ring
  ext i j
  have h1 := h (Pi.single i 1 + Pi.single j 1)
  rw [hb M hM, hb N hN, h, h] at h1
  have h2 : (Pi.single i 1 : Vec n) ⬝ᵥ (M *ᵥ Pi.single j 1) = (Pi.single i 1 : Vec n) ⬝ᵥ (N *ᵥ Pi.single j 1) := by linarith
  simpa using h2

/-- The factors of an `LDLᵀ` product with given diagonal are unique. -/
theorem lowN_unique {S T : ℕ → ℕ → ℝ} {d : ℕ → ℝ} (hd : ∀ c, c < n → d c ≠ 0)
    (h : ∀ i k, i < n → k < n → ∑ c ∈ range n, lowN S i c * d c * lowN S k c = ∑ c ∈ range n, lowN T i c * d c * lowN T k c) :
    ∀ k, k < n → ∀ i, i < n → lowN S i k = lowN T i k := by
  intro k
  induction k using Nat.strong_induction_on with
  | _ k ih =>
    intro hk i hi
    have key : ∀ U : ℕ → ℕ → ℝ, ∑ c ∈ range n, lowN U i c * d c * lowN U k c = ∑ c ∈ range k, lowN U i c * d c * lowN U k c + lowN U i k * d k := by
      intro U
      rw [← sum_subset (range_subset_range.mpr (show k + 1 ≤ n by omega)) fun c _ hc => ?_, sum_range_succ]
      · simp [lowN]
      · have : k < c := by simpa using hc
        have h0 : lowN U k c = 0 := by unfold lowN; rw [if_neg (by omega), if_neg (by omega)]
        rw [h0, mul_zero]
    have h1 := h i k hi hk
    rw [key, key] at h1
    have h2 : ∑ c ∈ range k, lowN S i c * d c * lowN S k c = ∑ c ∈ range k, lowN T i c * d c * lowN T k c :=
      sum_congr rfl fun c hc => by
        have hc : c < k := by simpa using hc
        rw [ih c hc (by omega) i hi, ih c hc (by omega) k hk]
    rw [h2] at h1
    exact mul_right_cancel₀ (hd k hk) (add_left_cancel h1)

/-- Scaling the whole array scales the represented matrix exactly if the factor is 1 or there are no off-diagonal entries. -/
theorem represents_smul_iff {S : ℕ → ℕ → ℝ} {M : Mat n} (h : Represents S M) {k : ℝ} (hk : 0 < k) :
    Represents (fun i j => k * S i j) (k • M) ↔ k = 1 ∨ DiagOnly n S := by
  constructor
  · intro h2
    by_cases hk1 : k = 1
    · exact Or.inl hk1
    refine Or.inr fun r c hcr hr => ?_
    have hM : ldlt n S * M = 1 := mul_eq_one_comm.mp h.inv
    have e : k • ldlt n (fun i j => k * S i j) = ldlt n S := by
      have h3 : M * (k • ldlt n (fun i j => k * S i j)) = 1 := by
        have := h2.inv
        rw [Matrix.smul_mul] at this
        rw [Matrix.mul_smul]; exact this
      calc _ = (ldlt n S * M) * (k • ldlt n (fun i j => k * S i j)) := by rw [hM, Matrix.one_mul]
        _ = ldlt n S := by rw [Matrix.mul_assoc, h3, Matrix.mul_one]
    have hu := lowN_unique (n := n) (S := fun i j => k * S i j) (T := S) (d := fun c => (S c c)⁻¹) (fun c hc => inv_ne_zero (h.pos ⟨c, hc⟩).ne') (fun i j hi hj => by
      have := congrFun (congrFun e ⟨i, hi⟩) ⟨j, hj⟩
      rw [Matrix.smul_apply, ldlt_apply, ldlt_apply, smul_eq_mul, mul_sum] at this
      rw [← this]
      refine sum_congr rfl fun c hc => ?_
      have hc : c < n := by simpa using hc
      have := (h.pos ⟨c, hc⟩).ne'
      simp only at this ⊢
      field_simp) c (by omega) r hr
    unfold lowN at hu
    simp only [if_neg (show r ≠ c by omega), if_pos hcr] at hu
    have : (k - 1) * S r c = 0 := by linarith
    rcases mul_eq_zero.mp this with h | h
    · exact absurd (by linarith) hk1
    · exact h
  · rintro (rfl | hd)
    · simpa using h
    · exact (h.smul hd hk).1

/-- **C15.** Exactly when `no_defer_trick` can be observed after an update: the objects obtained with and without the flag answer every later central cut with the same `tsq` if and only if the flag did not rescale (`_kappa` is the same) or
the factor `L` has no entries off the diagonal. -/
theorem C15_observable_iff {s : EllStable n} {e : Ell n} (h : Refines s e) (he : e.WF) (hd : e.noDeferTrick = false) (m : Method) (cut : Cut n) (hg : cut.1 ≠ 0)
    (hWF : (e.update m cut).1.WF) :
    (∀ c : Cut n, (({ s with noDeferTrick := true }.update m cut).1.updateCentralCut c).1.tsq = ((s.update m cut).1.updateCentralCut c).1.tsq) ↔
      ({ s with noDeferTrick := true }.update m cut).1.kappa = (s.update m cut).1.kappa ∨ DiagOnly n (s.update m cut).1.mq := by
  obtain ⟨-, hr⟩ := update_refines h he hd m cut hg hWF
  have hs : s = { s with noDeferTrick := false } := by
    have := h.noDefer.trans hd
    cases s; simp only at this; subst this; rfl
  have hn := EllStable.updateCore_noDefer s cut (s.helper.strategy m)
  have e1 : s.update m cut = { s with noDeferTrick := false }.updateCore cut (s.helper.strategy m) := by
    rw [EllStable.update_eq]; rw [← hs]
  rw [EllStable.update_eq { s with noDeferTrick := true }]
  change (∀ c : Cut n, (({ s with noDeferTrick := true }.updateCore cut (s.helper.strategy m)).1.updateCentralCut c).1.tsq = _) ↔ ({ s with noDeferTrick := true }.updateCore cut (s.helper.strategy m)).1.kappa = _ ∨ _
  rw [← e1] at hn
  rcases hn.2 with ht | ht
  · rw [ht]
    refine ⟨fun _ => Or.inl rfl, fun _ c => ?_⟩
    unfold EllStable.updateCentralCut
    rw [EllStable.updateCore_tsq, EllStable.updateCore_tsq]
  · rw [ht]
    have hk : 0 < (s.update m cut).1.kappa := by rw [hr.kappa]; exact hWF.kappa_pos
    have hrep := hr.rep
    generalize (s.update m cut).1 = s' at hrep hk
    generalize (e.update m cut).1.mq = M at hrep
    have hcond : ((1 : ℝ) = s'.kappa ∨ DiagOnly n s'.mq) ↔ (s'.kappa = 1 ∨ DiagOnly n s'.mq) := by rw [eq_comm]
    change _ ↔ ((1 : ℝ) = s'.kappa ∨ DiagOnly n s'.mq)
    rw [hcond, ← represents_smul_iff hrep hk]
    obtain ⟨N, hN⟩ := exists_represents (n := n) (S := fun i j => s'.kappa * s'.mq i j) fun i => mul_pos hk (hrep.pos i)
    have ts : ∀ c : Cut n, (s'.updateCentralCut c).1.tsq = c.1 ⬝ᵥ ((s'.kappa • M) *ᵥ c.1) := fun c => by
      unfold EllStable.updateCentralCut
      rw [EllStable.updateCore_tsq, ← omega_eq hrep, smul_mulVec, dotProduct_smul, smul_eq_mul]
    have tt : ∀ c : Cut n, (EllStable.updateCentralCut { s' with mq := fun i j => s'.kappa * s'.mq i j, kappa := 1, noDeferTrick := true } c).1.tsq = c.1 ⬝ᵥ (N *ᵥ c.1) := fun c => by
      unfold EllStable.updateCentralCut
      rw [EllStable.updateCore_tsq, ← omega_eq hN, one_mul]
    constructor
    · intro hall
      have hNM : N = s'.kappa • M := eq_of_quad hN.symm (by
        have := hrep.symm
        rw [IsSymm, transpose_smul, this.eq]) fun v => by
          have := hall (v, .scalar 0)
          rwa [ts, tt] at this
      rw [← hNM]
      exact hN
    · intro h2 c
      rw [ts, tt]
      have : N = s'.kappa • M := eq_of_quad hN.symm h2.symm fun v => by rw [omega_eq hN, omega_eq h2]
      rw [this]

/-- The criterion at work: after the first cut of `C15_refuted` the flag can be observed. -/
example : ¬ ∀ c : Cut 2, (((stable0 true).updateCentralCut (![1, 1], .scalar 0)).1.updateCentralCut c).1.tsq = (((stable0 false).updateCentralCut (![1, 1], .scalar 0)).1.updateCentralCut c).1.tsq := by
  intro h
  have h2 := h (![1, 0], .scalar 0)
  rw [tsq_axis, tsq_axis] at h2
  obtain ⟨S, a0, a1, a2, a3, a4⟩ := stable0_first true
  obtain ⟨T, b0, b1, b2, b3, b4⟩ := stable0_first false
  rw [a3, a4, b3, b4] at h2
  simp only [if_true, Bool.false_eq_true, if_false, a0, a1, a2, b0, b1, b2] at h2
  norm_num at h2

end Ellalgo
