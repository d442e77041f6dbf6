import Verif.Lemmas.EllUpdate
import Verif.Spec.Oracle

/-!
# Degenerate ellipsoids

After a touching cut (`β = τ`) an `Ell` has collapsed to a point or a lower dimensional ellipsoid: `κ = 0` or a singular matrix. `Weak` covers these
states.
-/

namespace Ellalgo

open Matrix Spec EllCalcCore

variable {n : ℕ}

namespace EllCalc

variable {u : Bool}

theorem calcBiasCut_zero_tsq {β : ℝ} {st : CutStatus} {p : Params} :
    (std n u).calcBiasCut β 0 ≠ .ok (st, some p) := by
  unfold calcBiasCut
  split_ifs with h0
  · simp only
    split_ifs with h1
    · simp
    · rw [psqrt_ok le_rfl]
      simp [std, EllCalcCore.calcBiasCut, calcBiasCutFast, pdiv]
  · simp

theorem calcParallel_zero_tsq {β0 β1 : ℝ} {st : CutStatus} {p : Params} :
    (std n u).calcParallel β0 β1 0 ≠ .ok (st, some p) := by
  unfold calcParallel
  split_ifs with h0
  · simp
  · simp only
    split_ifs with h1
    · exact calcBiasCut_zero_tsq
    · intro h
      simp only [EllCalcCore.calcParallelBiasCut, calcParallelBiasCutFast] at h
      rcases hx : psqrt ((0 - β0 * β0) * (0 - β1 * β1) +
          ((std n u).helper.halfN * (β1 * β1 - β0 * β0)) ^ 2) with f | xi
      · rw [hx] at h; cases h
      rw [hx] at h
      simp only [except_ok_bind] at h
      generalize pdiv _ (0 + β0 * β1 + _ + xi) = y at h
      rcases y with f | y
      · cases h
      simp only [except_ok_bind] at h
      generalize pdiv xi _ = z at h
      rcases z with f | z
      · cases h
      simp [pdiv] at h

theorem calcSingleOrParallel_zero_tsq {cut : CutChoice} {st : CutStatus} {p : Params} :
    (std n u).calcSingleOrParallel cut 0 ≠ .ok (st, some p) := by
  intro h
  match cut with
  | .scalar β => exact calcBiasCut_zero_tsq h
  | .seq bs =>
    simp only [calcSingleOrParallel] at h
    split_ifs at h
    · rcases hx : firstOffset bs with f | b
      · rw [hx] at h; cases h
      · rw [hx] at h; exact calcBiasCut_zero_tsq h
    · split at h
      · rcases hx : firstOffset bs with f | b
        · rw [hx] at h; cases h
        · rw [hx] at h; exact calcParallel_zero_tsq h
      · cases h

theorem calcCentral_zero_tsq {cut : CutChoice} {st : CutStatus} {p : Params}
    (h : (std n u).calcSingleOrParallelCentralCut cut 0 = .ok (st, some p)) :
    st = .success ∧ p = (EllCalcCore.std n).calcCentralCut 0 := by
  have hc : ∀ (hh : (do
      let tau ← psqrt 0
      Except.ok (CutStatus.success, some ((std n u).helper.calcCentralCut tau)) : StrategyResult) =
        .ok (st, some p)), st = .success ∧ p = (EllCalcCore.std n).calcCentralCut 0 := by
    intro hh
    rw [psqrt_ok le_rfl] at hh
    cases hh
    exact ⟨rfl, by simp [std]⟩
  match cut with
  | .scalar β => exact hc h
  | .seq bs =>
    simp only [calcSingleOrParallelCentralCut] at h
    split_ifs at h
    · exact hc h
    · split at h
      · rename_i b1 hb
        split_ifs at h with h1 h2
        · cases h
        · exact hc h
        · exact (h2 (mul_self_nonneg b1)).elim
      · cases h

/-- With a nonnegative first offset the side condition of the parallel formula holds. -/
theorem etaOK_of_firstNonneg {cut : CutChoice} (h0 : cut.FirstNonneg) {tsq : ℝ} (ht : 0 ≤ tsq)
    (h1 : ∃ t, t ^ 2 ≤ tsq ∧ cut.keeps t) : EtaOK n cut tsq := by
  match cut, h0, h1 with
  | .scalar _, _, _ => trivial
  | .seq [], _, _ => trivial
  | .seq [none], _, _ => trivial
  | .seq [some _], _, _ => trivial
  | .seq (none :: _ :: _), _, _ => trivial
  | .seq (some _ :: none :: _), _, _ => trivial
  | .seq (some β0 :: some β1 :: l), h0, ⟨t, _, hk⟩ =>
    have hb0 : 0 ≤ β0 := h0 β0 rfl
    simp only [CutChoice.keeps] at hk
    have hb1 : 0 ≤ β1 := by linarith [hk.1, hk.2]
    simp only [EtaOK]; positivity

end EllCalc

namespace Ell

/-- A legitimate, possibly degenerate search space. -/
structure Weak (e : Ell n) : Prop where
  built : e.Built
  posSemidef : e.mq.PosSemidef
  kappa_nonneg : 0 ≤ e.kappa

theorem WF.weak {e : Ell n} (h : e.WF) : e.Weak := ⟨h.built, h.posDef.posSemidef, h.kappa_pos.le⟩

theorem Weak.omega_nonneg {e : Ell n} (he : e.Weak) (g : Vec n) : 0 ≤ e.omega g :=
  PosSemidef.quad_nonneg he.posSemidef g

/-- Inversion of a call that returns normally and is not the `omega == 0` shortcut. -/
theorem updateCore_inv_weak {e : Ell n} (he : e.Weak) {cut : Cut n} {s : Strategy} {e' : Ell n}
    {st : CutStatus} (h : e.updateCore cut s = (e', .ok st)) :
    cut.1 ≠ 0 ∧
    ((e.omega cut.1 = 0 ∧ st = .noEffect ∧ e' = e) ∨
     (0 < e.omega cut.1 ∧
      ((∃ p, s cut.2 (e.kappa * e.omega cut.1) = .ok (st, some p) ∧ e' = e.applied cut.1 p) ∨
        (s cut.2 (e.kappa * e.omega cut.1) = .ok (st, none) ∧
          e' = { e with tsq := e.kappa * e.omega cut.1 })))) := by
  obtain ⟨g, β⟩ := cut
  by_cases hg : g = 0
  · subst hg; rw [updateCore_zero] at h; cases h
  refine ⟨hg, ?_⟩
  by_cases hω : e.omega g = 0
  · left
    have hg' : ¬ ∀ i, g i = 0 := fun h => hg (funext h)
    have hω' : g ⬝ᵥ (e.mq *ᵥ g) = 0 := hω
    unfold updateCore at h
    simp only [if_neg hg', if_pos hω'] at h
    cases h
    exact ⟨hω, rfl, rfl⟩
  · right
    refine ⟨lt_of_le_of_ne (he.omega_nonneg g) (Ne.symm hω), ?_⟩
    rw [updateCore_eq hg hω] at h
    simp only
    revert h
    rcases s β (e.kappa * e.omega g) with f | ⟨st', _ | p⟩ <;> intro h
    · cases h
    · cases h; exact Or.inr ⟨rfl, rfl⟩
    · cases h; exact Or.inl ⟨p, rfl, rfl⟩

theorem applied_weak {e : Ell n} (he : e.Weak) {g : Vec n} (hω : 0 < e.omega g) {p : Params}
    (hσ : p.sigma ≤ 1) (hδ : 0 ≤ e.kappa * p.delta) : (e.applied g p).Weak := by
  have h1 := posSemidef_update he.posSemidef hω hσ
  refine ⟨he.built, ?_, ?_⟩
  · unfold applied
    cases e.noDeferTrick
    · exact h1
    · exact h1.smul hδ
  · unfold applied
    cases e.noDeferTrick
    · exact hδ
    · exact zero_le_one

/-- A successful update whose parameters are sound for a nonempty set of kept points. -/
theorem applied_step {e : Ell n} (he : e.Weak) (hκ : 0 < e.kappa) {g : Vec n} (hω : 0 < e.omega g)
    {keeps : ℝ → Prop} {p : Params} (hp : EllCalc.ParamsSound keeps (e.kappa * e.omega g) p) {x : Vec n}
    (hx : x ∈ e.hull) (hk : keeps (g ⬝ᵥ (x - e.xc))) :
    (e.applied g p).Weak ∧ x ∈ (e.applied g p).hull := by
  obtain ⟨b0, b1, hs, hb⟩ := hp
  have ht : (g ⬝ᵥ (x - e.xc)) ^ 2 ≤ e.kappa * e.omega g := hx g
  obtain ⟨h1, h2⟩ := hb _ ht hk
  have hδ : 0 ≤ p.delta := by
    have h3 := hs.side _ ht h1 h2
    have h4 : 0 < e.kappa * e.omega g := mul_pos hκ hω
    by_contra hc
    have : p.delta * (e.kappa * e.omega g) < 0 := mul_neg_of_neg_of_pos (not_le.mp hc) h4
    linarith
  refine ⟨applied_weak he hω hs.sigma_le (mul_nonneg hκ.le hδ), ?_⟩
  rw [applied_hull]
  exact slab_update_support he.posSemidef hκ hω hs hx ⟨by linarith, by linarith⟩

/-- One bias cut of a separating oracle: if it succeeds the set stays inside, and it cannot be `NoSoln` when the set is not empty. -/
theorem weak_bias {e : Ell n} (he : e.Weak) {F : Set (Vec n)} (hF : F ⊆ e.hull) (hne : F.Nonempty)
    {cut : Cut n} (h0 : cut.2.FirstNonneg) (hk : F ⊆ keptSet cut e.xc) {e' : Ell n} {st : CutStatus}
    (h : e.updateBiasCut cut = (e', .ok st)) :
    e'.Weak ∧ F ⊆ e'.hull ∧ (st = .success ∨ st = .noEffect) := by
  obtain ⟨hn, hh⟩ := he.built.helper_eq
  obtain ⟨hg, ⟨-, rfl, rfl⟩ | ⟨hω, ⟨p, hp, rfl⟩ | ⟨hp, -⟩⟩⟩ := updateCore_inv_weak he h
  · exact ⟨he, hF, .inr rfl⟩
  · rw [hh] at hp
    rcases he.kappa_nonneg.eq_or_lt with hκ | hκ
    · rw [← hκ, zero_mul] at hp
      exact (EllCalc.calcSingleOrParallel_zero_tsq hp).elim
    · have ht : 0 < e.kappa * e.omega cut.1 := mul_pos hκ hω
      obtain ⟨y, hy⟩ := hne
      have hη := EllCalc.etaOK_of_firstNonneg (n := n) h0 ht.le ⟨_, hF hy cut.1, hk hy⟩
      obtain ⟨hst, hs⟩ := EllCalc.calcSingleOrParallel_sound hn ht hη hp
      exact ⟨(applied_step he hκ hω hs (hF hy) (hk hy)).1,
        fun x hx => (applied_step he hκ hω hs (hF hx) (hk hx)).2, .inl hst⟩
  · obtain ⟨y, hy⟩ := hne
    exact ((EllCalc.calcSingleOrParallel_none hp).2 _ (hF hy cut.1) (hk hy)).elim

/-- The same for a central cut. -/
theorem weak_central {e : Ell n} (he : e.Weak) {F : Set (Vec n)} (hF : F ⊆ e.hull) (hne : F.Nonempty)
    {cut : Cut n} (hk : F ⊆ keptSetCentral cut e.xc) {e' : Ell n} {st : CutStatus}
    (h : e.updateCentralCut cut = (e', .ok st)) :
    e'.Weak ∧ F ⊆ e'.hull ∧ (st = .success ∨ st = .noEffect) := by
  obtain ⟨hn, hh⟩ := he.built.helper_eq
  obtain ⟨hg, ⟨-, rfl, rfl⟩ | ⟨hω, ⟨p, hp, rfl⟩ | ⟨hp, -⟩⟩⟩ := updateCore_inv_weak he h
  · exact ⟨he, hF, .inr rfl⟩
  · rw [hh] at hp
    rcases he.kappa_nonneg.eq_or_lt with hκ | hκ
    · rw [← hκ, zero_mul] at hp
      obtain ⟨hst, rfl⟩ := EllCalc.calcCentral_zero_tsq hp
      have hσ : ((EllCalcCore.std n).calcCentralCut 0).sigma ≤ 1 := by
        have hn2 : (2 : ℝ) ≤ n := by exact_mod_cast hn
        have h1 := (EllCalc.central_paramsSound (n := n) hn one_pos (keeps := fun t => t ≤ 0) (fun t h => h))
        obtain ⟨b0, b1, hs, -⟩ := h1
        exact hs.sigma_le
      refine ⟨applied_weak he hω hσ (by rw [← hκ, zero_mul]), fun x hx => ?_, .inl hst⟩
      rw [applied_hull]
      intro v
      have h1 := hF hx v
      rw [← hκ, zero_mul] at h1
      rw [← hκ, zero_mul, zero_mul]
      simpa [EllCalcCore.calcCentralCut] using h1
    · have ht : 0 < e.kappa * e.omega cut.1 := mul_pos hκ hω
      obtain ⟨y, hy⟩ := hne
      obtain ⟨hst, hs⟩ := EllCalc.calcCentral_sound hn ht hp
      exact ⟨(applied_step he hκ hω hs (hF hy) (hk hy)).1,
        fun x hx => (applied_step he hκ hω hs (hF hx) (hk hx)).2, .inl hst⟩
  · obtain ⟨y, hy⟩ := hne
    exact ((EllCalc.calcCentral_none hp).2 _ (hF hy cut.1) (hk hy)).elim

/-- Scalar deep cuts never leave a degenerate state worse: the object stays legitimate whether or not anything is kept. -/
theorem weak_scalar_bias {e : Ell n} (he : e.Weak) {g : Vec n} {b : ℝ} (hb : 0 ≤ b) {e' : Ell n} {st : CutStatus}
    (h : e.updateBiasCut (g, .scalar b) = (e', .ok st)) : e'.Weak := by
  obtain ⟨hn, hh⟩ := he.built.helper_eq
  obtain ⟨hg, ⟨-, rfl, rfl⟩ | ⟨hω, ⟨p, hp, rfl⟩ | ⟨hp, rfl⟩⟩⟩ := updateCore_inv_weak he h
  · exact he
  · rw [hh] at hp
    simp only at hω hp
    rcases he.kappa_nonneg.eq_or_lt with hκ | hκ
    · rw [← hκ, zero_mul] at hp
      exact (EllCalc.calcSingleOrParallel_zero_tsq hp).elim
    · have ht : 0 < e.kappa * e.omega g := mul_pos hκ hω
      have hp' : (EllCalc.std n e.helper.useParallelCut).calcBiasCut b (e.kappa * e.omega g) = .ok (st, some p) := hp
      rcases lt_or_ge (e.kappa * e.omega g) (b * b) with h1 | h1
      · rw [EllCalc.calcBiasCut_noSoln hb h1] at hp'; cases hp'
      rw [EllCalc.calcBiasCut_success hb ht h1] at hp'
      cases hp'
      have hn2 : (2 : ℝ) ≤ n := by exact_mod_cast hn
      obtain ⟨b0, b1, hs, -⟩ := EllCalc.bias_paramsSound hn ht (by positivity) (EllCalc.le_sqrt_of_sq h1) (keeps := fun t => t ≤ -b)
        (fun t h => h)
      refine applied_weak he hω hs.sigma_le (mul_nonneg hκ.le ?_)
      simp only [EllCalcCore.biasParams, Real.sq_sqrt ht.le]
      have h2 : b ^ 2 / (e.kappa * e.omega g) ≤ 1 := by rw [div_le_one ht]; nlinarith
      have h3 : (0 : ℝ) < (n : ℝ) ^ 2 - 1 := by nlinarith
      have h4 : 0 ≤ 1 - b ^ 2 / (e.kappa * e.omega g) := by linarith
      positivity
  · exact ⟨he.built, he.posSemidef, he.kappa_nonneg⟩

theorem weak_scalar_central {e : Ell n} (he : e.Weak) {g : Vec n} {b : ℝ} {e' : Ell n} {st : CutStatus}
    (h : e.updateCentralCut (g, .scalar b) = (e', .ok st)) : e'.Weak := by
  have hc : e.xc ∈ e.hull := fun v => by
    have := mul_nonneg he.kappa_nonneg (he.omega_nonneg v)
    rw [sub_self, dotProduct_zero, zero_pow two_ne_zero]
    exact this
  refine (weak_central he (F := {e.xc}) (by simpa using hc) (Set.singleton_nonempty _) ?_ h).1
  rintro x rfl
  simp [keptSetCentral, CutChoice.keepsCentral]

/-- A scalar deep cut with positive offset raises only if the gradient is zero, and then leaves the object as it is. -/
theorem scalar_bias_raises {e : Ell n} (he : e.Weak) {g : Vec n} {b : ℝ} (hb : 0 < b) {e' : Ell n} {f : Fault}
    (h : e.updateBiasCut (g, .scalar b) = (e', .error f)) : g = 0 ∧ f = .valueError ∧ e' = e := by
  by_cases hg : g = 0
  · subst hg
    unfold updateBiasCut at h
    rw [updateCore_zero] at h
    cases h; exact ⟨rfl, rfl, rfl⟩
  exfalso
  have hg' : ¬ ∀ i, g i = 0 := fun h => hg (funext h)
  obtain ⟨hn, hh⟩ := he.built.helper_eq
  by_cases hω : e.omega g = 0
  · have hω' : g ⬝ᵥ (e.mq *ᵥ g) = 0 := hω
    unfold updateBiasCut updateCore at h
    simp only [if_neg hg', if_pos hω'] at h
    cases h
  · unfold updateBiasCut at h
    rw [updateCore_eq hg hω, hh] at h
    have e1 : (EllCalc.std n e.helper.useParallelCut).calcSingleOrParallel (.scalar b) (e.kappa * e.omega g) =
      (EllCalc.std n e.helper.useParallelCut).calcBiasCut b (e.kappa * e.omega g) := rfl
    rw [e1] at h
    rcases lt_or_ge (e.kappa * e.omega g) (b * b) with h1 | h1
    · rw [EllCalc.calcBiasCut_noSoln hb.le h1] at h; cases h
    · rw [EllCalc.calcBiasCut_success hb.le (by nlinarith) h1] at h; cases h

/-- The same for central cuts. -/
theorem scalar_central_raises {e : Ell n} (he : e.Weak) {g : Vec n} {b : ℝ} {e' : Ell n} {f : Fault}
    (h : e.updateCentralCut (g, .scalar b) = (e', .error f)) : g = 0 ∧ f = .valueError ∧ e' = e := by
  by_cases hg : g = 0
  · subst hg
    unfold updateCentralCut at h
    rw [updateCore_zero] at h
    cases h; exact ⟨rfl, rfl, rfl⟩
  exfalso
  have hg' : ¬ ∀ i, g i = 0 := fun h => hg (funext h)
  by_cases hω : e.omega g = 0
  · have hω' : g ⬝ᵥ (e.mq *ᵥ g) = 0 := hω
    unfold updateCentralCut updateCore at h
    simp only [if_neg hg', if_pos hω'] at h
    cases h
  · unfold updateCentralCut at h
    rw [updateCore_eq hg hω] at h
    have e1 : e.helper.calcSingleOrParallelCentralCut (.scalar b) (e.kappa * e.omega g) =
      .ok (.success, some (e.helper.helper.calcCentralCut (Real.sqrt (e.kappa * e.omega g)))) := by
      show (psqrt (e.kappa * e.omega g) >>= fun tau => _) = _
      rw [psqrt_ok (mul_nonneg he.kappa_nonneg (he.omega_nonneg g))]
      rfl
    rw [e1] at h
    cases h

end Ell

end Ellalgo
