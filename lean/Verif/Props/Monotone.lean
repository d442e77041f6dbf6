import Verif.Props.LebesgueVolume

/-! # C79: a cut that keeps less never leaves more volume -/

namespace Ellalgo

open Matrix Spec MeasureTheory

variable {n : ℕ}

/-- What the three methods promise together (C01-C05), for every status but `NoSoln`. -/
theorem kept_in_hull {e : Ell n} (he : e.WF) {m : Method} {cut : Cut n}
    (hm : m = .bias → cut.2.FirstNonneg) {e' : Ell n} {st : CutStatus} (hst : st ≠ .noSoln)
    (h : e.update m cut = (e', .ok st)) : e.region ∩ keptBy m cut e.xc ⊆ e'.hull := by
  obtain ⟨hn, hh⟩ := he.built.helper_eq
  match m, hm, h with
  | .bias, hm, h =>
    obtain ⟨hg, ht, ⟨p, hp, rfl⟩ | hr⟩ := Ell.updateCore_inv he h
    · rw [hh] at hp
      intro x hx
      have hη : EllCalc.EtaOK n cut.2 (e.kappa * e.omega cut.1) :=
        EllCalc.etaOK_of_firstNonneg (hm rfl) ht.le ⟨_, Ell.sq_le_tsq he hx.1 cut.1, hx.2⟩
      exact Ell.applied_contains he hg (EllCalc.calcSingleOrParallel_sound hn ht hη hp).2 hx.1 hx.2
    · exact absurd (EllCalc.calcSingleOrParallel_none hr.1).1 hst
  | .central, _, h =>
    obtain ⟨hg, ht, ⟨p, hp, rfl⟩ | hr⟩ := Ell.updateCore_inv he h
    · rw [hh] at hp
      exact fun x hx => Ell.applied_contains he hg (EllCalc.calcCentral_sound hn ht hp).2 hx.1 hx.2
    · exact absurd (EllCalc.calcCentral_none hr.1).1 hst
  | .q, _, h =>
    obtain ⟨hg, ht, ⟨p, hp, rfl⟩ | ⟨hr, rfl⟩⟩ := Ell.updateCore_inv he h
    · rw [hh] at hp
      exact fun x hx => Ell.applied_contains he hg (EllCalc.calcSingleOrParallelQ_sound hn ht hp).2 hx.1 hx.2
    · intro x hx
      have := hx.1
      rw [he.region_eq_hull] at this
      exact this

/-- **C79.** Two calls on the same object, by any methods, with any gradients and offsets. If everything the second cut keeps of the ellipsoid is also kept by the first, then the second call leaves an
ellipsoid of at most the volume the first one leaves. -/
theorem C79_more_information (e : Ell n) (he : e.WF) (hpar : e.helper.useParallelCut = true) (m₁ m₂ : Method) (cut₁ cut₂ : Cut n)
    (hm₁ : m₁ = .bias → cut₁.2.FirstNonneg) (hm₂ : m₂.Meant (Real.sqrt (e.kappa * (cut₂.1 ⬝ᵥ (e.mq *ᵥ cut₂.1)))) cut₂.2)
    (e₁ e₂ : Ell n) (st₁ st₂ : CutStatus) (hs₁ : st₁ ≠ .noSoln) (hs₂ : st₂ ≠ .noSoln)
    (h₁ : e.update m₁ cut₁ = (e₁, .ok st₁)) (h₂ : e.update m₂ cut₂ = (e₂, .ok st₂)) (w₁ : e₁.WF) (w₂ : e₂.WF)
    (hsub : e.region ∩ keptBy m₂ cut₂ e.xc ⊆ keptBy m₁ cut₁ e.xc) : volume e₂.region ≤ volume e₁.region :=
  (C72_minimum_volume e he hpar m₂ cut₂ hm₂ e₂ w₂ st₂ hs₂ h₂ e₁.mq w₁.posDef e₁.kappa w₁.kappa_pos e₁.xc (by
    intro x hx
    have := kept_in_hull he hm₁ hs₁ h₁ ⟨hx.1, hsub hx⟩
    rw [← w₁.region_eq_hull] at this
    exact this)).1

/-- **C79, deeper cuts.** -/
theorem C79_deeper_cut (e : Ell n) (he : e.WF) (hpar : e.helper.useParallelCut = true) (g : Vec n) (β₁ β₂ : ℝ) (h0 : 0 ≤ β₁) (hβ : β₁ ≤ β₂)
    (e₁ e₂ : Ell n) (h₁ : e.updateBiasCut (g, .scalar β₁) = (e₁, .ok .success))
    (h₂ : e.updateBiasCut (g, .scalar β₂) = (e₂, .ok .success)) (w₁ : e₁.WF) (w₂ : e₂.WF) : volume e₂.region ≤ volume e₁.region :=
  C79_more_information e he hpar .bias .bias (g, .scalar β₁) (g, .scalar β₂) (fun _ => h0) (h0.trans hβ : (0 : ℝ) ≤ β₂) e₁ e₂ _ _ (by simp) (by simp) h₁ h₂ w₁ w₂
    fun x hx => by
      have h := hx.2
      show g ⬝ᵥ (x - e.xc) + β₁ ≤ 0
      have h' : g ⬝ᵥ (x - e.xc) + β₂ ≤ 0 := h
      linarith

/-- **C79, parallel cuts.** The pair `(β0, β1)` leaves at most the volume of the single cut `β0`, and a smaller second offset leaves at most the volume of a larger one. -/
theorem C79_parallel_cut (e : Ell n) (he : e.WF) (hpar : e.helper.useParallelCut = true) (g : Vec n) (β₀ β₁ β₂ : ℝ) (h0 : 0 ≤ β₀) (hβ : β₁ ≤ β₂)
    (e₀ e₁ e₂ : Ell n) (h₀ : e.updateBiasCut (g, .scalar β₀) = (e₀, .ok .success))
    (h₁ : e.updateBiasCut (g, .pair β₀ β₁) = (e₁, .ok .success)) (h₂ : e.updateBiasCut (g, .pair β₀ β₂) = (e₂, .ok .success))
    (w₀ : e₀.WF) (w₁ : e₁.WF) (w₂ : e₂.WF) : volume e₁.region ≤ volume e₂.region ∧ volume e₂.region ≤ volume e₀.region := by
  have hf : ∀ β, (CutChoice.pair β₀ β).FirstNonneg := fun β b hb => by
    simp at hb; rw [← hb]; exact h0
  constructor
  · refine C79_more_information e he hpar .bias .bias (g, .pair β₀ β₂) (g, .pair β₀ β₁) (fun _ => hf _) (hf _) e₂ e₁ _ _ (by simp) (by simp) h₂ h₁ w₂ w₁ fun x hx => ?_
    have h' : g ⬝ᵥ (x - e.xc) + β₀ ≤ 0 ∧ 0 ≤ g ⬝ᵥ (x - e.xc) + β₁ := hx.2
    show g ⬝ᵥ (x - e.xc) + β₀ ≤ 0 ∧ 0 ≤ g ⬝ᵥ (x - e.xc) + β₂
    exact ⟨h'.1, by linarith [h'.2]⟩
  · refine C79_more_information e he hpar .bias .bias (g, .scalar β₀) (g, .pair β₀ β₂) (fun _ => h0) (hf _) e₀ e₂ _ _ (by simp) (by simp) h₀ h₂ w₀ w₂ fun x hx => ?_
    have h' : g ⬝ᵥ (x - e.xc) + β₀ ≤ 0 ∧ 0 ≤ g ⬝ᵥ (x - e.xc) + β₂ := hx.2
    exact h'.1

/-- **C79, deep against central.** A deep cut leaves at most the volume the central cut with the same gradient leaves. -/
theorem C79_deep_vs_central (e : Ell n) (he : e.WF) (hpar : e.helper.useParallelCut = true) (g : Vec n) (β : ℝ) (h0 : 0 ≤ β)
    (e₁ e₂ : Ell n) (h₁ : e.updateCentralCut (g, .scalar β) = (e₁, .ok .success))
    (h₂ : e.updateBiasCut (g, .scalar β) = (e₂, .ok .success)) (w₁ : e₁.WF) (w₂ : e₂.WF) : volume e₂.region ≤ volume e₁.region :=
  C79_more_information e he hpar .central .bias (g, .scalar β) (g, .scalar β) (by simp) h0 e₁ e₂ _ _ (by simp) (by simp) h₁ h₂ w₁ w₂
    fun x hx => by
      have h' : g ⬝ᵥ (x - e.xc) + β ≤ 0 := hx.2
      show g ⬝ᵥ (x - e.xc) ≤ 0
      linarith

/-- The unit disc cut at `1/4` (alone), by the pair `(1/4, 3/4)` and by the pair `(1/4, 1/2)`. -/
example : unitDisc.helper.useParallelCut = true ∧
    (∃ e₀, unitDisc.updateBiasCut (![1, 0], .scalar (1 / 4)) = (e₀, .ok .success) ∧ e₀.WF) ∧
    (∃ e₁, unitDisc.updateBiasCut (![1, 0], .pair (1 / 4) (1 / 2)) = (e₁, .ok .success) ∧ e₁.WF) ∧
    (∃ e₂, unitDisc.updateBiasCut (![1, 0], .pair (1 / 4) (3 / 4)) = (e₂, .ok .success) ∧ e₂.WF) ∧
    ∃ e₃, unitDisc.updateCentralCut (![1, 0], .scalar (1 / 4)) = (e₃, .ok .success) ∧ e₃.WF := by
  have ok : ∀ (b : ℝ), 1 / 4 < b → b < 1 → ∃ e', unitDisc.updateBiasCut (![1, 0], .pair (1 / 4) b) = (e', .ok .success) ∧ e'.WF := by
    intro b h1 h2
    have h : unitDisc.updateBiasCut (![1, 0], .pair (1 / 4) b) = (_, .ok .success) :=
      Ell.updateCore_some e1_ne_zero unitDisc_omega_ne (by
        rw [unitDisc_tsq]
        exact EllCalc.calcParallel_success (u := true) le_rfl h1.le (by rintro ⟨_, h⟩; nlinarith) one_pos (by positivity))
    have := update_WF unitDisc_WF .bias (![1, 0], .pair (1 / 4) b) fun _ => by
      unfold KeepsWidth
      rw [unitDisc_tsq]
      refine ⟨⟨-b, -1 / 4, by linarith, by nlinarith, by norm_num, ⟨?_, ?_⟩, ⟨?_, ?_⟩⟩, ?_⟩
      any_goals linarith
      show (0 : ℝ) ≤ 1 + (2 : ℕ) * (1 / 4 * b)
      positivity
    rw [show unitDisc.update .bias = unitDisc.updateBiasCut from rfl, h] at this
    exact ⟨_, h, this⟩
  refine ⟨rfl, ?_, ok _ (by norm_num) (by norm_num), ok _ (by norm_num) (by norm_num), ?_⟩
  · have h : unitDisc.updateBiasCut (![1, 0], .scalar (1 / 4)) = (_, .ok .success) :=
      Ell.updateCore_some e1_ne_zero unitDisc_omega_ne (by
        rw [unitDisc_tsq]
        exact EllCalc.calcBiasCut_success (u := true) (by norm_num) one_pos (by norm_num))
    have := update_WF unitDisc_WF .bias (![1, 0], .scalar (1 / 4)) fun _ => by
      unfold KeepsWidth
      rw [unitDisc_tsq]
      refine ⟨⟨-1, -1 / 4, by norm_num, by norm_num, by norm_num, ?_, ?_⟩, trivial⟩ <;>
      · show (_ : ℝ) + 1 / 4 ≤ 0
        norm_num
    rw [show unitDisc.update .bias = unitDisc.updateBiasCut from rfl, h] at this
    exact ⟨_, h, this⟩
  · have h : unitDisc.updateCentralCut (![1, 0], .scalar (1 / 4)) = (_, .ok .success) :=
      Ell.updateCore_some e1_ne_zero unitDisc_omega_ne (by
        rw [unitDisc_tsq]
        show (do
          let tau ← psqrt 1
          Except.ok (CutStatus.success, some (unitDisc.helper.helper.calcCentralCut tau)) : StrategyResult) = _
        rw [psqrt_ok zero_le_one]; rfl)
    have := update_WF unitDisc_WF .central (![1, 0], .scalar (1 / 4)) fun _ => by
      unfold KeepsWidth
      rw [unitDisc_tsq]
      refine ⟨⟨-1, -1 / 4, by norm_num, by norm_num, by norm_num, ?_, ?_⟩, trivial⟩ <;>
      · show (_ : ℝ) ≤ 0
        norm_num
    rw [show unitDisc.update .central = unitDisc.updateCentralCut from rfl, h] at this
    exact ⟨_, h, this⟩

end Ellalgo
