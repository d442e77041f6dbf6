import Verif.Lemmas.EllUpdate
import Mathlib.Tactic.NormNum
import Mathlib.Tactic.FinCases
import Mathlib.Algebra.BigOperators.Fin

/-!
# C01 - C06: no cut loses a solution, and `NoSoln` is sound

`Ell.region` is the textbook ellipsoid `(x-xc)ᵀ M⁻¹ (x-xc) ≤ κ`; `Ell.hull` is the same set in
support form, which is also meaningful after a touching cut (`β = τ`), when the ellipsoid collapses.
-/

namespace Ellalgo

open Matrix Spec

variable {n : ℕ}

/-- A concrete object for the examples: the unit disc at the origin. -/
noncomputable def unitDisc : Ell 2 :=
  { mq := 1, xc := 0, kappa := 1, tsq := 0, helper := EllCalc.std 2 true, noDeferTrick := false }

theorem unitDisc_WF : unitDisc.WF :=
  ⟨⟨EllCalc.std 2 true, EllCalc.init_two_le le_rfl, rfl⟩, Matrix.PosDef.one, one_pos⟩

theorem unitDisc_omega : unitDisc.omega ![1, 0] = 1 := by
  simp [Ell.omega, unitDisc]

theorem unitDisc_omega_ne : unitDisc.omega ![1, 0] ≠ 0 := by rw [unitDisc_omega]; norm_num

theorem unitDisc_tsq : unitDisc.kappa * unitDisc.omega ![1, 0] = 1 := by
  rw [unitDisc_omega]; norm_num [unitDisc]

theorem e1_ne_zero : (![1, 0] : Vec 2) ≠ 0 := fun h => by simpa using congrFun h 0

/-! ### C01 -/

/-- **C01.** A successful deep cut keeps every point of the ellipsoid that satisfies the cut.
The updated set is given in support form always, and in textbook form when the cut is not touching
(`β² < τ²`, `τ² = tsq()`). -/
theorem C01_deep_cut_keeps_solutions (e : Ell n) (he : e.WF) (g : Vec n) (β : ℝ) (e' : Ell n)
    (h : e.updateBiasCut (g, .scalar β) = (e', .ok .success)) :
    e.region ∩ halfSpace g β e.xc ⊆ e'.hull ∧
    (β * β < e'.tsq → e.region ∩ halfSpace g β e.xc ⊆ e'.region ∧ e'.WF) := by
  obtain ⟨hn, hh⟩ := he.built.helper_eq
  obtain ⟨hg, ht, hr | hr⟩ := Ell.updateCore_inv he h
  · obtain ⟨p, hp, rfl⟩ := hr
    rw [hh] at hp
    simp only [EllCalc.calcSingleOrParallel] at hp
    have hsound := EllCalc.calcBiasCut_sound hn ht hp
      (keeps := (CutChoice.scalar β).keeps) (fun t h => by simp only [CutChoice.keeps] at h; linarith)
    have h1 : e.region ∩ halfSpace g β e.xc ⊆ (e.applied g p).hull := fun x hx =>
      Ell.applied_contains he hg hsound.2 hx.1 hx.2
    refine ⟨h1, fun hlt => ?_⟩
    have hβ : 0 ≤ β := by
      by_contra hc
      rw [EllCalc.calcBiasCut_neg (not_le.mp hc)] at hp; cases hp
    have hlt' : β * β < e.kappa * e.omega g := hlt
    rw [EllCalc.calcBiasCut_success hβ ht hlt'.le] at hp
    cases hp
    have hn2 : (2 : ℝ) ≤ n := by exact_mod_cast hn
    have hs := Real.sqrt_pos.mpr ht
    have hlt2 : β < Real.sqrt (e.kappa * e.omega g) := Real.lt_sqrt_of_sq_lt (by nlinarith)
    have hss := EllCalcCore.bias_slabSound hn2 hs (by positivity) hlt2.le
    rw [Real.sq_sqrt ht.le] at hss
    have hst := hss.strict (t1 := -Real.sqrt (e.kappa * e.omega g)) (t2 := -β) (by linarith)
      (by rw [neg_sq, Real.sq_sqrt ht.le]) (by nlinarith) le_rfl le_rfl
    have hwf := Ell.applied_WF he hg hst.1 hst.2
    exact ⟨by rw [hwf.region_eq_hull]; exact h1, hwf⟩
  · obtain ⟨hp, -⟩ := hr
    exact absurd (EllCalc.calcSingleOrParallel_none hp).1 (by simp)

/-- Hypotheses of C01 met: the cut `x₀ + 1/2 ≤ 0` of the unit disc. -/
example : ∃ e', unitDisc.updateBiasCut (![1, 0], .scalar (1 / 2)) = (e', .ok .success) ∧
    (1 / 2 : ℝ) * (1 / 2) < e'.tsq :=
  ⟨_, Ell.updateCore_some e1_ne_zero unitDisc_omega_ne
    (by rw [unitDisc_tsq]; exact EllCalc.calcBiasCut_success (by norm_num) (by norm_num) (by norm_num)),
    by show (1 / 2 : ℝ) * (1 / 2) < unitDisc.kappa * unitDisc.omega ![1, 0]
       rw [unitDisc_tsq]; norm_num⟩

/-! ### C02, C03 -/

/-- Containment for every offset shape accepted by `update_bias_cut`, under the side condition
`0 ≤ τ² + nβ0β1` (only relevant to pairs). -/
theorem C03_bias_cut_keeps_solutions_partial (e : Ell n) (he : e.WF) (cut : Cut n) (e' : Ell n)
    (hη : EllCalc.EtaOK n cut.2 (e.kappa * e.omega cut.1))
    (h : e.updateBiasCut cut = (e', .ok .success)) :
    e.region ∩ keptSet cut e.xc ⊆ e'.hull := by
  obtain ⟨hn, hh⟩ := he.built.helper_eq
  obtain ⟨hg, ht, hr | hr⟩ := Ell.updateCore_inv he h
  · obtain ⟨p, hp, rfl⟩ := hr
    rw [hh] at hp
    exact fun x hx => Ell.applied_contains he hg
      (EllCalc.calcSingleOrParallel_sound hn ht hη hp).2 hx.1 hx.2
  · obtain ⟨hp, -⟩ := hr
    exact absurd (EllCalc.calcSingleOrParallel_none hp).1 (by simp)

/-- **C02.** A successful parallel cut with `0 ≤ β0` keeps every point between the two hyperplanes;
if some two kept points of the ellipsoid are told apart by `g`, the result is a genuine ellipsoid and
the statement holds in textbook form. Both settings of `use_parallel_cut` are covered (`Ell.WF` leaves
the flag free). -/
theorem C02_parallel_cut_keeps_solutions (e : Ell n) (he : e.WF) (g : Vec n) (β0 β1 : ℝ)
    (hβ0 : 0 ≤ β0) (e' : Ell n)
    (h : e.updateBiasCut (g, .pair β0 β1) = (e', .ok .success)) :
    e.region ∩ slab g β0 β1 e.xc ⊆ e'.hull ∧
    (∀ x ∈ e.region ∩ slab g β0 β1 e.xc, ∀ y ∈ e.region ∩ slab g β0 β1 e.xc, g ⬝ᵥ x ≠ g ⬝ᵥ y →
      e.region ∩ slab g β0 β1 e.xc ⊆ e'.region ∧ e'.WF) := by
  obtain ⟨hn, hh⟩ := he.built.helper_eq
  obtain ⟨hg, ht, hr | hr⟩ := Ell.updateCore_inv he h
  · obtain ⟨p, hp, rfl⟩ := hr
    rw [hh] at hp
    by_cases hle : β0 ≤ β1
    · have hη : EllCalc.EtaOK n (.pair β0 β1) (e.kappa * e.omega g) := by
        simp only [EllCalc.EtaOK]
        have : 0 ≤ β1 := hβ0.trans hle
        have ht' : 0 < e.kappa * e.omega g := ht
        positivity
      have hs := (EllCalc.calcSingleOrParallel_sound hn ht hη hp).2
      have h1 : e.region ∩ slab g β0 β1 e.xc ⊆ (e.applied g p).hull := fun x hx =>
        Ell.applied_contains he hg hs hx.1 hx.2
      refine ⟨h1, fun x hx y hy hne => ?_⟩
      have hwf := Ell.applied_WF_of_width he hg hs hx.1 hy.1 hx.2 hy.2 hne
      exact ⟨by rw [hwf.region_eq_hull]; exact h1, hwf⟩
    · have hempty : ∀ x, x ∉ slab g β0 β1 e.xc := fun x hx => by
        have := hx.1; have := hx.2; linarith
      exact ⟨fun x hx => (hempty x hx.2).elim, fun x hx => (hempty x hx.2).elim⟩
  · obtain ⟨hp, -⟩ := hr
    exact absurd (EllCalc.calcSingleOrParallel_none hp).1 (by simp)

/-- Hypotheses of C02 met: the slab `1/4 ≤ -x₀ ≤ 1/2` of the unit disc. -/
example : ∃ e', unitDisc.updateBiasCut (![1, 0], .pair (1 / 4) (1 / 2)) = (e', .ok .success) :=
  ⟨_, Ell.updateCore_some e1_ne_zero unitDisc_omega_ne
    (by rw [unitDisc_tsq]
        exact EllCalc.calcParallel_success (u := true) le_rfl (by norm_num) (by norm_num) (by norm_num)
          (by norm_num))⟩

/-! ### C04 -/

/-- **C04.** A successful central cut keeps every point with `gᵀ(x-xc) ≤ 0` (and, for a pair,
`gᵀ(x-xc) + β1 ≥ 0`); genuine-ellipsoid form as in C02. -/
theorem C04_central_cut_keeps_solutions (e : Ell n) (he : e.WF) (cut : Cut n) (e' : Ell n)
    (h : e.updateCentralCut cut = (e', .ok .success)) :
    e.region ∩ keptSetCentral cut e.xc ⊆ e'.hull ∧
    (∀ x ∈ e.region ∩ keptSetCentral cut e.xc, ∀ y ∈ e.region ∩ keptSetCentral cut e.xc,
      cut.1 ⬝ᵥ x ≠ cut.1 ⬝ᵥ y →
      e.region ∩ keptSetCentral cut e.xc ⊆ e'.region ∧ e'.WF) := by
  obtain ⟨hn, hh⟩ := he.built.helper_eq
  obtain ⟨hg, ht, hr | hr⟩ := Ell.updateCore_inv he h
  · obtain ⟨p, hp, rfl⟩ := hr
    rw [hh] at hp
    have hs := (EllCalc.calcCentral_sound hn ht hp).2
    have h1 : e.region ∩ keptSetCentral cut e.xc ⊆ (e.applied cut.1 p).hull := fun x hx =>
      Ell.applied_contains he hg hs hx.1 hx.2
    refine ⟨h1, fun x hx y hy hne => ?_⟩
    have hwf := Ell.applied_WF_of_width he hg hs hx.1 hy.1 hx.2 hy.2 hne
    exact ⟨by rw [hwf.region_eq_hull]; exact h1, hwf⟩
  · obtain ⟨hp, -⟩ := hr
    exact absurd (EllCalc.calcCentral_none hp).1 (by simp)

/-- Hypotheses of C04 met. -/
example : ∃ e', unitDisc.updateCentralCut (![1, 0], .scalar 0) = (e', .ok .success) :=
  ⟨_, Ell.updateCore_some e1_ne_zero unitDisc_omega_ne (by
    rw [unitDisc_tsq]
    simp only [EllCalc.calcSingleOrParallelCentralCut]
    rw [psqrt_ok (by norm_num)]; rfl)⟩

/-! ### C05 -/

/-- **C05.** `update_q`: a successful cut of any depth, single or parallel, keeps every point that
satisfies it. -/
theorem C05_update_q_keeps_solutions (e : Ell n) (he : e.WF) (cut : Cut n) (e' : Ell n)
    (h : e.updateQ cut = (e', .ok .success)) :
    e.region ∩ keptSet cut e.xc ⊆ e'.hull ∧
    (∀ x ∈ e.region ∩ keptSet cut e.xc, ∀ y ∈ e.region ∩ keptSet cut e.xc,
      cut.1 ⬝ᵥ x ≠ cut.1 ⬝ᵥ y →
      e.region ∩ keptSet cut e.xc ⊆ e'.region ∧ e'.WF) := by
  obtain ⟨hn, hh⟩ := he.built.helper_eq
  obtain ⟨hg, ht, hr | hr⟩ := Ell.updateCore_inv he h
  · obtain ⟨p, hp, rfl⟩ := hr
    rw [hh] at hp
    have hs := (EllCalc.calcSingleOrParallelQ_sound hn ht hp).2
    have h1 : e.region ∩ keptSet cut e.xc ⊆ (e.applied cut.1 p).hull := fun x hx =>
      Ell.applied_contains he hg hs hx.1 hx.2
    refine ⟨h1, fun x hx y hy hne => ?_⟩
    have hwf := Ell.applied_WF_of_width he hg hs hx.1 hy.1 hx.2 hy.2 hne
    exact ⟨by rw [hwf.region_eq_hull]; exact h1, hwf⟩
  · obtain ⟨hp, -⟩ := hr
    rcases EllCalc.calcSingleOrParallelQ_none hp with h1 | h1
    · exact absurd h1 (by simp)
    · exact absurd h1.1 (by simp)

/-- Hypotheses of C05 met by a shallow cut (`β = -1/4 < 0`). -/
example : ∃ e', unitDisc.updateQ (![1, 0], .scalar (-1 / 4)) = (e', .ok .success) :=
  ⟨_, Ell.updateCore_some e1_ne_zero unitDisc_omega_ne (by
    rw [unitDisc_tsq]
    exact EllCalc.calcBiasCutQ_eq (u := true) (by norm_num) (by norm_num) le_rfl (by norm_num))⟩

/-! ### C06 -/

/-- **C06.** When an update method reports `NoSoln`, the current ellipsoid contains no point that
satisfies the cut. -/
theorem C06_noSoln_sound (e : Ell n) (he : e.WF) (cut : Cut n) (e' : Ell n) :
    (e.updateBiasCut cut = (e', .ok .noSoln) → e.region ∩ keptSet cut e.xc = ∅) ∧
    (e.updateCentralCut cut = (e', .ok .noSoln) → e.region ∩ keptSetCentral cut e.xc = ∅) ∧
    (e.updateQ cut = (e', .ok .noSoln) → e.region ∩ keptSet cut e.xc = ∅) := by
  obtain ⟨hn, hh⟩ := he.built.helper_eq
  have key : ∀ {keeps : ℝ → Prop}, (∀ t, t ^ 2 ≤ e.kappa * e.omega cut.1 → ¬ keeps t) →
      e.region ∩ {x | keeps (cut.1 ⬝ᵥ (x - e.xc))} = ∅ := by
    intro keeps hk
    ext x
    simp only [Set.mem_inter_iff, Set.mem_empty_iff_false, iff_false, not_and]
    exact fun hx => hk _ (Ell.sq_le_tsq he hx cut.1)
  refine ⟨fun h => ?_, fun h => ?_, fun h => ?_⟩
  · obtain ⟨hg, ht, hr | hr⟩ := Ell.updateCore_inv he h
    · obtain ⟨p, hp, -⟩ := hr
      rw [hh] at hp
      by_cases hη : EllCalc.EtaOK n cut.2 (e.kappa * e.omega cut.1)
      · exact absurd (EllCalc.calcSingleOrParallel_sound hn ht hη hp).1 (by simp)
      · exact absurd (EllCalc.calcSingleOrParallel_some hp) (by simp)
    · exact key (EllCalc.calcSingleOrParallel_none hr.1).2
  · obtain ⟨hg, ht, hr | hr⟩ := Ell.updateCore_inv he h
    · obtain ⟨p, hp, -⟩ := hr
      rw [hh] at hp
      exact absurd (EllCalc.calcCentral_sound hn ht hp).1 (by simp)
    · exact key (EllCalc.calcCentral_none hr.1).2
  · obtain ⟨hg, ht, hr | hr⟩ := Ell.updateCore_inv he h
    · obtain ⟨p, hp, -⟩ := hr
      rw [hh] at hp
      exact absurd (EllCalc.calcSingleOrParallelQ_sound hn ht hp).1 (by simp)
    · rcases EllCalc.calcSingleOrParallelQ_none hr.1 with h1 | h1
      · exact absurd h1 (by simp)
      · exact key h1.2

/-- **C06, every state.** The same without any assumption on the object: collapsed ellipsoids (singular `mq`), where `gᵀMg` may vanish, included. The set is taken in support form. -/
theorem C06_noSoln_sound_degenerate (e : Ell n) (cut : Cut n) (e' : Ell n) :
    (e.updateBiasCut cut = (e', .ok .noSoln) → e.hull ∩ keptSet cut e.xc = ∅) ∧
    (e.updateCentralCut cut = (e', .ok .noSoln) → e.hull ∩ keptSetCentral cut e.xc = ∅) ∧
    (e.updateQ cut = (e', .ok .noSoln) → e.hull ∩ keptSet cut e.xc = ∅) := by
  have key : ∀ {keeps : ℝ → Prop}, (∀ t, t ^ 2 ≤ e.kappa * e.omega cut.1 → ¬ keeps t) →
      e.hull ∩ {x | keeps (cut.1 ⬝ᵥ (x - e.xc))} = ∅ := by
    intro keeps hk
    ext x
    simp only [Set.mem_inter_iff, Set.mem_empty_iff_false, iff_false, not_and]
    exact fun hx => hk _ (hx cut.1)
  have inv : ∀ {s : Strategy}, e.updateCore cut s = (e', .ok .noSoln) →
      (∃ p, s cut.2 (e.kappa * e.omega cut.1) = .ok (.noSoln, some p)) ∨ s cut.2 (e.kappa * e.omega cut.1) = .ok (.noSoln, none) := by
    intro s h
    unfold Ell.updateCore at h
    by_cases h0 : ∀ i, cut.1 i = 0
    · simp only [if_pos h0, Prod.mk.injEq] at h; cases h.2
    · simp only [if_neg h0] at h
      by_cases h1 : cut.1 ⬝ᵥ (e.mq *ᵥ cut.1) = 0
      · simp only [if_pos h1, Prod.mk.injEq] at h; cases h.2
      · simp only [if_neg h1] at h
        change (match s cut.2 (e.kappa * e.omega cut.1) with | .error f => _ | .ok (status, none) => _ | .ok (status, some p) => _) = _ at h
        rcases hs : s cut.2 (e.kappa * e.omega cut.1) with f | ⟨st, _ | p⟩
        · rw [hs] at h; simp only [Prod.mk.injEq] at h; cases h.2
        · rw [hs] at h; simp only [Prod.mk.injEq] at h; cases h.2; exact .inr rfl
        · rw [hs] at h; simp only [Prod.mk.injEq] at h; cases h.2; exact .inl ⟨p, rfl⟩
  refine ⟨fun h => ?_, fun h => ?_, fun h => ?_⟩
  · rcases inv h with ⟨p, hp⟩ | hr
    · exact absurd (EllCalc.calcSingleOrParallel_some hp) (by simp)
    · exact key (EllCalc.calcSingleOrParallel_none hr).2
  · rcases inv h with ⟨p, hp⟩ | hr
    · exact absurd (EllCalc.calcCentral_some hp) (by simp)
    · exact key (EllCalc.calcCentral_none hr).2
  · rcases inv h with ⟨p, hp⟩ | hr
    · exact absurd (EllCalc.calcSingleOrParallelQ_some hp) (by simp)
    · rcases EllCalc.calcSingleOrParallelQ_none hr with h1 | h1
      · exact absurd h1 (by simp)
      · exact key h1.2

/-- Hypotheses of C06 met: `x₀ + 2 ≤ 0` misses the unit disc. -/
example : ∃ e', unitDisc.updateBiasCut (![1, 0], .scalar 2) = (e', .ok .noSoln) :=
  ⟨_, Ell.updateCore_none e1_ne_zero unitDisc_omega_ne (by
    rw [unitDisc_tsq]
    exact EllCalc.calcBiasCut_noSoln (by norm_num) (by norm_num))⟩

end Ellalgo
