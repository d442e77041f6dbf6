import Verif.Props.Soundness

/-! # What it means that a loop stops before the limit (C63) -/

namespace Ellalgo

open Matrix Spec CuttingPlane

variable {n : ℕ} {O G : Type*}

/-- The points of `F` are flat in the direction of the cut: with a success `tsq` bounds them, with `NoEffect` they all lie on one hyperplane through the centre. -/
theorem Ell.flat_core {e : Ell n} (he : e.Weak) {F : Set (Vec n)} (hF : F ⊆ e.hull) {cut : Cut n} {s : Strategy} {e' : Ell n}
    {st : CutStatus} (h : e.updateCore cut s = (e', .ok st))
    (hst : ∀ p, s cut.2 (e.kappa * e.omega cut.1) = .ok (st, some p) → st = .success)
    (hnone : s cut.2 (e.kappa * e.omega cut.1) ≠ .ok (st, none)) {y : Vec n} (hy : y ∈ F) :
    (st = .success ∧ (cut.1 ⬝ᵥ (y - e.xc)) ^ 2 ≤ e'.tsq) ∨ (st = .noEffect ∧ cut.1 ⬝ᵥ (y - e.xc) = 0) := by
  have hq : (cut.1 ⬝ᵥ (y - e.xc)) ^ 2 ≤ e.kappa * e.omega cut.1 := hF hy cut.1
  obtain ⟨-, ⟨h0, h1, -⟩ | ⟨-, ⟨p, hp, rfl⟩ | ⟨hp, -⟩⟩⟩ := updateCore_inv_weak he h
  · right
    rw [h0, mul_zero] at hq
    exact ⟨h1, by nlinarith⟩
  · exact .inl ⟨hst p hp, hq⟩
  · exact absurd hp hnone

theorem Ell.flat_bias {e : Ell n} (he : e.Weak) {F : Set (Vec n)} (hF : F ⊆ e.hull) {cut : Cut n}
    (hk : F ⊆ keptSet cut e.xc) {e' : Ell n} {st : CutStatus} (h : e.updateBiasCut cut = (e', .ok st)) {y : Vec n} (hy : y ∈ F) :
    (st = .success ∧ (cut.1 ⬝ᵥ (y - e.xc)) ^ 2 ≤ e'.tsq) ∨ (st = .noEffect ∧ cut.1 ⬝ᵥ (y - e.xc) = 0) :=
  Ell.flat_core he hF h (fun _ hp => EllCalc.calcSingleOrParallel_some hp)
    (fun hp => (EllCalc.calcSingleOrParallel_none hp).2 _ (hF hy cut.1) (hk hy)) hy

theorem Ell.flat_central {e : Ell n} (he : e.Weak) {F : Set (Vec n)} (hF : F ⊆ e.hull) {cut : Cut n}
    (hk : F ⊆ keptSetCentral cut e.xc) {e' : Ell n} {st : CutStatus} (h : e.updateCentralCut cut = (e', .ok st)) {y : Vec n}
    (hy : y ∈ F) :
    (st = .success ∧ (cut.1 ⬝ᵥ (y - e.xc)) ^ 2 ≤ e'.tsq) ∨ (st = .noEffect ∧ cut.1 ⬝ᵥ (y - e.xc) = 0) :=
  Ell.flat_core he hF h (fun _ hp => EllCalc.calcCentral_some hp)
    (fun hp => (EllCalc.calcCentral_none hp).2 _ (hF hy cut.1) (hk hy)) hy

/-- **C63, feasibility.** With a positive tolerance and cuts valid for a set `F` inside the initial ellipsoid: if `cutting_plane_feas` returns `None` before the limit, then all of `F` lies within `√tolerance` of the last centre in the direction of the last cut,
`(g · (y - x))² < tolerance`. -/
theorem C63_feas_flat {omega : OracleFeas O (Vec n) (Cut n)} {I : O → Prop} {F : Set (Vec n)}
    (hω : CuttingOracle I F omega) (o : O) (ho : I o) (e : Ell n) (he : e.WF) (hF : F ⊆ e.region) (opts : Options ℝ)
    (htol : 0 < opts.tolerance) (o' : O) (e' : Ell n) (k : ℕ) (hk : k < opts.maxIters)
    (h : feas omega (Ell.space n) ltReal o e opts = (o', e', .ok (none, k))) :
    ∃ l o1 e1 g β, FeasTrace omega (Ell.space n) ltReal opts.tolerance o e l o1 e1 ∧
      omega o1 e1.xc = (o', .ok (some (g, β))) ∧ ∀ y ∈ F, (g ⬝ᵥ (y - e1.xc)) ^ 2 < opts.tolerance := by
  rw [he.region_eq_hull] at hF
  obtain ⟨l, o1, e1, ht, hend⟩ := feas_spec omega (Ell.space n) ltReal o e opts
  rw [h] at hend
  simp only at hend
  cases hend with
  | limit h0 => exact absurd h0 hk.ne
  | @stop _ _ cut st _ ha hu hs =>
    obtain ⟨g, β⟩ := cut
    refine ⟨l, o1, e1, g, β, ht, ha, fun y hy => ?_⟩
    obtain ⟨w, hF1⟩ := ht.weak hω ⟨y, hy⟩ ho he.weak hF
    obtain ⟨h0, hkept⟩ := hω.cut _ _ _ _ (ht.inv_oracle hω ho) ha
    rcases Ell.flat_bias w hF1 hkept hu hy with ⟨rfl, hq⟩ | ⟨-, hq⟩
    · rcases hs with hs | hs
      · exact absurd rfl hs
      · exact lt_of_le_of_lt hq (ltReal_iff.mp hs)
    · simp only at hq
      rw [hq]; simpa using htol

/-- The disc of radius 4. -/
noncomputable def disc4 : Ell 2 := { unitDisc with kappa := 16 }

/-- C63 applies: the half plane `x₀ ≤ -3` inside the disc of radius 4; the first cut leaves `tsq = 16`, below a tolerance of 17. -/
example : disc4.WF ∧ (![-3, 0] : Vec 2) ∈ disc4.region ∧
    ∃ e', feas farOracle (Ell.space 2) ltReal () disc4 ⟨5, 17⟩ = ((), e', .ok (none, 0)) := by
  have hwf : disc4.WF := ⟨unitDisc_WF.built, unitDisc_WF.posDef, by norm_num [disc4]⟩
  refine ⟨hwf, ?_, ?_⟩
  · simp [Ell.region, Spec.ellipsoid, disc4, unitDisc, dotProduct, Fin.sum_univ_two]
    norm_num
  · have hω : disc4.omega ![1, 0] = 1 := by
      simp [Ell.omega, disc4, unitDisc, dotProduct, Fin.sum_univ_two]
    obtain ⟨-, hh⟩ := hwf.built.helper_eq
    have ho : farOracle () disc4.xc = ((), .ok (some (![1, 0], CutChoice.scalar 3))) := by
      unfold farOracle
      rw [if_neg (by simp [disc4, unitDisc])]
      simp [disc4, unitDisc]
    have hu : disc4.updateBiasCut (![1, 0], CutChoice.scalar 3) = (_, _) :=
      Ell.updateCore_some e1_ne_zero (by rw [hω]; norm_num) (p := EllCalcCore.biasParams 2 3 (Real.sqrt 16)) (by
        rw [hh, hω, show disc4.kappa = 16 from rfl]
        have := EllCalc.calcBiasCut_success (n := 2) (u := disc4.helper.useParallelCut)
          (β := 3) (tsq := 16) (by norm_num) (by norm_num) (by norm_num)
        simpa [EllCalc.calcSingleOrParallel, disc4] using this)
    refine ⟨disc4.applied ![1, 0] (EllCalcCore.biasParams 2 3 (Real.sqrt 16)), ?_⟩
    unfold feas feasLoop
    have ho' : farOracle () ((Ell.space 2).xc disc4) = ((), .ok (some (![1, 0], CutChoice.scalar 3))) := ho
    have hu' : (Ell.space 2).updateBiasCut disc4 (![1, 0], CutChoice.scalar 3) = (_, _) := hu
    rw [ho']
    simp only [hu']
    rw [if_pos]
    right
    rw [ltReal_iff]
    change (16 : ℝ) * disc4.omega ![1, 0] < 17
    rw [hω]; norm_num

/-- **C63, optimisation.** With a positive tolerance and a correct optimisation oracle for an antitone family of level sets `L`: if `cutting_plane_optim` returns `γ` before the limit, the last consultation (at the centre `x`, with the cut `g`) is such that all of `L γ` lies within `√tolerance` of `x` in the direction `g`. -/
theorem C63_optim_flat [Preorder G] {omega : OracleOptim O (Vec n) (Cut n) G} {I : O → Prop}
    {L : G → Set (Vec n)} (hL : Antitone L) (hω : LevelOracle I L omega) (o : O) (ho : I o) (e : Ell n)
    (he : e.WF) (g0 : G) (hF : L g0 ⊆ e.region) (opts : Options ℝ) (htol : 0 < opts.tolerance)
    (o' : O) (e' : Ell n) (xb : Option (Vec n)) (γ : G) (k : ℕ) (hk : k < opts.maxIters)
    (h : optim omega (Ell.space n) ltReal o e g0 opts = (o', e', .ok (xb, γ, k))) :
    ∃ l o1 e1 ev, OptimTrace omega (Ell.space n) ltReal opts.tolerance o e g0 l o1 e1 ∧ ev.x = e1.xc ∧
      ev.gamma = (bestOf g0 l).2 ∧ omega o1 ev.x ev.gamma = (o', .ok (ev.cut, ev.gamma1)) ∧
      (xb, γ) = bestOf g0 (l ++ [ev]) ∧ ∀ y ∈ L γ, (ev.cut.1 ⬝ᵥ (y - ev.x)) ^ 2 < opts.tolerance := by
  rw [he.region_eq_hull] at hF
  obtain ⟨l, o1, e1, ht, -, ⟨h0, -⟩ | ⟨-, ev, st, h1, h2, h3, h4, h5, hb⟩⟩ :=
    C24_optim_consistent_pair omega (Ell.space n) ltReal o e g0 opts o' e' xb γ k h
  · exact absurd h0 hk.ne
  refine ⟨l, o1, e1, ev, ht, h1, h2, h3, hb, fun y hy => ?_⟩
  have hγ : ev.gamma1.getD ev.gamma = γ := by rw [← bestOf_snoc_snd g0 l ev h2, ← hb]
  have hi := ht.inv_oracle hω ho
  have hle : ev.gamma ≤ γ := by
    rw [← hγ]
    rcases hg : ev.gamma1 with _ | g
    · exact le_rfl
    · rw [hg] at h3; exact (hω.value _ _ _ _ _ _ hi h3).1
  obtain ⟨w, hF1⟩ := ht.weak hL hω ho he.weak hF (by rw [← h2]; exact ⟨y, hL hle hy⟩)
  rw [← h2] at hF1
  have key : (st = .success ∧ (ev.cut.1 ⬝ᵥ (y - ev.x)) ^ 2 ≤ e'.tsq) ∨ (st = .noEffect ∧ ev.cut.1 ⬝ᵥ (y - ev.x) = 0) := by
    obtain ⟨x, γ0, cut, γ1⟩ := ev
    simp only at h1 h3 h4 hγ hF1 hle ⊢
    have h1' : x = e1.xc := h1
    subst h1'
    cases γ1 with
    | none =>
      simp only [Option.getD_none] at hγ
      subst hγ
      exact Ell.flat_bias w hF1 (hω.cut _ _ _ _ _ hi h3).2 h4 hy
    | some g1 =>
      simp only [Option.getD_some] at hγ
      subst hγ
      exact Ell.flat_central w ((hL hle).trans hF1) (hω.value _ _ _ _ _ _ hi h3).2 h4 hy
  rcases key with ⟨rfl, hq⟩ | ⟨-, hq⟩
  · rcases h5 with h5 | h5
    · exact absurd rfl h5
    · exact lt_of_le_of_lt hq (ltReal_iff.mp h5)
  · rw [hq]; simpa using htol

end Ellalgo
