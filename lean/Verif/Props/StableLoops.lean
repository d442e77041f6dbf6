import Verif.Model.EllStableSpace
import Verif.Lemmas.Simulation
import Verif.Props.EllStable
import Verif.Props.LebesgueVolume

/-! # C74, C75: the cutting-plane loops with `EllStable` -/

namespace Ellalgo

open Matrix Spec EllCalcCore EllStable CuttingPlane MeasureTheory

variable {n : ℕ} {O G : Type*}

/-- In a parallel cut the first offset is not negative. -/
def CutChoice.PairNonneg : CutChoice → Prop
  | .seq (some β0 :: some _ :: _) => 0 ≤ β0
  | _ => True

theorem CutChoice.FirstNonneg.pair {c : CutChoice} (h : c.FirstNonneg) : c.PairNonneg := by
  match c, h with
  | .scalar _, _ => trivial
  | .seq [], _ => trivial
  | .seq [none], _ => trivial
  | .seq [some _], _ => trivial
  | .seq (none :: _ :: _), _ => trivial
  | .seq (some _ :: none :: _), _ => trivial
  | .seq (some β0 :: some _ :: _), h => exact h β0 rfl

/-- The parameters of a parallel cut whose two hyperplanes meet the ellipsoid. -/
def ParForm (n : ℕ) (tsq : ℝ) (p : Params) : Prop :=
  ∃ β0 β1, β0 ≤ β1 ∧ β0 ^ 2 ≤ tsq ∧ β1 ^ 2 ≤ tsq ∧ 0 ≤ tsq + n * (β0 * β1) ∧ p = parParams n β0 β1 tsq

theorem ParForm.safe (hn : 2 ≤ n) {tsq : ℝ} (ht : 0 < tsq) {p : Params} (h : ParForm n tsq p) :
    p.sigma ≤ 1 ∧ (p.sigma < 1 → 0 < p.delta) := by
  obtain ⟨β0, β1, h01, h0, h1, hη, rfl⟩ := h
  have hn2 : (2 : ℝ) ≤ n := by exact_mod_cast hn
  have hT := par_tight hn ht h01 h0 h1 hη
  refine ⟨(par_slabSound hn2 ht hη).sigma_le, fun hσ => lt_of_le_of_ne hT.delta_nonneg fun hδ => ?_⟩
  have hs := hT.sum
  rw [← hδ] at hs
  have hσ0 : 0 ≤ (parParams n β0 β1 tsq).sigma := by
    have := (parDen_pos hn2 ht hη).le
    simp only [parParams]
    positivity
  have hr : (parParams n β0 β1 tsq).rho = (parParams n β0 β1 tsq).sigma * (β0 + β1) / 2 := rfl
  have hρ : (parParams n β0 β1 tsq).rho ^ 2 = tsq := by
    have : (n : ℝ) * (tsq - (parParams n β0 β1 tsq).rho ^ 2) = 0 := by linarith
    rcases mul_eq_zero.mp this with h | h <;> linarith
  set σ := (parParams n β0 β1 tsq).sigma
  have h4 : (β0 + β1) ^ 2 ≤ 4 * tsq := by nlinarith [sq_nonneg (β0 - β1)]
  have h5 : (parParams n β0 β1 tsq).rho ^ 2 ≤ σ ^ 2 * tsq := by
    rw [hr]
    have : 0 ≤ σ ^ 2 := sq_nonneg _
    nlinarith
  have h6 : σ ^ 2 < 1 := by nlinarith
  nlinarith

theorem bias_parForm (hn : 2 ≤ n) {β tsq : ℝ} (ht : 0 < tsq) (hη : 0 < Real.sqrt tsq + n * β)
    (hβ : β ≤ Real.sqrt tsq) : ParForm n tsq (biasParams n β (Real.sqrt tsq)) := by
  have hn2 : (2 : ℝ) ≤ n := by exact_mod_cast hn
  have hs := Real.sqrt_pos.mpr ht
  have hb : 0 < Real.sqrt tsq + β := by
    by_contra hc
    have : (n : ℝ) * (Real.sqrt tsq + β) ≤ 0 :=
      mul_nonpos_of_nonneg_of_nonpos (by linarith) (by linarith)
    nlinarith
  have hq : Real.sqrt tsq * Real.sqrt tsq = tsq := Real.mul_self_sqrt ht.le
  refine ⟨β, Real.sqrt tsq, hβ, ?_, by rw [Real.sq_sqrt ht.le], ?_, ?_⟩
  · rw [← Real.sq_sqrt ht.le]; exact sq_le_sq' (by linarith) hβ
  · have : tsq + n * (β * Real.sqrt tsq) = Real.sqrt tsq * (Real.sqrt tsq + n * β) := by
      linear_combination -hq
    rw [this]; positivity
  · rw [← parParams_tau hn2 hs hb hβ, hq]

namespace EllCalc

variable {u : Bool}

theorem calcBiasCut_parForm {β tsq : ℝ} (hn : 2 ≤ n) (ht : 0 < tsq) {st : CutStatus} {p : Params}
    (h : (std n u).calcBiasCut β tsq = .ok (st, some p)) : ParForm n tsq p := by
  rcases lt_or_ge β 0 with h0 | h0
  · rw [calcBiasCut_neg h0] at h; cases h
  rcases lt_or_ge tsq (β * β) with h1 | h1
  · rw [calcBiasCut_noSoln h0 h1] at h; cases h
  rw [calcBiasCut_success h0 ht h1] at h
  cases h
  have := Real.sqrt_pos.mpr ht
  exact bias_parForm hn ht (by positivity) (le_sqrt_of_sq h1)

theorem calcParallel_parForm {β0 β1 tsq : ℝ} (hn : 2 ≤ n) (ht : 0 < tsq) (h0 : 0 ≤ β0) {st : CutStatus}
    {p : Params} (h : (std n u).calcParallel β0 β1 tsq = .ok (st, some p)) : ParForm n tsq p := by
  by_cases h01 : β1 < β0
  · unfold calcParallel at h; rw [if_pos h01] at h; cases h
  have h01' := not_lt.mp h01
  have hβ1 : 0 ≤ β1 := h0.trans h01'
  by_cases h1 : β1 > 0 ∧ tsq ≤ β1 * β1
  · unfold calcParallel at h; rw [if_neg h01] at h; simp only at h; rw [if_pos h1] at h
    exact calcBiasCut_parForm hn ht h
  · have h2 : β1 * β1 < tsq := by
      rcases hβ1.eq_or_lt with h2 | h2
      · rw [← h2]; simpa using ht
      · by_contra hc; exact h1 ⟨h2, not_lt.mp hc⟩
    rw [calcParallel_success hn h01' h1 ht (by positivity)] at h
    cases h
    exact ⟨β0, β1, h01', by nlinarith, by nlinarith, by positivity, rfl⟩

theorem calcBiasCutQ_parForm {β tsq : ℝ} (hn : 2 ≤ n) (ht : 0 < tsq) {st : CutStatus} {p : Params}
    (h : (std n u).calcBiasCutQ β tsq = .ok (st, some p)) : ParForm n tsq p := by
  by_cases h0 : Real.sqrt tsq < β
  · unfold calcBiasCutQ at h; rw [psqrt_ok ht.le] at h; simp only [except_ok_bind] at h
    rw [if_pos h0] at h; cases h
  by_cases h1 : Real.sqrt tsq + n * β ≤ 0
  · unfold calcBiasCutQ at h; rw [psqrt_ok ht.le] at h; simp only [except_ok_bind] at h
    rw [if_neg h0] at h
    rw [if_pos (show Real.sqrt tsq + (std n u).nF * β ≤ 0 from h1)] at h; cases h
  rw [calcBiasCutQ_eq ht (not_le.mp h1) hn (not_lt.mp h0)] at h
  cases h
  exact bias_parForm hn ht (not_le.mp h1) (not_lt.mp h0)

theorem calcParallelQ_parForm {β0 β1 tsq : ℝ} (hn : 2 ≤ n) (ht : 0 < tsq) (h0 : 0 ≤ β0) {st : CutStatus}
    {p : Params} (h : (std n u).calcParallelQ β0 β1 tsq = .ok (st, some p)) : ParForm n tsq p := by
  by_cases h01 : β1 < β0
  · unfold calcParallelQ at h; rw [if_pos h01] at h; cases h
  have h01' := not_lt.mp h01
  have hβ1 : 0 ≤ β1 := h0.trans h01'
  by_cases h1 : β1 > 0 ∧ tsq ≤ β1 * β1
  · unfold calcParallelQ at h; rw [if_neg h01] at h; simp only at h; rw [if_pos h1] at h
    exact calcBiasCutQ_parForm hn ht h
  · have h2 : β1 * β1 < tsq := by
      rcases hβ1.eq_or_lt with h2 | h2
      · rw [← h2]; simpa using ht
      · by_contra hc; exact h1 ⟨h2, not_lt.mp hc⟩
    rw [calcParallelQ_eq hn h01' h1 ht (by positivity)] at h
    cases h
    exact ⟨β0, β1, h01', by nlinarith, by nlinarith, by positivity, rfl⟩

theorem central_parForm {tsq : ℝ} (hn : 2 ≤ n) (ht : 0 < tsq) {cut : CutChoice} {st : CutStatus} {p : Params}
    (h : (std n u).calcSingleOrParallelCentralCut cut tsq = .ok (st, some p)) : ParForm n tsq p := by
  have hn2 : (2 : ℝ) ≤ n := by exact_mod_cast hn
  have hs := Real.sqrt_pos.mpr ht
  have hc : (do
      let tau ← psqrt tsq
      Except.ok (CutStatus.success, some ((std n u).helper.calcCentralCut tau)) : StrategyResult) =
        .ok (st, some p) → ParForm n tsq p := by
    intro hh
    rw [psqrt_ok ht.le] at hh
    cases hh
    simp only [std]
    rw [calcCentralCut_std hs.ne']
    exact bias_parForm hn ht (by simpa using ht) hs.le
  unfold calcSingleOrParallelCentralCut at h
  match cut with
  | .scalar β => exact hc h
  | .seq bs =>
    simp only at h
    split_ifs at h with hb
    · exact hc h
    · split at h
      · rename_i b1 _
        split_ifs at h with h1 h2
        · cases h
        · exact hc h
        · have ht2 : b1 * b1 < tsq := not_le.mp h2
          have e := calcParallelCentralCut_std (n := (n : ℝ)) hn2 ht ht2.le
          rw [show (std n u).helper = EllCalcCore.std n from rfl, e] at h
          cases h
          exact ⟨0, b1, not_lt.mp h1, by simpa using ht.le, by nlinarith, by simpa using ht.le, rfl⟩
      · cases h

theorem strategy_parForm {tsq : ℝ} (hn : 2 ≤ n) (ht : 0 < tsq) {cut : CutChoice} (h0 : cut.PairNonneg) (m : Method)
    {st : CutStatus} {p : Params} (h : (std n u).strategy m cut tsq = .ok (st, some p)) : ParForm n tsq p := by
  cases m with
  | central => exact central_parForm hn ht h
  | bias =>
    simp only [strategy, calcSingleOrParallel] at h
    match cut, h0 with
    | .scalar β, _ => exact calcBiasCut_parForm hn ht h
    | .seq [], _ => simp [firstOffset] at h
    | .seq [none], _ => simp [firstOffset] at h
    | .seq [some β], _ =>
      simp only [List.length_singleton, Nat.one_lt_ofNat, true_or, if_true, firstOffset, except_ok_bind] at h
      exact calcBiasCut_parForm hn ht h
    | .seq (none :: b1 :: l), _ =>
      simp only [firstOffset] at h
      split_ifs at h
      · cases h
      · split at h <;> cases h
    | .seq (some β0 :: none :: l), _ =>
      simp only [firstOffset, except_ok_bind] at h
      split_ifs at h
      · exact calcBiasCut_parForm hn ht h
      · simp at h
    | .seq (some β0 :: some β1 :: l), h0 =>
      simp only [firstOffset, except_ok_bind] at h
      split_ifs at h
      · exact calcBiasCut_parForm hn ht h
      · exact calcParallel_parForm hn ht h0 (by simpa using h)
  | q =>
    simp only [strategy, calcSingleOrParallelQ] at h
    match cut, h0 with
    | .scalar β, _ => exact calcBiasCutQ_parForm hn ht h
    | .seq [], _ => simp [firstOffset] at h
    | .seq [none], _ => simp [firstOffset] at h
    | .seq [some β], _ =>
      simp only [List.length_singleton, Nat.one_lt_ofNat, true_or, if_true, firstOffset, except_ok_bind] at h
      exact calcBiasCutQ_parForm hn ht h
    | .seq (none :: b1 :: l), _ =>
      simp only [firstOffset] at h
      split_ifs at h
      · cases h
      · split at h <;> cases h
    | .seq (some β0 :: none :: l), _ =>
      simp only [firstOffset, except_ok_bind] at h
      split_ifs at h
      · exact calcBiasCutQ_parForm hn ht h
      · simp at h
    | .seq (some β0 :: some β1 :: l), h0 =>
      simp only [firstOffset, except_ok_bind] at h
      split_ifs at h
      · exact calcBiasCutQ_parForm hn ht h
      · exact calcParallelQ_parForm hn ht h0 (by simpa using h)

end EllCalc

/-- An `EllStable` object that has not degenerated, next to the `Ell` object it stands for. -/
def InStep (s : EllStable n) (e : Ell n) : Prop := Refines s e ∧ e.WF ∧ e.noDeferTrick = false

/-- One update of `EllStable` and `Ell`. -/
theorem update_lockstep {s : EllStable n} {e : Ell n} (h : InStep s e) (m : Method) {cut : Cut n} (hg : cut.1 ≠ 0)
    (hc : cut.2.PairNonneg) : Lockstep InStep (fun e' => ¬ e'.WF) (s.update m cut) (e.update m cut) := by
  obtain ⟨hR, he, hd⟩ := h
  obtain ⟨hn, hh⟩ := he.built.helper_eq
  obtain ⟨g, β⟩ := cut
  have hω := he.omega_pos hg
  have ht : 0 < e.kappa * e.omega g := mul_pos he.kappa_pos hω
  have hM : e.mq.IsSymm := isHermitian_iff_isSymm.mp he.posDef.isHermitian
  have hpar : ∀ st p, e.helper.strategy m β (e.kappa * e.omega g) = .ok (st, some p) → p.sigma ≤ 1 ∧ (p.sigma < 1 → 0 < p.delta) := by
    intro st p hp
    rw [hh] at hp
    exact (EllCalc.strategy_parForm hn ht hc m hp).safe hn ht
  by_cases hw : (e.update m (g, β)).1.WF
  · obtain ⟨h1, h2⟩ := update_refines hR he hd m (g, β) hg hw
    exact .inr ⟨h1, fun _ _ => ⟨h2, hw, (Ell.update_noDefer e m (g, β)).trans hd⟩⟩
  · rw [Ell.update_eq, EllStable.update_eq] at *
    rw [hR.helper]
    rcases hs : e.helper.strategy m β (e.kappa * e.omega g) with f | ⟨st, _ | p⟩
    · rw [Ell.updateCore_error hg hω.ne' hs] at hw
      exact absurd ⟨he.built, he.posDef, he.kappa_pos⟩ hw
    · rw [Ell.updateCore_none hg hω.ne' hs] at hw
      exact absurd ⟨he.built, he.posDef, he.kappa_pos⟩ hw
    · obtain ⟨h1, h2⟩ := hpar st p hs
      rcases h1.lt_or_eq with h3 | h3
      · rw [Ell.updateCore_some hg hω.ne' hs] at hw
        exact absurd (Ell.applied_WF he hg h3 (h2 h3)) hw
      · refine .inl ⟨?_, hw⟩
        rw [EllStable.updateCore_eq hR.rep (ω := e.omega g) rfl hω]
        · rw [hR.kappa, hs]
          simp only [if_pos h3]
        · intro st p hp
          rw [hR.kappa] at hp
          exact (hpar st p hp).1
        · exact hM

/-- The answers `update` may get from an oracle: nonzero gradients, nonnegative first offsets in pairs. -/
def UsableCut (cut : Cut n) : Prop := cut.1 ≠ 0 ∧ cut.2.PairNonneg

/-- **C74, `cutting_plane_feas`.** Same oracle, same options; `Ell` and `EllStable` start from the same ellipsoid. Either the two runs return the same
outcome (result, iteration count, or exception) and leave the oracle in the same state, or `EllStable` divided by zero at a cut at which the run with `Ell` degenerated. -/
theorem C74_feas_same_outcome {omega : OracleFeas O (Vec n) (Cut n)} {I : O → Prop} (hI : ∀ o x, I o → I (omega o x).1)
    (hω : ∀ o x o' cut, I o → omega o x = (o', .ok (some cut)) → UsableCut cut) (o : O) (ho : I o) (s : EllStable n) (e : Ell n)
    (h : InStep s e) (opts : Options ℝ) :
    ((feas omega (EllStable.space n) ltReal o s opts).2.2 = .error .zeroDivision ∧
      ∃ l o1 e1 o2 cut, FeasTrace omega (Ell.space n) ltReal opts.tolerance o e l o1 e1 ∧
        omega o1 (Ell.xc e1) = (o2, .ok (some cut)) ∧ ¬ (e1.updateBiasCut cut).1.WF) ∨
    ((feas omega (EllStable.space n) ltReal o s opts).1 = (feas omega (Ell.space n) ltReal o e opts).1 ∧
      (feas omega (EllStable.space n) ltReal o s opts).2.2 = (feas omega (Ell.space n) ltReal o e opts).2.2) :=
  feasLoop_sim (A := EllStable.space n) (B := Ell.space n) (R := InStep) (bad := fun e' => ¬ e'.WF)
    (fun _ _ h => h.1.xc) (fun _ _ h => h.1.tsq) hI
    (fun _ _ _ _ _ hi hR ha => update_lockstep hR .bias (hω _ _ _ _ hi ha).1 (hω _ _ _ _ hi ha).2)
    ltReal opts.tolerance opts.maxIters 0 ho h .start

/-- **C74, `cutting_plane_optim`.** -/
theorem C74_optim_same_outcome {omega : OracleOptim O (Vec n) (Cut n) G} {I : O → Prop} (hI : ∀ o x γ, I o → I (omega o x γ).1)
    (hω : ∀ o x γ o' cut γ1, I o → omega o x γ = (o', .ok (cut, γ1)) → UsableCut cut) (o : O) (ho : I o) (s : EllStable n) (e : Ell n)
    (h : InStep s e) (g0 : G) (opts : Options ℝ) :
    ((optim omega (EllStable.space n) ltReal o s g0 opts).2.2 = .error .zeroDivision ∧
      ∃ l o1 e1 o2 ev, OptimTrace omega (Ell.space n) ltReal opts.tolerance o e g0 l o1 e1 ∧ ev.x = Ell.xc e1 ∧
        ev.gamma = (bestOf g0 l).2 ∧ omega o1 ev.x ev.gamma = (o2, .ok (ev.cut, ev.gamma1)) ∧
        ¬ ((Ell.space n).updateFor e1 ev).1.WF) ∨
    ((optim omega (EllStable.space n) ltReal o s g0 opts).1 = (optim omega (Ell.space n) ltReal o e g0 opts).1 ∧
      (optim omega (EllStable.space n) ltReal o s g0 opts).2.2 = (optim omega (Ell.space n) ltReal o e g0 opts).2.2) :=
  optimLoop_sim (A := EllStable.space n) (B := Ell.space n) (R := InStep) (bad := fun e' => ¬ e'.WF)
    (fun _ _ h => h.1.xc) (fun _ _ h => h.1.tsq) hI
    (fun _ _ _ _ _ _ γ1 hi hR ha => by
      obtain ⟨h1, h2⟩ := hω _ _ _ _ _ _ hi ha
      cases γ1 with
      | none => exact update_lockstep hR .bias h1 h2
      | some γ => exact update_lockstep hR .central h1 h2)
    ltReal opts.tolerance opts.maxIters 0 ho h .start rfl

/-- **C74, `cutting_plane_optim_q`.** -/
theorem C74_optim_q_same_outcome {omega : OracleOptimQ O (Vec n) (Cut n) G} {I : O → Prop}
    (hI : ∀ o x γ r, I o → I (omega o x γ r).1)
    (hω : ∀ o x γ r o' ans, I o → omega o x γ r = (o', .ok ans) → UsableCut ans.cut) (o : O) (ho : I o) (s : EllStable n) (e : Ell n)
    (h : InStep s e) (g0 : G) (opts : Options ℝ) :
    ((optimQ omega (EllStable.space n) ltReal o s g0 opts).2.2 = .error .zeroDivision ∧
      ∃ l o1 e1 o2 ans, QTrace omega (Ell.space n) ltReal opts.tolerance o e g0 l o1 e1 ∧
        omega o1 (Ell.xc e1) (bestOfQ g0 l).2 (retryAfter l) = (o2, .ok ans) ∧ ¬ (e1.updateQ ans.cut).1.WF) ∨
    ((optimQ omega (EllStable.space n) ltReal o s g0 opts).1 = (optimQ omega (Ell.space n) ltReal o e g0 opts).1 ∧
      (optimQ omega (EllStable.space n) ltReal o s g0 opts).2.2 = (optimQ omega (Ell.space n) ltReal o e g0 opts).2.2) :=
  optimQLoop_sim (A := EllStable.space n) (B := Ell.space n) (R := InStep) (bad := fun e' => ¬ e'.WF)
    (fun _ _ h => h.1.xc) (fun _ _ h => h.1.tsq) hI
    (fun _ _ _ _ _ _ _ hi hR ha => update_lockstep hR .q (hω _ _ _ _ _ _ hi ha).1 (hω _ _ _ _ _ _ hi ha).2)
    ltReal opts.tolerance opts.maxIters 0 ho h .start rfl rfl

/-! ### The same in terms of `EllStable` alone -/

namespace EllStable

/-- A legitimate `EllStable` object: built by the constructor (the public flag `use_parallel_cut` may have been changed, `no_defer_trick` has not),
positive pivots, positive scale. -/
structure Sound (s : EllStable n) : Prop where
  built : ∃ c, EllCalc.init (n : ℤ) = .ok c ∧ s.helper = { c with useParallelCut := s.helper.useParallelCut }
  pivots : ∀ i : Fin n, 0 < s.mq i i
  kappa_pos : 0 < s.kappa
  defer : s.noDeferTrick = false

/-- The ellipsoid the factors stand for: `(x-xc)ᵀ L D Lᵀ (x-xc) ≤ κ`. -/
def region (s : EllStable n) : Set (Vec n) := {x | (x - s.xc) ⬝ᵥ (ldlt n s.mq *ᵥ (x - s.xc)) ≤ s.kappa}

end EllStable

theorem det_unitLower (S : ℕ → ℕ → ℝ) : (unitLower n S).det = 1 := by
  rw [Matrix.det_of_isLowerTriangular]
  · simp [unitLower]
  · intro i j hij
    have h1 : i < j := hij
    simp [unitLower, h1.ne, h1.not_gt]

theorem ldlt_posDef {S : ℕ → ℕ → ℝ} (h : ∀ i : Fin n, 0 < S i i) : (ldlt n S).PosDef := by
  have hd : (diagonal (fun i : Fin n => (S i i)⁻¹)).PosDef := PosDef.diagonal fun i => inv_pos.mpr (h i)
  have hu : IsUnit (unitLower n S) := (Matrix.isUnit_iff_isUnit_det _).mpr (by rw [det_unitLower]; exact isUnit_one)
  have := hd.mul_mul_conjTranspose_same (B := unitLower n S) (Matrix.vecMul_injective_of_isUnit hu)
  rwa [conjTranspose_eq_transpose_of_trivial] at this

/-- Every legitimate `EllStable` object stands for an `Ell` object with the same ellipsoid. -/
theorem EllStable.Sound.inStep {s : EllStable n} (h : s.Sound) : ∃ e : Ell n, InStep s e ∧ e.region = s.region := by
  have hp := ldlt_posDef h.pivots
  have hu := hp.isUnit
  refine ⟨⟨(ldlt n s.mq)⁻¹, s.xc, s.kappa, s.tsq, s.helper, s.noDeferTrick⟩,
    ⟨⟨⟨h.pivots, Matrix.nonsing_inv_mul _ ((Matrix.isUnit_iff_isUnit_det _).mp hu)⟩, rfl, rfl, rfl, rfl, rfl⟩,
      ⟨h.built, hp.inv, h.kappa_pos⟩, h.defer⟩, ?_⟩
  unfold Ell.region EllStable.region ellipsoid
  simp only [Matrix.nonsing_inv_nonsing_inv _ ((Matrix.isUnit_iff_isUnit_det _).mp hu)]

theorem InStep.region_eq {s : EllStable n} {e : Ell n} (h : InStep s e) : e.region = s.region := by
  have : e.mq⁻¹ = ldlt n s.mq := Matrix.inv_eq_right_inv h.1.rep.inv
  unfold Ell.region EllStable.region ellipsoid
  rw [this, h.1.xc, h.1.kappa]

theorem InStep.sound {s : EllStable n} {e : Ell n} (h : InStep s e) : s.Sound :=
  ⟨by rw [h.1.helper]; exact h.2.1.built, h.1.rep.pos, by rw [h.1.kappa]; exact h.2.1.kappa_pos, h.1.noDefer.trans h.2.2⟩

/-- A prefix of a run with `EllStable` is a prefix of the run with `Ell`. -/
theorem FeasTrace.ofStable {omega : OracleFeas O (Vec n) (Cut n)} {I : O → Prop} (hI : ∀ o x, I o → I (omega o x).1)
    (hω : ∀ o x o' cut, I o → omega o x = (o', .ok (some cut)) → UsableCut cut) {lt tol} {o : O} (ho : I o) {s : EllStable n} {e : Ell n}
    (h : InStep s e) {l o' s'} (ht : FeasTrace omega (EllStable.space n) lt tol o s l o' s') :
    I o' ∧ ∃ e', InStep s' e' ∧ FeasTrace omega (Ell.space n) lt tol o e l o' e' := by
  induction ht with
  | start => exact ⟨ho, e, h, .start⟩
  | @step l o1 s1 o2 s2 cut t a b c ih =>
    obtain ⟨hi, e1, h1, t1⟩ := ih
    have hx : (EllStable.space n).xc s1 = (Ell.space n).xc e1 := h1.1.xc
    have hi2 := hI o1 ((EllStable.space n).xc s1) hi
    rw [a] at hi2
    have hl := update_lockstep h1 .bias (hω _ _ _ _ hi a).1 (hω _ _ _ _ hi a).2
    have b' : s1.update .bias cut = (s2, .ok .success) := b
    rw [b'] at hl
    rcases hl with ⟨h2, -⟩ | ⟨h2, h3⟩
    · cases h2
    · have hR := h3 .success h2.symm
      have he2 : (Ell.space n).updateBiasCut e1 cut = ((e1.update .bias cut).1, .ok .success) :=
        Prod.ext rfl h2.symm
      refine ⟨hi2, _, hR, ?_⟩
      rw [hx]
      rw [hx] at a
      refine t1.step a he2 ?_
      rw [← c]
      exact congrArg (fun z => lt z tol) hR.1.tsq.symm

theorem OptimTrace.ofStable {omega : OracleOptim O (Vec n) (Cut n) G} {I : O → Prop} (hI : ∀ o x γ, I o → I (omega o x γ).1)
    (hω : ∀ o x γ o' cut γ1, I o → omega o x γ = (o', .ok (cut, γ1)) → UsableCut cut) {lt tol} {o : O} (ho : I o)
    {s : EllStable n} {e : Ell n} {g0 : G}
    (h : InStep s e) {l o' s'} (ht : OptimTrace omega (EllStable.space n) lt tol o s g0 l o' s') :
    I o' ∧ ∃ e', InStep s' e' ∧ OptimTrace omega (Ell.space n) lt tol o e g0 l o' e' := by
  induction ht with
  | start => exact ⟨ho, e, h, .start⟩
  | @step l o1 s1 o2 s2 ev t a1 a2 a3 b c ih =>
    obtain ⟨hi, e1, h1, t1⟩ := ih
    have hx : (EllStable.space n).xc s1 = (Ell.space n).xc e1 := h1.1.xc
    have hi2 := hI o1 ev.x ev.gamma hi
    rw [a3] at hi2
    obtain ⟨u1, u2⟩ := hω _ _ _ _ _ _ hi a3
    have hl : Lockstep InStep (fun e' => ¬ e'.WF) ((EllStable.space n).updateFor s1 ev) ((Ell.space n).updateFor e1 ev) := by
      unfold SearchSpace.updateFor
      split_ifs
      · exact update_lockstep h1 .central u1 u2
      · exact update_lockstep h1 .bias u1 u2
    rw [b] at hl
    rcases hl with ⟨h2, -⟩ | ⟨h2, h3⟩
    · cases h2
    · have hR := h3 .success h2.symm
      have he2 : (Ell.space n).updateFor e1 ev = (((Ell.space n).updateFor e1 ev).1, .ok .success) :=
        Prod.ext rfl h2.symm
      refine ⟨hi2, _, hR, ?_⟩
      refine t1.step (a1.trans hx) a2 a3 he2 ?_
      rw [← c]
      exact congrArg (fun z => lt z tol) hR.1.tsq.symm

theorem update_lockstep_ok {s s' : EllStable n} {e : Ell n} (h : InStep s e) (m : Method) {cut : Cut n} (hu : UsableCut cut)
    {st : CutStatus} (ha : s.update m cut = (s', .ok st)) : ∃ e', InStep s' e' ∧ e.update m cut = (e', .ok st) := by
  have hl := update_lockstep h m hu.1 hu.2
  rw [ha] at hl
  rcases hl with ⟨h2, -⟩ | ⟨h2, h3⟩
  · cases h2
  · exact ⟨_, h3 st h2.symm, Prod.ext rfl h2.symm⟩

theorem updateFor_lockstep_ok {s s' : EllStable n} {e : Ell n} (h : InStep s e) {ev : OptimEvent (Vec n) (Cut n) G}
    (hu : UsableCut ev.cut) {st : CutStatus} (ha : (EllStable.space n).updateFor s ev = (s', .ok st)) :
    ∃ e', InStep s' e' ∧ (Ell.space n).updateFor e ev = (e', .ok st) := by
  unfold SearchSpace.updateFor at ha ⊢
  split_ifs at ha ⊢
  · exact update_lockstep_ok h .central hu ha
  · exact update_lockstep_ok h .bias hu ha

/-- With a nonzero gradient only `update_q` answers `NoEffect`. -/
theorem no_noEffect {e e' : Ell n} (he : e.WF) {cut : Cut n} (hg : cut.1 ≠ 0) {m : Method} (hm : m ≠ .q) :
    e.update m cut ≠ (e', .ok .noEffect) := by
  obtain ⟨hn, hh⟩ := he.built.helper_eq
  obtain ⟨g, β⟩ := cut
  have hω := he.omega_pos hg
  intro h
  rw [Ell.update_eq] at h
  rcases hs : e.helper.strategy m β (e.kappa * e.omega g) with f | ⟨st, _ | p⟩
  · rw [Ell.updateCore_error hg hω.ne' hs] at h; cases h
  · rw [Ell.updateCore_none hg hω.ne' hs] at h
    have hst : st = .noSoln := by
      cases m with
      | bias => exact (EllCalc.calcSingleOrParallel_none hs).1
      | central => exact (EllCalc.calcCentral_none hs).1
      | q => exact absurd rfl hm
    subst hst; cases h
  · rw [Ell.updateCore_some hg hω.ne' hs] at h
    have hst : st = .noEffect := by
      have := congrArg Prod.snd h
      simpa using this
    subst hst
    have hB : ∀ β tsq p, e.helper.calcBiasCut β tsq ≠ .ok (.noEffect, some p) := by
      intro β tsq p h
      unfold EllCalc.calcBiasCut at h
      simp only [bind, Except.bind] at h
      split_ifs at h
      · cases h
      · split at h
        · cases h
        · split at h <;> cases h
    cases m with
    | q => exact hm rfl
    | bias =>
      simp only [EllCalc.strategy, EllCalc.calcSingleOrParallel, bind, Except.bind] at hs
      split at hs
      · exact hB _ _ _ hs
      · split_ifs at hs
        · split at hs
          · cases hs
          · exact hB _ _ _ hs
        · split at hs
          · split at hs
            · cases hs
            · unfold EllCalc.calcParallel at hs
              simp only [bind, Except.bind] at hs
              split_ifs at hs
              · cases hs
              · exact hB _ _ _ hs
              · split at hs <;> cases hs
          · cases hs
    | central =>
      simp only [EllCalc.strategy, EllCalc.calcSingleOrParallelCentralCut, bind, Except.bind] at hs
      split at hs
      · split at hs <;> cases hs
      · split_ifs at hs
        · split at hs <;> cases hs
        · split at hs
          · split_ifs at hs
            · cases hs
            · split at hs <;> cases hs
            · split at hs <;> cases hs
          · cases hs

/-- **C75, `cutting_plane_feas` with `EllStable`: verdicts.** `F` inside the initial ellipsoid, cuts valid for `F` with nonzero gradients:
* after any number of iterations the object is legitimate and `F` is inside its ellipsoid;
* if the update then returns `NoSoln`, `F` is empty;
* if `F` is not empty and the run returns `(None, k)`, it ran into the iteration limit or `tsq` fell below the tolerance;
* a returned point is in `F`. -/
theorem C75_stable_infeasibility_sound {omega : OracleFeas O (Vec n) (Cut n)} {I : O → Prop} {F : Set (Vec n)}
    (hω : SeparatingOracle I F omega) (hg : ∀ o x o' cut, I o → omega o x = (o', .ok (some cut)) → cut.1 ≠ 0)
    (o : O) (ho : I o) (s : EllStable n) (hs : s.Sound) (hF : F ⊆ s.region) (opts : Options ℝ) :
    (∀ l o1 s1, FeasTrace omega (EllStable.space n) ltReal opts.tolerance o s l o1 s1 → s1.Sound ∧ F ⊆ s1.region) ∧
    (∀ l o1 s1 o2 cut s2, FeasTrace omega (EllStable.space n) ltReal opts.tolerance o s l o1 s1 →
      omega o1 s1.xc = (o2, .ok (some cut)) → s1.updateBiasCut cut = (s2, .ok .noSoln) → F = ∅) ∧
    (∀ o' s' k, F.Nonempty → feas omega (EllStable.space n) ltReal o s opts = (o', s', .ok (none, k)) →
      k = opts.maxIters ∨ s'.tsq < opts.tolerance) ∧
    (∀ o' s' x k, feas omega (EllStable.space n) ltReal o s opts = (o', s', .ok (some x, k)) → x ∈ F) := by
  obtain ⟨e, hin, hreg⟩ := hs.inStep
  rw [← hreg] at hF
  have hu : ∀ o x o' cut, I o → omega o x = (o', .ok (some cut)) → UsableCut cut := fun o x o' cut hi ha =>
    ⟨hg o x o' cut hi ha, (hω.cut o x o' cut hi ha).1.pair⟩
  obtain ⟨c1, c2, c3, -⟩ := C22_infeasibility_sound hω o ho e hin.2.1 hF opts
  have hno : ∀ l o1 s1 o2 cut s2, FeasTrace omega (EllStable.space n) ltReal opts.tolerance o s l o1 s1 →
      omega o1 s1.xc = (o2, .ok (some cut)) → s1.updateBiasCut cut = (s2, .ok .noSoln) → F = ∅ := by
    intro l o1 s1 o2 cut s2 ht ha hup
    obtain ⟨hi, e1, h1, t1⟩ := ht.ofStable hω.inv hu ho hin
    obtain ⟨e2, -, he2⟩ := update_lockstep_ok h1 .bias (hu _ _ _ _ hi ha) hup
    exact c2 l o1 e1 o2 cut e2 t1 (by rw [← h1.1.xc]; exact ha) he2
  refine ⟨?_, hno, ?_, ?_⟩
  · intro l o1 s1 ht
    obtain ⟨hi, e1, h1, t1⟩ := ht.ofStable hω.inv hu ho hin
    refine ⟨h1.sound, ?_⟩
    rw [← h1.region_eq, h1.2.1.region_eq_hull]
    exact c1 l o1 e1 t1
  · intro o' s' k hne h
    obtain ⟨l, o1, s1, ht, -, ⟨hk, -⟩ | ⟨-, cut, st, h1, h2, h3⟩⟩ :=
      C21_feas_gives_up_for_a_reason omega (EllStable.space n) ltReal o s opts o' s' k h
    · exact .inl hk
    · right
      obtain ⟨hi, e1, hin1, t1⟩ := ht.ofStable hω.inv hu ho hin
      obtain ⟨e2, hin2, he2⟩ := update_lockstep_ok hin1 .bias (hu _ _ _ _ hi h1) h2
      rcases h3 with h3 | h3
      · exfalso
        have hF1 : F ⊆ e1.hull := c1 l o1 e1 t1
        have ha : omega o1 e1.xc = (o', .ok (some cut)) := by rw [← hin1.1.xc]; exact h1
        obtain ⟨h0, hk⟩ := hω.cut _ _ _ _ hi ha
        rcases (Ell.weak_bias hin1.2.1.weak hF1 hne h0 hk he2).2.2 with rfl | rfl
        · exact h3 rfl
        · exact no_noEffect hin1.2.1 (hg _ _ _ _ hi h1) (by simp) he2
      · exact ltReal_iff.mp h3
  · intro o' s' x k h
    obtain ⟨-, -, l, o1, ht, -, ha⟩ := C20_feas_returns_accepted omega (EllStable.space n) ltReal o s opts o' s' x k h
    obtain ⟨hi, -⟩ := ht.ofStable hω.inv hu ho hin
    exact hω.accept _ _ _ hi ha

/-- **C75, `cutting_plane_optim` with `EllStable`: verdicts.** A correct optimisation oracle with nonzero gradients, initial level set inside the initial
ellipsoid: the level set of the best value stays inside; `NoSoln` means that no better point exists; and a run that returns `γ` while points better than
`γ` exist ran into the iteration limit or into the tolerance. -/
theorem C75_stable_optimality_sound [Preorder G] {omega : OracleOptim O (Vec n) (Cut n) G} {I : O → Prop}
    {L : G → Set (Vec n)} (hL : Antitone L) (hω : LevelOracle I L omega)
    (hu : ∀ o x γ o' cut γ1, I o → omega o x γ = (o', .ok (cut, γ1)) → UsableCut cut) (o : O) (ho : I o) (s : EllStable n)
    (hs : s.Sound) (g0 : G) (hF : L g0 ⊆ s.region) (opts : Options ℝ) :
    (∀ l o1 s1, OptimTrace omega (EllStable.space n) ltReal opts.tolerance o s g0 l o1 s1 →
      s1.Sound ∧ L (bestOf g0 l).2 ⊆ s1.region) ∧
    (∀ l o1 s1 ev o2 s2, OptimTrace omega (EllStable.space n) ltReal opts.tolerance o s g0 l o1 s1 →
      ev.x = s1.xc → ev.gamma = (bestOf g0 l).2 → omega o1 ev.x ev.gamma = (o2, .ok (ev.cut, ev.gamma1)) →
      (EllStable.space n).updateFor s1 ev = (s2, .ok .noSoln) → L (bestOf g0 (l ++ [ev])).2 = ∅) ∧
    (∀ o' s' xb γ k, (L γ).Nonempty →
      optim omega (EllStable.space n) ltReal o s g0 opts = (o', s', .ok (xb, γ, k)) →
      k = opts.maxIters ∨ s'.tsq < opts.tolerance) := by
  obtain ⟨e, hin, hreg⟩ := hs.inStep
  rw [← hreg] at hF
  obtain ⟨c1, c2, -⟩ := C26_optimality_sound hL hω o ho e hin.2.1 g0 hF opts
  refine ⟨?_, ?_, ?_⟩
  · intro l o1 s1 ht
    obtain ⟨hi, e1, h1, t1⟩ := ht.ofStable hω.inv hu ho hin
    refine ⟨h1.sound, ?_⟩
    rw [← h1.region_eq, h1.2.1.region_eq_hull]
    exact c1 l o1 e1 t1
  · intro l o1 s1 ev o2 s2 ht a1 a2 a3 a4
    obtain ⟨hi, e1, h1, t1⟩ := ht.ofStable hω.inv hu ho hin
    obtain ⟨e2, -, he2⟩ := updateFor_lockstep_ok h1 (hu _ _ _ _ _ _ hi a3) a4
    exact c2 l o1 e1 ev o2 e2 t1 (a1.trans h1.1.xc) a2 a3 he2
  · intro o' s' xb γ k hne h
    obtain ⟨l, o1, s1, ht, -, ⟨hk, -⟩ | ⟨-, ev, st, h1, h2, h3, h4, h5, hb⟩⟩ :=
      C24_optim_consistent_pair omega (EllStable.space n) ltReal o s g0 opts o' s' xb γ k h
    · exact .inl hk
    · right
      obtain ⟨hi, e1, hin1, t1⟩ := ht.ofStable hω.inv hu ho hin
      have hγ : ev.gamma1.getD ev.gamma = γ := by rw [← bestOf_snoc_snd g0 l ev h2, ← hb]
      obtain ⟨e2, hin2, he2⟩ := updateFor_lockstep_ok hin1 (hu _ _ _ _ _ _ hi h3) h4
      rcases h5 with h5 | h5
      · exfalso
        have hx1 : ev.x = e1.xc := h1.trans hin1.1.xc
        rcases (weak_updateFor hL hω hi hin1.2.1.weak hx1 h3 (by rw [h2]; exact c1 l o1 e1 t1) (by rw [hγ]; exact hne) he2).2.2 with rfl | rfl
        · exact h5 rfl
        · have hg := (hu _ _ _ _ _ _ hi h3).1
          unfold SearchSpace.updateFor at he2
          split_ifs at he2
          · exact no_noEffect hin1.2.1 hg (m := .central) (by simp) he2
          · exact no_noEffect hin1.2.1 hg (m := .bias) (by simp) he2
      · exact ltReal_iff.mp h5

/-- `2(n+1) ln(vol(E)/vol(F))` for the ellipsoid of an `EllStable` object. -/
noncomputable def stableBound (s : EllStable n) (F : Set (Vec n)) : ℝ :=
  2 * ((n : ℝ) + 1) * Real.log ((volume s.region).toReal / (volume F).toReal)

/-- **C75, `cutting_plane_feas` with `EllStable`: convergence.** If `F` has positive volume the division by zero of C74 cannot happen and the bound of C73 holds: with
`max_iters > 2(n+1) ln(vol(E)/vol(F))` and `tolerance ≤ 0` the run returns a point of `F`. -/
theorem C75_stable_feas_finds {omega : OracleFeas O (Vec n) (Cut n)} {I : O → Prop} {F : Set (Vec n)}
    (hω : ProperOracle I F omega) (o : O) (ho : I o) (s : EllStable n) (hs : s.Sound) (hF : F ⊆ s.region)
    (hv : volume F ≠ 0) (opts : Options ℝ) (htol : opts.tolerance ≤ 0) (hmax : stableBound s F < opts.maxIters) :
    ∃ o' s' x k, feas omega (EllStable.space n) ltReal o s opts = (o', s', .ok (some x, k)) ∧ x ∈ F ∧
      (k : ℝ) ≤ stableBound s F := by
  obtain ⟨e, hin, hreg⟩ := hs.inStep
  have hb : stableBound s F = volBound e F := by unfold stableBound volBound; rw [hreg]
  rw [← hreg] at hF
  rw [hb] at hmax ⊢
  have hT := thick_of_volume hv
  obtain ⟨o', e', x, k, h1, h2, h3⟩ := C73_feas_finds hω o ho e hin.2.1 hF hv opts htol hmax
  rcases C74_feas_same_outcome hω.inv (fun o x o' cut hi ha => ⟨(hω.shape o x o' cut hi ha).2, (hω.cut o x o' cut hi ha).1.pair⟩)
    o ho s e hin opts with ⟨-, l, o1, e1, o2, cut, t, a, hbad⟩ | ⟨ha, hr⟩
  · exfalso
    obtain ⟨w, hF1, -⟩ := t.thick (hω.cuts subset_rfl) hT ho hin.2.1 hF
    have hi := t.inv_oracle hω.toCuttingOracle ho
    obtain ⟨h0, hg1⟩ := hω.shape _ _ _ _ hi a
    obtain ⟨e2, hu, w2, -⟩ := Ell.thick_bias w hT hF1 h0 hg1 (hω.cut _ _ _ _ hi a).2
    rw [hu] at hbad
    exact hbad w2
  · rw [h1] at ha hr
    exact ⟨o', _, x, k, Prod.ext ha (Prod.ext rfl hr), h2, h3⟩

/-- **C75, `cutting_plane_optim` with `EllStable`: convergence.** With `tolerance ≤ 0` and more than `2(n+1) ln(vol(E)/vol(L γ*))` iterations allowed, a value the run returns
is at least `γ*`. -/
theorem C75_stable_optim_bound [LinearOrder G] {omega : OracleOptim O (Vec n) (Cut n) G} {I : O → Prop}
    {L : G → Set (Vec n)} (hL : Antitone L) (hω : ProperLevelOracle I L omega)
    (hpair : ∀ o x γ o' cut γ1, I o → omega o x γ = (o', .ok (cut, some γ1)) → cut.2.PairNonneg) (o : O) (ho : I o) (s : EllStable n)
    (hs : s.Sound) (g0 γs : G) (hF : L g0 ⊆ s.region) (hv : volume (L γs) ≠ 0) (opts : Options ℝ) (htol : opts.tolerance ≤ 0)
    (hmax : stableBound s (L γs) < opts.maxIters) (o' : O) (s' : EllStable n) (xb : Option (Vec n)) (γ : G) (k : ℕ)
    (h : optim omega (EllStable.space n) ltReal o s g0 opts = (o', s', .ok (xb, γ, k))) : γs ≤ γ := by
  obtain ⟨e, hin, hreg⟩ := hs.inStep
  have hb : stableBound s (L γs) = volBound e (L γs) := by unfold stableBound volBound; rw [hreg]
  rw [← hreg] at hF
  rw [hb] at hmax
  have hu : ∀ o x γ o' cut γ1, I o → omega o x γ = (o', .ok (cut, γ1)) → UsableCut cut := by
    intro o x γ o' cut γ1 hi ha
    cases γ1 with
    | none => exact ⟨(hω.shape _ _ _ _ _ hi ha).2, (hω.cut _ _ _ _ _ hi ha).1.pair⟩
    | some γ1 => exact ⟨(hω.shapeCentral _ _ _ _ _ _ hi ha).2, hpair _ _ _ _ _ _ hi ha⟩
  rcases C74_optim_same_outcome hω.inv hu o ho s e hin g0 opts with ⟨h1, -⟩ | ⟨h1, h2⟩
  · rw [h] at h1; cases h1
  · rw [h] at h1 h2
    exact (C73_optim_volume_bound hL hω o ho e hin.2.1 g0 γs hF hv opts).2 htol hmax _ _ xb γ k
      (Prod.ext h1.symm (Prod.ext rfl h2.symm))

/-- The constructor builds a legitimate object whose ellipsoid is the ball. -/
theorem stable_init_ball {R : ℝ} (hR : 0 < R) (x0 : Vec n) (hn : 2 ≤ n) :
    ∃ s, EllStable.init (.scalar (R ^ 2)) x0 = .ok s ∧ s.Sound ∧ s.region = ball x0 R := by
  obtain ⟨e, he⟩ := (C60_init_rejects (.scalar (R ^ 2)) x0).mpr hn
  obtain ⟨w, hreg, -⟩ := init_ball hR he
  obtain ⟨w1, w2, s, h1, h2⟩ := init_refines (.scalar (R ^ 2)) (by positivity) x0 he
  have hin : InStep s e := ⟨h2, w1, w2⟩
  exact ⟨s, h1, hin.sound, by rw [← hin.region_eq, hreg]⟩

/-- The hypotheses of C74 and C75 are met by `EllStable(1, [0,0])` and the oracle of a small disc. -/
example : ∃ (s : EllStable 2) (N : ℕ), EllStable.init (.scalar (1 ^ 2)) (![0, 0] : Vec 2) = .ok s ∧ s.Sound ∧ (∃ e, InStep s e) ∧
    ProperOracle (fun _ => True) (ball ![1 / 2, 0] (1 / 4)) (ballOracle (![1 / 2, 0] : Vec 2) (1 / 4)) ∧
    ball (![1 / 2, 0] : Vec 2) (1 / 4) ⊆ s.region ∧ volume (ball (![1 / 2, 0] : Vec 2) (1 / 4)) ≠ 0 ∧
    stableBound s (ball (![1 / 2, 0] : Vec 2) (1 / 4)) < N := by
  obtain ⟨s, h1, h2, h3⟩ := stable_init_ball one_pos (![0, 0] : Vec 2) le_rfl
  obtain ⟨e2, he2⟩ := (C60_init_rejects (.scalar ((1 / 4) ^ 2)) (![1 / 2, 0] : Vec 2)).mpr le_rfl
  obtain ⟨w2, hreg2, -⟩ := init_ball (by norm_num) he2
  obtain ⟨N, hN⟩ := exists_nat_gt (stableBound s (ball (![1 / 2, 0] : Vec 2) (1 / 4)))
  obtain ⟨e, he, -⟩ := h2.inStep
  refine ⟨s, N, h1, h2, ⟨e, he⟩, (ballOracle_regular _ (by norm_num)).proper, ?_, ?_, hN⟩
  · rw [h3]
    intro x hx
    simp [ball, dotProduct, Fin.sum_univ_two] at hx ⊢
    nlinarith [sq_nonneg (x 1), sq_nonneg (x 0 - 1)]
  · rw [← hreg2]; exact WF.volume_ne_zero w2

/-- Likewise for minimising `|x|²`. -/
example : ∃ (s : EllStable 2) (N : ℕ), s.Sound ∧
    ProperLevelOracle (fun _ => True) (fun γ : ℝ => {y | γ ≤ -((y - 0) ⬝ᵥ (y - 0))}) (distOracle (0 : Vec 2)) ∧
    (∀ o x γ o' cut γ1, distOracle (0 : Vec 2) o x γ = (o', .ok (cut, some γ1)) → cut.2.PairNonneg) ∧
    {y : Vec 2 | (-1 : ℝ) ≤ -((y - 0) ⬝ᵥ (y - 0))} ⊆ s.region ∧
    volume {y : Vec 2 | (-(1 / 4) ^ 2 : ℝ) ≤ -((y - 0) ⬝ᵥ (y - 0))} ≠ 0 ∧
    stableBound s {y : Vec 2 | (-(1 / 4) ^ 2 : ℝ) ≤ -((y - 0) ⬝ᵥ (y - 0))} < N := by
  obtain ⟨s, -, h2, h3⟩ := stable_init_ball one_pos (0 : Vec 2) le_rfl
  obtain ⟨e2, he2⟩ := (C60_init_rejects (.scalar ((1 / 4) ^ 2)) (0 : Vec 2)).mpr le_rfl
  obtain ⟨w2, hreg2, -⟩ := init_ball (by norm_num) he2
  obtain ⟨N, hN⟩ := exists_nat_gt (stableBound s {y : Vec 2 | (-(1 / 4) ^ 2 : ℝ) ≤ -((y - 0) ⬝ᵥ (y - 0))})
  refine ⟨s, N, h2, (distOracle_regular 0).proper, ?_, ?_, ?_, hN⟩
  · intro o x γ o' cut γ1 h
    unfold distOracle at h
    split_ifs at h <;> simp at h
    all_goals (obtain ⟨rfl, -⟩ := h; trivial)
  · rw [h3]
    intro x hx
    simp only [Set.mem_ofPred_eq] at hx
    show (x - 0) ⬝ᵥ (x - 0) ≤ 1 ^ 2
    linarith
  · have h1 : {y : Vec 2 | (-(1 / 4) ^ 2 : ℝ) ≤ -((y - 0) ⬝ᵥ (y - 0))} = e2.region := by
      rw [hreg2]
      ext x
      simp only [Set.mem_ofPred_eq, ball]
      constructor <;> intro h <;> linarith
    rw [h1]; exact WF.volume_ne_zero w2

end Ellalgo
