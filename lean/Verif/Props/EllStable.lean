import Verif.Lemmas.EllStable
import Verif.Lemmas.SigmaZero
import Verif.Props.EllHistory

/-! # C14, C15: `EllStable` -/

namespace Ellalgo

open Matrix Spec EllCalcCore EllStable Finset

variable {n : ℕ}

/-- The strategy behind each public method. -/
noncomputable def EllCalc.strategy (c : EllCalc) : Method → Strategy
  | .bias => c.calcSingleOrParallel
  | .central => c.calcSingleOrParallelCentralCut
  | .q => c.calcSingleOrParallelQ

theorem Ell.update_eq (e : Ell n) (m : Method) (cut : Cut n) : e.update m cut = e.updateCore cut (e.helper.strategy m) := by
  cases m <;> rfl

theorem EllStable.update_eq (s : EllStable n) (m : Method) (cut : Cut n) :
    s.update m cut = s.updateCore cut (s.helper.strategy m) := by
  cases m <;> rfl

theorem strategy_idle {e : Ell n} (he : e.WF) (m : Method) {β : CutChoice} {tsq : ℝ} (ht : 0 < tsq) {st : CutStatus}
    {p : Params} (h : e.helper.strategy m β tsq = .ok (st, some p)) : p.Idle := by
  obtain ⟨hn, hh⟩ := he.built.helper_eq
  rw [hh] at h
  cases m with
  | bias => exact EllCalc.calcSingleOrParallel_idle hn ht h
  | central => exact EllCalc.calcCentral_idle hn ht h
  | q => exact EllCalc.calcSingleOrParallelQ_idle hn ht h

/-- If the deferring object is still legitimate after an update, the parameters were `σ < 1` and `δ > 0`. -/
theorem strict_of_applied_WF {e : Ell n} (he : e.WF) (hd : e.noDeferTrick = false) {g : Vec n} (hg : g ≠ 0) {p : Params}
    (h : (e.applied g p).WF) : p.sigma < 1 ∧ 0 < p.delta := by
  have hω := he.omega_pos hg
  constructor
  · have h2 := PosDef.quad_pos h.posDef hg
    simp only [Ell.applied, hd, Bool.false_eq_true, if_false] at h2
    rw [sub_mulVec, dotProduct_sub, smul_mulVec, dotProduct_smul, vecMulVec_mulVec, op_smul_eq_smul, dotProduct_smul,
      dotProduct_comm (e.mq *ᵥ g) g] at h2
    simp only [smul_eq_mul] at h2
    change 0 < e.omega g - p.sigma / e.omega g * (e.omega g * e.omega g) at h2
    rw [show p.sigma / e.omega g * (e.omega g * e.omega g) = p.sigma * e.omega g by field_simp] at h2
    by_contra hc
    nlinarith
  · have h2 := h.kappa_pos
    simp only [Ell.applied, hd, Bool.false_eq_true, if_false] at h2
    exact (pos_iff_pos_of_mul_pos h2).mp he.kappa_pos

theorem strict_of_update_WF {e : Ell n} (he : e.WF) (hd : e.noDeferTrick = false) {g : Vec n} (hg : g ≠ 0) {β : CutChoice}
    {strat : Strategy} (h : (e.updateCore (g, β) strat).1.WF) {st : CutStatus} {p : Params}
    (hp : strat β (e.kappa * e.omega g) = .ok (st, some p)) : p.sigma < 1 ∧ 0 < p.delta := by
  rw [Ell.updateCore_some hg (he.omega_pos hg).ne' hp] at h
  exact strict_of_applied_WF he hd hg h

/-- One call keeps the two objects in step. -/
theorem update_refines {s : EllStable n} {e : Ell n} (h : Refines s e) (he : e.WF) (hd : e.noDeferTrick = false)
    (m : Method) (cut : Cut n) (hg : cut.1 ≠ 0) (hWF : (e.update m cut).1.WF) :
    (s.update m cut).2 = (e.update m cut).2 ∧ Refines (s.update m cut).1 (e.update m cut).1 := by
  obtain ⟨g, β⟩ := cut
  rw [EllStable.update_eq, Ell.update_eq] at *
  rw [h.helper]
  refine refines_step h he hg β _ (fun st p hp => strict_of_update_WF he hd hg hWF hp)
    (fun st p hp => strategy_idle he m (mul_pos he.kappa_pos (he.omega_pos hg)) hp) (fun h1 => ?_)
  rw [hd] at h1; cases h1

theorem Ell.update_noDefer (e : Ell n) (m : Method) (cut : Cut n) : (e.update m cut).1.noDeferTrick = e.noDeferTrick := by
  rw [Ell.update_eq]
  unfold Ell.updateCore
  simp only
  split_ifs
  all_goals first | rfl | (split <;> rfl)

/-- Every cut of the history has a nonzero gradient, and every update leaves a positive definite matrix and `κ > 0`. -/
def NonsingularRun (e : Ell n) : List (Method × Cut n) → Prop
  | [] => True
  | (m, cut) :: l => cut.1 ≠ 0 ∧ (e.update m cut).1.WF ∧ NonsingularRun (e.update m cut).1 l

theorem run_refines {s : EllStable n} {e : Ell n} (h : Refines s e) (he : e.WF) (hd : e.noDeferTrick = false)
    (l : List (Method × Cut n)) (hl : NonsingularRun e l) :
    (s.run l).2 = (e.run l).2 ∧ Refines (s.run l).1 (e.run l).1 := by
  induction l generalizing s e with
  | nil => exact ⟨rfl, h⟩
  | cons a l ih =>
    obtain ⟨m, cut⟩ := a
    obtain ⟨hg, hWF, hl'⟩ := hl
    obtain ⟨h1, h2⟩ := update_refines h he hd m cut hg hWF
    obtain ⟨h3, h4⟩ := ih h2 hWF ((Ell.update_noDefer e m cut).trans hd) hl'
    refine ⟨?_, h4⟩
    simp only [EllStable.run, Ell.run, h1, h2.xc, h2.tsq, h3]

theorem represents_diagonal {d : Vec n} (hd : ∀ i, 0 < d i) : Represents (toArr2 (diagonal d)) (diagonal d) := by
  have hdd : ∀ i : Fin n, toArr2 (diagonal d) i i = d i := fun i => by rw [toArr2_apply, diagonal_apply_eq]
  have hL : unitLower n (toArr2 (diagonal d)) = 1 := by
    ext i j
    simp only [unitLower, Matrix.of_apply, toArr2_apply, one_apply]
    split_ifs with h1 h2
    · rfl
    · exact diagonal_apply_ne _ h1
    · rfl
  refine ⟨fun i => by rw [hdd]; exact hd i, ?_⟩
  unfold ldlt
  rw [hL, one_mul, transpose_one, mul_one, diagonal_mul_diagonal, ← diagonal_one]
  congr 1
  funext i
  rw [hdd, mul_inv_cancel₀ (hd i).ne']

/-- The constructors build matching objects. -/
theorem init_refines (val : InitVal n) (hval : match val with | .scalar κ => 0 < κ | .diag d => ∀ i, 0 < d i) (x0 : Vec n)
    {e : Ell n} (h : Ell.init val x0 = .ok e) :
    e.WF ∧ e.noDeferTrick = false ∧ ∃ s, EllStable.init val x0 = .ok s ∧ Refines s e := by
  have he : e.WF := by
    cases val with
    | scalar κ => exact (C60_init_scalar κ hval x0 e h).1
    | diag d => exact (C60_init_diag d hval x0 e h).1
  unfold Ell.init at h
  unfold EllStable.init
  rcases hx : EllCalc.init (n : ℤ) with f | c
  · rw [hx] at h; cases h
  · rw [hx] at h
    cases val with
    | scalar κ =>
      simp only [except_ok_bind, Except.ok.injEq] at h
      subst h
      refine ⟨he, rfl, _, rfl, ?_, rfl, rfl, rfl, rfl, rfl⟩
      have := represents_diagonal (n := n) (d := 1) (fun _ => one_pos)
      simp only [Pi.one_def, diagonal_one] at this
      exact this
    | diag d =>
      simp only [except_ok_bind, Except.ok.injEq] at h
      subst h
      exact ⟨he, rfl, _, rfl, represents_diagonal hval, rfl, rfl, rfl, rfl, rfl⟩

/-- **C14.** From the same constructor arguments, after any history of calls with nonzero gradients whose updates keep the shape nonsingular,
`EllStable` has shown the same outcomes, centres and `tsq` after every call as `Ell`; it has the same `kappa`, and its stored factors are those of the
inverse of `Ell`'s matrix. (Apply it to the prefixes of a history for the state after each call.) -/
theorem C14_stable_refines_ell (val : InitVal n) (hval : match val with | .scalar κ => 0 < κ | .diag d => ∀ i, 0 < d i)
    (x0 : Vec n) (e : Ell n) (h : Ell.init val x0 = .ok e) (l : List (Method × Cut n)) (hl : NonsingularRun e l) :
    ∃ s, EllStable.init val x0 = .ok s ∧ (s.run l).2 = (e.run l).2 ∧
      (s.run l).1.xc = (e.run l).1.xc ∧ (s.run l).1.tsq = (e.run l).1.tsq ∧ (s.run l).1.kappa = (e.run l).1.kappa ∧
      (∀ i : Fin n, 0 < (s.run l).1.mq i i) ∧ (e.run l).1.mq * ldlt n (s.run l).1.mq = 1 := by
  obtain ⟨he, hd, s, hs, hr⟩ := init_refines val hval x0 h
  obtain ⟨h1, h2⟩ := run_refines hr he hd l hl
  exact ⟨s, hs, h1, h2.xc, h2.tsq, h2.kappa, h2.rep.pos, h2.rep.inv⟩

theorem StrictRun.nonsingular {e : Ell n} (he : e.WF) {l : List (Method × Cut n)} (h : StrictRun e l)
    (hg : ∀ c ∈ l, c.2.1 ≠ 0) : NonsingularRun e l := by
  induction l generalizing e with
  | nil => trivial
  | cons a l ih =>
    obtain ⟨m, cut⟩ := a
    have hW := update_WF he m cut fun hg => (h.1 hg).keepsWidth (mul_pos he.kappa_pos (he.omega_pos hg))
    exact ⟨hg _ List.mem_cons_self, hW, ih hW h.2 fun c hc => hg c (List.mem_cons_of_mem _ hc)⟩

/-- C14 under conditions on the cuts only: nonzero gradients and strict cuts (as in C08). -/
theorem C14_strict_cuts (val : InitVal n) (hval : match val with | .scalar κ => 0 < κ | .diag d => ∀ i, 0 < d i)
    (x0 : Vec n) (e : Ell n) (h : Ell.init val x0 = .ok e) (l : List (Method × Cut n)) (hl : StrictRun e l)
    (hg : ∀ c ∈ l, c.2.1 ≠ 0) :
    ∃ s, EllStable.init val x0 = .ok s ∧ (s.run l).2 = (e.run l).2 ∧ (s.run l).1.kappa = (e.run l).1.kappa ∧
      (e.run l).1.mq * ldlt n (s.run l).1.mq = 1 := by
  obtain ⟨s, h1, h2, -, -, h3, -, h4⟩ := C14_stable_refines_ell val hval x0 e h l
    (hl.nonsingular (init_refines val hval x0 h).1 hg)
  exact ⟨s, h1, h2, h3, h4⟩

/-- A history to which C14 applies: a deep cut and a central cut along different directions. -/
example : ∃ e, Ell.init (.scalar 1) (![0, 0] : Vec 2) = .ok e ∧
    StrictRun e [(.bias, (![1, 0], .scalar (1 / 2))), (.central, (![1, 1], .scalar 7))] ∧
    ∀ c ∈ ([(.bias, (![1, 0], .scalar (1 / 2))), (.central, (![1, 1], .scalar 7))] : List (Method × Cut 2)), c.2.1 ≠ 0 := by
  have h : Ell.init (.scalar 1) (![0, 0] : Vec 2) = .ok
      { mq := 1, xc := ![0, 0], kappa := 1, tsq := 0, helper := EllCalc.std 2 true, noDeferTrick := false } := by
    unfold Ell.init
    rw [EllCalc.init_two_le le_rfl]
    rfl
  refine ⟨_, h, ⟨fun _ => ?_, fun _ => trivial, trivial⟩, ?_⟩
  · simp only [StrictCut]
    norm_num [Matrix.mulVec, dotProduct, Fin.sum_univ_two]
  · intro c hc
    simp only [List.mem_cons, List.not_mem_nil, or_false] at hc
    rcases hc with rfl | rfl <;> intro h0 <;> simpa using congrFun h0 0

/-! The hypotheses of C14 are needed. -/

theorem EllStable.sum_wz {s : EllStable n} {e : Ell n} (h : Refines s e) (g : Vec n) :
    ∑ i : Fin n, (fwd n s.mq (toArr1 g)).2 i * invDiag n (fwd n s.mq (toArr1 g)).1 (fwd n s.mq (toArr1 g)).2 i =
      e.omega g := by
  unfold Ell.omega
  rw [omega_eq h.rep]; rfl

/-- A zero gradient makes `Ell` raise `ValueError`; `EllStable` answers `NoSoln` to the same deep cut. -/
theorem C14_zero_gradient_differs {s : EllStable n} {e : Ell n} (h : Refines s e) {β : ℝ} (hβ : 0 < β) :
    (e.updateBiasCut (0, .scalar β)).2 = .error .valueError ∧ (s.updateBiasCut (0, .scalar β)).2 = .ok .noSoln := by
  constructor
  · unfold Ell.updateBiasCut; rw [Ell.updateCore_zero]
  · have h0 : e.omega 0 = 0 := by simp [Ell.omega]
    unfold EllStable.updateBiasCut EllStable.updateCore
    simp only [EllStable.sum_wz h, h0, mul_zero]
    have : s.helper.calcSingleOrParallel (.scalar β) 0 = .ok (.noSoln, none) :=
      EllCalc.calcBiasCut_noSoln hβ.le (by positivity)
    rw [this]

/-- A cut that touches the ellipsoid is answered `Success` by `Ell`; `EllStable` divides by zero (line 237), after having
moved its centre. -/
theorem C14_touching_cut_differs {s : EllStable n} {e : Ell n} (h : Refines s e) (he : e.WF) {g : Vec n} (hg : g ≠ 0) {β : ℝ}
    (h0 : 0 ≤ β) (hβ : β * β = e.kappa * (g ⬝ᵥ (e.mq *ᵥ g))) :
    (e.updateBiasCut (g, .scalar β)).2 = .ok .success ∧
    (s.updateBiasCut (g, .scalar β)).2 = .error .zeroDivision ∧
    (s.updateBiasCut (g, .scalar β)).1.xc = (e.updateBiasCut (g, .scalar β)).1.xc := by
  obtain ⟨hn, hh⟩ := he.built.helper_eq
  have hn2 : (2 : ℝ) ≤ n := by exact_mod_cast hn
  have hω := he.omega_pos hg
  have hM : e.mq.IsSymm := isHermitian_iff_isSymm.mp he.posDef.isHermitian
  have ht : 0 < e.kappa * e.omega g := mul_pos he.kappa_pos hω
  have hβ' : β * β = e.kappa * e.omega g := hβ
  have hs : e.helper.calcSingleOrParallel (.scalar β) (e.kappa * e.omega g) =
      .ok (.success, some (biasParams n β (Real.sqrt (e.kappa * e.omega g)))) := by
    rw [hh]; exact EllCalc.calcBiasCut_success h0 ht hβ'.le
  have hsq : Real.sqrt (e.kappa * e.omega g) = β := by rw [← hβ', Real.sqrt_mul_self h0]
  have hβ0 : 0 < β := by rw [← hsq]; exact Real.sqrt_pos.mpr ht
  have hσ : (biasParams n β (Real.sqrt (e.kappa * e.omega g))).sigma = 1 := by
    simp only [biasParams, hsq]
    field_simp
    ring
  have hup := Ell.updateCore_some hg hω.ne' hs
  unfold Ell.updateBiasCut EllStable.updateBiasCut
  rw [hup, h.helper, EllStable.updateCore_eq h.rep (ω := e.omega g) rfl hω]
  · rw [h.kappa, hs]
    simp only [if_pos hσ]
    refine ⟨trivial, trivial, ?_⟩
    simp only [Ell.applied, h.xc]
  · intro st p hp
    rw [h.kappa, hs] at hp
    cases hp
    exact hσ.le
  · exact hM

/-- The unit disc and the cut `x₀ + 1 ≤ 0` that touches it satisfy the hypotheses. -/
example : ∃ s, Refines s unitDisc ∧ (1 : ℝ) * 1 = unitDisc.kappa * (![1, 0] ⬝ᵥ (unitDisc.mq *ᵥ ![1, 0])) := by
  have := represents_diagonal (n := 2) (d := 1) (fun _ => one_pos)
  simp only [Pi.one_def, diagonal_one] at this
  exact ⟨{ mq := toArr2 1, xc := unitDisc.xc, kappa := unitDisc.kappa, tsq := unitDisc.tsq, helper := unitDisc.helper,
           noDeferTrick := unitDisc.noDeferTrick }, ⟨this, rfl, rfl, rfl, rfl, rfl⟩, by
    have := unitDisc_tsq
    unfold Ell.omega at this
    rw [this]; norm_num⟩

/-! ### C15 -/

/-- The full claim C15. -/
def C15_claim : Prop :=
  ∀ (n : ℕ) (val : InitVal n) (x0 : Vec n) (s : EllStable n),
    (match val with | .scalar κ => 0 < κ | .diag d => ∀ i, 0 < d i) → EllStable.init val x0 = .ok s →
    ∀ l : List (Method × Cut n), ({ s with noDeferTrick := true }.run l).2 = (s.run l).2

theorem EllStable.updateCore_tsq (s : EllStable n) (cut : Cut n) (strat : Strategy) :
    (s.updateCore cut strat).1.tsq = s.kappa * ∑ i : Fin n, wOf s.mq cut.1 i * zOf s.mq cut.1 i := by
  unfold EllStable.updateCore
  simp only
  split
  · rfl
  · rfl
  · split_ifs
    · rfl
    · rfl
    · rfl
    · rfl
    · unfold EllStable.finish
      simp only
      split_ifs <;> rfl

/-- `tsq` after a central cut along the first axis, in dimension 2. -/
theorem tsq_axis (s : EllStable 2) (β : CutChoice) :
    (s.updateCentralCut (![1, 0], β)).1.tsq = s.kappa * (s.mq 0 0 + s.mq 1 0 ^ 2 * s.mq 1 1) := by
  unfold EllStable.updateCentralCut
  rw [EllStable.updateCore_tsq]
  have f := (fwd_spec 2 s.mq (toArr1 (![1, 0] : Vec 2))).2.2
  have f0 := f 0 (by norm_num)
  have f1 := f 1 (by norm_num)
  simp [toArr1] at f0 f1
  have w0 : wOf s.mq ![1, 0] 0 = 1 := f0.symm
  have w1 : wOf s.mq ![1, 0] 1 = - s.mq 1 0 := by
    have : wOf s.mq ![1, 0] 1 = (fwd 2 s.mq (toArr1 (![1, 0] : Vec 2))).2 1 := rfl
    rw [this]
    rw [← f0] at f1
    linarith
  rw [Fin.sum_univ_two]
  simp only [Fin.val_zero, Fin.val_one]
  rw [zOf_eq _ _ (by norm_num), zOf_eq _ _ (by norm_num), w0, w1]
  ring

/-- `EllStable(1, [0, 0])` with either flag. -/
noncomputable def stable0 (b : Bool) : EllStable 2 :=
  { mq := toArr2 (1 : Mat 2), xc := 0, kappa := 1, tsq := 0, helper := EllCalc.std 2 true, noDeferTrick := b }

/-- After the central cut `x₀ + x₁ ≤ 0`. -/
theorem stable0_first (b : Bool) : ∃ S : ℕ → ℕ → ℝ, S 0 0 = 1 / 2 ∧ S 1 1 = 2 / 3 ∧ S 1 0 = 1 / 2 ∧
    ((stable0 b).updateCentralCut (![1, 1], .scalar 0)).1.mq = (fun i j => (if b then 4 / 3 else 1) * S i j) ∧
    ((stable0 b).updateCentralCut (![1, 1], .scalar 0)).1.kappa = if b then 1 else 4 / 3 := by
  have hrep := represents_diagonal (n := 2) (d := 1) (fun _ => one_pos)
  simp only [Pi.one_def, diagonal_one] at hrep
  have hω : (![1, 1] : Vec 2) ⬝ᵥ ((1 : Mat 2) *ᵥ ![1, 1]) = 2 := by simp; norm_num
  have hs : (stable0 b).helper.calcSingleOrParallelCentralCut (.scalar 0) ((stable0 b).kappa * 2) =
      .ok (.success, some ⟨1 / 3 * Real.sqrt 2, 2 / 3, 4 / 3⟩) := by
    simp only [stable0, EllCalc.calcSingleOrParallelCentralCut]
    rw [psqrt_ok (by norm_num)]
    simp only [EllCalc.std, EllCalcCore.std, calcCentralCut, except_ok_bind]
    norm_num
  have hne : ((2 : ℝ) / 3) ≠ 1 := by norm_num
  have hne0 : ((2 : ℝ) / 3) ≠ 0 := by norm_num
  have hM : (1 : Mat 2).IsSymm := Matrix.isSymm_one
  obtain ⟨hR, -⟩ := rankOne_represents hrep hM hω (by norm_num : (0 : ℝ) < 2) (by norm_num : (2 : ℝ) / 3 < 1) hne0
  set st := rankOne 2 (fwd 2 (toArr2 (1 : Mat 2)) (toArr1 (![1, 1] : Vec 2))).1 (zOf (toArr2 1) ![1, 1])
    (toArr1 (![1, 1] : Vec 2)) ((2 : ℝ) / (2 / 3 / (1 - 2 / 3))) with hst
  have f := (fwd_spec 2 (toArr2 (1 : Mat 2)) (toArr1 (![1, 1] : Vec 2))).2.2
  have f0 := f 0 (by norm_num)
  have f1 := f 1 (by norm_num)
  simp [toArr1, toArr2] at f0 f1
  have w0 : wOf (toArr2 (1 : Mat 2)) (![1, 1] : Vec 2) 0 = 1 := f0.symm
  have w1 : wOf (toArr2 (1 : Mat 2)) (![1, 1] : Vec 2) 1 = 1 := f1.symm
  have d0 := hR.diag 0 (by norm_num)
  have d1 := hR.diag 1 (by norm_num)
  have l0 := hR.low 1 0 (by norm_num) (by norm_num) (by norm_num)
  simp [pivot, resid, sum_range_succ, w0, w1, toArr2, toArr1] at d0 d1 l0
  have hup := EllStable.updateCore_eq (s := stable0 b) hrep hω (by norm_num) (.scalar 0)
    (stable0 b).helper.calcSingleOrParallelCentralCut (fun st p hp => by
      rw [hs] at hp; cases hp; norm_num) hM
  rw [hs] at hup
  simp only [if_neg hne, if_neg hne0] at hup
  change (stable0 b).updateCentralCut (![1, 1], .scalar 0) = _ at hup
  refine ⟨st.mq, ?_, ?_, ?_, ?_, ?_⟩
  · rw [d0]; norm_num
  · rw [d1]; norm_num
  · rw [l0]; norm_num
  · rw [hup]
    cases b
    · simp [EllStable.finish, stable0, hst]
    · simp [EllStable.finish, stable0, hst]
  · rw [hup]
    cases b
    · simp [EllStable.finish, stable0]
    · simp [EllStable.finish, stable0]

/-- **C15 refuted.** `no_defer_trick` multiplies the whole array by `κ`, including the entries of `L`. From `EllStable(1, [0, 0])`, after the central
cut along `(1, 1)`, the central cut along `(1, 0)` reports `tsq = 86/81` with the flag and `8/9` without. -/
theorem C15_refuted : ¬ C15_claim := by
  intro h
  have hinit : EllStable.init (.scalar 1) (0 : Vec 2) = .ok (stable0 false) := by
    unfold EllStable.init
    rw [EllCalc.init_two_le le_rfl]
    rfl
  have := h 2 (.scalar 1) 0 (stable0 false) one_pos hinit
    [(.central, (![1, 1], .scalar 0)), (.central, (![1, 0], .scalar 0))]
  change ((stable0 true).run _).2 = _ at this
  simp only [EllStable.run, EllStable.update, List.cons.injEq, Prod.mk.injEq] at this
  have h2 := this.2.1.2.2
  rw [tsq_axis, tsq_axis] at h2
  obtain ⟨S, a0, a1, a2, a3, a4⟩ := stable0_first true
  obtain ⟨T, b0, b1, b2, b3, b4⟩ := stable0_first false
  rw [a3, a4, b3, b4] at h2
  simp only [if_true, Bool.false_eq_true, if_false, a0, a1, a2, b0, b1, b2] at h2
  norm_num at h2

/-- The factor loop with and without the flag: the only difference is the final scaling. -/
theorem EllStable.updateCore_noDefer (s : EllStable n) (cut : Cut n) (strat : Strategy) :
    ({ s with noDeferTrick := true }.updateCore cut strat).2 = ({ s with noDeferTrick := false }.updateCore cut strat).2 ∧
    (({ s with noDeferTrick := true }.updateCore cut strat).1 =
        { ({ s with noDeferTrick := false }.updateCore cut strat).1 with noDeferTrick := true } ∨
     ({ s with noDeferTrick := true }.updateCore cut strat).1 =
        { ({ s with noDeferTrick := false }.updateCore cut strat).1 with
          mq := fun i j => ({ s with noDeferTrick := false }.updateCore cut strat).1.kappa *
            ({ s with noDeferTrick := false }.updateCore cut strat).1.mq i j
          kappa := 1
          noDeferTrick := true }) := by
  unfold EllStable.updateCore
  simp only
  split
  · exact ⟨rfl, Or.inl rfl⟩
  · exact ⟨rfl, Or.inl rfl⟩
  · split_ifs
    · exact ⟨rfl, Or.inl rfl⟩
    · exact ⟨rfl, Or.inl rfl⟩
    · exact ⟨rfl, Or.inl rfl⟩
    · exact ⟨rfl, Or.inl rfl⟩
    · exact ⟨rfl, Or.inr rfl⟩

/-- A gradient along a coordinate axis. -/
def OnAxis (g : Vec n) : Prop := ∃ i, ∀ j, j ≠ i → g j = 0

/-- Axis cuts keep diagonal factors diagonal. -/
theorem EllStable.diagOnly_step {s : EllStable n} {e : Ell n} (h : Refines s e) (he : e.WF) (hd : e.noDeferTrick = false)
    (hD : DiagOnly n s.mq) {g : Vec n} (hg : g ≠ 0) (ha : OnAxis g) (β : CutChoice) (strat : Strategy)
    (hWF : (e.updateCore (g, β) strat).1.WF) : DiagOnly n (s.updateCore (g, β) strat).1.mq := by
  have hω := he.omega_pos hg
  have hM : e.mq.IsSymm := isHermitian_iff_isSymm.mp he.posDef.isHermitian
  have hfwd := (fwd_spec n s.mq (toArr1 g)).1
  have hDf : DiagOnly n (fwd n s.mq (toArr1 g)).1 := fun r c h1 h2 => by rw [hfwd r c h1.le, hD r c h1 h2]
  have hst : ∀ st p, strat β (s.kappa * e.omega g) = .ok (st, some p) → p.sigma < 1 := by
    intro st p hp
    rw [h.kappa] at hp
    exact (strict_of_update_WF he hd hg hWF hp).1
  rw [EllStable.updateCore_eq h.rep rfl hω β strat (fun st p hp => (hst st p hp).le) hM]
  change DiagOnly n (match strat β (s.kappa * e.omega g) with
    | .error f => _ | .ok (st, none) => _ | .ok (st, some p) => _ : EllStable n × Except Fault CutStatus).1.mq
  rcases hs : strat β (s.kappa * e.omega g) with f | ⟨st, _ | p⟩
  · exact hDf
  · exact hDf
  · have h1 := hst st p hs
    simp only [if_neg h1.ne]
    by_cases h0 : p.sigma = 0
    · simp only [if_pos h0]; exact hDf
    · simp only [if_neg h0]
      unfold EllStable.finish
      simp only
      rw [if_neg (by rw [h.noDefer, hd]; simp)]
      obtain ⟨hR, -⟩ := rankOne_represents h.rep hM (g := g) rfl hω h1 h0
      intro r c hcr hrn
      change (rankOne n (fwd n s.mq (toArr1 g)).1 (zOf s.mq g) (toArr1 g)
        (g ⬝ᵥ e.mq *ᵥ g / (p.sigma / (1 - p.sigma)))).mq r c = 0
      rw [hR.low r c (by omega) hcr hrn, hD r c hcr hrn]
      obtain ⟨i, hi⟩ := ha
      have hw : wOf s.mq g c = toArr1 g c := by
        have := (fwd_spec n s.mq (toArr1 g)).2.2 c (by omega)
        rw [sum_eq_zero (fun k hk => by
          rw [mem_range] at hk
          rw [hD c k hk (by omega), zero_mul]), add_zero] at this
        exact this.symm
      have hres : resid s.mq (toArr1 g) (wOf s.mq g) (c + 1) r = toArr1 g r := by
        unfold resid
        rw [sum_eq_zero (fun k hk => by
          rw [mem_range] at hk
          rw [hD r k (by omega) (by omega), zero_mul]), sub_zero]
      rw [hw, hres]
      by_cases hci : c = i
      · have : toArr1 g r = 0 := by
          have h2 := toArr1_apply g ⟨r, hrn⟩
          rw [show ((⟨r, hrn⟩ : Fin n) : ℕ) = r from rfl] at h2
          rw [h2, hi ⟨r, hrn⟩ (by intro h3; have := congrArg Fin.val h3; simp at this; omega)]
        rw [this]; ring
      · have : toArr1 g c = 0 := by
          have h2 := toArr1_apply g ⟨c, by omega⟩
          rw [show ((⟨c, by omega⟩ : Fin n) : ℕ) = c from rfl] at h2
          rw [h2, hi ⟨c, by omega⟩ (by intro h3; exact hci (congrArg Fin.val h3))]
        rw [this]; ring

theorem update_WF_of_sameShape {e f : Ell n} (h : SameShape f e) (he : e.WF) (hf : f.WF) (hed : e.noDeferTrick = false)
    (m : Method) {cut : Cut n} (hg : cut.1 ≠ 0) (hWF : (e.update m cut).1.WF) : (f.update m cut).1.WF := by
  obtain ⟨g, β⟩ := cut
  rw [Ell.update_eq] at *
  rw [Ell.updateCore_eq hg (hf.omega_pos hg).ne', h.helper, h.omega]
  rcases hs : e.helper.strategy m β (e.kappa * e.omega g) with fl | ⟨st, _ | p⟩
  · exact ⟨he.built, hf.posDef, hf.kappa_pos⟩
  · exact ⟨he.built, hf.posDef, hf.kappa_pos⟩
  · obtain ⟨h1, h2⟩ := strict_of_update_WF he hed hg hWF hs
    exact Ell.applied_WF hf hg h1 h2

/-- **C15 (partial).** For histories of cuts along coordinate axes (nonzero gradients, updates that keep the shape nonsingular) the flag
changes nothing the caller can see. Missing from the full claim: cuts in other directions, for which it is false (`C15_refuted`). -/
theorem C15_axis_cuts_partial (val : InitVal n) (hval : match val with | .scalar κ => 0 < κ | .diag d => ∀ i, 0 < d i)
    (x0 : Vec n) (e : Ell n) (he : Ell.init val x0 = .ok e) (s : EllStable n) (hs : EllStable.init val x0 = .ok s)
    (l : List (Method × Cut n)) (hl : NonsingularRun e l) (ha : ∀ c ∈ l, OnAxis c.2.1) :
    ({ s with noDeferTrick := true }.run l).2 = (s.run l).2 := by
  obtain ⟨hW, hd, s', hs', hr⟩ := init_refines val hval x0 he
  obtain rfl : s' = s := by rw [hs] at hs'; cases hs'; rfl
  have hD : DiagOnly n s'.mq := by
    unfold EllStable.init at hs
    rcases hx : EllCalc.init (n : ℤ) with f | c
    · rw [hx] at hs; cases hs
    rw [hx] at hs
    cases val with
    | scalar κ =>
      cases hs
      intro r c h1 h2
      simp only [toArr2]
      rw [dif_pos ⟨h2, by omega⟩, one_apply_ne]
      intro h3; have := congrArg Fin.val h3; simp at this; omega
    | diag d =>
      cases hs
      intro r c h1 h2
      simp only [toArr2]
      rw [dif_pos ⟨h2, by omega⟩, diagonal_apply_ne]
      intro h3; have := congrArg Fin.val h3; simp at this; omega
  have gen : ∀ (l : List (Method × Cut n)) (s : EllStable n) (e : Ell n) (t : EllStable n) (f : Ell n),
      Refines s e → e.WF → e.noDeferTrick = false → Refines { t with noDeferTrick := false } f → f.WF →
      f.noDeferTrick = false → DiagOnly n t.mq → SameShape f e → NonsingularRun e l → (∀ c ∈ l, OnAxis c.2.1) →
      ({ t with noDeferTrick := true }.run l).2 = (s.run l).2 := by
    intro l
    induction l with
    | nil => intros; rfl
    | cons a l ih =>
      intro s e t f hse he hed htf hf hfd hD hfe hl ha
      obtain ⟨m, cut⟩ := a
      obtain ⟨hg, hWF, hl'⟩ := hl
      obtain ⟨a1, a2⟩ := update_refines hse he hed m cut hg hWF
      have hfW := update_WF_of_sameShape hfe he hf hed m hg hWF
      obtain ⟨b1, b2⟩ := update_refines htf hf hfd m cut hg hfW
      obtain ⟨c1, c2⟩ := update_sameShape hfe hf.kappa_pos.ne' he.kappa_pos.ne' m cut
      have hed' := (Ell.update_noDefer e m cut).trans hed
      have hfd' := (Ell.update_noDefer f m cut).trans hfd
      have hD' : DiagOnly n ({ t with noDeferTrick := false }.update m cut).1.mq := by
        rw [EllStable.update_eq]
        have hfW' := hfW
        rw [Ell.update_eq, ← htf.helper] at hfW'
        exact EllStable.diagOnly_step htf hf hfd hD hg (ha _ List.mem_cons_self) _ _ hfW'
      obtain ⟨d1, d2⟩ := EllStable.updateCore_noDefer t cut (t.helper.strategy m)
      have u1 : ({ t with noDeferTrick := true }.updateCore cut (t.helper.strategy m)) =
        { t with noDeferTrick := true }.update m cut := by rw [EllStable.update_eq]
      have u2 : ({ t with noDeferTrick := false }.updateCore cut (t.helper.strategy m)) =
        { t with noDeferTrick := false }.update m cut := by rw [EllStable.update_eq]
      rw [u1, u2] at d1 d2
      have hout : ({ t with noDeferTrick := true }.update m cut).2 = (s.update m cut).2 := by
        rw [d1, b1, c1, a1]
      have hxt : ({ t with noDeferTrick := true }.update m cut).1.xc = (s.update m cut).1.xc ∧
          ({ t with noDeferTrick := true }.update m cut).1.tsq = (s.update m cut).1.tsq := by
        rcases d2 with d2 | d2
        · rw [d2]; exact ⟨by rw [b2.xc, c2.xc, a2.xc], by rw [b2.tsq, c2.tsq, a2.tsq]⟩
        · rw [d2]; exact ⟨by rw [b2.xc, c2.xc, a2.xc], by rw [b2.tsq, c2.tsq, a2.tsq]⟩
      have hrest : (({ t with noDeferTrick := true }.update m cut).1.run l).2 = ((s.update m cut).1.run l).2 := by
        set t' := ({ t with noDeferTrick := false }.update m cut).1 with ht'
        set f' := (f.update m cut).1 with hf'
        have ha' : ∀ c ∈ l, OnAxis c.2.1 := fun c hc => ha c (List.mem_cons_of_mem _ hc)
        have htd : t'.noDeferTrick = false := b2.noDefer.trans hfd'
        rcases d2 with d2 | d2
        · rw [d2]
          refine ih _ _ t' f' a2 hWF hed' ?_ hfW hfd' hD' c2 hl' ha'
          rw [← htd]; exact b2
        · rw [d2]
          obtain ⟨q1, q2⟩ := b2.rep.smul hD' (by rw [b2.kappa]; exact hfW.kappa_pos : 0 < t'.kappa)
          refine ih _ _ { t' with mq := fun i j => t'.kappa * t'.mq i j, kappa := 1 }
            { f' with mq := t'.kappa • f'.mq, kappa := 1 } a2 hWF hed' ⟨q1, b2.xc, rfl, b2.tsq, b2.helper, hfd'.symm⟩
            ⟨hfW.built, hfW.posDef.smul (by rw [b2.kappa]; exact hfW.kappa_pos), one_pos⟩ hfd' q2
            ⟨c2.xc, c2.tsq, c2.helper, ?_⟩ hl' ha'
          simp only [one_smul]
          rw [b2.kappa]; exact c2.shape
      simp only [EllStable.run, hout, hxt.1, hxt.2, hrest]
  exact gen l s' e s' e hr hW hd (by rw [← hd, ← hr.noDefer]; exact hr) hW hd hD ⟨rfl, rfl, rfl, rfl⟩ hl ha

/-- A history of axis cuts to which the theorem applies. -/
example : ∃ e, Ell.init (.scalar 1) (![0, 0] : Vec 2) = .ok e ∧
    NonsingularRun e [(.bias, (![1, 0], .scalar (1 / 2))), (.central, (![0, 1], .scalar 7))] ∧
    ∀ c ∈ ([(.bias, (![1, 0], .scalar (1 / 2))), (.central, (![0, 1], .scalar 7))] : List (Method × Cut 2)),
      OnAxis c.2.1 := by
  have h : Ell.init (.scalar 1) (![0, 0] : Vec 2) = .ok
      { mq := 1, xc := ![0, 0], kappa := 1, tsq := 0, helper := EllCalc.std 2 true, noDeferTrick := false } := by
    unfold Ell.init
    rw [EllCalc.init_two_le le_rfl]
    rfl
  refine ⟨_, h, StrictRun.nonsingular (init_refines _ one_pos _ h).1 ⟨fun _ => ?_, fun _ => trivial, trivial⟩ ?_, ?_⟩
  · simp only [StrictCut]
    norm_num [Matrix.mulVec, dotProduct, Fin.sum_univ_two]
  · intro c hc
    simp only [List.mem_cons, List.not_mem_nil, or_false] at hc
    rcases hc with rfl | rfl <;> intro h0
    · simpa using congrFun h0 0
    · simpa using congrFun h0 1
  · intro c hc
    simp only [List.mem_cons, List.not_mem_nil, or_false] at hc
    rcases hc with rfl | rfl
    · exact ⟨0, fun j hj => by fin_cases j <;> simp_all⟩
    · exact ⟨1, fun j hj => by fin_cases j <;> simp_all⟩

end Ellalgo
