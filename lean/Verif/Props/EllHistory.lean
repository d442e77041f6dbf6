import Verif.Props.EllState
import Verif.Lemmas.Scaling

/-! # C08, C12, C13: histories of cuts -/

namespace Ellalgo

open Matrix Spec EllCalcCore

variable {n : ℕ}

/-! ### C12: scale invariance -/

/-- The cut `(c·g, c·β)`. -/
def Cut.scale (c : ℝ) (cut : Cut n) : Cut n := (c • cut.1, cut.2.scale c)

theorem updateCore_scale (e : Ell n) {c : ℝ} (hc : 0 < c) (cut : Cut n) (s : Strategy)
    (hs : ∀ β t, s (CutChoice.scale c β) (c ^ 2 * t) = scaleResult c (s β t)) :
    (e.updateCore (cut.scale c) s).2 = (e.updateCore cut s).2 ∧
    (e.updateCore (cut.scale c) s).1.xc = (e.updateCore cut s).1.xc ∧
    (e.updateCore (cut.scale c) s).1.mq = (e.updateCore cut s).1.mq ∧
    (e.updateCore (cut.scale c) s).1.kappa = (e.updateCore cut s).1.kappa := by
  obtain ⟨g, β⟩ := cut
  have hc2 : c ^ 2 ≠ 0 := by positivity
  have hω2 : e.omega (c • g) = c ^ 2 * e.omega g := by
    simp only [Ell.omega, mulVec_smul, dotProduct_smul, smul_dotProduct, smul_eq_mul]; ring
  simp only [Cut.scale]
  by_cases hg : g = 0
  · subst hg; rw [smul_zero, Ell.updateCore_zero, Ell.updateCore_zero]; simp
  have hg2 : c • g ≠ 0 := smul_ne_zero hc.ne' hg
  by_cases hω : e.omega g = 0
  · have aux : ∀ (g : Vec n) (β : CutChoice), g ≠ 0 → e.omega g = 0 →
        e.updateCore (g, β) s = (e, .ok .noEffect) := by
      intro g β hg hω
      have hg' : ¬ ∀ i, g i = 0 := fun h => hg (funext h)
      have hω' : g ⬝ᵥ (e.mq *ᵥ g) = 0 := hω
      unfold Ell.updateCore
      simp only [if_neg hg', if_pos hω']
    rw [aux g β hg hω, aux _ _ hg2 (by rw [hω2, hω, mul_zero])]
    simp
  have hωc : e.omega (c • g) ≠ 0 := by rw [hω2]; exact mul_ne_zero hc2 hω
  rw [Ell.updateCore_eq hg hω, Ell.updateCore_eq hg2 hωc, hω2,
    show e.kappa * (c ^ 2 * e.omega g) = c ^ 2 * (e.kappa * e.omega g) by ring, hs]
  rcases s β (e.kappa * e.omega g) with f | ⟨st, _ | p⟩
  · simp [scaleResult, except_map_error]
  · simp [scaleResult, except_map_ok]
  · have e1 : (c * p.rho / (c ^ 2 * e.omega g)) * c = p.rho / e.omega g := by field_simp
    have e2 : (p.sigma / (c ^ 2 * e.omega g)) * (c * c) = p.sigma / e.omega g := by field_simp
    have hM : e.mq - (p.sigma / (c ^ 2 * e.omega g)) •
        vecMulVec (c • e.mq *ᵥ g) (c • e.mq *ᵥ g) =
        e.mq - (p.sigma / e.omega g) • vecMulVec (e.mq *ᵥ g) (e.mq *ᵥ g) := by
      rw [smul_vecMulVec, vecMulVec_smul, smul_smul, smul_smul, ← e2]
      simp only [mul_assoc]
    simp only [scaleResult, except_map_ok, Option.map, Ell.applied, Params.scale, mulVec_smul, hω2,
      smul_smul, e1]
    exact ⟨trivial, trivial, by rw [hM], trivial⟩

/-- **C12.** For every state, every method, every cut and every `c > 0`, the call with `(c·g, c·β)` has
the same outcome (status or exception) and leaves the same centre, matrix and scale. -/
theorem C12_scale_invariant (e : Ell n) (m : Method) (cut : Cut n) (c : ℝ) (hc : 0 < c) :
    (e.update m (cut.scale c)).2 = (e.update m cut).2 ∧
    (e.update m (cut.scale c)).1.xc = (e.update m cut).1.xc ∧
    (e.update m (cut.scale c)).1.mq = (e.update m cut).1.mq ∧
    (e.update m (cut.scale c)).1.kappa = (e.update m cut).1.kappa := by
  cases m with
  | bias => exact updateCore_scale e hc cut _ (EllCalc.calcSingleOrParallel_scale _ hc)
  | central => exact updateCore_scale e hc cut _ (EllCalc.calcCentral_scale _ hc)
  | q => exact updateCore_scale e hc cut _ (EllCalc.calcSingleOrParallelQ_scale _ hc)

/-- A nontrivial instance: a successful deep cut and the same cut tripled. -/
example : (unitDisc.update .bias (![1, 0], .scalar (1 / 2))).2 = .ok .success ∧
    (unitDisc.update .bias (Cut.scale 3 (![1, 0], .scalar (1 / 2)))).2 = .ok .success := by
  have h : (unitDisc.update .bias (![1, 0], .scalar (1 / 2))).2 = .ok .success := by
    have : unitDisc.update .bias (![1, 0], .scalar (1 / 2)) = _ :=
      Ell.updateCore_some e1_ne_zero unitDisc_omega_ne (by
        rw [unitDisc_tsq]
        exact EllCalc.calcBiasCut_success (by norm_num) (by norm_num) (by norm_num))
    rw [this]
  exact ⟨h, (C12_scale_invariant _ _ _ 3 (by norm_num)).1.trans h⟩

/-! ### C08: the invariant -/

theorem EllCalc.ParamsSound.strict_of_width {keeps : ℝ → Prop} {tsq : ℝ} {p : Params}
    (hp : EllCalc.ParamsSound keeps tsq p) (hw : HasWidth keeps tsq) :
    p.sigma < 1 ∧ 0 < p.delta := by
  obtain ⟨b0, b1, hs, hb⟩ := hp
  obtain ⟨t1, t2, h12, h1, h2, k1, k2⟩ := hw
  exact hs.strict h12 h1 h2 (hb t1 h1 k1).1 (hb t2 h2 k2).2

/-- The extra condition for parallel bias cuts (see C03). -/
def Method.EtaOK (n : ℕ) (β : CutChoice) (tsq : ℝ) : Method → Prop
  | .bias => EllCalc.EtaOK n β tsq
  | _ => True

/-- What a call must satisfy for the object to stay nondegenerate: the kept part has positive width and,
for a parallel bias cut, `tsq + nβ0β1 ≥ 0` (the condition of C03). -/
def KeepsWidth (e : Ell n) (m : Method) (cut : Cut n) : Prop :=
  HasWidth (m.keeps cut.2) (e.kappa * e.omega cut.1) ∧
    m.EtaOK n cut.2 (e.kappa * e.omega cut.1)

/-- One call, whatever its outcome (status or exception). -/
theorem update_WF {e : Ell n} (he : e.WF) (m : Method) (cut : Cut n)
    (h : cut.1 ≠ 0 → KeepsWidth e m cut) : (e.update m cut).1.WF := by
  obtain ⟨hn, hh⟩ := he.built.helper_eq
  have key : ∀ (s : Strategy), (cut.1 ≠ 0 → ∀ st p, s cut.2 (e.kappa * e.omega cut.1) = .ok (st, some p) →
      EllCalc.ParamsSound (m.keeps cut.2) (e.kappa * e.omega cut.1) p) →
      (e.updateCore cut s).1.WF := by
    intro s hs
    obtain ⟨g, β⟩ := cut
    by_cases hg : g = 0
    · subst hg; rw [Ell.updateCore_zero]; exact he
    have hω := he.omega_pos hg
    rw [Ell.updateCore_eq hg hω.ne']
    have hs' := hs hg
    simp only at hs'
    revert hs'
    rcases s β (e.kappa * e.omega g) with f | ⟨st, _ | p⟩ <;> intro hs'
    · exact ⟨he.built, he.posDef, he.kappa_pos⟩
    · exact ⟨he.built, he.posDef, he.kappa_pos⟩
    · obtain ⟨h1, h2⟩ := (hs' st p rfl).strict_of_width (h hg).1
      exact Ell.applied_WF he hg h1 h2
  have ht : cut.1 ≠ 0 → 0 < e.kappa * e.omega cut.1 := fun hg => mul_pos he.kappa_pos (he.omega_pos hg)
  cases m with
  | bias =>
    refine key _ fun hg st p hp => ?_
    rw [hh] at hp
    exact (EllCalc.calcSingleOrParallel_sound hn (ht hg) (h hg).2 hp).2
  | central =>
    refine key _ fun hg st p hp => ?_
    rw [hh] at hp
    exact (EllCalc.calcCentral_sound hn (ht hg) hp).2
  | q =>
    refine key _ fun hg st p hp => ?_
    rw [hh] at hp
    exact (EllCalc.calcSingleOrParallelQ_sound hn (ht hg) hp).2

theorem StrictCut.keepsWidth {n : ℕ} {tsq : ℝ} (ht : 0 < tsq) {m : Method} {β : CutChoice}
    (h : StrictCut tsq m β) :
    HasWidth (m.keeps β) tsq ∧ m.EtaOK n β tsq := by
  have hs := Real.sqrt_pos.mpr ht
  have hsq := Real.sq_sqrt ht.le
  have sq_le : ∀ t, |t| ≤ Real.sqrt tsq → t ^ 2 ≤ tsq := by
    intro t h; rw [← hsq]; exact sq_le_sq.mpr (by rwa [abs_of_nonneg hs.le])
  have single : ∀ b, b < Real.sqrt tsq → HasWidth (fun t => t + b ≤ 0) tsq := by
    intro b hb
    refine ⟨-Real.sqrt tsq, min (-b) (Real.sqrt tsq), ?_, ?_, ?_, ?_, ?_⟩
    · rw [lt_min_iff]; exact ⟨by linarith, by linarith⟩
    · exact sq_le _ (by rw [abs_neg, abs_of_nonneg hs.le])
    · refine sq_le _ (abs_le.mpr ⟨?_, min_le_right _ _⟩)
      rw [le_min_iff]; exact ⟨by linarith, by linarith⟩
    · show -Real.sqrt tsq + b ≤ 0; linarith
    · have := min_le_left (-b) (Real.sqrt tsq)
      show min (-b) (Real.sqrt tsq) + b ≤ 0; linarith
  have double : ∀ b0 b1, b0 < b1 → b0 < Real.sqrt tsq → -Real.sqrt tsq < b1 →
      HasWidth (fun t => t + b0 ≤ 0 ∧ 0 ≤ t + b1) tsq := by
    intro b0 b1 h01 h0 h1
    have a1 := min_le_left b1 (Real.sqrt tsq)
    have a2 := min_le_right b1 (Real.sqrt tsq)
    have a3 := le_max_left b0 (-Real.sqrt tsq)
    have a4 := le_max_right b0 (-Real.sqrt tsq)
    have hlt : max b0 (-Real.sqrt tsq) < min b1 (Real.sqrt tsq) := by
      rw [max_lt_iff, lt_min_iff, lt_min_iff]
      exact ⟨⟨h01, h0⟩, h1, by linarith⟩
    refine ⟨-min b1 (Real.sqrt tsq), -max b0 (-Real.sqrt tsq), by linarith, ?_, ?_, ⟨?_, ?_⟩, ?_, ?_⟩
    · exact sq_le _ (by rw [abs_neg, abs_le]; exact ⟨by linarith, a2⟩)
    · exact sq_le _ (by rw [abs_neg, abs_le]; exact ⟨a4, by linarith⟩)
    all_goals linarith
  have lt_sqrt : ∀ b, b * b < tsq → b < Real.sqrt tsq := by
    intro b hb; exact Real.lt_sqrt_of_sq_lt (by nlinarith)
  have half : HasWidth (fun t => t ≤ 0) tsq := by simpa using single 0 hs
  match m, β, h with
  | .bias, .scalar b, h => exact ⟨single b (lt_sqrt b h.2), trivial⟩
  | .bias, .seq [some b], h => exact ⟨single b (lt_sqrt b h.2), trivial⟩
  | .bias, .seq (some b0 :: some b1 :: _), ⟨h0, h01, h2⟩ =>
    refine ⟨double b0 b1 h01 (lt_sqrt b0 h2) (by linarith), ?_⟩
    have : 0 ≤ b1 := by linarith
    simp only [Method.EtaOK, EllCalc.EtaOK]; positivity
  | .central, .scalar b, _ => exact ⟨half, trivial⟩
  | .central, .seq [], _ => exact ⟨half, trivial⟩
  | .central, .seq [_], _ => exact ⟨half, trivial⟩
  | .central, .seq (_ :: none :: _), _ => exact ⟨half, trivial⟩
  | .central, .seq (_ :: some b1 :: _), h =>
    have h' : 0 < b1 := h
    have h2 := double 0 b1 h' hs (by linarith)
    simp only [add_zero] at h2
    exact ⟨h2, trivial⟩
  | .q, .scalar b, h => exact ⟨single b h, trivial⟩
  | .q, .seq [some b], h => exact ⟨single b h, trivial⟩
  | .q, .seq (some b0 :: some b1 :: _), ⟨h01, h0, h1⟩ => exact ⟨double b0 b1 h01 h0 h1, trivial⟩

/-- Every call of the history is a strict cut for the object it is applied to. -/
def StrictRun (e : Ell n) : List (Method × Cut n) → Prop
  | [] => True
  | (m, cut) :: l =>
    (cut.1 ≠ 0 → StrictCut (e.kappa * (cut.1 ⬝ᵥ (e.mq *ᵥ cut.1))) m cut.2) ∧
      StrictRun (e.update m cut).1 l

theorem run_WF {e : Ell n} (he : e.WF) (l : List (Method × Cut n)) (h : StrictRun e l) :
    (e.run l).1.WF := by
  induction l generalizing e with
  | nil => exact he
  | cons a l ih =>
    obtain ⟨m, cut⟩ := a
    refine ih (update_WF he m cut fun hg => ?_) h.2
    exact (h.1 hg).keepsWidth (mul_pos he.kappa_pos (he.omega_pos hg))

/-- **C08.** From `Ell(val, x0)` with positive `val`, after any finite history of strict cuts (calls that
raise are caught and the history goes on) the matrix is symmetric positive definite and `κ > 0`. -/
theorem C08_spd_over_history (val : InitVal n)
    (hval : match val with | .scalar κ => 0 < κ | .diag d => ∀ i, 0 < d i)
    (x0 : Vec n) (e : Ell n) (h : Ell.init val x0 = .ok e) (l : List (Method × Cut n))
    (hl : StrictRun e l) :
    (e.run l).1.mq.PosDef ∧ 0 < (e.run l).1.kappa := by
  have he : e.WF := by
    cases val with
    | scalar κ => exact (C60_init_scalar κ hval x0 e h).1
    | diag d => exact (C60_init_diag d hval x0 e h).1
  exact ⟨(run_WF he l hl).posDef, (run_WF he l hl).kappa_pos⟩

/-- A history of two strict cuts of different kinds from a concrete object. -/
example : StrictRun unitDisc [(.bias, (![1, 0], .scalar (1 / 2))), (.central, (![0, 1], .scalar 7))] := by
  refine ⟨fun _ => ?_, fun _ => trivial, trivial⟩
  simp only [StrictCut, unitDisc]
  norm_num [Matrix.mulVec, dotProduct, Fin.sum_univ_two]

/-- Strictness cannot be dropped: a cut that only touches the ellipsoid is answered `Success` and leaves
`κ = 0`. -/
theorem C08_touching_cut_degenerates (e : Ell n) (he : e.WF) (hd : e.noDeferTrick = false) (g : Vec n)
    (hg : g ≠ 0) (β : ℝ) (h0 : 0 ≤ β) (hβ : β * β = e.kappa * (g ⬝ᵥ (e.mq *ᵥ g))) :
    (e.updateBiasCut (g, .scalar β)).2 = .ok .success ∧
    (e.updateBiasCut (g, .scalar β)).1.kappa = 0 := by
  obtain ⟨hn, hh⟩ := he.built.helper_eq
  have hω := he.omega_pos hg
  have ht : 0 < e.kappa * e.omega g := mul_pos he.kappa_pos hω
  have hβ' : β * β = e.kappa * e.omega g := hβ
  have hs : e.helper.calcSingleOrParallel (.scalar β) (e.kappa * e.omega g) =
      .ok (.success, some (biasParams n β (Real.sqrt (e.kappa * e.omega g)))) := by
    rw [hh]; exact EllCalc.calcBiasCut_success h0 ht hβ'.le
  have hup := Ell.updateCore_some hg hω.ne' hs
  unfold Ell.updateBiasCut
  rw [hup]
  refine ⟨rfl, ?_⟩
  have hb : β ≠ 0 := by rintro rfl; rw [mul_zero] at hβ'; linarith
  simp only [Ell.applied, hd, biasParams, ← hβ', Real.sqrt_mul_self h0]
  simp [hb]

/-! ### C13: `no_defer_trick` -/

/-- Two objects that show the same public behaviour: same centre, `tsq`, helper and product `κM`. -/
structure SameShape (e f : Ell n) : Prop where
  xc : e.xc = f.xc
  tsq : e.tsq = f.tsq
  helper : e.helper = f.helper
  shape : e.kappa • e.mq = f.kappa • f.mq

theorem SameShape.omega {e f : Ell n} (h : SameShape e f) (g : Vec n) :
    e.kappa * e.omega g = f.kappa * f.omega g := by
  have h1 : g ⬝ᵥ ((e.kappa • e.mq) *ᵥ g) = g ⬝ᵥ ((f.kappa • f.mq) *ᵥ g) := by rw [h.shape]
  simp only [smul_mulVec, dotProduct_smul, smul_eq_mul] at h1
  exact h1

theorem applied_shape {e : Ell n} (hκ : e.kappa ≠ 0) {g : Vec n} (hω : e.omega g ≠ 0) (p : Params) :
    (e.applied g p).kappa • (e.applied g p).mq =
      p.delta • (e.kappa • e.mq - (p.sigma / (e.kappa * e.omega g)) •
        vecMulVec ((e.kappa • e.mq) *ᵥ g) ((e.kappa • e.mq) *ᵥ g)) := by
  have h1 : (e.applied g p).kappa • (e.applied g p).mq = (e.kappa * p.delta) •
      (e.mq - (p.sigma / e.omega g) • vecMulVec (e.mq *ᵥ g) (e.mq *ᵥ g)) := by
    unfold Ell.applied
    cases e.noDeferTrick <;> simp
  rw [h1, smul_mulVec]
  ext i j
  simp only [Matrix.smul_apply, Matrix.sub_apply, vecMulVec_apply, Pi.smul_apply, smul_eq_mul]
  field_simp

theorem applied_centre {e : Ell n} (hκ : e.kappa ≠ 0) {g : Vec n} (p : Params) :
    (e.applied g p).xc = e.xc - (p.rho / (e.kappa * e.omega g)) • ((e.kappa • e.mq) *ᵥ g) := by
  have h : p.rho / (e.kappa * e.omega g) * e.kappa = p.rho / e.omega g := by
    by_cases hω : e.omega g = 0
    · simp [hω]
    · field_simp
  rw [smul_mulVec, smul_smul, h]; rfl

theorem update_sameShape {e f : Ell n} (h : SameShape e f) (he : e.kappa ≠ 0) (hf : f.kappa ≠ 0)
    (m : Method) (cut : Cut n) :
    (e.update m cut).2 = (f.update m cut).2 ∧ SameShape (e.update m cut).1 (f.update m cut).1 := by
  have key : ∀ s : Strategy, (e.updateCore cut s).2 = (f.updateCore cut s).2 ∧
      SameShape (e.updateCore cut s).1 (f.updateCore cut s).1 := by
    intro s
    obtain ⟨g, β⟩ := cut
    have ho := h.omega g
    by_cases hg : g = 0
    · subst hg; rw [Ell.updateCore_zero, Ell.updateCore_zero]; exact ⟨rfl, h⟩
    by_cases hω : e.omega g = 0
    · have hω2 : f.omega g = 0 := by
        rw [hω, mul_zero] at ho
        exact (mul_eq_zero.mp ho.symm).resolve_left hf
      have aux : ∀ e : Ell n, e.omega g = 0 → e.updateCore (g, β) s = (e, .ok .noEffect) := by
        intro e hω
        have hg' : ¬ ∀ i, g i = 0 := fun h => hg (funext h)
        have hω' : g ⬝ᵥ (e.mq *ᵥ g) = 0 := hω
        unfold Ell.updateCore
        simp only [if_neg hg', if_pos hω']
      rw [aux e hω, aux f hω2]; exact ⟨rfl, h⟩
    have hω2 : f.omega g ≠ 0 := by
      intro h0; rw [h0, mul_zero] at ho
      exact (mul_ne_zero he hω) ho
    rw [Ell.updateCore_eq hg hω, Ell.updateCore_eq hg hω2, ho]
    rcases s β (f.kappa * f.omega g) with fl | ⟨st, _ | p⟩
    · exact ⟨rfl, ⟨h.xc, rfl, h.helper, h.shape⟩⟩
    · exact ⟨rfl, ⟨h.xc, rfl, h.helper, h.shape⟩⟩
    · refine ⟨rfl, ⟨?_, ho, h.helper, ?_⟩⟩
      · simp only
        rw [applied_centre he, applied_centre hf, h.xc, ho, h.shape]
      · simp only
        rw [applied_shape he hω, applied_shape hf hω2, ho, h.shape]
  cases m with
  | bias => unfold Ell.update Ell.updateBiasCut; rw [← h.helper]; exact key _
  | central => unfold Ell.update Ell.updateCentralCut; rw [← h.helper]; exact key _
  | q => unfold Ell.update Ell.updateQ; rw [← h.helper]; exact key _

/-- `κ` is nonzero before every call of the history. -/
def KappaNonzero (e : Ell n) : List (Method × Cut n) → Prop
  | [] => True
  | (m, cut) :: l => e.kappa ≠ 0 ∧ KappaNonzero (e.update m cut).1 l

theorem update_noDefer_kappa {f : Ell n} (hf : f.noDeferTrick = true) (h1 : f.kappa ≠ 0) (m : Method)
    (cut : Cut n) : (f.update m cut).1.noDeferTrick = true ∧ (f.update m cut).1.kappa ≠ 0 := by
  have key : ∀ s : Strategy, (f.updateCore cut s).1.noDeferTrick = true ∧
      (f.updateCore cut s).1.kappa ≠ 0 := by
    intro s
    unfold Ell.updateCore
    simp only
    split_ifs
    · exact ⟨hf, h1⟩
    · exact ⟨hf, h1⟩
    · split
      · exact ⟨hf, h1⟩
      · exact ⟨hf, h1⟩
      · simp [hf]
  cases m <;> exact key _

/-- **C13 (partial).** As long as the deferring object's `κ` is nonzero when a call is made (no earlier
cut of the history merely touched the ellipsoid), turning `no_defer_trick` on changes nothing the caller
can see: same outcomes, centres and `tsq` after every call, same `κM` at the end of every history.
Missing from the full claim: histories that go on after a cut that reduces the ellipsoid to a point, for
which it is false (`C13_refuted`). -/
theorem C13_no_defer_unobservable_partial (e : Ell n) (l : List (Method × Cut n))
    (hl : KappaNonzero { e with noDeferTrick := false } l) :
    ({ e with noDeferTrick := true }.run l).2 = ({ e with noDeferTrick := false }.run l).2 ∧
    SameShape ({ e with noDeferTrick := true }.run l).1
      ({ e with noDeferTrick := false }.run l).1 := by
  have gen : ∀ (l : List (Method × Cut n)) (e f : Ell n), SameShape f e → f.noDeferTrick = true →
      f.kappa ≠ 0 → KappaNonzero e l →
      (f.run l).2 = (e.run l).2 ∧ SameShape (f.run l).1 (e.run l).1 := by
    intro l
    induction l with
    | nil => intro e f h _ _ _; exact ⟨rfl, h⟩
    | cons a l ih =>
      obtain ⟨m, cut⟩ := a
      intro e f h hf hκ hl
      obtain ⟨h1, h2⟩ := update_sameShape h hκ hl.1 m cut
      obtain ⟨h3, h4⟩ := update_noDefer_kappa hf hκ m cut
      obtain ⟨h5, h6⟩ := ih _ _ h2 h3 h4 hl.2
      refine ⟨?_, h6⟩
      show (_, _, _) :: _ = (_, _, _) :: _
      rw [h1, h2.xc, h2.tsq, h5]
  match l, hl with
  | [], _ => exact ⟨rfl, ⟨rfl, rfl, rfl, rfl⟩⟩
  | a :: l, hl => exact gen (a :: l) _ _ ⟨rfl, rfl, rfl, rfl⟩ rfl hl.1 hl

/-- Histories of strict cuts satisfy the hypothesis. -/
theorem StrictRun.kappaNonzero {e : Ell n} (he : e.WF) (l : List (Method × Cut n))
    (h : StrictRun e l) : KappaNonzero e l := by
  induction l generalizing e with
  | nil => trivial
  | cons a l ih =>
    obtain ⟨m, cut⟩ := a
    refine ⟨he.kappa_pos.ne', ih (update_WF he m cut fun hg => ?_) h.2⟩
    exact (h.1 hg).keepsWidth (mul_pos he.kappa_pos (he.omega_pos hg))

/-- A concrete history meeting the hypothesis. -/
example : KappaNonzero { unitDisc with noDeferTrick := false }
    [(.bias, (![1, 0], .scalar (1 / 2))), (.central, (![0, 1], .scalar 7))] := by
  refine StrictRun.kappaNonzero unitDisc_WF _ ⟨fun _ => ?_, fun _ => trivial, trivial⟩
  simp only [StrictCut, unitDisc]
  norm_num [Matrix.mulVec, dotProduct, Fin.sum_univ_two]

/-- The full claim C13, on the observations. -/
def C13_claim : Prop :=
  ∀ (n : ℕ) (e : Ell n), e.WF → e.noDeferTrick = false → ∀ l : List (Method × Cut n),
    ({ e with noDeferTrick := true }.run l).2 = (e.run l).2

/-- **C13 refuted.** After a cut that touches the ellipsoid (`β = τ`, answered `Success`) the deferring
object answers the next deep cut with `NoSoln`, the other one with `NoEffect`. -/
theorem C13_refuted : ¬ C13_claim := by
  intro h
  have hb : biasParams ((2 : ℕ) : ℝ) 1 (Real.sqrt 1) = ⟨1, 1, 0⟩ := by
    simp only [biasParams, Real.sqrt_one, Params.mk.injEq]; norm_num
  have hs : unitDisc.helper.calcSingleOrParallel (.scalar 1) 1 = .ok (.success, some ⟨1, 1, 0⟩) := by
    rw [← hb]
    exact EllCalc.calcBiasCut_success (by norm_num) (by norm_num) (by norm_num)
  have h1 : unitDisc.update .bias (![1, 0], .scalar 1) =
      (unitDisc.applied ![1, 0] ⟨1, 1, 0⟩, .ok .success) :=
    Ell.updateCore_some e1_ne_zero unitDisc_omega_ne (by rw [unitDisc_tsq]; exact hs)
  have h2 : ({ unitDisc with noDeferTrick := true } : Ell 2).update .bias (![1, 0], .scalar 1) =
      (({ unitDisc with noDeferTrick := true } : Ell 2).applied ![1, 0] ⟨1, 1, 0⟩, .ok .success) :=
    Ell.updateCore_some (e := { unitDisc with noDeferTrick := true }) e1_ne_zero unitDisc_omega_ne
      (by
        show unitDisc.helper.calcSingleOrParallel (.scalar 1) (unitDisc.kappa * unitDisc.omega ![1, 0]) = _
        rw [unitDisc_tsq]; exact hs)
  have hne : (![0, 1] : Vec 2) ≠ 0 := by
    intro h; have := congrFun h 1; simp at this
  have ho : (unitDisc.applied ![1, 0] ⟨1, 1, 0⟩).omega ![0, 1] = 1 := by
    simp [Ell.omega, Ell.applied, unitDisc, vecMulVec, Matrix.mulVec, dotProduct, Fin.sum_univ_two]
  have h3 : ((unitDisc.applied ![1, 0] ⟨1, 1, 0⟩).update .bias (![0, 1], .scalar 1)).2 = .ok .noSoln := by
    have : (unitDisc.applied ![1, 0] ⟨1, 1, 0⟩).update .bias (![0, 1], .scalar 1) = _ :=
      Ell.updateCore_none hne (by rw [ho]; exact one_ne_zero)
        (EllCalc.calcBiasCut_noSoln zero_le_one (by
          rw [ho]; simp [Ell.applied, unitDisc]))
    rw [this]
  have ho2 : (({ unitDisc with noDeferTrick := true } : Ell 2).applied ![1, 0] ⟨1, 1, 0⟩).omega ![0, 1] = 0 := by
    simp [Ell.omega, Ell.applied]
  have h4 : ((({ unitDisc with noDeferTrick := true } : Ell 2).applied ![1, 0] ⟨1, 1, 0⟩).update .bias
      (![0, 1], .scalar 1)).2 = .ok .noEffect := by
    have hg' : ¬ ∀ i, (![0, 1] : Vec 2) i = 0 := fun h => hne (funext h)
    unfold Ell.update Ell.updateBiasCut Ell.updateCore
    simp only [if_neg hg']
    rw [if_pos (by exact ho2)]
  have := h 2 unitDisc unitDisc_WF rfl [(.bias, (![1, 0], .scalar 1)), (.bias, (![0, 1], .scalar 1))]
  simp only [Ell.run, h1, h2, h3, h4] at this
  simp at this

end Ellalgo
