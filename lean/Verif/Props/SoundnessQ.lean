import Verif.Props.Soundness

/-! # C82: verdicts of `cutting_plane_optim_q` with `Ell` are sound -/

namespace Ellalgo

open Matrix Spec CuttingPlane

variable {n : ℕ} {O G : Type*}

/-- A correct discrete optimisation oracle for a family of sets `L γ` (the designs that are wanted when the best known value is `γ`; larger `γ` is better): whatever it answers, with or
without a new value and whether it is a retry or not, improves the value and has a cut that keeps the designs wanted from now on. The offsets may have any sign. -/
structure QLevelOracle [Preorder G] (I : O → Prop) (L : G → Set (Vec n)) (omega : OracleOptimQ O (Vec n) (Cut n) G) : Prop where
  inv : ∀ o x γ r, I o → I (omega o x γ r).1
  cut : ∀ o x γ r o' a, I o → omega o x γ r = (o', .ok a) → γ ≤ a.gamma1.getD γ ∧ L (a.gamma1.getD γ) ⊆ keptSet a.cut x

namespace EllCalc

variable {u : Bool}

theorem calcBiasCutQ_zero_tsq {β : ℝ} {st : CutStatus} {p : Params} : (std n u).calcBiasCutQ β 0 ≠ .ok (st, some p) := by
  unfold calcBiasCutQ
  rw [psqrt_ok le_rfl, Real.sqrt_zero]
  simp only [except_ok_bind]
  split_ifs with h0 h1
  · simp
  · simp
  · exfalso
    apply h1
    rw [zero_add]
    exact mul_nonpos_of_nonneg_of_nonpos (by simp [std]) (not_lt.mp h0)

theorem calcParallelQ_zero_tsq {β0 β1 : ℝ} {st : CutStatus} {p : Params} : (std n u).calcParallelQ β0 β1 0 ≠ .ok (st, some p) := by
  unfold calcParallelQ
  split_ifs with h0
  · simp
  · simp only
    split_ifs with h1 h2
    · exact calcBiasCutQ_zero_tsq
    · simp
    · intro h
      simp only [EllCalcCore.calcParallelBiasCutFast] at h
      rcases hx : psqrt ((0 - β0 * β0) * (0 - β1 * β1) + ((std n u).helper.halfN * (β1 * β1 - β0 * β0)) ^ 2) with f | xi
      · rw [hx] at h; cases h
      rw [hx] at h
      simp only [except_ok_bind] at h
      generalize pdiv _ (0 + β0 * β1 + _ + xi) = y at h
      rcases y with f | y
      · cases h
      simp only [except_ok_bind] at h
      generalize pdiv _ _ = z at h
      rcases z with f | z
      · cases h
      simp [pdiv] at h

theorem calcSingleOrParallelQ_zero_tsq {cut : CutChoice} {st : CutStatus} {p : Params} :
    (std n u).calcSingleOrParallelQ cut 0 ≠ .ok (st, some p) := by
  intro h
  match cut with
  | .scalar β => exact calcBiasCutQ_zero_tsq h
  | .seq bs =>
    simp only [calcSingleOrParallelQ] at h
    split_ifs at h
    · rcases hx : firstOffset bs with f | b
      · rw [hx] at h; cases h
      · rw [hx] at h; exact calcBiasCutQ_zero_tsq h
    · split at h
      · rcases hx : firstOffset bs with f | b
        · rw [hx] at h; cases h
        · rw [hx] at h; exact calcParallelQ_zero_tsq h
      · cases h

end EllCalc

/-- One cut through `update_q`, of any depth: a nonempty set kept by the cut stays inside, and `NoSoln` is impossible. -/
theorem Ell.weak_q {e : Ell n} (he : e.Weak) {F : Set (Vec n)} (hF : F ⊆ e.hull) (hne : F.Nonempty)
    {cut : Cut n} (hk : F ⊆ keptSet cut e.xc) {e' : Ell n} {st : CutStatus}
    (h : e.updateQ cut = (e', .ok st)) : e'.Weak ∧ F ⊆ e'.hull ∧ (st = .success ∨ st = .noEffect) := by
  obtain ⟨hn, hh⟩ := he.built.helper_eq
  obtain ⟨hg, ⟨-, rfl, rfl⟩ | ⟨hω, ⟨p, hp, rfl⟩ | ⟨hp, rfl⟩⟩⟩ := updateCore_inv_weak he h
  · exact ⟨he, hF, .inr rfl⟩
  · rw [hh] at hp
    rcases he.kappa_nonneg.eq_or_lt with hκ | hκ
    · rw [← hκ, zero_mul] at hp
      exact (EllCalc.calcSingleOrParallelQ_zero_tsq hp).elim
    · have ht : 0 < e.kappa * e.omega cut.1 := mul_pos hκ hω
      obtain ⟨y, hy⟩ := hne
      obtain ⟨hst, hs⟩ := EllCalc.calcSingleOrParallelQ_sound hn ht hp
      exact ⟨(applied_step he hκ hω hs (hF hy) (hk hy)).1, fun x hx => (applied_step he hκ hω hs (hF hx) (hk hx)).2, .inl hst⟩
  · obtain ⟨y, hy⟩ := hne
    rcases EllCalc.calcSingleOrParallelQ_none hp with h1 | ⟨-, h1⟩
    · exact ⟨⟨he.built, he.posSemidef, he.kappa_nonneg⟩, hF, .inr h1⟩
    · exact (h1 _ (hF hy cut.1) (hk hy)).elim

theorem QTrace.inv_oracle [Preorder G] {omega : OracleOptimQ O (Vec n) (Cut n) G} {I : O → Prop}
    {L : G → Set (Vec n)} (hω : QLevelOracle I L omega) {S : Type*} {sp : SearchSpace S (Vec n) (Cut n) ℝ} {lt tol}
    {o : O} {e : S} {g0 : G} (ho : I o) {l o' e'} (h : QTrace omega sp lt tol o e g0 l o' e') : I o' := by
  induction h with
  | start => exact ho
  | @step _ _ _ _ _ ev t _ _ _ a _ _ _ _ ih => have := hω.inv _ ev.x ev.gamma ev.retry ih; rw [a] at this; exact this

theorem bestOfQ_snoc_snd (g0 : G) (l : List (QEvent (Vec n) (Cut n) G)) (e : QEvent (Vec n) (Cut n) G)
    (h : e.gamma = (bestOfQ g0 l).2) : (bestOfQ g0 (l ++ [e])).2 = e.ans.gamma1.getD e.gamma := by
  rw [bestOfQ_snoc]
  rcases e.ans.gamma1 with _ | g
  · exact h.symm
  · rfl

theorem QTrace.weak [Preorder G] {omega : OracleOptimQ O (Vec n) (Cut n) G} {I : O → Prop} {L : G → Set (Vec n)} (hL : Antitone L)
    (hω : QLevelOracle I L omega) {lt tol} {o : O} {e : Ell n} {g0 : G} (ho : I o) (he : e.Weak) (hF : L g0 ⊆ e.hull) {l o' e'}
    (h : QTrace omega (Ell.space n) lt tol o e g0 l o' e') (hne : (L (bestOfQ g0 l).2).Nonempty) :
    e'.Weak ∧ L (bestOfQ g0 l).2 ⊆ e'.hull := by
  induction h with
  | start => exact ⟨he, hF⟩
  | @step l o1 s1 o2 s2 ev t h1 h2 h3 h4 h5 _ _ _ ih =>
    rw [bestOfQ_snoc_snd g0 l ev h2] at hne ⊢
    obtain ⟨hle, hk⟩ := hω.cut _ _ _ _ _ _ (t.inv_oracle hω ho) h4
    rw [← h2] at ih
    obtain ⟨w, hs⟩ := ih (hne.mono (hL hle))
    rw [h1] at hk
    obtain ⟨a, b, -⟩ := Ell.weak_q w ((hL hle).trans hs) hne hk h5
    exact ⟨a, b⟩

/-- **C82.** `cutting_plane_optim_q` with `Ell` and a correct discrete oracle for an antitone family of sets `L` of wanted designs, all inside the initial ellipsoid:
* after any number of iterations, retries included, the designs wanted beyond the best value so far are inside the current ellipsoid;
* if the next update returns `NoSoln`, there is no design beyond the best value (including the one just reported);
* hence if the call returns `γ` although better designs exist, it hit the iteration limit, the tolerance, or a `NoEffect` after which the oracle announced no more alternatives. -/
theorem C82_optim_q_sound [Preorder G] {omega : OracleOptimQ O (Vec n) (Cut n) G} {I : O → Prop} {L : G → Set (Vec n)} (hL : Antitone L)
    (hω : QLevelOracle I L omega) (o : O) (ho : I o) (e : Ell n) (he : e.WF) (g0 : G) (hF : L g0 ⊆ e.region) (opts : Options ℝ) :
    (∀ l o1 e1, QTrace omega (Ell.space n) ltReal opts.tolerance o e g0 l o1 e1 → L (bestOfQ g0 l).2 ⊆ e1.hull) ∧
    (∀ l o1 e1 ev o2 e2, QTrace omega (Ell.space n) ltReal opts.tolerance o e g0 l o1 e1 →
      ev.x = e1.xc → ev.gamma = (bestOfQ g0 l).2 → omega o1 ev.x ev.gamma ev.retry = (o2, .ok ev.ans) →
      e1.updateQ ev.ans.cut = (e2, .ok .noSoln) → L (bestOfQ g0 (l ++ [ev])).2 = ∅) ∧
    (∀ o' e' xb γ k, (L γ).Nonempty → optimQ omega (Ell.space n) ltReal o e g0 opts = (o', e', .ok (xb, γ, k)) →
      k = opts.maxIters ∨ e'.tsq < opts.tolerance ∨
      ∃ l o1 e1, QTrace omega (Ell.space n) ltReal opts.tolerance o e g0 l o1 e1 ∧
        ∃ a, omega o1 e1.xc (bestOfQ g0 l).2 (retryAfter l) = (o', .ok a) ∧ e1.updateQ a.cut = (e', .ok .noEffect) ∧ a.moreAlt = false) := by
  rw [he.region_eq_hull] at hF
  have key : ∀ l o1 e1 (ev : QEvent (Vec n) (Cut n) G) o2 e2 st, QTrace omega (Ell.space n) ltReal opts.tolerance o e g0 l o1 e1 →
      ev.x = e1.xc → ev.gamma = (bestOfQ g0 l).2 → omega o1 ev.x ev.gamma ev.retry = (o2, .ok ev.ans) →
      e1.updateQ ev.ans.cut = (e2, .ok st) → (L (ev.ans.gamma1.getD ev.gamma)).Nonempty → st = .success ∨ st = .noEffect := by
    intro l o1 e1 ev o2 e2 st h h1 h2 h3 h4 hne
    obtain ⟨hle, hk⟩ := hω.cut _ _ _ _ _ _ (h.inv_oracle hω ho) h3
    obtain ⟨w, hs⟩ := h.weak hL hω ho he.weak hF (by rw [← h2]; exact hne.mono (hL hle))
    rw [← h2] at hs
    rw [h1] at hk
    exact (Ell.weak_q w ((hL hle).trans hs) hne hk h4).2.2
  refine ⟨?_, ?_, ?_⟩
  · intro l o1 e1 h
    rcases (L (bestOfQ g0 l).2).eq_empty_or_nonempty with h0 | hne
    · rw [h0]; exact Set.empty_subset _
    · exact (h.weak hL hω ho he.weak hF hne).2
  · intro l o1 e1 ev o2 e2 h h1 h2 h3 h4
    rw [bestOfQ_snoc_snd g0 l ev h2]
    by_contra hne
    have := key l o1 e1 ev o2 e2 _ h h1 h2 h3 h4 (Set.nonempty_iff_ne_empty.mpr hne)
    simp at this
  · intro o' e' xb γ k hne h
    obtain ⟨l, o1, e1, ht, -, ⟨hk, -⟩ | ⟨-, ev, h1, h2, h3, h4, h5, h6, hb⟩⟩ :=
      C29_optim_q_consistent_pair omega (Ell.space n) ltReal o e g0 opts o' e' xb γ k h
    · exact .inl hk
    · right
      have hγ : ev.ans.gamma1.getD ev.gamma = γ := by rw [← bestOfQ_snoc_snd g0 l ev h2, ← hb]
      rcases h6 with h6 | ⟨h6, h7⟩ | h6
      · have := key l o1 e1 ev o' e' _ ht h1 h2 h4 h5 (by rw [hγ]; exact hne)
        rw [h6] at this
        simp at this
      · refine .inr ⟨l, o1, e1, ht, ev.ans, ?_, by rw [← h6]; exact h5, h7⟩
        have := h4
        rw [h1, h2, h3] at this
        exact this
      · exact .inl (ltReal_iff.mp h6)

/-- **C82 for maximisation over a set `D` of designs.** If every reported value is the objective at the design `x_q` reported with it, a design of `D`, and the cuts keep the designs of `D` that are
strictly better, then a run whose last update returns `NoSoln` returns a global maximiser over `D`, or nothing if no design of `D` is better than the initial value. -/
theorem C82_discrete_optimum {omega : OracleOptimQ O (Vec n) (Cut n) ℝ} {I : O → Prop} (D : Set (Vec n)) (f : Vec n → ℝ)
    (hω : QLevelOracle I (fun γ => {x ∈ D | γ < f x}) omega)
    (hval : ∀ o x γ r o' a γ1, I o → omega o x γ r = (o', .ok a) → a.gamma1 = some γ1 → a.xq ∈ D ∧ γ1 = f a.xq)
    (o : O) (ho : I o) (e : Ell n) (he : e.WF) (g0 : ℝ) (hF : D ⊆ e.region) (opts : Options ℝ) {l o1 e1 ev o2 e2}
    (h : QTrace omega (Ell.space n) ltReal opts.tolerance o e g0 l o1 e1)
    (h1 : ev.x = e1.xc) (h2 : ev.gamma = (bestOfQ g0 l).2) (h3 : omega o1 ev.x ev.gamma ev.retry = (o2, .ok ev.ans))
    (h4 : e1.updateQ ev.ans.cut = (e2, .ok .noSoln)) :
    (∀ x, (bestOfQ g0 (l ++ [ev])).1 = some x → x ∈ D ∧ ∀ y ∈ D, f y ≤ f x) ∧
    ((bestOfQ g0 (l ++ [ev])).1 = none → ∀ y ∈ D, f y ≤ g0) := by
  have hL : Antitone (fun γ : ℝ => {x ∈ D | γ < f x}) := fun a b hab x hx => ⟨hx.1, lt_of_le_of_lt hab hx.2⟩
  have hempty := (C82_optim_q_sound hL hω o ho e he g0 (fun y hy => hF hy.1) opts).2.1 l o1 e1 ev o2 e2 h h1 h2 h3 h4
  have hle : ∀ y ∈ D, f y ≤ (bestOfQ g0 (l ++ [ev])).2 := by
    intro y hy
    by_contra hc
    have : y ∈ {x ∈ D | (bestOfQ g0 (l ++ [ev])).2 < f x} := ⟨hy, not_le.mp hc⟩
    rw [hempty] at this
    exact this
  have hbest : ∀ {l o1 e1}, QTrace omega (Ell.space n) ltReal opts.tolerance o e g0 l o1 e1 →
      (∀ x, (bestOfQ g0 l).1 = some x → x ∈ D ∧ (bestOfQ g0 l).2 = f x) ∧ ((bestOfQ g0 l).1 = none → (bestOfQ g0 l).2 = g0) := by
    intro l o1 e1 h
    induction h with
    | start => exact ⟨fun x hx => by simp [bestOfQ] at hx, fun _ => rfl⟩
    | @step l o1 s1 o2 s2 ev t a1 a2 a3 a4 _ _ _ _ ih =>
      rw [bestOfQ_snoc]
      rcases hg : ev.ans.gamma1 with _ | g
      · exact ih
      · refine ⟨fun x hx => ?_, by simp⟩
        simp only [Option.some.injEq] at hx ⊢
        subst hx
        exact hval _ _ _ _ _ _ _ (t.inv_oracle hω ho) a4 hg
  have hfin : (∀ x, (bestOfQ g0 (l ++ [ev])).1 = some x → x ∈ D ∧ (bestOfQ g0 (l ++ [ev])).2 = f x) ∧
      ((bestOfQ g0 (l ++ [ev])).1 = none → (bestOfQ g0 (l ++ [ev])).2 = g0) := by
    rw [bestOfQ_snoc]
    rcases hg : ev.ans.gamma1 with _ | g
    · exact hbest h
    · refine ⟨fun x hx => ?_, by simp⟩
      simp only [Option.some.injEq] at hx ⊢
      subst hx
      exact hval _ _ _ _ _ _ _ (h.inv_oracle hω ho) h3 hg
  refine ⟨fun x hx => ⟨(hfin.1 x hx).1, fun y hy => ?_⟩, fun hx y hy => ?_⟩
  · rw [← (hfin.1 x hx).2]; exact hle y hy
  · rw [← hfin.2 hx]; exact hle y hy

/-- Three designs on the first axis. -/
def threePoints : Set (Vec 2) := {![-1, 0], ![0, 0], ![1, 0]}

/-- Maximises the first coordinate over `threePoints`: below the value 0 it reports `(0, 0)` and keeps the points with `x₀ ≥ 1`; below 1 it reports `(1, 0)` and a cut that keeps nothing. -/
noncomputable def threeOracle : OracleOptimQ Unit (Vec 2) (Cut 2) ℝ := by
  classical
  exact fun _ x γ _ =>
    if γ < 0 then ((), .ok ⟨(![-1, 0], .scalar (1 - x 0)), ![0, 0], some 0, false⟩)
    else if γ < 1 then ((), .ok ⟨(![-1, 0], .pair 0 (-1)), ![1, 0], some 1, false⟩)
    else ((), .ok ⟨(![-1, 0], .pair 0 (-1)), ![1, 0], none, false⟩)

theorem threeOracle_level : QLevelOracle (fun _ => True) (fun γ => {x ∈ threePoints | γ < x 0}) threeOracle where
  inv _ _ _ _ _ := trivial
  cut o x γ r o' a _ h := by
    have hpt : ∀ y ∈ threePoints, y 0 = -1 ∨ y 0 = 0 ∨ y 0 = 1 := by
      rintro y (rfl | rfl | rfl) <;> simp
    unfold threeOracle at h
    split_ifs at h with h0 h1
    all_goals
      simp only [Prod.mk.injEq, Except.ok.injEq, true_and] at h
      subst h
      simp only [Option.getD_some, Option.getD_none]
    · refine ⟨h0.le, fun y hy => ?_⟩
      have hy0 : (0 : ℝ) < y 0 := hy.2
      simp only [keptSet, CutChoice.keeps, Set.mem_ofPred_eq]
      simp [dotProduct, Fin.sum_univ_two]
      rcases hpt y hy.1 with h | h | h <;> linarith
    · refine ⟨h1.le, fun y hy => ?_⟩
      have hy0 : (1 : ℝ) < y 0 := hy.2
      rcases hpt y hy.1 with h | h | h <;> linarith
    · refine ⟨le_rfl, fun y hy => ?_⟩
      have hy0 : γ < y 0 := hy.2
      rcases hpt y hy.1 with h | h | h <;> linarith [not_lt.mp h1]

/-- The hypotheses of `C82_discrete_optimum` are met by the oracle above on the unit disc, with initial value 0. -/
example : threePoints ⊆ unitDisc.region ∧
    (∀ o x γ r o' a γ1, True → threeOracle o x γ r = (o', .ok a) → a.gamma1 = some γ1 → a.xq ∈ threePoints ∧ γ1 = a.xq 0) ∧
    ∃ (ev : QEvent (Vec 2) (Cut 2) ℝ) (e2 : Ell 2), ev.x = unitDisc.xc ∧ ev.gamma = (bestOfQ (X := Vec 2) (C := Cut 2) (0 : ℝ) []).2 ∧ threeOracle () ev.x ev.gamma ev.retry = ((), .ok ev.ans) ∧
      unitDisc.updateQ ev.ans.cut = (e2, .ok .noSoln) ∧ (bestOfQ (0 : ℝ) ([] ++ [ev])).1 = some ![1, 0] := by
  refine ⟨?_, ?_, ⟨unitDisc.xc, 0, false, ⟨(![-1, 0], .pair 0 (-1)), ![1, 0], some 1, false⟩, .noSoln⟩, ?_⟩
  · rintro y (rfl | rfl | rfl) <;> simp [Ell.region, ellipsoid, unitDisc, dotProduct, Fin.sum_univ_two]
  · intro o x γ r o' a γ1 _ h hg
    unfold threeOracle at h
    split_ifs at h
    all_goals
      simp only [Prod.mk.injEq, Except.ok.injEq, true_and] at h
      subst h
      simp at hg
    · subst hg; simp [threePoints]
    · subst hg; simp [threePoints]
  · refine ⟨_, rfl, rfl, ?_, Ell.updateCore_none (st := .noSoln) (fun h => by simpa using congrFun h 0) ?_ ?_, rfl⟩
    · unfold threeOracle
      simp only
      rw [if_neg (lt_irrefl _), if_pos one_pos]
    · simp [Ell.omega, unitDisc, dotProduct, Fin.sum_univ_two]
    · simp [EllCalc.calcSingleOrParallelQ, unitDisc, EllCalc.std, EllCalc.calcParallelQ, EllCalc.firstOffset]

end Ellalgo
