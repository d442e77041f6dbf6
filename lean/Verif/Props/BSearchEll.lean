import Verif.Props.BSearch
import Verif.Props.LebesgueVolume

/-!
# C81: `bsearch` with `BSearchAdaptor` and `Ell`

`BSearchAdaptor` keeps the shape of the search space and moves its centre to the last point found. `C81_refuted`: this can move the search space away from
points that are feasible for smaller `γ`, and `bsearch` then misses the threshold by half of the initial interval, however often it iterates. `C81_bsearch_accuracy_partial`: it
cannot happen if the search space, placed at any feasible point, covers all feasible points.
-/

namespace Ellalgo

open Matrix Spec CuttingPlane MeasureTheory

variable {n : ℕ} {O : Type*}

theorem feas_final_inv {omega : OracleFeas O (Vec n) (Cut n)} {I : O → Prop} {F : Set (Vec n)} (hω : CuttingOracle I F omega) (o : O) (ho : I o)
    (e : Ell n) (opts : Options ℝ) : I (feas omega (Ell.space n) ltReal o e opts).1 := by
  obtain ⟨l, o1, e1, ht, hend⟩ := feas_spec omega (Ell.space n) ltReal o e opts
  have hi := ht.inv_oracle hω ho
  have h2 := hω.inv o1 ((Ell.space n).xc e1) hi
  rcases hres : feas omega (Ell.space n) ltReal o e opts with ⟨o', e', res⟩
  rw [hres] at hend
  simp only at hend
  cases hend with
  | limit h => exact hi
  | found h ha => rw [ha] at h2; exact h2
  | stop h ha hu hs => rw [ha] at h2; exact h2
  | oracleRaises h ha => rw [ha] at h2; exact h2
  | updateRaises h ha hu => rw [ha] at h2; exact h2

/-- A family of feasibility problems, larger for larger `γ`, with one oracle object for all: after `update(γ)` (`J γ`) it is a proper oracle for `F γ`. -/
structure ParamOracle (I : O → Prop) (J : ℝ → O → Prop) (F : ℝ → Set (Vec n)) (omega : OracleFeas O (Vec n) (Cut n)) (upd : O → ℝ → O) : Prop where
  mono : ∀ γ γ', γ ≤ γ' → F γ ⊆ F γ'
  upd : ∀ o γ, I o → J γ (upd o γ)
  back : ∀ o γ, J γ o → I o
  proper : ∀ γ, ProperOracle (J γ) (F γ) omega

theorem setXc_WF {e : Ell n} (he : e.WF) (x : Vec n) : (e.setXc x).WF := ⟨he.built, he.posDef, he.kappa_pos⟩

theorem volBound_setXc {e : Ell n} (he : e.WF) (x : Vec n) (F : Set (Vec n)) : volBound (e.setXc x) F = volBound e F := by
  unfold volBound
  rw [WF.volume_region he, WF.volume_region (setXc_WF he x)]; rfl

/-- One test, at a value from which on the problem is feasible, answers `True`; whatever is tested, a `True` answer has moved the centre to a point of `F γ`. -/
theorem assessBS_ell {I : O → Prop} {J : ℝ → O → Prop} {F : ℝ → Set (Vec n)} {omega : OracleFeas O (Vec n) (Cut n)} {upd : O → ℝ → O}
    (hω : ParamOracle I J F omega upd) {opts : Options ℝ} (htol : opts.tolerance ≤ 0) {o : O} (ho : I o) {e : Ell n} (he : e.WF) (γ : ℝ) {γs : ℝ}
    (hF : γs ≤ γ → F γs ⊆ e.region) (hv : volume (F γs) ≠ 0) (hmax : volBound e (F γs) < opts.maxIters) {o' : O} {e' : Ell n} {r : Except Fault Bool}
    (h : assessBS omega upd (Ell.space n) ltReal opts (o, e) γ = ((o', e'), r)) :
    I o' ∧ (γs ≤ γ → r = .ok true) ∧ (r = .ok true → e'.xc ∈ F γ ∧ e' = e.setXc e'.xc) ∧ (r ≠ .ok true → e' = e) := by
  have hp := hω.proper γ
  have hj := hω.upd o γ ho
  have hfin := hω.back _ _ (feas_final_inv hp.toCuttingOracle _ hj e opts)
  unfold assessBS at h
  simp only at h
  have hfind : γs ≤ γ → ∃ o' e' x k, feas omega (Ell.space n) ltReal (upd o γ) e opts = (o', e', .ok (some x, k)) := by
    intro hγ
    obtain ⟨o', e', res, k, h1, h2, ⟨x, rfl, hx⟩ | ⟨rfl, h3, h4⟩⟩ :=
      C73_feas_part_inside hp (hω.mono _ _ hγ) _ hj e he (hF hγ) hv opts hmax
    · exact ⟨o', e', x, k, h1⟩
    · linarith
  rcases hf : feas omega (Ell.space n) ltReal (upd o γ) e opts with ⟨o1, e1, f | ⟨_ | x, k⟩⟩
  · rw [hf] at h hfin; cases h
    exact ⟨hfin, fun hγ => by obtain ⟨_, _, _, _, h1⟩ := hfind hγ; rw [hf] at h1; simp at h1, by simp, fun _ => rfl⟩
  · rw [hf] at h hfin; cases h
    exact ⟨hfin, fun hγ => by obtain ⟨_, _, _, _, h1⟩ := hfind hγ; rw [hf] at h1; simp at h1, by simp, fun _ => rfl⟩
  · rw [hf] at h hfin; cases h
    refine ⟨hfin, fun _ => rfl, fun _ => ⟨?_, rfl⟩, by simp⟩
    obtain ⟨-, -, l, o2, ht, -, ha⟩ := C20_feas_returns_accepted _ _ _ _ _ _ _ _ _ _ hf
    exact hp.accept _ _ _ (ht.inv_oracle hp.toCuttingOracle hj) ha

theorem bsTrace_ell {I : O → Prop} {J : ℝ → O → Prop} {F : ℝ → Set (Vec n)} {omega : OracleFeas O (Vec n) (Cut n)} {upd : O → ℝ → O}
    (hω : ParamOracle I J F omega upd) {opts : Options ℝ} (htol : opts.tolerance ≤ 0) {o : O} (ho : I o) {e : Ell n} (he : e.WF)
    {lo up γs tol : ℝ} (hlo : lo ≤ γs) (hlu : lo ≤ up) (hup : F up ⊆ e.region) (hd : ∀ x ∈ F up, F up ⊆ (e.setXc x).region)
    (hv : volume (F γs) ≠ 0) (hmax : volBound e (F γs) < opts.maxIters) {l : List (ℝ × Bool)} {os : O × Ell n} {lo1 up1 : ℝ}
    (h : BSTrace (assessBS omega upd (Ell.space n) ltReal opts) (BSNum.exact ℝ tol) (o, e) lo up l os lo1 up1) :
    I os.1 ∧ lo1 ≤ γs ∧ lo1 ≤ up1 ∧ up1 ≤ up ∧ os.2 = e.setXc os.2.xc ∧ F up1 ⊆ os.2.region ∧ ((up1 = up ∧ os.2 = e) ∨ os.2.xc ∈ F up1) := by
  induction h with
  | start => exact ⟨ho, hlo, hlu, le_rfl, rfl, hup, Or.inl ⟨rfl, rfl⟩⟩
  | @step l o1 o2 lo1 up1 b t h1 h2 ih =>
    obtain ⟨i1, i2, i3, i4, i5, i6, i7⟩ := ih
    obtain ⟨p1, e1⟩ := o1
    obtain ⟨p2, e2⟩ := o2
    simp only at i1 i5 i6 i7 ⊢
    set γ := (BSNum.exact ℝ tol).mid lo1 ((BSNum.exact ℝ tol).tau lo1 up1) with hγ
    obtain ⟨m1, m2⟩ := exact_mid (tol := tol) lo1 up1 i3
    have w1 : e1.WF := by rw [i5]; exact setXc_WF he _
    obtain ⟨j1, j2, j3, j4⟩ := assessBS_ell hω htol i1 w1 γ (γs := γs) (fun hg => (hω.mono _ _ (hg.trans m2)).trans i6) hv
      (by rw [i5, volBound_setXc he]; exact hmax) h2
    cases b
    · simp only [Bool.false_eq_true, if_false]
      rw [j4 (by simp)]
      refine ⟨j1, ?_, m2, i4, i5, i6, i7⟩
      by_contra hc
      have := j2 (not_le.mp hc).le
      simp at this
    · simp only [if_true]
      obtain ⟨k1, k2⟩ := j3 rfl
      have hx : e2 = e.setXc e2.xc := by
        rw [i5] at k2; exact k2
      refine ⟨j1, i2, m1, m2.trans i4, hx, ?_, Or.inr k1⟩
      rw [hx]
      exact (hω.mono _ _ (m2.trans i4)).trans (hd _ (hω.mono _ _ (m2.trans i4) k1))

/-- **C81 (partial).** `bsearch` over `BSearchAdaptor` with `Ell`, for a family `F γ` of feasibility problems growing with `γ`. Suppose the initial ellipsoid contains `F upper`, also when it is
moved to any point of `F upper` (this is what is missing in general), and from `γs ∈ [lower, upper]` on the problem has volume at least `vol(F γs) > 0`; inner iteration limit above
`2(n+1) ln(vol E/vol F γs)`, inner tolerance at most `0`. Then a returned `u` after `k` tests satisfies `u ≤ γs + (upper - lower)/2^k` (and `u < γs + 2·tol` if it
stopped before the iteration limit), `u` is the initial upper bound or the centre of the main space is a point of `F u`; and an exception can only come from a test below `γs`. -/
theorem C81_bsearch_accuracy_partial {I : O → Prop} {J : ℝ → O → Prop} {F : ℝ → Set (Vec n)} {omega : OracleFeas O (Vec n) (Cut n)} {upd : O → ℝ → O}
    (hω : ParamOracle I J F omega upd) (opts : Options ℝ) (htol : opts.tolerance ≤ 0) (o : O) (ho : I o) (e : Ell n) (he : e.WF)
    (lo up γs tol : ℝ) (hlo : lo ≤ γs) (hlu : lo ≤ up) (hup : F up ⊆ e.region) (hd : ∀ x ∈ F up, F up ⊆ (e.setXc x).region)
    (hv : volume (F γs) ≠ 0) (hmax : volBound e (F γs) < opts.maxIters) (maxIters : ℕ) :
    ∃ o' e' lo' r, bsearch (assessBS omega upd (Ell.space n) ltReal opts) (BSNum.exact ℝ tol) (o, e) (lo, up) maxIters = ((o', e'), lo', r) ∧
      ((∃ u k, r = .ok (u, k) ∧ k ≤ maxIters ∧ u ≤ γs + (up - lo) / 2 ^ k ∧ (k < maxIters → u < γs + 2 * tol) ∧
          ((u = up ∧ e' = e) ∨ e'.xc ∈ F u)) ∨
        (∃ f u l o₁, r = .error f ∧ BSTrace (assessBS omega upd (Ell.space n) ltReal opts) (BSNum.exact ℝ tol) (o, e) lo up l o₁ lo' u ∧
          assessBS omega upd (Ell.space n) ltReal opts o₁ (lo' + (u - lo') / 2) = ((o', e'), .error f) ∧ lo' + (u - lo') / 2 < γs)) := by
  obtain ⟨l, o1, lo1, up1, ht, hend⟩ := bsearch_spec (assessBS omega upd (Ell.space n) ltReal opts) (BSNum.exact ℝ tol) (o, e) lo up maxIters
  obtain ⟨i1, i2, i3, i4, i5, i6, i7⟩ := bsTrace_ell hω htol ho he hlo hlu hup hd hv hmax ht
  obtain ⟨hw, -⟩ := ht.width
  rcases hres : bsearch (assessBS omega upd (Ell.space n) ltReal opts) (BSNum.exact ℝ tol) (o, e) (lo, up) maxIters with ⟨⟨o', e'⟩, lo', r⟩
  rw [hres] at hend
  simp only at hend
  refine ⟨o', e', lo', r, rfl, ?_⟩
  generalize hoe : (o', e') = oe at hend
  cases hend with
  | limit h =>
    subst hoe
    exact Or.inl ⟨_, _, rfl, h.le, by linarith, fun h2 => absurd h h2.ne, i7⟩
  | small h hs =>
    subst hoe
    have hs' : (up1 - lo1) / 2 < tol := by simpa [BSNum.exact] using hs
    exact Or.inl ⟨_, _, rfl, h.le, by linarith, fun _ => by linarith, i7⟩
  | raises h ha =>
    right
    refine ⟨_, up1, l, o1, rfl, ht, hoe ▸ ha, ?_⟩
    obtain ⟨p1, e1⟩ := o1
    subst hoe
    simp only at i1 i5 i6 i7
    obtain ⟨m1, m2⟩ := exact_mid (tol := tol) lo1 up1 i3
    have w1 : e1.WF := by rw [i5]; exact setXc_WF he _
    obtain ⟨j1, j2, j3, j4⟩ := assessBS_ell hω htol i1 w1 _ (γs := γs) (fun hg => (hω.mono _ _ (hg.trans m2)).trans i6) hv
      (by rw [i5, volBound_setXc he]; exact hmax) ha
    by_contra hc
    have := j2 (by
      have := not_lt.mp hc
      simp only [BSNum.exact]
      linarith)
    simp at this

/-- Balls of radius `1/4` (`γ < 1`) and `1/2` (`γ ≥ 1`) around `(1/4, 0)`. -/
noncomputable def stepRadius (γ : ℝ) : ℝ := by classical exact if γ < 1 then 1 / 4 else 1 / 2

theorem stepRadius_pos (γ : ℝ) : 0 < stepRadius γ := by unfold stepRadius; split_ifs <;> norm_num

theorem stepFamily : ParamOracle (fun _ => True) (fun γ o => o = γ) (fun γ => ball (![1 / 4, 0] : Vec 2) (stepRadius γ)) (fun γ x => (γ, (ballOracle ![1 / 4, 0] (stepRadius γ) () x).2)) (fun _ γ => γ) := by
  have hr := fun γ => (ballOracle_regular (![1 / 4, 0] : Vec 2) (stepRadius_pos γ)).proper
  refine ⟨fun γ γ' h y hy => ?_, fun _ _ _ => rfl, fun _ _ _ => trivial, fun γ => ?_⟩
  · have h1 : stepRadius γ ≤ stepRadius γ' := by
      unfold stepRadius; split_ifs <;> linarith
    have h2 : (y - ![1 / 4, 0]) ⬝ᵥ (y - ![1 / 4, 0]) ≤ stepRadius γ ^ 2 := hy
    exact h2.trans (pow_le_pow_left₀ (stepRadius_pos γ).le h1 2)
  · have key : ∀ o x r, ((o, (ballOracle (![1 / 4, 0] : Vec 2) (stepRadius o) () x).2) : ℝ × _) = (γ, r) →
        ballOracle (![1 / 4, 0] : Vec 2) (stepRadius γ) () x = ((), r) := by
      intro o x r h
      rw [Prod.mk.injEq] at h
      rw [← h.2, h.1]
    refine { inv := fun o x h => h, cut := ?_, accept := ?_, total := ?_, shape := ?_ }
    · rintro o x o' cut rfl h
      have := h; rw [Prod.mk.injEq] at this; obtain ⟨rfl, h'⟩ := this
      exact (hr _).cut () x () cut trivial (key _ _ _ h)
    · rintro o x o' rfl h
      have := h; rw [Prod.mk.injEq] at this; obtain ⟨rfl, h'⟩ := this
      exact (hr _).accept () x () trivial (key _ _ _ h)
    · rintro o x o' f rfl h
      have := h; rw [Prod.mk.injEq] at this; obtain ⟨rfl, h'⟩ := this
      exact (hr _).total () x () f trivial (key _ _ _ h)
    · rintro o x o' cut rfl h
      have := h; rw [Prod.mk.injEq] at this; obtain ⟨rfl, h'⟩ := this
      exact (hr _).shape () x () cut trivial (key _ _ _ h)

/-- The hypotheses of the theorem are met: these balls in the unit disc, `lower = 0`, `upper = 2`. -/
example : ∃ (e : Ell 2) (F : ℝ → Set (Vec 2)) (omega : OracleFeas ℝ (Vec 2) (Cut 2)), e.WF ∧
    ParamOracle (fun _ => True) (fun γ o => o = γ) F omega (fun _ γ => γ) ∧ F 2 ⊆ e.region ∧ (∀ x ∈ F 2, F 2 ⊆ (e.setXc x).region) ∧
    volume (F 0) ≠ 0 ∧ F 0 ≠ F 2 := by
  obtain ⟨e, he⟩ := (C60_init_rejects (.scalar (1 ^ 2)) (![0, 0] : Vec 2)).mpr le_rfl
  obtain ⟨e2, he2⟩ := (C60_init_rejects (.scalar ((1 / 4) ^ 2)) (![1 / 4, 0] : Vec 2)).mpr le_rfl
  obtain ⟨w, hreg, -⟩ := init_ball one_pos he
  obtain ⟨w2, hreg2, -⟩ := init_ball (by norm_num) he2
  have hmq : e.mq = 1 ∧ e.kappa = 1 := by
    unfold Ell.init at he
    rw [EllCalc.init_two_le le_rfl] at he
    simp only [except_ok_bind, Except.ok.injEq] at he
    rw [← he]; norm_num
  have r0 : stepRadius 0 = 1 / 4 := by simp [stepRadius]
  have r2 : stepRadius 2 = 1 / 2 := by norm_num [stepRadius]
  refine ⟨e, fun γ => ball ![1 / 4, 0] (stepRadius γ), fun γ x => (γ, (ballOracle ![1 / 4, 0] (stepRadius γ) () x).2), w, ?_, ?_, ?_, ?_, ?_⟩
  · exact stepFamily
  · rw [hreg]
    intro y hy
    simp only [r2] at hy
    have hy' : (y 0 - 1 / 4) * (y 0 - 1 / 4) + y 1 * y 1 ≤ (1 / 2) ^ 2 := by simpa [ball, dotProduct, Fin.sum_univ_two] using hy
    simp [ball, dotProduct, Fin.sum_univ_two]
    nlinarith [mul_self_nonneg (y 0 - 3 / 4), mul_self_nonneg (y 1)]
  · intro x hx y hy
    simp only [r2] at hx hy
    have hx' : (x 0 - 1 / 4) * (x 0 - 1 / 4) + x 1 * x 1 ≤ (1 / 2) ^ 2 := by simpa [ball, dotProduct, Fin.sum_univ_two] using hx
    have hy' : (y 0 - 1 / 4) * (y 0 - 1 / 4) + y 1 * y 1 ≤ (1 / 2) ^ 2 := by simpa [ball, dotProduct, Fin.sum_univ_two] using hy
    show (y - x) ⬝ᵥ (e.mq⁻¹ *ᵥ (y - x)) ≤ e.kappa
    rw [hmq.1, hmq.2]
    simp [dotProduct, Fin.sum_univ_two]
    nlinarith [mul_self_nonneg (x 0 - 1 / 4 + (y 0 - 1 / 4)), mul_self_nonneg (x 1 + y 1)]
  · simp only [r0]; rw [← hreg2]; exact WF.volume_ne_zero w2
  · simp only [r0, r2]
    intro h
    have h1 : (![1 / 4 + 1 / 2, 0] : Vec 2) ∈ ball ![1 / 4, 0] (1 / 2) := by norm_num [ball, dotProduct, Fin.sum_univ_two]
    rw [← h] at h1
    norm_num [ball, dotProduct, Fin.sum_univ_two] at h1

/-! ### The refutation -/

/-- `0 < y₀`, and for `γ < 1` also `-5/13 y₀ + 12/13 y₁ ≥ 9/10`. -/
def driftSet (γ : ℝ) : Set (Vec 2) := {y | 0 < y 0 ∧ (γ < 1 → 9 / 10 ≤ -5 / 13 * y 0 + 12 / 13 * y 1)}

open Classical in
/-- An oracle for `driftSet γ`; its state is `γ`. -/
noncomputable def driftOracle : OracleFeas ℝ (Vec 2) (Cut 2) := fun γ x => (γ, .ok (
  if 0 < x 0 then
    if γ < 1 ∧ -5 / 13 * x 0 + 12 / 13 * x 1 < 9 / 10 then
      some (![5 / 13, -12 / 13], .scalar (9 / 10 - (-5 / 13 * x 0 + 12 / 13 * x 1)))
    else none
  else some (![-1, 0], .scalar (-x 0))))

theorem driftOracle_param : ParamOracle (fun _ => True) (fun γ o => o = γ) driftSet driftOracle (fun _ γ => γ) where
  mono γ γ' h y hy := ⟨hy.1, fun h' => hy.2 (lt_of_le_of_lt h h')⟩
  upd _ _ _ := rfl
  back _ _ _ := trivial
  proper γ :=
    { inv := fun o x h => h
      cut := by
        rintro o x o' cut rfl h
        unfold driftOracle at h
        split_ifs at h with h1 h2 <;> simp only [Prod.mk.injEq, Except.ok.injEq, Option.some.injEq, reduceCtorEq, and_false] at h
        · obtain ⟨-, rfl⟩ := h
          refine ⟨?_, fun y hy => ?_⟩
          · show 0 ≤ 9 / 10 - (-5 / 13 * x 0 + 12 / 13 * x 1)
            linarith [h2.2]
          · show ![5 / 13, -12 / 13] ⬝ᵥ (y - x) + (9 / 10 - (-5 / 13 * x 0 + 12 / 13 * x 1)) ≤ 0
            have := hy.2 h2.1
            simp [dotProduct, Fin.sum_univ_two]
            linarith
        · obtain ⟨-, rfl⟩ := h
          refine ⟨?_, fun y hy => ?_⟩
          · show 0 ≤ -x 0
            linarith [not_lt.mp h1]
          · show ![-1, 0] ⬝ᵥ (y - x) + -x 0 ≤ 0
            have := hy.1
            simp [dotProduct, Fin.sum_univ_two]
            linarith
      accept := by
        rintro o x o' rfl h
        unfold driftOracle at h
        split_ifs at h with h1 h2 <;> simp only [Prod.mk.injEq, Except.ok.injEq, reduceCtorEq, and_false] at h
        exact ⟨h1, fun h3 => by by_contra hc; exact h2 ⟨h3, not_le.mp hc⟩⟩
      total := fun o x o' f _ h => by unfold driftOracle at h; simp at h
      shape := by
        rintro o x o' cut rfl h
        unfold driftOracle at h
        split_ifs at h with h1 h2 <;> simp only [Prod.mk.injEq, Except.ok.injEq, Option.some.injEq, reduceCtorEq, and_false] at h
        · obtain ⟨-, rfl⟩ := h
          refine ⟨?_, fun h0 => ?_⟩
          · show 0 ≤ 9 / 10 - (-5 / 13 * x 0 + 12 / 13 * x 1)
            linarith [h2.2]
          · have := congrFun h0 0
            norm_num at this
        · obtain ⟨-, rfl⟩ := h
          refine ⟨?_, fun h0 => ?_⟩
          · show 0 ≤ -x 0
            linarith [not_lt.mp h1]
          · have := congrFun h0 0
            norm_num at this }

theorem driftSet_volume (γ : ℝ) : volume (driftSet γ ∩ unitDisc.region) ≠ 0 := by
  obtain ⟨e2, he2⟩ := (C60_init_rejects (.scalar ((1 / 200) ^ 2)) (![1 / 100, 99 / 100] : Vec 2)).mpr le_rfl
  obtain ⟨w2, hreg2, -⟩ := init_ball (by norm_num) he2
  refine fun h0 => WF.volume_ne_zero w2 (measure_mono_null (fun y hy => ?_) h0)
  rw [hreg2] at hy
  have hy' : (y 0 - 1 / 100) * (y 0 - 1 / 100) + (y 1 - 99 / 100) * (y 1 - 99 / 100) ≤ (1 / 200) ^ 2 := by
    simpa [ball, dotProduct, Fin.sum_univ_two] using hy
  have a0 := abs_le_of_sq_le_sq' (show (y 0 - 1 / 100) ^ 2 ≤ (1 / 200 : ℝ) ^ 2 by nlinarith [mul_self_nonneg (y 1 - 99 / 100)]) (by norm_num)
  have a1 := abs_le_of_sq_le_sq' (show (y 1 - 99 / 100) ^ 2 ≤ (1 / 200 : ℝ) ^ 2 by nlinarith [mul_self_nonneg (y 0 - 1 / 100)]) (by norm_num)
  refine ⟨⟨by linarith [a0.1], fun _ => by linarith [a0.2, a1.1]⟩, ?_⟩
  show (y - unitDisc.xc) ⬝ᵥ ((unitDisc.mq)⁻¹ *ᵥ (y - unitDisc.xc)) ≤ unitDisc.kappa
  simp [unitDisc, dotProduct, Fin.sum_univ_two]
  nlinarith [a0.1, a0.2, a1.1, a1.2]

/-- The main space after the first test. -/
noncomputable def drifted : Ell 2 := unitDisc.setXc ![1 / 3, 0]

theorem drift_first (opts : Options ℝ) (hm : 2 ≤ opts.maxIters) (ht : opts.tolerance ≤ 1) (o : ℝ) :
    assessBS driftOracle (fun _ γ => γ) (Ell.space 2) ltReal opts (o, unitDisc) 1 = ((1, drifted), .ok true) := by
  have hg : (![-1, 0] : Vec 2) ≠ 0 := fun h => by simpa using congrFun h 0
  have hom : unitDisc.omega ![-1, 0] = 1 := by simp [Ell.omega, unitDisc]
  have hts : unitDisc.kappa * unitDisc.omega ![-1, 0] = 1 := by rw [hom]; norm_num [unitDisc]
  have h0 : driftOracle 1 unitDisc.xc = (1, .ok (some (![-1, 0], .scalar 0))) := by
    simp [driftOracle, unitDisc]
  have hup : unitDisc.updateBiasCut (![-1, 0], .scalar 0) = (unitDisc.applied ![-1, 0] (EllCalcCore.biasParams (2 : ℕ) 0 (Real.sqrt 1)), .ok .success) :=
    Ell.updateCore_some hg (by rw [hom]; norm_num) (by
      rw [hts]; exact EllCalc.calcBiasCut_success (u := true) le_rfl one_pos (by norm_num))
  set e1 := unitDisc.applied ![-1, 0] (EllCalcCore.biasParams (2 : ℕ) 0 (Real.sqrt 1)) with he1
  have hxc : e1.xc = ![1 / 3, 0] := by
    rw [he1, Real.sqrt_one]
    unfold Ell.applied
    simp only [hom]
    ext i; fin_cases i <;> norm_num [unitDisc, EllCalcCore.biasParams]
  have htr : FeasTrace driftOracle (Ell.space 2) ltReal opts.tolerance (1 : ℝ) unitDisc [(unitDisc.xc, (![-1, 0], .scalar 0))] 1 e1 :=
    .step .start h0 hup (ltReal_false.mpr (by show opts.tolerance ≤ unitDisc.kappa * unitDisc.omega ![-1, 0]; rw [hts]; exact ht))
  have hacc : driftOracle 1 ((Ell.space 2).xc e1) = (1, .ok none) := by
    show driftOracle 1 e1.xc = _
    rw [hxc]; simp [driftOracle]
  have hf := C20_feas_returns_first_accepted htr (by simp; omega) hacc
  unfold assessBS
  simp only [hf]
  show ((1, unitDisc.setXc e1.xc), _) = _
  rw [hxc]; rfl

theorem drift_later (opts : Options ℝ) (hm : 2 ≤ opts.maxIters) (o γ : ℝ) (hγ : γ < 1) :
    assessBS driftOracle (fun _ γ => γ) (Ell.space 2) ltReal opts (o, drifted) γ = ((γ, drifted), .ok false) := by
  have hg : (![5 / 13, -12 / 13] : Vec 2) ≠ 0 := fun h => by have := congrFun h 0; norm_num at this
  have hom : drifted.omega ![5 / 13, -12 / 13] = 1 := by
    simp [Ell.omega, drifted, Ell.setXc, unitDisc, dotProduct, Fin.sum_univ_two]; norm_num
  have hts : drifted.kappa * drifted.omega ![5 / 13, -12 / 13] = 1 := by rw [hom]; norm_num [drifted, Ell.setXc, unitDisc]
  obtain ⟨m, hm'⟩ := Nat.exists_eq_add_of_le' (show 1 ≤ opts.maxIters by omega)
  have h0 : driftOracle γ drifted.xc = (γ, .ok (some (![5 / 13, -12 / 13], .scalar (9 / 10 + 5 / 39)))) := by
    norm_num [driftOracle, drifted, Ell.setXc, hγ]
  have hup : drifted.updateBiasCut (![5 / 13, -12 / 13], .scalar (9 / 10 + 5 / 39)) = (_, .ok .noSoln) :=
    Ell.updateCore_none hg (by rw [hom]; norm_num) (by
      rw [hts]; exact EllCalc.calcBiasCut_noSoln (by norm_num) (by norm_num))
  unfold assessBS feas
  simp only [hm']
  unfold feasLoop
  simp only [show (Ell.space 2).xc drifted = drifted.xc from rfl, h0, show (Ell.space 2).updateBiasCut = Ell.updateBiasCut from rfl, hup]
  simp

theorem drift_loop (opts : Options ℝ) (hm : 2 ≤ opts.maxIters) (tol : ℝ) (fuel k : ℕ) (o lo : ℝ) (hlo : lo < 1) :
    ∃ st lo' k', bsearchLoop (assessBS driftOracle (fun _ γ => γ) (Ell.space 2) ltReal opts) (BSNum.exact ℝ tol) fuel k (o, drifted) lo 1 =
      (st, lo', .ok (1, k')) := by
  induction fuel generalizing k o lo with
  | zero => exact ⟨_, _, _, rfl⟩
  | succ fuel ih =>
    unfold bsearchLoop
    simp only
    split_ifs
    · exact ⟨_, _, _, rfl⟩
    · have hγ : (BSNum.exact ℝ tol).mid lo ((BSNum.exact ℝ tol).tau lo 1) < 1 := by
        simp only [BSNum.exact]; linarith
      rw [drift_later opts hm o _ hγ]
      exact ih _ _ _ hγ

/-- **C81, refuted in general.** For every `γ` the problem `driftSet γ` has positive volume inside the initial unit disc, so every test should succeed. But `bsearch` on `(0, 2)` answers `1`, whatever the
iteration limits (at least one test, at least two inner iterations) and tolerances (at most `1`) are: after the successful test of `γ = 1` the adaptor has moved the disc to `(1/3, 0)`, away from
the points that are feasible for `γ < 1`. -/
theorem C81_refuted :
    ParamOracle (fun _ => True) (fun γ o => o = γ) driftSet driftOracle (fun _ γ => γ) ∧ (∀ γ, volume (driftSet γ ∩ unitDisc.region) ≠ 0) ∧
    ∀ (opts : Options ℝ) (tol : ℝ) (maxIters : ℕ), 2 ≤ opts.maxIters → opts.tolerance ≤ 1 → tol ≤ 1 → 1 ≤ maxIters →
      ∃ st lo' k, bsearch (assessBS driftOracle (fun _ γ => γ) (Ell.space 2) ltReal opts) (BSNum.exact ℝ tol) (0, unitDisc) (0, 2) maxIters =
        (st, lo', .ok (1, k)) := by
  refine ⟨driftOracle_param, driftSet_volume, fun opts tol maxIters h1 h2 h3 h4 => ?_⟩
  obtain ⟨m, rfl⟩ := Nat.exists_eq_add_of_le' h4
  unfold bsearch bsearchLoop
  have ht : (BSNum.exact ℝ tol).tau 0 2 = 1 := by simp [BSNum.exact]
  have hm : (BSNum.exact ℝ tol).mid 0 1 = 1 := by simp [BSNum.exact]
  have hs : (BSNum.exact ℝ tol).small 1 = false := by simp [BSNum.exact, h3]
  simp only [ht, hm, hs, Bool.false_eq_true, if_false, drift_first opts h1 h2]
  exact drift_loop opts h1 tol m _ _ _ one_pos

end Ellalgo
