import Verif.Lemmas.Converge
import Verif.Props.Soundness
import Verif.Props.EllState

/-! # C23, C27: convergence of the cutting-plane loops with `Ell` -/

namespace Ellalgo

open Matrix Spec CuttingPlane

variable {n : ℕ} {O G : Type*}

/-- One factor `exp(-1/(n+1))` per completed iteration. -/
theorem exp_step {k : ℕ} {d d' d0 : ℝ} (h1 : d ≤ Real.exp (-(k : ℝ) / ((n : ℝ) + 1)) * d0)
    (h2 : d' ≤ Real.exp (-1 / ((n : ℝ) + 1)) * d) :
    d' ≤ Real.exp (-((k + 1 : ℕ) : ℝ) / ((n : ℝ) + 1)) * d0 := by
  refine h2.trans ((mul_le_mul_of_nonneg_left h1 (Real.exp_pos _).le).trans (le_of_eq ?_))
  rw [← mul_assoc, ← Real.exp_add]
  congr 2
  push_cast
  ring

theorem keep_tol {e : Ell n} {r tol : ℝ} (h : r ^ 2 ≤ e.tsq) (htol : tol ≤ r ^ 2) : ltReal e.tsq tol = false :=
  ltReal_false.mpr (htol.trans h)

/-! ### C23 -/

theorem FeasTrace.regular {omega : OracleFeas O (Vec n) (Cut n)} {I : O → Prop} {F : Set (Vec n)}
    (hω : RegularOracle I F omega) {c : Vec n} {r : ℝ} (hr : 0 < r) (hball : ball c r ⊆ F) {lt tol}
    {o : O} {e : Ell n} (ho : I o) (he : e.WF) (hF : F ⊆ e.region) {l o' e'}
    (h : FeasTrace omega (Ell.space n) lt tol o e l o' e') :
    e'.WF ∧ F ⊆ e'.region ∧
      (e'.kappa • e'.mq).det ≤ Real.exp (-(l.length : ℝ) / ((n : ℝ) + 1)) * (e.kappa • e.mq).det := by
  induction h with
  | start => exact ⟨he, hF, by simp⟩
  | @step l o1 s1 o2 s2 cut t a b _ ih =>
    obtain ⟨w, hF1, hd⟩ := ih
    have hi := t.inv_oracle hω.toCuttingOracle ho
    obtain ⟨h0, hg1⟩ := hω.shape _ _ _ _ hi a
    obtain ⟨e2, hu, w2, hF2, -, hd2⟩ := Ell.regular_bias w hr hball hF1 h0 hg1 (hω.cut _ _ _ _ hi a).2
    have : s2 = e2 := by
      have : (s2, (Except.ok CutStatus.success : Except Fault CutStatus)) = (e2, .ok .success) := b.symm.trans hu
      exact congrArg Prod.fst this
    subst this
    refine ⟨w2, hF2, ?_⟩
    rw [List.length_append, List.length_singleton]
    exact exp_step hd hd2

/-- The bound on the number of completed iterations from an arbitrary ellipsoid: `(n+1) ln(det(κM) / r^{2n})`. -/
noncomputable def iterBound (e : Ell n) (r : ℝ) : ℝ :=
  ((n : ℝ) + 1) * Real.log ((e.kappa • e.mq).det / (r ^ 2) ^ n)

/-- **C23, from an arbitrary ellipsoid.** If `F` is inside the initial ellipsoid and contains a ball of radius `r`, the oracle is separating for `F`, does not raise and
answers gradients of length at least 1, `tolerance ≤ r²`, and `max_iters` exceeds `(n+1) ln(det(κM)/r^{2n})`, then `cutting_plane_feas` returns a
point of `F`, after at most that many iterations. -/
theorem C23_feas_converges_general {omega : OracleFeas O (Vec n) (Cut n)} {I : O → Prop} {F : Set (Vec n)}
    (hω : RegularOracle I F omega) (o : O) (ho : I o) (e : Ell n) (he : e.WF) (hF : F ⊆ e.region)
    (c : Vec n) (r : ℝ) (hr : 0 < r) (hball : ball c r ⊆ F) (opts : Options ℝ) (htol : opts.tolerance ≤ r ^ 2)
    (hmax : iterBound e r < opts.maxIters) :
    ∃ o' e' x k, feas omega (Ell.space n) ltReal o e opts = (o', e', .ok (some x, k)) ∧ x ∈ F ∧
      (k : ℝ) ≤ iterBound e r := by
  obtain ⟨l, o1, e1, ht, hend⟩ := feas_spec omega (Ell.space n) ltReal o e opts
  obtain ⟨w, hF1, hd⟩ := ht.regular hω hr hball ho he hF
  have hi := ht.inv_oracle hω.toCuttingOracle ho
  have hk : (l.length : ℝ) ≤ iterBound e r := iterations_le hr (Ell.det_ge_of_ball w hball hF1) hd
  have hstep : ∀ o2 cut, omega o1 e1.xc = (o2, .ok (some cut)) →
      ∃ e2, e1.updateBiasCut cut = (e2, .ok .success) ∧ ltReal e2.tsq opts.tolerance = false := by
    intro o2 cut a
    obtain ⟨h0, hg1⟩ := hω.shape _ _ _ _ hi a
    obtain ⟨e2, hu, -, -, hts, -⟩ := Ell.regular_bias w hr hball hF1 h0 hg1 (hω.cut _ _ _ _ hi a).2
    exact ⟨e2, hu, keep_tol hts htol⟩
  rcases hres : feas omega (Ell.space n) ltReal o e opts with ⟨o', e', res⟩
  rw [hres] at hend
  simp only at hend
  cases hend with
  | limit h => rw [h] at hk; exact absurd hk (not_le.mpr hmax)
  | found h ha => exact ⟨_, _, _, _, rfl, hω.accept _ _ _ hi ha, hk⟩
  | @stop _ _ cut st h ha hu hs =>
    obtain ⟨e2, hu2, ht2⟩ := hstep _ _ ha
    have heq := hu.symm.trans hu2
    simp only [Prod.mk.injEq, Except.ok.injEq] at heq
    obtain ⟨rfl, rfl⟩ := heq
    rcases hs with hs | hs
    · exact absurd rfl hs
    · exact absurd hs (by rw [show (Ell.space n).tsq e' = e'.tsq from rfl, ht2]; simp)
  | oracleRaises h ha => exact (hω.total _ _ _ _ hi ha).elim
  | updateRaises h ha hu =>
    obtain ⟨e2, hu2, -⟩ := hstep _ _ ha
    have heq := hu.symm.trans hu2
    simp at heq

/-- `Ell(R², x0)` stands for the ball of radius `R` around `x0`. -/
theorem init_ball {R : ℝ} {x0 : Vec n} {e : Ell n} (hR : 0 < R) (h : Ell.init (.scalar (R ^ 2)) x0 = .ok e) :
    e.WF ∧ e.region = ball x0 R ∧ (e.kappa • e.mq).det = (R ^ 2) ^ n := by
  obtain ⟨w, hreg⟩ := C60_init_scalar _ (by positivity) x0 e h
  refine ⟨w, ?_, ?_⟩
  · rw [hreg.2.2]; ext x; simp [ball, dotProduct, pow_two]
  unfold Ell.init at h
  rcases hx : EllCalc.init (n : ℤ) with f | c
  · rw [hx] at h; cases h
  · rw [hx] at h
    simp only [except_ok_bind, Except.ok.injEq] at h
    subst h
    simp

/-- **C23.** If `F` lies in the ball of radius `R` around `x0` and contains a ball of radius `r > 0`, the oracle is separating for `F`, does not raise and answers gradients of
length at least 1, and `tolerance ≤ r²`, then `cutting_plane_feas(omega, Ell(R², x0))` with `max_iters > 2n(n+1) ln(R/r)` returns a
point of `F`, after at most `2n(n+1) ln(R/r)` iterations. -/
theorem C23_feas_converges {omega : OracleFeas O (Vec n) (Cut n)} {I : O → Prop} {F : Set (Vec n)}
    (hω : RegularOracle I F omega) (o : O) (ho : I o) (x0 c : Vec n) (R r : ℝ) (hR : 0 < R) (hr : 0 < r)
    (e : Ell n) (he : Ell.init (.scalar (R ^ 2)) x0 = .ok e) (hF : F ⊆ ball x0 R) (hball : ball c r ⊆ F)
    (opts : Options ℝ) (htol : opts.tolerance ≤ r ^ 2)
    (hmax : 2 * n * ((n : ℝ) + 1) * Real.log (R / r) < opts.maxIters) :
    ∃ o' e' x k, feas omega (Ell.space n) ltReal o e opts = (o', e', .ok (some x, k)) ∧ x ∈ F ∧
      (k : ℝ) ≤ 2 * n * ((n : ℝ) + 1) * Real.log (R / r) := by
  obtain ⟨w, hreg, hdet⟩ := init_ball hR he
  have hb : iterBound e r = 2 * n * ((n : ℝ) + 1) * Real.log (R / r) := by
    rw [iterBound, hdet, log_ball_ratio]; ring
  rw [← hb] at hmax ⊢
  exact C23_feas_converges_general hω o ho e w (by rw [hreg]; exact hF) c r hr hball opts htol hmax

/-- An oracle for the ball of radius `r` around `c`: outside, the neutral cut through the point orthogonal to `x - c`. -/
noncomputable def ballOracle (c : Vec n) (r : ℝ) : OracleFeas Unit (Vec n) (Cut n) := by
  classical
  exact fun _ x => ((), .ok (if x ∈ ball c r then none else some (r⁻¹ • (x - c), .scalar 0)))

theorem dot_le_half (a b : Vec n) : 2 * (a ⬝ᵥ b) ≤ a ⬝ᵥ a + b ⬝ᵥ b := by
  have h : 0 ≤ (a - b) ⬝ᵥ (a - b) := Finset.sum_nonneg fun _ _ => mul_self_nonneg _
  simp only [sub_dotProduct, dotProduct_sub] at h
  rw [dotProduct_comm b a] at h
  linarith

theorem ballOracle_regular (c : Vec n) {r : ℝ} (hr : 0 < r) :
    RegularOracle (fun _ => True) (ball c r) (ballOracle c r) where
  inv _ _ _ := trivial
  cut o x o' cut _ h := by
    unfold ballOracle at h
    split_ifs at h with h0
    · simp at h
    · simp only [Prod.mk.injEq, Except.ok.injEq, Option.some.injEq, true_and] at h
      subst h
      refine ⟨le_rfl, fun y hy => ?_⟩
      have hy' : (y - c) ⬝ᵥ (y - c) ≤ r ^ 2 := hy
      have hx' : r ^ 2 < (x - c) ⬝ᵥ (x - c) := not_le.mp h0
      show r⁻¹ • (x - c) ⬝ᵥ (y - x) + 0 ≤ 0
      have e1 : y - x = (y - c) - (x - c) := by abel
      rw [smul_dotProduct, e1, dotProduct_sub, smul_eq_mul, add_zero]
      have := dot_le_half (x - c) (y - c)
      exact mul_nonpos_of_nonneg_of_nonpos (by positivity) (by linarith)
  accept o x o' _ h := by
    unfold ballOracle at h
    split_ifs at h with h0
    · exact h0
    · simp at h
  total o x o' f _ h := by unfold ballOracle at h; simp at h
  shape o x o' cut _ h := by
    unfold ballOracle at h
    split_ifs at h with h0
    · simp at h
    · simp only [Prod.mk.injEq, Except.ok.injEq, Option.some.injEq, true_and] at h
      subst h
      refine ⟨le_rfl, ?_⟩
      have hx' : r ^ 2 < (x - c) ⬝ᵥ (x - c) := not_le.mp h0
      simp only [smul_dotProduct, dotProduct_smul, smul_eq_mul]
      have : r⁻¹ * (r⁻¹ * ((x - c) ⬝ᵥ (x - c))) = ((x - c) ⬝ᵥ (x - c)) / r ^ 2 := by field_simp
      rw [this, le_div_iff₀ (by positivity)]
      linarith

/-- C23 applies: searching the disc of radius 1/4 around (1/2, 0) from the unit disc takes at most `12 ln 4 < 24` iterations. -/
example : ∃ e : Ell 2, Ell.init (.scalar (1 ^ 2)) ![0, 0] = .ok e ∧
    RegularOracle (fun _ => True) (ball ![1 / 2, 0] (1 / 4)) (ballOracle (![1 / 2, 0] : Vec 2) (1 / 4)) ∧
    ball (![1 / 2, 0] : Vec 2) (1 / 4) ⊆ ball ![0, 0] 1 ∧
    2 * (2 : ℕ) * (((2 : ℕ) : ℝ) + 1) * Real.log (1 / (1 / 4)) < (2000 : ℕ) := by
  obtain ⟨e, he⟩ := (C60_init_rejects (.scalar (1 ^ 2)) (![0, 0] : Vec 2)).mpr le_rfl
  refine ⟨e, he, ballOracle_regular _ (by norm_num), ?_, ?_⟩
  · intro x hx
    simp [ball, dotProduct, Fin.sum_univ_two] at hx ⊢
    nlinarith [sq_nonneg (x 1), sq_nonneg (x 0 - 1)]
  · have := Real.log_le_sub_one_of_pos (x := 4) (by norm_num)
    norm_num
    linarith

/-! ### C27 -/

/-- One iteration while the target `γ*` has not been reached. -/
theorem regular_updateFor [LinearOrder G] {omega : OracleOptim O (Vec n) (Cut n) G} {I : O → Prop}
    {L : G → Set (Vec n)} (hL : Antitone L) (hω : RegularLevelOracle I L omega) {c : Vec n} {r : ℝ} (hr : 0 < r)
    {γs : G} (hball : ball c r ⊆ L γs) {o o' : O} (ho : I o) {e : Ell n} (he : e.WF)
    {ev : OptimEvent (Vec n) (Cut n) G} (hx : ev.x = e.xc)
    (ha : omega o ev.x ev.gamma = (o', .ok (ev.cut, ev.gamma1))) (hF : L ev.gamma ⊆ e.region)
    (hlt : ev.gamma1.getD ev.gamma ≤ γs) :
    ∃ e', (Ell.space n).updateFor e ev = (e', .ok .success) ∧ e'.WF ∧ L (ev.gamma1.getD ev.gamma) ⊆ e'.region ∧
      r ^ 2 ≤ e'.tsq ∧ (e'.kappa • e'.mq).det ≤ Real.exp (-1 / ((n : ℝ) + 1)) * (e.kappa • e.mq).det := by
  obtain ⟨x, γ, cut, γ1⟩ := ev
  simp only at hx ha hF hlt ⊢
  subst hx
  cases γ1 with
  | none =>
    obtain ⟨h0, hg1⟩ := hω.shape _ _ _ _ _ ho ha
    exact Ell.regular_bias he hr (hball.trans (hL hlt)) hF h0 hg1 (hω.cut _ _ _ _ _ ho ha).2
  | some g1 =>
    obtain ⟨h0, hg1⟩ := hω.shapeCentral _ _ _ _ _ _ ho ha
    obtain ⟨hle, hk⟩ := hω.value _ _ _ _ _ _ ho ha
    exact Ell.regular_central he hr (hball.trans (hL hlt)) ((hL hle).trans hF) h0 hg1 hk

theorem OptimTrace.regular [LinearOrder G] {omega : OracleOptim O (Vec n) (Cut n) G} {I : O → Prop}
    {L : G → Set (Vec n)} (hL : Antitone L) (hω : RegularLevelOracle I L omega) {c : Vec n} {r : ℝ} (hr : 0 < r)
    {γs : G} (hball : ball c r ⊆ L γs) {lt tol} {o : O} {e : Ell n} {g0 : G} (ho : I o) (he : e.WF)
    (hF : L g0 ⊆ e.region) {l o' e'} (h : OptimTrace omega (Ell.space n) lt tol o e g0 l o' e')
    (hlt : (bestOf g0 l).2 ≤ γs) :
    e'.WF ∧ L (bestOf g0 l).2 ⊆ e'.region ∧
      (e'.kappa • e'.mq).det ≤ Real.exp (-(l.length : ℝ) / ((n : ℝ) + 1)) * (e.kappa • e.mq).det := by
  induction h with
  | start => exact ⟨he, hF, by simp⟩
  | @step l o1 s1 o2 s2 ev t h1 h2 h3 h4 _ ih =>
    rw [bestOf_snoc_snd g0 l ev h2] at hlt ⊢
    have hi := t.inv_oracle hω.toLevelOracle ho
    have hle : ev.gamma ≤ ev.gamma1.getD ev.gamma := by
      rcases hg : ev.gamma1 with _ | g
      · exact le_rfl
      · rw [hg] at h3; exact (hω.value _ _ _ _ _ _ hi h3).1
    rw [← h2] at ih
    obtain ⟨w, hF1, hd⟩ := ih (hle.trans hlt)
    obtain ⟨e2, hu, w2, hF2, -, hd2⟩ := regular_updateFor hL hω hr hball hi w h1 h3 hF1 hlt
    have : s2 = e2 := by
      have : (s2, (Except.ok CutStatus.success : Except Fault CutStatus)) = (e2, .ok .success) := h4.symm.trans hu
      exact congrArg Prod.fst this
    subst this
    refine ⟨w2, hF2, ?_⟩
    rw [List.length_append, List.length_singleton]
    exact exp_step hd hd2

/-- **C27, from an arbitrary ellipsoid.** A correct optimisation oracle that does not raise and answers gradients of length at least 1, initial level set inside the initial ellipsoid, and a target `γ*` whose level
set contains a ball of radius `r`, `tolerance ≤ r²`. With `N = (n+1) ln(det(κM)/r^{2n})`:
* as long as the best value is not at least `γ*`, at most `N` iterations have been completed;
* a value at least `γ*` is reported at the consultation after some `k ≤ N` completed iterations;
* if `max_iters > N` and the call returns `(x, γ, k)`, then `γ ≥ γ*`;
* if `max_iters > N` and the call raises, then a value at least `γ*` had been reported before. -/
theorem C27_optim_converges_general [LinearOrder G] {omega : OracleOptim O (Vec n) (Cut n) G} {I : O → Prop}
    {L : G → Set (Vec n)} (hL : Antitone L) (hω : RegularLevelOracle I L omega) (o : O) (ho : I o) (e : Ell n)
    (he : e.WF) (g0 γs : G) (hF : L g0 ⊆ e.region) (hg0 : g0 < γs) (c : Vec n) (r : ℝ) (hr : 0 < r)
    (hball : ball c r ⊆ L γs) (opts : Options ℝ) (htol : opts.tolerance ≤ r ^ 2) :
    (∀ l o1 e1, OptimTrace omega (Ell.space n) ltReal opts.tolerance o e g0 l o1 e1 →
      (bestOf g0 l).2 < γs → (l.length : ℝ) ≤ iterBound e r) ∧
    (∃ l o1 e1, ∃ ev : OptimEvent (Vec n) (Cut n) G, ∃ o2, OptimTrace omega (Ell.space n) ltReal opts.tolerance o e g0 l o1 e1 ∧
      (l.length : ℝ) ≤ iterBound e r ∧ ev.x = e1.xc ∧ ev.gamma = (bestOf g0 l).2 ∧
      omega o1 ev.x ev.gamma = (o2, .ok (ev.cut, ev.gamma1)) ∧ ∃ γ1, ev.gamma1 = some γ1 ∧ γs ≤ γ1) ∧
    (iterBound e r < opts.maxIters → ∀ o' e' xb γ k,
      optim omega (Ell.space n) ltReal o e g0 opts = (o', e', .ok (xb, γ, k)) → γs ≤ γ) ∧
    (iterBound e r < opts.maxIters → ∀ o' e' f,
      optim omega (Ell.space n) ltReal o e g0 opts = (o', e', .error f) →
      ∃ l o1 e1 ev o2, OptimTrace omega (Ell.space n) ltReal opts.tolerance o e g0 l o1 e1 ∧
        ev.x = e1.xc ∧ ev.gamma = (bestOf g0 l).2 ∧
        omega o1 ev.x ev.gamma = (o2, .ok (ev.cut, ev.gamma1)) ∧ γs ≤ (bestOf g0 (l ++ [ev])).2) := by
  have hlen : ∀ l o1 e1, OptimTrace omega (Ell.space n) ltReal opts.tolerance o e g0 l o1 e1 →
      (bestOf g0 l).2 < γs → (l.length : ℝ) ≤ iterBound e r := by
    intro l o1 e1 h hlt
    obtain ⟨w, hF1, hd⟩ := h.regular hL hω hr hball ho he hF hlt.le
    exact iterations_le hr (Ell.det_ge_of_ball w (hball.trans (hL hlt.le)) hF1) hd
  have hstep : ∀ l o1 e1 ev o2, OptimTrace omega (Ell.space n) ltReal opts.tolerance o e g0 l o1 e1 →
      ev.x = e1.xc → ev.gamma = (bestOf g0 l).2 → omega o1 ev.x ev.gamma = (o2, .ok (ev.cut, ev.gamma1)) →
      (bestOf g0 l).2 < γs → (bestOf g0 (l ++ [ev])).2 < γs →
      ∃ e2, (Ell.space n).updateFor e1 ev = (e2, .ok .success) ∧ ltReal e2.tsq opts.tolerance = false := by
    intro l o1 e1 ev o2 h h1 h2 h3 hlt hlt2
    obtain ⟨w, hF1, -⟩ := h.regular hL hω hr hball ho he hF hlt.le
    rw [bestOf_snoc_snd g0 l ev h2] at hlt2
    rw [← h2] at hF1
    obtain ⟨e2, hu, -, -, hts, -⟩ := regular_updateFor hL hω hr hball (h.inv_oracle hω.toLevelOracle ho) w h1 h3 hF1 hlt2.le
    exact ⟨e2, hu, keep_tol hts htol⟩
  -- a trace whose best value is at least γ* has an event that reported it
  have hreach : ∀ {l o1 e1}, OptimTrace omega (Ell.space n) ltReal opts.tolerance o e g0 l o1 e1 →
      γs ≤ (bestOf g0 l).2 → ∃ l o1 e1 ev o2, OptimTrace omega (Ell.space n) ltReal opts.tolerance o e g0 l o1 e1 ∧
        (bestOf g0 l).2 < γs ∧ ev.x = Ell.xc e1 ∧ ev.gamma = (bestOf g0 l).2 ∧
        omega o1 ev.x ev.gamma = (o2, .ok (ev.cut, ev.gamma1)) ∧ γs ≤ (bestOf g0 (l ++ [ev])).2 := by
    intro l o1 e1 h
    induction h with
    | start => intro hc; exact absurd hc (not_le.mpr hg0)
    | @step l o1 s1 o2 s2 ev t h1 h2 h3 h4 _ ih =>
      intro hc
      rcases lt_or_ge (bestOf g0 l).2 γs with hlt | hge
      · exact ⟨l, o1, s1, ev, o2, t, hlt, h1, h2, h3, hc⟩
      · exact ih hge
  have hend : iterBound e r < opts.maxIters →
      ∃ l o1 e1, OptimTrace omega (Ell.space n) ltReal opts.tolerance o e g0 l o1 e1 ∧
        OptimEnd omega (Ell.space n) ltReal opts g0 l o1 e1 (optim omega (Ell.space n) ltReal o e g0 opts).1
          (optim omega (Ell.space n) ltReal o e g0 opts).2.1 (optim omega (Ell.space n) ltReal o e g0 opts).2.2 :=
    fun _ => optim_spec omega (Ell.space n) ltReal o e g0 opts
  refine ⟨hlen, ?_, ?_, ?_⟩
  · -- otherwise there are arbitrarily long traces below γ*
    by_contra hno
    have hall : ∀ k : ℕ, ∃ l o1 e1, OptimTrace omega (Ell.space n) ltReal opts.tolerance o e g0 l o1 e1 ∧
        l.length = k ∧ (bestOf g0 l).2 < γs := by
      intro k
      induction k with
      | zero => exact ⟨[], o, e, .start, rfl, hg0⟩
      | succ k ih =>
        obtain ⟨l, o1, e1, ht, hk, hlt⟩ := ih
        rcases ha : omega o1 e1.xc (bestOf g0 l).2 with ⟨o2, f | ⟨cut, γ1⟩⟩
        · exact (hω.total _ _ _ _ _ (ht.inv_oracle hω.toLevelOracle ho) ha).elim
        let ev : OptimEvent (Vec n) (Cut n) G := ⟨e1.xc, (bestOf g0 l).2, cut, γ1⟩
        have hlt2 : (bestOf g0 (l ++ [ev])).2 < γs := by
          by_contra hge
          rw [bestOf_snoc_snd g0 l ev rfl] at hge
          rcases hg : γ1 with _ | g
          · simp only [ev, hg, Option.getD_none] at hge; exact hge hlt
          · refine hno ⟨l, o1, e1, ev, o2, ht, hlen l o1 e1 ht hlt, rfl, rfl, ha, g, hg, ?_⟩
            simp only [ev, hg, Option.getD_some] at hge
            exact not_lt.mp hge
        obtain ⟨e2, hu, hts⟩ := hstep l o1 e1 ev o2 ht rfl rfl ha hlt hlt2
        exact ⟨l ++ [ev], o2, e2, ht.step rfl rfl ha hu hts, by simp [hk], hlt2⟩
    obtain ⟨k, hk⟩ := exists_nat_gt (iterBound e r)
    obtain ⟨l, o1, e1, ht, hl, hlt⟩ := hall k
    have := hlen l o1 e1 ht hlt
    rw [hl] at this
    exact absurd this (not_le.mpr hk)
  · intro hmax o' e' xb γ k hres
    obtain ⟨l, o1, e1, ht, hE⟩ := hend hmax
    rw [hres] at hE
    simp only at hE
    by_contra hge
    cases hE with
    | limit hl =>
      have := hlen l _ _ ht (not_le.mp hge)
      rw [hl] at this
      exact absurd this (not_le.mpr hmax)
    | @stop _ _ st ev hl h1 h2 h3 h4 h5 =>
      have hi := ht.inv_oracle hω.toLevelOracle ho
      have hlt2 := not_le.mp hge
      have hle : (bestOf g0 l).2 ≤ (bestOf g0 (l ++ [ev])).2 := by
        rw [bestOf_snoc_snd g0 l ev h2, ← h2]
        rcases hg : ev.gamma1 with _ | g
        · exact le_rfl
        · rw [hg] at h3; exact (hω.value _ _ _ _ _ _ hi h3).1
      obtain ⟨e2, hu, hts⟩ := hstep l o1 e1 ev _ ht h1 h2 h3 (hle.trans_lt hlt2) hlt2
      have heq := h4.symm.trans hu
      simp only [Prod.mk.injEq, Except.ok.injEq] at heq
      obtain ⟨rfl, rfl⟩ := heq
      rcases h5 with h5 | h5
      · exact absurd rfl h5
      · exact absurd h5 (by rw [show (Ell.space n).tsq e' = e'.tsq from rfl, hts]; simp)
  · intro hmax o' e' f hres
    obtain ⟨l, o1, e1, ht, hE⟩ := hend hmax
    rw [hres] at hE
    simp only at hE
    by_cases hge : γs ≤ (bestOf g0 l).2
    · obtain ⟨l, o1, e1, ev, o2, a, -, b⟩ := hreach ht hge
      exact ⟨l, o1, e1, ev, o2, a, b⟩
    cases hE with
    | oracleRaises hl h1 => exact (hω.total _ _ _ _ _ (ht.inv_oracle hω.toLevelOracle ho) h1).elim
    | @updateRaises o2 _ _ ev hl h1 h2 h3 h4 =>
      refine ⟨l, o1, e1, ev, o', ht, h1, h2, h3, ?_⟩
      by_contra hc
      obtain ⟨e2, hu, -⟩ := hstep l o1 e1 ev _ ht h1 h2 h3 (not_le.mp hge) (not_le.mp hc)
      have heq := h4.symm.trans hu
      simp at heq

/-- **C27.** A correct optimisation oracle that does not raise and answers gradients of length at least 1; the initial level set lies in the ball of radius `R` around `x0`, the set of points at least as good as `γ*` contains a ball of radius `r`,
`tolerance ≤ r²`. Then `cutting_plane_optim(omega, Ell(R², x0), g0)` has been told a value at least as good as `γ*` within `2n(n+1)ln(R/r) + 1`
consultations, and if `max_iters > 2n(n+1)ln(R/r)` and it returns, the returned value is at least as good as `γ*`. -/
theorem C27_optim_converges [LinearOrder G] {omega : OracleOptim O (Vec n) (Cut n) G} {I : O → Prop}
    {L : G → Set (Vec n)} (hL : Antitone L) (hω : RegularLevelOracle I L omega) (o : O) (ho : I o)
    (x0 c : Vec n) (R r : ℝ) (hR : 0 < R) (hr : 0 < r) (e : Ell n)
    (he : Ell.init (.scalar (R ^ 2)) x0 = .ok e) (g0 γs : G) (hF : L g0 ⊆ ball x0 R) (hg0 : g0 < γs)
    (hball : ball c r ⊆ L γs) (opts : Options ℝ) (htol : opts.tolerance ≤ r ^ 2) :
    (∃ l o1 e1, ∃ ev : OptimEvent (Vec n) (Cut n) G, ∃ o2, OptimTrace omega (Ell.space n) ltReal opts.tolerance o e g0 l o1 e1 ∧
      (l.length : ℝ) ≤ 2 * n * ((n : ℝ) + 1) * Real.log (R / r) ∧ ev.x = e1.xc ∧ ev.gamma = (bestOf g0 l).2 ∧
      omega o1 ev.x ev.gamma = (o2, .ok (ev.cut, ev.gamma1)) ∧ ∃ γ1, ev.gamma1 = some γ1 ∧ γs ≤ γ1) ∧
    (2 * n * ((n : ℝ) + 1) * Real.log (R / r) < opts.maxIters → ∀ o' e' xb γ k,
      optim omega (Ell.space n) ltReal o e g0 opts = (o', e', .ok (xb, γ, k)) → γs ≤ γ) := by
  obtain ⟨w, hreg, hdet⟩ := init_ball hR he
  have hb : iterBound e r = 2 * n * ((n : ℝ) + 1) * Real.log (R / r) := by
    rw [iterBound, hdet, log_ball_ratio]; ring
  rw [← hb]
  obtain ⟨-, h2, h3, -⟩ := C27_optim_converges_general hL hω o ho e w g0 γs (by rw [hreg]; exact hF) hg0 c r hr hball opts htol
  exact ⟨h2, h3⟩

/-- The unit vector from `c` to `x` (an arbitrary unit vector if they coincide). -/
noncomputable def unitDir (c x : Vec (n + 1)) : Vec (n + 1) := by
  classical
  exact if x = c then Pi.single 0 1 else (Real.sqrt ((x - c) ⬝ᵥ (x - c)))⁻¹ • (x - c)

/-- An oracle for minimising `|x - c|²`, with `γ` the negated value. -/
noncomputable def distOracle (c : Vec (n + 1)) : OracleOptim Unit (Vec (n + 1)) (Cut (n + 1)) ℝ := by
  classical
  exact fun _ x γ =>
    ((), .ok ((unitDir c x, .scalar 0), if γ ≤ -((x - c) ⬝ᵥ (x - c)) then some (-((x - c) ⬝ᵥ (x - c))) else none))

theorem unitDir_norm (c x : Vec (n + 1)) : 1 ≤ unitDir c x ⬝ᵥ unitDir c x := by
  unfold unitDir
  split_ifs with h
  · simp
  · have hp := dot_self_pos (sub_ne_zero.mpr h)
    simp only [smul_dotProduct, dotProduct_smul, smul_eq_mul]
    have h2 : Real.sqrt ((x - c) ⬝ᵥ (x - c)) ^ 2 = (x - c) ⬝ᵥ (x - c) := Real.sq_sqrt hp.le
    rw [← mul_assoc, ← mul_inv, ← pow_two, h2, inv_mul_cancel₀ hp.ne']

theorem unitDir_keeps (c x y : Vec (n + 1)) (h : (y - c) ⬝ᵥ (y - c) ≤ (x - c) ⬝ᵥ (x - c)) :
    unitDir c x ⬝ᵥ (y - x) ≤ 0 := by
  unfold unitDir
  split_ifs with hx
  · subst hx
    rw [sub_self, zero_dotProduct] at h
    have : y - x = 0 := dotProduct_self_eq_zero.mp
      (le_antisymm h (Finset.sum_nonneg fun _ _ => mul_self_nonneg _))
    rw [this]; simp
  · have e1 : y - x = (y - c) - (x - c) := by abel
    have := dot_le_half (x - c) (y - c)
    rw [smul_dotProduct, smul_eq_mul]
    refine mul_nonpos_of_nonneg_of_nonpos (by positivity) ?_
    rw [e1, dotProduct_sub]
    linarith

theorem distOracle_regular (c : Vec (n + 1)) :
    RegularLevelOracle (fun _ => True) (fun γ => {y | γ ≤ -((y - c) ⬝ᵥ (y - c))}) (distOracle c) where
  inv _ _ _ _ := trivial
  cut o x γ o' cut _ h := by
    unfold distOracle at h
    split_ifs at h with h0 <;> simp only [Prod.mk.injEq, Except.ok.injEq, reduceCtorEq, and_false] at h
    obtain ⟨-, rfl, -⟩ := h
    refine ⟨le_rfl, fun y hy => ?_⟩
    have hy' : γ ≤ -((y - c) ⬝ᵥ (y - c)) := hy
    have := unitDir_keeps c x y (by linarith)
    show unitDir c x ⬝ᵥ (y - x) + 0 ≤ 0
    linarith
  value o x γ o' cut γ1 _ h := by
    unfold distOracle at h
    split_ifs at h with h0 <;>
      simp only [Prod.mk.injEq, Except.ok.injEq, reduceCtorEq, and_false, Option.some.injEq] at h
    obtain ⟨-, rfl, rfl⟩ := h
    refine ⟨h0, fun y hy => ?_⟩
    have hy' : -((x - c) ⬝ᵥ (x - c)) ≤ -((y - c) ⬝ᵥ (y - c)) := hy
    exact unitDir_keeps c x y (by linarith)
  total o x γ o' f _ h := by unfold distOracle at h; simp at h
  shape o x γ o' cut _ h := by
    unfold distOracle at h
    simp only [Prod.mk.injEq, Except.ok.injEq] at h
    obtain ⟨-, rfl, -⟩ := h
    exact ⟨le_rfl, unitDir_norm c x⟩
  shapeCentral o x γ o' cut γ1 _ h := by
    unfold distOracle at h
    simp only [Prod.mk.injEq, Except.ok.injEq] at h
    obtain ⟨-, rfl, -⟩ := h
    exact ⟨trivial, unitDir_norm c x⟩

/-- C27 applies: minimising the squared distance to (1/2, 0) from the disc of radius 2, starting with the value 1 (γ = -1), to accuracy 1/100. -/
example : ∃ e : Ell 2, Ell.init (.scalar (2 ^ 2)) ![0, 0] = .ok e ∧
    Antitone (fun γ : ℝ => {y : Vec 2 | γ ≤ -((y - ![1 / 2, 0]) ⬝ᵥ (y - ![1 / 2, 0]))}) ∧
    RegularLevelOracle (fun _ => True) (fun γ => {y | γ ≤ -((y - ![1 / 2, 0]) ⬝ᵥ (y - ![1 / 2, 0]))})
      (distOracle (![1 / 2, 0] : Vec 2)) ∧
    {y : Vec 2 | (-1 : ℝ) ≤ -((y - ![1 / 2, 0]) ⬝ᵥ (y - ![1 / 2, 0]))} ⊆ ball ![0, 0] 2 ∧
    ball (![1 / 2, 0] : Vec 2) (1 / 10) ⊆ {y | (-(1 / 100) : ℝ) ≤ -((y - ![1 / 2, 0]) ⬝ᵥ (y - ![1 / 2, 0]))} := by
  obtain ⟨e, he⟩ := (C60_init_rejects (.scalar (2 ^ 2)) (![0, 0] : Vec 2)).mpr le_rfl
  refine ⟨e, he, fun a b hab y hy => hab.trans hy, distOracle_regular _, ?_, ?_⟩
  · intro y hy
    simp [ball, dotProduct, Fin.sum_univ_two] at hy ⊢
    nlinarith [sq_nonneg (y 1), sq_nonneg (y 0 - 3 / 2)]
  · intro y hy
    simp only [ball, Set.mem_ofPred_eq] at hy ⊢
    norm_num at hy ⊢
    linarith

end Ellalgo
