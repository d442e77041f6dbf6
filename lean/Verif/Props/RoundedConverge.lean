import Verif.Lemmas.RoundedConverge
import Verif.Spec.RoundedConverge
import Verif.Props.Convergence
import Verif.Py.Refine.Runs
import Mathlib.Analysis.Complex.ExponentialBounds

/-! # C106: the loops succeed in floating point -/

namespace Ellalgo

open Matrix Spec CuttingPlane

variable {n : ℕ} {O G : Type*}

/-- What is known after `k` cuts. -/
def Arith.At (A : Arith) (c : Vec n) (R r w Λ : ℝ) (k : ℕ) (e : Ell n) : Prop :=
  A.Track e c (r - k * (w * Λ)) (R * Real.exp (k * (5 / (9 * ((n : ℝ) ^ 2 - 1))))) ((R ^ 2) ^ n * Real.exp (k * (-9 / (10 * ((n : ℝ) + 1)))))

theorem Arith.Track.mono {A : Arith} {e : Ell n} {c : Vec n} {ρ ρ' Λ V : ℝ} (T : A.Track e c ρ Λ V) (h : ρ' ≤ ρ) : A.Track e c ρ' Λ V where
  helper := T.helper
  defer := T.defer
  symm := T.symm
  kappa := T.kappa
  inside v := le_trans (by have := mul_le_mul_of_nonneg_right h (nrm_nonneg v); linarith) (T.inside v)
  upper := T.upper
  vol := T.vol

/-- `Ell(R², x0)`. -/
theorem Arith.at_init {A : Arith} {x0 c : Vec n} {R r w Λ : ℝ} (hR : 0 < R) (hr : 0 < r) (hsub : ball c r ⊆ ball x0 R) {e : Ell n} (he : A.ellInit (.scalar (R ^ 2)) x0 = .ok e) : A.At c R r w Λ 0 e := by
  unfold Arith.ellInit at he
  rcases hx : A.calcInit (n : ℤ) with f | h
  · rw [hx] at he; cases he
  rw [hx] at he
  simp only [except_ok_bind, Except.ok.injEq] at he
  subst he
  unfold Arith.At
  simp only [Nat.cast_zero, zero_mul, sub_zero, Real.exp_zero, mul_one]
  refine ⟨hx, rfl, transpose_one, by positivity, ?_, fun v => by simp, by simp⟩
  refine (ball_subset_support hr.le fun v => by rw [one_mulVec]; exact mul_nonneg (sq_nonneg R) (dot_self_nn v)).mp fun z hz v => ?_
  have h1 : (z - x0) ⬝ᵥ (z - x0) ≤ R ^ 2 := hsub hz
  have h2 := abs_dot_le v (z - x0)
  rw [one_mulVec, ← sq_abs, ← nrm_sq v]
  rw [← nrm_sq] at h1
  have h3 := pow_le_pow_left₀ (abs_nonneg _) h2 2
  rw [mul_pow] at h3
  nlinarith [sq_nonneg (nrm v)]

/-- One iteration. -/
theorem Arith.At.next {A : Arith} {u γ R r D Λ ε ξ a η : ℝ} (hA : A.Accurate u γ n) (hu : 0 ≤ u) (huγ : u ≤ γ) (hn : 2 ≤ n) (hR : 0 < R) (hr : 0 < r) (B : FloatBudget n u γ R r D Λ ε ξ a) {c : Vec n} (hc : nrm c ≤ D)
    {k : ℕ} {e : Ell n} (h : A.At c R r ((250 * ε + 2 * ξ) / a) Λ k e) (hk : (k : ℝ) ≤ floatIters n R r) (mt : Method) {g : Vec n} {β : ℝ} (hg : g ≠ 0) (hη : η ≤ g ⬝ᵥ g) (hη0 : 0 ≤ η) (hβ : 0 ≤ mt.offset β)
    (hkeep : ∀ y ∈ ball c r, g ⬝ᵥ (y - e.xc) + mt.offset β ≤ 0) (hmargin : mt.offset β = 0 ∨ a * Λ ≤ r) :
    ∃ e', A.update e mt (g, .scalar β) = (e', .ok .success) ∧ A.At c R r ((250 * ε + 2 * ξ) / a) Λ (k + 1) e' ∧ ((k + 1 : ℕ) : ℝ) ≤ floatIters n R r ∧ r ^ 2 * η ≤ 8 * e'.tsq := by
  have hn2 : (2 : ℝ) ≤ n := by exact_mod_cast hn
  have hN2 : (0 : ℝ) < (n : ℝ) ^ 2 - 1 := by nlinarith
  have hN1 : (0 : ℝ) < (n : ℝ) + 1 := by linarith
  have hexp1 : ∀ j : ℕ, (j : ℝ) ≤ floatIters n R r + 1 → R * Real.exp (j * (5 / (9 * ((n : ℝ) ^ 2 - 1)))) ≤ Λ := fun j hj => by
    refine le_trans (mul_le_mul_of_nonneg_left (Real.exp_le_exp.mpr ?_) hR.le) B.axes
    rw [mul_div_assoc', mul_comm]
    exact div_le_div_of_nonneg_right (by linarith) (by positivity)
  have hΛR : R ≤ Λ := by simpa using hexp1 0 (by simp; linarith [Nat.cast_nonneg (α := ℝ) k])
  have hΛ : 0 < Λ := hR.trans_le hΛR
  have hε0 : 0 ≤ ε := le_trans (by have := hu.trans huγ; positivity) B.cond
  have hD : 0 ≤ D := (nrm_nonneg c).trans hc
  have hξ0 : 0 ≤ ξ := le_trans (by positivity) B.centre
  have ha := B.a_pos
  have hw : 0 ≤ (250 * ε + 2 * ξ) / a * Λ := mul_nonneg (div_nonneg (by linarith) ha.le) hΛ.le
  have hρ : ∀ j : ℕ, (j : ℝ) ≤ floatIters n R r + 1 → r / 2 ≤ r - j * ((250 * ε + 2 * ξ) / a * Λ) := fun j hj => by
    have := mul_le_mul_of_nonneg_right hj hw
    linarith [B.drift]
  have hk1 : ((k + 1 : ℕ) : ℝ) ≤ floatIters n R r + 1 := by push_cast; linarith
  have hρk := hρ k (by linarith)
  have hρ0 : 0 < r - k * ((250 * ε + 2 * ξ) / a * Λ) := by linarith
  have hΛk := hexp1 k (by linarith)
  set Lk := R * Real.exp (k * (5 / (9 * ((n : ℝ) ^ 2 - 1)))) with hLk
  have hLk0 : 0 < Lk := by positivity
  have hL1 : R * Real.exp ((k + 1 : ℕ) * (5 / (9 * ((n : ℝ) ^ 2 - 1)))) = Lk * Real.exp (5 / (9 * ((n : ℝ) ^ 2 - 1))) := by
    rw [hLk, mul_assoc, ← Real.exp_add]; congr 2; push_cast; ring
  have hV1 : (R ^ 2) ^ n * Real.exp ((k + 1 : ℕ) * (-9 / (10 * ((n : ℝ) + 1)))) = (R ^ 2) ^ n * Real.exp (k * (-9 / (10 * ((n : ℝ) + 1)))) * Real.exp (-9 / (10 * ((n : ℝ) + 1))) := by
    rw [mul_assoc, ← Real.exp_add]; congr 2; push_cast; ring
  have hkeep' : g ⬝ᵥ (c - e.xc) + (r - k * ((250 * ε + 2 * ξ) / a * Λ)) * nrm g + mt.offset β ≤ 0 := by
    obtain ⟨z, hz, he⟩ := exists_farthest c r g
    have h1 := hkeep z hz
    rw [he] at h1
    have h2 : 0 ≤ k * ((250 * ε + 2 * ξ) / a * Λ) * nrm g := mul_nonneg (mul_nonneg (Nat.cast_nonneg _) hw) (nrm_nonneg g)
    linarith
  have h2r : 2 * Λ / r = Λ / (r / 2) := by field_simp
  obtain ⟨e', h1, T, h3⟩ := Arith.Track.step h (u := u) (γ := γ) (ε := ε) (ξ := ξ) (a := a) hA hu huγ hn hρ0 hLk0 hg mt hβ hkeep' ha B.a_le
    (hmargin.imp id fun hm => by have := mul_le_mul_of_nonneg_left hΛk ha.le; linarith)
    (by
      refine le_trans (mul_le_mul_of_nonneg_left ?_ (by have := hu.trans huγ; positivity)) B.cond
      rw [h2r, div_pow]
      gcongr) B.eps
    (by
      refine le_trans ?_ B.centre
      rw [div_eq_mul_inv]
      refine mul_le_mul (mul_le_mul_of_nonneg_left (by linarith) hu) ?_ (by positivity) (by positivity)
      rw [inv_eq_one_div, div_le_div_iff₀ hρ0 hr]
      linarith) B.xi
  have hT : A.At c R r ((250 * ε + 2 * ξ) / a) Λ (k + 1) e' := by
    unfold Arith.At
    rw [hL1, hV1]
    refine T.mono ?_
    have h4 := hexp1 (k + 1) hk1
    rw [hL1] at h4
    have h5 := mul_le_mul_of_nonneg_left h4 (show 0 ≤ (250 * ε + 2 * ξ) / a from div_nonneg (by linarith) ha.le)
    push_cast
    linarith
  refine ⟨e', h1, hT, ?_, ?_⟩
  · have h5 := hρ (k + 1) hk1
    have h4 := hT.det_ge (by linarith)
    have h6 : ((r / 2) ^ 2) ^ n ≤ ((r - ((k + 1 : ℕ) : ℝ) * ((250 * ε + 2 * ξ) / a * Λ)) ^ 2) ^ n := by gcongr
    have h7 := Real.log_le_log (by positivity) (h6.trans h4)
    rw [Real.log_mul (by positivity) (Real.exp_pos _).ne', Real.log_exp, ← pow_mul, ← pow_mul, Real.log_pow, Real.log_pow] at h7
    have h8 : Real.log (2 * R / r) = Real.log R - Real.log (r / 2) := by
      rw [← Real.log_div hR.ne' (by positivity)]; congr 1; field_simp
    unfold floatIters
    rw [h8]
    generalize Real.log R = X at *
    generalize Real.log (r / 2) = Y at *
    generalize ((k + 1 : ℕ) : ℝ) = K at *
    have h9 : K * (9 / (10 * ((n : ℝ) + 1))) ≤ 2 * n * (X - Y) := by
      have : K * (-9 / (10 * ((n : ℝ) + 1))) = -(K * (9 / (10 * ((n : ℝ) + 1)))) := by ring
      rw [this] at h7
      push_cast at h7
      linarith
    have h10 := mul_le_mul_of_nonneg_right h9 (show 0 ≤ 10 / 9 * ((n : ℝ) + 1) by positivity)
    have h11 : K * (9 / (10 * ((n : ℝ) + 1))) * (10 / 9 * ((n : ℝ) + 1)) = K := by field_simp
    linarith
  · have h4 : (r / 2) ^ 2 ≤ (r - k * ((250 * ε + 2 * ξ) / a * Λ)) ^ 2 := by gcongr
    have h5 := mul_le_mul h4 hη hη0 (sq_nonneg _)
    linarith

/-- The centre stays at a bounded distance from the origin. -/
theorem Arith.At.centre {A : Arith} {u γ R r D Λ ε ξ a : ℝ} (hn : 2 ≤ n) (hu : 0 ≤ u) (hγ : 0 ≤ γ) (hR : 0 < R) (hr : 0 < r) (B : FloatBudget n u γ R r D Λ ε ξ a) {c : Vec n} (hc : nrm c ≤ D)
    {k : ℕ} {e : Ell n} (h : A.At c R r ((250 * ε + 2 * ξ) / a) Λ k e) (hk : (k : ℝ) ≤ floatIters n R r) : nrm e.xc ≤ D + Λ := by
  have hn2 : (2 : ℝ) ≤ n := by exact_mod_cast hn
  have hN2 : (0 : ℝ) < (n : ℝ) ^ 2 - 1 := by nlinarith
  have hΛk : R * Real.exp (k * (5 / (9 * ((n : ℝ) ^ 2 - 1)))) ≤ Λ := by
    refine le_trans (mul_le_mul_of_nonneg_left (Real.exp_le_exp.mpr ?_) hR.le) B.axes
    rw [mul_div_assoc', mul_comm]
    exact div_le_div_of_nonneg_right (by linarith) (by positivity)
  have hΛ : 0 < Λ := lt_of_lt_of_le (by positivity) hΛk
  have hε0 : 0 ≤ ε := le_trans (by positivity) B.cond
  have hD : 0 ≤ D := (nrm_nonneg c).trans hc
  have hξ0 : 0 ≤ ξ := le_trans (by positivity) B.centre
  have hw : 0 ≤ (250 * ε + 2 * ξ) / a * Λ := mul_nonneg (div_nonneg (by linarith) B.a_pos.le) hΛ.le
  have h1 := mul_le_mul_of_nonneg_right (show (k : ℝ) ≤ floatIters n R r + 1 by linarith) hw
  have h2 := Arith.Track.centre h (by linarith [B.drift]) (by positivity)
  linarith

theorem radius_le {x0 c : Vec n} {R r : ℝ} (hn : 1 ≤ n) (hR : 0 < R) (hsub : ball c r ⊆ ball x0 R) : r ≤ R := by
  have hv : (Pi.single ⟨0, hn⟩ 1 : Vec n) ≠ 0 := by simp
  have h1 := width_of_ball (M := 1) (κ := R ^ 2) (xc := x0) (c := c) (r := r) (fun z hz v => by
    have h1 : (z - x0) ⬝ᵥ (z - x0) ≤ R ^ 2 := hsub hz
    have h2 := abs_dot_le v (z - x0)
    rw [one_mulVec, ← sq_abs, ← nrm_sq v]
    rw [← nrm_sq] at h1
    have h3 := pow_le_pow_left₀ (abs_nonneg _) h2 2
    rw [mul_pow] at h3
    nlinarith [sq_nonneg (nrm v)]) (Pi.single ⟨0, hn⟩ 1)
  rw [one_mulVec] at h1
  exact le_of_sq_le_sq (by nlinarith [dot_self_pos hv]) hR.le

theorem floatIters_nonneg {R r : ℝ} (hr : 0 < r) (hrR : r ≤ R) : 0 ≤ floatIters n R r := by
  unfold floatIters
  have : 0 ≤ Real.log (2 * R / r) := Real.log_nonneg (by rw [le_div_iff₀ hr]; linarith)
  positivity

theorem FeasTrace.inner {A : Arith} {u γ R r D Λ ε ξ a η X : ℝ} (hA : A.Accurate u γ n) (hu : 0 ≤ u) (huγ : u ≤ γ) (hn : 2 ≤ n) (hR : 0 < R) (hr : 0 < r) (hrR : r ≤ R) (B : FloatBudget n u γ R r D Λ ε ξ a) {c : Vec n} (hc : nrm c ≤ D)
    {omega : OracleFeas O (Vec n) (Cut n)} {I : O → Prop} {F : Set (Vec n)} (hη : 0 ≤ η) (hω : InnerOracle I F c r η X omega) (hX : D + Λ ≤ X) (hm : (∀ o x o' g β, I o → omega o x = (o', .ok (some (g, .scalar β))) → β = 0) ∨ a * Λ ≤ r)
    {lt tol} {o : O} {e : Ell n} (ho : I o) (he : A.At c R r ((250 * ε + 2 * ξ) / a) Λ 0 e) {l o1 e1} (h : FeasTrace omega (A.space n) lt tol o e l o1 e1) :
    I o1 ∧ A.At c R r ((250 * ε + 2 * ξ) / a) Λ l.length e1 ∧ (l.length : ℝ) ≤ floatIters n R r := by
  induction h with
  | start => exact ⟨ho, he, by simpa using floatIters_nonneg hr hrR⟩
  | @step l o1 s1 o2 s2 cut t h1 h2 _ ih =>
    obtain ⟨hi, hs, hk⟩ := ih
    obtain ⟨g, b⟩ := cut
    obtain ⟨β, rfl, hβ, hkeep, hg, hη1⟩ := hω.cut _ _ _ _ hi (le_trans (hs.centre hn hu (hu.trans huγ) hR hr B hc hk) hX) h1
    obtain ⟨e2, k1, k2, k3, -⟩ := hs.next hA hu huγ hn hR hr B hc hk .bias hg hη1 hη (show 0 ≤ Method.bias.offset β from hβ) hkeep (hm.imp (fun h => h _ _ _ _ _ hi h1) id)
    obtain ⟨rfl, -⟩ := Prod.mk.injEq .. ▸ h2.symm.trans k1
    refine ⟨?_, by rw [List.length_append]; exact k2, by rw [List.length_append]; exact k3⟩
    have := hω.inv o1 ((A.space n).xc s1) hi
    rwa [h1] at this

/-- **C106.** `cutting_plane_feas(omega, Ell(R², x0))` in floating point. The cuts of the oracle (central or deep, one offset; its own rounding errors included) keep a ball of radius `r` inside the ball of radius `R` around `x0`, it does not raise, the precision is
sufficient (`FloatBudget`) and `tolerance` is at most `η r²/8`, with `η` a lower bound of the squared lengths of the gradients. Then a point that the oracle accepts is returned, after at most `(20/9) n (n+1) ln(2R/r)` iterations. -/
theorem C106_feas {A : Arith} {u γ R r D Λ ε ξ a η X : ℝ} (hA : A.Accurate u γ n) (hu : 0 ≤ u) (huγ : u ≤ γ) (hn : 2 ≤ n) (hR : 0 < R) (hr : 0 < r) (B : FloatBudget n u γ R r D Λ ε ξ a) {c : Vec n} (hc : nrm c ≤ D)
    {omega : OracleFeas O (Vec n) (Cut n)} {I : O → Prop} {F : Set (Vec n)} (hη : 0 ≤ η) (hω : InnerOracle I F c r η X omega) (hX : D + Λ ≤ X) (hm : (∀ o x o' g β, I o → omega o x = (o', .ok (some (g, .scalar β))) → β = 0) ∨ a * Λ ≤ r)
    {o : O} (ho : I o) {x0 : Vec n} (hsub : ball c r ⊆ ball x0 R) {e : Ell n} (he : A.ellInit (.scalar (R ^ 2)) x0 = .ok e) (opts : Options ℝ) (htol : 8 * opts.tolerance ≤ r ^ 2 * η) (hmax : floatIters n R r < opts.maxIters) :
    ∃ o' e' x k, feas omega (A.space n) ltReal o e opts = (o', e', .ok (some x, k)) ∧ x ∈ F ∧ (k : ℝ) ≤ floatIters n R r := by
  have hrR := radius_le (by omega) hR hsub
  have h0 : A.At c R r ((250 * ε + 2 * ξ) / a) Λ 0 e := Arith.at_init hR hr hsub he
  obtain ⟨l, o1, e1, ht, hend⟩ := feas_spec omega (A.space n) ltReal o e opts
  obtain ⟨hi, hs, hk⟩ := ht.inner hA hu huγ hn hR hr hrR B hc hη hω hX hm ho h0
  have hstep : ∀ o2 cut, omega o1 ((A.space n).xc e1) = (o2, .ok (some cut)) → ∃ e2, (A.space n).updateBiasCut e1 cut = (e2, .ok .success) ∧ ltReal ((A.space n).tsq e2) opts.tolerance = false := by
    intro o2 cut h1
    obtain ⟨g, b⟩ := cut
    obtain ⟨β, rfl, hβ, hkeep, hg, hη1⟩ := hω.cut _ _ _ _ hi (le_trans (hs.centre hn hu (hu.trans huγ) hR hr B hc hk) hX) h1
    obtain ⟨e2, k1, -, -, k4⟩ := hs.next hA hu huγ hn hR hr B hc hk .bias hg hη1 hη (show 0 ≤ Method.bias.offset β from hβ) hkeep (hm.imp (fun h => h _ _ _ _ _ hi h1) id)
    exact ⟨e2, k1, ltReal_false.mpr (show opts.tolerance ≤ e2.tsq by linarith)⟩
  rcases hres : feas omega (A.space n) ltReal o e opts with ⟨o', e', res⟩
  rw [hres] at hend
  simp only at hend
  cases hend with
  | limit h => rw [h] at hk; exact absurd hk (not_le.mpr hmax)
  | found h ha => exact ⟨_, _, _, _, rfl, hω.accept _ _ _ hi (le_trans (hs.centre hn hu (hu.trans huγ) hR hr B hc hk) hX) ha, hk⟩
  | @stop _ _ cut st h ha hu hs =>
    obtain ⟨e2, hu2, ht2⟩ := hstep _ _ ha
    have heq := hu.symm.trans hu2
    simp only [Prod.mk.injEq, Except.ok.injEq] at heq
    obtain ⟨rfl, rfl⟩ := heq
    rcases hs with hs | hs
    · exact absurd rfl hs
    · exact absurd hs (by rw [ht2]; simp)
  | oracleRaises h ha => exact (hω.total _ _ _ _ hi ha).elim
  | updateRaises h ha hu =>
    obtain ⟨e2, hu2, -⟩ := hstep _ _ ha
    have heq := hu.symm.trans hu2
    simp at heq

/-! ### Optimisation -/

section optim

variable [LinearOrder G] {A : Arith} {u γ R r D Λ ε ξ a η X : ℝ} {c : Vec n} {omega : OracleOptim O (Vec n) (Cut n) G} {I : O → Prop} {γs : G}

/-- One iteration while the target has not been reached. -/
theorem Arith.At.updateFor (hA : A.Accurate u γ n) (hu : 0 ≤ u) (huγ : u ≤ γ) (hn : 2 ≤ n) (hR : 0 < R) (hr : 0 < r) (B : FloatBudget n u γ R r D Λ ε ξ a) (hc : nrm c ≤ D) (hη : 0 ≤ η) (hω : InnerLevelOracle I γs c r η X omega) (hX : D + Λ ≤ X)
    (hm : (∀ o x γ o' g β, I o → omega o x γ = (o', .ok ((g, .scalar β), none)) → β = 0) ∨ a * Λ ≤ r) {k : ℕ} {e : Ell n} (h : A.At c R r ((250 * ε + 2 * ξ) / a) Λ k e) (hk : (k : ℝ) ≤ floatIters n R r)
    {o o' : O} (ho : I o) {ev : OptimEvent (Vec n) (Cut n) G} (hx : ev.x = e.xc) (ha : omega o ev.x ev.gamma = (o', .ok (ev.cut, ev.gamma1))) (hlt : ev.gamma1.getD ev.gamma < γs) :
    ∃ e', (A.space n).updateFor e ev = (e', .ok .success) ∧ A.At c R r ((250 * ε + 2 * ξ) / a) Λ (k + 1) e' ∧ ((k + 1 : ℕ) : ℝ) ≤ floatIters n R r ∧ r ^ 2 * η ≤ 8 * e'.tsq := by
  obtain ⟨x, γ, ⟨g, b⟩, γ1⟩ := ev
  simp only at hx ha hlt ⊢
  subst hx
  cases γ1 with
  | none =>
    obtain ⟨β, rfl, hβ, hkeep, hg, hη1⟩ := hω.cut _ _ _ _ _ ho (le_trans (h.centre hn hu (hu.trans huγ) hR hr B hc hk) hX) hlt ha
    exact h.next hA hu huγ hn hR hr B hc hk .bias hg hη1 hη (show 0 ≤ Method.bias.offset β from hβ) hkeep (hm.imp (fun h => h _ _ _ _ _ _ ho ha) id)
  | some g1 =>
    obtain ⟨β, rfl, hkeep, hg, hη1⟩ := hω.value _ _ _ _ _ _ ho (le_trans (h.centre hn hu (hu.trans huγ) hR hr B hc hk) hX) hlt ha
    exact h.next hA hu huγ hn hR hr B hc hk .central hg hη1 hη (show (0 : ℝ) ≤ Method.central.offset β from le_rfl) (fun y hy => by simpa [Method.offset] using hkeep y hy) (.inl rfl)

theorem OptimTrace.inner_inv (hω : InnerLevelOracle I γs c r η X omega) {S : Type*} {sp : SearchSpace S (Vec n) (Cut n) ℝ} {lt tol} {o : O} {s : S} {g0 : G} (ho : I o) {l o1 s1} (h : OptimTrace omega sp lt tol o s g0 l o1 s1) : I o1 := by
  induction h with
  | start => exact ho
  | @step l o1 s1 o2 s2 ev t h1 h2 h3 h4 _ ih =>
    have := hω.inv o1 ev.x ev.gamma ih
    rwa [h3] at this

theorem OptimTrace.inner_le (hω : InnerLevelOracle I γs c r η X omega) {o o2 : O} (ho : I o) {g0 : G} {l : List (OptimEvent (Vec n) (Cut n) G)} {ev : OptimEvent (Vec n) (Cut n) G} (h2 : ev.gamma = (bestOf g0 l).2)
    (h3 : omega o ev.x ev.gamma = (o2, .ok (ev.cut, ev.gamma1))) : (bestOf g0 l).2 ≤ (bestOf g0 (l ++ [ev])).2 := by
  rw [bestOf_snoc_snd g0 l ev h2, ← h2]
  rcases hg : ev.gamma1 with _ | g
  · exact le_rfl
  · rw [hg] at h3; exact hω.mono _ _ _ _ _ _ ho h3

theorem OptimTrace.inner (hA : A.Accurate u γ n) (hu : 0 ≤ u) (huγ : u ≤ γ) (hn : 2 ≤ n) (hR : 0 < R) (hr : 0 < r) (hrR : r ≤ R) (B : FloatBudget n u γ R r D Λ ε ξ a) (hc : nrm c ≤ D) (hη : 0 ≤ η) (hω : InnerLevelOracle I γs c r η X omega) (hX : D + Λ ≤ X)
    (hm : (∀ o x γ o' g β, I o → omega o x γ = (o', .ok ((g, .scalar β), none)) → β = 0) ∨ a * Λ ≤ r) {lt tol} {o : O} {e : Ell n} {g0 : G} (ho : I o) (he : A.At c R r ((250 * ε + 2 * ξ) / a) Λ 0 e) {l o1 e1}
    (h : OptimTrace omega (A.space n) lt tol o e g0 l o1 e1) (hlt : (bestOf g0 l).2 < γs) :
    A.At c R r ((250 * ε + 2 * ξ) / a) Λ l.length e1 ∧ (l.length : ℝ) ≤ floatIters n R r := by
  induction h with
  | start => exact ⟨he, by simpa using floatIters_nonneg hr hrR⟩
  | @step l o1 s1 o2 s2 ev t h1 h2 h3 h4 _ ih =>
    have hi := t.inner_inv hω ho
    obtain ⟨hs, hk⟩ := ih ((OptimTrace.inner_le hω hi h2 h3).trans_lt hlt)
    rw [bestOf_snoc_snd g0 l ev h2] at hlt
    obtain ⟨e2, k1, k2, k3, -⟩ := hs.updateFor hA hu huγ hn hR hr B hc hη hω hX hm hk hi h1 h3 hlt
    obtain ⟨rfl, -⟩ := Prod.mk.injEq .. ▸ h4.symm.trans k1
    exact ⟨by rw [List.length_append]; exact k2, by rw [List.length_append]; exact k3⟩

/-- **C106.** `cutting_plane_optim(omega, Ell(R², x0), g0)` in floating point. Until a value at least as good as `γs` has been reported, the cuts keep a ball of radius `r` inside the ball of radius `R` around `x0`; otherwise as in `C106_feas`. Then
* such a value is reported after at most `(20/9) n (n+1) ln(2R/r)` completed iterations;
* with `max_iters` above this number, the value returned is at least as good as `γs`;
* and if the call raises, such a value had been reported before. -/
theorem C106_optim (hA : A.Accurate u γ n) (hu : 0 ≤ u) (huγ : u ≤ γ) (hn : 2 ≤ n) (hR : 0 < R) (hr : 0 < r) (B : FloatBudget n u γ R r D Λ ε ξ a) (hc : nrm c ≤ D) (hη : 0 ≤ η) (hω : InnerLevelOracle I γs c r η X omega) (hX : D + Λ ≤ X)
    (hm : (∀ o x γ o' g β, I o → omega o x γ = (o', .ok ((g, .scalar β), none)) → β = 0) ∨ a * Λ ≤ r) {o : O} (ho : I o) {x0 : Vec n} (hsub : ball c r ⊆ ball x0 R) {e : Ell n} (he : A.ellInit (.scalar (R ^ 2)) x0 = .ok e)
    {g0 : G} (hg0 : g0 < γs) (opts : Options ℝ) (htol : 8 * opts.tolerance ≤ r ^ 2 * η) :
    (∃ l o1 e1, ∃ ev : OptimEvent (Vec n) (Cut n) G, ∃ o2, OptimTrace omega (A.space n) ltReal opts.tolerance o e g0 l o1 e1 ∧
      (l.length : ℝ) ≤ floatIters n R r ∧ ev.x = e1.xc ∧ ev.gamma = (bestOf g0 l).2 ∧
      omega o1 ev.x ev.gamma = (o2, .ok (ev.cut, ev.gamma1)) ∧ ∃ γ1, ev.gamma1 = some γ1 ∧ γs ≤ γ1) ∧
    (floatIters n R r < opts.maxIters → ∀ o' e' xb γ k,
      optim omega (A.space n) ltReal o e g0 opts = (o', e', .ok (xb, γ, k)) → γs ≤ γ) ∧
    (∀ o' e' f,
      optim omega (A.space n) ltReal o e g0 opts = (o', e', .error f) →
      ∃ l o1 e1 ev o2, OptimTrace omega (A.space n) ltReal opts.tolerance o e g0 l o1 e1 ∧ ev.x = e1.xc ∧ ev.gamma = (bestOf g0 l).2 ∧
        omega o1 ev.x ev.gamma = (o2, .ok (ev.cut, ev.gamma1)) ∧ γs ≤ (bestOf g0 (l ++ [ev])).2) := by
  have hrR := radius_le (by omega) hR hsub
  have h0 : A.At c R r ((250 * ε + 2 * ξ) / a) Λ 0 e := Arith.at_init hR hr hsub he
  have hlen : ∀ {l o1 e1}, OptimTrace omega (A.space n) ltReal opts.tolerance o e g0 l o1 e1 → (bestOf g0 l).2 < γs →
      A.At c R r ((250 * ε + 2 * ξ) / a) Λ l.length e1 ∧ (l.length : ℝ) ≤ floatIters n R r := fun h hlt => h.inner hA hu huγ hn hR hr hrR B hc hη hω hX hm ho h0 hlt
  have hstep : ∀ l o1 e1 ev o2, OptimTrace omega (A.space n) ltReal opts.tolerance o e g0 l o1 e1 →
      ev.x = e1.xc → ev.gamma = (bestOf g0 l).2 → omega o1 ev.x ev.gamma = (o2, .ok (ev.cut, ev.gamma1)) → (bestOf g0 (l ++ [ev])).2 < γs →
      ∃ e2, (A.space n).updateFor e1 ev = (e2, .ok .success) ∧ ltReal ((A.space n).tsq e2) opts.tolerance = false := by
    intro l o1 e1 ev o2 h h1 h2 h3 hlt2
    have hi := h.inner_inv hω ho
    obtain ⟨hs, hk⟩ := hlen h ((OptimTrace.inner_le hω hi h2 h3).trans_lt hlt2)
    rw [bestOf_snoc_snd g0 l ev h2] at hlt2
    obtain ⟨e2, k1, -, -, k4⟩ := hs.updateFor hA hu huγ hn hR hr B hc hη hω hX hm hk hi h1 h3 hlt2
    exact ⟨e2, k1, ltReal_false.mpr (show opts.tolerance ≤ e2.tsq by linarith)⟩
  have hreach : ∀ {l o1 e1}, OptimTrace omega (A.space n) ltReal opts.tolerance o e g0 l o1 e1 →
      γs ≤ (bestOf g0 l).2 → ∃ l o1 e1 ev o2, OptimTrace omega (A.space n) ltReal opts.tolerance o e g0 l o1 e1 ∧ ev.x = Ell.xc e1 ∧ ev.gamma = (bestOf g0 l).2 ∧
        omega o1 ev.x ev.gamma = (o2, .ok (ev.cut, ev.gamma1)) ∧ γs ≤ (bestOf g0 (l ++ [ev])).2 := by
    intro l o1 e1 h
    induction h with
    | start => intro hc; exact absurd hc (not_le.mpr hg0)
    | @step l o1 s1 o2 s2 ev t h1 h2 h3 h4 _ ih => exact fun hc => ⟨l, o1, s1, ev, o2, t, h1, h2, h3, hc⟩
  obtain ⟨l, o1, e1, ht, hE⟩ := optim_spec omega (A.space n) ltReal o e g0 opts
  refine ⟨?_, ?_, ?_⟩
  · by_contra hno
    have hall : ∀ k : ℕ, ∃ l o1 e1, OptimTrace omega (A.space n) ltReal opts.tolerance o e g0 l o1 e1 ∧ l.length = k ∧ (bestOf g0 l).2 < γs := by
      intro k
      induction k with
      | zero => exact ⟨[], o, e, .start, rfl, hg0⟩
      | succ k ih =>
        obtain ⟨l, o1, e1, ht, hk, hlt⟩ := ih
        rcases ha : omega o1 e1.xc (bestOf g0 l).2 with ⟨o2, f | ⟨cut, γ1⟩⟩
        · exact (hω.total _ _ _ _ _ (ht.inner_inv hω ho) ha).elim
        let ev : OptimEvent (Vec n) (Cut n) G := ⟨e1.xc, (bestOf g0 l).2, cut, γ1⟩
        have hlt2 : (bestOf g0 (l ++ [ev])).2 < γs := by
          by_contra hge
          rw [bestOf_snoc_snd g0 l ev rfl] at hge
          rcases hg : γ1 with _ | g
          · simp only [ev, hg, Option.getD_none] at hge; exact hge hlt
          · refine hno ⟨l, o1, e1, ev, o2, ht, (hlen ht hlt).2, rfl, rfl, ha, g, hg, ?_⟩
            simp only [ev, hg, Option.getD_some] at hge
            exact not_lt.mp hge
        obtain ⟨e2, hu, hts⟩ := hstep l o1 e1 ev o2 ht rfl rfl ha hlt2
        exact ⟨l ++ [ev], o2, e2, ht.step rfl rfl ha hu hts, by simp [hk], hlt2⟩
    obtain ⟨k, hk⟩ := exists_nat_gt (floatIters n R r)
    obtain ⟨l, o1, e1, ht, hl, hlt⟩ := hall k
    have := (hlen ht hlt).2
    rw [hl] at this
    exact absurd this (not_le.mpr hk)
  · intro hmax o' e' xb γ k hres
    rw [hres] at hE
    simp only at hE
    by_contra hge
    cases hE with
    | limit hl =>
      have := (hlen ht (not_le.mp hge)).2
      rw [hl] at this
      exact absurd this (not_le.mpr hmax)
    | @stop _ _ st ev hl h1 h2 h3 h4 h5 =>
      obtain ⟨e2, hu, hts⟩ := hstep l o1 e1 ev _ ht h1 h2 h3 (not_le.mp hge)
      have heq := h4.symm.trans hu
      simp only [Prod.mk.injEq, Except.ok.injEq] at heq
      obtain ⟨rfl, rfl⟩ := heq
      rcases h5 with h5 | h5
      · exact absurd rfl h5
      · exact absurd h5 (by rw [hts]; simp)
  · intro o' e' f hres
    rw [hres] at hE
    simp only at hE
    by_cases hge : γs ≤ (bestOf g0 l).2
    · exact hreach ht hge
    cases hE with
    | oracleRaises hl h1 => exact (hω.total _ _ _ _ _ (ht.inner_inv hω ho) h1).elim
    | @updateRaises o2 _ _ ev hl h1 h2 h3 h4 =>
      refine ⟨l, o1, e1, ev, o', ht, h1, h2, h3, ?_⟩
      by_contra hc
      obtain ⟨e2, hu, -⟩ := hstep l o1 e1 ev _ ht h1 h2 h3 (not_le.mp hc)
      have heq := h4.symm.trans hu
      simp at heq

end optim

/-! ### How many bits -/

/-- The bound of the semi-axes. -/
noncomputable def Spec.floatAxes (n : ℕ) (R r : ℝ) : ℝ := R * Real.exp (5 * (floatIters n R r + 1) / (9 * ((n : ℝ) ^ 2 - 1)))

theorem Arith.ieee_gamma_le {p n : ℕ} (h : ((n : ℝ) + 1) * 2⁻¹ ^ p ≤ 1) : ((1 : ℝ) + 2⁻¹ ^ p) ^ (n + 1) - 1 ≤ 2 * (n + 1) * 2⁻¹ ^ p := by
  have h0 : (0 : ℝ) ≤ 2⁻¹ ^ p := by positivity
  generalize (2⁻¹ : ℝ) ^ p = u at *
  have h1 : (1 + u) ^ (n + 1) ≤ Real.exp ((n + 1) * u) := by
    have h2 := pow_le_pow_left₀ (by linarith) (show 1 + u ≤ Real.exp u by linarith [Real.add_one_le_exp u]) (n + 1)
    rwa [← Real.exp_nat_mul, Nat.cast_add, Nat.cast_one] at h2
  have h3 : 0 ≤ ((n : ℝ) + 1) * u := by positivity
  have h5 := Real.abs_exp_sub_one_le (x := ((n : ℝ) + 1) * u) (by rw [abs_of_nonneg h3]; exact h)
  rw [abs_of_nonneg h3] at h5
  have h6 := (abs_le.mp h5).2
  linarith

theorem Arith.ieee_le_gamma (p n : ℕ) : (2⁻¹ : ℝ) ^ p ≤ (1 + 2⁻¹ ^ p) ^ (n + 1) - 1 := by
  have h0 : (0 : ℝ) ≤ 2⁻¹ ^ p := by positivity
  have := one_add_mul_le_pow (show (-2 : ℝ) ≤ 2⁻¹ ^ p by linarith) (n + 1)
  push_cast at this
  nlinarith

set_option maxHeartbeats 1000000 in
/-- **C106.** With `p` bits, `2^p ≥ 24000 (n+1)⁴ T Q⁴` is sufficient precision for deep cuts, `T` the number of iterations plus 1 and `Q = (Λ + D)/r`; so `p` of the order `ln(n (R + D)/r)`. -/
theorem C106_bits {p : ℕ} (hn : 2 ≤ n) {R r D : ℝ} (hr : 0 < r) (hrR : r ≤ R) (hD : 0 ≤ D)
    (hp : 24000 * ((n : ℝ) + 1) ^ 4 * (floatIters n R r + 1) * ((floatAxes n R r + D) / r) ^ 4 ≤ 2 ^ p) :
    ∃ ε ξ a, FloatBudget n (2⁻¹ ^ p) ((1 + 2⁻¹ ^ p) ^ (n + 1) - 1) R r D (floatAxes n R r) ε ξ a ∧ a * floatAxes n R r ≤ r := by
  have hn2 : (2 : ℝ) ≤ n := by exact_mod_cast hn
  have hN2 : (0 : ℝ) < (n : ℝ) ^ 2 - 1 := by nlinarith
  have hT0 := floatIters_nonneg (n := n) hr hrR
  have hΛR : R ≤ floatAxes n R r := by
    unfold floatAxes
    have : 1 ≤ Real.exp (5 * (floatIters n R r + 1) / (9 * ((n : ℝ) ^ 2 - 1))) := Real.one_le_exp (by positivity)
    nlinarith
  have hup : (2⁻¹ : ℝ) ^ p * 2 ^ p = 1 := by rw [← mul_pow]; norm_num
  have hu0 : (0 : ℝ) ≤ 2⁻¹ ^ p := by positivity
  have hax : R * Real.exp (5 * (floatIters n R r + 1) / (9 * ((n : ℝ) ^ 2 - 1))) ≤ floatAxes n R r := le_rfl
  have hg : ((n : ℝ) + 1) * 2⁻¹ ^ p ≤ 1 → ((1 : ℝ) + 2⁻¹ ^ p) ^ (n + 1) - 1 ≤ 2 * (n + 1) * 2⁻¹ ^ p := Arith.ieee_gamma_le
  generalize floatAxes n R r = Λ at *
  generalize hT : floatIters n R r = T at *
  generalize ((1 : ℝ) + 2⁻¹ ^ p) ^ (n + 1) - 1 = γ at *
  generalize (2⁻¹ : ℝ) ^ p = u at *
  have hΛ : 0 < Λ := by linarith
  obtain ⟨Q, hQ⟩ : ∃ Q, Q = (Λ + D) / r := ⟨_, rfl⟩
  have hQ1 : 1 ≤ Q := by rw [hQ, le_div_iff₀ hr]; linarith
  have hΛQ : Λ ≤ Q * r := by rw [hQ, div_mul_cancel₀ _ hr.ne']; linarith
  have hDQ : D + Λ = Q * r := by rw [hQ, div_mul_cancel₀ _ hr.ne']; ring
  rw [← hQ] at hp
  have hN : 3 ≤ (n : ℝ) + 1 := by linarith
  obtain ⟨N, hNd⟩ : ∃ N, N = (n : ℝ) + 1 := ⟨_, rfl⟩
  rw [← hNd] at hp hg hN
  have hkey : 24000 * N ^ 4 * (T + 1) * Q ^ 4 * u ≤ 1 := by
    have h1 := mul_le_mul_of_nonneg_left hp hu0
    rw [hup] at h1
    linarith
  have hN4 : 1 ≤ N ^ 3 := one_le_pow₀ (by linarith)
  have hQ4 : ∀ j : ℕ, 1 ≤ Q ^ j := fun j => one_le_pow₀ hQ1
  have hNu : N * u ≤ 1 := by
    have h1 : N * u ≤ N ^ 4 * (T + 1) * Q ^ 4 * u := by
      refine mul_le_mul_of_nonneg_right ?_ hu0
      have h2 : N ≤ N ^ 4 := by nlinarith
      have h3 : 1 ≤ (T + 1) * Q ^ 4 := one_le_mul_of_one_le_of_one_le (by linarith) (hQ4 4)
      nlinarith
    nlinarith
  have hγ := hg hNu
  have hsq : Real.sqrt n ≤ N := by
    rw [Real.sqrt_le_iff]; exact ⟨by linarith, by rw [hNd]; nlinarith⟩
  have hsq0 := Real.sqrt_nonneg (n : ℝ)
  -- the relative errors
  have hLr : 2 * Λ / r ≤ 2 * Q := by rw [div_le_iff₀ hr]; linarith
  have hε : γ * Real.sqrt n * (2 * Λ / r) ^ 2 ≤ 8 * N ^ 2 * u * Q ^ 2 := by
    have h1 : γ * Real.sqrt n ≤ 2 * N * u * N := mul_le_mul hγ hsq hsq0 (by positivity)
    have h2 : (2 * Λ / r) ^ 2 ≤ (2 * Q) ^ 2 := pow_le_pow_left₀ (by positivity) hLr 2
    calc _ ≤ (2 * N * u * N) * (2 * Q) ^ 2 := mul_le_mul h1 h2 (sq_nonneg _) (by positivity)
      _ = _ := by ring
  have hξ : u * (D + Λ) * (2 / r) ≤ 2 * u * Q := by
    rw [hDQ]; apply le_of_eq; field_simp
  have haQ : 1 / Q ≤ r / Λ := by rw [div_le_div_iff₀ (by linarith) hΛ]; linarith
  have hQ0 : 0 < Q := by linarith
  have hx1 : N ^ 4 * Q ^ 3 * u * 24000 ≤ 1 / Q := by
    rw [le_div_iff₀ hQ0]
    have h1 : N ^ 4 * Q ^ 3 * u * 24000 * Q = 24000 * N ^ 4 * 1 * Q ^ 4 * u := by ring
    rw [h1]
    refine le_trans ?_ hkey
    gcongr
    linarith
  refine ⟨8 * N ^ 2 * u * Q ^ 2, 2 * u * Q, r / Λ, ⟨by positivity, by rw [div_le_one hΛ]; linarith, ?_, hε, ?_, hξ, ?_, ?_⟩, by rw [div_mul_cancel₀ _ hΛ.ne']⟩
  · rw [hT]; exact hax
  · refine le_trans (le_trans ?_ hx1) haQ
    have h1 : (n : ℝ) * (n + 1) ≤ N ^ 2 := by rw [hNd]; nlinarith
    calc 3000 * ((n : ℝ) * (n + 1)) * (8 * N ^ 2 * u * Q ^ 2) ≤ 3000 * N ^ 2 * (8 * N ^ 2 * u * Q ^ 2) := by gcongr
      _ = N ^ 4 * Q ^ 2 * u * 24000 * 1 := by ring
      _ ≤ N ^ 4 * Q ^ 2 * u * 24000 * Q := by gcongr
      _ = _ := by ring
  · refine le_trans (le_trans ?_ hx1) haQ
    have h1 : 1 ≤ N ^ 4 * Q ^ 2 := one_le_mul_of_one_le_of_one_le (one_le_pow₀ (by linarith)) (hQ4 2)
    have h2 : 0 ≤ Q * u := by positivity
    calc 1000 * (2 * u * Q) = 1 * (2000 * (Q * u)) := by ring
      _ ≤ N ^ 4 * Q ^ 2 * (2000 * (Q * u)) := mul_le_mul_of_nonneg_right h1 (by positivity)
      _ ≤ N ^ 4 * Q ^ 2 * (24000 * (Q * u)) := by gcongr; norm_num
      _ = _ := by ring
  · rw [hT]
    have h1 : 250 * (8 * N ^ 2 * u * Q ^ 2) + 2 * (2 * u * Q) ≤ 2004 * (N ^ 2 * Q ^ 2 * u) := by
      have h2 : Q * u ≤ N ^ 2 * Q ^ 2 * u := by
        refine mul_le_mul_of_nonneg_right ?_ hu0
        have : 1 ≤ N ^ 2 := one_le_pow₀ (by linarith)
        nlinarith [hQ4 2]
      linarith
    have h2 : 0 ≤ N ^ 2 * Q ^ 2 * u := by positivity
    have h3 : (250 * (8 * N ^ 2 * u * Q ^ 2) + 2 * (2 * u * Q)) / (r / Λ) * Λ = (250 * (8 * N ^ 2 * u * Q ^ 2) + 2 * (2 * u * Q)) * (Λ ^ 2 / r) := by field_simp
    have h4 : Λ ^ 2 / r ≤ Q ^ 2 * r := by
      rw [div_le_iff₀ hr]
      calc Λ ^ 2 ≤ (Q * r) ^ 2 := pow_le_pow_left₀ hΛ.le hΛQ 2
        _ = _ := by ring
    rw [h3]
    calc (T + 1) * ((250 * (8 * N ^ 2 * u * Q ^ 2) + 2 * (2 * u * Q)) * (Λ ^ 2 / r)) ≤ (T + 1) * (2004 * (N ^ 2 * Q ^ 2 * u) * (Q ^ 2 * r)) := by gcongr
      _ = 4008 * N ^ 2 * (T + 1) * Q ^ 4 * u * (r / 2) := by ring
      _ ≤ 24000 * N ^ 4 * (T + 1) * Q ^ 4 * u * (r / 2) := by
          have : N ^ 2 ≤ N ^ 4 := pow_le_pow_right₀ (by linarith) (by norm_num)
          gcongr
          norm_num
      _ ≤ 1 * (r / 2) := by gcongr
      _ = _ := one_mul _

/-- A correct oracle in exact arithmetic is one for each ball of its set. -/
theorem RegularOracle.inner {omega : OracleFeas O (Vec n) (Cut n)} {I : O → Prop} {F : Set (Vec n)} (hω : RegularOracle I F omega) (hs : ∀ o x o' cut, I o → omega o x = (o', .ok (some cut)) → ∃ β, cut.2 = .scalar β)
    {c : Vec n} {r : ℝ} (X : ℝ) (hball : ball c r ⊆ F) : InnerOracle I F c r 1 X omega where
  inv := hω.inv
  total := hω.total
  accept o x o' ho _ h := hω.accept o x o' ho h
  cut o x o' cut ho _ h := by
    obtain ⟨g, b⟩ := cut
    obtain ⟨β, rfl⟩ := hs _ _ _ _ ho h
    obtain ⟨h1, h2⟩ := hω.shape _ _ _ _ ho h
    refine ⟨β, rfl, h1, fun y hy => (hω.cut _ _ _ _ ho h).2 (hball hy), ?_, h2⟩
    rintro rfl
    simp at h2
    linarith

/-- The same for optimisation. -/
theorem RegularLevelOracle.inner [LinearOrder G] {omega : OracleOptim O (Vec n) (Cut n) G} {I : O → Prop} {L : G → Set (Vec n)} (hL : Antitone L) (hω : RegularLevelOracle I L omega)
    (hs : ∀ o x γ o' cut γ1, I o → omega o x γ = (o', .ok (cut, γ1)) → ∃ β, cut.2 = .scalar β) {γs : G} {c : Vec n} {r : ℝ} (X : ℝ) (hball : ball c r ⊆ L γs) : InnerLevelOracle I γs c r 1 X omega where
  inv := hω.inv
  total := hω.total
  mono o x γ o' cut γ1 ho h := (hω.value _ _ _ _ _ _ ho h).1
  cut o x γ o' cut ho _ hlt h := by
    obtain ⟨g, b⟩ := cut
    obtain ⟨β, rfl⟩ := hs _ _ _ _ _ _ ho h
    obtain ⟨h1, h2⟩ := hω.shape _ _ _ _ _ ho h
    refine ⟨β, rfl, h1, fun y hy => (hω.cut _ _ _ _ _ ho h).2 (hL hlt.le (hball hy)), ?_, h2⟩
    rintro rfl
    simp at h2
    linarith
  value o x γ o' cut γ1 ho _ hlt h := by
    obtain ⟨g, b⟩ := cut
    obtain ⟨β, rfl⟩ := hs _ _ _ _ _ _ ho h
    obtain ⟨-, h2⟩ := hω.shapeCentral _ _ _ _ _ _ ho h
    refine ⟨β, rfl, fun y hy => (hω.value _ _ _ _ _ _ ho h).2 (hL hlt.le (hball hy)), ?_, h2⟩
    rintro rfl
    simp at h2
    linarith

/-- **C106.** `cutting_plane_feas` on machine numbers with `p` bits: with `2^p ≥ 24000 (n+1)⁴ T Q⁴` it returns an accepted point within `(20/9) n (n+1) ln(2R/r)` iterations, for every oracle that keeps a ball of radius `r`. -/
theorem C106_feas_ieee {p : ℕ} {R r D η X : ℝ} (hn : 2 ≤ n) (hR : 0 < R) (hr : 0 < r) {c : Vec n} (hc : nrm c ≤ D)
    (hp : 24000 * ((n : ℝ) + 1) ^ 4 * (floatIters n R r + 1) * ((floatAxes n R r + D) / r) ^ 4 ≤ 2 ^ p)
    {omega : OracleFeas O (Vec n) (Cut n)} {I : O → Prop} {F : Set (Vec n)} (hη : 0 ≤ η) (hω : InnerOracle I F c r η X omega) (hX : D + floatAxes n R r ≤ X) {o : O} (ho : I o) {x0 : Vec n} (hsub : ball c r ⊆ ball x0 R) {e : Ell n}
    (he : (Arith.ieee p).ellInit (.scalar (R ^ 2)) x0 = .ok e) (opts : Options ℝ) (htol : 8 * opts.tolerance ≤ r ^ 2 * η) (hmax : floatIters n R r < opts.maxIters) :
    ∃ o' e' x k, feas omega ((Arith.ieee p).space n) ltReal o e opts = (o', e', .ok (some x, k)) ∧ x ∈ F ∧ (k : ℝ) ≤ floatIters n R r := by
  obtain ⟨ε, ξ, a, B, ha⟩ := C106_bits hn hr (radius_le (by omega) hR hsub) ((nrm_nonneg c).trans hc) hp
  refine C106_feas (Arith.ieee_accurate p n) (by positivity) ?_ hn hR hr B hc hη hω hX (.inr ha) ho hsub he opts htol hmax
  exact Arith.ieee_le_gamma p n

/-- **C106.** `cutting_plane_optim` on machine numbers with `p` bits. -/
theorem C106_optim_ieee [LinearOrder G] {p : ℕ} {R r D η X : ℝ} (hn : 2 ≤ n) (hR : 0 < R) (hr : 0 < r) {c : Vec n} (hc : nrm c ≤ D)
    (hp : 24000 * ((n : ℝ) + 1) ^ 4 * (floatIters n R r + 1) * ((floatAxes n R r + D) / r) ^ 4 ≤ 2 ^ p)
    {omega : OracleOptim O (Vec n) (Cut n) G} {I : O → Prop} {γs : G} (hη : 0 ≤ η) (hω : InnerLevelOracle I γs c r η X omega) (hX : D + floatAxes n R r ≤ X) {o : O} (ho : I o) {x0 : Vec n} (hsub : ball c r ⊆ ball x0 R) {e : Ell n}
    (he : (Arith.ieee p).ellInit (.scalar (R ^ 2)) x0 = .ok e) {g0 : G} (hg0 : g0 < γs) (opts : Options ℝ) (htol : 8 * opts.tolerance ≤ r ^ 2 * η) (hmax : floatIters n R r < opts.maxIters)
    {o' : O} {e' : Ell n} {xb : Option (Vec n)} {γ : G} {k : ℕ} (h : optim omega ((Arith.ieee p).space n) ltReal o e g0 opts = (o', e', .ok (xb, γ, k))) : γs ≤ γ := by
  obtain ⟨ε, ξ, a, B, ha⟩ := C106_bits hn hr (radius_le (by omega) hR hsub) ((nrm_nonneg c).trans hc) hp
  exact (C106_optim (Arith.ieee_accurate p n) (by positivity) (Arith.ieee_le_gamma p n) hn hR hr B hc hη hω hX (.inr ha) ho hsub he hg0 opts htol).2.1 hmax _ _ _ _ _ h

/-! ### The hypotheses can be met -/

/-- Doubles are sufficient in the plane for `R = 1`, `r = 1/2`. -/
theorem double_bits {D : ℝ} (hD0 : 0 ≤ D) (hD : D ≤ 1 / 2) : floatIters 2 1 (1 / 2) < (2000 : ℕ) ∧ 24000 * (((2 : ℕ) : ℝ) + 1) ^ 4 * (floatIters 2 1 (1 / 2) + 1) * ((floatAxes 2 1 (1 / 2) + D) / (1 / 2)) ^ 4 ≤ 2 ^ 53 := by
  have hT : floatIters 2 1 (1 / 2) ≤ 185 / 10 := by
    unfold floatIters
    have h1 : Real.log (2 * 1 / (1 / 2)) = 2 * Real.log 2 := by
      rw [show (2 : ℝ) * 1 / (1 / 2) = 2 ^ 2 by norm_num, Real.log_pow]; norm_num
    have h2 := Real.log_two_lt_d9
    rw [h1]
    push_cast
    linarith
  have hT0 : 0 ≤ floatIters 2 1 (1 / 2) := floatIters_nonneg (by norm_num) (by norm_num)
  have hA : floatAxes 2 1 (1 / 2) ≤ 546 / 10 := by
    unfold floatAxes
    have h1 : Real.exp (5 * (floatIters 2 1 (1 / 2) + 1) / (9 * (((2 : ℕ) : ℝ) ^ 2 - 1))) ≤ Real.exp 4 := by
      refine Real.exp_le_exp.mpr ?_
      rw [div_le_iff₀ (by norm_num)]
      push_cast
      linarith
    have h2 : Real.exp 4 = Real.exp 1 ^ 4 := by rw [← Real.exp_nat_mul]; norm_num
    have h3 : Real.exp 1 ^ 4 ≤ 2.7182818286 ^ 4 := pow_le_pow_left₀ (Real.exp_pos _).le Real.exp_one_lt_d9.le 4
    have h4 : (2.7182818286 : ℝ) ^ 4 ≤ 546 / 10 := by norm_num
    linarith
  have hA0 : 0 ≤ floatAxes 2 1 (1 / 2) := by unfold floatAxes; positivity
  refine ⟨by push_cast; linarith, ?_⟩
  have h1 : ((floatAxes 2 1 (1 / 2) + D) / (1 / 2)) ^ 4 ≤ (551 / 10 / (1 / 2)) ^ 4 := by
    gcongr; linarith
  calc _ ≤ 24000 * (((2 : ℕ) : ℝ) + 1) ^ 4 * (185 / 10 + 1) * (551 / 10 / (1 / 2)) ^ 4 := by gcongr
    _ ≤ _ := by norm_num

theorem half_disc : ball (![1 / 2, 0] : Vec 2) (1 / 2) ⊆ ball ![0, 0] 1 ∧ nrm (![1 / 2, 0] : Vec 2) ≤ 1 / 2 := by
  refine ⟨fun x hx => ?_, ?_⟩
  · simp [ball, dotProduct, Fin.sum_univ_two] at hx ⊢
    nlinarith [sq_nonneg (x 1), sq_nonneg (x 0 - 1)]
  · unfold nrm
    rw [Real.sqrt_le_iff]
    simp [dotProduct, Fin.sum_univ_two]
    norm_num

theorem double_init : ∃ e : Ell 2, (Arith.ieee 53).ellInit (.scalar (1 ^ 2)) ![0, 0] = .ok e := by
  obtain ⟨h, hh, -⟩ := Arith.core_facts (n := 2) (Arith.ieee_accurate 53 2) (by positivity) (by norm_num) le_rfl
  exact ⟨⟨1, ![0, 0], 1 ^ 2, 0, h, false⟩, by unfold Arith.ellInit; rw [hh]; rfl⟩

/-- The hypotheses of `C106_feas_ieee` in doubles: the plane, start with the unit disc, an oracle for a disc of radius 1/2 inside of it. -/
example : (∃ e : Ell 2, (Arith.ieee 53).ellInit (.scalar (1 ^ 2)) ![0, 0] = .ok e) ∧ InnerOracle (fun _ => True) (ball ![1 / 2, 0] (1 / 2)) (![1 / 2, 0] : Vec 2) (1 / 2) 1 (1 / 2 + floatAxes 2 1 (1 / 2)) (ballOracle ![1 / 2, 0] (1 / 2)) ∧
    ball (![1 / 2, 0] : Vec 2) (1 / 2) ⊆ ball ![0, 0] 1 ∧ nrm (![1 / 2, 0] : Vec 2) ≤ 1 / 2 ∧ floatIters 2 1 (1 / 2) < (2000 : ℕ) ∧ 8 * (1 / 10 ^ 20) ≤ ((1 : ℝ) / 2) ^ 2 * 1 ∧
    24000 * (((2 : ℕ) : ℝ) + 1) ^ 4 * (floatIters 2 1 (1 / 2) + 1) * ((floatAxes 2 1 (1 / 2) + 1 / 2) / (1 / 2)) ^ 4 ≤ 2 ^ 53 := by
  refine ⟨double_init, RegularOracle.inner (ballOracle_regular _ (by norm_num)) ?_ _ subset_rfl, half_disc.1, half_disc.2, (double_bits (by norm_num) le_rfl).1, by norm_num, (double_bits (by norm_num) le_rfl).2⟩
  intro o x o' cut _ h1
  unfold ballOracle at h1
  split_ifs at h1
  · simp at h1
  · simp only [Prod.mk.injEq, Except.ok.injEq, Option.some.injEq, true_and] at h1
    exact ⟨0, by rw [← h1]⟩

/-- The budget of `C106_feas` and `C106_optim`, and the oracle of `C106_optim_ieee`: the distance to a point, target at most 1/4 for its square. -/
example : (∃ ε ξ a, FloatBudget 2 (2⁻¹ ^ 53) ((1 + 2⁻¹ ^ 53) ^ (2 + 1) - 1) 1 (1 / 2) (1 / 2) (floatAxes 2 1 (1 / 2)) ε ξ a ∧ a * floatAxes 2 1 (1 / 2) ≤ 1 / 2) ∧
    InnerLevelOracle (fun _ => True) (-(1 / 4) : ℝ) (![1 / 2, 0] : Vec 2) (1 / 2) 1 (1 / 2 + floatAxes 2 1 (1 / 2)) (distOracle ![1 / 2, 0]) ∧ (-10 : ℝ) < -(1 / 4) := by
  refine ⟨C106_bits le_rfl (by norm_num) (by norm_num) (by norm_num) (double_bits (by norm_num) le_rfl).2, RegularLevelOracle.inner (L := fun γ => {y | γ ≤ -((y - ![1 / 2, 0]) ⬝ᵥ (y - ![1 / 2, 0]))}) (fun a b h y hy => le_trans h hy) (distOracle_regular (n := 1) _) ?_ _ (fun y hy => ?_), by norm_num⟩
  · intro o x γ o' cut γ1 _ h
    unfold distOracle at h
    split_ifs at h <;> simp only [Prod.mk.injEq, Except.ok.injEq] at h <;> exact ⟨0, by rw [← h.2.1]⟩
  · have h1 : (y - ![1 / 2, 0]) ⬝ᵥ (y - ![1 / 2, 0]) ≤ (1 / 2) ^ 2 := hy
    show -(1 / 4) ≤ -((y - ![1 / 2, 0]) ⬝ᵥ (y - ![1 / 2, 0]))
    linarith

end Ellalgo
