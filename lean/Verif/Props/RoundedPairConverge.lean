import Verif.Lemmas.RoundedPairConverge
import Verif.Spec.RoundedPairConverge
import Verif.Props.RoundedConverge

/-! # C113: the loops succeed in floating point with pairs of parallel cuts too -/

namespace Ellalgo

open Matrix Spec CuttingPlane

variable {n : ℕ} {O G : Type*}

/-- What is known after `k` cuts. -/
def Arith.AtPair (A : Arith) (c : Vec n) (R r w Λ : ℝ) (k : ℕ) (e : Ell n) : Prop :=
  ∃ Lk V, A.Track e c (r - k * (w * (2 * Λ))) Lk V ∧ 0 < Lk ∧ V ≤ (R ^ 2) ^ n * Real.exp (k * (-9 / (10 * ((n : ℝ) + 1)))) ∧ (Lk ^ 2) ^ (n - 1) * V ≤ (R ^ 2) ^ (2 * n - 1) * Real.exp (k * (1 / (10 * ((n : ℝ) + 1))))

/-- `Ell(R², x0)`. -/
theorem Arith.atPair_init {A : Arith} {x0 c : Vec n} {R r w Λ : ℝ} (hn : 2 ≤ n) (hR : 0 < R) (hr : 0 < r) (hsub : ball c r ⊆ ball x0 R) {e : Ell n} (he : A.ellInit (.scalar (R ^ 2)) x0 = .ok e) : A.AtPair c R r w Λ 0 e := by
  have T : A.Track e c _ _ _ := Arith.at_init (w := w) (Λ := 2 * Λ) hR hr hsub he
  refine ⟨_, _, T, by positivity, le_rfl, ?_⟩
  simp only [Nat.cast_zero, zero_mul, Real.exp_zero, mul_one]
  rw [← pow_add, show n - 1 + n = 2 * n - 1 by omega]

section budget

variable {A : Arith} {u γ R r D Λ ε ξ a : ℝ}

theorem Spec.PairBudget.eps_nonneg (B : PairBudget n u γ R r D Λ ε ξ a) (hγ : 0 ≤ γ) : 0 ≤ ε := le_trans (by positivity) B.cond

theorem Spec.PairBudget.xi_nonneg (B : PairBudget n u γ R r D Λ ε ξ a) (hu : 0 ≤ u) (hD : 0 ≤ D) (hr : 0 < r) : 0 ≤ ξ := le_trans (by have := B.axes_pos; positivity) B.centre

theorem Spec.PairBudget.drift_nonneg (B : PairBudget n u γ R r D Λ ε ξ a) (hu : 0 ≤ u) (hγ : 0 ≤ γ) (hD : 0 ≤ D) (hr : 0 < r) : 0 ≤ (1250 * (ε / a ^ 4) + 5 / 2 * (ξ / a)) * (2 * Λ) := by
  have := B.eps_nonneg hγ
  have := B.xi_nonneg hu hD hr
  have := B.a_pos
  have := B.axes_pos
  positivity

theorem Spec.PairBudget.radius (B : PairBudget n u γ R r D Λ ε ξ a) (hu : 0 ≤ u) (hγ : 0 ≤ γ) (hD : 0 ≤ D) (hr : 0 < r) {j : ℕ} (hj : (j : ℝ) ≤ floatIters n R r + 1) :
    r / 2 ≤ r - j * ((1250 * (ε / a ^ 4) + 5 / 2 * (ξ / a)) * (2 * Λ)) := by
  have := mul_le_mul_of_nonneg_right hj (B.drift_nonneg hu hγ hD hr)
  linarith [B.drift]

/-- The semi-axes stay below `Λ`: the ball keeps the volume up. -/
theorem Spec.PairBudget.axes_le (B : PairBudget n u γ R r D Λ ε ξ a) (hu : 0 ≤ u) (hγ : 0 ≤ γ) (hD : 0 ≤ D) (hn : 2 ≤ n) (hR : 0 < R) (hr : 0 < r) {j : ℕ} (hj : (j : ℝ) ≤ floatIters n R r + 1) {e : Ell n} {c : Vec n} {Lk V : ℝ}
    (T : A.Track e c (r - j * ((1250 * (ε / a ^ 4) + 5 / 2 * (ξ / a)) * (2 * Λ))) Lk V) (hL : 0 < Lk) (h : (Lk ^ 2) ^ (n - 1) * V ≤ (R ^ 2) ^ (2 * n - 1) * Real.exp (j * (1 / (10 * ((n : ℝ) + 1))))) : Lk ≤ Λ := by
  have hρ := B.radius hu hγ hD hr hj
  have h1 := T.det_ge (by linarith)
  have h2 : ((r / 2) ^ 2) ^ n ≤ V := le_trans (by gcongr) h1
  have h3 : (Lk ^ 2) ^ (n - 1) * ((r / 2) ^ 2) ^ n ≤ (Λ ^ 2) ^ (n - 1) * ((r / 2) ^ 2) ^ n := by
    refine le_trans (mul_le_mul_of_nonneg_left h2 (by positivity)) (h.trans (le_trans (mul_le_mul_of_nonneg_left (Real.exp_le_exp.mpr ?_) (by positivity)) B.axes))
    rw [mul_one_div]
    exact div_le_div_of_nonneg_right hj (by positivity)
  have h4 := le_of_mul_le_mul_right h3 (by positivity)
  have h5 := (pow_le_pow_iff_left₀ (sq_nonneg _) (sq_nonneg _) (by omega)).mp h4
  exact le_of_sq_le_sq h5 B.axes_pos.le

/-- One iteration. -/
theorem Arith.AtPair.next {η : ℝ} (hA : A.Accurate u γ n) (hu : 0 ≤ u) (hnu : n * u ≤ γ) (hn : 2 ≤ n) (hR : 0 < R) (hr : 0 < r) (B : PairBudget n u γ R r D Λ ε ξ a) {c : Vec n} (hc : nrm c ≤ D)
    {k : ℕ} {e : Ell n} (h : A.AtPair c R r (1250 * (ε / a ^ 4) + 5 / 2 * (ξ / a)) Λ k e) (hk : (k : ℝ) ≤ floatIters n R r) (mt : Method) {g : Vec n} {β0 : ℝ} {cc : CutChoice} (hg : g ≠ 0) (hη : η ≤ g ⬝ᵥ g) (hη0 : 0 ≤ η) (hβ : 0 ≤ mt.offset β0)
    (hcc : cc = .scalar β0 ∨ ∃ β1, cc = .seq [some β0, some β1] ∧ ∀ y ∈ ball c r, 0 ≤ g ⬝ᵥ (y - e.xc) + β1) (hkeep : ∀ y ∈ ball c r, g ⬝ᵥ (y - e.xc) + mt.offset β0 ≤ 0) :
    ∃ e', A.update e mt (g, cc) = (e', .ok .success) ∧ A.AtPair c R r (1250 * (ε / a ^ 4) + 5 / 2 * (ξ / a)) Λ (k + 1) e' ∧ ((k + 1 : ℕ) : ℝ) ≤ floatIters n R r ∧ r ^ 2 * η ≤ 8 * e'.tsq := by
  have hn2 : (2 : ℝ) ≤ n := by exact_mod_cast hn
  have hN1 : (0 : ℝ) < (n : ℝ) + 1 := by linarith
  have huγ : u ≤ γ := by nlinarith
  have hγ : 0 ≤ γ := hu.trans huγ
  have hD : 0 ≤ D := (nrm_nonneg c).trans hc
  have hΛ := B.axes_pos
  have ha := B.a_pos
  have hw := B.drift_nonneg hu hγ hD hr
  have hk1 : ((k + 1 : ℕ) : ℝ) ≤ floatIters n R r + 1 := by push_cast; linarith
  obtain ⟨Lk, V, T0, hLk, hV, hax⟩ := h
  have hρk := B.radius hu hγ hD hr (show (k : ℝ) ≤ floatIters n R r + 1 by linarith)
  have hLΛ := B.axes_le hu hγ hD hn hR hr (show (k : ℝ) ≤ floatIters n R r + 1 by linarith) T0 hLk hax
  have hw2 : 0 ≤ 1250 * (ε / a ^ 4) + 5 / 2 * (ξ / a) := by
    have := B.eps_nonneg hγ
    have := B.xi_nonneg hu hD hr
    positivity
  obtain ⟨w, hwd⟩ : ∃ w, w = 1250 * (ε / a ^ 4) + 5 / 2 * (ξ / a) := ⟨_, rfl⟩
  have hrad : ∀ {j : ℕ}, (j : ℝ) ≤ floatIters n R r + 1 → r / 2 ≤ r - j * (w * (2 * Λ)) := fun {j} hj => by rw [hwd]; exact B.radius hu hγ hD hr hj
  rw [← hwd] at T0 hρk hw2 hw ⊢
  obtain ⟨ρ, hρd⟩ : ∃ ρ, ρ = r - k * (w * (2 * Λ)) := ⟨_, rfl⟩
  rw [← hρd] at T0 hρk
  have hρ0 : 0 < ρ := by linarith
  have hρr : ρ ≤ r := by rw [hρd]; have := mul_nonneg (Nat.cast_nonneg (α := ℝ) k) hw; linarith
  have hkeep' : g ⬝ᵥ (c - e.xc) + ρ * nrm g + mt.offset β0 ≤ 0 := by
    obtain ⟨z, hz, he⟩ := exists_farthest c r g
    have h1 := hkeep z hz
    rw [he] at h1
    have h2 := mul_le_mul_of_nonneg_right hρr (nrm_nonneg g)
    linarith
  obtain ⟨β1, hcc1, hkeep1⟩ : ∃ β1, (cc = .scalar β0 ∨ cc = .seq [some β0, some β1]) ∧ ρ * nrm g ≤ g ⬝ᵥ (c - e.xc) + β1 := by
    rcases hcc with rfl | ⟨β1, rfl, hb⟩
    · exact ⟨ρ * nrm g - g ⬝ᵥ (c - e.xc), .inl rfl, by linarith⟩
    · refine ⟨β1, .inr rfl, ?_⟩
      obtain ⟨z, hz, he⟩ := exists_farthest c r (-g)
      have h1 := hb z hz
      replace he := he e.xc
      rw [nrm_neg, neg_dotProduct, neg_dotProduct] at he
      have h2 := mul_le_mul_of_nonneg_right hρr (nrm_nonneg g)
      linarith
  have h2r : 2 * Λ / r = Λ / (r / 2) := by field_simp
  obtain ⟨e', Λ', V', h1, T, hΛ', hΛ2, hV', hax', h3⟩ := T0.stepPair (u := u) (γ := γ) (ε := ε) (ξ := ξ) (a := a) hA hu hnu hn hρ0 hLk hg mt hβ hcc1 hkeep' hkeep1 ha B.a_le
    (by have := mul_le_mul_of_nonneg_left hLΛ ha.le; linarith [B.width])
    (by
      refine le_trans (mul_le_mul_of_nonneg_left ?_ (by positivity)) B.cond
      rw [h2r, div_pow]
      gcongr) B.eps
    (by
      refine le_trans ?_ B.centre
      rw [div_eq_mul_inv]
      refine mul_le_mul (mul_le_mul_of_nonneg_left (by linarith) hu) ?_ (by positivity) (by positivity)
      rw [inv_eq_one_div, div_le_div_iff₀ hρ0 hr]
      linarith) B.xi
  rw [← hwd] at T
  have hmono : A.Track e' c (r - ((k + 1 : ℕ) : ℝ) * (w * (2 * Λ))) Λ' V' := by
    refine T.mono ?_
    have h5 := mul_le_mul_of_nonneg_left hLΛ hw2
    rw [hρd]
    push_cast
    linarith
  have hV2 : V' ≤ (R ^ 2) ^ n * Real.exp ((k + 1 : ℕ) * (-9 / (10 * ((n : ℝ) + 1)))) := by
    have h4 : (R ^ 2) ^ n * Real.exp ((k + 1 : ℕ) * (-9 / (10 * ((n : ℝ) + 1)))) = (R ^ 2) ^ n * Real.exp (k * (-9 / (10 * ((n : ℝ) + 1)))) * Real.exp (-9 / (10 * ((n : ℝ) + 1))) := by
      rw [mul_assoc, ← Real.exp_add]; congr 2; push_cast; ring
    rw [h4]
    exact hV'.trans (mul_le_mul_of_nonneg_right hV (Real.exp_pos _).le)
  have hax2 : (Λ' ^ 2) ^ (n - 1) * V' ≤ (R ^ 2) ^ (2 * n - 1) * Real.exp ((k + 1 : ℕ) * (1 / (10 * ((n : ℝ) + 1)))) := by
    have h4 : (R ^ 2) ^ (2 * n - 1) * Real.exp ((k + 1 : ℕ) * (1 / (10 * ((n : ℝ) + 1)))) = (R ^ 2) ^ (2 * n - 1) * Real.exp (k * (1 / (10 * ((n : ℝ) + 1)))) * Real.exp (1 / (10 * ((n : ℝ) + 1))) := by
      rw [mul_assoc, ← Real.exp_add]; congr 2; push_cast; ring
    rw [h4]
    exact hax'.trans (mul_le_mul_of_nonneg_right hax (Real.exp_pos _).le)
  refine ⟨e', h1, ⟨Λ', V', hmono, hΛ', hV2, hax2⟩, ?_, ?_⟩
  · have h5 := hrad hk1
    have h4 := hmono.det_ge (by linarith)
    have h6 : ((r / 2) ^ 2) ^ n ≤ ((r - ((k + 1 : ℕ) : ℝ) * (w * (2 * Λ))) ^ 2) ^ n := by gcongr
    have h7 := Real.log_le_log (by positivity) ((h6.trans h4).trans hV2)
    rw [Real.log_mul (by positivity) (Real.exp_pos _).ne', Real.log_exp, ← pow_mul, ← pow_mul, Real.log_pow, Real.log_pow] at h7
    have h8 : Real.log (2 * R / r) = Real.log R - Real.log (r / 2) := by
      rw [← Real.log_div hR.ne' (by positivity)]; congr 1; field_simp
    unfold floatIters
    rw [h8]
    generalize Real.log R = X at *
    generalize Real.log (r / 2) = Y at *
    generalize ((k + 1 : ℕ) : ℝ) = K at *
    have h9 : K * (9 / (10 * ((n : ℝ) + 1))) ≤ 2 * n * (X - Y) := by
      have : K * (-9 / (10 * ((n : ℝ) + 1))) = -(K * (9 / (10 * ((n : ℝ) + 1)))) := by ring
      rw [this] at h7
      push_cast at h7
      linarith
    have h10 := mul_le_mul_of_nonneg_right h9 (show 0 ≤ 10 / 9 * ((n : ℝ) + 1) by positivity)
    have h11 : K * (9 / (10 * ((n : ℝ) + 1))) * (10 / 9 * ((n : ℝ) + 1)) = K := by field_simp
    linarith
  · have h4 : (r / 2) ^ 2 ≤ ρ ^ 2 := by gcongr
    have h5 := mul_le_mul h4 hη hη0 (sq_nonneg _)
    linarith

/-- The centre stays at a bounded distance from the origin. -/
theorem Arith.AtPair.centre (hn : 2 ≤ n) (hu : 0 ≤ u) (hγ : 0 ≤ γ) (hR : 0 < R) (hr : 0 < r) (B : PairBudget n u γ R r D Λ ε ξ a) {c : Vec n} (hc : nrm c ≤ D)
    {k : ℕ} {e : Ell n} (h : A.AtPair c R r (1250 * (ε / a ^ 4) + 5 / 2 * (ξ / a)) Λ k e) (hk : (k : ℝ) ≤ floatIters n R r) : nrm e.xc ≤ D + Λ := by
  have hD : 0 ≤ D := (nrm_nonneg c).trans hc
  obtain ⟨Lk, V, T, hL, hV, hax⟩ := h
  have hk1 : (k : ℝ) ≤ floatIters n R r + 1 := by linarith
  have h1 := B.axes_le hu hγ hD hn hR hr hk1 T hL hax
  have h2 := Arith.Track.centre T (by linarith [B.radius hu hγ hD hr hk1]) hL.le
  linarith

end budget

theorem gamma_nonneg {u γ : ℝ} (hu : 0 ≤ u) (hnu : n * u ≤ γ) : 0 ≤ γ := le_trans (by positivity) hnu

theorem FeasTrace.innerPair {A : Arith} {u γ R r D Λ ε ξ a η X : ℝ} (hA : A.Accurate u γ n) (hu : 0 ≤ u) (hnu : n * u ≤ γ) (hn : 2 ≤ n) (hR : 0 < R) (hr : 0 < r) (hrR : r ≤ R) (B : PairBudget n u γ R r D Λ ε ξ a) {c : Vec n} (hc : nrm c ≤ D)
    {omega : OracleFeas O (Vec n) (Cut n)} {I : O → Prop} {F : Set (Vec n)} (hη : 0 ≤ η) (hω : InnerPairOracle I F c r η X omega) (hX : D + Λ ≤ X)
    {lt tol} {o : O} {e : Ell n} (ho : I o) (he : A.AtPair c R r (1250 * (ε / a ^ 4) + 5 / 2 * (ξ / a)) Λ 0 e) {l o1 e1} (h : FeasTrace omega (A.space n) lt tol o e l o1 e1) :
    I o1 ∧ A.AtPair c R r (1250 * (ε / a ^ 4) + 5 / 2 * (ξ / a)) Λ l.length e1 ∧ (l.length : ℝ) ≤ floatIters n R r := by
  induction h with
  | start => exact ⟨ho, he, by simpa using floatIters_nonneg hr hrR⟩
  | @step l o1 s1 o2 s2 cut t h1 h2 _ ih =>
    obtain ⟨hi, hs, hk⟩ := ih
    obtain ⟨g, b⟩ := cut
    obtain ⟨β, hcc, hβ, hkeep, hg, hη1⟩ := hω.cut _ _ _ _ hi (le_trans (hs.centre hn hu (gamma_nonneg hu hnu) hR hr B hc hk) hX) h1
    obtain ⟨e2, k1, k2, k3, -⟩ := hs.next hA hu hnu hn hR hr B hc hk .bias hg hη1 hη (show 0 ≤ Method.bias.offset β from hβ) hcc hkeep
    obtain ⟨rfl, -⟩ := Prod.mk.injEq .. ▸ h2.symm.trans k1
    refine ⟨?_, by rw [List.length_append]; exact k2, by rw [List.length_append]; exact k3⟩
    have := hω.inv o1 ((A.space n).xc s1) hi
    rwa [h1] at this

/-- **C113.** `cutting_plane_feas(omega, Ell(R², x0))` in floating point. The cuts of the oracle (central or deep, one offset or a pair of parallel ones; its own rounding errors included) keep a ball of radius `r` inside the ball of radius `R` around `x0`, it does not raise, the precision is
sufficient (`PairBudget`) and `tolerance` is at most `η r²/8`, with `η` a lower bound of the squared lengths of the gradients. Then a point that the oracle accepts is returned, after at most `(20/9) n (n+1) ln(2R/r)` iterations. -/
theorem C113_feas {A : Arith} {u γ R r D Λ ε ξ a η X : ℝ} (hA : A.Accurate u γ n) (hu : 0 ≤ u) (hnu : n * u ≤ γ) (hn : 2 ≤ n) (hR : 0 < R) (hr : 0 < r) (B : PairBudget n u γ R r D Λ ε ξ a) {c : Vec n} (hc : nrm c ≤ D)
    {omega : OracleFeas O (Vec n) (Cut n)} {I : O → Prop} {F : Set (Vec n)} (hη : 0 ≤ η) (hω : InnerPairOracle I F c r η X omega) (hX : D + Λ ≤ X)
    {o : O} (ho : I o) {x0 : Vec n} (hsub : ball c r ⊆ ball x0 R) {e : Ell n} (he : A.ellInit (.scalar (R ^ 2)) x0 = .ok e) (opts : Options ℝ) (htol : 8 * opts.tolerance ≤ r ^ 2 * η) (hmax : floatIters n R r < opts.maxIters) :
    ∃ o' e' x k, feas omega (A.space n) ltReal o e opts = (o', e', .ok (some x, k)) ∧ x ∈ F ∧ (k : ℝ) ≤ floatIters n R r := by
  have hrR := radius_le (by omega) hR hsub
  have h0 : A.AtPair c R r (1250 * (ε / a ^ 4) + 5 / 2 * (ξ / a)) Λ 0 e := Arith.atPair_init hn hR hr hsub he
  obtain ⟨l, o1, e1, ht, hend⟩ := feas_spec omega (A.space n) ltReal o e opts
  obtain ⟨hi, hs, hk⟩ := ht.innerPair hA hu hnu hn hR hr hrR B hc hη hω hX ho h0
  have hstep : ∀ o2 cut, omega o1 ((A.space n).xc e1) = (o2, .ok (some cut)) → ∃ e2, (A.space n).updateBiasCut e1 cut = (e2, .ok .success) ∧ ltReal ((A.space n).tsq e2) opts.tolerance = false := by
    intro o2 cut h1
    obtain ⟨g, b⟩ := cut
    obtain ⟨β, hcc, hβ, hkeep, hg, hη1⟩ := hω.cut _ _ _ _ hi (le_trans (hs.centre hn hu (gamma_nonneg hu hnu) hR hr B hc hk) hX) h1
    obtain ⟨e2, k1, -, -, k4⟩ := hs.next hA hu hnu hn hR hr B hc hk .bias hg hη1 hη (show 0 ≤ Method.bias.offset β from hβ) hcc hkeep
    exact ⟨e2, k1, ltReal_false.mpr (show opts.tolerance ≤ e2.tsq by linarith)⟩
  rcases hres : feas omega (A.space n) ltReal o e opts with ⟨o', e', res⟩
  rw [hres] at hend
  simp only at hend
  cases hend with
  | limit h => rw [h] at hk; exact absurd hk (not_le.mpr hmax)
  | found h ha => exact ⟨_, _, _, _, rfl, hω.accept _ _ _ hi (le_trans (hs.centre hn hu (gamma_nonneg hu hnu) hR hr B hc hk) hX) ha, hk⟩
  | @stop _ _ cut st h ha hu hs =>
    obtain ⟨e2, hu2, ht2⟩ := hstep _ _ ha
    have heq := hu.symm.trans hu2
    simp only [Prod.mk.injEq, Except.ok.injEq] at heq
    obtain ⟨rfl, rfl⟩ := heq
    rcases hs with hs | hs
    · exact absurd rfl hs
    · exact absurd hs (by rw [ht2]; simp)
  | oracleRaises h ha => exact (hω.total _ _ _ _ hi ha).elim
  | updateRaises h ha hu =>
    obtain ⟨e2, hu2, -⟩ := hstep _ _ ha
    have heq := hu.symm.trans hu2
    simp at heq

/-! ### Optimisation -/

section optim

variable [LinearOrder G] {A : Arith} {u γ R r D Λ ε ξ a η X : ℝ} {c : Vec n} {omega : OracleOptim O (Vec n) (Cut n) G} {I : O → Prop} {γs : G}

/-- One iteration while the target has not been reached. -/
theorem Arith.AtPair.updateFor (hA : A.Accurate u γ n) (hu : 0 ≤ u) (hnu : n * u ≤ γ) (hn : 2 ≤ n) (hR : 0 < R) (hr : 0 < r) (B : PairBudget n u γ R r D Λ ε ξ a) (hc : nrm c ≤ D) (hη : 0 ≤ η) (hω : InnerPairLevelOracle I γs c r η X omega) (hX : D + Λ ≤ X)
    {k : ℕ} {e : Ell n} (h : A.AtPair c R r (1250 * (ε / a ^ 4) + 5 / 2 * (ξ / a)) Λ k e) (hk : (k : ℝ) ≤ floatIters n R r)
    {o o' : O} (ho : I o) {ev : OptimEvent (Vec n) (Cut n) G} (hx : ev.x = e.xc) (ha : omega o ev.x ev.gamma = (o', .ok (ev.cut, ev.gamma1))) (hlt : ev.gamma1.getD ev.gamma < γs) :
    ∃ e', (A.space n).updateFor e ev = (e', .ok .success) ∧ A.AtPair c R r (1250 * (ε / a ^ 4) + 5 / 2 * (ξ / a)) Λ (k + 1) e' ∧ ((k + 1 : ℕ) : ℝ) ≤ floatIters n R r ∧ r ^ 2 * η ≤ 8 * e'.tsq := by
  obtain ⟨x, γ, ⟨g, b⟩, γ1⟩ := ev
  simp only at hx ha hlt ⊢
  subst hx
  cases γ1 with
  | none =>
    obtain ⟨β, hcc, hβ, hkeep, hg, hη1⟩ := hω.cut _ _ _ _ _ ho (le_trans (h.centre hn hu (gamma_nonneg hu hnu) hR hr B hc hk) hX) hlt ha
    exact h.next hA hu hnu hn hR hr B hc hk .bias hg hη1 hη (show 0 ≤ Method.bias.offset β from hβ) hcc hkeep
  | some g1 =>
    obtain ⟨β, hcc, hkeep, hg, hη1⟩ := hω.value _ _ _ _ _ _ ho (le_trans (h.centre hn hu (gamma_nonneg hu hnu) hR hr B hc hk) hX) hlt ha
    exact h.next hA hu hnu hn hR hr B hc hk .central hg hη1 hη (show (0 : ℝ) ≤ Method.central.offset β from le_rfl) hcc (fun y hy => by simpa [Method.offset] using hkeep y hy)

theorem OptimTrace.innerPair_inv (hω : InnerPairLevelOracle I γs c r η X omega) {S : Type*} {sp : SearchSpace S (Vec n) (Cut n) ℝ} {lt tol} {o : O} {s : S} {g0 : G} (ho : I o) {l o1 s1} (h : OptimTrace omega sp lt tol o s g0 l o1 s1) : I o1 := by
  induction h with
  | start => exact ho
  | @step l o1 s1 o2 s2 ev t h1 h2 h3 h4 _ ih =>
    have := hω.inv o1 ev.x ev.gamma ih
    rwa [h3] at this

theorem OptimTrace.innerPair_le (hω : InnerPairLevelOracle I γs c r η X omega) {o o2 : O} (ho : I o) {g0 : G} {l : List (OptimEvent (Vec n) (Cut n) G)} {ev : OptimEvent (Vec n) (Cut n) G} (h2 : ev.gamma = (bestOf g0 l).2)
    (h3 : omega o ev.x ev.gamma = (o2, .ok (ev.cut, ev.gamma1))) : (bestOf g0 l).2 ≤ (bestOf g0 (l ++ [ev])).2 := by
  rw [bestOf_snoc_snd g0 l ev h2, ← h2]
  rcases hg : ev.gamma1 with _ | g
  · exact le_rfl
  · rw [hg] at h3; exact hω.mono _ _ _ _ _ _ ho h3

theorem OptimTrace.innerPair (hA : A.Accurate u γ n) (hu : 0 ≤ u) (hnu : n * u ≤ γ) (hn : 2 ≤ n) (hR : 0 < R) (hr : 0 < r) (hrR : r ≤ R) (B : PairBudget n u γ R r D Λ ε ξ a) (hc : nrm c ≤ D) (hη : 0 ≤ η) (hω : InnerPairLevelOracle I γs c r η X omega) (hX : D + Λ ≤ X)
    {lt tol} {o : O} {e : Ell n} {g0 : G} (ho : I o) (he : A.AtPair c R r (1250 * (ε / a ^ 4) + 5 / 2 * (ξ / a)) Λ 0 e) {l o1 e1}
    (h : OptimTrace omega (A.space n) lt tol o e g0 l o1 e1) (hlt : (bestOf g0 l).2 < γs) :
    A.AtPair c R r (1250 * (ε / a ^ 4) + 5 / 2 * (ξ / a)) Λ l.length e1 ∧ (l.length : ℝ) ≤ floatIters n R r := by
  induction h with
  | start => exact ⟨he, by simpa using floatIters_nonneg hr hrR⟩
  | @step l o1 s1 o2 s2 ev t h1 h2 h3 h4 _ ih =>
    have hi := t.innerPair_inv hω ho
    obtain ⟨hs, hk⟩ := ih ((OptimTrace.innerPair_le hω hi h2 h3).trans_lt hlt)
    rw [bestOf_snoc_snd g0 l ev h2] at hlt
    obtain ⟨e2, k1, k2, k3, -⟩ := hs.updateFor hA hu hnu hn hR hr B hc hη hω hX hk hi h1 h3 hlt
    obtain ⟨rfl, -⟩ := Prod.mk.injEq .. ▸ h4.symm.trans k1
    exact ⟨by rw [List.length_append]; exact k2, by rw [List.length_append]; exact k3⟩

/-- **C113.** `cutting_plane_optim(omega, Ell(R², x0), g0)` in floating point. Until a value at least as good as `γs` has been reported, the cuts keep a ball of radius `r` inside the ball of radius `R` around `x0`; otherwise as in `C113_feas`. Then
* such a value is reported after at most `(20/9) n (n+1) ln(2R/r)` completed iterations;
* with `max_iters` above this number, the value returned is at least as good as `γs`;
* and if the call raises, such a value had been reported before. -/
theorem C113_optim (hA : A.Accurate u γ n) (hu : 0 ≤ u) (hnu : n * u ≤ γ) (hn : 2 ≤ n) (hR : 0 < R) (hr : 0 < r) (B : PairBudget n u γ R r D Λ ε ξ a) (hc : nrm c ≤ D) (hη : 0 ≤ η) (hω : InnerPairLevelOracle I γs c r η X omega) (hX : D + Λ ≤ X)
    {o : O} (ho : I o) {x0 : Vec n} (hsub : ball c r ⊆ ball x0 R) {e : Ell n} (he : A.ellInit (.scalar (R ^ 2)) x0 = .ok e)
    {g0 : G} (hg0 : g0 < γs) (opts : Options ℝ) (htol : 8 * opts.tolerance ≤ r ^ 2 * η) :
    (∃ l o1 e1, ∃ ev : OptimEvent (Vec n) (Cut n) G, ∃ o2, OptimTrace omega (A.space n) ltReal opts.tolerance o e g0 l o1 e1 ∧
      (l.length : ℝ) ≤ floatIters n R r ∧ ev.x = e1.xc ∧ ev.gamma = (bestOf g0 l).2 ∧
      omega o1 ev.x ev.gamma = (o2, .ok (ev.cut, ev.gamma1)) ∧ ∃ γ1, ev.gamma1 = some γ1 ∧ γs ≤ γ1) ∧
    (floatIters n R r < opts.maxIters → ∀ o' e' xb γ k,
      optim omega (A.space n) ltReal o e g0 opts = (o', e', .ok (xb, γ, k)) → γs ≤ γ) ∧
    (∀ o' e' f,
      optim omega (A.space n) ltReal o e g0 opts = (o', e', .error f) →
      ∃ l o1 e1 ev o2, OptimTrace omega (A.space n) ltReal opts.tolerance o e g0 l o1 e1 ∧ ev.x = e1.xc ∧ ev.gamma = (bestOf g0 l).2 ∧
        omega o1 ev.x ev.gamma = (o2, .ok (ev.cut, ev.gamma1)) ∧ γs ≤ (bestOf g0 (l ++ [ev])).2) := by
  have hrR := radius_le (by omega) hR hsub
  have h0 : A.AtPair c R r (1250 * (ε / a ^ 4) + 5 / 2 * (ξ / a)) Λ 0 e := Arith.atPair_init hn hR hr hsub he
  have hlen : ∀ {l o1 e1}, OptimTrace omega (A.space n) ltReal opts.tolerance o e g0 l o1 e1 → (bestOf g0 l).2 < γs →
      A.AtPair c R r (1250 * (ε / a ^ 4) + 5 / 2 * (ξ / a)) Λ l.length e1 ∧ (l.length : ℝ) ≤ floatIters n R r := fun h hlt => h.innerPair hA hu hnu hn hR hr hrR B hc hη hω hX ho h0 hlt
  have hstep : ∀ l o1 e1 ev o2, OptimTrace omega (A.space n) ltReal opts.tolerance o e g0 l o1 e1 →
      ev.x = e1.xc → ev.gamma = (bestOf g0 l).2 → omega o1 ev.x ev.gamma = (o2, .ok (ev.cut, ev.gamma1)) → (bestOf g0 (l ++ [ev])).2 < γs →
      ∃ e2, (A.space n).updateFor e1 ev = (e2, .ok .success) ∧ ltReal ((A.space n).tsq e2) opts.tolerance = false := by
    intro l o1 e1 ev o2 h h1 h2 h3 hlt2
    have hi := h.innerPair_inv hω ho
    obtain ⟨hs, hk⟩ := hlen h ((OptimTrace.innerPair_le hω hi h2 h3).trans_lt hlt2)
    rw [bestOf_snoc_snd g0 l ev h2] at hlt2
    obtain ⟨e2, k1, -, -, k4⟩ := hs.updateFor hA hu hnu hn hR hr B hc hη hω hX hk hi h1 h3 hlt2
    exact ⟨e2, k1, ltReal_false.mpr (show opts.tolerance ≤ e2.tsq by linarith)⟩
  have hreach : ∀ {l o1 e1}, OptimTrace omega (A.space n) ltReal opts.tolerance o e g0 l o1 e1 →
      γs ≤ (bestOf g0 l).2 → ∃ l o1 e1 ev o2, OptimTrace omega (A.space n) ltReal opts.tolerance o e g0 l o1 e1 ∧ ev.x = Ell.xc e1 ∧ ev.gamma = (bestOf g0 l).2 ∧
        omega o1 ev.x ev.gamma = (o2, .ok (ev.cut, ev.gamma1)) ∧ γs ≤ (bestOf g0 (l ++ [ev])).2 := by
    intro l o1 e1 h
    induction h with
    | start => intro hc; exact absurd hc (not_le.mpr hg0)
    | @step l o1 s1 o2 s2 ev t h1 h2 h3 h4 _ ih => exact fun hc => ⟨l, o1, s1, ev, o2, t, h1, h2, h3, hc⟩
  obtain ⟨l, o1, e1, ht, hE⟩ := optim_spec omega (A.space n) ltReal o e g0 opts
  refine ⟨?_, ?_, ?_⟩
  · by_contra hno
    have hall : ∀ k : ℕ, ∃ l o1 e1, OptimTrace omega (A.space n) ltReal opts.tolerance o e g0 l o1 e1 ∧ l.length = k ∧ (bestOf g0 l).2 < γs := by
      intro k
      induction k with
      | zero => exact ⟨[], o, e, .start, rfl, hg0⟩
      | succ k ih =>
        obtain ⟨l, o1, e1, ht, hk, hlt⟩ := ih
        rcases ha : omega o1 e1.xc (bestOf g0 l).2 with ⟨o2, f | ⟨cut, γ1⟩⟩
        · exact (hω.total _ _ _ _ _ (ht.innerPair_inv hω ho) ha).elim
        let ev : OptimEvent (Vec n) (Cut n) G := ⟨e1.xc, (bestOf g0 l).2, cut, γ1⟩
        have hlt2 : (bestOf g0 (l ++ [ev])).2 < γs := by
          by_contra hge
          rw [bestOf_snoc_snd g0 l ev rfl] at hge
          rcases hg : γ1 with _ | g
          · simp only [ev, hg, Option.getD_none] at hge; exact hge hlt
          · refine hno ⟨l, o1, e1, ev, o2, ht, (hlen ht hlt).2, rfl, rfl, ha, g, hg, ?_⟩
            simp only [ev, hg, Option.getD_some] at hge
            exact not_lt.mp hge
        obtain ⟨e2, hu, hts⟩ := hstep l o1 e1 ev o2 ht rfl rfl ha hlt2
        exact ⟨l ++ [ev], o2, e2, ht.step rfl rfl ha hu hts, by simp [hk], hlt2⟩
    obtain ⟨k, hk⟩ := exists_nat_gt (floatIters n R r)
    obtain ⟨l, o1, e1, ht, hl, hlt⟩ := hall k
    have := (hlen ht hlt).2
    rw [hl] at this
    exact absurd this (not_le.mpr hk)
  · intro hmax o' e' xb γ k hres
    rw [hres] at hE
    simp only at hE
    by_contra hge
    cases hE with
    | limit hl =>
      have := (hlen ht (not_le.mp hge)).2
      rw [hl] at this
      exact absurd this (not_le.mpr hmax)
    | @stop _ _ st ev hl h1 h2 h3 h4 h5 =>
      obtain ⟨e2, hu, hts⟩ := hstep l o1 e1 ev _ ht h1 h2 h3 (not_le.mp hge)
      have heq := h4.symm.trans hu
      simp only [Prod.mk.injEq, Except.ok.injEq] at heq
      obtain ⟨rfl, rfl⟩ := heq
      rcases h5 with h5 | h5
      · exact absurd rfl h5
      · exact absurd h5 (by rw [hts]; simp)
  · intro o' e' f hres
    rw [hres] at hE
    simp only at hE
    by_cases hge : γs ≤ (bestOf g0 l).2
    · exact hreach ht hge
    cases hE with
    | oracleRaises hl h1 => exact (hω.total _ _ _ _ _ (ht.innerPair_inv hω ho) h1).elim
    | @updateRaises o2 _ _ ev hl h1 h2 h3 h4 =>
      refine ⟨l, o1, e1, ev, o', ht, h1, h2, h3, ?_⟩
      by_contra hc
      obtain ⟨e2, hu, -⟩ := hstep l o1 e1 ev _ ht h1 h2 h3 (not_le.mp hc)
      have heq := h4.symm.trans hu
      simp at heq

end optim

/-! ### How many bits -/

theorem pairAxes_pow (hn : 2 ≤ n) {R r : ℝ} (hR : 0 < R) (hr : 0 < r) : (R ^ 2) ^ (2 * n - 1) * Real.exp ((floatIters n R r + 1) / (10 * ((n : ℝ) + 1))) = (pairAxes n R r ^ 2) ^ (n - 1) * ((r / 2) ^ 2) ^ n := by
  have hn2 : (2 : ℝ) ≤ n := by exact_mod_cast hn
  have hq : (0 : ℝ) < 2 * R / r := by positivity
  have h1 : ((n - 1 : ℕ) : ℝ) = n - 1 := by push_cast [Nat.cast_sub (show 1 ≤ n by omega)]; ring
  have h2 : (pairAxes n R r ^ 2) ^ (n - 1) = (R ^ 2) ^ (n - 1) * ((2 * R / r) ^ (2 * n) * Real.exp ((floatIters n R r + 1) / (10 * ((n : ℝ) + 1)))) := by
    unfold pairAxes
    rw [mul_pow, mul_pow, ← pow_mul (Real.exp _), ← Real.exp_nat_mul, ← Real.exp_log (pow_pos hq (2 * n)), Real.log_pow, ← Real.exp_add]
    congr 2
    push_cast [h1]
    have : (n : ℝ) - 1 ≠ 0 := by linarith
    field_simp
    ring
  rw [h2, show 2 * n - 1 = (n - 1) + n by omega, pow_add]
  have h3 : (2 * R / r) ^ (2 * n) * ((r / 2) ^ 2) ^ n = (R ^ 2) ^ n := by
    rw [pow_mul, ← mul_pow]
    congr 1
    field_simp
  rw [← h3]
  ring

theorem le_pairAxes (hn : 2 ≤ n) {R r : ℝ} (hr : 0 < r) (hrR : r ≤ R) : R ≤ pairAxes n R r := by
  have hn2 : (2 : ℝ) ≤ n := by exact_mod_cast hn
  have h0 := floatIters_nonneg (n := n) hr hrR
  have h1 : 0 ≤ Real.log (2 * R / r) := Real.log_nonneg (by rw [le_div_iff₀ hr]; linarith)
  unfold pairAxes
  have : 1 ≤ Real.exp ((n * Real.log (2 * R / r) + (floatIters n R r + 1) / (20 * ((n : ℝ) + 1))) / ((n : ℝ) - 1)) :=
    Real.one_le_exp (div_nonneg (by positivity) (by linarith))
  nlinarith

set_option maxHeartbeats 1000000 in
/-- **C113.** With `p` bits, `2^p ≥ 200000 (n+1)⁴ T Q⁷` is sufficient precision, `T` the number of iterations plus 1 and `Q = (Λ + D)/r`, where `Λ = pairAxes n R r`; so `p` of the order `ln(n (R + D)/r)`. -/
theorem C113_bits {p : ℕ} (hn : 2 ≤ n) {R r D : ℝ} (hr : 0 < r) (hrR : r ≤ R) (hD : 0 ≤ D)
    (hp : 200000 * ((n : ℝ) + 1) ^ 4 * (floatIters n R r + 1) * ((pairAxes n R r + D) / r) ^ 7 ≤ 2 ^ p) :
    ∃ ε ξ a, PairBudget n (2⁻¹ ^ p) ((1 + 2⁻¹ ^ p) ^ (n + 1) - 1) R r D (pairAxes n R r) ε ξ a := by
  have hn2 : (2 : ℝ) ≤ n := by exact_mod_cast hn
  have hT0 := floatIters_nonneg (n := n) hr hrR
  have hR : 0 < R := by linarith
  have hΛR := le_pairAxes hn hr hrR
  have hup : (2⁻¹ : ℝ) ^ p * 2 ^ p = 1 := by rw [← mul_pow]; norm_num
  have hu0 : (0 : ℝ) ≤ 2⁻¹ ^ p := by positivity
  have hax := (pairAxes_pow hn hR hr).le
  have hg : ((n : ℝ) + 1) * 2⁻¹ ^ p ≤ 1 → ((1 : ℝ) + 2⁻¹ ^ p) ^ (n + 1) - 1 ≤ 2 * (n + 1) * 2⁻¹ ^ p := Arith.ieee_gamma_le
  generalize pairAxes n R r = Λ at *
  generalize hT : floatIters n R r = T at *
  generalize ((1 : ℝ) + 2⁻¹ ^ p) ^ (n + 1) - 1 = γ at *
  generalize (2⁻¹ : ℝ) ^ p = u at *
  have hΛ : 0 < Λ := by linarith
  obtain ⟨Q, hQ⟩ : ∃ Q, Q = (Λ + D) / r := ⟨_, rfl⟩
  have hQ1 : 1 ≤ Q := by rw [hQ, le_div_iff₀ hr]; linarith
  have hΛQ : Λ ≤ Q * r := by rw [hQ, div_mul_cancel₀ _ hr.ne']; linarith
  have hDQ : D + Λ = Q * r := by rw [hQ, div_mul_cancel₀ _ hr.ne']; ring
  rw [← hQ] at hp
  have hN : 3 ≤ (n : ℝ) + 1 := by linarith
  obtain ⟨N, hNd⟩ : ∃ N, N = (n : ℝ) + 1 := ⟨_, rfl⟩
  rw [← hNd] at hp hg hN
  have hkey : 200000 * N ^ 4 * (T + 1) * Q ^ 7 * u ≤ 1 := by
    have h1 := mul_le_mul_of_nonneg_left hp hu0
    rw [hup] at h1
    linarith
  have hQ4 : ∀ j : ℕ, 1 ≤ Q ^ j := fun j => one_le_pow₀ hQ1
  have hN4 : ∀ j : ℕ, 1 ≤ N ^ j := fun j => one_le_pow₀ (by linarith)
  have hT1 : 1 ≤ T + 1 := by linarith
  have hQ0 : 0 < Q := by linarith
  have hN0 : 0 < N := by linarith
  have hkey1 : 200000 * N ^ 4 * Q ^ 7 * u ≤ 1 := le_trans (by
    have : 0 ≤ 200000 * N ^ 4 * Q ^ 7 * u := by positivity
    nlinarith) hkey
  have hkey2 : 200000 * N ^ 4 * Q ^ 6 * u ≤ 1 := le_trans (by
    have : 0 ≤ 200000 * N ^ 4 * Q ^ 6 * u := by positivity
    nlinarith) hkey1
  have hNu : N * u ≤ 1 := by
    have h1 : N * u ≤ N ^ 4 * Q ^ 7 * u := by
      refine mul_le_mul_of_nonneg_right ?_ hu0
      have h2 : N ≤ N ^ 4 := by have := hN4 3; nlinarith
      have h3 := hQ4 7
      have h4 : 0 < N ^ 4 := by positivity
      nlinarith
    nlinarith
  have hγ := hg hNu
  have hsq : Real.sqrt n ≤ N := by
    rw [Real.sqrt_le_iff]; exact ⟨by linarith, by rw [hNd]; nlinarith⟩
  have hsq0 := Real.sqrt_nonneg (n : ℝ)
  have hLr : 2 * Λ / r ≤ 2 * Q := by rw [div_le_iff₀ hr]; linarith
  have hε : γ * Real.sqrt n * (2 * Λ / r) ^ 2 ≤ 8 * N ^ 2 * u * Q ^ 2 := by
    have h1 : γ * Real.sqrt n ≤ 2 * N * u * N := mul_le_mul hγ hsq hsq0 (by positivity)
    have h2 : (2 * Λ / r) ^ 2 ≤ (2 * Q) ^ 2 := pow_le_pow_left₀ (by positivity) hLr 2
    calc _ ≤ (2 * N * u * N) * (2 * Q) ^ 2 := mul_le_mul h1 h2 (sq_nonneg _) (by positivity)
      _ = _ := by ring
  have hξ : u * (D + Λ) * (2 / r) ≤ 2 * u * Q := by
    rw [hDQ]; apply le_of_eq; field_simp
  have haΛ : 1 / Q * Λ ≤ r := by rw [one_div, inv_mul_le_iff₀ hQ0]; exact hΛQ
  refine ⟨8 * N ^ 2 * u * Q ^ 2, 2 * u * Q, 1 / Q, ⟨by positivity, by rw [div_le_one hQ0]; exact hQ1, hΛ, by rw [hT]; exact hax, hε, ?_, hξ, ?_, haΛ, ?_⟩⟩
  · have h1 : (n : ℝ) * (n + 1) ≤ N ^ 2 := by rw [hNd]; nlinarith
    rw [div_pow, one_pow, le_div_iff₀ (by positivity)]
    calc 25000 * ((n : ℝ) * (n + 1)) * (8 * N ^ 2 * u * Q ^ 2) * Q ^ 4 ≤ 25000 * N ^ 2 * (8 * N ^ 2 * u * Q ^ 2) * Q ^ 4 := by gcongr
      _ = 200000 * N ^ 4 * Q ^ 6 * u := by ring
      _ ≤ 1 := hkey2
  · rw [le_div_iff₀ hQ0]
    have h1 : 1 ≤ N ^ 4 * Q ^ 4 := one_le_mul_of_one_le_of_one_le (hN4 4) (hQ4 4)
    have h2 : 0 ≤ 2000 * (u * Q ^ 2) := by positivity
    calc 1000 * (2 * u * Q) * Q = 1 * (2000 * (u * Q ^ 2)) := by ring
      _ ≤ N ^ 4 * Q ^ 4 * (2000 * (u * Q ^ 2)) := mul_le_mul_of_nonneg_right h1 h2
      _ = 2000 * N ^ 4 * Q ^ 6 * u := by ring
      _ ≤ 200000 * N ^ 4 * Q ^ 6 * u := by gcongr; norm_num
      _ ≤ 1 := hkey2
  · rw [hT]
    have h1 : 1250 * (8 * N ^ 2 * u * Q ^ 2 / (1 / Q) ^ 4) + 5 / 2 * (2 * u * Q / (1 / Q)) = 10000 * N ^ 2 * u * Q ^ 6 + 5 * u * Q ^ 2 := by
      field_simp
      ring
    rw [h1]
    have h2 : 10000 * N ^ 2 * u * Q ^ 6 + 5 * u * Q ^ 2 ≤ 20000 * (N ^ 4 * u * Q ^ 6) := by
      have h3 : N ^ 2 ≤ N ^ 4 := pow_le_pow_right₀ (by linarith) (by norm_num)
      have h4 : u * Q ^ 2 ≤ N ^ 4 * u * Q ^ 6 := by
        have h5 : 1 ≤ N ^ 4 * Q ^ 4 := one_le_mul_of_one_le_of_one_le (hN4 4) (hQ4 4)
        have h6 : 0 ≤ u * Q ^ 2 := by positivity
        calc u * Q ^ 2 = 1 * (u * Q ^ 2) := by ring
          _ ≤ N ^ 4 * Q ^ 4 * (u * Q ^ 2) := mul_le_mul_of_nonneg_right h5 h6
          _ = _ := by ring
      have h7 : N ^ 2 * (u * Q ^ 6) ≤ N ^ 4 * (u * Q ^ 6) := mul_le_mul_of_nonneg_right h3 (by positivity)
      have h8 : 0 ≤ u * Q ^ 2 := by positivity
      nlinarith
    calc (T + 1) * ((10000 * N ^ 2 * u * Q ^ 6 + 5 * u * Q ^ 2) * (2 * Λ)) ≤ (T + 1) * (20000 * (N ^ 4 * u * Q ^ 6) * (2 * (Q * r))) := by gcongr
      _ = 80000 * N ^ 4 * (T + 1) * Q ^ 7 * u * (r / 2) := by ring
      _ ≤ 200000 * N ^ 4 * (T + 1) * Q ^ 7 * u * (r / 2) := by gcongr; norm_num
      _ ≤ 1 * (r / 2) := by gcongr
      _ = _ := one_mul _

theorem Arith.ieee_nu_le (p n : ℕ) : n * (2⁻¹ : ℝ) ^ p ≤ (1 + 2⁻¹ ^ p) ^ (n + 1) - 1 := by
  have h0 : (0 : ℝ) ≤ 2⁻¹ ^ p := by positivity
  have := one_add_mul_le_pow (show (-2 : ℝ) ≤ 2⁻¹ ^ p by linarith) (n + 1)
  push_cast at this
  nlinarith

/-- A correct oracle in exact arithmetic is one for each ball of its set. -/
theorem RegularOracle.innerPair {omega : OracleFeas O (Vec n) (Cut n)} {I : O → Prop} {F : Set (Vec n)} (hω : RegularOracle I F omega)
    (hs : ∀ o x o' cut, I o → omega o x = (o', .ok (some cut)) → (∃ β, cut.2 = .scalar β) ∨ ∃ β0 β1, cut.2 = .seq [some β0, some β1])
    {c : Vec n} {r : ℝ} (X : ℝ) (hball : ball c r ⊆ F) : InnerPairOracle I F c r 1 X omega where
  inv := hω.inv
  total := hω.total
  accept o x o' ho _ h := hω.accept o x o' ho h
  cut o x o' cut ho _ h := by
    obtain ⟨g, b⟩ := cut
    obtain ⟨h1, h2⟩ := hω.shape _ _ _ _ ho h
    have hg : g ≠ 0 := by rintro rfl; simp at h2; linarith
    have hk : ∀ y ∈ ball c r, y ∈ keptSet (g, b) x := fun y hy => (hω.cut _ _ _ _ ho h).2 (hball hy)
    rcases hs _ _ _ _ ho h with ⟨β, rfl⟩ | ⟨β0, β1, rfl⟩
    · exact ⟨β, .inl rfl, h1, hk, hg, h2⟩
    · exact ⟨β0, .inr ⟨β1, rfl, fun y hy => (hk y hy).2⟩, h1, fun y hy => (hk y hy).1, hg, h2⟩

/-- **C113.** `cutting_plane_feas` on machine numbers with `p` bits: with `2^p ≥ 200000 (n+1)⁴ T Q⁷` it returns an accepted point within `(20/9) n (n+1) ln(2R/r)` iterations, for every oracle whose cuts (single or in pairs) keep a ball of radius `r`. -/
theorem C113_feas_ieee {p : ℕ} {R r D η X : ℝ} (hn : 2 ≤ n) (hR : 0 < R) (hr : 0 < r) {c : Vec n} (hc : nrm c ≤ D)
    (hp : 200000 * ((n : ℝ) + 1) ^ 4 * (floatIters n R r + 1) * ((pairAxes n R r + D) / r) ^ 7 ≤ 2 ^ p)
    {omega : OracleFeas O (Vec n) (Cut n)} {I : O → Prop} {F : Set (Vec n)} (hη : 0 ≤ η) (hω : InnerPairOracle I F c r η X omega) (hX : D + pairAxes n R r ≤ X) {o : O} (ho : I o) {x0 : Vec n} (hsub : ball c r ⊆ ball x0 R) {e : Ell n}
    (he : (Arith.ieee p).ellInit (.scalar (R ^ 2)) x0 = .ok e) (opts : Options ℝ) (htol : 8 * opts.tolerance ≤ r ^ 2 * η) (hmax : floatIters n R r < opts.maxIters) :
    ∃ o' e' x k, feas omega ((Arith.ieee p).space n) ltReal o e opts = (o', e', .ok (some x, k)) ∧ x ∈ F ∧ (k : ℝ) ≤ floatIters n R r := by
  obtain ⟨ε, ξ, a, B⟩ := C113_bits hn hr (radius_le (by omega) hR hsub) ((nrm_nonneg c).trans hc) hp
  exact C113_feas (Arith.ieee_accurate p n) (by positivity) (Arith.ieee_nu_le p n) hn hR hr B hc hη hω hX ho hsub he opts htol hmax

/-- **C113.** `cutting_plane_optim` on machine numbers with `p` bits. -/
theorem C113_optim_ieee [LinearOrder G] {p : ℕ} {R r D η X : ℝ} (hn : 2 ≤ n) (hR : 0 < R) (hr : 0 < r) {c : Vec n} (hc : nrm c ≤ D)
    (hp : 200000 * ((n : ℝ) + 1) ^ 4 * (floatIters n R r + 1) * ((pairAxes n R r + D) / r) ^ 7 ≤ 2 ^ p)
    {omega : OracleOptim O (Vec n) (Cut n) G} {I : O → Prop} {γs : G} (hη : 0 ≤ η) (hω : InnerPairLevelOracle I γs c r η X omega) (hX : D + pairAxes n R r ≤ X) {o : O} (ho : I o) {x0 : Vec n} (hsub : ball c r ⊆ ball x0 R) {e : Ell n}
    (he : (Arith.ieee p).ellInit (.scalar (R ^ 2)) x0 = .ok e) {g0 : G} (hg0 : g0 < γs) (opts : Options ℝ) (htol : 8 * opts.tolerance ≤ r ^ 2 * η) (hmax : floatIters n R r < opts.maxIters)
    {o' : O} {e' : Ell n} {xb : Option (Vec n)} {γ : G} {k : ℕ} (h : optim omega ((Arith.ieee p).space n) ltReal o e g0 opts = (o', e', .ok (xb, γ, k))) : γs ≤ γ := by
  obtain ⟨ε, ξ, a, B⟩ := C113_bits hn hr (radius_le (by omega) hR hsub) ((nrm_nonneg c).trans hc) hp
  exact (C113_optim (Arith.ieee_accurate p n) (by positivity) (Arith.ieee_nu_le p n) hn hR hr B hc hη hω hX ho hsub he hg0 opts htol).2.1 hmax _ _ _ _ _ h

/-! ### The hypotheses can be met -/

open Classical in
/-- An oracle for the box with half-width `r` around `c`: outside, the pair of parallel cuts of a coordinate that is out of bounds. -/
noncomputable def boxOracle (c : Vec n) (r : ℝ) : OracleFeas Unit (Vec n) (Cut n) := fun _ x =>
  ((), .ok (if h : ∃ i, r < |x i - c i| then
    let i := h.choose
    let s : ℝ := if c i ≤ x i then 1 else -1
    some (Pi.single i s, .seq [some (s * (x i - c i) - r), some (s * (x i - c i) + r)])
  else none))

theorem abs_coord_le {c y : Vec n} {r : ℝ} (hr : 0 ≤ r) (hy : y ∈ ball c r) (i : Fin n) : |y i - c i| ≤ r := by
  refine abs_le_of_sq_le_sq (le_trans ?_ hy) hr
  rw [sq]
  exact Finset.single_le_sum (f := fun j => (y - c) j * (y - c) j) (fun j _ => mul_self_nonneg _) (Finset.mem_univ i)

theorem boxOracle_inner {c : Vec n} {r : ℝ} (hr : 0 < r) (X : ℝ) : InnerPairOracle (fun _ => True) {x | ∀ i, |x i - c i| ≤ r} c r 1 X (boxOracle c r) where
  inv _ _ _ := trivial
  total o x o' f _ h := by simp [boxOracle] at h
  accept o x o' _ _ h := by
    unfold boxOracle at h
    split_ifs at h with hx
    · simp at h
    · simpa using hx
  cut o x o' cut _ _ h := by
    unfold boxOracle at h
    split_ifs at h with hx
    · have hi := hx.choose_spec
      simp only [Prod.mk.injEq, Except.ok.injEq, Option.some.injEq, true_and] at h
      subst h
      generalize hx.choose = i at *
      have hs : ∃ s : ℝ, s = (if c i ≤ x i then 1 else -1) ∧ s * (x i - c i) = |x i - c i| ∧ s ^ 2 = 1 := by
        refine ⟨_, rfl, ?_⟩
        split_ifs with h1
        · rw [abs_of_nonneg (by linarith)]; norm_num
        · rw [abs_of_neg (by linarith)]; norm_num
      obtain ⟨s, hs, h1, h2⟩ := hs
      simp only [← hs]
      have h3 : ∀ y ∈ ball c r, |s * (y i - c i)| ≤ r := fun y hy => by
        rw [abs_mul, show |s| = 1 by rw [← sq_eq_sq₀ (abs_nonneg s) zero_le_one, sq_abs, h2, one_pow], one_mul]
        exact abs_coord_le hr.le hy i
      refine ⟨s * (x i - c i) - r, .inr ⟨_, rfl, fun y hy => ?_⟩, by rw [h1]; linarith, fun y hy => ?_, ?_, ?_⟩
      · rw [single_dotProduct, Pi.sub_apply]
        linarith [(abs_le.mp (h3 y hy)).1]
      · rw [single_dotProduct, Pi.sub_apply]
        linarith [(abs_le.mp (h3 y hy)).2]
      · intro h0
        have := congrFun h0 i
        rw [Pi.single_eq_same] at this
        rw [show s = 0 from this] at h2
        norm_num at h2
      · rw [single_dotProduct, Pi.single_eq_same]
        linarith [sq s]
    · simp at h

/-- Doubles are sufficient in the plane for `R = 1`, `r = 4/5`. -/
theorem double_pair_bits : floatIters 2 1 (4 / 5) < (2000 : ℕ) ∧ 200000 * (((2 : ℕ) : ℝ) + 1) ^ 4 * (floatIters 2 1 (4 / 5) + 1) * ((pairAxes 2 1 (4 / 5) + 1 / 5) / (4 / 5)) ^ 7 ≤ 2 ^ 53 := by
  have hl : Real.log (2 * 1 / (4 / 5)) ≤ 925 / 1000 := by
    have h1 : Real.log ((5 / 2) ^ 3) ≤ Real.log (2 ^ 4) := Real.log_le_log (by norm_num) (by norm_num)
    rw [Real.log_pow, Real.log_pow] at h1
    have h2 := Real.log_two_lt_d9
    rw [show (2 : ℝ) * 1 / (4 / 5) = 5 / 2 by norm_num]
    push_cast at h1
    linarith
  have hT : floatIters 2 1 (4 / 5) ≤ 124 / 10 := by
    unfold floatIters
    push_cast
    linarith
  have hT0 : 0 ≤ floatIters 2 1 (4 / 5) := floatIters_nonneg (by norm_num) (by norm_num)
  have hA : pairAxes 2 1 (4 / 5) ≤ 81 / 10 := by
    unfold pairAxes
    have h1 : Real.exp ((((2 : ℕ) : ℝ) * Real.log (2 * 1 / (4 / 5)) + (floatIters 2 1 (4 / 5) + 1) / (20 * (((2 : ℕ) : ℝ) + 1))) / (((2 : ℕ) : ℝ) - 1)) ≤ Real.exp (2 + 8 / 100) := by
      refine Real.exp_le_exp.mpr ?_
      push_cast
      linarith
    have h2 : Real.exp (2 + 8 / 100) = Real.exp 1 ^ 2 * Real.exp (8 / 100) := by rw [← Real.exp_nat_mul, ← Real.exp_add]; norm_num
    have h3 : Real.exp 1 ^ 2 ≤ 2.7182818286 ^ 2 := pow_le_pow_left₀ (Real.exp_pos _).le Real.exp_one_lt_d9.le 2
    have h4 : Real.exp (8 / 100) ≤ 100 / 92 := by
      have h5 := Real.add_one_le_exp (-(8 / 100) : ℝ)
      rw [Real.exp_neg] at h5
      have h6 := Real.exp_pos (8 / 100 : ℝ)
      rw [le_inv_comm₀ (by norm_num) h6] at h5
      refine h5.trans (by norm_num)
    have h5 : Real.exp 1 ^ 2 * Real.exp (8 / 100) ≤ 2.7182818286 ^ 2 * (100 / 92) := mul_le_mul h3 h4 (Real.exp_pos _).le (by norm_num)
    have h6 : (2.7182818286 : ℝ) ^ 2 * (100 / 92) ≤ 81 / 10 := by norm_num
    linarith
  have hA0 : 0 ≤ pairAxes 2 1 (4 / 5) := by unfold pairAxes; positivity
  refine ⟨by push_cast; linarith, ?_⟩
  have h1 : ((pairAxes 2 1 (4 / 5) + 1 / 5) / (4 / 5)) ^ 7 ≤ (83 / 10 / (4 / 5)) ^ 7 := by
    gcongr; linarith
  calc _ ≤ 200000 * (((2 : ℕ) : ℝ) + 1) ^ 4 * (124 / 10 + 1) * (83 / 10 / (4 / 5)) ^ 7 := by gcongr
    _ ≤ _ := by norm_num

/-- The hypotheses of `C113_feas_ieee` in doubles, and the budget of `C113_feas` and `C113_optim`: the plane, start with the unit disc, an oracle for a square around a disc of radius 4/5 inside of it. -/
example : (∃ e : Ell 2, (Arith.ieee 53).ellInit (.scalar (1 ^ 2)) ![0, 0] = .ok e) ∧
    InnerPairOracle (fun _ => True) {x | ∀ i, |x i - (![1 / 5, 0] : Vec 2) i| ≤ 4 / 5} (![1 / 5, 0] : Vec 2) (4 / 5) 1 (1 / 5 + pairAxes 2 1 (4 / 5)) (boxOracle ![1 / 5, 0] (4 / 5)) ∧
    ball (![1 / 5, 0] : Vec 2) (4 / 5) ⊆ ball ![0, 0] 1 ∧ nrm (![1 / 5, 0] : Vec 2) ≤ 1 / 5 ∧ floatIters 2 1 (4 / 5) < (2000 : ℕ) ∧ 8 * (1 / 10 ^ 20) ≤ ((4 : ℝ) / 5) ^ 2 * 1 ∧
    200000 * (((2 : ℕ) : ℝ) + 1) ^ 4 * (floatIters 2 1 (4 / 5) + 1) * ((pairAxes 2 1 (4 / 5) + 1 / 5) / (4 / 5)) ^ 7 ≤ 2 ^ 53 ∧
    ∃ ε ξ a, PairBudget 2 (2⁻¹ ^ 53) ((1 + 2⁻¹ ^ 53) ^ (2 + 1) - 1) 1 (4 / 5) (1 / 5) (pairAxes 2 1 (4 / 5)) ε ξ a := by
  refine ⟨double_init, boxOracle_inner (by norm_num) _, fun x hx => ?_, ?_, double_pair_bits.1, by norm_num, double_pair_bits.2, C113_bits le_rfl (by norm_num) (by norm_num) (by norm_num) double_pair_bits.2⟩
  · simp [ball, dotProduct, Fin.sum_univ_two] at hx ⊢
    nlinarith [sq_nonneg (x 1), sq_nonneg (x 0 - 1)]
  · unfold nrm
    rw [Real.sqrt_le_iff]
    simp [dotProduct, Fin.sum_univ_two]
    norm_num

/-- The oracle gives pairs indeed: at the point (3/2, 0), right of the square, the offsets are 1/2 and 21/10. -/
example : ∃ s : ℝ, ∃ cut : Cut 2, boxOracle ![1 / 5, 0] (4 / 5) () ![3 / 2, 0] = ((), .ok (some cut)) ∧ cut.2 = .seq [some s, some (s + 8 / 5)] ∧ s = 1 / 2 := by
  have h : ∃ i, (4 / 5 : ℝ) < |(![3 / 2, 0] : Vec 2) i - (![1 / 5, 0] : Vec 2) i| := ⟨0, by norm_num [abs_of_pos]⟩
  have hi : h.choose = 0 := by
    have h1 := h.choose_spec
    generalize h.choose = i at *
    fin_cases i
    · rfl
    · norm_num at h1
  refine ⟨1 / 2, (Pi.single 0 1, .seq [some (1 / 2), some (1 / 2 + 8 / 5)]), ?_, rfl, rfl⟩
  unfold boxOracle
  rw [dif_pos h]
  simp only [hi]
  norm_num

/-- The square of the distance to `c` within the box: pairs outside of the box, the distance inside. -/
noncomputable def boxDistOracle (c : Vec (n + 1)) (r : ℝ) : OracleOptim Unit (Vec (n + 1)) (Cut (n + 1)) ℝ := fun o x γ =>
  match (boxOracle c r o x).2 with
  | .ok (some cut) => ((), .ok (cut, none))
  | _ => distOracle c o x γ

/-- The oracle of `C113_optim_ieee`, in the situation of the last example but one: target at most 16/25 for the square of the distance. -/
example : InnerPairLevelOracle (fun _ => True) (-(16 / 25) : ℝ) (![1 / 5, 0] : Vec 2) (4 / 5) 1 (1 / 5 + pairAxes 2 1 (4 / 5)) (boxDistOracle ![1 / 5, 0] (4 / 5)) ∧ (-10 : ℝ) < -(16 / 25) := by
  have hD : InnerLevelOracle (fun _ => True) (-(16 / 25) : ℝ) (![1 / 5, 0] : Vec 2) (4 / 5) 1 (1 / 5 + pairAxes 2 1 (4 / 5)) (distOracle ![1 / 5, 0]) := by
    refine RegularLevelOracle.inner (L := fun γ => {y | γ ≤ -((y - ![1 / 5, 0]) ⬝ᵥ (y - ![1 / 5, 0]))}) (fun a b h y hy => le_trans h hy) (distOracle_regular (n := 1) _) ?_ _ (fun y hy => ?_)
    · intro o x γ o' cut γ1 _ h
      unfold distOracle at h
      split_ifs at h <;> simp only [Prod.mk.injEq, Except.ok.injEq] at h <;> exact ⟨0, by rw [← h.2.1]⟩
    · have h1 : (y - ![1 / 5, 0]) ⬝ᵥ (y - ![1 / 5, 0]) ≤ (4 / 5) ^ 2 := hy
      show -(16 / 25) ≤ -((y - ![1 / 5, 0]) ⬝ᵥ (y - ![1 / 5, 0]))
      linarith
  have hB := boxOracle_inner (c := (![1 / 5, 0] : Vec 2)) (r := 4 / 5) (by norm_num) (1 / 5 + pairAxes 2 1 (4 / 5))
  refine ⟨⟨fun _ _ _ _ => trivial, fun o x γ o' f _ h => ?_, fun o x γ o' cut _ hx hγ h => ?_, fun o x γ o' cut γ1 _ h => ?_, fun o x γ o' cut γ1 _ hx hγ h => ?_⟩, by norm_num⟩ <;>
    unfold boxDistOracle at h <;> split at h
  · simp at h
  · exact hD.total _ _ _ _ _ trivial h
  · next c1 h1 =>
    simp only [Prod.mk.injEq, Except.ok.injEq, true_and, and_true] at h
    subst h
    exact hB.cut _ _ _ _ trivial hx (Prod.ext rfl h1)
  · obtain ⟨β, h1, h2⟩ := hD.cut _ _ _ _ _ trivial hx hγ h
    exact ⟨β, .inl h1, h2⟩
  · simp at h
  · exact hD.mono _ _ _ _ _ _ trivial h
  · simp at h
  · obtain ⟨β, h1, h2⟩ := hD.value _ _ _ _ _ _ trivial hx hγ h
    exact ⟨β, .inl h1, h2⟩

end Ellalgo
